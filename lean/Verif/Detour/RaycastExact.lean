/-
`NavMeshQuery.Raycast` (detour/query.go:1435-1666) on convex polygons in exact arithmetic: where the ray goes, and that it comes to an end.

Simplification: `float32` is replaced by an arbitrary linearly ordered field, see `Geometry.lean`.
-/
import Verif.Detour.Raycast
import Verif.Detour.Geometry
import Mathlib.Data.List.Nodup
import Mathlib.Data.List.Perm.Subperm

set_option linter.unusedVariables false
set_option linter.unusedSimpArgs false
set_option linter.unusedSectionVars false

namespace Verif.Detour

variable {K : Type} [Field K] [LinearOrder K] [IsStrictOrderedRing K]

/-! ## Model -/

/-- The point of the ray at `t`. -/
def rayAt (p0 p1 : V3 K) (t : K) : V3 K := ⟨p0.x + t * (p1.x - p0.x), 0, p0.z + t * (p1.z - p0.z)⟩

/-- Is `v` in the part of an edge from `l` to `r` between `bmin / 255` and `bmax / 255` (detour/query.go:1579-1591, 1594-1606)? -/
def rayCovers (l r v : K) (bmin bmax : Nat) : Bool :=
  let lmin := l + (r - l) * ((bmin : K) * (1 / 255))
  let lmax := l + (r - l) * ((bmax : K) * (1 / 255))
  let (lmin, lmax) := if lmax < lmin then (lmax, lmin) else (lmin, lmax)
  decide (lmin ≤ v) && decide (v ≤ lmax)

/-- Is the point of the ray at `t` inside the portal of link `l` of polygon `vs` (detour/query.go:1571-1608)? -/
def rayPortal (p0 p1 : V3 K) (vs : List (V3 K)) (l : RayLink) (t : K) : Bool :=
  match vs[l.edge]?, vs[(l.edge + 1) % vs.length]? with
  | some a, some b =>
    if l.side = 0#8 ∨ l.side = 4#8 then rayCovers a.z b.z (p0.z + (p1.z - p0.z) * t) l.bmin.toNat l.bmax.toNat
    else if l.side = 2#8 ∨ l.side = 6#8 then rayCovers a.x b.x (p0.x + (p1.x - p0.x) * t) l.bmin.toNat l.bmax.toNat
    else false
  | _, _ => false

/-- The geometry of the ray from `p0` to `p1` over polygons `verts`; `eps` is the 1e-8 of `IntersectSegmentPoly2D`, `maxT` is
`MaxFloat32`. -/
def exactRay (eps maxT : K) (p0 p1 : V3 K) (verts : Ref → List (V3 K)) : RayGeom K where
  clip := fun r => let c := segPoly eps p0 p1 (verts r); if c.2 = true then some (c.1.tmax, c.1.segMax) else none
  portal := fun r l t => rayPortal p0 p1 (verts r) l t
  gt := fun a b => decide (b < a)
  maxT := maxT

/-! ## Specification -/

/-- Spec: the point (its x and z) is in the polygon: on the inner side of all edges. -/
def InPoly (vs : List (V3 K)) (p : V3 K) : Prop := ∀ j a b, PolyEdge vs j a b → 0 ≤ triArea a b p

/-- Spec: a convex polygon, of three corners at least, each of them turning. -/
structure Corners (vs : List (V3 K)) : Prop where
  inside : ∀ v ∈ vs, InPoly vs v
  turns : ∀ j a b c, vs[j]? = some a → vs[(j + 1) % vs.length]? = some b → vs[(j + 2) % vs.length]? = some c → 0 < triArea a b c
  three : 3 ≤ vs.length

/-- The point at `s` on the edge from `a` to `b`. -/
def edgeAt (a b : V3 K) (s : K) : V3 K := ⟨a.x + s * (b.x - a.x), 0, a.z + s * (b.z - a.z)⟩

/-- Spec: where the part of its edge that a link covers begins and ends. -/
def linkFrom (K : Type) [Field K] (l : RayLink) : K := if l.side = 0xff#8 then 0 else (l.bmin.toNat : K) * (1 / 255)
def linkTo (K : Type) [Field K] (l : RayLink) : K := if l.side = 0xff#8 then 1 else (l.bmax.toNat : K) * (1 / 255)

/-- Spec: what a link says is so: the part of edge `(a, b)` that it covers belongs to the polygon `vs` it leads to as well, and that
polygon lies beyond the edge. The edges at a side of the tile run along that side. -/
structure Seam (l : RayLink) (a b : V3 K) (vs : List (V3 K)) : Prop where
  opens : linkFrom K l < linkTo K l
  first : InPoly vs (edgeAt a b (linkFrom K l))
  last : InPoly vs (edgeAt a b (linkTo K l))
  beyond : ∀ p, InPoly vs p → 0 ≤ triArea b a p
  alongZ : l.side = 0#8 ∨ l.side = 4#8 → a.z ≠ b.z
  alongX : l.side = 2#8 ∨ l.side = 6#8 → a.x ≠ b.x

/-- Spec: the polygons that a ray can go over. -/
def Ground (m : RayMesh) (c : Ref) : Prop := m.valid c = true ∧ m.offMesh c = false

/-- Spec: a mesh of convex polygons joined at their edges; no edge is nearly parallel to the ray without being parallel. -/
structure RayFits (eps : K) (p0 p1 : V3 K) (m : RayMesh) (verts : Ref → List (V3 K)) : Prop where
  corners : ∀ c, Ground m c → Corners (verts c)
  valid : ∀ c, Ground m c → ∀ l ∈ m.links c, m.valid l.ref = true
  seam : ∀ c, Ground m c → ∀ l ∈ m.links c, m.offMesh l.ref = false → ∀ a b, PolyEdge (verts c) l.edge a b → Seam l a b (verts l.ref)
  parallel : ∀ c, Ground m c → ∀ j a b, PolyEdge (verts c) j a b → |(p1.sub p0).perp (b.sub a)| < eps → (p1.sub p0).perp (b.sub a) = 0

/-! ## Clipping -/

theorem clipEdge_segMax (eps : K) (p0 dir : V3 K) (st s : Clip K) (j : Nat) (vj vi : V3 K)
    (h : clipEdge eps p0 dir st j vj vi = .inr s) :
    s.segMax = st.segMax ∨ (s.segMax = some j ∧ 0 ≤ dir.perp (vi.sub vj) ∧ ¬ |dir.perp (vi.sub vj)| < eps) := by
  unfold clipEdge at h
  simp only at h
  split at h
  · split at h
    · cases h
    · cases h; exact Or.inl rfl
  · rename_i hd
    split at h
    · split at h
      · split at h
        · cases h
        · cases h; exact Or.inl rfl
      · cases h; exact Or.inl rfl
    · rename_i hneg
      split at h
      · split at h
        · cases h
        · cases h; exact Or.inr ⟨rfl, not_lt.1 hneg, hd⟩
      · cases h; exact Or.inl rfl

theorem clipLoop_segMax (eps : K) (p0 dir : V3 K) : ∀ (es : List (Nat × V3 K × V3 K)) (st : Clip K),
    (clipLoop eps p0 dir st es).2 = true → (clipLoop eps p0 dir st es).1.segMax = st.segMax ∨
      ∃ e ∈ es, (clipLoop eps p0 dir st es).1.segMax = some e.1 ∧ 0 ≤ dir.perp (e.2.2.sub e.2.1) ∧ ¬ |dir.perp (e.2.2.sub e.2.1)| < eps := by
  intro es
  induction es with
  | nil => intro st _; exact Or.inl rfl
  | cons e es ih =>
    obtain ⟨j, vj, vi⟩ := e
    intro st h
    rw [clipLoop] at h ⊢
    cases hc : clipEdge eps p0 dir st j vj vi with
    | inl s => rw [hc] at h; cases h
    | inr s =>
      rw [hc] at h
      simp only at h ⊢
      rcases ih s h with i | ⟨e, he, i⟩
      · rcases clipEdge_segMax eps p0 dir st s j vj vi hc with k | k
        · exact Or.inl (i.trans k)
        · exact Or.inr ⟨_, List.mem_cons_self, i.trans k.1, k.2⟩
      · exact Or.inr ⟨e, List.mem_cons_of_mem _ he, i⟩

theorem PolyEdge.unique {vs : List (V3 K)} {j : Nat} {a b a' b' : V3 K} (h : PolyEdge vs j a b) (h' : PolyEdge vs j a' b') :
    a = a' ∧ b = b' :=
  ⟨Option.some.inj (h.1.symm.trans h'.1), Option.some.inj (h.2.symm.trans h'.2)⟩

theorem edgeVal_ray (p0 p1 a b : V3 K) (t : K) : edgeVal p0 p1 a b t = triArea a b (rayAt p0 p1 t) := rfl

/-- What the clipping says: how far the ray is in the polygon. -/
theorem exactRay_clip (eps maxT : K) (he : 0 < eps) (p0 p1 : V3 K) (verts : Ref → List (V3 K)) (c : Ref)
    (hpar : ∀ j a b, PolyEdge (verts c) j a b → |(p1.sub p0).perp (b.sub a)| < eps → (p1.sub p0).perp (b.sub a) = 0)
    (t0 : K) (h0 : 0 ≤ t0) (h1 : t0 ≤ 1) (hin : InPoly (verts c) (rayAt p0 p1 t0)) :
    ∃ t seg, (exactRay eps maxT p0 p1 verts).clip c = some (t, seg) ∧ t0 ≤ t ∧ t ≤ 1 ∧
      (∀ s, t0 ≤ s → s ≤ t → InPoly (verts c) (rayAt p0 p1 s)) ∧ (∀ s, t < s → s ≤ 1 → ¬ InPoly (verts c) (rayAt p0 p1 s)) ∧
      ((seg = none ∧ t = 1) ∨ ∃ e a b, seg = some e ∧ PolyEdge (verts c) e a b ∧ t < 1 ∧ triArea a b (rayAt p0 p1 t) = 0 ∧
        0 < (p1.sub p0).perp (b.sub a)) := by
  obtain ⟨e1, e2⟩ := segPoly_exact eps he p0 p1 (verts c) hpar
  have hr : (segPoly eps p0 p1 (verts c)).2 = true := e1.2 ⟨t0, h0, h1, hin⟩
  obtain ⟨e3, _, e5⟩ := e2 hr
  have ht := (e3 t0).2 ⟨h0, h1, hin⟩
  refine ⟨(segPoly eps p0 p1 (verts c)).1.tmax, (segPoly eps p0 p1 (verts c)).1.segMax, ?_, ht.2, ?_, ?_, ?_, ?_⟩
  · simp only [exactRay]; rw [if_pos hr]
  · exact ((e3 _).1 ⟨ht.1.trans ht.2, le_rfl⟩).2.1
  · intro s hs hs'
    exact ((e3 s).1 ⟨ht.1.trans hs, hs'⟩).2.2
  · intro s hs hs' hi
    exact absurd ((e3 s).2 ⟨h0.trans (ht.2.trans hs.le), hs', hi⟩).2 (not_le.2 hs)
  · rcases e5 with ⟨a, b⟩ | ⟨j, vj, vi, hp, hs, hlt, hv⟩
    · exact Or.inl ⟨a, b⟩
    · refine Or.inr ⟨j, vj, vi, hs, hp, hlt, hv, ?_⟩
      rcases clipLoop_segMax eps p0 (p1.sub p0) (polyEdges (verts c)) ⟨0, 1, none, none⟩ hr with k | ⟨⟨j', x, y⟩, hm, k1, k2, k3⟩
      · rw [show (clipLoop eps p0 (p1.sub p0) ⟨0, 1, none, none⟩ (polyEdges (verts c))).1.segMax = some j from hs] at k
        cases k
      · rw [show (clipLoop eps p0 (p1.sub p0) ⟨0, 1, none, none⟩ (polyEdges (verts c))).1.segMax = some j from hs] at k1
        cases k1
        obtain ⟨rfl, rfl⟩ := hp.unique ((mem_polyEdges _ _ _ _).1 hm)
        refine lt_of_le_of_ne k2 fun h => k3 ?_
        rw [← h]; simpa using he

/-! ## Points on edges -/

theorem triArea_edgeAt (a b c d : V3 K) (s : K) : triArea c d (edgeAt a b s) = (1 - s) * triArea c d a + s * triArea c d b := by
  simp only [triArea, edgeAt]; ring

theorem InPoly.between {vs : List (V3 K)} {a b : V3 K} {s0 s1 s : K} (h0 : InPoly vs (edgeAt a b s0)) (h1 : InPoly vs (edgeAt a b s1))
    (hs0 : s0 ≤ s) (hs1 : s ≤ s1) : InPoly vs (edgeAt a b s) := by
  intro j c d hp
  have e0 := h0 j c d hp
  have e1 := h1 j c d hp
  rw [triArea_edgeAt] at e0 e1 ⊢
  rcases hs0.eq_or_lt with rfl | h
  · exact e0
  · have hpos : 0 < s1 - s0 := by linarith
    have : (s1 - s0) * ((1 - s) * triArea c d a + s * triArea c d b) =
        (s1 - s) * ((1 - s0) * triArea c d a + s0 * triArea c d b) + (s - s0) * ((1 - s1) * triArea c d a + s1 * triArea c d b) := by ring
    have h2 : 0 ≤ (s1 - s0) * ((1 - s) * triArea c d a + s * triArea c d b) := by
      rw [this]
      exact add_nonneg (mul_nonneg (by linarith) e0) (mul_nonneg (by linarith) e1)
    exact nonneg_of_mul_nonneg_right h2 hpos

theorem PolyEdge.mem {vs : List (V3 K)} {j : Nat} {a b : V3 K} (h : PolyEdge vs j a b) : a ∈ vs ∧ b ∈ vs :=
  ⟨List.mem_of_getElem? h.1, List.mem_of_getElem? h.2⟩

theorem InPoly.congr {vs : List (V3 K)} {p q : V3 K} (hx : p.x = q.x) (hz : p.z = q.z) (h : InPoly vs p) : InPoly vs q := by
  intro j a b hp
  have := h j a b hp
  simp only [triArea] at this ⊢
  rwa [← hx, ← hz]

theorem Corners.edge {vs : List (V3 K)} (hc : Corners vs) {j : Nat} {a b : V3 K} (hp : PolyEdge vs j a b) {s : K} (h0 : 0 ≤ s) (h1 : s ≤ 1) :
    InPoly vs (edgeAt a b s) :=
  InPoly.between (s0 := 0) (s1 := 1) ((hc.inside a hp.mem.1).congr (by simp [edgeAt]) (by simp [edgeAt]))
    ((hc.inside b hp.mem.2).congr (by simp [edgeAt]) (by simp [edgeAt])) h0 h1

/-- A point on the line of an edge that is not along the ray is a point of that line. -/
theorem exists_edgeAt {dir a b p : V3 K} (hw : 0 < dir.perp (b.sub a)) (h : triArea a b p = 0) :
    ∃ s, p.x = (edgeAt a b s).x ∧ p.z = (edgeAt a b s).z := by
  refine ⟨dir.perp (p.sub a) / dir.perp (b.sub a), ?_, ?_⟩
  · simp only [edgeAt]
    rw [div_mul_eq_mul_div, ← sub_eq_iff_eq_add', eq_div_iff hw.ne']
    simp only [V3.perp, V3.sub, triArea] at h ⊢
    linear_combination -dir.x * h
  · simp only [edgeAt]
    rw [div_mul_eq_mul_div, ← sub_eq_iff_eq_add', eq_div_iff hw.ne']
    simp only [V3.perp, V3.sub, triArea] at h ⊢
    linear_combination -dir.z * h

/-- A point of a convex polygon on the line of an edge is between its ends. -/
theorem Corners.onEdge {vs : List (V3 K)} (hc : Corners vs) {j : Nat} {a b : V3 K} (hp : PolyEdge vs j a b) {s : K}
    (hin : InPoly vs (edgeAt a b s)) : 0 ≤ s ∧ s ≤ 1 := by
  have hj : j < vs.length := (List.getElem?_eq_some_iff.1 hp.1).1
  have h3 := hc.three
  constructor
  · -- the edge before
    have hk : (j + vs.length - 1) % vs.length < vs.length := Nat.mod_lt _ (by omega)
    have e1 : ((j + vs.length - 1) % vs.length + 1) % vs.length = j := by
      rw [Nat.mod_add_mod, show j + vs.length - 1 + 1 = j + vs.length by omega, Nat.add_mod_right, Nat.mod_eq_of_lt hj]
    have e2 : ((j + vs.length - 1) % vs.length + 2) % vs.length = (j + 1) % vs.length := by
      rw [Nat.mod_add_mod, show j + vs.length - 1 + 2 = j + 1 + vs.length by omega, Nat.add_mod_right]
    obtain ⟨v, hv⟩ : ∃ v, vs[(j + vs.length - 1) % vs.length]? = some v := ⟨_, List.getElem?_eq_getElem hk⟩
    have ht := hc.turns _ v a b hv (by rw [e1]; exact hp.1) (by rw [e2]; exact hp.2)
    have hi := hin _ v a ⟨hv, by rw [e1]; exact hp.1⟩
    have : triArea v a (edgeAt a b s) = s * triArea v a b := by simp only [triArea, edgeAt]; ring
    rw [this] at hi
    exact nonneg_of_mul_nonneg_left hi ht
  · -- the edge after
    have hk : (j + 2) % vs.length < vs.length := Nat.mod_lt _ (by omega)
    obtain ⟨v, hv⟩ : ∃ v, vs[(j + 2) % vs.length]? = some v := ⟨_, List.getElem?_eq_getElem hk⟩
    have ht := hc.turns j a b v hp.1 hp.2 hv
    have hi := hin ((j + 1) % vs.length) b v ⟨hp.2, by rw [Nat.mod_add_mod]; exact hv⟩
    have : triArea b v (edgeAt a b s) = (1 - s) * triArea a b v := by simp only [triArea, edgeAt]; ring
    rw [this] at hi
    have := nonneg_of_mul_nonneg_left hi ht
    linarith

theorem rayCovers_between {l r v : K} {bmin bmax : Nat} (h : rayCovers l r v bmin bmax = true) {s : K} (hv : v = l + s * (r - l)) (hne : l ≠ r)
    (hb : (bmin : K) * (1 / 255) < (bmax : K) * (1 / 255)) : (bmin : K) * (1 / 255) ≤ s ∧ s ≤ (bmax : K) * (1 / 255) := by
  unfold rayCovers at h
  generalize (bmin : K) * (1 / 255) = x at *
  generalize (bmax : K) * (1 / 255) = y at *
  simp only at h
  rcases lt_or_gt_of_ne hne with hlt | hlt
  · have hd : 0 < r - l := by linarith
    have hn : ¬ (l + (r - l) * y < l + (r - l) * x) := by
      have := mul_lt_mul_of_pos_left hb hd
      linarith
    rw [if_neg hn] at h
    simp only [Bool.and_eq_true, decide_eq_true_eq] at h
    rw [hv] at h
    constructor
    · refine le_of_mul_le_mul_left ?_ hd
      linarith [h.1]
    · refine le_of_mul_le_mul_left ?_ hd
      linarith [h.2]
  · have hd : 0 < l - r := by linarith
    have hn : l + (r - l) * y < l + (r - l) * x := by
      have := mul_lt_mul_of_pos_left hb hd
      linarith
    rw [if_pos hn] at h
    simp only [Bool.and_eq_true, decide_eq_true_eq] at h
    rw [hv] at h
    constructor
    · refine le_of_mul_le_mul_left ?_ hd
      linarith [h.2]
    · refine le_of_mul_le_mul_left ?_ hd
      linarith [h.1]

/-- An open link leads the ray into the next polygon. -/
theorem opens_enters {eps maxT : K} {p0 p1 : V3 K} {m : RayMesh} {verts : Ref → List (V3 K)} {c : Ref} {e : Nat} {t : K} {l : RayLink} {a b : V3 K}
    (hc : Corners (verts c)) (hp : PolyEdge (verts c) e a b) (hin : InPoly (verts c) (rayAt p0 p1 t)) (hon : triArea a b (rayAt p0 p1 t) = 0)
    (hw : 0 < (p1.sub p0).perp (b.sub a)) (ho : Opens m (exactRay eps maxT p0 p1 verts) c e t l) (hs : Seam l a b (verts l.ref)) :
    InPoly (verts l.ref) (rayAt p0 p1 t) := by
  obtain ⟨s, hx, hz⟩ := exists_edgeAt hw hon
  have hse := hc.onEdge hp (hin.congr hx hz)
  suffices hb : linkFrom K l ≤ s ∧ s ≤ linkTo K l from
    (InPoly.between hs.first hs.last hb.1 hb.2).congr hx.symm hz.symm
  have hsp := hs.opens
  unfold linkFrom linkTo at hsp ⊢
  by_cases hff : l.side = 0xff#8
  · rw [if_pos hff, if_pos hff]; exact hse
  · rw [if_neg hff, if_neg hff] at hsp ⊢
    rcases ho.covers with h | ⟨h1, h2⟩ | ⟨h1, h2⟩
    · exact absurd h hff
    · rw [h1, h2]
      simpa using hse
    · have hcov : rayPortal p0 p1 (verts c) l t = true := h2
      unfold rayPortal at hcov
      rw [ho.edge, hp.1, hp.2] at hcov
      simp only at hcov
      by_cases h04 : l.side = 0#8 ∨ l.side = 4#8
      · rw [if_pos h04] at hcov
        refine rayCovers_between hcov ?_ (hs.alongZ h04) hsp
        simp only [rayAt, edgeAt] at hz
        linarith
      · rw [if_neg h04] at hcov
        by_cases h26 : l.side = 2#8 ∨ l.side = 6#8
        · rw [if_pos h26] at hcov
          refine rayCovers_between hcov ?_ (hs.alongX h26) hsp
          simp only [rayAt, edgeAt] at hx
          linarith
        · rw [if_neg h26] at hcov
          cases hcov

/-- A link inside a tile, between two convex polygons that have the edge in common (in opposite directions), is as `Seam` wants it. -/
theorem seam_internal {l : RayLink} (hl : l.side = 0xff#8) {a b : V3 K} {vs : List (V3 K)} (hc : Corners vs) {k : Nat} (hp : PolyEdge vs k b a) :
    Seam l a b vs where
  opens := by simp [linkFrom, linkTo, hl]
  first := by
    simp only [linkFrom, hl, if_true]
    exact (hc.inside a hp.mem.2).congr (by simp [edgeAt]) (by simp [edgeAt])
  last := by
    simp only [linkTo, hl, if_true]
    exact (hc.inside b hp.mem.1).congr (by simp [edgeAt]) (by simp [edgeAt])
  beyond := fun p h => h k b a hp
  alongZ := by rw [hl]; intro h; exact absurd h (by decide)
  alongX := by rw [hl]; intro h; exact absurd h (by decide)

/-! ## Where the ray goes -/

theorem exactRay_gt (eps maxT : K) (p0 p1 : V3 K) (verts : Ref → List (V3 K)) (a b : K) :
    (exactRay eps maxT p0 p1 verts).gt a b = decide (b < a) := rfl

/-- Spec: what is true of the polygons that a ray goes through, from `t0` on. -/
def Covered (p0 p1 : V3 K) (verts : Ref → List (V3 K)) (vis : List Ref) (t0 t1 : K) : Prop :=
  ∀ s, t0 ≤ s → s ≤ t1 → ∃ c ∈ vis, InPoly (verts c) (rayAt p0 p1 s)

theorem rayWalk_exact {eps maxT : K} (he : 0 < eps) {p0 p1 : V3 K} {m : RayMesh} {verts : Ref → List (V3 K)} (hf : RayFits eps p0 p1 m verts)
    {c : Ref} {vis : List Ref} {fin : RayEnd K} (hw : RayWalk m (exactRay eps maxT p0 p1 verts) c vis fin) :
    ∀ t0, Ground m c → 0 ≤ t0 → t0 ≤ 1 → InPoly (verts c) (rayAt p0 p1 t0) →
    match fin with
    | .missed _ => False
    | .reached => Covered p0 p1 verts vis t0 1 ∧ ∃ d, vis.getLast? = some d ∧ InPoly (verts d) (rayAt p0 p1 1)
    | .wall d e t => furthestExit (exactRay eps maxT p0 p1 verts) t0 vis = t ∧ t0 ≤ t ∧ t < 1 ∧ Covered p0 p1 verts vis t0 t ∧
        vis.getLast? = some d ∧ Ground m d ∧ (∀ s, t < s → s ≤ 1 → ¬ InPoly (verts d) (rayAt p0 p1 s)) ∧
        (∀ l, ¬ Opens m (exactRay eps maxT p0 p1 verts) d e t l) ∧
        ∃ a b s, PolyEdge (verts d) e a b ∧ 0 ≤ s ∧ s ≤ 1 ∧ (rayAt p0 p1 t).x = (edgeAt a b s).x ∧ (rayAt p0 p1 t).z = (edgeAt a b s).z := by
  induction hw with
  | @missed c hc =>
    intro t0 hg h0 h1 hin
    obtain ⟨t, seg, e, _⟩ := exactRay_clip eps maxT he p0 p1 verts c (hf.parallel c hg) t0 h0 h1 hin
    rw [e] at hc; cases hc
  | @reached c t hc =>
    intro t0 hg h0 h1 hin
    obtain ⟨t', seg, e, a1, a2, a3, a4, a5⟩ := exactRay_clip eps maxT he p0 p1 verts c (hf.parallel c hg) t0 h0 h1 hin
    rw [e] at hc
    simp only [Option.some.injEq, Prod.mk.injEq] at hc
    obtain ⟨rfl, rfl⟩ := hc
    rcases a5 with ⟨_, rfl⟩ | ⟨_, _, _, h, _⟩
    · exact ⟨fun s hs hs' => ⟨c, List.mem_cons_self, a3 s hs hs'⟩, c, rfl, a3 1 h1 le_rfl⟩
    · cases h
  | @wall c t e hc hno =>
    intro t0 hg h0 h1 hin
    obtain ⟨t', seg, e', a1, a2, a3, a4, a5⟩ := exactRay_clip eps maxT he p0 p1 verts c (hf.parallel c hg) t0 h0 h1 hin
    have hc' := hc
    rw [e'] at hc'
    simp only [Option.some.injEq, Prod.mk.injEq] at hc'
    obtain ⟨rfl, rfl⟩ := hc'
    rcases a5 with ⟨h, _⟩ | ⟨e1, a, b, h, hp, hlt, hon, hpos⟩
    · cases h
    · cases h
      obtain ⟨s, hx, hz⟩ := exists_edgeAt hpos hon
      obtain ⟨hs0, hs1⟩ := (hf.corners c hg).onEdge hp ((a3 _ a1 le_rfl).congr hx hz)
      refine ⟨?_, a1, hlt, fun s hs hs' => ⟨c, List.mem_cons_self, a3 s hs hs'⟩, rfl, hg, a4, hno, a, b, s, hp, hs0, hs1, hx, hz⟩
      simp only [furthestExit, hc, exactRay_gt]
      rcases a1.eq_or_lt with h | h
      · simp [h]
      · simp [h]
  | @step c t e l vis fin hc ho hw ih =>
    intro t0 hg h0 h1 hin
    obtain ⟨t', seg, e', a1, a2, a3, a4, a5⟩ := exactRay_clip eps maxT he p0 p1 verts c (hf.parallel c hg) t0 h0 h1 hin
    have hc' := hc
    rw [e'] at hc'
    simp only [Option.some.injEq, Prod.mk.injEq] at hc'
    obtain ⟨rfl, rfl⟩ := hc'
    rcases a5 with ⟨h, _⟩ | ⟨e1, a, b, h, hp, hlt, hon, hpos⟩
    · cases h
    · cases h
      have hsm := hf.seam c hg l ho.mem ho.ground a b (by rw [ho.edge]; exact hp)
      have hin' := opens_enters (hf.corners c hg) hp (a3 _ a1 le_rfl) hon hpos ho hsm
      have hg' : Ground m l.ref := ⟨hf.valid c hg l ho.mem, ho.ground⟩
      have hi := ih t' hg' (h0.trans a1) a2 hin'
      have hcov : ∀ u, Covered p0 p1 verts vis t' u → Covered p0 p1 verts (c :: vis) t0 u := by
        intro u hu s hs hs'
        rcases le_total s t' with h | h
        · exact ⟨c, List.mem_cons_self, a3 s hs h⟩
        · obtain ⟨d, hd, hd'⟩ := hu s h hs'
          exact ⟨d, List.mem_cons_of_mem _ hd, hd'⟩
      have hlast : ∀ d, vis.getLast? = some d → (c :: vis).getLast? = some d := by
        intro d hd
        cases vis with
        | nil => cases hd
        | cons x xs => rw [List.getLast?_cons_cons]; exact hd
      cases fin with
      | missed d => exact hi
      | reached =>
        obtain ⟨i1, d, i2, i3⟩ := hi
        exact ⟨hcov _ i1, d, hlast d i2, i3⟩
      | wall d e u =>
        obtain ⟨i1, i2, i3, i4, i5, i6⟩ := hi
        refine ⟨?_, a1.trans i2, i3, hcov _ i4, hlast d i5, i6⟩
        rw [← i1]
        simp only [furthestExit, hc]
        congr 1
        simp only [exactRay_gt]
        rcases a1.eq_or_lt with h | h
        · simp [h]
        · simp [h]

/-- **C130**, the part that holds. In exact arithmetic, over a mesh of convex polygons that are joined along the parts of their edges that the
links tell, with a hit structure whose `T` is 0, a ray that starts in its start polygon is cast like this: either `T` is `MaxFloat32`, all of
the ray is over the polygons it went through, and the end position is in the last of them; or `T` is less than 1, all of the ray up to `T` is
over the polygons it went through, the point at `T` is on the reported edge of the last of them, the ray leaves that polygon there, and no
link over that edge takes it further. Missing in the full statement: an edge that is nearly parallel to the ray (the cross product of its
direction and the ray less than 1e-8, but not 0) is taken for parallel. -/
theorem raycast_exact_partial {C : Type} [Add C] {eps maxT : K} (he : 0 < eps) {p0 p1 : V3 K} {m : RayMesh} {verts : Ref → List (V3 K)}
    (hf : RayFits eps p0 p1 m verts) (hz : ∀ c, ∀ l ∈ m.links c, l.ref ≠ 0#32) (costs : Bool)
    (cost : RayPos K → RayPos K → Ref → Ref → Ref → C) (fuel : Nat) (startRef prevRef : Ref) (h : RayHit K C) (hp : h.maxPath ≤ h.path.length)
    (ht : h.t = 0) (hs : startRef ≠ 0#32) (hg : Ground m startRef) (hpv : prevRef ≠ 0#32 → m.valid prevRef = true)
    (hin : InPoly (verts startRef) p0) (out : RayOut K C)
    (hr : raycast m (exactRay eps maxT p0 p1 verts) costs cost fuel startRef prevRef h = some out) :
    ∃ vis st' h', out = .ok st' h' ∧ h'.path.take h'.count = vis.take h.maxPath ∧
      ((h'.t = maxT ∧ h'.edge = none ∧ Covered p0 p1 verts vis 0 1 ∧ ∃ d, vis.getLast? = some d ∧ InPoly (verts d) (rayAt p0 p1 1)) ∨
        ∃ d e a b s, 0 ≤ h'.t ∧ h'.t < 1 ∧ Covered p0 p1 verts vis 0 h'.t ∧ vis.getLast? = some d ∧ h'.edge = some e ∧ h'.normal = some (d, e) ∧
          PolyEdge (verts d) e a b ∧ 0 ≤ s ∧ s ≤ 1 ∧ (rayAt p0 p1 h'.t).x = (edgeAt a b s).x ∧ (rayAt p0 p1 h'.t).z = (edgeAt a b s).z ∧
          (∀ u, h'.t < u → u ≤ 1 → ¬ InPoly (verts d) (rayAt p0 p1 u)) ∧
          ∀ l, ¬ Opens m (exactRay eps maxT p0 p1 verts) d e h'.t l) := by
  obtain ⟨vis, fin, st', h', e1, e2, e3, e4, e5, e6⟩ :=
    (raycast_corridor m _ costs cost hz fuel startRef prevRef h hp out hr).2 ⟨hs, hg.1⟩ hpv
  have hin0 : InPoly (verts startRef) (rayAt p0 p1 0) := hin.congr (by simp [rayAt]) (by simp [rayAt])
  have hw := rayWalk_exact he hf e2 0 hg le_rfl zero_le_one hin0
  refine ⟨vis, st', h', e1, ?_, ?_⟩
  · rw [e4, e3, List.take_append_of_le_length (by simp [Nat.min_comm]), List.take_take, List.take_eq_take_iff]
    omega
  · cases fin with
    | missed c => exact absurd hw id
    | reached => exact Or.inl ⟨e6.1, e6.2.1, hw.1, hw.2⟩
    | wall d e t =>
      obtain ⟨w1, w2, w3, w4, w5, w6, w7, w8, a, b, s, w9, w10, w11, w12, w13⟩ := hw
      have : h'.t = t := by rw [e6.1, ht, w1]
      rw [this]
      exact Or.inr ⟨d, e, a, b, s, w2, w3, w4, w5, e6.2.1, e6.2.2, w9, w10, w11, w12, w13, w7, w8⟩

/-! ## The ray comes to an end -/

/-- The ray goes from polygon `c` into polygon `d`. -/
def RayStep {F : Type} (m : RayMesh) (g : RayGeom F) (c d : Ref) : Prop :=
  ∃ t e l, g.clip c = some (t, some e) ∧ Opens m g c e t l ∧ l.ref = d

theorem rayLoop_none {F C : Type} [Add C] (m : RayMesh) (g : RayGeom F) (costs : Bool) (cost : RayPos F → RayPos F → Ref → Ref → Ref → C)
    (hz : ∀ c, ∀ l ∈ m.links c, l.ref ≠ 0#32) : ∀ (fuel : Nat) (prev cur : Ref) (pos : RayPos F) (n : Nat) (st : Status) (h : RayHit F C),
    rayLoop m g costs cost fuel prev cur pos n st h = none → ∃ L : List Ref, L.length = fuel ∧ (cur :: L).IsChain (RayStep m g) := by
  intro fuel
  induction fuel with
  | zero => intros; exact ⟨[], rfl, List.isChain_singleton _⟩
  | succ fuel ih =>
    intro prev cur pos n st h hr
    rw [rayLoop] at hr
    split at hr
    · cases hr
    · cases hc : g.clip cur with
      | none => rw [hc] at hr; cases hr
      | some v =>
        obtain ⟨t, seg⟩ := v
        rw [hc] at hr
        simp only at hr
        split at hr
        · cases hr
        · cases seg with
          | none => cases hr
          | some e =>
            simp only at hr
            split at hr
            · cases hr
            · rename_i hx
              obtain ⟨L, hL, hch⟩ := ih _ _ _ _ _ _ hr
              rcases rayNext_spec m g hz cur e t with ⟨h0, _⟩ | ⟨l, hl, ho, _⟩
              · exact absurd h0 hx
              · exact ⟨_ :: L, by rw [List.length_cons, hL], List.isChain_cons_cons.2 ⟨⟨t, e, l, hc, ho, hl.symm⟩, hch⟩⟩

/-- One step of the ray in exact arithmetic. -/
theorem rayStep_exact {eps maxT : K} (he : 0 < eps) {p0 p1 : V3 K} {m : RayMesh} {verts : Ref → List (V3 K)} (hf : RayFits eps p0 p1 m verts)
    {c d : Ref} (hs : RayStep m (exactRay eps maxT p0 p1 verts) c d) {t0 : K} (hg : Ground m c) (h0 : 0 ≤ t0) (h1 : t0 ≤ 1)
    (hin : InPoly (verts c) (rayAt p0 p1 t0)) :
    ∃ t e l a b, (exactRay eps maxT p0 p1 verts).clip c = some (t, some e) ∧ t0 ≤ t ∧ t ≤ 1 ∧ PolyEdge (verts c) e a b ∧
      triArea a b (rayAt p0 p1 t) = 0 ∧ 0 < (p1.sub p0).perp (b.sub a) ∧ Seam l a b (verts d) ∧ l.ref = d ∧ Ground m d ∧
      InPoly (verts d) (rayAt p0 p1 t) := by
  obtain ⟨t, e, l, hc, ho, rfl⟩ := hs
  obtain ⟨t', seg, e', a1, a2, a3, a4, a5⟩ := exactRay_clip eps maxT he p0 p1 verts c (hf.parallel c hg) t0 h0 h1 hin
  have hc' := hc
  rw [e'] at hc'
  simp only [Option.some.injEq, Prod.mk.injEq] at hc'
  obtain ⟨rfl, rfl⟩ := hc'
  rcases a5 with ⟨h, _⟩ | ⟨e1, a, b, h, hp, hlt, hon, hpos⟩
  · cases h
  · cases h
    have hsm := hf.seam c hg l ho.mem ho.ground a b (by rw [ho.edge]; exact hp)
    exact ⟨t', e, l, a, b, hc, a1, a2, hp, hon, hpos, hsm, rfl, ⟨hf.valid c hg l ho.mem, ho.ground⟩,
      opens_enters (hf.corners c hg) hp (a3 _ a1 le_rfl) hon hpos ho hsm⟩

/-- Along the ray the parameter does not go back. -/
theorem rayChain_forward {eps maxT : K} (he : 0 < eps) {p0 p1 : V3 K} {m : RayMesh} {verts : Ref → List (V3 K)} (hf : RayFits eps p0 p1 m verts) :
    ∀ (L : List Ref) (c : Ref) (t0 : K), (c :: L).IsChain (RayStep m (exactRay eps maxT p0 p1 verts)) → Ground m c → 0 ≤ t0 → t0 ≤ 1 →
      InPoly (verts c) (rayAt p0 p1 t0) → ∀ f ∈ c :: L, ∀ t seg, (exactRay eps maxT p0 p1 verts).clip f = some (t, seg) → t0 ≤ t := by
  intro L
  induction L with
  | nil =>
    intro c t0 _ hg h0 h1 hin f hm t seg hc
    simp only [List.mem_singleton] at hm
    subst hm
    obtain ⟨t', seg', e', a1, _⟩ := exactRay_clip eps maxT he p0 p1 verts f (hf.parallel f hg) t0 h0 h1 hin
    rw [e'] at hc
    simp only [Option.some.injEq, Prod.mk.injEq] at hc
    rw [← hc.1]; exact a1
  | cons d L ih =>
    intro c t0 hch hg h0 h1 hin f hm t seg hc
    rw [List.isChain_cons_cons] at hch
    obtain ⟨t1, e, l, a, b, hcc, b1, b2, _, _, _, _, _, hgd, hind⟩ := rayStep_exact he hf hch.1 hg h0 h1 hin
    rcases List.mem_cons.1 hm with rfl | hm
    · rw [hcc] at hc
      simp only [Option.some.injEq, Prod.mk.injEq] at hc
      rw [← hc.1]; exact b1
    · exact b1.trans (ih d t1 hch.2 hgd (h0.trans b1) b2 hind f hm t seg hc)

theorem perp_plucker (d u v w : V3 K) : d.perp u * v.perp w = d.perp v * u.perp w - d.perp w * u.perp v := by
  simp only [V3.perp]; ring

/-- Two edges over which the ray leaves two polygons one after the other, at the same point: the second is turned against the first, to the
side on which the second polygon is. -/
theorem rayTurn {dir x a b a' b' : V3 K} {vs : List (V3 K)} (hc : Corners vs) {ε s sx : K} (hp : PolyEdge vs e a' b')
    (hw : 0 < dir.perp (b.sub a)) (hw' : 0 < dir.perp (b'.sub a')) (hsx : x.x = (edgeAt a b sx).x ∧ x.z = (edgeAt a b sx).z)
    (hon' : triArea a' b' x = 0) (hbey : ∀ p, InPoly vs p → 0 ≤ triArea b a p) (hin : InPoly vs (edgeAt a b s)) (hε : 0 < ε * (s - sx)) :
    0 < ε * (b'.sub a').perp (b.sub a) := by
  have hon : triArea a b x = 0 := by
    simp only [triArea, hsx.1, hsx.2, edgeAt]; ring
  have h1 : 0 ≤ (s - sx) * (b'.sub a').perp (b.sub a) := by
    have := hin e a' b' hp
    have e1 : triArea a' b' (edgeAt a b s) = triArea a' b' x + (s - sx) * (b'.sub a').perp (b.sub a) := by
      simp only [triArea, hsx.1, hsx.2, edgeAt, V3.perp, V3.sub]; ring
    rw [e1, hon', zero_add] at this
    exact this
  have hne : (b'.sub a').perp (b.sub a) ≠ 0 := by
    intro h0
    -- all of the polygon is on one line
    have hline : ∀ p, InPoly vs p → (b.sub a).perp (p.sub x) = 0 := by
      intro p hpin
      have f1 : 0 ≤ (b'.sub a').perp (p.sub x) := by
        have := hpin e a' b' hp
        have e1 : triArea a' b' p = triArea a' b' x + (b'.sub a').perp (p.sub x) := by simp only [triArea, V3.perp, V3.sub]; ring
        rw [e1, hon', zero_add] at this
        exact this
      have f2 : (b.sub a).perp (p.sub x) ≤ 0 := by
        have := hbey p hpin
        have e1 : triArea b a p = - triArea a b x - (b.sub a).perp (p.sub x) := by simp only [triArea, V3.perp, V3.sub]; ring
        rw [e1, hon] at this
        linarith
      have f3 := perp_plucker dir (b.sub a) (b'.sub a') (p.sub x)
      have f4 : (b.sub a).perp (b'.sub a') = 0 := by
        have : (b.sub a).perp (b'.sub a') = - (b'.sub a').perp (b.sub a) := by simp only [V3.perp]; ring
        rw [this, h0, neg_zero]
      rw [f4, mul_zero, sub_zero] at f3
      refine le_antisymm f2 ?_
      have : 0 ≤ dir.perp (b'.sub a') * (b.sub a).perp (p.sub x) := by
        rw [← f3]; exact mul_nonneg hw.le f1
      exact nonneg_of_mul_nonneg_right this hw'
    have h3 := hc.three
    obtain ⟨u, hu⟩ : ∃ u, vs[0]? = some u := ⟨_, List.getElem?_eq_getElem (by omega)⟩
    obtain ⟨v, hv⟩ : ∃ v, vs[1]? = some v := ⟨_, List.getElem?_eq_getElem (by omega)⟩
    obtain ⟨w, hw2⟩ : ∃ w, vs[2]? = some w := ⟨_, List.getElem?_eq_getElem (by omega)⟩
    have e1 : (0 + 1) % vs.length = 1 := Nat.mod_eq_of_lt (by omega)
    have e2 : (0 + 2) % vs.length = 2 % vs.length := rfl
    have ht := hc.turns 0 u v w hu (by rw [e1]; exact hv) (by rw [e2, Nat.mod_eq_of_lt (by omega)]; exact hw2)
    have g1 := hline u (hc.inside u (List.mem_of_getElem? hu))
    have g2 := hline v (hc.inside v (List.mem_of_getElem? hv))
    have g3 := hline w (hc.inside w (List.mem_of_getElem? hw2))
    have g4 : (b.sub a).perp (v.sub u) = 0 := by
      have : (b.sub a).perp (v.sub u) = (b.sub a).perp (v.sub x) - (b.sub a).perp (u.sub x) := by simp only [V3.perp, V3.sub]; ring
      rw [this, g1, g2, sub_zero]
    have g5 : (b.sub a).perp (w.sub u) = 0 := by
      have : (b.sub a).perp (w.sub u) = (b.sub a).perp (w.sub x) - (b.sub a).perp (u.sub x) := by simp only [V3.perp, V3.sub]; ring
      rw [this, g1, g3, sub_zero]
    have g6 := perp_plucker dir (b.sub a) (v.sub u) (w.sub u)
    rw [g4, g5, mul_zero, mul_zero, sub_zero] at g6
    have g7 : (v.sub u).perp (w.sub u) = 0 := by
      rcases mul_eq_zero.1 g6 with h | h
      · exact absurd h hw.ne'
      · exact h
    have g8 : triArea u v w = (v.sub u).perp (w.sub u) := by simp only [triArea, V3.perp, V3.sub]; ring
    rw [g8, g7] at ht
    exact lt_irrefl _ ht
  rcases lt_or_gt_of_ne hne with hneg | hpos
  · have : s - sx ≤ 0 := by
      by_contra h
      exact absurd h1 (not_le.2 (mul_neg_of_pos_of_neg (not_le.1 h) hneg))
    have : ε < 0 := by
      by_contra h
      exact absurd hε (not_lt.2 (mul_nonpos_of_nonneg_of_nonpos (not_lt.1 h) this))
    exact mul_pos_of_neg_of_neg this hneg
  · have : 0 ≤ s - sx := by
      by_contra h
      exact absurd h1 (not_le.2 (mul_neg_of_neg_of_pos (not_le.1 h) hpos))
    have : 0 < ε := by
      by_contra h
      exact absurd hε (not_lt.2 (mul_nonpos_of_nonpos_of_nonneg (not_lt.1 h) this))
    exact mul_pos this hpos

/-- The edges over which the ray leaves polygons are crossed outwards. -/
theorem rayChain_exit {eps maxT : K} (he : 0 < eps) {p0 p1 : V3 K} {m : RayMesh} {verts : Ref → List (V3 K)} (hf : RayFits eps p0 p1 m verts) :
    ∀ (L : List Ref) (c : Ref) (t0 : K), (c :: L).IsChain (RayStep m (exactRay eps maxT p0 p1 verts)) → Ground m c → 0 ≤ t0 → t0 ≤ 1 →
      InPoly (verts c) (rayAt p0 p1 t0) → ∀ f ∈ c :: L, ∀ t e a b, (exactRay eps maxT p0 p1 verts).clip f = some (t, some e) →
        PolyEdge (verts f) e a b → Ground m f ∧ 0 < (p1.sub p0).perp (b.sub a) := by
  have hone : ∀ (c : Ref) (t0 : K), Ground m c → 0 ≤ t0 → t0 ≤ 1 → InPoly (verts c) (rayAt p0 p1 t0) → ∀ t e a b,
      (exactRay eps maxT p0 p1 verts).clip c = some (t, some e) → PolyEdge (verts c) e a b → Ground m c ∧ 0 < (p1.sub p0).perp (b.sub a) := by
    intro c t0 hg h0 h1 hin t e a b hc hp
    obtain ⟨t', seg, e', a1, a2, a3, a4, a5⟩ := exactRay_clip eps maxT he p0 p1 verts c (hf.parallel c hg) t0 h0 h1 hin
    rw [e'] at hc
    simp only [Option.some.injEq, Prod.mk.injEq] at hc
    obtain ⟨rfl, rfl⟩ := hc
    rcases a5 with ⟨h, _⟩ | ⟨e1, x, y, h, hp', hlt, hon, hpos⟩
    · cases h
    · cases h
      obtain ⟨rfl, rfl⟩ := hp.unique hp'
      exact ⟨hg, hpos⟩
  intro L
  induction L with
  | nil =>
    intro c t0 _ hg h0 h1 hin f hm t e a b hc hp
    simp only [List.mem_singleton] at hm
    subst hm
    exact hone f t0 hg h0 h1 hin t e a b hc hp
  | cons d L ih =>
    intro c t0 hch hg h0 h1 hin f hm t e a b hc hp
    rw [List.isChain_cons_cons] at hch
    obtain ⟨t1, _, _, _, _, _, b1, b2, _, _, _, _, _, hgd, hind⟩ := rayStep_exact he hf hch.1 hg h0 h1 hin
    rcases List.mem_cons.1 hm with rfl | hm
    · exact hone f t0 hg h0 h1 hin t e a b hc hp
    · exact ih d t1 hch.2 hgd (h0.trans b1) b2 hind f hm t e a b hc hp

theorem linkRange (l : RayLink) (h : linkFrom K l < linkTo K l) : 0 ≤ linkFrom K l ∧ 0 ≤ linkTo K l ∧ linkTo K l ≤ 1 := by
  have h0 : 0 ≤ linkFrom K l := by
    unfold linkFrom; split
    · exact le_rfl
    · positivity
  refine ⟨h0, h0.trans h.le, ?_⟩
  unfold linkTo; split
  · exact le_rfl
  · have : (l.bmax.toNat : K) ≤ 255 := by
      have : l.bmax.toNat ≤ 255 := by have := l.bmax.isLt; omega
      exact_mod_cast this
    rw [mul_one_div]
    exact div_le_one_of_le₀ this (by norm_num)

/-- As long as the ray leaves polygons at the same point, their edges turn the same way. -/
theorem rayChain_turn {eps maxT : K} (he : 0 < eps) {p0 p1 : V3 K} {m : RayMesh} {verts : Ref → List (V3 K)} (hf : RayFits eps p0 p1 m verts)
    (t : K) (h0 : 0 ≤ t) (h1 : t ≤ 1) (ε : K) :
    ∀ (L : List Ref) (d : Ref) (a b : V3 K) (s sx : K), (d :: L).IsChain (RayStep m (exactRay eps maxT p0 p1 verts)) → Ground m d →
      InPoly (verts d) (rayAt p0 p1 t) → 0 < (p1.sub p0).perp (b.sub a) →
      ((rayAt p0 p1 t).x = (edgeAt a b sx).x ∧ (rayAt p0 p1 t).z = (edgeAt a b sx).z) → (∀ p, InPoly (verts d) p → 0 ≤ triArea b a p) →
      InPoly (verts d) (edgeAt a b s) → 0 < ε * (s - sx) →
      ∀ f ∈ d :: L, ∀ e a' b', (exactRay eps maxT p0 p1 verts).clip f = some (t, some e) → PolyEdge (verts f) e a' b' →
        0 < ε * (b'.sub a').perp (b.sub a) := by
  intro L
  induction L with
  | nil =>
    intro d a b s sx _ hg hin hw hsx hbey hins hε f hm e a' b' hc hp
    simp only [List.mem_singleton] at hm
    subst hm
    obtain ⟨t', seg, e', a1, a2, a3, a4, a5⟩ := exactRay_clip eps maxT he p0 p1 verts f (hf.parallel f hg) t h0 h1 hin
    rw [e'] at hc
    simp only [Option.some.injEq, Prod.mk.injEq] at hc
    obtain ⟨rfl, rfl⟩ := hc
    rcases a5 with ⟨h, _⟩ | ⟨e1, x, y, h, hp', hlt, hon, hpos⟩
    · cases h
    · cases h
      obtain ⟨rfl, rfl⟩ := hp.unique hp'
      exact rayTurn (hf.corners f hg) hp hw hpos hsx hon hbey hins hε
  | cons d2 L ih =>
    intro d a b s sx hch hg hin hw hsx hbey hins hε f hm e a' b' hc hp
    rw [List.isChain_cons_cons] at hch
    obtain ⟨t1, e1, l, a1, b1, hcd, k1, k2, hpd, hond, hwd, hsm, _, hg2, hin2⟩ := rayStep_exact he hf hch.1 hg h0 h1 hin
    rcases List.mem_cons.1 hm with rfl | hm'
    · rw [hc] at hcd
      simp only [Option.some.injEq, Prod.mk.injEq] at hcd
      obtain ⟨rfl, rfl⟩ := hcd
      obtain ⟨rfl, rfl⟩ := hp.unique hpd
      exact rayTurn (hf.corners f hg) hp hw hwd hsx hond hbey hins hε
    · have ht1 : t1 = t := le_antisymm (rayChain_forward he hf L d2 t1 hch.2 hg2 (h0.trans k1) k2 hin2 f hm' t _ hc) k1
      subst ht1
      -- the edge of `d` is turned against the one before
      have hturn := rayTurn (hf.corners d hg) hpd hw hwd hsx hond hbey hins hε
      obtain ⟨sx', hsx'⟩ := exists_edgeAt hwd hond
      -- an end of the portal is on the side to which it is turned
      have hend : ∀ s', InPoly (verts d) (edgeAt a1 b1 s') → s' ≠ sx' → 0 < ε * (s' - sx') := by
        intro s' hs' hne
        have hb := hbey _ hs'
        have hon : triArea a b (rayAt p0 p1 t1) = 0 := by
          simp only [triArea, hsx.1, hsx.2, edgeAt]; ring
        have e2 : triArea b a (edgeAt a1 b1 s') = - triArea a b (rayAt p0 p1 t1) + (s' - sx') * (b1.sub a1).perp (b.sub a) := by
          simp only [triArea, hsx'.1, hsx'.2, edgeAt, V3.perp, V3.sub]; ring
        rw [e2, hon, neg_zero, zero_add] at hb
        have h3 : 0 ≤ (ε * (s' - sx')) * ((b1.sub a1).perp (b.sub a) * (b1.sub a1).perp (b.sub a)) := by
          have : (ε * (s' - sx')) * ((b1.sub a1).perp (b.sub a) * (b1.sub a1).perp (b.sub a)) =
              ((s' - sx') * (b1.sub a1).perp (b.sub a)) * (ε * (b1.sub a1).perp (b.sub a)) := by ring
          rw [this]; exact mul_nonneg hb hturn.le
        have hq : 0 < (b1.sub a1).perp (b.sub a) * (b1.sub a1).perp (b.sub a) := by
          have : (b1.sub a1).perp (b.sub a) ≠ 0 := by
            intro h; rw [h, mul_zero] at hturn; exact lt_irrefl _ hturn
          exact mul_self_pos.2 this
        have h4 := nonneg_of_mul_nonneg_left h3 hq
        have hε0 : ε ≠ 0 := by
          rintro rfl; rw [zero_mul] at hturn; exact lt_irrefl _ hturn
        exact lt_of_le_of_ne h4 (mul_ne_zero hε0 (sub_ne_zero.2 hne)).symm
      -- one end of the portal is not the point itself
      obtain ⟨s', hs2, hs1, hne⟩ : ∃ s', InPoly (verts d2) (edgeAt a1 b1 s') ∧ InPoly (verts d) (edgeAt a1 b1 s') ∧ s' ≠ sx' := by
        have hr := linkRange l hsm.opens
        by_cases h : linkFrom K l = sx'
        · exact ⟨linkTo K l, hsm.last, (hf.corners d hg).edge hpd hr.2.1 hr.2.2, by rw [← h]; exact hsm.opens.ne'⟩
        · exact ⟨linkFrom K l, hsm.first, (hf.corners d hg).edge hpd hr.1 (hsm.opens.le.trans hr.2.2), h⟩
      have hrest := ih d2 a1 b1 s' sx' hch.2 hg2 hin2 hwd hsx' hsm.beyond hs2 (hend s' hs1 hne) f hm' e a' b' hc hp
      -- the turns add up
      have hfg : Ground m f ∧ 0 < (p1.sub p0).perp (b'.sub a') := rayChain_exit he hf L d2 t1 hch.2 hg2 h0 h1 hin2 f hm' t1 e a' b' hc hp
      have hpl : (p1.sub p0).perp (b1.sub a1) * (b'.sub a').perp (b.sub a) =
          (p1.sub p0).perp (b.sub a) * (b'.sub a').perp (b1.sub a1) + (p1.sub p0).perp (b'.sub a') * (b1.sub a1).perp (b.sub a) := by
        simp only [V3.perp]; ring
      have : 0 < (p1.sub p0).perp (b1.sub a1) * (ε * (b'.sub a').perp (b.sub a)) := by
        have e3 : (p1.sub p0).perp (b1.sub a1) * (ε * (b'.sub a').perp (b.sub a)) =
            (p1.sub p0).perp (b.sub a) * (ε * (b'.sub a').perp (b1.sub a1)) + (p1.sub p0).perp (b'.sub a') * (ε * (b1.sub a1).perp (b.sub a)) := by
          linear_combination ε * hpl
        rw [e3]
        exact add_pos (mul_pos hw hrest) (mul_pos hfg.2 hturn)
      exact (mul_pos_iff_of_pos_left hwd).1 this

theorem rayChain_nodup {eps maxT : K} (he : 0 < eps) {p0 p1 : V3 K} {m : RayMesh} {verts : Ref → List (V3 K)} (hf : RayFits eps p0 p1 m verts) :
    ∀ (L : List Ref) (c : Ref) (t0 : K), (c :: L).IsChain (RayStep m (exactRay eps maxT p0 p1 verts)) → Ground m c → 0 ≤ t0 → t0 ≤ 1 →
      InPoly (verts c) (rayAt p0 p1 t0) → (c :: L).Nodup := by
  intro L
  induction L with
  | nil => intros; exact List.nodup_singleton _
  | cons d L ih =>
    intro c t0 hch hg h0 h1 hin
    rw [List.isChain_cons_cons] at hch
    obtain ⟨t, e, l, a, b, hc, k1, k2, hp, hon, hw, hsm, _, hgd, hind⟩ := rayStep_exact he hf hch.1 hg h0 h1 hin
    refine List.nodup_cons.2 ⟨fun hm => ?_, ih d t hch.2 hgd (h0.trans k1) k2 hind⟩
    obtain ⟨sx, hsx⟩ := exists_edgeAt hw hon
    obtain ⟨s, hs, hne⟩ : ∃ s, InPoly (verts d) (edgeAt a b s) ∧ s ≠ sx := by
      by_cases h : linkFrom K l = sx
      · exact ⟨linkTo K l, hsm.last, by rw [← h]; exact hsm.opens.ne'⟩
      · exact ⟨linkFrom K l, hsm.first, h⟩
    have := rayChain_turn he hf t (h0.trans k1) k2 (s - sx) L d a b s sx hch.2 hgd hind hw hsx hsm.beyond hs
      (mul_self_pos.2 (sub_ne_zero.2 hne)) c hm e a b hc hp
    have hz : (b.sub a).perp (b.sub a) = 0 := by simp only [V3.perp]; ring
    rw [hz, mul_zero] at this
    exact lt_irrefl _ this

theorem rayWalk_chain {F : Type} {m : RayMesh} {g : RayGeom F} {c : Ref} {vis : List Ref} {fin : RayEnd F} (h : RayWalk m g c vis fin) :
    vis.IsChain (RayStep m g) ∧ (vis = [] ∨ vis.head? = some c) := by
  induction h with
  | missed _ => exact ⟨List.isChain_nil, Or.inl rfl⟩
  | reached _ => exact ⟨List.isChain_singleton _, Or.inr rfl⟩
  | wall _ _ => exact ⟨List.isChain_singleton _, Or.inr rfl⟩
  | @step c t e l vis fin hc ho hw ih =>
    refine ⟨?_, Or.inr rfl⟩
    cases vis with
    | nil => exact List.isChain_singleton _
    | cons d vis =>
      have : d = l.ref := by simpa using ih.2
      exact List.isChain_cons_cons.2 ⟨⟨t, e, l, hc, ho, this.symm⟩, ih.1⟩

/-- **C131.** In exact arithmetic, over a mesh of convex polygons that are joined along the parts of their edges that the links tell, a ray that
starts in its start polygon goes through no polygon twice, not even where it runs through corners, at which many polygons meet; so over
finitely many polygons (`S` has the start and whatever links lead to) `Raycast` comes back, after at most one round for each. -/
theorem raycast_terminates {C : Type} [Add C] {eps maxT : K} (he : 0 < eps) {p0 p1 : V3 K} {m : RayMesh} {verts : Ref → List (V3 K)}
    (hf : RayFits eps p0 p1 m verts) (hz : ∀ c, ∀ l ∈ m.links c, l.ref ≠ 0#32) (costs : Bool)
    (cost : RayPos K → RayPos K → Ref → Ref → Ref → C) (startRef prevRef : Ref) (h : RayHit K C) (hg : Ground m startRef)
    (hin : InPoly (verts startRef) p0) :
    (∀ vis fin, RayWalk m (exactRay eps maxT p0 p1 verts) startRef vis fin → vis.Nodup) ∧
    ∀ S : List Ref, startRef ∈ S → (∀ c ∈ S, ∀ l ∈ m.links c, l.ref ∈ S) → ∀ fuel, S.length ≤ fuel →
      ∃ out, raycast m (exactRay eps maxT p0 p1 verts) costs cost fuel startRef prevRef h = some out := by
  have hin0 : InPoly (verts startRef) (rayAt p0 p1 0) := hin.congr (by simp [rayAt]) (by simp [rayAt])
  refine ⟨fun vis fin hw => ?_, fun S hS hcl fuel hfu => ?_⟩
  · obtain ⟨hch, hh⟩ := rayWalk_chain hw
    cases vis with
    | nil => exact List.nodup_nil
    | cons c vis =>
      have : c = startRef := by simpa using hh
      subst this
      exact rayChain_nodup he hf vis c 0 hch hg le_rfl zero_le_one hin0
  · cases hr : raycast m (exactRay eps maxT p0 p1 verts) costs cost fuel startRef prevRef h with
    | some out => exact ⟨out, rfl⟩
    | none =>
      exfalso
      unfold raycast at hr
      split at hr
      · cases hr
      · split at hr
        · cases hr
        · obtain ⟨L, hL, hch⟩ := rayLoop_none m _ costs cost hz fuel _ _ _ _ _ _ hr
          have hnd := rayChain_nodup he hf L startRef 0 hch hg le_rfl zero_le_one hin0
          have hsub : ∀ (L : List Ref) (c : Ref), c ∈ S → (c :: L).IsChain (RayStep m (exactRay eps maxT p0 p1 verts)) →
              ∀ d ∈ c :: L, d ∈ S := by
            intro L
            induction L with
            | nil => intro c hc _ d hd; rw [List.mem_singleton.1 hd]; exact hc
            | cons x L ih =>
              intro c hc hch d hd
              rw [List.isChain_cons_cons] at hch
              rcases List.mem_cons.1 hd with rfl | hd
              · exact hc
              · obtain ⟨_, _, l, _, ho, rfl⟩ := hch.1
                exact ih _ (hcl c hc l ho.mem) hch.2 d hd
          have := (List.subperm_of_subset hnd (hsub L startRef hS hch)).length_le
          rw [List.length_cons, hL] at this
          omega

/-! ## Examples

Three rectangles at the point (1, 1), and a ray along the diagonal from the middle of square 1 through that point to the middle of square 3
opposite. -/

/-- Square 1 below left, rectangle 2 above it, and square 3 right of the lower half of that. -/
def quadVerts : Ref → List (V3 ℚ) := fun r =>
  if r = 1#32 then [⟨0, 0, 0⟩, ⟨0, 0, 1⟩, ⟨1, 0, 1⟩, ⟨1, 0, 0⟩]
  else if r = 2#32 then [⟨0, 0, 1⟩, ⟨0, 0, 3⟩, ⟨1, 0, 3⟩, ⟨1, 0, 1⟩]
  else [⟨1, 0, 1⟩, ⟨1, 0, 2⟩, ⟨2, 0, 2⟩, ⟨2, 0, 1⟩]

/-- From 1 over its upper edge to 2 and back, from 2 over the lower half of its right edge, a side of the tile, to 3. -/
def quadMesh : RayMesh where
  links := fun r =>
    if r = 1#32 then [⟨1, 2#32, 0xff#8, 0#8, 0#8⟩]
    else if r = 2#32 then [⟨3, 1#32, 0xff#8, 0#8, 0#8⟩, ⟨2, 3#32, 0#8, 128#8, 255#8⟩]
    else []
  offMesh := fun _ => false
  pass := fun _ => true
  valid := fun r => r = 1#32 ∨ r = 2#32 ∨ r = 3#32

def quadHit : RayHit ℚ ℚ := ⟨0, none, none, [0#32, 0#32, 0#32, 0#32], 0, 4, 0⟩

/-- The ray runs through the corner (1, 1): it goes from 1 into 2 and from there, at the same point, into 3, where it ends. -/
example : raycast quadMesh (exactRay (1 / 100000000) 1000 ⟨1 / 2, 0, 1 / 2⟩ ⟨3 / 2, 0, 3 / 2⟩ quadVerts) false (fun _ _ _ _ _ => (0 : ℚ)) 3 1#32 0#32
    quadHit = some (.ok Status.success ⟨1000, none, none, [1#32, 2#32, 3#32, 0#32], 3, 4, 0⟩) := by
  decide +kernel

/-- To the left the ray is stopped half way, by the left edge of square 1. -/
example : raycast quadMesh (exactRay (1 / 100000000) 1000 ⟨1 / 2, 0, 1 / 2⟩ ⟨-1 / 2, 0, 1 / 2⟩ quadVerts) false (fun _ _ _ _ _ => (0 : ℚ)) 3 1#32 0#32
    quadHit = some (.ok Status.success ⟨1 / 2, some (1#32, 0), some 0, [1#32, 0#32, 0#32, 0#32], 1, 4, 0⟩) := by
  decide +kernel

/-- The edges of a polygon of four corners. -/
theorem polyEdge_four {w x y z a b : V3 ℚ} {j : Nat} (h : PolyEdge [w, x, y, z] j a b) :
    (j = 0 ∧ a = w ∧ b = x) ∨ (j = 1 ∧ a = x ∧ b = y) ∨ (j = 2 ∧ a = y ∧ b = z) ∨ (j = 3 ∧ a = z ∧ b = w) := by
  obtain ⟨h1, h2⟩ := h
  have hj : j < 4 := by
    have := (List.getElem?_eq_some_iff.1 h1).1
    simpa using this
  rcases j with _ | _ | _ | _ | j
  · simp at h1 h2; exact Or.inl ⟨rfl, h1.symm, h2.symm⟩
  · simp at h1 h2; exact Or.inr (Or.inl ⟨rfl, h1.symm, h2.symm⟩)
  · simp at h1 h2; exact Or.inr (Or.inr (Or.inl ⟨rfl, h1.symm, h2.symm⟩))
  · simp at h1 h2; exact Or.inr (Or.inr (Or.inr ⟨rfl, h1.symm, h2.symm⟩))
  · omega

theorem corners_rect (x0 x1 z0 z1 : ℚ) (hx : x0 < x1) (hz : z0 < z1) :
    Corners [(⟨x0, 0, z0⟩ : V3 ℚ), ⟨x0, 0, z1⟩, ⟨x1, 0, z1⟩, ⟨x1, 0, z0⟩] := by
  have hp : 0 < (x1 - x0) * (z1 - z0) := mul_pos (by linarith) (by linarith)
  refine ⟨?_, ?_, by simp⟩
  · intro v hv j a b he
    simp only [List.mem_cons, List.not_mem_nil, or_false] at hv
    rcases polyEdge_four he with ⟨_, rfl, rfl⟩ | ⟨_, rfl, rfl⟩ | ⟨_, rfl, rfl⟩ | ⟨_, rfl, rfl⟩ <;>
      rcases hv with rfl | rfl | rfl | rfl <;> simp only [triArea] <;> nlinarith
  · intro j a b c h1 h2 h3
    have hj : j < 4 := by
      have := (List.getElem?_eq_some_iff.1 h1).1
      simpa using this
    rcases j with _ | _ | _ | _ | j
    · simp at h1 h2 h3; subst h1 h2 h3; simp only [triArea]; nlinarith
    · simp at h1 h2 h3; subst h1 h2 h3; simp only [triArea]; nlinarith
    · simp at h1 h2 h3; subst h1 h2 h3; simp only [triArea]; nlinarith
    · simp at h1 h2 h3; subst h1 h2 h3; simp only [triArea]; nlinarith
    · omega

/-- The hypotheses of the theorems hold for the diagonal ray. -/
example : RayFits (1 / 100000000) ⟨1 / 2, 0, 1 / 2⟩ ⟨3 / 2, 0, 3 / 2⟩ quadMesh quadVerts ∧ (∀ c, ∀ l ∈ quadMesh.links c, l.ref ≠ 0#32) ∧
    Ground quadMesh 1#32 ∧ InPoly (quadVerts 1#32) ⟨1 / 2, 0, 1 / 2⟩ ∧ quadHit.maxPath ≤ quadHit.path.length ∧ quadHit.t = 0 := by
  have hcor : ∀ c, Corners (quadVerts c) := by
    intro c
    unfold quadVerts
    split
    · exact corners_rect 0 1 0 1 (by norm_num) (by norm_num)
    · split
      · exact corners_rect 0 1 1 3 (by norm_num) (by norm_num)
      · exact corners_rect 1 2 1 2 (by norm_num) (by norm_num)
  have hff : ¬ (0#8 = 255#8) := by decide
  refine ⟨⟨fun c _ => hcor c, ?_, ?_, ?_⟩, ?_, ⟨by decide, rfl⟩, ?_, by decide, rfl⟩
  · intro c _ l hl
    simp only [quadMesh] at hl ⊢
    split at hl
    · simp at hl; subst hl; decide
    · split at hl
      · simp at hl; rcases hl with rfl | rfl <;> decide
      · simp at hl
  · intro c _ l hl _ a b he
    simp only [quadMesh] at hl
    split at hl
    · rename_i hc
      subst hc
      simp at hl; subst hl
      simp only [quadVerts, if_true] at he ⊢
      rcases polyEdge_four he with ⟨h, _⟩ | ⟨_, rfl, rfl⟩ | ⟨h, _⟩ | ⟨h, _⟩
      · cases h
      · refine ⟨by simp [linkFrom, linkTo], ?_, ?_, ?_, by decide, by decide⟩
        · intro j x y hp
          rcases polyEdge_four hp with ⟨_, rfl, rfl⟩ | ⟨_, rfl, rfl⟩ | ⟨_, rfl, rfl⟩ | ⟨_, rfl, rfl⟩ <;> norm_num [triArea, edgeAt, linkFrom, hff]
        · intro j x y hp
          rcases polyEdge_four hp with ⟨_, rfl, rfl⟩ | ⟨_, rfl, rfl⟩ | ⟨_, rfl, rfl⟩ | ⟨_, rfl, rfl⟩ <;> norm_num [triArea, edgeAt, linkTo, hff]
        · intro p hp
          have := hp 3 _ _ ⟨rfl, rfl⟩
          simpa [triArea] using this
      · cases h
      · cases h
    · split at hl
      · rename_i _ hc
        subst hc
        simp at hl
        rcases hl with rfl | rfl
        · simp only [quadVerts] at he ⊢
          rcases polyEdge_four he with ⟨h, _⟩ | ⟨h, _⟩ | ⟨h, _⟩ | ⟨_, rfl, rfl⟩
          · cases h
          · cases h
          · cases h
          · refine ⟨by simp [linkFrom, linkTo], ?_, ?_, ?_, by decide, by decide⟩
            · intro j x y hp
              rcases polyEdge_four hp with ⟨_, rfl, rfl⟩ | ⟨_, rfl, rfl⟩ | ⟨_, rfl, rfl⟩ | ⟨_, rfl, rfl⟩ <;> norm_num [triArea, edgeAt, linkFrom, hff]
            · intro j x y hp
              rcases polyEdge_four hp with ⟨_, rfl, rfl⟩ | ⟨_, rfl, rfl⟩ | ⟨_, rfl, rfl⟩ | ⟨_, rfl, rfl⟩ <;> norm_num [triArea, edgeAt, linkTo, hff]
            · intro p hp
              have := hp 1 _ _ ⟨rfl, rfl⟩
              simpa [triArea] using this
        · simp only [quadVerts] at he ⊢
          rcases polyEdge_four he with ⟨h, _⟩ | ⟨h, _⟩ | ⟨_, rfl, rfl⟩ | ⟨h, _⟩
          · cases h
          · cases h
          · refine ⟨by norm_num [linkFrom, linkTo, hff], ?_, ?_, ?_, by norm_num, by decide⟩
            · intro j x y hp
              rcases polyEdge_four hp with ⟨_, rfl, rfl⟩ | ⟨_, rfl, rfl⟩ | ⟨_, rfl, rfl⟩ | ⟨_, rfl, rfl⟩ <;> norm_num [triArea, edgeAt, linkFrom, hff]
            · intro j x y hp
              rcases polyEdge_four hp with ⟨_, rfl, rfl⟩ | ⟨_, rfl, rfl⟩ | ⟨_, rfl, rfl⟩ | ⟨_, rfl, rfl⟩ <;> norm_num [triArea, edgeAt, linkTo, hff]
            · intro p hp
              have := hp 0 _ _ ⟨rfl, rfl⟩
              simp [triArea] at this ⊢
              linarith
          · cases h
      · simp at hl
  · intro c hg j a b he h
    exfalso
    revert h
    unfold quadVerts at he
    split at he
    · rcases polyEdge_four he with ⟨_, rfl, rfl⟩ | ⟨_, rfl, rfl⟩ | ⟨_, rfl, rfl⟩ | ⟨_, rfl, rfl⟩ <;> norm_num [V3.perp, V3.sub]
    · split at he
      · rcases polyEdge_four he with ⟨_, rfl, rfl⟩ | ⟨_, rfl, rfl⟩ | ⟨_, rfl, rfl⟩ | ⟨_, rfl, rfl⟩ <;> norm_num [V3.perp, V3.sub, abs_of_pos, abs_of_neg]
      · rcases polyEdge_four he with ⟨_, rfl, rfl⟩ | ⟨_, rfl, rfl⟩ | ⟨_, rfl, rfl⟩ | ⟨_, rfl, rfl⟩ <;> norm_num [V3.perp, V3.sub]
  · intro c l hl
    simp only [quadMesh] at hl
    split at hl
    · simp at hl; subst hl; decide
    · split at hl
      · simp at hl; rcases hl with rfl | rfl <;> decide
      · simp at hl
  · intro j a b hp
    simp only [quadVerts, if_true] at hp
    rcases polyEdge_four hp with ⟨_, rfl, rfl⟩ | ⟨_, rfl, rfl⟩ | ⟨_, rfl, rfl⟩ | ⟨_, rfl, rfl⟩ <;> norm_num [triArea]

/-- **C130** does not hold in full: a short ray over the right edge of square 1, which has no link, is reported to reach its end, as the edge
is taken for parallel to the ray; but the end is in none of the polygons. -/
theorem raycast_exact_refuted :
    ¬ (∀ (p0 p1 : V3 ℚ) (h h' : RayHit ℚ ℚ) (st : Status), InPoly (quadVerts 1#32) p0 → h.t = 0 → h.maxPath ≤ h.path.length →
      raycast quadMesh (exactRay (1 / 100000000) 1000 p0 p1 quadVerts) false (fun _ _ _ _ _ => (0 : ℚ)) 3 1#32 0#32 h = some (.ok st h') →
      h'.t = 1000 → ∃ d, Ground quadMesh d ∧ InPoly (quadVerts d) p1) := by
  intro hall
  obtain ⟨d, hg, hin⟩ := hall ⟨1 - 1 / 1000000000, 0, 1 / 2⟩ ⟨1 + 1 / 1000000000, 0, 1 / 2⟩ quadHit
    ⟨1000, none, none, [1#32, 0#32, 0#32, 0#32], 1, 4, 0⟩ Status.success (by
      intro j a b hp
      simp only [quadVerts, if_true] at hp
      rcases polyEdge_four hp with ⟨_, rfl, rfl⟩ | ⟨_, rfl, rfl⟩ | ⟨_, rfl, rfl⟩ | ⟨_, rfl, rfl⟩ <;> norm_num [triArea])
    rfl (by decide) (by decide +kernel) rfl
  have hd : d = 1#32 ∨ d = 2#32 ∨ d = 3#32 := by simpa [quadMesh] using hg.1
  rcases hd with rfl | rfl | rfl
  · have := hin 2 _ _ ⟨rfl, rfl⟩
    norm_num [triArea] at this
  · have := hin 3 _ _ ⟨rfl, rfl⟩
    norm_num [triArea] at this
  · have := hin 3 _ _ ⟨rfl, rfl⟩
    norm_num [triArea] at this

end Verif.Detour
