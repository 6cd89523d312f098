/-
`NavMeshQuery.ClosestPointOnPoly` and `ClosestPointOnPolyBoundary` (detour/query.go:941-1093) with
`distancePtPolyEdgesSqr` (detour/common.go:87-103), in exact arithmetic.

Simplifications: `float32` is replaced by an arbitrary linearly ordered field; the vertices of the polygon and of its
detail triangles are given as points (looking them up is C66 and C105). `d3.Vec3Lerp` and `Vec3.Dist` of the vector
library are those of the original C++.
-/
import Verif.Detour.RaycastExact
import Verif.Recast.PointInPoly
import Mathlib.Tactic.LinearCombination
import Mathlib.Tactic.Positivity

set_option linter.unusedVariables false
set_option linter.unusedSimpArgs false
set_option linter.unusedSectionVars false

namespace Verif.Detour
open Verif

variable {K : Type} [Field K] [LinearOrder K] [IsStrictOrderedRing K]

/-! ## Model -/

/-- The two coordinates the crossing test looks at. -/
def xz (p : V3 K) : Recast.Q2 K := ⟨p.x, p.z⟩

/-- `d3.Vec3Lerp`. -/
def lerp3 (a b : V3 K) (t : K) : V3 K := ⟨a.x + (b.x - a.x) * t, a.y + (b.y - a.y) * t, a.z + (b.z - a.z) * t⟩

/-- The arrays `ed` and `et` of `distancePtPolyEdgesSqr` (detour/common.go:87-103), written edge by edge. -/
def edgeTab (pos : V3 K) (vs : List (V3 K)) : Nat → K × K :=
  (polyEdges vs).foldl (fun t e => upd t e.1 (distPtSeg pos e.2.1 e.2.2)) fun _ => (0, 0)

/-- The result of `distancePtPolyEdgesSqr` (detour/common.go:89-102): the crossing test. -/
def overPoly (pos : V3 K) (vs : List (V3 K)) : Bool := Recast.pointInPoly (vs.map xz) (xz pos)

/-- `imin` (detour/query.go:991-998, 1079-1086); `dmin` is always `edged[imin]`. -/
def nearestEdge (tab : Nat → K × K) (n : Nat) : Nat :=
  (List.range (n - 1)).foldl (fun m i => if (tab (i + 1)).1 < (tab m).1 then i + 1 else m) 0

/-- The point of the nearest edge (detour/query.go:991-1003, 1079-1090). -/
def clampEdge (pos : V3 K) (vs : List (V3 K)) : V3 K :=
  let tab := edgeTab pos vs
  let m := nearestEdge tab vs.length
  lerp3 (vs.getD m ⟨0, 0, 0⟩) (vs.getD ((m + 1) % vs.length) ⟨0, 0, 0⟩) (tab m).2

/-- The height of the first detail triangle that has one (detour/query.go:1014-1038); `eps` is the literal 1e-4. -/
def firstHeight (eps : K) (p : V3 K) (tris : List (V3 K × V3 K × V3 K)) : Option K :=
  tris.findSome? fun t => heightTri eps p t.1 t.2.1 t.2.2

/-- `closest[1] = h`. -/
def withHeight (p : V3 K) : Option K → V3 K
  | some h => { p with y := h }
  | none => p

/-- `ClosestPointOnPoly` on a ground polygon (detour/query.go:970-1040): `closest` and `posOverPoly`. -/
def closestOnPoly (eps : K) (vs : List (V3 K)) (tris : List (V3 K × V3 K × V3 K)) (pos : V3 K) : V3 K × Bool :=
  let over := overPoly pos vs
  let c := if over then pos else clampEdge pos vs
  (withHeight c (firstHeight eps c tris), over)

/-- `ClosestPointOnPolyBoundary` (detour/query.go:1051-1093). -/
def closestOnBoundary (vs : List (V3 K)) (pos : V3 K) : V3 K :=
  if overPoly pos vs then pos else clampEdge pos vs

/-- `ClosestPointOnPoly` on an off-mesh connection (detour/query.go:952-968); `d0` and `d1` are the distances of the
point to the two ends. -/
def closestOnCon (d0 d1 : K) (v0 v1 : V3 K) : V3 K := lerp3 v0 v1 (d0 / (d0 + d1))

/-! ## Spec -/

/-- Spec: the square of the distance in the xz-plane. -/
def flatSq (p q : V3 K) : K := (q.x - p.x) ^ 2 + (q.z - p.z) ^ 2

/-- Spec: the point lies on an edge of the polygon, seen from above. -/
def OnBoundary (vs : List (V3 K)) (p : V3 K) : Prop :=
  ∃ j a b s, PolyEdge vs j a b ∧ 0 ≤ s ∧ s ≤ 1 ∧ p.x = a.x + s * (b.x - a.x) ∧ p.z = a.z + s * (b.z - a.z)

/-- Spec: the same, in space. -/
def OnOutline (vs : List (V3 K)) (p : V3 K) : Prop :=
  ∃ j a b s, PolyEdge vs j a b ∧ 0 ≤ s ∧ s ≤ 1 ∧ p = ⟨a.x + s * (b.x - a.x), a.y + s * (b.y - a.y), a.z + s * (b.z - a.z)⟩

/-- Spec: the point lies strictly inside, seen from above. -/
def StrictlyIn (vs : List (V3 K)) (p : V3 K) : Prop := ∀ j a b, PolyEdge vs j a b → 0 < triArea a b p

/-- Spec: a convex polygon whose corners are different places. -/
structure ConvexPolygon (vs : List (V3 K)) : Prop where
  corners : Corners vs
  nodup : (vs.map xz).Nodup

/-! ## The edges -/

theorem polyEdge_at {vs : List (V3 K)} {j : Nat} (hj : j < vs.length) :
    PolyEdge vs j (vs.getD j ⟨0, 0, 0⟩) (vs.getD ((j + 1) % vs.length) ⟨0, 0, 0⟩) := by
  have h1 : (j + 1) % vs.length < vs.length := Nat.mod_lt _ (by omega)
  constructor
  · rw [List.getD_eq_getElem?_getD, List.getElem?_eq_getElem hj]; rfl
  · rw [List.getD_eq_getElem?_getD, List.getElem?_eq_getElem h1]; rfl

theorem PolyEdge.lt {vs : List (V3 K)} {j : Nat} {a b : V3 K} (h : PolyEdge vs j a b) : j < vs.length :=
  (List.getElem?_eq_some_iff.1 h.1).1

theorem foldl_upd_edges (pos : V3 K) (l : List (Nat × V3 K × V3 K)) : ∀ (t : Nat → K × K) (j : Nat) (a b : V3 K),
    (j, a, b) ∈ l → (∀ a' b', (j, a', b') ∈ l → a' = a ∧ b' = b) →
    l.foldl (fun t e => upd t e.1 (distPtSeg pos e.2.1 e.2.2)) t j = distPtSeg pos a b := by
  -- written from the end of the list
  induction l using List.reverseRecOn with
  | nil => intro t j a b h; simp at h
  | append_singleton l e ih =>
    intro t j a b h hu
    rw [List.foldl_append, List.foldl_cons, List.foldl_nil]
    obtain ⟨k, c, d⟩ := e
    by_cases hk : j = k
    · subst hk
      obtain ⟨rfl, rfl⟩ := hu c d (by simp)
      rw [upd_same]
    · rw [upd_ne _ _ (by exact hk)]
      refine ih t j a b ?_ (fun a' b' h' => hu a' b' (by simp [h']))
      rcases List.mem_append.1 h with h | h
      · exact h
      · simp only [List.mem_singleton, Prod.mk.injEq] at h
        exact absurd h.1 hk

/-- The arrays hold distance and parameter of each edge. -/
theorem edgeTab_edge {pos : V3 K} {vs : List (V3 K)} {j : Nat} {a b : V3 K} (h : PolyEdge vs j a b) :
    edgeTab pos vs j = distPtSeg pos a b := by
  unfold edgeTab
  refine foldl_upd_edges pos _ _ j a b ((mem_polyEdges vs j a b).2 h) ?_
  intro a' b' h'
  exact PolyEdge.unique ((mem_polyEdges vs j a' b').1 h') h

theorem nearestEdge_spec (tab : Nat → K × K) (n : Nat) (hn : 0 < n) :
    nearestEdge tab n < n ∧ ∀ i < n, (tab (nearestEdge tab n)).1 ≤ (tab i).1 := by
  unfold nearestEdge
  have gen : ∀ m, (List.range m).foldl (fun m i => if (tab (i + 1)).1 < (tab m).1 then i + 1 else m) 0 ≤ m ∧
      ∀ i ≤ m, (tab ((List.range m).foldl (fun m i => if (tab (i + 1)).1 < (tab m).1 then i + 1 else m) 0)).1 ≤ (tab i).1 := by
    intro m
    induction m with
    | zero => exact ⟨le_rfl, fun i hi => by rw [Nat.le_zero.1 hi]; exact le_rfl⟩
    | succ m ih =>
      rw [List.range_succ, List.foldl_append, List.foldl_cons, List.foldl_nil]
      generalize (List.range m).foldl (fun m i => if (tab (i + 1)).1 < (tab m).1 then i + 1 else m) 0 = r at ih ⊢
      obtain ⟨h1, h2⟩ := ih
      split
      · rename_i hlt
        refine ⟨le_rfl, fun i hi => ?_⟩
        rcases Nat.lt_or_ge m i with h | h
        · have : i = m + 1 := by omega
          rw [this]
        · exact hlt.le.trans (h2 i h)
      · rename_i hlt
        push Not at hlt
        refine ⟨by omega, fun i hi => ?_⟩
        rcases Nat.lt_or_ge m i with h | h
        · have : i = m + 1 := by omega
          rw [this]; exact hlt
        · exact h2 i h
  obtain ⟨h1, h2⟩ := gen (n - 1)
  exact ⟨by omega, fun i hi => h2 i (by omega)⟩

/-- The nearest point of the edges. -/
theorem clampEdge_spec (pos : V3 K) (vs : List (V3 K)) (h0 : vs ≠ []) :
    OnOutline vs (clampEdge pos vs) ∧ ∀ q, OnBoundary vs q → flatSq pos (clampEdge pos vs) ≤ flatSq pos q := by
  have hn : 0 < vs.length := List.length_pos_of_ne_nil h0
  obtain ⟨hm, hleast⟩ := nearestEdge_spec (edgeTab pos vs) vs.length hn
  unfold clampEdge
  simp only
  generalize nearestEdge (edgeTab pos vs) vs.length = m at hm hleast ⊢
  have he := polyEdge_at hm
  generalize vs.getD m ⟨0, 0, 0⟩ = a at he ⊢
  generalize vs.getD ((m + 1) % vs.length) ⟨0, 0, 0⟩ = b at he ⊢
  have htab := edgeTab_edge (pos := pos) he
  obtain ⟨⟨t0, t1⟩, hd, -⟩ := distPtSeg_closest pos a b
  rw [htab]
  constructor
  · refine ⟨m, a, b, _, he, t0, t1, ?_⟩
    simp only [lerp3, V3.mk.injEq]
    refine ⟨by ring, by ring, by ring⟩
  · rintro q ⟨j, c, d, s, hj, s0, s1, hx, hz⟩
    have h1 := hleast j hj.lt
    rw [htab, edgeTab_edge hj] at h1
    obtain ⟨-, -, hbest⟩ := distPtSeg_closest pos c d
    have h2 := hbest s s0 s1
    have e1 : flatSq pos (lerp3 a b (distPtSeg pos a b).2) = (distPtSeg pos a b).1 := by
      rw [hd]
      simp only [flatSq, lerp3]
      ring
    have e2 : flatSq pos q = (c.x + s * (d.x - c.x) - pos.x) ^ 2 + (c.z + s * (d.z - c.z) - pos.z) ^ 2 := by
      simp only [flatSq, hx, hz]
    rw [e1, e2]
    exact h1.trans h2

/-! ## The crossing test on convex polygons -/

/-- Two steps from false to true, at different places of the list. -/
theorem two_ups {α : Type} (f : α → Bool) (l : List α) : ∀ (a : α), 2 ≤ Recast.ups (f a) (l.map f) →
    ∃ a1 b1 a2 b2, [b1, b2].Sublist l ∧ [(a1, b1), (a2, b2)].Sublist ((a :: l).zip l) ∧
      f a1 = false ∧ f b1 = true ∧ f a2 = false ∧ f b2 = true := by
  have one : ∀ (l : List α) (a : α), 1 ≤ Recast.ups (f a) (l.map f) →
      ∃ a1 b1, b1 ∈ l ∧ (a1, b1) ∈ (a :: l).zip l ∧ f a1 = false ∧ f b1 = true := by
    intro l
    induction l with
    | nil => intro a h; simp [Recast.ups] at h
    | cons b l ih =>
      intro a h
      rw [List.map_cons, Recast.ups] at h
      by_cases hc : f a = false ∧ f b = true
      · exact ⟨a, b, by simp, by simp, hc.1, hc.2⟩
      · rw [if_neg hc] at h
        obtain ⟨a1, b1, h1, h2, h3⟩ := ih b (by omega)
        refine ⟨a1, b1, by simp [h1], ?_, h3⟩
        rw [List.zip_cons_cons]
        exact List.mem_cons_of_mem _ h2
  induction l with
  | nil => intro a h; simp [Recast.ups] at h
  | cons b l ih =>
    intro a h
    rw [List.map_cons, Recast.ups] at h
    rw [List.zip_cons_cons]
    by_cases hc : f a = false ∧ f b = true
    · rw [if_pos hc] at h
      obtain ⟨a2, b2, h1, h2, h3, h4⟩ := one l b (by omega)
      exact ⟨a, b, a2, b2, List.Sublist.cons_cons b (List.singleton_sublist.2 h1),
        List.Sublist.cons_cons _ (List.singleton_sublist.2 h2), hc.1, hc.2, h3, h4⟩
    · rw [if_neg hc] at h
      obtain ⟨a1, b1, a2, b2, h1, h2, h3⟩ := ih b (by omega)
      exact ⟨a1, b1, a2, b2, h1.cons b, h2.cons _, h3⟩

/-- Consecutive vertices are the ends of an edge. -/
theorem zip_polyEdge {vs : List (V3 K)} {z : V3 K} (hz : vs.getLast? = some z) {a b : V3 K} (h : (a, b) ∈ (z :: vs).zip vs) :
    ∃ j, PolyEdge vs j a b := by
  obtain ⟨i, hi, e⟩ := List.mem_iff_getElem.1 h
  rw [List.length_zip, List.length_cons] at hi
  have hi : i < vs.length := by omega
  rw [List.getElem_zip] at e
  simp only [Prod.mk.injEq] at e
  obtain ⟨e1, e2⟩ := e
  cases i with
  | zero =>
    simp only [List.getElem_cons_zero] at e1
    refine ⟨vs.length - 1, ?_, ?_⟩
    · rw [← List.getLast?_eq_getElem?, hz, e1]
    · rw [show vs.length - 1 + 1 = vs.length by omega, Nat.mod_self, List.getElem?_eq_getElem hi, e2]
  | succ i =>
    simp only [List.getElem_cons_succ] at e1
    refine ⟨i, ?_, ?_⟩
    · rw [List.getElem?_eq_getElem (by omega), e1]
    · rw [Nat.mod_eq_of_lt hi, List.getElem?_eq_getElem hi, e2]

/-- A point on the line of an edge, as a point of that line. -/
theorem exists_edgeAt' {a b p : V3 K} (hne : ¬ (b.x = a.x ∧ b.z = a.z)) (h : triArea a b p = 0) :
    ∃ s, p.x = (edgeAt a b s).x ∧ p.z = (edgeAt a b s).z := by
  refine exists_edgeAt (dir := ⟨-(b.z - a.z), 0, b.x - a.x⟩) ?_ h
  simp only [V3.perp, V3.sub]
  have e : (b.x - a.x) * (b.x - a.x) - -(b.z - a.z) * (b.z - a.z) = (b.x - a.x) ^ 2 + (b.z - a.z) ^ 2 := by ring
  rw [e]
  by_contra hle
  push Not at hle
  have h1 := sq_nonneg (b.x - a.x)
  have h2 := sq_nonneg (b.z - a.z)
  have e1 : (b.x - a.x) ^ 2 = 0 := by linarith
  have e2 : (b.z - a.z) ^ 2 = 0 := by linarith
  exact hne ⟨by linarith [pow_eq_zero_iff (two_ne_zero) |>.1 e1], by linarith [pow_eq_zero_iff (two_ne_zero) |>.1 e2]⟩

/-- A convex polygon has only one edge that leads from one side of a line to the other. -/
theorem Corners.one_up {vs : List (V3 K)} (hc : Corners vs) (h : Recast.Aff K) {j k : Nat} {a1 b1 a2 b2 : V3 K}
    (he1 : PolyEdge vs j a1 b1) (he2 : PolyEdge vs k a2 b2) (ha1 : h.val (xz a1) < 0) (hb1 : 0 ≤ h.val (xz b1))
    (ha2 : h.val (xz a2) < 0) (hb2 : 0 ≤ h.val (xz b2)) : xz b1 = xz b2 := by
  have i1 := hc.inside a2 he2.mem.1 _ _ _ he1
  have i2 := hc.inside b2 he2.mem.2 _ _ _ he1
  have i3 := hc.inside a1 he1.mem.1 _ _ _ he2
  have i4 := hc.inside b1 he1.mem.2 _ _ _ he2
  have key : h.val (xz b2) * triArea a1 b1 a2 + -h.val (xz a2) * triArea a1 b1 b2 +
      h.val (xz b1) * triArea a2 b2 a1 + -h.val (xz a1) * triArea a2 b2 b1 = 0 := by
    simp only [Recast.Aff.val, xz, triArea]; ring
  have n1 := mul_nonneg hb2 i1
  have n2 := mul_nonneg (neg_nonneg.2 ha2.le) i2
  have n3 := mul_nonneg hb1 i3
  have n4 := mul_nonneg (neg_nonneg.2 ha1.le) i4
  have z2 : -h.val (xz a2) * triArea a1 b1 b2 = 0 := by linarith
  have z4 : -h.val (xz a1) * triArea a2 b2 b1 = 0 := by linarith
  have t2 : triArea a1 b1 b2 = 0 := by
    rcases mul_eq_zero.1 z2 with e | e
    · linarith
    · exact e
  have t4 : triArea a2 b2 b1 = 0 := by
    rcases mul_eq_zero.1 z4 with e | e
    · linarith
    · exact e
  have d1 : ¬ (b1.x = a1.x ∧ b1.z = a1.z) := by
    rintro ⟨e1, e2⟩
    simp only [Recast.Aff.val, xz] at ha1 hb1
    rw [e1, e2] at hb1
    linarith
  have d2 : ¬ (b2.x = a2.x ∧ b2.z = a2.z) := by
    rintro ⟨e1, e2⟩
    simp only [Recast.Aff.val, xz] at ha2 hb2
    rw [e1, e2] at hb2
    linarith
  obtain ⟨s, sx, sz⟩ := exists_edgeAt' d1 t2
  obtain ⟨t, tx, tz⟩ := exists_edgeAt' d2 t4
  obtain ⟨s0, s1⟩ := hc.onEdge he1 ((hc.inside b2 he2.mem.2).congr sx sz)
  obtain ⟨t0, t1⟩ := hc.onEdge he2 ((hc.inside b1 he1.mem.2).congr tx tz)
  simp only [edgeAt] at sx sz tx tz
  have v2 : h.val (xz b2) = h.val (xz a1) + s * (h.val (xz b1) - h.val (xz a1)) := by
    simp only [Recast.Aff.val, xz]; rw [sx, sz]; ring
  have v1 : h.val (xz b1) = h.val (xz a2) + t * (h.val (xz b2) - h.val (xz a2)) := by
    simp only [Recast.Aff.val, xz]; rw [tx, tz]; ring
  have le1 : h.val (xz b2) ≤ h.val (xz b1) := by
    rw [v2]; nlinarith
  have le2 : h.val (xz b1) ≤ h.val (xz b2) := by
    rw [v1]; nlinarith
  have hs : s = 1 := by
    have : (1 - s) * (h.val (xz b1) - h.val (xz a1)) = 0 := by linarith
    rcases mul_eq_zero.1 this with e | e
    · linarith
    · linarith
  simp only [xz, Recast.Q2.mk.injEq]
  rw [sx, sz, hs]
  exact ⟨by ring, by ring⟩

theorem ConvexPolygon.convex {vs : List (V3 K)} (hc : ConvexPolygon vs) : Recast.Convex (vs.map xz) := by
  intro h
  rw [List.map_map]
  cases hz : vs.getLast? with
  | none =>
    rw [List.getLast?_eq_none_iff] at hz
    subst hz
    simp [Recast.ctr]
  | some z =>
    let f : V3 K → Bool := fun p => decide (0 ≤ h.val (xz p))
    have hl : (vs.map f).getLast? = some (f z) := by rw [List.getLast?_map, hz]; rfl
    have e : ((fun q => decide (0 ≤ h.val q)) ∘ xz) = f := rfl
    rw [e, (Recast.ups_eq_downs hl).2]
    by_contra hgt
    obtain ⟨a1, b1, a2, b2, h1, h2, f1, f2, f3, f4⟩ := two_ups f vs z (by omega)
    obtain ⟨j, hj⟩ := zip_polyEdge hz (h2.subset (by simp : (a1, b1) ∈ [(a1, b1), (a2, b2)]))
    obtain ⟨k, hk⟩ := zip_polyEdge hz (h2.subset (by simp : (a2, b2) ∈ [(a1, b1), (a2, b2)]))
    simp only [f, decide_eq_false_iff_not, not_le, decide_eq_true_eq] at f1 f2 f3 f4
    have heq := hc.corners.one_up h hj hk f1 f2 f3 f4
    have hnd := hc.nodup.sublist (h1.map xz)
    simp only [List.map_cons, List.map_nil, List.nodup_cons, List.mem_singleton] at hnd
    exact hnd.1 heq

theorem side_triArea (a b p : V3 K) : Recast.side (xz a) (xz b) (xz p) = -triArea a b p := by
  simp only [Recast.side, xz, triArea]; ring

theorem pairs_polyEdge {vs : List (V3 K)} {z : V3 K} (hz : vs.getLast? = some z) {e : Recast.Q2 K × Recast.Q2 K}
    (he : e ∈ Recast.pairs (xz z) (vs.map xz)) : ∃ j a b, PolyEdge vs j a b ∧ e = (xz a, xz b) := by
  have gen : ∀ (l : List (V3 K)) (z : V3 K), e ∈ Recast.pairs (xz z) (l.map xz) → ∃ a b, (a, b) ∈ (z :: l).zip l ∧ e = (xz a, xz b) := by
    intro l
    induction l with
    | nil => intro z h; simp [Recast.pairs] at h
    | cons b l ih =>
      intro z h
      rw [List.map_cons, Recast.pairs, List.mem_cons] at h
      rcases h with rfl | h
      · exact ⟨z, b, by simp, rfl⟩
      · obtain ⟨a, c, h1, h2⟩ := ih b h
        exact ⟨a, c, by rw [List.zip_cons_cons]; exact List.mem_cons_of_mem _ h1, h2⟩
  obtain ⟨a, b, h1, h2⟩ := gen vs z he
  obtain ⟨j, hj⟩ := zip_polyEdge hz h1
  exact ⟨j, a, b, hj, h2⟩

/-- Strictly inside the test says yes. -/
theorem overPoly_inside {vs : List (V3 K)} (hc : ConvexPolygon vs) {p : V3 K} (h : StrictlyIn vs p) : overPoly p vs = true := by
  have h3 := hc.corners.three
  refine Recast.pointInPoly_inside _ hc.convex _ ⟨?_, Or.inr ?_⟩
  · intro e
    have := congrArg List.length e
    simp at this
    subst this
    simp at h3
  · intro e he
    unfold Recast.edges at he
    cases hz : vs.getLast? with
    | none => rw [List.getLast?_map, hz] at he; simp at he
    | some z =>
      rw [List.getLast?_map, hz] at he
      obtain ⟨j, a, b, hj, rfl⟩ := pairs_polyEdge hz he
      rw [side_triArea]
      have := h j a b hj
      linarith

/-- Outside it says no. -/
theorem overPoly_outside {vs : List (V3 K)} (hc : Corners vs) {p : V3 K} (h : ¬ InPoly vs p) : overPoly p vs = false := by
  unfold InPoly at h
  push Not at h
  obtain ⟨j, a, b, hj, hlt⟩ := h
  refine Recast.pointInPoly_outside _ _ ⟨⟨b.z - a.z, -(b.x - a.x), -a.x * (b.z - a.z) + (b.x - a.x) * a.z⟩, ?_, ?_⟩
  · intro q hq
    obtain ⟨v, hv, rfl⟩ := List.mem_map.1 hq
    have := hc.inside v hv j a b hj
    simp only [Recast.Aff.val, xz, triArea] at this ⊢
    linarith
  · simp only [Recast.Aff.val, xz, triArea] at hlt ⊢
    linarith

/-! ## Nearest of all points -/

/-- On the way from a point that is not strictly inside to one inside there is one on the boundary. -/
theorem first_zero (L : List (K × K)) (h1 : ∀ f ∈ L, 0 ≤ f.1 + f.2) :
    (∀ f ∈ L, 0 < f.1) ∨ ∃ t, 0 ≤ t ∧ t ≤ 1 ∧ (∀ f ∈ L, 0 ≤ f.1 + t * f.2) ∧ ∃ f ∈ L, f.1 + t * f.2 = 0 := by
  induction L with
  | nil => left; simp
  | cons g L ih =>
    have hg := h1 g (by simp)
    have conv : ∀ f ∈ L, ∀ t s : K, 0 ≤ f.1 + t * f.2 → t ≤ s → s ≤ 1 → 0 ≤ f.1 + s * f.2 := by
      intro f hf t s ht hts hs
      have h2 := h1 f (by simp [hf])
      rcases le_or_gt 0 f.2 with h | h
      · have := mul_le_mul_of_nonneg_right hts h
        linarith
      · have := mul_le_mul_of_nonpos_right hs h.le
        linarith
    -- the zero of `g` after `t`
    have zero : ∀ t : K, 0 ≤ t → t ≤ 1 → g.1 + t * g.2 ≤ 0 → ∃ s, t ≤ s ∧ s ≤ 1 ∧ g.1 + s * g.2 = 0 := by
      intro t h0 ht hle
      rcases hle.lt_or_eq with hlt | heq
      · have hpos : 0 < g.2 := by
          by_contra hn
          push Not at hn
          have := mul_le_mul_of_nonpos_right ht hn
          linarith
        refine ⟨-g.1 / g.2, ?_, ?_, ?_⟩
        · rw [le_div_iff₀ hpos]; linarith
        · rw [div_le_one hpos]; linarith
        · rw [div_mul_cancel₀ _ hpos.ne']; ring
      · exact ⟨t, le_rfl, ht, heq⟩
    rcases ih (fun f hf => h1 f (by simp [hf])) with hall | ⟨t, t0, t1, ha, f, hf, hz⟩
    · rcases lt_or_ge 0 g.1 with hp | hp
      · left
        intro f hf
        rcases List.mem_cons.1 hf with rfl | hf
        · exact hp
        · exact hall f hf
      · obtain ⟨s, s0, s1, hs⟩ := zero 0 le_rfl zero_le_one (by linarith)
        right
        refine ⟨s, s0, s1, ?_, g, by simp, hs⟩
        intro f hf
        rcases List.mem_cons.1 hf with rfl | hf
        · exact hs.ge
        · exact conv f hf 0 s (by have := hall f hf; linarith) s0 s1
    · right
      rcases le_or_gt 0 (g.1 + t * g.2) with hp | hp
      · refine ⟨t, t0, t1, ?_, f, by simp [hf], hz⟩
        intro f' hf'
        rcases List.mem_cons.1 hf' with rfl | hf'
        · exact hp
        · exact ha f' hf'
      · obtain ⟨s, s0, s1, hs⟩ := zero t t0 t1 hp.le
        refine ⟨s, t0.trans s0, s1, ?_, g, by simp, hs⟩
        intro f' hf'
        rcases List.mem_cons.1 hf' with rfl | hf'
        · exact hs.ge
        · exact conv f' hf' t s (ha f' hf') s0 s1

/-- From a point that is not strictly inside, the nearest point of the polygon is on its boundary. -/
theorem boundary_nearer {vs : List (V3 K)} (hc : Corners vs) {p q : V3 K} (hp : ¬ StrictlyIn vs p) (hq : InPoly vs q) :
    ∃ r, OnBoundary vs r ∧ flatSq p r ≤ flatSq p q := by
  let L : List (K × K) := (polyEdges vs).map fun e => (triArea e.2.1 e.2.2 p, triArea e.2.1 e.2.2 q - triArea e.2.1 e.2.2 p)
  have hmem : ∀ j a b, PolyEdge vs j a b → (triArea a b p, triArea a b q - triArea a b p) ∈ L := by
    intro j a b h
    exact List.mem_map.2 ⟨(j, a, b), (mem_polyEdges vs j a b).2 h, rfl⟩
  rcases first_zero L (by
    intro f hf
    obtain ⟨⟨j, a, b⟩, he, rfl⟩ := List.mem_map.1 hf
    have := hq j a b ((mem_polyEdges vs j a b).1 he)
    simp only
    linarith) with hall | ⟨t, t0, t1, ha, f, hf, hz⟩
  · exfalso
    exact hp fun j a b h => hall _ (hmem j a b h)
  · have hval : ∀ a b : V3 K, triArea a b (rayAt p q t) = triArea a b p + t * (triArea a b q - triArea a b p) := by
      intro a b
      simp only [triArea, rayAt]; ring
    have hin : InPoly vs (rayAt p q t) := by
      intro j a b h
      rw [hval]
      exact ha _ (hmem j a b h)
    obtain ⟨⟨j, a, b⟩, he, rfl⟩ := List.mem_map.1 hf
    have he := (mem_polyEdges vs j a b).1 he
    simp only at hz
    rw [← hval] at hz
    have hne : ¬ (b.x = a.x ∧ b.z = a.z) := by
      rintro ⟨e1, e2⟩
      have h3 := hc.three
      have hk : (j + 2) % vs.length < vs.length := Nat.mod_lt _ (by omega)
      have := hc.turns j a b _ he.1 he.2 (List.getElem?_eq_getElem hk)
      simp only [triArea] at this
      rw [e1, e2] at this
      ring_nf at this
      exact lt_irrefl _ this
    obtain ⟨s, sx, sz⟩ := exists_edgeAt' hne hz
    obtain ⟨s0, s1⟩ := hc.onEdge he (hin.congr sx sz)
    refine ⟨rayAt p q t, ⟨j, a, b, s, he, s0, s1, by rw [sx, edgeAt], by rw [sz, edgeAt]⟩, ?_⟩
    have e : flatSq p (rayAt p q t) = t ^ 2 * flatSq p q := by
      simp only [flatSq, rayAt]; ring
    rw [e]
    have h1 : 0 ≤ flatSq p q := by unfold flatSq; positivity
    have h2 : t ^ 2 ≤ 1 := by nlinarith
    nlinarith

/-! ## Properties -/

/-- Spec: seen from above the point is in the triangle, up to a tolerance, and it is at the height of the triangle's
plane. -/
def OnTriangle (eps : K) (t : V3 K × V3 K × V3 K) (p : V3 K) : Prop :=
  ∃ α β γ : K, -eps ≤ β ∧ -eps ≤ γ ∧ -eps ≤ α ∧ α + β + γ = 1 ∧
    p = ⟨α * t.1.x + β * t.2.1.x + γ * t.2.2.x, α * t.1.y + β * t.2.1.y + γ * t.2.2.y, α * t.1.z + β * t.2.1.z + γ * t.2.2.z⟩

/-- Spec: the triangle has an area. -/
def Proper (t : V3 K × V3 K × V3 K) : Prop := triArea t.1 t.2.1 t.2.2 ≠ 0

theorem withHeight_xz (p : V3 K) (h : Option K) : (withHeight p h).x = p.x ∧ (withHeight p h).z = p.z := by
  cases h <;> exact ⟨rfl, rfl⟩

theorem OnOutline.inPoly {vs : List (V3 K)} (hc : Corners vs) {p : V3 K} (h : OnOutline vs p) : InPoly vs p := by
  obtain ⟨j, a, b, s, he, s0, s1, rfl⟩ := h
  exact (hc.edge he s0 s1).congr rfl rfl

theorem Corners.ne_nil {vs : List (V3 K)} (hc : Corners vs) : vs ≠ [] := by
  rintro rfl
  have := hc.three
  simp at this

theorem overPoly_in {vs : List (V3 K)} (hc : Corners vs) {p : V3 K} (h : overPoly p vs = true) : InPoly vs p := by
  by_contra hn
  rw [overPoly_outside hc hn] at h
  cases h

/-- **C139** `ClosestPointOnPoly` returns a point that is over the polygon, and no point over the polygon is nearer in the
xz-plane. -/
theorem closestOnPoly_nearest {vs : List (V3 K)} (hc : ConvexPolygon vs) (eps : K) (tris : List (V3 K × V3 K × V3 K)) (pos : V3 K) :
    InPoly vs (closestOnPoly eps vs tris pos).1 ∧
    ∀ q, InPoly vs q → flatSq pos (closestOnPoly eps vs tris pos).1 ≤ flatSq pos q := by
  unfold closestOnPoly
  simp only
  obtain ⟨ex, ez⟩ := withHeight_xz (if overPoly pos vs = true then pos else clampEdge pos vs)
    (firstHeight eps (if overPoly pos vs = true then pos else clampEdge pos vs) tris)
  have hflat : ∀ p r : V3 K, r.x = p.x → r.z = p.z → flatSq pos r = flatSq pos p := by
    intro p r h1 h2
    simp only [flatSq, h1, h2]
  rw [hflat _ _ ex ez]
  cases ho : overPoly pos vs
  · rw [ho] at ex ez
    rw [if_neg (by simp)] at ex ez ⊢
    obtain ⟨h1, h2⟩ := clampEdge_spec pos vs hc.corners.ne_nil
    refine ⟨(h1.inPoly hc.corners).congr ex.symm ez.symm, fun q hq => ?_⟩
    have hn : ¬ StrictlyIn vs pos := by
      intro hs
      rw [overPoly_inside hc hs] at ho
      cases ho
    obtain ⟨r, hr, hle⟩ := boundary_nearer hc.corners hn hq
    exact (h2 r hr).trans hle
  · rw [ho] at ex ez
    rw [if_pos rfl] at ex ez ⊢
    refine ⟨(overPoly_in hc.corners ho).congr ex.symm ez.symm, fun q hq => ?_⟩
    have e : flatSq pos pos = 0 := by simp [flatSq]
    rw [e]
    unfold flatSq
    positivity

/-- **C139** `posOverPoly` is true for points strictly inside, false for points outside (seen from above); if it is true,
the point returned is straight above or below the one given. -/
theorem closestOnPoly_over {vs : List (V3 K)} (hc : ConvexPolygon vs) (eps : K) (tris : List (V3 K × V3 K × V3 K)) (pos : V3 K) :
    (StrictlyIn vs pos → (closestOnPoly eps vs tris pos).2 = true) ∧
    ((closestOnPoly eps vs tris pos).2 = true → InPoly vs pos ∧ (closestOnPoly eps vs tris pos).1.x = pos.x ∧
      (closestOnPoly eps vs tris pos).1.z = pos.z) := by
  refine ⟨fun h => overPoly_inside hc h, fun h => ?_⟩
  have ho : overPoly pos vs = true := h
  refine ⟨overPoly_in hc.corners ho, ?_⟩
  unfold closestOnPoly
  simp only
  rw [if_pos ho]
  exact withHeight_xz _ _

/-- A height comes from the plane of a triangle that the point is over, up to the tolerance. -/
theorem heightTri_plane {eps : K} {p : V3 K} {t : V3 K × V3 K × V3 K} (ht : Proper t) {h : K}
    (hh : heightTri eps p t.1 t.2.1 t.2.2 = some h) : OnTriangle eps t { p with y := h } := by
  obtain ⟨a, b, c⟩ := t
  simp only [Proper, triArea] at ht
  simp only at hh
  have hne : (c.x - a.x) * (b.z - a.z) - (b.x - a.x) * (c.z - a.z) ≠ 0 := ht
  generalize hD : (c.x - a.x) * (b.z - a.z) - (b.x - a.x) * (c.z - a.z) = D at hne
  have hx : p.x = a.x + ((p.x - a.x) * (b.z - a.z) - (b.x - a.x) * (p.z - a.z)) / D * (c.x - a.x) +
      ((c.x - a.x) * (p.z - a.z) - (p.x - a.x) * (c.z - a.z)) / D * (b.x - a.x) := by
    rw [div_mul_eq_mul_div, div_mul_eq_mul_div, add_assoc, ← add_div, ← sub_eq_iff_eq_add', eq_div_iff hne, ← hD]
    ring
  have hz : p.z = a.z + ((p.x - a.x) * (b.z - a.z) - (b.x - a.x) * (p.z - a.z)) / D * (c.z - a.z) +
      ((c.x - a.x) * (p.z - a.z) - (p.x - a.x) * (c.z - a.z)) / D * (b.z - a.z) := by
    rw [div_mul_eq_mul_div, div_mul_eq_mul_div, add_assoc, ← add_div, ← sub_eq_iff_eq_add', eq_div_iff hne, ← hD]
    ring
  generalize ((p.x - a.x) * (b.z - a.z) - (b.x - a.x) * (p.z - a.z)) / D = u at hx hz
  generalize ((c.x - a.x) * (p.z - a.z) - (p.x - a.x) * (c.z - a.z)) / D = v at hx hz
  rw [heightTri_spec eps p a b c ht u v hx hz] at hh
  split at hh
  · rename_i hc
    obtain ⟨h1, h2, h3⟩ := hc
    rw [Option.some.injEq] at hh
    refine ⟨1 - u - v, v, u, h2, h1, by linarith, by ring, ?_⟩
    simp only [V3.mk.injEq]
    refine ⟨by rw [hx]; ring, by rw [← hh]; ring, by rw [hz]; ring⟩
  · cases hh

/-- **C139** The point returned is on the detail surface: wherever a detail triangle covers the place, the point is in the
plane of a detail triangle, within it up to the tolerance. -/
theorem closestOnPoly_height {vs : List (V3 K)} {eps : K} (he : 0 ≤ eps) {tris : List (V3 K × V3 K × V3 K)}
    (hp : ∀ t ∈ tris, Proper t) {pos : V3 K} {t : V3 K × V3 K × V3 K} (ht : t ∈ tris) {y : K}
    (hcov : OnTriangle 0 t ⟨(closestOnPoly eps vs tris pos).1.x, y, (closestOnPoly eps vs tris pos).1.z⟩) :
    ∃ t ∈ tris, OnTriangle eps t (closestOnPoly eps vs tris pos).1 := by
  unfold closestOnPoly at *
  simp only at *
  generalize (if overPoly pos vs = true then pos else clampEdge pos vs) = c at *
  obtain ⟨ex, ez⟩ := withHeight_xz c (firstHeight eps c tris)
  rw [ex, ez] at hcov
  obtain ⟨α, β, γ, h1, h2, h3, h4, h5⟩ := hcov
  simp only [V3.mk.injEq] at h5
  have hsome : heightTri eps c t.1 t.2.1 t.2.2 = some (α * t.1.y + β * t.2.1.y + γ * t.2.2.y) :=
    heightTri_inside eps he t.1 t.2.1 t.2.2 (hp t ht) α β γ (by linarith) (by linarith) (by linarith) h4 c h5.1 h5.2.2
  cases hf : firstHeight eps c tris with
  | none =>
    unfold firstHeight at hf
    rw [List.findSome?_eq_none_iff] at hf
    rw [hf t ht] at hsome
    cases hsome
  | some h =>
    unfold firstHeight at hf
    obtain ⟨t', ht', e⟩ := List.exists_of_findSome?_eq_some hf
    exact ⟨t', ht', heightTri_plane (hp t' ht') e⟩

/-- **C139** `ClosestPointOnPolyBoundary` returns points strictly inside as they are; for others it returns a point of the
polygon's outline, and no point over the polygon is nearer in the xz-plane. -/
theorem closestOnBoundary_spec {vs : List (V3 K)} (hc : ConvexPolygon vs) (pos : V3 K) :
    (StrictlyIn vs pos → closestOnBoundary vs pos = pos) ∧
    (¬ InPoly vs pos → OnOutline vs (closestOnBoundary vs pos)) ∧
    InPoly vs (closestOnBoundary vs pos) ∧
    ∀ q, InPoly vs q → flatSq pos (closestOnBoundary vs pos) ≤ flatSq pos q := by
  refine ⟨fun h => ?_, fun h => ?_, ?_⟩
  · unfold closestOnBoundary
    rw [if_pos (overPoly_inside hc h)]
  · unfold closestOnBoundary
    rw [if_neg (by rw [overPoly_outside hc.corners h]; simp)]
    exact (clampEdge_spec pos vs hc.corners.ne_nil).1
  · have := closestOnPoly_nearest hc 0 [] pos
    exact this

/-- The square of side 4 at height 1. -/
def flatSquare : List (V3 ℚ) := [⟨0, 1, 0⟩, ⟨0, 1, 4⟩, ⟨4, 1, 4⟩, ⟨4, 1, 0⟩]

theorem flatSquare_convex : ConvexPolygon flatSquare where
  corners := by
    have hE : ∀ j a b, PolyEdge flatSquare j a b → (j, a, b) ∈ polyEdges flatSquare := fun j a b h => (mem_polyEdges _ _ _ _).2 h
    have hin : ∀ v ∈ flatSquare, ∀ e ∈ polyEdges flatSquare, 0 ≤ triArea e.2.1 e.2.2 v := by
      simp only [flatSquare, polyEdges, edgesFrom, List.getLast?_cons_cons, List.getLast?_singleton, List.mem_cons, List.not_mem_nil,
        or_false, forall_eq_or_imp, forall_eq, triArea]
      norm_num
    refine ⟨fun v hv j a b h => hin v hv _ (hE j a b h), ?_, by decide⟩
    intro j a b c h1 h2 h3
    have hj : j < 4 := (List.getElem?_eq_some_iff.1 h1).1
    have : j = 0 ∨ j = 1 ∨ j = 2 ∨ j = 3 := by omega
    rcases this with rfl | rfl | rfl | rfl <;>
    · simp only [flatSquare, List.length_cons, List.length_nil, Nat.zero_add, Nat.reduceAdd, Nat.reduceMod, List.getElem?_cons_zero,
        List.getElem?_cons_succ, Option.some.injEq] at h1 h2 h3
      subst h1 h2 h3
      simp only [triArea]
      norm_num
  nodup := by simp [flatSquare, xz]

/-- The hypotheses are met: two detail triangles make the square, its middle is at height 3 there. -/
example : closestOnPoly (1 / 10000) flatSquare
      [(⟨0, 1, 0⟩, ⟨0, 1, 4⟩, ⟨2, 3, 2⟩), (⟨0, 1, 0⟩, ⟨2, 3, 2⟩, ⟨4, 1, 0⟩), (⟨0, 1, 4⟩, ⟨4, 1, 4⟩, ⟨2, 3, 2⟩), (⟨4, 1, 4⟩, ⟨4, 1, 0⟩, ⟨2, 3, 2⟩)]
      ⟨1, 9, 2⟩ = (⟨1, 2, 2⟩, true) ∧
    closestOnPoly (1 / 10000) flatSquare [] ⟨7, 9, 3⟩ = (⟨4, 1, 3⟩, false) ∧ closestOnBoundary flatSquare ⟨-3, 0, 8⟩ = ⟨0, 1, 4⟩ := by
  decide +kernel

/-! ## Off-mesh connections -/

/-- Spec: the square of the distance in space. -/
def spaceSq (p q : V3 K) : K := (q.x - p.x) ^ 2 + (q.y - p.y) ^ 2 + (q.z - p.z) ^ 2

/-- **C140** (partial) On an off-mesh connection the point returned lies between the ends. Missing from the full claim: that
it is the nearest such point; it is not, see `closestOnCon_refuted`. -/
theorem closestOnCon_partial {d0 d1 : K} (h0 : 0 ≤ d0) (h1 : 0 ≤ d1) (hd : 0 < d0 + d1) (v0 v1 : V3 K) :
    ∃ s, 0 ≤ s ∧ s ≤ 1 ∧ closestOnCon d0 d1 v0 v1 = lerp3 v0 v1 s :=
  ⟨d0 / (d0 + d1), div_nonneg h0 hd.le, by rw [div_le_one hd]; linarith, rfl⟩

/-- **C140** (refuted) It is not the nearest one: straight above one end of a connection the point returned is 4/9 of the way
to the other end. -/
theorem closestOnCon_refuted : ∃ (pos v0 v1 : V3 ℚ) (d0 d1 : ℚ), 0 ≤ d0 ∧ 0 ≤ d1 ∧ d0 ^ 2 = spaceSq pos v0 ∧ d1 ^ 2 = spaceSq pos v1 ∧
    spaceSq pos (lerp3 v0 v1 0) < spaceSq pos (closestOnCon d0 d1 v0 v1) := by
  refine ⟨⟨0, 4, 0⟩, ⟨0, 0, 0⟩, ⟨3, 0, 0⟩, 4, 5, by norm_num, by norm_num, by norm_num [spaceSq], by norm_num [spaceSq], ?_⟩
  norm_num [spaceSq, closestOnCon, lerp3]

end Verif.Detour
