/-
Storing the detail meshes of all polygons: `BuildPolyMeshDetail` (recast/meshdetail.go:298-321, 340-517).

Simplifications: exact arithmetic in an ordered field. The detail mesh of each polygon (`buildPolyDetail`, C64, C101, C146, C148) is
given: its vertices, triangles and polygon corners, before they are moved to world space. `dmesh.Meshes`, allocated for all polygons,
is a growing list. Arrays of floats and bytes are lists of vertices and of triangles. `distancePtSeg2d` has the formula of
`distancePtSegSqr2D` of detour (recast/meshdetail.go:142-162).
-/
import Verif.Detour.Geometry
import Verif.Recast.DetailSamples

namespace Verif.Recast
open Verif Verif.Detour

set_option linter.unusedSimpArgs false
set_option linter.unusedVariables false
set_option linter.unusedSectionVars false

/-! ## Buffers that grow -/

/-- The capacity loop (recast/meshdetail.go:478-480, 497-499): 256 at a time; the first argument bounds the rounds. -/
def growCap : Nat → Nat → Nat → Nat
  | 0, _, cap => cap
  | fuel + 1, need, cap => if cap < need then growCap fuel need (cap + 256) else cap

/-- An array with its capacity and the number of entries in use. -/
structure Buf (α : Type) where
  data : List α
  n : Nat
  cap : Nat

/-- More room if needed (recast/meshdetail.go:477-487, 496-505): a new array with the entries in use. -/
def reserve {α : Type} (z : α) (k : Nat) (b : Buf α) : Buf α :=
  if b.cap < b.n + k then
    let cap := growCap (b.n + k) (b.n + k) b.cap
    ⟨b.data.take b.n ++ List.replicate (cap - b.n) z, b.n, cap⟩
  else b

/-- One entry (recast/meshdetail.go:488-493, 506-513); `none` is an index out of range. -/
def pushBuf {α : Type} (b : Buf α) (x : α) : Option (Buf α) :=
  if b.n < b.data.length then some ⟨b.data.set b.n x, b.n + 1, b.cap⟩ else none

/-- The entries of one polygon (recast/meshdetail.go:476-513). -/
def storeBuf {α : Type} (z : α) (xs : List α) (b : Buf α) : Option (Buf α) := xs.foldlM pushBuf (reserve z xs.length b)

/-! ## Flags -/

section
variable {K : Type} [_root_.Field K] [LinearOrder K]

/-- The side of a polygon is near both points (recast/meshdetail.go:306-307). -/
def nearSide (va vb p q : V3 K) : Bool :=
  decide ((distPtSeg va p q).1 < 1 / 1000 * (1 / 1000)) && decide ((distPtSeg vb p q).1 < 1 / 1000 * (1 / 1000))

/-- The loop of `getEdgeFlags` over the sides (recast/meshdetail.go:304-312); `p` is the corner before. -/
def edgeFlagLoop (va vb : V3 K) : V3 K → List (V3 K) → BitVec 8
  | _, [] => 0
  | p, q :: qs => if nearSide va vb p q then 1 else edgeFlagLoop va vb q qs

/-- `getEdgeFlags` (recast/meshdetail.go:301-313). -/
def edgeFlag (va vb : V3 K) (poly : List (V3 K)) : BitVec 8 := edgeFlagLoop va vb (poly.getLastD ⟨0, 0, 0⟩) poly

/-- `getTriFlags` (recast/meshdetail.go:315-321). -/
def triFlags (va vb vc : V3 K) (poly : List (V3 K)) : BitVec 8 :=
  (edgeFlag va vb poly <<< 0) ||| (edgeFlag vb vc poly <<< 2) ||| (edgeFlag vc va poly <<< 4)

/-! ## The detail mesh -/

/-- The detail mesh of one polygon, in the space of the heightfield. -/
structure PolyDetail (K : Type) where
  verts : List (V3 K)
  tris : List Tri3
  poly : List (V3 K)

/-- A vertex in world space (recast/meshdetail.go:456-460). -/
def movedVert (orig : V3 K) (ch : K) (v : V3 K) : V3 K := ⟨v.x + orig.x, v.y + (orig.y + ch), v.z + orig.z⟩

/-- A polygon corner in world space (recast/meshdetail.go:462-466). -/
def movedCorner (orig v : V3 K) : V3 K := ⟨v.x + orig.x, v.y + orig.y, v.z + orig.z⟩

/-- Four bytes of a triangle. -/
abbrev TriBytes := BitVec 8 × BitVec 8 × BitVec 8 × BitVec 8

/-- A stored triangle (recast/meshdetail.go:507-511). -/
def triBytes (orig : V3 K) (ch : K) (P : PolyDetail K) (t : Tri3) : TriBytes :=
  let verts := P.verts.map (movedVert orig ch)
  (BitVec.ofNat 8 t.1, BitVec.ofNat 8 t.2.1, BitVec.ofNat 8 t.2.2,
    triFlags (vertAt verts t.1) (vertAt verts t.2.1) (vertAt verts t.2.2) (P.poly.map (movedCorner orig)))

/-- `PolyMeshDetail`: sub-meshes, vertices and triangles. -/
structure DetailMesh (K : Type) where
  meshes : List (Nat × Nat × Nat × Nat)
  verts : Buf (V3 K)
  tris : Buf TriBytes

/-- One polygon (recast/meshdetail.go:455-513). -/
def storePoly (orig : V3 K) (ch : K) (D : DetailMesh K) (P : PolyDetail K) : Option (DetailMesh K) :=
  (storeBuf ⟨0, 0, 0⟩ (P.verts.map (movedVert orig ch)) D.verts).bind fun vb =>
    (storeBuf (0, 0, 0, 0) (P.tris.map (triBytes orig ch P)) D.tris).map fun tb =>
      ⟨D.meshes ++ [(D.verts.n, P.verts.length, D.tris.n, P.tris.length)], vb, tb⟩

/-- The loop over the polygons (recast/meshdetail.go:422-517), from the first capacities (415-420): one and a half vertices for each
polygon corner, and twice as many triangles. -/
def storeDetail (orig : V3 K) (ch : K) (Ps : List (PolyDetail K)) : Option (DetailMesh K) :=
  let np := (Ps.map fun P => P.poly.length).sum
  let vcap := np + np / 2
  Ps.foldlM (storePoly orig ch) ⟨[], ⟨List.replicate vcap ⟨0, 0, 0⟩, 0, vcap⟩, ⟨List.replicate (vcap * 2) (0, 0, 0, 0), 0, vcap * 2⟩⟩

end

/-! ## Properties of the buffers -/

theorem growCap_enough (fuel need cap : Nat) (h : need ≤ fuel + cap) : need ≤ growCap fuel need cap ∧ cap ≤ growCap fuel need cap := by
  induction fuel generalizing cap with
  | zero => exact ⟨by rw [growCap]; omega, le_refl _⟩
  | succ fuel ih =>
    rw [growCap]
    split
    · obtain ⟨h1, h2⟩ := ih (cap + 256) (by omega)
      exact ⟨h1, by omega⟩
    · exact ⟨by omega, le_refl _⟩

/-- The entries in use. -/
def Rep {α : Type} (b : Buf α) (l : List α) : Prop := b.data.length = b.cap ∧ b.data.take b.n = l ∧ b.n = l.length

theorem reserve_rep {α : Type} (z : α) (k : Nat) {b : Buf α} {l : List α} (h : Rep b l) : Rep (reserve z k b) l ∧ l.length + k ≤ (reserve z k b).cap := by
  obtain ⟨h1, h2, h3⟩ := h
  have hle : b.n ≤ b.data.length := by
    have := congrArg List.length h2
    rw [List.length_take] at this
    omega
  unfold reserve
  split
  · obtain ⟨g1, g2⟩ := growCap_enough (b.n + k) (b.n + k) b.cap (by omega)
    refine ⟨⟨?_, ?_, h3⟩, ?_⟩
    · simp only [List.length_append, List.length_take, List.length_replicate]; omega
    · simp only
      rw [List.take_append_of_le_length (by rw [List.length_take]; omega), List.take_take, Nat.min_self]
      exact h2
    · simp only; omega
  · exact ⟨⟨h1, h2, h3⟩, by omega⟩

theorem pushBuf_rep {α : Type} {b : Buf α} {l : List α} (h : Rep b l) (hc : l.length < b.cap) (x : α) :
    ∃ b', pushBuf b x = some b' ∧ Rep b' (l ++ [x]) ∧ b'.cap = b.cap := by
  obtain ⟨h1, h2, h3⟩ := h
  unfold pushBuf
  rw [if_pos (by omega)]
  refine ⟨_, rfl, ⟨by simp only [List.length_set]; exact h1, ?_, by simp [h3]⟩, rfl⟩
  simp only
  have hn : b.n < b.data.length := by omega
  rw [List.take_add_one, List.take_set_of_le (le_refl _), h2, List.getElem?_set_self hn]
  rfl

theorem storeBuf_rep {α : Type} (z : α) (xs : List α) {b : Buf α} {l : List α} (h : Rep b l) : ∃ b', storeBuf z xs b = some b' ∧ Rep b' (l ++ xs) := by
  unfold storeBuf
  obtain ⟨h1, h2⟩ := reserve_rep z xs.length h
  generalize reserve z xs.length b = c at h1 h2
  clear h
  induction xs generalizing c l with
  | nil => exact ⟨c, rfl, by simpa using h1⟩
  | cons x xs ih =>
    obtain ⟨c', g1, g2, g3⟩ := pushBuf_rep h1 (by simp only [List.length_cons] at h2; omega) x
    obtain ⟨b', k1, k2⟩ := ih c' g2 (by rw [g3]; simp only [List.length_append, List.length_cons, List.length_nil] at h2 ⊢; omega)
    refine ⟨b', ?_, by simpa using k2⟩
    rw [List.foldlM_cons, g1]
    exact k1

section
variable {K : Type} [_root_.Field K] [LinearOrder K]

/-- The sub-meshes of polygons after `v` vertices and `t` triangles. -/
def entriesOf : Nat → Nat → List (PolyDetail K) → List (Nat × Nat × Nat × Nat)
  | _, _, [] => []
  | v, t, P :: Ps => (v, P.verts.length, t, P.tris.length) :: entriesOf (v + P.verts.length) (t + P.tris.length) Ps

theorem storeDetails_spec (orig : V3 K) (ch : K) (Ps : List (PolyDetail K)) (D : DetailMesh K) (V : List (V3 K)) (T : List TriBytes)
    (hv : Rep D.verts V) (ht : Rep D.tris T) : ∃ D', Ps.foldlM (storePoly orig ch) D = some D' ∧
      Rep D'.verts (V ++ Ps.flatMap fun P => P.verts.map (movedVert orig ch)) ∧ Rep D'.tris (T ++ Ps.flatMap fun P => P.tris.map (triBytes orig ch P)) ∧
      D'.meshes = D.meshes ++ entriesOf V.length T.length Ps := by
  induction Ps generalizing D V T with
  | nil => exact ⟨D, rfl, by simpa using hv, by simpa using ht, by simp [entriesOf]⟩
  | cons P Ps ih =>
    obtain ⟨vb, a1, a2⟩ := storeBuf_rep ⟨0, 0, 0⟩ (P.verts.map (movedVert orig ch)) hv
    obtain ⟨tb, b1, b2⟩ := storeBuf_rep (0, 0, 0, 0) (P.tris.map (triBytes orig ch P)) ht
    have hstep : storePoly orig ch D P = some ⟨D.meshes ++ [(V.length, P.verts.length, T.length, P.tris.length)], vb, tb⟩ := by
      unfold storePoly
      rw [a1, b1, hv.2.2, ht.2.2]
      rfl
    obtain ⟨D', c1, c2, c3, c4⟩ := ih ⟨D.meshes ++ [(V.length, P.verts.length, T.length, P.tris.length)], vb, tb⟩ _ _ a2 b2
    refine ⟨D', ?_, ?_, ?_, ?_⟩
    · rw [List.foldlM_cons, hstep]; exact c1
    · simpa using c2
    · simpa using c3
    · rw [c4]
      simp [entriesOf]

theorem entriesOf_get (Ps : List (PolyDetail K)) (v t i : Nat) (P : PolyDetail K) (h : Ps[i]? = some P) :
    (entriesOf v t Ps)[i]? = some (v + ((Ps.take i).map fun Q => Q.verts.length).sum, P.verts.length,
      t + ((Ps.take i).map fun Q => Q.tris.length).sum, P.tris.length) := by
  induction Ps generalizing v t i with
  | nil => simp at h
  | cons Q Ps ih =>
    cases i with
    | zero => simp at h; subst h; simp [entriesOf]
    | succ i =>
      rw [entriesOf, List.getElem?_cons_succ, ih _ _ _ (by simpa using h)]
      simp [Nat.add_assoc]

theorem flatMap_get {α β : Type} (f : α → List β) (l : List α) (i j : Nat) (x : α) (y : β) (h : l[i]? = some x) (hy : (f x)[j]? = some y) :
    (l.flatMap f)[((l.take i).map fun a => (f a).length).sum + j]? = some y := by
  induction l generalizing i with
  | nil => simp at h
  | cons a l ih =>
    rw [List.flatMap_cons]
    cases i with
    | zero =>
      simp at h
      subst h
      rw [List.getElem?_append_left]
      · simpa using hy
      · simpa using (List.getElem?_eq_some_iff.1 hy).1
    | succ i =>
      have := ih i (by simpa using h)
      rw [List.take_succ_cons, List.map_cons, List.sum_cons, Nat.add_assoc, List.getElem?_append_right (by omega), Nat.add_sub_cancel_left]
      exact this

/-- **C149** corner indices below 256 survive as bytes; a detail polygon has at most 127 vertices (C148). -/
theorem triBytes_index (orig : V3 K) (ch : K) (P : PolyDetail K) (t : Tri3) (h : t.1 < 256 ∧ t.2.1 < 256 ∧ t.2.2 < 256) :
    (triBytes orig ch P t).1.toNat = t.1 ∧ (triBytes orig ch P t).2.1.toNat = t.2.1 ∧ (triBytes orig ch P t).2.2.1.toNat = t.2.2 := by
  unfold triBytes
  simp only [BitVec.toNat_ofNat]
  exact ⟨Nat.mod_eq_of_lt h.1, Nat.mod_eq_of_lt h.2.1, Nat.mod_eq_of_lt h.2.2⟩

theorem detail_store (orig : V3 K) (ch : K) (Ps : List (PolyDetail K)) : ∃ D, storeDetail orig ch Ps = some D ∧ D.meshes.length = Ps.length ∧
    D.verts.n = (Ps.map fun P => P.verts.length).sum ∧ D.tris.n = (Ps.map fun P => P.tris.length).sum ∧
    ∀ i P, Ps[i]? = some P → ∃ vb tb, D.meshes[i]? = some (vb, P.verts.length, tb, P.tris.length) ∧
      vb = ((Ps.take i).map fun Q => Q.verts.length).sum ∧ tb = ((Ps.take i).map fun Q => Q.tris.length).sum ∧
      (∀ j v, P.verts[j]? = some v → D.verts.data[vb + j]? = some (movedVert orig ch v)) ∧
      (∀ j t, P.tris[j]? = some t → D.tris.data[tb + j]? = some (triBytes orig ch P t)) := by
  unfold storeDetail
  simp only
  generalize (Ps.map fun P => P.poly.length).sum + (Ps.map fun P => P.poly.length).sum / 2 = vcap
  obtain ⟨D, h1, h2, h3, h4⟩ := storeDetails_spec orig ch Ps ⟨[], ⟨List.replicate vcap ⟨0, 0, 0⟩, 0, vcap⟩, ⟨List.replicate (vcap * 2) (0, 0, 0, 0), 0, vcap * 2⟩⟩
    [] [] ⟨by simp, by simp, rfl⟩ ⟨by simp, by simp, rfl⟩
  simp only [List.nil_append, List.length_nil] at h2 h3 h4
  have hlen : ∀ (v t : Nat) (Ps : List (PolyDetail K)), (entriesOf v t Ps).length = Ps.length := by
    intro v t Ps
    induction Ps generalizing v t with
    | nil => rfl
    | cons P Ps ih => rw [entriesOf, List.length_cons, List.length_cons, ih]
  have hget : ∀ {α : Type} {b : Buf α} {l : List α}, Rep b l → ∀ (k : Nat) (x : α), l[k]? = some x → b.data[k]? = some x := by
    intro α b l hr k x hx
    rw [← hr.2.1, List.getElem?_take] at hx
    split at hx
    · exact hx
    · cases hx
  refine ⟨D, h1, by rw [h4, hlen], ?_, ?_, ?_⟩
  · rw [h2.2.2, List.length_flatMap]; simp
  · rw [h3.2.2, List.length_flatMap]; simp
  · intro i P hP
    refine ⟨_, _, ?_, rfl, rfl, ?_, ?_⟩
    · rw [h4, entriesOf_get Ps 0 0 i P hP]; simp
    · intro j v hj
      have := flatMap_get (fun P : PolyDetail K => P.verts.map (movedVert orig ch)) Ps i j P (movedVert orig ch v) hP (by rw [List.getElem?_map, hj]; rfl)
      simp only [List.length_map] at this
      exact hget h2 _ _ this
    · intro j t hj
      have := flatMap_get (fun P : PolyDetail K => P.tris.map (triBytes orig ch P)) Ps i j P (triBytes orig ch P t) hP (by rw [List.getElem?_map, hj]; rfl)
      simp only [List.length_map] at this
      exact hget h3 _ _ this

end

/-! ## Properties of the flags -/

section
variable {K : Type} [_root_.Field K] [LinearOrder K] [IsStrictOrderedRing K]

/-- Spec: the point is less than a thousandth from some point of the segment, seen from above. -/
def NearSeg (v p q : V3 K) : Prop :=
  ∃ s, 0 ≤ s ∧ s ≤ 1 ∧ (p.x + s * (q.x - p.x) - v.x) ^ 2 + (p.z + s * (q.z - p.z) - v.z) ^ 2 < (1 / 1000) ^ 2

/-- Spec: `p`, `q` are successive corners of the closed polygon. -/
def PolySide (poly : List (V3 K)) (p q : V3 K) : Prop :=
  ∃ i, poly[i]? = some q ∧ (if i = 0 then poly.getLast? = some p else poly[i - 1]? = some p)

/-- Spec: the edge lies along one side of the polygon. -/
def AlongSide (poly : List (V3 K)) (va vb : V3 K) : Prop := ∃ p q, PolySide poly p q ∧ NearSeg va p q ∧ NearSeg vb p q

theorem near_iff (v p q : V3 K) : (distPtSeg v p q).1 < 1 / 1000 * (1 / 1000) ↔ NearSeg v p q := by
  obtain ⟨⟨h1, h2⟩, h3, h4⟩ := distPtSeg_closest v p q
  have hsq : (1 / 1000 : K) * (1 / 1000) = (1 / 1000) ^ 2 := by ring
  rw [hsq]
  constructor
  · intro h
    exact ⟨_, h1, h2, by rw [← h3]; exact h⟩
  · rintro ⟨s, s1, s2, s3⟩
    exact lt_of_le_of_lt (h4 s s1 s2) s3

theorem nearSide_iff (va vb p q : V3 K) : nearSide va vb p q = true ↔ NearSeg va p q ∧ NearSeg vb p q := by
  unfold nearSide
  rw [Bool.and_eq_true, decide_eq_true_eq, decide_eq_true_eq, near_iff, near_iff]

theorem edgeFlagLoop_spec (va vb p : V3 K) (l : List (V3 K)) : (edgeFlagLoop va vb p l = 0 ∨ edgeFlagLoop va vb p l = 1) ∧
    (edgeFlagLoop va vb p l = 1 ↔ ∃ i q r, l[i]? = some q ∧ (if i = 0 then p = r else l[i - 1]? = some r) ∧ NearSeg va r q ∧ NearSeg vb r q) := by
  induction l generalizing p with
  | nil => simp [edgeFlagLoop]
  | cons a l ih =>
    rw [edgeFlagLoop]
    split
    · rename_i hn
      refine ⟨.inr rfl, fun _ => ⟨0, a, p, rfl, by simp, (nearSide_iff _ _ _ _).1 hn⟩, fun _ => rfl⟩
    · rename_i hn
      obtain ⟨h1, h2⟩ := ih a
      refine ⟨h1, h2.trans ⟨?_, ?_⟩⟩
      · rintro ⟨i, q, r, g1, g2, g3⟩
        refine ⟨i + 1, q, r, by simpa using g1, ?_, g3⟩
        rw [if_neg (by omega)]
        split at g2
        · rename_i hi; subst hi; subst g2; rfl
        · rename_i hi
          obtain ⟨k, rfl⟩ := Nat.exists_eq_succ_of_ne_zero hi
          simpa using g2
      · rintro ⟨i, q, r, g1, g2, g3⟩
        cases i with
        | zero =>
          simp at g1 g2
          subst g1 g2
          exact absurd ((nearSide_iff _ _ _ _).2 g3) hn
        | succ i =>
          refine ⟨i, q, r, by simpa using g1, ?_, g3⟩
          rw [if_neg (by omega), Nat.add_sub_cancel] at g2
          split
          · rename_i hi; subst hi; simpa using g2
          · rename_i hi
            obtain ⟨k, rfl⟩ := Nat.exists_eq_succ_of_ne_zero hi
            simpa using g2

theorem edgeFlag_spec (va vb : V3 K) (poly : List (V3 K)) : (edgeFlag va vb poly = 0 ∨ edgeFlag va vb poly = 1) ∧
    (edgeFlag va vb poly = 1 ↔ AlongSide poly va vb) := by
  unfold edgeFlag
  obtain ⟨h1, h2⟩ := edgeFlagLoop_spec va vb (poly.getLastD ⟨0, 0, 0⟩) poly
  refine ⟨h1, h2.trans ?_⟩
  have hlast : ∀ q r : V3 K, poly[0]? = some q → (poly.getLastD ⟨0, 0, 0⟩ = r ↔ poly.getLast? = some r) := by
    intro q r hq
    cases poly with
    | nil => simp at hq
    | cons a l => rw [List.getLastD_eq_getLast?, List.getLast?_eq_some_getLast (by simp)]; simp
  unfold AlongSide PolySide
  constructor
  · rintro ⟨i, q, r, g1, g2, g3⟩
    refine ⟨r, q, ⟨i, g1, ?_⟩, g3⟩
    split
    · rename_i hi
      rw [if_pos hi] at g2
      subst hi
      exact (hlast q r g1).1 g2
    · rename_i hi
      rw [if_neg hi] at g2
      exact g2
  · rintro ⟨r, q, ⟨i, g1, g2⟩, g3⟩
    refine ⟨i, q, r, g1, ?_, g3⟩
    split
    · rename_i hi
      rw [if_pos hi] at g2
      subst hi
      exact (hlast q r g1).2 g2
    · rename_i hi
      rw [if_neg hi] at g2
      exact g2

/-- **C150** the flags of a stored triangle: bits 0, 2 and 4 tell of its three edges whether they lie along one side of the polygon, up
to a thousandth; all other bits are 0. -/
theorem triFlags_spec (va vb vc : V3 K) (poly : List (V3 K)) :
    ((triFlags va vb vc poly).getLsbD 0 = true ↔ AlongSide poly va vb) ∧ ((triFlags va vb vc poly).getLsbD 2 = true ↔ AlongSide poly vb vc) ∧
    ((triFlags va vb vc poly).getLsbD 4 = true ↔ AlongSide poly vc va) ∧ ∀ k, k ≠ 0 → k ≠ 2 → k ≠ 4 → (triFlags va vb vc poly).getLsbD k = false := by
  have key : ∀ a b c : BitVec 8, (a = 0 ∨ a = 1) → (b = 0 ∨ b = 1) → (c = 0 ∨ c = 1) →
      (((a <<< 0) ||| (b <<< 2) ||| (c <<< 4)).getLsbD 0 = true ↔ a = 1) ∧ (((a <<< 0) ||| (b <<< 2) ||| (c <<< 4)).getLsbD 2 = true ↔ b = 1) ∧
      (((a <<< 0) ||| (b <<< 2) ||| (c <<< 4)).getLsbD 4 = true ↔ c = 1) ∧
      ∀ k < 8, k ≠ 0 → k ≠ 2 → k ≠ 4 → ((a <<< 0) ||| (b <<< 2) ||| (c <<< 4)).getLsbD k = false := by
    rintro a b c (rfl | rfl) (rfl | rfl) (rfl | rfl) <;> decide
  obtain ⟨a1, a2⟩ := edgeFlag_spec va vb poly
  obtain ⟨b1, b2⟩ := edgeFlag_spec vb vc poly
  obtain ⟨c1, c2⟩ := edgeFlag_spec vc va poly
  obtain ⟨k1, k2, k3, k4⟩ := key _ _ _ a1 b1 c1
  unfold triFlags
  refine ⟨k1.trans a2, k2.trans b2, k3.trans c2, fun k h0 h2 h4 => ?_⟩
  by_cases hk : k < 8
  · exact k4 k hk h0 h2 h4
  · exact BitVec.getLsbD_of_ge _ _ (by omega)

theorem nearSeg_moved (orig : V3 K) (ch : K) (v p q : V3 K) :
    NearSeg (movedVert orig ch v) (movedCorner orig p) (movedCorner orig q) ↔ NearSeg v p q := by
  unfold NearSeg movedVert movedCorner
  simp only
  have hx : ∀ s : K, p.x + orig.x + s * (q.x + orig.x - (p.x + orig.x)) - (v.x + orig.x) = p.x + s * (q.x - p.x) - v.x := fun s => by ring
  have hz : ∀ s : K, p.z + orig.z + s * (q.z + orig.z - (p.z + orig.z)) - (v.z + orig.z) = p.z + s * (q.z - p.z) - v.z := fun s => by ring
  simp only [hx, hz]

theorem alongSide_moved (orig : V3 K) (ch : K) (poly : List (V3 K)) (va vb : V3 K) :
    AlongSide (poly.map (movedCorner orig)) (movedVert orig ch va) (movedVert orig ch vb) ↔ AlongSide poly va vb := by
  unfold AlongSide PolySide
  constructor
  · rintro ⟨p', q', ⟨i, h1, h2⟩, h3, h4⟩
    rw [List.getElem?_map] at h1
    obtain ⟨q, hq, rfl⟩ := Option.map_eq_some_iff.1 h1
    have hp : ∃ p, movedCorner orig p = p' ∧ (if i = 0 then poly.getLast? = some p else poly[i - 1]? = some p) := by
      split at h2
      · rename_i hi
        rw [List.getLast?_map] at h2
        obtain ⟨p, hp, rfl⟩ := Option.map_eq_some_iff.1 h2
        exact ⟨p, rfl, by rw [if_pos hi]; exact hp⟩
      · rename_i hi
        rw [List.getElem?_map] at h2
        obtain ⟨p, hp, rfl⟩ := Option.map_eq_some_iff.1 h2
        exact ⟨p, rfl, by rw [if_neg hi]; exact hp⟩
    obtain ⟨p, rfl, hp⟩ := hp
    exact ⟨p, q, ⟨i, hq, hp⟩, (nearSeg_moved _ _ _ _ _).1 h3, (nearSeg_moved _ _ _ _ _).1 h4⟩
  · rintro ⟨p, q, ⟨i, h1, h2⟩, h3, h4⟩
    refine ⟨movedCorner orig p, movedCorner orig q, ⟨i, by rw [List.getElem?_map, h1]; rfl, ?_⟩, (nearSeg_moved _ _ _ _ _).2 h3, (nearSeg_moved _ _ _ _ _).2 h4⟩
    split
    · rename_i hi
      rw [if_pos hi] at h2
      rw [List.getLast?_map, h2]; rfl
    · rename_i hi
      rw [if_neg hi] at h2
      rw [List.getElem?_map, h2]; rfl

theorem vertAt_moved (orig : V3 K) (ch : K) (verts : List (V3 K)) (i : Nat) (v : V3 K) (h : verts[i]? = some v) :
    vertAt (verts.map (movedVert orig ch)) i = movedVert orig ch v := by
  unfold vertAt
  rw [List.getD_eq_getElem?_getD, List.getElem?_map, h]
  rfl

/-- Spec: what is stored for a triangle with corners at `a`, `b`, `c`: the indices of the corners, and in bits 0, 2 and 4 whether the
edges lie along sides of the polygon. -/
def TriStored (poly : List (V3 K)) (t : Tri3) (a b c : V3 K) (q : TriBytes) : Prop :=
  q.1.toNat = t.1 ∧ q.2.1.toNat = t.2.1 ∧ q.2.2.1.toNat = t.2.2 ∧ (q.2.2.2.getLsbD 0 = true ↔ AlongSide poly a b) ∧
    (q.2.2.2.getLsbD 2 = true ↔ AlongSide poly b c) ∧ (q.2.2.2.getLsbD 4 = true ↔ AlongSide poly c a)

/-- **C149** the detail meshes of any list of polygons are stored: entry `i` of the sub-meshes gives the first vertex, the number of
vertices, the first triangle and the number of triangles of polygon `i`, the vertices and triangles follow those of the polygons
before, and there stand its vertices in world space, one cell height up, and its triangles with their flags, with nothing
overwritten when the arrays grow. -/
theorem detail_storage (orig : V3 K) (ch : K) (Ps : List (PolyDetail K)) : ∃ D, storeDetail orig ch Ps = some D ∧ D.meshes.length = Ps.length ∧
    D.verts.n = (Ps.map fun P => P.verts.length).sum ∧ D.tris.n = (Ps.map fun P => P.tris.length).sum ∧
    ∀ i P, Ps[i]? = some P → ∃ vb tb, D.meshes[i]? = some (vb, P.verts.length, tb, P.tris.length) ∧
      vb = ((Ps.take i).map fun Q => Q.verts.length).sum ∧ tb = ((Ps.take i).map fun Q => Q.tris.length).sum ∧
      (∀ j v, P.verts[j]? = some v → D.verts.data[vb + j]? = some ⟨v.x + orig.x, v.y + orig.y + ch, v.z + orig.z⟩) ∧
      (∀ j t a b c, P.tris[j]? = some t → P.verts.length ≤ 256 → P.verts[t.1]? = some a → P.verts[t.2.1]? = some b → P.verts[t.2.2]? = some c →
        ∃ q, D.tris.data[tb + j]? = some q ∧ TriStored P.poly t a b c q) := by
  obtain ⟨D, h1, h2, h3, h4, h5⟩ := detail_store orig ch Ps
  refine ⟨D, h1, h2, h3, h4, fun i P hP => ?_⟩
  obtain ⟨vb, tb, g1, g2, g3, g4, g5⟩ := h5 i P hP
  refine ⟨vb, tb, g1, g2, g3, ?_, ?_⟩
  · intro j v hv
    rw [g4 j v hv]
    unfold movedVert
    rw [add_assoc]
  · intro j t a b c ht hlen ha hb hc
    refine ⟨_, g5 j t ht, ?_⟩
    have l1 := (List.getElem?_eq_some_iff.1 ha).1
    have l2 := (List.getElem?_eq_some_iff.1 hb).1
    have l3 := (List.getElem?_eq_some_iff.1 hc).1
    obtain ⟨k1, k2, k3⟩ := triBytes_index orig ch P t ⟨by omega, by omega, by omega⟩
    refine ⟨k1, k2, k3, ?_⟩
    unfold triBytes
    simp only
    rw [vertAt_moved orig ch _ _ _ ha, vertAt_moved orig ch _ _ _ hb, vertAt_moved orig ch _ _ _ hc]
    obtain ⟨f1, f2, f3, _⟩ := triFlags_spec (movedVert orig ch a) (movedVert orig ch b) (movedVert orig ch c) (P.poly.map (movedCorner orig))
    exact ⟨f1.trans (alongSide_moved _ _ _ _ _), f2.trans (alongSide_moved _ _ _ _ _), f3.trans (alongSide_moved _ _ _ _ _)⟩

end

/-! ## The corners of a polygon -/

/-- Reading a polygon corner, `mesh.Verts[p[j]*3:]` (recast/meshdetail.go:390, 431): the product is a `uint16`. -/
def cornerOf (verts : List U16) (i : U16) : Option (U16 × U16 × U16) :=
  let k := (i * 3#16).toNat
  verts[k]?.bind fun x => verts[k + 1]?.bind fun y => verts[k + 2]?.map fun z => (x, y, z)

/-- **C151** (partial) the corner of an index below 21846 is the vertex of that index. Missing: larger indices, see
`detail_corner_refuted`. -/
theorem detail_corner_partial (verts : List U16) (i : U16) (hi : i.toNat < 21846) (hv : 3 * i.toNat + 2 < verts.length) :
    cornerOf verts i = some (verts[3 * i.toNat], verts[3 * i.toNat + 1], verts[3 * i.toNat + 2]) := by
  unfold cornerOf
  have hk : (i * 3#16).toNat = 3 * i.toNat := by
    rw [BitVec.toNat_mul]
    have : (3#16).toNat = 3 := rfl
    rw [this]
    rw [Nat.mod_eq_of_lt (by omega)]
    omega
  simp only
  rw [hk, List.getElem?_eq_getElem (by omega), List.getElem?_eq_getElem (by omega), List.getElem?_eq_getElem (by omega)]
  rfl

/-- **C151** (refuted) in a mesh of 21847 vertices, fewer than the 65534 a mesh may have, the corner of the last vertex is read from the
coordinates of the first vertices. -/
theorem detail_corner_refuted (f : Nat → U16 × U16 × U16) :
    let verts := (List.range 21847).flatMap fun k => [(f k).1, (f k).2.1, (f k).2.2]
    cornerOf verts 21846#16 = some ((f 0).2.2, (f 1).1, (f 1).2.1) := by
  intro verts
  have hv : verts = [(f 0).1, (f 0).2.1, (f 0).2.2, (f 1).1, (f 1).2.1, (f 1).2.2] ++ (List.range' 2 21845).flatMap fun k => [(f k).1, (f k).2.1, (f k).2.2] := by
    have : List.range 21847 = 0 :: 1 :: List.range' 2 21845 := by
      rw [List.range_eq_range', List.range'_succ, List.range'_succ]
    simp only [verts, this, List.flatMap_cons, List.cons_append, List.nil_append]
  have hk : (21846#16 * 3#16).toNat = 2 := by decide
  unfold cornerOf
  rw [hk, hv]
  rfl

/-! ## Cases -/

/-- Two polygons: a triangle, and a square of two triangles. -/
def twoPolys : List (PolyDetail ℚ) :=
  [⟨flat3, [(0, 1, 2)], flat3⟩, ⟨[⟨0, 0, 0⟩, ⟨0, 0, 4⟩, ⟨4, 0, 4⟩, ⟨4, 0, 0⟩], [(0, 1, 2), (0, 2, 3)], [⟨0, 0, 0⟩, ⟨0, 0, 4⟩, ⟨4, 0, 4⟩, ⟨4, 0, 0⟩]⟩]

-- the second polygon starts after the first
example : ((storeDetail ⟨1, 0, 1⟩ 2 twoPolys).map fun D => D.meshes) = some [(0, 3, 0, 1), (3, 4, 1, 2)] := by decide +kernel
-- all edges of the first triangle are sides; the diagonal of the square is none
example : ((storeDetail ⟨1, 0, 1⟩ 2 twoPolys).map fun D => (D.tris.data.take 3).map fun t => t.2.2.2.toNat) = some [21, 5, 20] := by decide +kernel

end Verif.Recast
