/-
The centre of a polygon: `CalcPolyCenter` (detour/poly.go:53-69).

Simplifications: arithmetic is exact; the capacity of the vertex slice is its length.
-/
import Mathlib.Algebra.Order.Field.Basic
import Mathlib.Algebra.BigOperators.Group.List.Basic
import Mathlib.Algebra.Order.BigOperators.Group.List
import Mathlib.Tactic.Linarith
import Mathlib.Tactic.LinearCombination
import Mathlib.Tactic.FieldSimp
import Mathlib.Tactic.Ring
import Mathlib.Algebra.Order.Ring.Rat

namespace Verif.Detour

set_option linter.unusedSectionVars false
set_option linter.unusedVariables false

variable {K : Type} [_root_.Field K] [LinearOrder K] [IsStrictOrderedRing K]

/-! ## Model -/

/-- `start := idx[j] * 3; v := verts[start : start+3]` and `v[0]`, `v[1]`, `v[2]` (detour/poly.go:62-66); `start` is a `uint16`. `none` is a
slice or an index out of range. -/
def centerVert (verts : List K) (v : BitVec 16) : Option (K × K × K) :=
  let start := v * 3#16
  let stop := start + 3#16
  if start.toNat ≤ stop.toNat ∧ stop.toNat ≤ verts.length then
    match (verts.drop start.toNat).take (stop.toNat - start.toNat) with
    | x :: y :: z :: _ => some (x, y, z)
    | _ => none
  else none

/-- The loop of `CalcPolyCenter` (detour/poly.go:61-67) over the remaining `n` indices, with `tc` so far. -/
def centerLoop (verts : List K) : Nat → List (BitVec 16) → K × K × K → Option (K × K × K)
  | 0, _, tc => some tc
  | _ + 1, [], _ => none
  | n + 1, v :: idx, tc =>
    match centerVert verts v with
    | none => none
    | some w => centerLoop verts n idx (tc.1 + w.1, tc.2.1 + w.2.1, tc.2.2 + w.2.2)

/-- `CalcPolyCenter` (detour/poly.go:58-69). -/
def calcPolyCenter (idx : List (BitVec 16)) (nidx : Nat) (verts : List K) : Option (K × K × K) :=
  (centerLoop verts nidx idx (0, 0, 0)).map fun tc => (tc.1 * (1 / (nidx : K)), tc.2.1 * (1 / (nidx : K)), tc.2.2 * (1 / (nidx : K)))

/-! ## Specification -/

/-- Spec: the words of vertices in a row. -/
def wordsOf (ps : List (K × K × K)) : List K := ps.flatMap fun p => [p.1, p.2.1, p.2.2]

/-- Spec: `ps` are the vertices of the polygon with indices `idx`. -/
def PolyVerts (all : List (K × K × K)) (idx : List (BitVec 16)) (ps : List (K × K × K)) : Prop :=
  idx.map (fun v => all[v.toNat]?) = ps.map some

/-- Spec: the mean of points. -/
def IsMean (ps : List (K × K × K)) (c : K × K × K) : Prop :=
  (ps.length : K) * c.1 = (ps.map (·.1)).sum ∧ (ps.length : K) * c.2.1 = (ps.map (·.2.1)).sum ∧ (ps.length : K) * c.2.2 = (ps.map (·.2.2)).sum

/-! ## Proofs -/

theorem length_wordsOf (ps : List (K × K × K)) : (wordsOf ps).length = 3 * ps.length := by
  induction ps with
  | nil => rfl
  | cons p ps ih =>
    have : wordsOf (p :: ps) = [p.1, p.2.1, p.2.2] ++ wordsOf ps := rfl
    rw [this, List.length_append, ih]
    simp
    omega

theorem drop_wordsOf (ps : List (K × K × K)) : ∀ k p, ps[k]? = some p → ((wordsOf ps).drop (3 * k)).take 3 = [p.1, p.2.1, p.2.2] := by
  induction ps with
  | nil => intro k p h; simp at h
  | cons q ps ih =>
    intro k p h
    have hw : wordsOf (q :: ps) = q.1 :: q.2.1 :: q.2.2 :: wordsOf ps := rfl
    cases k with
    | zero => simp at h; subst h; simp [hw]
    | succ k =>
      rw [hw, show 3 * (k + 1) = 3 * k + 1 + 1 + 1 by omega]
      simp only [List.drop_succ_cons]
      exact ih k p (by simpa using h)

theorem centerVert_eq {all : List (K × K × K)} {v : BitVec 16} {p : K × K × K} (h : all[v.toNat]? = some p) (hv : v.toNat ≤ 21844) :
    centerVert (wordsOf all) v = some p := by
  have hl : v.toNat < all.length := (List.getElem?_eq_some_iff.1 h).1
  have h1 : (v * 3#16).toNat = 3 * v.toNat := by
    rw [BitVec.toNat_mul]
    simp only [BitVec.toNat_ofNat]
    omega
  have h2 : (v * 3#16 + 3#16).toNat = 3 * v.toNat + 3 := by
    rw [BitVec.toNat_add, h1]
    simp only [BitVec.toNat_ofNat]
    omega
  unfold centerVert
  dsimp only
  rw [h1, h2, if_pos ⟨by omega, by rw [length_wordsOf]; omega⟩, Nat.add_sub_cancel_left, drop_wordsOf all _ p h]

theorem centerLoop_eq {all : List (K × K × K)} : ∀ (idx : List (BitVec 16)) (ps : List (K × K × K)) (rest : List (BitVec 16)) (tc : K × K × K),
    PolyVerts all idx ps → (∀ v ∈ idx, v.toNat ≤ 21844) → centerLoop (wordsOf all) ps.length (idx ++ rest) tc =
      some (tc.1 + (ps.map (·.1)).sum, tc.2.1 + (ps.map (·.2.1)).sum, tc.2.2 + (ps.map (·.2.2)).sum) := by
  intro idx
  induction idx with
  | nil =>
    intro ps rest tc h hv
    cases ps with
    | nil => simp [centerLoop]
    | cons p ps => simp [PolyVerts] at h
  | cons v idx ih =>
    intro ps rest tc h hv
    cases ps with
    | nil => simp [PolyVerts] at h
    | cons p ps =>
      simp only [PolyVerts, List.map_cons, List.cons.injEq] at h
      rw [List.length_cons, List.cons_append, centerLoop, centerVert_eq h.1 (hv v (by simp))]
      simp only
      rw [ih ps rest _ h.2 fun w hw => hv w (by simp [hw])]
      simp only [List.map_cons, List.sum_cons, add_assoc]

/-- **C172** (partial). For polygons with at least one vertex and vertex indices up to 21844 `CalcPolyCenter` does not panic and gives the mean of
the vertices. -/
theorem center_mean_partial {all : List (K × K × K)} {idx rest : List (BitVec 16)} {ps : List (K × K × K)} (h : PolyVerts all idx ps)
    (h0 : ps ≠ []) (hv : ∀ v ∈ idx, v.toNat ≤ 21844) :
    ∃ c, calcPolyCenter (idx ++ rest) ps.length (wordsOf all) = some c ∧ IsMean ps c := by
  have hn : (ps.length : K) ≠ 0 := by
    have := List.length_pos_iff.2 h0
    exact_mod_cast (by omega : ps.length ≠ 0)
  unfold calcPolyCenter
  rw [centerLoop_eq idx ps rest _ h hv]
  refine ⟨_, rfl, ?_, ?_, ?_⟩ <;> simp only [zero_add] <;> field_simp

/-- The value of an affine function at the mean is the mean of its values. -/
theorem IsMean.affine {ps : List (K × K × K)} {c : K × K × K} (h : IsMean ps c) (a b d e : K) :
    (ps.length : K) * (a * c.1 + b * c.2.1 + d * c.2.2 + e) = (ps.map fun p => a * p.1 + b * p.2.1 + d * p.2.2 + e).sum := by
  have key : ∀ ps : List (K × K × K), (ps.map fun p => a * p.1 + b * p.2.1 + d * p.2.2 + e).sum =
      a * (ps.map (·.1)).sum + b * (ps.map (·.2.1)).sum + d * (ps.map (·.2.2)).sum + (ps.length : K) * e := by
    intro ps
    induction ps with
    | nil => simp
    | cons p ps ih =>
      simp only [List.map_cons, List.sum_cons, List.length_cons, ih, Nat.cast_add, Nat.cast_one]
      ring
  rw [key]
  linear_combination a * h.1 + b * h.2.1 + d * h.2.2

/-- **C172**. The mean lies in every half-space that has all vertices, and off its boundary if a vertex is. -/
theorem center_halfspace {ps : List (K × K × K)} {c : K × K × K} (h : IsMean ps c) (h0 : ps ≠ []) (a b d e : K)
    (hp : ∀ p ∈ ps, 0 ≤ a * p.1 + b * p.2.1 + d * p.2.2 + e) : 0 ≤ a * c.1 + b * c.2.1 + d * c.2.2 + e ∧
    ((∃ p ∈ ps, 0 < a * p.1 + b * p.2.1 + d * p.2.2 + e) → 0 < a * c.1 + b * c.2.1 + d * c.2.2 + e) := by
  have hn : 0 < (ps.length : K) := by
    have := List.length_pos_iff.2 h0
    exact_mod_cast this
  have hs := h.affine a b d e
  have hnn : ∀ x ∈ ps.map (fun p => a * p.1 + b * p.2.1 + d * p.2.2 + e), 0 ≤ x := by
    intro x hx
    obtain ⟨p, hpm, rfl⟩ := List.mem_map.1 hx
    exact hp p hpm
  refine ⟨?_, ?_⟩
  · have := List.sum_nonneg hnn
    rw [← hs] at this
    exact nonneg_of_mul_nonneg_right this hn
  · rintro ⟨p, hpm, hpos⟩
    have := List.single_le_sum hnn _ (List.mem_map.2 ⟨p, hpm, rfl⟩)
    rw [← hs] at this
    exact (mul_pos_iff_of_pos_left hn).1 (lt_of_lt_of_le hpos this)

/-- Spec: twice the signed area of the triangle `a b c` in the xz-plane. -/
def crossXZ (a b c : K × K × K) : K := (b.1 - a.1) * (c.2.2 - a.2.2) - (b.2.2 - a.2.2) * (c.1 - a.1)

/-- **C172**. The centre of a convex polygon lies strictly inside of every edge that has a vertex off its line. -/
theorem center_inside {ps : List (K × K × K)} {c : K × K × K} (h : IsMean ps c) {u v : K × K × K} (hin : ∀ p ∈ ps, 0 ≤ crossXZ u v p)
    (hoff : ∃ p ∈ ps, 0 < crossXZ u v p) : 0 < crossXZ u v c := by
  obtain ⟨q, hq, hq'⟩ := hoff
  have e : ∀ p : K × K × K, crossXZ u v p = -(v.2.2 - u.2.2) * p.1 + 0 * p.2.1 + (v.1 - u.1) * p.2.2 +
      ((v.2.2 - u.2.2) * u.1 - (v.1 - u.1) * u.2.2) := by
    intro p; unfold crossXZ; ring
  rw [e]
  exact (center_halfspace h (List.ne_nil_of_mem hq) _ _ _ _ fun p hp => by rw [← e]; exact hin p hp).2 ⟨q, hq, by rw [← e]; exact hq'⟩

/-- **C172**. The centre does not depend on the order of the vertices. -/
theorem center_perm {ps qs : List (K × K × K)} (hp : ps.Perm qs) {c d : K × K × K} (h : IsMean ps c) (h' : IsMean qs d) (h0 : ps ≠ []) : c = d := by
  have hn : (ps.length : K) ≠ 0 := by
    have := List.length_pos_iff.2 h0
    exact_mod_cast (by omega : ps.length ≠ 0)
  obtain ⟨a1, a2, a3⟩ := h
  obtain ⟨b1, b2, b3⟩ := h'
  rw [← hp.length_eq] at b1 b2 b3
  rw [← (hp.map _).sum_eq] at b1 b2 b3
  have e1 := mul_left_cancel₀ hn (a1.trans b1.symm)
  have e2 := mul_left_cancel₀ hn (a2.trans b2.symm)
  have e3 := mul_left_cancel₀ hn (a3.trans b3.symm)
  exact Prod.ext e1 (Prod.ext e2 e3)

/-! ## Centroid -/

/-- Spec: `c` is the centroid of the quadrilateral `p q r s` in the xz-plane: its two triangles `p q r` and `p r s`, with their centroids, weighted
by area. -/
def IsCentroid4 (p q r s c : K × K × K) : Prop :=
  (crossXZ p q r + crossXZ p r s) * c.1 = crossXZ p q r * ((p.1 + q.1 + r.1) / 3) + crossXZ p r s * ((p.1 + r.1 + s.1) / 3) ∧
  (crossXZ p q r + crossXZ p r s) * c.2.2 = crossXZ p q r * ((p.2.2 + q.2.2 + r.2.2) / 3) + crossXZ p r s * ((p.2.2 + r.2.2 + s.2.2) / 3)

/-- **C172** (partial). For parallelograms, so for all rectangles, the result is the centroid. -/
theorem center_centroid_partial {p q r s c : K × K × K} (h : IsMean [p, q, r, s] c) (hx : p.1 + r.1 = q.1 + s.1) (hz : p.2.2 + r.2.2 = q.2.2 + s.2.2) :
    IsCentroid4 p q r s c := by
  obtain ⟨h1, -, h3⟩ := h
  simp only [List.length_cons, List.length_nil, List.map_cons, List.map_nil, List.sum_cons, List.sum_nil] at h1 h3
  norm_num at h1 h3
  have hc1 : c.1 = (p.1 + r.1) / 2 := by linarith
  have hc3 : c.2.2 = (p.2.2 + r.2.2) / 2 := by linarith
  have hs1 : s.1 = p.1 + r.1 - q.1 := by linarith
  have hs3 : s.2.2 = p.2.2 + r.2.2 - q.2.2 := by linarith
  unfold IsCentroid4 crossXZ
  rw [hc1, hc3, hs1, hs3]
  constructor <;> ring

/-- The vertices of a convex trapezoid. -/
def trapezoid : List (ℚ × ℚ × ℚ) := [(0, 0, 0), (4, 0, 0), (1, 0, 2), (0, 0, 2)]

/-- **C172** (refuted in full). On a convex trapezoid the result is not the centroid that the comment promises. -/
theorem center_centroid_refuted : ∃ c, calcPolyCenter [0#16, 1#16, 2#16, 3#16, 0#16, 0#16] 4 (wordsOf trapezoid) = some c ∧
    (∀ p ∈ trapezoid, 0 ≤ crossXZ (0, 0, 0) (4, 0, 0) p ∧ 0 ≤ crossXZ (4, 0, 0) (1, 0, 2) p ∧ 0 ≤ crossXZ (1, 0, 2) (0, 0, 2) p ∧
      0 ≤ crossXZ (0, 0, 2) (0, 0, 0) p) ∧ ¬ IsCentroid4 (0, 0, 0) (4, 0, 0) (1, 0, 2) (0, 0, 2) c := by
  refine ⟨(5 / 4, 0, 1), by decide +kernel, by decide +kernel, ?_⟩
  unfold IsCentroid4
  decide +kernel

/-- Hypotheses: the trapezoid with unused entries after its indices; its mean is strictly inside of its slanted edge. -/
example : PolyVerts trapezoid [0#16, 1#16, 2#16, 3#16] trapezoid ∧ IsMean trapezoid (5 / 4, 0, 1) ∧
    0 < crossXZ (4, 0, 0) (1, 0, 2) ((5 / 4, 0, 1) : ℚ × ℚ × ℚ) := by
  refine ⟨by unfold PolyVerts; decide +kernel, by unfold IsMean; decide +kernel, by decide +kernel⟩

/-- An index that does not exist is a panic. -/
example : calcPolyCenter [0#16, 1#16, 4#16] 3 (wordsOf trapezoid) = none := by decide +kernel

end Verif.Detour
