/-
The least extent of a polygon: `polyMinExtent` (recast/meshdetail.go:716-738).

Simplifications: exact arithmetic; `big` stands for `math.MaxFloat32`; the value before the square root.
`distancePtSeg2d` has the formula of `distancePtSegSqr2D` of detour.
-/
import Verif.Detour.Geometry

namespace Verif.Recast
open Verif Verif.Detour

set_option linter.unusedSectionVars false

variable {K : Type} [_root_.Field K] [LinearOrder K] [IsStrictOrderedRing K]

/-! ## Model -/

/-- A vertex of the polygon (`verts[j*3:]`). -/
def extVert (l : List (V3 K)) (j : Nat) : V3 K := l.getD j ⟨0, 0, 0⟩

/-- The inner loop (recast/meshdetail.go:723-732): `maxEdgeDist` of edge `i`. -/
def edgeExtent (l : List (V3 K)) (i : Nat) : K :=
  let ni := (i + 1) % l.length
  (List.range l.length).foldl (fun m j =>
    if j = i ∨ j = ni then m
    else
      let d := (distPtSeg (extVert l j) (extVert l i) (extVert l ni)).1
      if m < d then d else m) 0

/-- `polyMinExtent` (recast/meshdetail.go:717-738) before the square root. -/
def minExtentSq (big : K) (l : List (V3 K)) : K :=
  (List.range l.length).foldl (fun m i => if edgeExtent l i < m then edgeExtent l i else m) big

/-! ## Spec -/

/-- Spec: `v` has a squared distance in the plane of at most `m` to a point between `p` and `q`. -/
def WithinSeg (m : K) (p q v : V3 K) : Prop :=
  ∃ s, 0 ≤ s ∧ s ≤ 1 ∧ (p.x + s * (q.x - p.x) - v.x) ^ 2 + (p.z + s * (q.z - p.z) - v.z) ^ 2 ≤ m

/-- Spec: the polygon lies along edge `i`, all its vertices within `m` of it. -/
def AlongEdge (m : K) (l : List (V3 K)) (i : Nat) : Prop :=
  ∀ j < l.length, WithinSeg m (extVert l i) (extVert l ((i + 1) % l.length)) (extVert l j)

/-! ## Proof -/

theorem dist_le_iff (m : K) (v p q : V3 K) : (distPtSeg v p q).1 ≤ m ↔ WithinSeg m p q v := by
  obtain ⟨⟨h1, h2⟩, h3, h4⟩ := distPtSeg_closest v p q
  constructor
  · intro h
    exact ⟨_, h1, h2, by rw [← h3]; exact h⟩
  · rintro ⟨s, s1, s2, s3⟩
    exact le_trans (h4 s s1 s2) s3

theorem foldMax_le {β : Type} (g : β → K) (skip : β → Bool) (m : K) (l : List β) : ∀ a : K,
    l.foldl (fun a j => if skip j = true then a else if a < g j then g j else a) a ≤ m ↔ a ≤ m ∧ ∀ j ∈ l, skip j = false → g j ≤ m := by
  induction l with
  | nil => intro a; simp
  | cons j l ih =>
    intro a
    rw [List.foldl_cons, ih]
    by_cases hs : skip j = true
    · rw [if_pos hs]
      simp [hs]
    · rw [if_neg hs]
      have hs' : skip j = false := by simpa using hs
      simp only [List.mem_cons, forall_eq_or_imp, hs', true_implies]
      by_cases ha : a < g j
      · rw [if_pos ha]
        exact ⟨fun ⟨h1, h2⟩ => ⟨le_trans ha.le h1, h1, h2⟩, fun ⟨_, h1, h2⟩ => ⟨h1, h2⟩⟩
      · rw [if_neg ha]
        exact ⟨fun ⟨h1, h2⟩ => ⟨h1, le_trans (not_lt.1 ha) h1, h2⟩, fun ⟨h0, _, h2⟩ => ⟨h0, h2⟩⟩

theorem foldMin_le {β : Type} (g : β → K) (m : K) (l : List β) : ∀ a : K,
    l.foldl (fun a j => if g j < a then g j else a) a ≤ m ↔ a ≤ m ∨ ∃ j ∈ l, g j ≤ m := by
  induction l with
  | nil => intro a; simp
  | cons j l ih =>
    intro a
    rw [List.foldl_cons, ih]
    simp only [List.mem_cons, exists_eq_or_imp]
    by_cases ha : g j < a
    · rw [if_pos ha]
      exact ⟨fun h => Or.inr h, fun h => h.elim (fun h => Or.inl (le_trans ha.le h)) id⟩
    · rw [if_neg ha]
      exact ⟨fun h => h.elim Or.inl fun h => Or.inr (Or.inr h),
        fun h => h.elim Or.inl fun h => h.elim (fun h => Or.inl (le_trans (not_lt.1 ha) h)) Or.inr⟩

theorem edgeExtent_le (l : List (V3 K)) (i : Nat) {m : K} (hm : 0 ≤ m) : edgeExtent l i ≤ m ↔ AlongEdge m l i := by
  have h := foldMax_le (fun j => (distPtSeg (extVert l j) (extVert l i) (extVert l ((i + 1) % l.length))).1)
    (fun j => decide (j = i ∨ j = (i + 1) % l.length)) m (List.range l.length) 0
  simp only [decide_eq_true_eq] at h
  unfold edgeExtent AlongEdge
  refine h.trans ⟨fun ⟨_, h2⟩ j hj => ?_, fun h2 => ⟨hm, fun j hj _ => (dist_le_iff _ _ _ _).2 (h2 j (List.mem_range.1 hj))⟩⟩
  by_cases h1 : j = i
  · subst h1
    exact ⟨0, le_rfl, zero_le_one, by simpa using hm⟩
  by_cases h3 : j = (i + 1) % l.length
  · subst h3
    exact ⟨1, zero_le_one, le_rfl, by simpa using hm⟩
  exact (dist_le_iff _ _ _ _).1 (h2 j (List.mem_range.2 hj) (by simp [h1, h3]))

/-- **C178** The square of the least extent is the smallest number such that all vertices of the polygon are within that
squared distance of one of its edges. -/
theorem extent_iff {big : K} (l : List (V3 K)) {m : K} (hm : 0 ≤ m) (hb : m < big) :
    minExtentSq big l ≤ m ↔ ∃ i < l.length, AlongEdge m l i := by
  unfold minExtentSq
  rw [foldMin_le]
  constructor
  · rintro (h | ⟨i, hi, h⟩)
    · exact absurd h (not_le.2 hb)
    · exact ⟨i, List.mem_range.1 hi, (edgeExtent_le l i hm).1 h⟩
  · rintro ⟨i, hi, h⟩
    exact Or.inr ⟨i, List.mem_range.2 hi, (edgeExtent_le l i hm).2 h⟩

/-- **C178** The extent is never negative, so the square root is defined. -/
theorem extent_nonneg {big : K} (hb : 0 ≤ big) (l : List (V3 K)) : 0 ≤ minExtentSq big l := by
  have h0 : ∀ i, 0 ≤ edgeExtent l i := by
    intro i
    by_contra hc
    have h := (foldMax_le (fun j => (distPtSeg (extVert l j) (extVert l i) (extVert l ((i + 1) % l.length))).1)
      (fun j => decide (j = i ∨ j = (i + 1) % l.length)) (edgeExtent l i) (List.range l.length) 0)
    simp only [decide_eq_true_eq] at h
    exact hc (h.1 le_rfl).1
  unfold minExtentSq
  suffices hs : ∀ (r : List Nat) (a : K), 0 ≤ a → 0 ≤ r.foldl (fun m i => if edgeExtent l i < m then edgeExtent l i else m) a from hs _ _ hb
  intro r
  induction r with
  | nil => intro a ha; exact ha
  | cons i r ih =>
    intro a ha
    rw [List.foldl_cons]
    refine ih _ ?_
    split
    · exact h0 i
    · exact ha

/-- **C178** What is within a distance of an edge is convex: with two points every point between them is, so a convex
polygon lies within its extent as a whole. -/
theorem extent_convex {m : K} {p q u v w : V3 K} (hu : WithinSeg m p q u) (hv : WithinSeg m p q v) {t : K} (h0 : 0 ≤ t) (h1 : t ≤ 1)
    (hx : w.x = u.x + t * (v.x - u.x)) (hz : w.z = u.z + t * (v.z - u.z)) : WithinSeg m p q w := by
  obtain ⟨a, a0, a1, ha⟩ := hu
  obtain ⟨b, b0, b1, hb⟩ := hv
  have cv : ∀ x y : K, (x + t * (y - x)) ^ 2 ≤ (1 - t) * x ^ 2 + t * y ^ 2 := by
    intro x y
    have : 0 ≤ t * (1 - t) * (y - x) ^ 2 := mul_nonneg (mul_nonneg h0 (by linarith)) (sq_nonneg _)
    nlinarith [this]
  refine ⟨a + t * (b - a), by nlinarith, by nlinarith, ?_⟩
  have e1 : p.x + (a + t * (b - a)) * (q.x - p.x) - w.x =
      (p.x + a * (q.x - p.x) - u.x) + t * ((p.x + b * (q.x - p.x) - v.x) - (p.x + a * (q.x - p.x) - u.x)) := by rw [hx]; ring
  have e2 : p.z + (a + t * (b - a)) * (q.z - p.z) - w.z =
      (p.z + a * (q.z - p.z) - u.z) + t * ((p.z + b * (q.z - p.z) - v.z) - (p.z + a * (q.z - p.z) - u.z)) := by rw [hz]; ring
  rw [e1, e2]
  have c1 := cv (p.x + a * (q.x - p.x) - u.x) (p.x + b * (q.x - p.x) - v.x)
  have c2 := cv (p.z + a * (q.z - p.z) - u.z) (p.z + b * (q.z - p.z) - v.z)
  have g1 := mul_le_mul_of_nonneg_left ha (show 0 ≤ 1 - t by linarith)
  have g2 := mul_le_mul_of_nonneg_left hb h0
  linarith

/-- A rectangle of 10 by 2, whose extent is 2. -/
example : minExtentSq (1000000 : ℚ) [⟨0, 0, 0⟩, ⟨10, 0, 0⟩, ⟨10, 0, 2⟩, ⟨0, 0, 2⟩] = 4 := by decide +kernel

end Verif.Recast
