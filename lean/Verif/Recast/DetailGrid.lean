/-
The grid of sample points of a detail polygon: the first part of the sampling in `buildPolyDetail` (recast/meshdetail.go:947-977) with
`distToPoly` (recast/meshdetail.go:1194-1219).

Simplifications: exact arithmetic; `big` stands for `math.MaxFloat32`. `distancePtSeg2d` has the formula of `distancePtSegSqr2D` of
detour. The heights of the samples (`getHeight`) are left out.
-/
import Verif.Detour.Geometry
import Verif.Recast.PointInPoly
import Mathlib.Algebra.Order.Floor.Ring
import Mathlib.Data.Rat.Floor

namespace Verif.Recast
open Verif Verif.Detour

set_option linter.unusedSimpArgs false
set_option linter.unusedVariables false
set_option linter.unusedSectionVars false

variable {K : Type} [_root_.Field K] [LinearOrder K] [IsStrictOrderedRing K]

/-! ## Model -/

/-- The coordinates in the plane. -/
def planeOf (v : V3 K) : Q2 K := ⟨v.x, v.z⟩

/-- The loop of `distToPoly` (recast/meshdetail.go:1201-1214) from `vj` on: `c` and `dmin`. -/
def dtpLoop (p : V3 K) : V3 K → List (V3 K) → Bool × K → Bool × K
  | _, [], s => s
  | vj, vi :: l, s =>
    let c := if crosses (planeOf p) (planeOf vj) (planeOf vi) then !s.1 else s.1
    let d := (distPtSeg p vj vi).1
    dtpLoop p vi l (c, if d < s.2 then d else s.2)

/-- `distToPoly` (recast/meshdetail.go:1194-1219); it starts with `j = nvert-1`. -/
def distToPoly (big : K) (l : List (V3 K)) (p : V3 K) : K :=
  match l.getLast? with
  | none => big
  | some a =>
    let s := dtpLoop p a l (false, big)
    if s.1 then -s.2 else s.2

/-- `for i := lo; i < hi; i++`. -/
def loopRange (lo hi : Int) : List Int := (List.range (hi - lo).toNat).map fun k => lo + (k : Nat)

/-- The x and z of the samples (recast/meshdetail.go:949-977), in units of `sampleDist`. -/
def sampleGrid [FloorRing K] (big sd : K) : List (V3 K) → List (Int × Int)
  | [] => []
  | v :: l =>
    let bmin : V3 K := l.foldl (fun m w => ⟨min m.x w.x, min m.y w.y, min m.z w.z⟩) v
    let bmax : V3 K := l.foldl (fun m w => ⟨max m.x w.x, max m.y w.y, max m.z w.z⟩) v
    let x0 := ⌊bmin.x / sd⌋
    let x1 := ⌈bmax.x / sd⌉
    let z0 := ⌊bmin.z / sd⌋
    let z1 := ⌈bmax.z / sd⌉
    (loopRange z0 z1).flatMap fun (z : Int) => (loopRange x0 x1).filterMap fun (x : Int) =>
      let pt : V3 K := ⟨(x : K) * sd, (bmax.y + bmin.y) * (1 / 2), (z : K) * sd⟩
      if distToPoly big (v :: l) pt > -sd / 2 then none else some (x, z)

/-! ## Specification -/

/-- Spec: the edges of a polygon, as pairs of end points. -/
def edges3 (l : List (V3 K)) : List (V3 K × V3 K) := (l.rotate (l.length - 1)).zip l

/-- Spec: the squared distance in the plane of `(x, z)` to every point of every edge is at least `m`. -/
def ClearBy (l : List (V3 K)) (x z m : K) : Prop :=
  ∀ e ∈ edges3 l, ∀ s, 0 ≤ s → s ≤ 1 → m ≤ (e.1.x + s * (e.2.x - e.1.x) - x) ^ 2 + (e.1.z + s * (e.2.z - e.1.z) - z) ^ 2

/-! ## Distance -/

/-- Consecutive vertices, from `a` on. -/
def pairs3 : V3 K → List (V3 K) → List (V3 K × V3 K)
  | _, [] => []
  | a, b :: l => (a, b) :: pairs3 b l

theorem pairs3_zip (a : V3 K) (l : List (V3 K)) : pairs3 a l = (a :: l.dropLast).zip l := by
  induction l generalizing a with
  | nil => rfl
  | cons b l ih =>
    rw [pairs3, ih]
    cases l with
    | nil => rfl
    | cons c l => simp

theorem edges3_eq {l : List (V3 K)} {a : V3 K} (h : l.getLast? = some a) : edges3 l = pairs3 a l := by
  obtain ⟨l', rfl⟩ := List.getLast?_eq_some_iff.1 h
  rw [pairs3_zip, edges3]
  congr 1
  have : (l' ++ [a]).length - 1 = l'.length := by simp
  rw [this, List.rotate_append_length_eq]
  simp

theorem dtpLoop_eq (p : V3 K) (l : List (V3 K)) : ∀ a c m, (dtpLoop p a l (c, m)).1 = pnLoop (planeOf p) (planeOf a) (l.map planeOf) c ∧
    ∀ r, r ≤ (dtpLoop p a l (c, m)).2 ↔ r ≤ m ∧ ∀ e ∈ pairs3 a l, r ≤ (distPtSeg p e.1 e.2).1 := by
  induction l with
  | nil => intro a c m; simp [dtpLoop, pnLoop, pairs3]
  | cons b l ih =>
    intro a c m
    rw [dtpLoop]
    simp only
    obtain ⟨h1, h2⟩ := ih b (if crosses (planeOf p) (planeOf a) (planeOf b) then !c else c)
      (if (distPtSeg p a b).1 < m then (distPtSeg p a b).1 else m)
    refine ⟨by rw [h1, List.map_cons, pnLoop], fun r => ?_⟩
    rw [h2, pairs3]
    simp only [List.mem_cons, forall_eq_or_imp]
    have : r ≤ (if (distPtSeg p a b).1 < m then (distPtSeg p a b).1 else m) ↔ r ≤ m ∧ r ≤ (distPtSeg p a b).1 := by
      split
      · rename_i h; exact ⟨fun h' => ⟨h'.trans h.le, h'⟩, fun h' => h'.2⟩
      · rename_i h; exact ⟨fun h' => ⟨h', h'.trans (not_lt.1 h)⟩, fun h' => h'.1⟩
    rw [this, and_assoc]

/-- **C173**. `distToPoly` has a minus sign exactly if the crossing test has the point inside; its absolute value is the
largest number that is at most the squared distance to every point of every edge (and at most `MaxFloat32`). -/
theorem distToPoly_spec {big : K} (hb : 0 < big) {l : List (V3 K)} (hl : l ≠ []) (p : V3 K) : ∃ m, 0 ≤ m ∧
    (∀ r, r ≤ m ↔ r ≤ big ∧ ClearBy l p.x p.z r) ∧
    distToPoly big l p = if pointInPoly (l.map planeOf) (planeOf p) then -m else m := by
  obtain ⟨a, ha⟩ : ∃ a, l.getLast? = some a := ⟨_, List.getLast?_eq_some_getLast hl⟩
  obtain ⟨h1, h2⟩ := dtpLoop_eq p l a false big
  have hspec : ∀ r, r ≤ (dtpLoop p a l (false, big)).2 ↔ r ≤ big ∧ ClearBy l p.x p.z r := by
    intro r
    rw [h2, ClearBy, edges3_eq ha]
    apply and_congr_right'
    constructor
    · intro h e he s hs0 hs1
      exact (h e he).trans ((distPtSeg_closest p e.1 e.2).2.2 s hs0 hs1)
    · intro h e he
      obtain ⟨⟨k1, k2⟩, k3, -⟩ := distPtSeg_closest p e.1 e.2
      rw [k3]
      exact h e he _ k1 k2
  refine ⟨(dtpLoop p a l (false, big)).2, ?_, hspec, ?_⟩
  · rw [hspec]
    exact ⟨hb.le, fun e _ s _ _ => add_nonneg (sq_nonneg _) (sq_nonneg _)⟩
  · unfold distToPoly pointInPoly
    rw [ha, List.getLast?_map, ha]
    simp only [Option.map_some]
    rw [h1]

/-! ## The grid -/

theorem mem_loopRange {lo hi i : Int} : i ∈ loopRange lo hi ↔ lo ≤ i ∧ i < hi := by
  unfold loopRange
  rw [List.mem_map]
  constructor
  · rintro ⟨k, hk, rfl⟩
    rw [List.mem_range] at hk
    omega
  · rintro ⟨h1, h2⟩
    exact ⟨(i - lo).toNat, by rw [List.mem_range]; omega, by omega⟩

theorem pnLoop_false (p : Q2 K) (l : List (Q2 K)) : ∀ a c, (∀ e ∈ pairs a l, crosses p e.1 e.2 = false) → pnLoop p a l c = c := by
  induction l with
  | nil => intro a c _; rfl
  | cons b l ih =>
    intro a c h
    rw [pnLoop, h (a, b) (by simp [pairs])]
    exact ih b c fun e he => h e (by simp [pairs, he])

theorem pointInPoly_false {p : Q2 K} {l : List (Q2 K)} (h : ∀ a ∈ l, ∀ b ∈ l, crosses p a b = false) : pointInPoly l p = false := by
  unfold pointInPoly
  cases hl : l.getLast? with
  | none => rfl
  | some a =>
    have ha : a ∈ l := List.mem_of_getLast? hl
    refine pnLoop_false p l a false fun e he => ?_
    obtain ⟨h1, h2⟩ := pairs_mem a l e he
    exact h _ (by rcases h1 with h1 | h1; rw [h1]; exact ha; exact h1) _ h2

/-- A point that the crossing test has inside lies within the bounds of the vertices. -/
theorem pointInPoly_bounds {p : Q2 K} {l : List (Q2 K)} (h : pointInPoly l p = true) :
    (∃ q ∈ l, q.u ≤ p.u) ∧ (∃ q ∈ l, p.u < q.u) ∧ (∃ q ∈ l, q.v ≤ p.v) ∧ ∃ q ∈ l, p.v < q.v := by
  have key : ∀ {P : Prop}, (¬ P → pointInPoly l p = false) → P := by
    intro P hP
    by_contra hn
    rw [hP hn] at h
    cases h
  refine ⟨key fun hn => ?_, key fun hn => ?_, key fun hn => ?_, key fun hn => ?_⟩
  · push Not at hn
    refine pointInPoly_outside l p ?_
    cases hl : l with
    | nil => subst hl; simp [pointInPoly] at h
    | cons a l' =>
      -- the least first coordinate
      obtain ⟨q, hq, hmin⟩ : ∃ q ∈ l, ∀ r ∈ l, q.u ≤ r.u := by
        have : ∀ L : List (Q2 K), L ≠ [] → ∃ q ∈ L, ∀ r ∈ L, q.u ≤ r.u := by
          intro L
          induction L with
          | nil => intro h; exact absurd rfl h
          | cons b L ih =>
            intro _
            by_cases hL : L = []
            · subst hL; exact ⟨b, by simp, by simp⟩
            · obtain ⟨q, hq, hm⟩ := ih hL
              by_cases hbq : b.u ≤ q.u
              · exact ⟨b, by simp, fun r hr => by
                  rcases List.mem_cons.1 hr with rfl | hr
                  · exact le_refl _
                  · exact hbq.trans (hm r hr)⟩
              · exact ⟨q, by simp [hq], fun r hr => by
                  rcases List.mem_cons.1 hr with rfl | hr
                  · exact (not_le.1 hbq).le
                  · exact hm r hr⟩
        exact this l (by rw [hl]; simp)
      rw [← hl]
      refine ⟨⟨1, 0, -q.u⟩, fun r hr => ?_, ?_⟩
      · have := hmin r hr
        simp only [Aff.val]
        linarith
      · have := hn q hq
        simp only [Aff.val]
        linarith
  · push Not at hn
    refine pointInPoly_false fun a ha b hb => ?_
    by_cases hab : above p a = above p b
    · exact crosses_change hab
    · have h1 := hn a ha
      have h2 := hn b hb
      obtain ⟨t, -, -, -, k4, k5⟩ := change_hull (⟨-1, 0, p.u⟩ : Aff K) (p := p) (a := a) (b := b) (by simp only [Aff.val]; linarith)
        (by simp only [Aff.val]; linarith) hab
      rw [k5, decide_eq_false_iff_not, not_lt]
      simp only [Aff.val] at k4
      linarith
  · push Not at hn
    exact pointInPoly_false fun a ha b hb => crosses_change (by simp [above, hn a ha, hn b hb])
  · push Not at hn
    exact pointInPoly_false fun a ha b hb => crosses_change (by simp [above, not_lt.2 (hn a ha), not_lt.2 (hn b hb)])

theorem foldl_min_le (l : List (V3 K)) : ∀ v : V3 K, ∀ w ∈ v :: l,
    (l.foldl (fun m w => (⟨min m.x w.x, min m.y w.y, min m.z w.z⟩ : V3 K)) v).x ≤ w.x ∧
    (l.foldl (fun m w => (⟨min m.x w.x, min m.y w.y, min m.z w.z⟩ : V3 K)) v).z ≤ w.z := by
  induction l with
  | nil => intro v w hw; simp at hw; subst hw; exact ⟨le_refl _, le_refl _⟩
  | cons b l ih =>
    intro v w hw
    rw [List.foldl_cons]
    have h0 := ih ⟨min v.x b.x, min v.y b.y, min v.z b.z⟩
    rcases List.mem_cons.1 hw with rfl | hw
    · obtain ⟨h1, h2⟩ := h0 _ List.mem_cons_self
      exact ⟨h1.trans (min_le_left _ _), h2.trans (min_le_left _ _)⟩
    · rcases List.mem_cons.1 hw with rfl | hw
      · obtain ⟨h1, h2⟩ := h0 _ List.mem_cons_self
        exact ⟨h1.trans (min_le_right _ _), h2.trans (min_le_right _ _)⟩
      · exact h0 w (by simp [hw])

theorem le_foldl_max (l : List (V3 K)) : ∀ v : V3 K, ∀ w ∈ v :: l,
    w.x ≤ (l.foldl (fun m w => (⟨max m.x w.x, max m.y w.y, max m.z w.z⟩ : V3 K)) v).x ∧
    w.z ≤ (l.foldl (fun m w => (⟨max m.x w.x, max m.y w.y, max m.z w.z⟩ : V3 K)) v).z := by
  induction l with
  | nil => intro v w hw; simp at hw; subst hw; exact ⟨le_refl _, le_refl _⟩
  | cons b l ih =>
    intro v w hw
    rw [List.foldl_cons]
    have h0 := ih ⟨max v.x b.x, max v.y b.y, max v.z b.z⟩
    rcases List.mem_cons.1 hw with rfl | hw
    · obtain ⟨h1, h2⟩ := h0 _ List.mem_cons_self
      exact ⟨(le_max_left _ _).trans h1, (le_max_left _ _).trans h2⟩
    · rcases List.mem_cons.1 hw with rfl | hw
      · obtain ⟨h1, h2⟩ := h0 _ List.mem_cons_self
        exact ⟨(le_max_right _ _).trans h1, (le_max_right _ _).trans h2⟩
      · exact h0 w (by simp [hw])

/-- The test of one sample. -/
theorem sample_test {big sd : K} (hsd : 0 < sd) (hb : sd / 2 ≤ big) {l : List (V3 K)} (hl : l ≠ []) (p : V3 K) :
    ¬ distToPoly big l p > -sd / 2 ↔ pointInPoly (l.map planeOf) (planeOf p) = true ∧ ClearBy l p.x p.z (sd / 2) := by
  obtain ⟨m, h0, h1, h2⟩ := distToPoly_spec (big := big) (lt_of_lt_of_le (by linarith) hb) hl p
  rw [h2, not_lt]
  cases hc : pointInPoly (l.map planeOf) (planeOf p) with
  | false =>
    simp only [Bool.false_eq_true, if_false, false_and, iff_false, not_le]
    linarith
  | true =>
    simp only [if_true, true_and]
    have := h1 (sd / 2)
    constructor
    · intro h; exact (this.1 (by linarith)).2
    · intro h; have := this.2 ⟨hb, h⟩; linarith

/-- **C173**. The samples are exactly the points of the unbounded grid with spacing `sampleDist` that the crossing test has in the polygon and
whose squared distance to all points of all edges is at least half of `sampleDist`: the bounds of the loops lose none. -/
theorem samples_iff [FloorRing K] {big sd : K} (hsd : 0 < sd) (hb : sd / 2 ≤ big) {l : List (V3 K)} (hl : l ≠ []) (x z : Int) :
    (x, z) ∈ sampleGrid big sd l ↔ pointInPoly (l.map planeOf) ⟨(x : K) * sd, (z : K) * sd⟩ = true ∧
      ClearBy l ((x : K) * sd) ((z : K) * sd) (sd / 2) := by
  cases l with
  | nil => exact absurd rfl hl
  | cons v l =>
    unfold sampleGrid
    simp only [List.mem_flatMap, List.mem_filterMap, mem_loopRange]
    constructor
    · rintro ⟨z', hz, x', hx, h⟩
      split at h
      · cases h
      · rename_i ht
        simp only [Option.some.injEq, Prod.mk.injEq] at h
        obtain ⟨rfl, rfl⟩ := h
        exact (sample_test hsd hb hl _).1 ht
    · rintro ⟨h1, h2⟩
      obtain ⟨⟨q1, m1, b1⟩, ⟨q2, m2, b2⟩, ⟨q3, m3, b3⟩, q4, m4, b4⟩ := pointInPoly_bounds h1
      simp only [List.mem_map] at m1 m2 m3 m4
      obtain ⟨w1, n1, rfl⟩ := m1
      obtain ⟨w2, n2, rfl⟩ := m2
      obtain ⟨w3, n3, rfl⟩ := m3
      obtain ⟨w4, n4, rfl⟩ := m4
      simp only [planeOf] at b1 b2 b3 b4
      refine ⟨z, ⟨?_, ?_⟩, x, ⟨?_, ?_⟩, ?_⟩
      · have := (foldl_min_le l v w3 n3).2.trans b3
        exact_mod_cast (Int.floor_le _).trans ((div_le_iff₀ hsd).2 this)
      · have := lt_of_lt_of_le b4 (le_foldl_max l v w4 n4).2
        exact Int.lt_ceil.2 ((lt_div_iff₀ hsd).2 this)
      · have := (foldl_min_le l v w1 n1).1.trans b1
        exact_mod_cast (Int.floor_le _).trans ((div_le_iff₀ hsd).2 this)
      · have := lt_of_lt_of_le b2 (le_foldl_max l v w2 n2).1
        exact Int.lt_ceil.2 ((lt_div_iff₀ hsd).2 this)
      · rw [if_neg]
        exact (sample_test hsd hb hl _).2 ⟨h1, h2⟩

/-- **C173**. No sample occurs twice. -/
theorem samples_nodup [FloorRing K] (big sd : K) (l : List (V3 K)) : (sampleGrid big sd l).Nodup := by
  have hr : ∀ lo hi, (loopRange lo hi).Nodup := fun lo hi => (List.nodup_range).map fun a b h => by simpa using h
  cases l with
  | nil => exact List.nodup_nil
  | cons v l =>
    unfold sampleGrid
    simp only
    rw [List.nodup_flatMap]
    refine ⟨fun z _ => (hr _ _).filterMap fun a a' b h1 h2 => ?_, (hr _ _).imp fun {z z'} hne => ?_⟩
    · simp only [Option.mem_def] at h1 h2
      split at h1
      · cases h1
      · split at h2
        · cases h2
        · cases h1; cases h2; rfl
    · rw [Function.onFun, List.disjoint_left]
      intro y h1 h2
      rw [List.mem_filterMap] at h1 h2
      obtain ⟨a, -, e1⟩ := h1
      obtain ⟨a', -, e2⟩ := h2
      split at e1
      · cases e1
      · split at e2
        · cases e2
        · cases e1; cases e2; exact hne rfl

/-- **C173** (partial). With `sampleDist` up to 2, samples keep the distance of half of `sampleDist` from the edges that the code asks for. -/
theorem samples_clear_partial [FloorRing K] {big sd : K} (hsd : 0 < sd) (h2 : sd ≤ 2) (hb : sd / 2 ≤ big) {l : List (V3 K)} (hl : l ≠ []) {x z : Int}
    (h : (x, z) ∈ sampleGrid big sd l) : ClearBy l ((x : K) * sd) ((z : K) * sd) ((sd / 2) ^ 2) := by
  intro e he s hs0 hs1
  refine le_trans ?_ (((samples_iff hsd hb hl x z).1 h).2 e he s hs0 hs1)
  nlinarith

/-! ## Examples -/

/-- A square from 5 to 45. -/
def gridSquare : List (V3 ℚ) := [⟨5, 0, 5⟩, ⟨5, 0, 45⟩, ⟨45, 0, 45⟩, ⟨45, 0, 5⟩]

/-- **C173** (refuted in full). The distance is squared, but compared as if it were not: with `sampleDist` 8 a sample 3 from two edges is kept, though
the code asks for 4. -/
theorem samples_clear_refuted : (1, 1) ∈ sampleGrid (1000000 : ℚ) 8 gridSquare ∧ ¬ ClearBy gridSquare (((1 : Int) : ℚ) * 8) (((1 : Int) : ℚ) * 8) ((8 / 2) ^ 2) := by
  refine ⟨by decide +kernel, fun h => ?_⟩
  have := h (⟨5, 0, 5⟩, ⟨5, 0, 45⟩) (by simp [edges3, gridSquare, List.rotate]) (3 / 40) (by norm_num) (by norm_num)
  norm_num at this

/-- **C173** (refuted in full). With small spacings samples are lost: 1/4 inside of the edges of a square, with `sampleDist` 1/4, where 1/8 is asked
for. -/
theorem samples_lost_refuted : (1, 1) ∉ sampleGrid (1000000 : ℚ) (1 / 4) [⟨0, 0, 0⟩, ⟨0, 0, 1⟩, ⟨1, 0, 1⟩, ⟨1, 0, 0⟩] ∧
    pointInPoly ([⟨0, 0, 0⟩, ⟨0, 0, 1⟩, ⟨1, 0, 1⟩, ⟨1, 0, 0⟩].map planeOf) (⟨((1 : Int) : ℚ) * (1 / 4), ((1 : Int) : ℚ) * (1 / 4)⟩ : Q2 ℚ) = true ∧
    ClearBy ([⟨0, 0, 0⟩, ⟨0, 0, 1⟩, ⟨1, 0, 1⟩, ⟨1, 0, 0⟩] : List (V3 ℚ)) (((1 : Int) : ℚ) * (1 / 4)) (((1 : Int) : ℚ) * (1 / 4)) ((1 / 4 / 2) ^ 2) := by
  refine ⟨by decide +kernel, by decide +kernel, ?_⟩
  intro e he s h0 h1
  simp [edges3, List.rotate] at he
  rcases he with rfl | rfl | rfl | rfl <;> simp only <;> norm_num <;> nlinarith [sq_nonneg (s - 1 / 4), sq_nonneg (s - 3 / 4)]

/-- Hypotheses and results: all grid points strictly inside, in the order of the loops. -/
example : sampleGrid (1000000 : ℚ) 20 gridSquare = [(1, 1), (2, 1), (1, 2), (2, 2)] := by decide +kernel

end Verif.Recast
