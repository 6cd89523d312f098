/-
Splitting a convex polygon at an axis plane: `dividePoly` (recast/rasterization.go:281-332).

Exact arithmetic over an arbitrary linearly ordered field (rounding is outside the model). The
polygon is a list of points of any type `P`; `f p = x - p[axis]` is the signed distance to the plane
and `mix p q s = p + (q - p) * s` componentwise. The fixed scratch buffers are accounted for in
Recast/Rasterize.

Convexity is used in the form "no affine function changes sign more than twice along the cyclic
sequence of vertices"; it holds for every triangle and is preserved by the splitting.
-/
import Verif.Common.Chain
import Verif.Common.Vec
import Mathlib.Algebra.Order.Field.Basic
import Mathlib.Algebra.Order.Field.Rat
import Mathlib.Tactic.Linarith
import Mathlib.Tactic.FieldSimp
import Mathlib.Tactic.Ring
import Mathlib.Tactic.LinearCombination
import Mathlib.Tactic.NormNum
import Mathlib.Tactic.Positivity

namespace Verif.Recast

set_option linter.unusedSectionVars false
set_option linter.unusedSimpArgs false

section
variable {K : Type} [Field K] [LinearOrder K] {P : Type}

/-! ## Model -/

/-- The loop of `dividePoly` (recast/rasterization.go:293-329) from edge `(pj, pi)` on: the points
appended to `out1` and `out2`. -/
def divideLoop (f : P → K) (mix : P → P → K → P) : P → List P → List P × List P
  | _, [] => ([], [])
  | pj, pi :: rest =>
    let r := divideLoop f mix pi rest
    let dj := f pj
    let di := f pi
    if decide (0 ≤ dj) ≠ decide (0 ≤ di) then
      let x := mix pj pi (dj / (dj - di))
      if 0 < di then (x :: pi :: r.1, x :: r.2)
      else if di < 0 then (x :: r.1, x :: pi :: r.2)
      else (x :: r.1, x :: r.2)
    else
      if 0 ≤ di then
        if di ≠ 0 then (pi :: r.1, r.2) else (pi :: r.1, pi :: r.2)
      else (r.1, pi :: r.2)

/-- `dividePoly` (recast/rasterization.go:281-332): `j` starts at the last vertex. -/
def divide (f : P → K) (mix : P → P → K → P) (l : List P) : List P × List P :=
  match l.getLast? with
  | none => ([], [])
  | some p => divideLoop f mix p l

end

/-! ## Sign changes along a list -/

/-- Number of changes when walking over the list from value `a`. -/
def tr : Bool → List Bool → Nat
  | _, [] => 0
  | a, b :: l => (if a = b then 0 else 1) + tr b l

/-- Number of changes around the cycle. -/
def ctr (l : List Bool) : Nat :=
  match l.getLast? with
  | none => 0
  | some a => tr a l

theorem tr_start (a b : Bool) (l : List Bool) :
    tr a l ≤ tr b l + (if a = b then 0 else 1) := by
  cases l with
  | nil => simp [tr]
  | cons c l => cases a <;> cases b <;> cases c <;> simp [tr] <;> omega

theorem tr_sublist {l' l : List Bool} (h : l'.Sublist l) : ∀ a, tr a l' ≤ tr a l := by
  induction h with
  | slnil => intro a; exact le_rfl
  | @cons l' l y _ ih =>
    intro a
    have h1 := ih a
    have h2 := tr_start a y l
    rw [tr]; omega
  | @cons_cons l' l y _ ih =>
    intro a
    have := ih y
    rw [tr, tr]; omega

theorem tr_append (a b : Bool) (l m : List Bool) :
    tr a (l ++ b :: m) = tr a (l ++ [b]) + tr b m := by
  induction l generalizing a with
  | nil => simp [tr]
  | cons c l ih => rw [List.cons_append, tr, ih, List.cons_append, tr]; omega

theorem tr_ge (a z : Bool) (l : List Bool) : (if a = z then 0 else 1) ≤ tr a (l ++ [z]) := by
  induction l generalizing a with
  | nil => simp [tr]
  | cons c l ih =>
    have := ih c
    rw [List.cons_append, tr]
    cases a <;> cases z <;> cases c <;> simp at * <;> omega

theorem ctr_sublist {l' l : List Bool} (h : l'.Sublist l) : ctr l' ≤ ctr l := by
  rcases List.eq_nil_or_concat l' with rfl | ⟨ini, z', hz'⟩
  · simp [ctr]
  · rw [List.concat_eq_append] at hz'
    subst hz'
    rcases List.eq_nil_or_concat l with rfl | ⟨ini2, z, hz⟩
    · simp at h
    · rw [List.concat_eq_append] at hz
      have hc1 : ctr (ini ++ [z']) = tr z' (ini ++ [z']) := by simp [ctr]
      have hc2 : ctr l = tr z l := by simp [ctr, hz]
      rw [hc1, hc2]
      -- find the last point
      obtain ⟨p, q, hpq, hs1, hs2⟩ := List.append_sublist_iff.1 h
      obtain ⟨r, q', hq⟩ := List.append_of_mem (List.singleton_sublist.1 hs2)
      have hl : l = (p ++ r) ++ z' :: q' := by rw [hpq, hq, List.append_assoc]
      have hla : tr z l = tr z ((p ++ r) ++ [z']) + tr z' q' := by rw [hl, tr_append]
      have hsub : (ini ++ [z']).Sublist ((p ++ r) ++ [z']) :=
        List.Sublist.append (hs1.trans (List.sublist_append_left _ _)) (List.Sublist.refl _)
      have h1 := tr_sublist hsub z'
      have h2 := tr_start z' z ((p ++ r) ++ [z'])
      have h3 : (if z' = z then 0 else 1) ≤ tr z' q' := by
        rcases List.eq_nil_or_concat q' with rfl | ⟨i3, z3, hq3⟩
        · have : z = z' := by
            have e : (ini2 ++ [z]).getLast? = ((p ++ r) ++ [z']).getLast? := by rw [← hz, hl]
            simpa using e
          simp [this]
        · rw [List.concat_eq_append] at hq3
          have : z = z3 := by
            have e : (ini2 ++ [z]).getLast? = ((p ++ r) ++ z' :: q').getLast? := by rw [← hz, hl]
            rw [hq3] at e
            have e2 : (p ++ r) ++ z' :: (i3 ++ [z3]) = ((p ++ r) ++ z' :: i3) ++ [z3] := by simp
            rw [e2, List.getLast?_concat, List.getLast?_concat] at e
            exact Option.some.inj e
          rw [hq3, this]
          exact tr_ge z' z3 i3
      omega

/-- Upward changes minus downward changes is the difference of the ends. -/
def ups : Bool → List Bool → Nat
  | _, [] => 0
  | a, b :: l => (if a = false ∧ b = true then 1 else 0) + ups b l
/-- Downward changes. -/
def downs : Bool → List Bool → Nat
  | _, [] => 0
  | a, b :: l => (if a = true ∧ b = false then 1 else 0) + downs b l

theorem tr_eq (a : Bool) (l : List Bool) : tr a l = ups a l + downs a l := by
  induction l generalizing a with
  | nil => rfl
  | cons b l ih => rw [tr, ups, downs, ih]; cases a <;> cases b <;> simp <;> omega

theorem ups_downs (a : Bool) (l : List Bool) (z : Bool) :
    ups a (l ++ [z]) + a.toNat = downs a (l ++ [z]) + z.toNat := by
  induction l generalizing a with
  | nil => cases a <;> cases z <;> simp [ups, downs]
  | cons b l ih =>
    have := ih b
    rw [List.cons_append, ups, downs]
    cases a <;> cases b <;> simp at * <;> omega

theorem ups_eq_downs {l : List Bool} {z : Bool} (h : l.getLast? = some z) :
    ups z l = downs z l ∧ ctr l = 2 * ups z l := by
  have e : ups z l = downs z l := by
    obtain ⟨ini, rfl⟩ := List.getLast?_eq_some_iff.1 h
    have := ups_downs z ini z
    omega
  refine ⟨e, ?_⟩
  have : ctr l = tr z l := by simp [ctr, h]
  rw [this, tr_eq]; omega

theorem tr_zero (a : Bool) (l : List Bool) (h : tr a l = 0) : ∀ b ∈ l, b = a := by
  induction l generalizing a with
  | nil => simp
  | cons b l ih =>
    rw [tr] at h
    have hb : a = b := by
      by_contra hne
      rw [if_neg hne] at h; omega
    subst hb
    intro c hc
    rw [List.mem_cons] at hc
    rcases hc with rfl | hc
    · rfl
    · exact ih a (by omega) c hc

/-! ## Splitting refines the boundary -/

section
variable {K : Type} [Field K] [LinearOrder K] [IsStrictOrderedRing K] {P : Type}

/-- Spec: the boundary with the crossing points inserted. -/
def refineLoop (f : P → K) (mix : P → P → K → P) : P → List P → List P
  | _, [] => []
  | pj, pi :: rest =>
    if decide (0 ≤ f pj) ≠ decide (0 ≤ f pi) then
      mix pj pi (f pj / (f pj - f pi)) :: pi :: refineLoop f mix pi rest
    else pi :: refineLoop f mix pi rest

theorem divideLoop_sublist (f : P → K) (mix : P → P → K → P) (l : List P) : ∀ p,
    (divideLoop f mix p l).1.Sublist (refineLoop f mix p l) ∧
    (divideLoop f mix p l).2.Sublist (refineLoop f mix p l) := by
  induction l with
  | nil => intro p; simp [divideLoop, refineLoop]
  | cons q l ih =>
    intro p
    obtain ⟨h1, h2⟩ := ih q
    rw [divideLoop, refineLoop]
    simp only
    split
    · split
      · exact ⟨(h1.cons_cons _).cons_cons _, (h2.cons _).cons_cons _⟩
      · split
        · exact ⟨(h1.cons _).cons_cons _, (h2.cons_cons _).cons_cons _⟩
        · exact ⟨(h1.cons _).cons_cons _, (h2.cons _).cons_cons _⟩
    · split
      · split
        · exact ⟨h1.cons_cons _, h2.cons _⟩
        · exact ⟨h1.cons_cons _, h2.cons_cons _⟩
      · exact ⟨h1.cons _, h2.cons_cons _⟩

theorem refineLoop_append (f : P → K) (mix : P → P → K → P) (l : List P) : ∀ p v m,
    refineLoop f mix p (l ++ v :: m) = refineLoop f mix p (l ++ [v]) ++ refineLoop f mix v m := by
  induction l with
  | nil => intro p v m; simp only [List.nil_append, refineLoop]; split <;> simp
  | cons q l ih =>
    intro p v m
    simp only [List.cons_append, refineLoop, ih q v m]
    split <;> simp

theorem refineLoop_getLast (f : P → K) (mix : P → P → K → P) (l : List P) : ∀ p,
    (refineLoop f mix p l).getLast? = l.getLast? := by
  induction l with
  | nil => intro p; rfl
  | cons q l ih =>
    intro p
    have h := ih q
    have key : (q :: refineLoop f mix q l).getLast? = (q :: l).getLast? := by
      rw [List.getLast?_cons, List.getLast?_cons, h]
    rw [refineLoop]
    split
    · rw [List.getLast?_cons_cons, key]
    · exact key

theorem refineLoop_tr (f : P → K) (mix : P → P → K → P) (s : P → Bool)
    (hs : ∀ p q, decide (0 ≤ f p) ≠ decide (0 ≤ f q) →
      s (mix p q (f p / (f p - f q))) = s p ∨ s (mix p q (f p / (f p - f q))) = s q)
    (l : List P) : ∀ p, tr (s p) ((refineLoop f mix p l).map s) = tr (s p) (l.map s) := by
  induction l with
  | nil => intro p; rfl
  | cons q l ih =>
    intro p
    have h := ih q
    rw [refineLoop]
    split
    · rename_i hc
      simp only [List.map_cons, tr, h]
      rcases hs p q hc with e | e <;> rw [e] <;> simp
    · simp only [List.map_cons, tr, h]

/-- `divide` on a non-empty list. -/
theorem divide_eq (f : P → K) (mix : P → P → K → P) {l : List P} {p : P}
    (h : l.getLast? = some p) : divide f mix l = divideLoop f mix p l := by
  simp [divide, h]

/-- Splitting does not add sign changes. -/
theorem divide_ctr (f : P → K) (mix : P → P → K → P) (s : P → Bool)
    (hs : ∀ p q, decide (0 ≤ f p) ≠ decide (0 ≤ f q) →
      s (mix p q (f p / (f p - f q))) = s p ∨ s (mix p q (f p / (f p - f q))) = s q) (l : List P) :
    ctr ((divide f mix l).1.map s) ≤ ctr (l.map s) ∧
    ctr ((divide f mix l).2.map s) ≤ ctr (l.map s) := by
  cases hl : l.getLast? with
  | none => simp [divide, hl, ctr]
  | some p =>
    have hr : ctr ((refineLoop f mix p l).map s) = ctr (l.map s) := by
      unfold ctr
      simp only [List.getLast?_map, refineLoop_getLast, hl, Option.map_some]
      exact refineLoop_tr f mix s hs l p
    rw [divide_eq f mix hl, ← hr]
    obtain ⟨h1, h2⟩ := divideLoop_sublist f mix l p
    exact ⟨ctr_sublist (h1.map s), ctr_sublist (h2.map s)⟩

/-! ## Numbers of points -/

/-- Number of points with property `s`. -/
def cnt (s : P → Bool) (l : List P) : Nat := (l.filter s).length

theorem cnt_cons (s : P → Bool) (p : P) (l : List P) :
    cnt s (p :: l) = (if s p then 1 else 0) + cnt s l := by
  unfold cnt
  by_cases h : s p = true
  · rw [List.filter_cons_of_pos h, if_pos h, List.length_cons]; omega
  · rw [List.filter_cons_of_neg h, if_neg h]; omega

theorem cnt_le (s : P → Bool) (l : List P) : cnt s l ≤ l.length := List.length_filter_le _ _

/-- The side of the first output. -/
def low (f : P → K) (p : P) : Bool := decide (0 ≤ f p)

theorem divideLoop_len (f : P → K) (mix : P → P → K → P) (l : List P) : ∀ p,
    (divideLoop f mix p l).1.length ≤ l.length + ups (low f p) (l.map (low f)) ∧
    (divideLoop f mix p l).2.length ≤ l.length + downs (low f p) (l.map (low f)) ∧
    (divideLoop f mix p l).2.length ≤
      cnt (fun q => decide (f q ≤ 0)) l + tr (low f p) (l.map (low f)) ∧
    tr (low f p) (l.map (low f)) + cnt (fun q => decide (0 < f q)) l ≤
      (divideLoop f mix p l).1.length ∧
    tr (low f p) (l.map (low f)) + cnt (fun q => decide (f q < 0)) l ≤
      (divideLoop f mix p l).2.length ∧
    cnt (low f) l ≤ (divideLoop f mix p l).1.length := by
  induction l with
  | nil => intro p; simp [divideLoop, ups, downs, tr, cnt]
  | cons q l ih =>
    intro p
    obtain ⟨h1, h2, h3, h4, h5, h6⟩ := ih q
    rw [divideLoop]
    simp only [List.map_cons, ups, downs, tr, cnt_cons, List.length_cons]
    rcases lt_trichotomy (f q) 0 with hq | hq | hq
    · have e1 : low f q = false := by simp [low, hq]
      have n1 : ¬ (0 ≤ f q) := not_le.2 hq
      have n2 : ¬ (0 < f q) := not_lt.2 hq.le
      cases hp : low f p with
      | false =>
        have hp' : ¬ (0 ≤ f p) := by simpa [low] using hp
        simp only [e1, n1, n2, hp', decide_false, ne_eq, not_true_eq_false, if_false, hq, hq.le,
          decide_true, if_true, Bool.false_eq_true, false_and, and_false, List.length_cons,
          and_true, reduceIte] at *
        omega
      | true =>
        have hp' : 0 ≤ f p := by simpa [low] using hp
        simp only [e1, n1, n2, hp', decide_false, decide_true, ne_eq, Bool.true_eq_false,
          not_false_eq_true, if_true, if_false, hq, hq.le, Bool.false_eq_true, List.length_cons,
          and_self, and_false, reduceIte] at *
        omega
    · have e1 : low f q = true := by simp [low, hq]
      cases hp : low f p with
      | false =>
        have hp' : ¬ (0 ≤ f p) := by simpa [low] using hp
        simp only [e1, hq, hp', decide_false, decide_true, ne_eq, Bool.false_eq_true,
          not_false_eq_true, if_true, if_false, lt_irrefl, le_refl, List.length_cons,
          and_self, and_false, Bool.true_eq_false, false_and, reduceIte] at *
        omega
      | true =>
        have hp' : 0 ≤ f p := by simpa [low] using hp
        simp only [e1, hq, hp', decide_false, decide_true, ne_eq, not_true_eq_false,
          if_true, if_false, lt_irrefl, le_refl, List.length_cons,
          and_self, and_false, Bool.true_eq_false, false_and, reduceIte, Bool.false_eq_true] at *
        omega
    · have e1 : low f q = true := by simp [low, hq.le]
      have n1 : ¬ (f q < 0) := not_lt.2 hq.le
      have n2 : ¬ (f q ≤ 0) := not_le.2 hq
      cases hp : low f p with
      | false =>
        have hp' : ¬ (0 ≤ f p) := by simpa [low] using hp
        simp only [e1, hq, hq.le, hp', decide_false, decide_true, ne_eq, Bool.false_eq_true,
          not_false_eq_true, if_true, if_false, n1, n2, List.length_cons,
          and_self, and_false, Bool.true_eq_false, false_and, reduceIte] at *
        omega
      | true =>
        have hp' : 0 ≤ f p := by simpa [low] using hp
        simp only [e1, hq, hq.le, hq.ne', hp', decide_false, decide_true, ne_eq, not_true_eq_false,
          not_false_eq_true, if_true, if_false, n1, n2, List.length_cons,
          and_self, and_false, Bool.true_eq_false, false_and, reduceIte, Bool.false_eq_true] at *
        omega

/-- At most two sign changes: the outputs have at most one point more than the polygon. -/
theorem divide_len (f : P → K) (mix : P → P → K → P) (l : List P)
    (hc : ctr (l.map (low f)) ≤ 2) :
    (divide f mix l).1.length ≤ l.length + 1 ∧ (divide f mix l).2.length ≤ l.length + 1 ∧
    (divide f mix l).2.length ≤ cnt (fun q => decide (f q ≤ 0)) l + 2 := by
  cases hl : l.getLast? with
  | none => simp [divide, hl]
  | some p =>
    rw [divide_eq f mix hl]
    obtain ⟨h1, h2, h3, -, -, -⟩ := divideLoop_len f mix l p
    have hz : (l.map (low f)).getLast? = some (low f p) := by simp [hl]
    obtain ⟨e1, e2⟩ := ups_eq_downs hz
    have e3 : ctr (l.map (low f)) = tr (low f p) (l.map (low f)) := by simp [ctr, hl]
    omega

/-- A point strictly on a side gives that output at least three points. -/
theorem divide_three (f : P → K) (mix : P → P → K → P) (l : List P) (h3 : 3 ≤ l.length) :
    ((∃ q ∈ l, 0 < f q) → 3 ≤ (divide f mix l).1.length) ∧
    ((∃ q ∈ l, f q < 0) → 3 ≤ (divide f mix l).2.length) := by
  cases hl : l.getLast? with
  | none => rw [List.getLast?_eq_none_iff] at hl; simp [hl] at h3
  | some p =>
    rw [divide_eq f mix hl]
    obtain ⟨-, -, -, h4, h5, h6⟩ := divideLoop_len f mix l p
    have hz : (l.map (low f)).getLast? = some (low f p) := by simp [hl]
    obtain ⟨e1, e2⟩ := ups_eq_downs hz
    have e3 : ctr (l.map (low f)) = tr (low f p) (l.map (low f)) := by simp [ctr, hl]
    have pos : ∀ s : P → Bool, (∃ q ∈ l, s q = true) → 1 ≤ cnt s l := by
      intro s ⟨q, hq, hs⟩
      have : 0 < (l.filter s).length := List.length_pos_of_mem (List.mem_filter.2 ⟨hq, hs⟩)
      exact this
    have all : ∀ s : P → Bool, (∀ q ∈ l, s q = true) → cnt s l = l.length := by
      intro s hs
      unfold cnt
      rw [List.filter_eq_self.2 hs]
    constructor
    · rintro ⟨q, hq, hfq⟩
      by_cases h0 : tr (low f p) (l.map (low f)) = 0
      · have hall := tr_zero _ _ h0
        have hp : low f p = true := by
          rw [← hall (low f q) (List.mem_map.2 ⟨q, hq, rfl⟩)]
          simp [low, hfq.le]
        have := all (low f) (fun r hr => by rw [hall _ (List.mem_map.2 ⟨r, hr, rfl⟩), hp])
        omega
      · have := pos (fun q => decide (0 < f q)) ⟨q, hq, by simpa using hfq⟩
        omega
    · rintro ⟨q, hq, hfq⟩
      by_cases h0 : tr (low f p) (l.map (low f)) = 0
      · have hall := tr_zero _ _ h0
        have hp : low f p = false := by
          rw [← hall (low f q) (List.mem_map.2 ⟨q, hq, rfl⟩)]
          simp [low, hfq]
        have := all (fun q => decide (f q < 0)) (fun r hr => by
          have := hall _ (List.mem_map.2 ⟨r, hr, rfl⟩)
          rw [hp] at this
          simpa [low] using this)
        omega
      · have := pos (fun q => decide (f q < 0)) ⟨q, hq, by simpa using hfq⟩
        omega

/-! ## Membership and sides -/

/-- Where the points of the outputs come from. -/
theorem mem_divideLoop (f : P → K) (mix : P → P → K → P)
    (hX : ∀ p q, decide (0 ≤ f p) ≠ decide (0 ≤ f q) → f (mix p q (f p / (f p - f q))) = 0)
    (l : List P) : ∀ p,
    (∀ r ∈ (divideLoop f mix p l).1, 0 ≤ f r) ∧ (∀ r ∈ (divideLoop f mix p l).2, f r ≤ 0) ∧
    cnt (fun q => decide (f q < 0)) (divideLoop f mix p l).2
      = cnt (fun q => decide (f q < 0)) l := by
  induction l with
  | nil => intro p; simp [divideLoop, cnt]
  | cons q l ih =>
    intro p
    obtain ⟨h1, h2, h3⟩ := ih q
    rw [divideLoop]
    simp only
    split
    · rename_i hc
      have hx := hX p q hc
      split
      · rename_i hq
        refine ⟨?_, ?_, ?_⟩
        · intro r hr
          simp only [List.mem_cons] at hr
          rcases hr with rfl | rfl | hr
          · exact hx.ge
          · exact hq.le
          · exact h1 r hr
        · intro r hr
          simp only [List.mem_cons] at hr
          rcases hr with rfl | hr
          · exact hx.le
          · exact h2 r hr
        · simp only [cnt_cons, hx, h3, lt_irrefl, decide_false, not_lt.2 hq.le]
      · split
        · rename_i hq
          refine ⟨?_, ?_, ?_⟩
          · intro r hr
            simp only [List.mem_cons] at hr
            rcases hr with rfl | hr
            · exact hx.ge
            · exact h1 r hr
          · intro r hr
            simp only [List.mem_cons] at hr
            rcases hr with rfl | rfl | hr
            · exact hx.le
            · exact hq.le
            · exact h2 r hr
          · simp only [cnt_cons, hx, h3, lt_irrefl, decide_false, hq, decide_true]
            simp
        · rename_i hq1 hq2
          refine ⟨?_, ?_, ?_⟩
          · intro r hr
            simp only [List.mem_cons] at hr
            rcases hr with rfl | hr
            · exact hx.ge
            · exact h1 r hr
          · intro r hr
            simp only [List.mem_cons] at hr
            rcases hr with rfl | hr
            · exact hx.le
            · exact h2 r hr
          · simp only [cnt_cons, hx, h3, lt_irrefl, decide_false, hq2]
    · split
      · rename_i hq
        split
        · refine ⟨?_, h2, ?_⟩
          · intro r hr
            simp only [List.mem_cons] at hr
            rcases hr with rfl | hr
            · exact hq
            · exact h1 r hr
          · simp only [cnt_cons, h3, not_lt.2 hq, decide_false]
            simp
        · rename_i hq0
          have hq0 : f q = 0 := by simpa using hq0
          refine ⟨?_, ?_, ?_⟩
          · intro r hr
            simp only [List.mem_cons] at hr
            rcases hr with rfl | hr
            · exact hq
            · exact h1 r hr
          · intro r hr
            simp only [List.mem_cons] at hr
            rcases hr with rfl | hr
            · exact hq0.le
            · exact h2 r hr
          · simp only [cnt_cons, h3]
      · rename_i hq
        refine ⟨h1, ?_, ?_⟩
        · intro r hr
          simp only [List.mem_cons] at hr
          rcases hr with rfl | hr
          · exact (not_le.1 hq).le
          · exact h2 r hr
        · simp only [cnt_cons, h3]

/-- Predicates closed under the crossing points pass to the outputs. -/
theorem forall_divideLoop (f : P → K) (mix : P → P → K → P) (s : P → Prop)
    (hs : ∀ p q, s p → s q → decide (0 ≤ f p) ≠ decide (0 ≤ f q) →
      s (mix p q (f p / (f p - f q)))) (l : List P) : ∀ p, s p → (∀ q ∈ l, s q) →
    (∀ r ∈ (divideLoop f mix p l).1, s r) ∧ (∀ r ∈ (divideLoop f mix p l).2, s r) := by
  suffices h : ∀ p, s p → (∀ q ∈ l, s q) → ∀ r ∈ refineLoop f mix p l, s r by
    intro p hp hl
    obtain ⟨h1, h2⟩ := divideLoop_sublist f mix l p
    exact ⟨fun r hr => h p hp hl r (h1.subset hr), fun r hr => h p hp hl r (h2.subset hr)⟩
  induction l with
  | nil => intro p _ _ r hr; simp [refineLoop] at hr
  | cons q l ih =>
    intro p hp hl r hr
    have hq := hl q (List.mem_cons_self)
    have := ih q hq (fun r hr => hl r (List.mem_cons_of_mem _ hr)) r
    rw [refineLoop] at hr
    split at hr
    · rename_i hc
      simp only [List.mem_cons] at hr
      rcases hr with rfl | rfl | hr
      · exact hs p q hp hq hc
      · exact hq
      · exact this hr
    · simp only [List.mem_cons] at hr
      rcases hr with rfl | hr
      · exact hq
      · exact this hr

theorem forall_divide (f : P → K) (mix : P → P → K → P) (s : P → Prop)
    (hs : ∀ p q, s p → s q → decide (0 ≤ f p) ≠ decide (0 ≤ f q) →
      s (mix p q (f p / (f p - f q)))) (l : List P) (hl : ∀ q ∈ l, s q) :
    (∀ r ∈ (divide f mix l).1, s r) ∧ (∀ r ∈ (divide f mix l).2, s r) := by
  cases h : l.getLast? with
  | none => simp [divide, h]
  | some p =>
    rw [divide_eq f mix h]
    exact forall_divideLoop f mix s hs l p (hl p (List.mem_of_getLast? h)) hl

theorem divide_sides (f : P → K) (mix : P → P → K → P)
    (hX : ∀ p q, decide (0 ≤ f p) ≠ decide (0 ≤ f q) → f (mix p q (f p / (f p - f q))) = 0)
    (l : List P) :
    (∀ r ∈ (divide f mix l).1, 0 ≤ f r) ∧ (∀ r ∈ (divide f mix l).2, f r ≤ 0) ∧
    cnt (fun q => decide (f q < 0)) (divide f mix l).2 = cnt (fun q => decide (f q < 0)) l := by
  cases h : l.getLast? with
  | none =>
    rw [List.getLast?_eq_none_iff] at h
    subst h
    simp [divide, cnt]
  | some p =>
    rw [divide_eq f mix h]
    exact mem_divideLoop f mix hX l p

/-- A map that commutes with `mix` commutes with the splitting. -/
theorem divide_map {Q : Type} (φ : Q → P) (f : P → K) (mix : P → P → K → P)
    (mixQ : Q → Q → K → Q) (hφ : ∀ p q t, φ (mixQ p q t) = mix (φ p) (φ q) t) (l : List Q) :
    divide f mix (l.map φ) = ((divide (fun q => f (φ q)) mixQ l).1.map φ,
      (divide (fun q => f (φ q)) mixQ l).2.map φ) := by
  have key : ∀ (l : List Q) (p : Q), divideLoop f mix (φ p) (l.map φ) =
      ((divideLoop (fun q => f (φ q)) mixQ p l).1.map φ,
        (divideLoop (fun q => f (φ q)) mixQ p l).2.map φ) := by
    intro l
    induction l with
    | nil => intro p; rfl
    | cons q l ih =>
      intro p
      rw [List.map_cons, divideLoop, ih q, divideLoop]
      simp only
      split
      · split
        · simp [hφ]
        · split <;> simp [hφ]
      · split
        · split <;> simp
        · simp
  unfold divide
  cases h : l.getLast? with
  | none => simp [h]
  | some p => simp [h, key]

/-! ## The remaining polygon of a sweep -/

/-- Invariant of the part still to be cut, after a cut at distance `f`: `N` bounds the polygon
the sweep started with. -/
def Rest (f : P → K) (N : Nat) (l : List P) : Prop :=
  (cnt (fun q => decide (f q < 0)) l + 1 ≤ N ∧ l.length ≤ N + 1) ∨
  (cnt (fun q => decide (f q < 0)) l = N ∧ l.length = N)

theorem Rest.len {f : P → K} {N : Nat} {l : List P} (h : Rest f N l) : l.length ≤ N + 1 := by
  rcases h with h | h <;> omega

theorem Rest.mono {f : P → K} {N M : Nat} {l : List P} (h : Rest f N l) (hNM : N ≤ M) :
    Rest f M l := by
  rcases Nat.eq_or_lt_of_le hNM with rfl | hlt
  · exact h
  · rcases h with h | h <;> left <;> omega

theorem cnt_mono {s t : P → Bool} (l : List P) (h : ∀ p ∈ l, s p = true → t p = true) :
    cnt s l ≤ cnt t l := by
  induction l with
  | nil => simp [cnt]
  | cons q l ih =>
    rw [cnt_cons, cnt_cons]
    have h1 := ih (fun p hp => h p (List.mem_cons_of_mem _ hp))
    have h2 := h q List.mem_cons_self
    split
    · rename_i hs; rw [if_pos (h2 hs)]; omega
    · omega

/-- One cut of a sweep: `f'` is the next plane, strictly behind `f`. -/
theorem Rest.step {f f' : P → K} {mix : P → P → K → P} {N : Nat} {l : List P}
    (hX : ∀ p q, decide (0 ≤ f' p) ≠ decide (0 ≤ f' q) → f' (mix p q (f' p / (f' p - f' q))) = 0)
    (hlt : ∀ p, f' p ≤ 0 → f p < 0) (hc : ctr (l.map (low f')) ≤ 2) (h : Rest f N l) :
    Rest f' N (divide f' mix l).2 := by
  obtain ⟨l1, l2, l3⟩ := divide_len f' mix l hc
  obtain ⟨-, -, s3⟩ := divide_sides f' mix hX l
  have m1 : cnt (fun q => decide (f' q ≤ 0)) l ≤ cnt (fun q => decide (f q < 0)) l :=
    cnt_mono l (fun p _ hp => by simpa using hlt p (by simpa using hp))
  have m2 : cnt (fun q => decide (f' q < 0)) l ≤ cnt (fun q => decide (f' q ≤ 0)) l :=
    cnt_mono l (fun p _ hp => by
      have : f' p < 0 := by simpa using hp
      simpa using this.le)
  unfold Rest
  rw [s3]
  rcases h with ⟨ha, hb⟩ | ⟨ha, hb⟩
  · left; omega
  · by_cases hn : cnt (fun q => decide (f' q < 0)) l = N
    · right
      refine ⟨hn, ?_⟩
      have hall : ∀ q ∈ l, f' q < 0 := by
        have hf : (l.filter (fun q => decide (f' q < 0))) = l := by
          apply List.Sublist.eq_of_length List.filter_sublist
          unfold cnt at hn; omega
        intro q hq
        rw [← hf, List.mem_filter] at hq
        simpa using hq.2
      have key : ∀ (l : List P) (p : P), f' p < 0 → (∀ q ∈ l, f' q < 0) →
          (divideLoop f' mix p l).2 = l := by
        intro l
        induction l with
        | nil => intro p _ _; rfl
        | cons q l ih =>
          intro p hp hl
          have hq := hl q List.mem_cons_self
          rw [divideLoop, ih q hq (fun r hr => hl r (List.mem_cons_of_mem _ hr))]
          simp [not_le.2 hp, not_le.2 hq]
      cases hl : l.getLast? with
      | none =>
        rw [List.getLast?_eq_none_iff] at hl
        subst hl
        simpa [divide] using hb
      | some p =>
        rw [divide_eq f' mix hl, key l p (hall p (List.mem_of_getLast? hl)) hall]
        exact hb
    · left; omega

end
end Verif.Recast
