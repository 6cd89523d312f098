/-
Contours as lists of vertices: the removal of degenerate segments, the signed area, and the last part of
`BuildContours`, which looks for holes (recast/contour.go:357-432, 760-873).

Simplifications: a contour's `Verts` array, four `int32` per vertex, is a list of `Pt`; coordinates are
unbounded integers (the code's `int32` products overflow from coordinates of about 2^15 on).
-/
import Verif.Recast.SpanBits

namespace Verif.Recast
open Verif Verif.Detour

set_option linter.unusedSimpArgs false

/-- One contour vertex: `Verts[i*4 : i*4+4]` (recast/contour.go:75). -/
structure Pt where
  x : Int
  y : Int
  z : Int
  r : Int := 0
deriving DecidableEq, Repr, Inhabited

/-- `vequal` (recast/contour.go:847-849). -/
def vequal (a b : Pt) : Bool := decide (a.x = b.x) && decide (a.z = b.z)

theorem vequal_iff (a b : Pt) : vequal a b = true ↔ a.x = b.x ∧ a.z = b.z := by simp [vequal]

/-- `next` (recast/contour.go:778-783). -/
def next (i n : Nat) : Nat := if i + 1 < n then i + 1 else 0

/-- `prev` (recast/contour.go:771-776). -/
def prev (i n : Nat) : Nat := if 1 ≤ i then i - 1 else n - 1

/-! ## Degenerate segments -/

/-- The loop of `removeDegenerateSegments` (recast/contour.go:854-872), `fuel` iterations from `i` on: a
vertex equal to the next one on the xz-plane is erased, and `i` moves on either way. -/
def removeDegLoop : Nat → Nat → List Pt → List Pt
  | 0, _, l => l
  | fuel + 1, i, l =>
    if h : i < l.length then
      if vequal l[i] (l.getD (next i l.length) default) then removeDegLoop fuel (i + 1) (l.eraseIdx i)
      else removeDegLoop fuel (i + 1) l
    else l

/-- `removeDegenerateSegments` (recast/contour.go:851-873). -/
def removeDegenerate (l : List Pt) : List Pt := removeDegLoop l.length 0 l

/-- Spec: two vertices at the same place on the xz-plane. -/
def Same (a b : Pt) : Prop := a.x = b.x ∧ a.z = b.z

instance (a b : Pt) : Decidable (Same a b) := inferInstanceAs (Decidable (_ ∧ _))

/-- Spec: no two vertices that follow each other in the closed contour are at the same place. -/
def NoDegenerate (l : List Pt) : Prop :=
  ∀ i, i < l.length → 2 ≤ l.length → ¬ Same (l.getD i default) (l.getD ((i + 1) % l.length) default)

/-- Spec: no three vertices that follow each other in the closed contour are all at the same place. -/
def NoTriple (l : List Pt) : Prop :=
  ∀ i, i < l.length → ¬ (Same (l.getD i default) (l.getD ((i + 1) % l.length) default) ∧
    Same (l.getD ((i + 1) % l.length) default) (l.getD ((i + 2) % l.length) default))

theorem next_eq_mod {i n : Nat} (h : i < n) : next i n = (i + 1) % n := by
  unfold next
  split
  · rw [Nat.mod_eq_of_lt (by omega)]
  · have : i + 1 = n := by omega
    rw [this, Nat.mod_self]

theorem Same.symm {a b : Pt} (h : Same a b) : Same b a := ⟨h.1.symm, h.2.symm⟩
theorem Same.trans {a b c : Pt} (h : Same a b) (h' : Same b c) : Same a c := ⟨h.1.trans h'.1, h.2.trans h'.2⟩

theorem vequal_same (a b : Pt) : vequal a b = true ↔ Same a b := vequal_iff a b

/-- **C54** (refuted as stated): of three equal vertices in a row `removeDegenerateSegments` removes only
one, so the contour keeps a degenerate segment. -/
theorem removeDegenerate_refuted : ∃ l : List Pt, 3 ≤ (removeDegenerate l).length ∧ ¬ NoDegenerate (removeDegenerate l) := by
  refine ⟨[⟨0, 0, 0, 0⟩, ⟨0, 0, 0, 0⟩, ⟨0, 0, 0, 0⟩, ⟨1, 0, 0, 0⟩, ⟨0, 0, 1, 0⟩], by decide, ?_⟩
  intro h
  exact h 0 (by decide) (by decide) (by decide)

theorem getD_eraseIdx (l : List Pt) (i k : Nat) :
    (l.eraseIdx i).getD k default = if k < i then l.getD k default else l.getD (k + 1) default := by
  simp only [List.getD_eq_getElem?_getD, List.getElem?_eraseIdx]
  split <;> rfl

/-- The loop's invariant: the pairs before `i` are fine, the rest has no triple. -/
structure DegInv (i : Nat) (l : List Pt) : Prop where
  done : ∀ k, k < i → k + 1 < l.length → ¬ Same (l.getD k default) (l.getD (k + 1) default)
  rest : ∀ k, i ≤ k → k + 2 < l.length → ¬ (Same (l.getD k default) (l.getD (k + 1) default) ∧
    Same (l.getD (k + 1) default) (l.getD (k + 2) default))
  wrap : i + 2 ≤ l.length → ¬ (Same (l.getD (l.length - 2) default) (l.getD (l.length - 1) default) ∧
    Same (l.getD (l.length - 1) default) (l.getD 0 default))
  closed : l.length ≤ i → 2 ≤ l.length → ¬ Same (l.getD (l.length - 1) default) (l.getD 0 default)

theorem removeDegLoop_clean (fuel : Nat) : ∀ (i : Nat) (l : List Pt), l.length ≤ i + fuel → DegInv i l →
    (2 ≤ l.length ∨ l.length ≤ i) →
    NoDegenerate (removeDegLoop fuel i l) := by
  have fin : ∀ (i : Nat) (l : List Pt), l.length ≤ i → DegInv i l → NoDegenerate l := by
    intro i l h inv k hk h2
    by_cases e : k + 1 < l.length
    · rw [Nat.mod_eq_of_lt e]; exact inv.done k (by omega) e
    · have e' : k + 1 = l.length := by omega
      have e'' : k = l.length - 1 := by omega
      rw [e', Nat.mod_self, e'']
      exact inv.closed h h2
  induction fuel with
  | zero => intro i l h inv _; exact fin i l (by omega) inv
  | succ fuel ih =>
    intro i l h inv h2
    rw [removeDegLoop]
    by_cases hi : i < l.length
    · rw [dif_pos hi]
      have hg : l[i] = l.getD i default := by simp [List.getD_eq_getElem?_getD, hi]
      have hlen : 2 ≤ l.length := by omega
      by_cases hv : vequal l[i] (l.getD (next i l.length) default) = true
      · rw [if_pos hv]
        rw [vequal_same, hg] at hv
        have hle : (l.eraseIdx i).length = l.length - 1 := by rw [List.length_eraseIdx, if_pos hi]
        refine ih _ _ (by rw [hle]; omega) ?_ (by rw [hle]; omega)
        by_cases hlast : i + 1 < l.length
        · rw [next, if_pos hlast] at hv
          constructor
          · intro k hk hk'
            rw [hle] at hk'
            rw [getD_eraseIdx, getD_eraseIdx]
            by_cases e : k = i
            · subst e
              rw [if_neg (by omega), if_neg (by omega)]
              exact fun c => inv.rest k (by omega) (by omega) ⟨hv, c⟩
            · rw [if_pos (by omega)]
              by_cases e' : k + 1 < i
              · rw [if_pos e']; exact inv.done k (by omega) (by omega)
              · have e'' : k + 1 = i := by omega
                rw [if_neg e', e'']
                intro c
                have := inv.done k (by omega) (by omega)
                rw [e''] at this
                exact this (c.trans hv.symm)
          · intro k hk hk'
            rw [hle] at hk'
            simp only [getD_eraseIdx]
            rw [if_neg (by omega), if_neg (by omega), if_neg (by omega)]
            exact inv.rest (k + 1) (by omega) (by omega)
          · intro hk
            rw [hle] at hk
            simp only [hle, getD_eraseIdx]
            have a1 : l.length - 1 - 2 + 1 = l.length - 2 := by omega
            have a2 : l.length - 1 - 1 + 1 = l.length - 1 := by omega
            rw [if_neg (by omega), if_neg (by omega), a1, a2]
            intro c
            refine inv.wrap (by omega) ⟨c.1, ?_⟩
            by_cases e : i = 0
            · subst e
              rw [if_neg (by omega)] at c
              exact c.2.trans hv.symm
            · rw [if_pos (by omega)] at c
              exact c.2
          · intro hk h2'
            rw [hle] at hk h2'
            simp only [hle, getD_eraseIdx]
            have a2 : l.length - 1 - 1 + 1 = l.length - 1 := by omega
            have e2 : i = l.length - 2 := by omega
            rw [if_neg (by omega), a2]
            intro c
            by_cases e : i = 0
            · omega
            · rw [if_pos (by omega)] at c
              have := inv.wrap (by omega)
              rw [← e2] at this
              have a3 : l.length - 1 = i + 1 := by omega
              rw [a3] at this c
              exact this ⟨hv, c⟩
        · rw [next, if_neg hlast] at hv
          have e1 : i = l.length - 1 := by omega
          constructor
          · intro k hk hk'
            rw [hle] at hk'
            rw [getD_eraseIdx, getD_eraseIdx, if_pos (by omega), if_pos (by omega)]
            exact inv.done k (by omega) (by omega)
          · intro k hk hk'; rw [hle] at hk'; omega
          · intro hk; rw [hle] at hk; omega
          · intro hk h2'
            rw [hle] at h2'
            simp only [hle, getD_eraseIdx]
            rw [if_pos (by omega), if_pos (by omega)]
            intro c
            have := inv.done (l.length - 1 - 1) (by omega) (by omega)
            have a2 : l.length - 1 - 1 + 1 = i := by omega
            rw [a2] at this
            exact this (c.trans hv.symm)
      · rw [if_neg hv]
        rw [vequal_same, hg] at hv
        refine ih _ _ (by omega) ?_ (by omega)
        constructor
        · intro k hk hk'
          by_cases e : k = i
          · subst e; rw [next, if_pos hk'] at hv; exact hv
          · exact inv.done k (by omega) hk'
        · intro k hk hk'; exact inv.rest k (by omega) hk'
        · intro hk; exact inv.wrap (by omega)
        · intro hk h2'
          rw [next, if_neg (by omega)] at hv
          have e1 : i = l.length - 1 := by omega
          rw [e1] at hv
          exact hv
    · rw [dif_neg hi]; exact fin i l (by omega) inv

/-- **C54** (what holds): if no three vertices in a row are at the same place, `removeDegenerateSegments`
leaves no two such vertices in a row. -/
theorem removeDegenerate_partial (l : List Pt) (h : NoTriple l) : NoDegenerate (removeDegenerate l) := by
  by_cases h2 : 2 ≤ l.length
  · refine removeDegLoop_clean l.length 0 l (by omega) ?_ (Or.inl h2)
    constructor
    · intro k hk; omega
    · intro k _ hk
      have := h k (by omega)
      rw [Nat.mod_eq_of_lt (by omega), Nat.mod_eq_of_lt hk] at this
      exact this
    · intro _
      have := h (l.length - 2) (by omega)
      have a1 : l.length - 2 + 1 = l.length - 1 := by omega
      have a2 : l.length - 2 + 2 = l.length := by omega
      rw [a1, a2, Nat.mod_eq_of_lt (by omega), Nat.mod_self] at this
      exact this
    · intro hk; omega
  · match l, h, h2 with
    | [], _, _ => intro i hi; simp [removeDegenerate, removeDegLoop] at hi
    | [a], h, _ => exact absurd (by simp [Same]) (h 0 (by simp))
    | _ :: _ :: _, _, h2 => simp at h2

example : NoTriple [⟨0, 0, 0, 0⟩, ⟨0, 5, 0, 0⟩, ⟨1, 0, 0, 0⟩, ⟨1, 9, 0, 0⟩, ⟨0, 0, 1, 0⟩] := by
  unfold NoTriple
  decide

theorem removeDegLoop_sublist (fuel : Nat) : ∀ (i : Nat) (l : List Pt), (removeDegLoop fuel i l).Sublist l := by
  induction fuel with
  | zero => intro i l; exact List.Sublist.refl _
  | succ fuel ih =>
    intro i l
    rw [removeDegLoop]
    split
    · split
      · exact (ih _ _).trans (List.eraseIdx_sublist ..)
      · exact ih _ _
    · exact List.Sublist.refl _

/-- **C54**: `removeDegenerateSegments` only removes vertices, it changes and reorders nothing. -/
theorem removeDegenerate_sublist (l : List Pt) : (removeDegenerate l).Sublist l := removeDegLoop_sublist _ _ _

theorem removeDegLoop_places (fuel : Nat) : ∀ (i : Nat) (l : List Pt) (p : Pt), 2 ≤ l.length → p ∈ l →
    ∃ q ∈ removeDegLoop fuel i l, Same p q := by
  induction fuel with
  | zero => intro i l p _ hp; exact ⟨p, hp, rfl, rfl⟩
  | succ fuel ih =>
    intro i l p h2 hp
    rw [removeDegLoop]
    by_cases hi : i < l.length
    · rw [dif_pos hi]
      by_cases hv : vequal l[i] (l.getD (next i l.length) default) = true
      · rw [if_pos hv]
        rw [vequal_same] at hv
        have hn : next i l.length < l.length := by unfold next; split <;> omega
        have hne : next i l.length ≠ i := by unfold next; split <;> omega
        have hg : l.getD (next i l.length) default = l[next i l.length] := by
          simp [List.getD_eq_getElem?_getD, hn]
        rw [hg] at hv
        -- a vertex of the shorter list at the same place
        have key : ∃ q ∈ l.eraseIdx i, Same p q := by
          obtain ⟨k, hk, rfl⟩ := List.getElem_of_mem hp
          have mem : ∀ m (hm : m < l.length), m ≠ i → l[m] ∈ l.eraseIdx i := by
            intro m hm hmi
            rw [List.mem_eraseIdx_iff_getElem]
            exact ⟨m, hm, hmi, rfl⟩
          by_cases e : k = i
          · subst e; exact ⟨_, mem _ hn hne, hv⟩
          · exact ⟨_, mem _ hk e, rfl, rfl⟩
        obtain ⟨q, hq, hs⟩ := key
        by_cases h3 : 2 ≤ (l.eraseIdx i).length
        · obtain ⟨q', hq', hs'⟩ := ih (i + 1) _ q h3 hq
          exact ⟨q', hq', hs.trans hs'⟩
        · -- one vertex is left: `i` was 0 or 1
          have hle : (l.eraseIdx i).length = l.length - 1 := by rw [List.length_eraseIdx, if_pos hi]
          have stop : removeDegLoop fuel (i + 1) (l.eraseIdx i) = l.eraseIdx i := by
            cases fuel with
            | zero => rfl
            | succ f => rw [removeDegLoop, dif_neg (by omega)]
          rw [stop]; exact ⟨q, hq, hs⟩
      · rw [if_neg hv]; exact ih _ _ p h2 hp
    · rw [dif_neg hi]; exact ⟨p, hp, rfl, rfl⟩

/-- **C54**: no place of a contour of two or more vertices is lost by `removeDegenerateSegments`. -/
theorem removeDegenerate_places (l : List Pt) (h : 2 ≤ l.length) (p : Pt) (hp : p ∈ l) :
    ∃ q ∈ removeDegenerate l, Same p q := removeDegLoop_places _ _ _ _ h hp

example : removeDegenerate [⟨0, 0, 0, 0⟩, ⟨0, 5, 0, 0⟩, ⟨1, 0, 0, 0⟩, ⟨1, 9, 0, 0⟩, ⟨0, 0, 1, 0⟩] =
    [⟨0, 5, 0, 0⟩, ⟨1, 9, 0, 0⟩, ⟨0, 0, 1, 0⟩] := by decide

/-! ## Signed area and holes -/

/-- The sum that `calcAreaOfPolygon2D` forms (recast/contour.go:761-767): `v[i].x*v[j].z - v[j].x*v[i].z`
over the vertices, `j` being the one before `i`, from the vertex before the first on. -/
def crossSum (j : Pt) : List Pt → Int
  | [] => 0
  | i :: l => (i.x * j.z - j.x * i.z) + crossSum i l

/-- Twice the signed area of a closed contour. -/
def area2D (l : List Pt) : Int := crossSum (l.getLastD default) l

/-- `calcAreaOfPolygon2D` (recast/contour.go:760-769); Go's division truncates towards zero. -/
def calcArea (l : List Pt) : Int := (area2D l + 1).tdiv 2

/-- `winding[i]` (recast/contour.go:365-369), a `uint8`. -/
def winding (l : List Pt) : BitVec 8 := if calcArea l < 0 then 0xff#8 else 1#8

/-- `nholes` (recast/contour.go:359-373): the number of contours with `winding[i] < 0`, compared as
`uint8`. -/
def holeCount (conts : List (List Pt)) : Nat :=
  conts.foldl (fun n l => if winding l < 0#8 then n + 1 else n) 0

/-- The last part of `BuildContours` (recast/contour.go:357-432): with holes it panics (`none`), without it
leaves the contours as they are. -/
def mergeHoles (conts : List (List Pt)) : Option (List (List Pt)) :=
  if 0 < conts.length then if 0 < holeCount conts then none else some conts else some conts

theorem holeCount_zero (conts : List (List Pt)) : holeCount conts = 0 := by
  have : ∀ (n : Nat), conts.foldl (fun n l => if winding l < 0#8 then n + 1 else n) n = n := by
    induction conts with
    | nil => intro n; rfl
    | cons l t ih =>
      intro n
      rw [List.foldl_cons, if_neg (by simp), ih]
  exact this 0

/-- **C53** (what holds): the search for holes never panics, since it never finds one: the windings are
unsigned bytes. -/
theorem mergeHoles_partial (conts : List (List Pt)) : mergeHoles conts = some conts := by
  unfold mergeHoles
  rw [holeCount_zero]
  simp

theorem crossSum_concat (j a : Pt) (l : List Pt) :
    crossSum j (l ++ [a]) = crossSum j l + (a.x * ((l.getLastD j)).z - (l.getLastD j).x * a.z) := by
  induction l generalizing j with
  | nil => simp [crossSum]
  | cons b t ih =>
    rw [List.cons_append, crossSum, crossSum, ih]
    cases t with
    | nil => simp [List.getLastD]; ring
    | cons c t => simp [List.getLastD]; ring

/-- Spec: the contour goes round an axis-parallel rectangle of `w` by `d` cells in the direction of
`walkContour2` (z up, then x up), or backwards. -/
def rect (x z w d : Int) : List Pt := [⟨x, 0, z, 0⟩, ⟨x, 0, z + d, 0⟩, ⟨x + w, 0, z + d, 0⟩, ⟨x + w, 0, z, 0⟩]

theorem area2D_rect (x z w d : Int) : area2D (rect x z w d) = 2 * (w * d) := by
  simp only [area2D, rect, List.getLastD, crossSum, List.getLast]
  ring

theorem area2D_rect_back (x z w d : Int) : area2D (rect x z w d).reverse = -(2 * (w * d)) := by
  simp only [area2D, rect, List.reverse_cons, List.reverse_nil, List.nil_append, List.cons_append, List.getLastD, crossSum, List.getLast]
  ring

/-- **C53** (refuted): an outline with a hole of the same region inside it is left as it is: the hole, wound
backwards and with a negative area, stays a contour of its own, and the outline, from which the polygons are made, still covers it. -/
theorem holes_kept_refuted : ∃ outline hole : List Pt, 0 < calcArea outline ∧ calcArea hole < 0 ∧
    (∀ p ∈ hole, ∃ a ∈ outline, ∃ b ∈ outline, a.x < p.x ∧ p.x < b.x ∧ a.z < p.z ∧ p.z < b.z) ∧
    mergeHoles [outline, hole] = some [outline, hole] := by
  refine ⟨rect 0 0 10 10, (rect 3 3 4 4).reverse, by decide, by decide, ?_, mergeHoles_partial _⟩
  intro p hp
  refine ⟨⟨0, 0, 0, 0⟩, by decide, ⟨10, 0, 10, 0⟩, by decide, ?_⟩
  revert p
  decide

/-- **C53**: the sign of `calcAreaOfPolygon2D` misses the smallest holes: it is negative only from twice the
signed area -3 on, so a hole of one cell (-2) counts as an outline. -/
theorem calcArea_neg_iff (l : List Pt) : calcArea l < 0 ↔ area2D l ≤ -3 := by
  unfold calcArea
  rcases Int.lt_or_le (area2D l + 1) 0 with h | h
  · obtain ⟨m, hm⟩ : ∃ m, area2D l + 1 = -m := ⟨-(area2D l + 1), by omega⟩
    rw [hm, Int.neg_tdiv, Int.tdiv_eq_ediv_of_nonneg (by omega)]
    omega
  · rw [Int.tdiv_eq_ediv_of_nonneg h]
    omega

/-- Witness: the hole of one cell. -/
theorem one_cell_hole_refuted (x z : Int) : area2D (rect x z 1 1).reverse < 0 ∧ ¬ calcArea (rect x z 1 1).reverse < 0 := by
  rw [calcArea_neg_iff, area2D_rect_back]
  omega

end Verif.Recast
