/-
The region records of the region builder and the operations on them (recast/region.go:640-802):
neighbour lists, merging two regions.

Simplifications: ids and list entries (uint16 and int32 holding uint16 values) are natural numbers;
span counts are unbounded.
-/
import Mathlib.Data.List.Rotate
import Mathlib.Tactic.Linarith

namespace Verif.Recast

set_option linter.unusedSimpArgs false

/-- `Region` (recast/region.go:640-650), without `Remap`, `Visited` (kept by the passes that use them) and
without `ConnectsToBorder`, `YMin`, `YMax`, which nothing reads. -/
structure Region where
  spanCount : Nat
  id : Nat
  areaType : Nat
  overlap : Bool
  conns : List Nat
  floors : List Nat
deriving DecidableEq

/-! ## Model -/

/-- The loop of `removeAdjacentNeighbours` (recast/region.go:668-680); `none` if `fuel` rounds were not enough. -/
def dedup : Nat → Nat → List Nat → Option (List Nat)
  | 0, i, l => if i < l.length ∧ 1 < l.length then none else some l
  | fuel + 1, i, l =>
    if i < l.length ∧ 1 < l.length then
      if l[i]? = l[(i + 1) % l.length]? then dedup fuel i (l.eraseIdx i) else dedup fuel (i + 1) l
    else some l

/-- `removeAdjacentNeighbours` (recast/region.go:666-681); `dedup_some` shows that as many rounds as there are
entries suffice. -/
def removeAdjacent (l : List Nat) : List Nat := (dedup l.length 0 l).getD []

/-- `replaceNeighbour` (recast/region.go:683-701). -/
def Region.replace (r : Region) (old new : Nat) : Region :=
  let cs := r.conns.map fun c => if c = old then new else c
  { r with
    conns := if r.conns.any (· == old) then removeAdjacent cs else cs
    floors := r.floors.map fun c => if c = old then new else c }

/-- `canMergeWithRegion` (recast/region.go:703-722). -/
def Region.canMerge (r s : Region) : Bool :=
  decide (r.areaType = s.areaType) && decide (r.conns.count s.id ≤ 1) && !r.floors.contains s.id

/-- `addUniqueFloorRegion` (recast/region.go:724-731). -/
def addFloor (l : List Nat) (n : Nat) : List Nat := if l.contains n then l else l ++ [n]

/-- The entries after place `ins`, cyclically, without that one (recast/region.go:769-778). -/
def unroll (l : List Nat) (ins : Nat) : List Nat :=
  (List.range (l.length - 1)).map fun i => l.getD ((ins + 1 + i) % l.length) 0

/-- `mergeRegions(rega, regb)` (recast/region.go:733-791): both regions afterwards, or `none` for `false`, when
nothing has changed. -/
def mergeTwo (a b : Region) : Option (Region × Region) :=
  match a.conns.findIdx? (· == b.id), b.conns.findIdx? (· == a.id) with
  | some insa, some insb => some
      ({ a with
          conns := removeAdjacent (unroll a.conns insa ++ unroll b.conns insb)
          floors := b.floors.foldl addFloor a.floors
          spanCount := a.spanCount + b.spanCount },
       { b with spanCount := 0, conns := [] })
  | _, _ => none

/-- `isConnectedToBorder` (recast/region.go:793-802). -/
def Region.atBorder (r : Region) : Bool := r.conns.any (· == 0)

/-! ## Removing adjacent duplicates -/

/-- Spec: no two entries that follow each other, the first following the last, are equal. -/
def NoRepeat (l : List Nat) : Prop := 1 < l.length → ∀ i < l.length, l[i]? ≠ l[(i + 1) % l.length]?

theorem eraseIdx_get (l : List Nat) (i j : Nat) : (l.eraseIdx i)[j]? = if j < i then l[j]? else l[j + 1]? := by
  rw [List.getElem?_eraseIdx]

theorem dedup_some (fuel : Nat) : ∀ (i : Nat) (l : List Nat), i ≤ l.length → l.length - i ≤ fuel →
    (∀ k < i, k + 1 < l.length → l[k]? ≠ l[k + 1]?) →
    (i = l.length → 1 < l.length → l[l.length - 1]? ≠ l[0]?) →
    ∃ r, dedup fuel i l = some r ∧ NoRepeat r ∧ r.Sublist l ∧ ∀ x, x ∈ l → x ∈ r := by
  have done : ∀ (i : Nat) (l : List Nat), i ≤ l.length → (∀ k < i, k + 1 < l.length → l[k]? ≠ l[k + 1]?) →
    (i = l.length → 1 < l.length → l[l.length - 1]? ≠ l[0]?) → ¬ (i < l.length ∧ 1 < l.length) → NoRepeat l := by
    intro i l hi h1 h2 hn h k hk
    have he : i = l.length := by omega
    by_cases hk' : k + 1 < l.length
    · rw [Nat.mod_eq_of_lt hk']
      exact h1 k (by omega) hk'
    · have : k = l.length - 1 := by omega
      subst this
      rw [show l.length - 1 + 1 = l.length by omega, Nat.mod_self]
      exact h2 he h
  induction fuel with
  | zero =>
    intro i l hi hf h1 h2
    rw [dedup, if_neg (by omega)]
    exact ⟨l, rfl, done i l hi h1 h2 (by omega), List.Sublist.refl l, fun _ h => h⟩
  | succ fuel ih =>
    intro i l hi hf h1 h2
    rw [dedup]
    by_cases hc : i < l.length ∧ 1 < l.length
    · rw [if_pos hc]
      by_cases he : l[i]? = l[(i + 1) % l.length]?
      · rw [if_pos he]
        have hlen : (l.eraseIdx i).length = l.length - 1 := by rw [List.length_eraseIdx, if_pos hc.1]
        obtain ⟨r, g1, g2, g3, g4⟩ := ih i (l.eraseIdx i) (by omega) (by omega) (by
          intro k hk hk'
          rw [hlen] at hk'
          rw [eraseIdx_get, eraseIdx_get, if_pos hk]
          by_cases hki : k + 1 < i
          · rw [if_pos hki]; exact h1 k hk (by omega)
          · rw [if_neg hki]
            have : i = k + 1 := by omega
            subst this
            rw [Nat.mod_eq_of_lt (by omega)] at he
            rw [← he]
            exact h1 k hk (by omega)) (by
          intro hi' hl'
          rw [hlen] at hi' hl'
          have hi'' : i = l.length - 1 := hi'
          rw [hlen, eraseIdx_get, eraseIdx_get, if_pos (by omega), if_pos (by omega)]
          rw [hi'', show l.length - 1 + 1 = l.length by omega, Nat.mod_self] at he
          rw [← he]
          have := h1 (l.length - 1 - 1) (by omega) (by omega)
          rwa [show l.length - 1 - 1 + 1 = l.length - 1 by omega] at this)
        refine ⟨r, g1, g2, g3.trans (List.eraseIdx_sublist _ _), fun x hx => g4 x ?_⟩
        obtain ⟨k, hk⟩ := List.getElem?_of_mem hx
        have hkl : k < l.length := (List.getElem?_eq_some_iff.1 hk).1
        have hmod : (i + 1) % l.length < l.length := Nat.mod_lt _ (by omega)
        have hne : (i + 1) % l.length ≠ i := by
          by_cases h : i + 1 < l.length
          · rw [Nat.mod_eq_of_lt h]; omega
          · rw [show i + 1 = l.length by omega, Nat.mod_self]; omega
        -- an entry at the erased place is found at the next one
        have key : ∀ k, k < l.length → k ≠ i → l[k]? = some x → x ∈ l.eraseIdx i := by
          intro k hk hki hx
          by_cases hki' : k < i
          · exact List.mem_of_getElem? (i := k) (by rw [eraseIdx_get, if_pos hki', hx])
          · exact List.mem_of_getElem? (i := k - 1) (by
              rw [eraseIdx_get, if_neg (by omega), show k - 1 + 1 = k by omega, hx])
        by_cases hki : k = i
        · subst hki
          exact key _ hmod hne (by rw [← he, hk])
        · exact key k hkl hki hk
      · rw [if_neg he]
        exact ih (i + 1) l (by omega) (by omega) (by
          intro k hk hk'
          by_cases hki : k < i
          · exact h1 k hki hk'
          · have : k = i := by omega
            subst this
            rwa [Nat.mod_eq_of_lt hk'] at he) (by
          intro hi' _
          rwa [hi', Nat.mod_self, show i = l.length - 1 by omega] at he)
    · rw [if_neg hc]
      exact ⟨l, rfl, done i l hi h1 h2 hc, List.Sublist.refl l, fun _ h => h⟩

/-- **C50** Cleaning a neighbour list ends within as many rounds as there are entries; afterwards no two cyclically
adjacent entries are equal, the rest is in the old order, and the same ids are listed. -/
theorem removeAdjacent_spec (l : List Nat) :
    (dedup l.length 0 l).isSome ∧ NoRepeat (removeAdjacent l) ∧ (removeAdjacent l).Sublist l ∧
      ∀ x, x ∈ removeAdjacent l ↔ x ∈ l := by
  obtain ⟨r, h1, h2, h3, h4⟩ := dedup_some l.length 0 l (by omega) (by omega) (by omega) (by omega)
  unfold removeAdjacent
  rw [h1]
  exact ⟨rfl, h2, h3, fun x => ⟨fun h => h3.subset h, h4 x⟩⟩

example : removeAdjacent [1, 1, 2, 3, 3, 3, 2, 1] = [1, 2, 3, 2] := by decide
example : removeAdjacent [7, 7, 7] = [7] := by decide

/-- **C50** `replaceNeighbour` renames the old id to the new one in the neighbour and floor lists, and removes only
repetitions: the same ids are listed, up to the renaming; a list without cyclic repetitions stays so. -/
theorem replace_spec (r : Region) (old new : Nat) (hr : NoRepeat r.conns) :
    NoRepeat (r.replace old new).conns ∧
    (∀ x, x ∈ (r.replace old new).conns ↔ (x ∈ r.conns ∧ x ≠ old) ∨ (x = new ∧ old ∈ r.conns)) ∧
    (∀ x, x ∈ (r.replace old new).floors ↔ (x ∈ r.floors ∧ x ≠ old) ∨ (x = new ∧ old ∈ r.floors)) ∧
    (r.replace old new).spanCount = r.spanCount ∧ (r.replace old new).id = r.id ∧
    (r.replace old new).areaType = r.areaType := by
  have mem : ∀ (l : List Nat) (x : Nat), x ∈ l.map (fun c => if c = old then new else c) ↔
      (x ∈ l ∧ x ≠ old) ∨ (x = new ∧ old ∈ l) := by
    intro l x
    simp only [List.mem_map]
    constructor
    · rintro ⟨c, hc, rfl⟩
      by_cases h : c = old
      · subst h; simp [hc]
      · simp [h, hc]
    · rintro (⟨h1, h2⟩ | ⟨rfl, h2⟩)
      · exact ⟨x, h1, by simp [h2]⟩
      · exact ⟨old, h2, by simp⟩
  unfold Region.replace
  refine ⟨?_, ?_, mem _, rfl, rfl, rfl⟩
  · show NoRepeat (if r.conns.any (· == old) then _ else _)
    by_cases h : r.conns.any (· == old) = true
    · rw [if_pos h]; exact (removeAdjacent_spec _).2.1
    · rw [if_neg h]
      have : r.conns.map (fun c => if c = old then new else c) = r.conns := by
        conv_rhs => rw [← List.map_id r.conns]
        refine List.map_congr_left fun c hc => ?_
        have : c ≠ old := by
          rintro rfl
          exact h (List.any_eq_true.2 ⟨c, hc, by simp⟩)
        simp [this]
      rw [this]; exact hr
  · intro x
    show x ∈ (if r.conns.any (· == old) then _ else _) ↔ _
    by_cases h : r.conns.any (· == old) = true
    · rw [if_pos h, (removeAdjacent_spec _).2.2.2, mem]
    · rw [if_neg h, mem]

example : (Region.replace ⟨4, 2, 63, false, [1, 5, 3, 1], [5]⟩ 5 1).conns = [1, 3] := by decide

/-! ## Merging two regions -/

theorem unroll_eq (l : List Nat) (ins : Nat) (h : ins < l.length) : unroll l ins = l.drop (ins + 1) ++ l.take ins := by
  apply List.ext_getElem?
  intro k
  unfold unroll
  rw [List.getElem?_map, List.getElem?_append]
  simp only [List.length_drop]
  by_cases hk : k < l.length - 1
  · rw [List.getElem?_range hk, Option.map_some]
    have hm : (ins + 1 + k) % l.length < l.length := Nat.mod_lt _ (by omega)
    rw [List.getD_eq_getElem?_getD, List.getElem?_eq_getElem hm, Option.getD_some, ← List.getElem?_eq_getElem hm]
    by_cases hk' : k < l.length - (ins + 1)
    · rw [if_pos hk', List.getElem?_drop, Nat.mod_eq_of_lt (by omega)]
    · rw [if_neg hk', List.getElem?_take, if_pos (by omega), Nat.mod_eq_sub_mod (by omega), Nat.mod_eq_of_lt (by omega)]
      congr 1; omega
  · rw [List.getElem?_eq_none (by simp; omega)]
    rw [if_neg (by omega), List.getElem?_take, if_neg (by omega)]
    rfl

theorem unroll_perm (l : List Nat) (ins : Nat) (h : ins < l.length) : (unroll l ins).Perm (l.erase l[ins]) := by
  rw [unroll_eq l ins h]
  have h1 : (l[ins] :: (l.drop (ins + 1) ++ l.take ins)).Perm l := by
    have e : l = l.take ins ++ (l[ins] :: l.drop (ins + 1)) := by
      rw [List.getElem_cons_drop]; exact (List.take_append_drop ins l).symm
    conv_rhs => rw [e]
    rw [← List.cons_append]
    exact List.perm_append_comm
  exact List.Perm.trans (by rw [List.erase_cons_head]) (h1.erase l[ins])

theorem mem_addFloors (l m : List Nat) (x : Nat) : x ∈ m.foldl addFloor l ↔ x ∈ l ∨ x ∈ m := by
  induction m generalizing l with
  | nil => simp
  | cons a m ih =>
    rw [List.foldl_cons, ih]
    have : x ∈ addFloor l a ↔ x ∈ l ∨ x = a := by
      unfold addFloor
      by_cases h : l.contains a = true
      · rw [if_pos h]
        constructor
        · exact Or.inl
        · rintro (h' | rfl)
          · exact h'
          · simpa using h
      · rw [if_neg h]; simp
    rw [this, List.mem_cons]
    tauto

theorem nodup_addFloors (l m : List Nat) (h : l.Nodup) : (m.foldl addFloor l).Nodup := by
  induction m generalizing l with
  | nil => exact h
  | cons a m ih =>
    rw [List.foldl_cons]
    refine ih _ ?_
    unfold addFloor
    by_cases hc : l.contains a = true
    · rwa [if_pos hc]
    · rw [if_neg hc]
      rw [List.nodup_append]
      refine ⟨h, by simp, ?_⟩
      intro x hx y hy
      simp only [List.mem_singleton] at hy
      subst hy
      rintro rfl
      exact hc (by simpa using hx)

/-- **C93** Two regions are merged exactly when each lists the other as neighbour. The first then has the spans of both
and the neighbours of both, less one mention of each other, without cyclic repetitions, and the floors of both
once each; the second has no spans and no neighbours; ids and area types stay. -/
theorem mergeTwo_spec (a b : Region) :
    ((mergeTwo a b).isSome ↔ b.id ∈ a.conns ∧ a.id ∈ b.conns) ∧
    ∀ a' b', mergeTwo a b = some (a', b') →
      NoRepeat a'.conns ∧
      (∀ x, x ∈ a'.conns ↔ x ∈ a.conns.erase b.id ∨ x ∈ b.conns.erase a.id) ∧
      (∀ x, x ∈ a'.floors ↔ x ∈ a.floors ∨ x ∈ b.floors) ∧ (a.floors.Nodup → a'.floors.Nodup) ∧
      a'.spanCount = a.spanCount + b.spanCount ∧ a'.id = a.id ∧ a'.areaType = a.areaType ∧
      b'.spanCount = 0 ∧ b'.conns = [] ∧ b'.id = b.id ∧ b'.areaType = b.areaType ∧ b'.floors = b.floors := by
  have some_iff : ∀ (l : List Nat) (v : Nat), (∃ k, l.findIdx? (· == v) = some k) ↔ v ∈ l := by
    intro l v
    constructor
    · rintro ⟨k, hk⟩
      rw [List.findIdx?_eq_some_iff_getElem] at hk
      obtain ⟨h1, h2, -⟩ := hk
      rw [← eq_of_beq h2]
      exact List.getElem_mem h1
    · intro h
      cases e : l.findIdx? (· == v) with
      | some k => exact ⟨k, rfl⟩
      | none =>
        rw [List.findIdx?_eq_none_iff] at e
        exact absurd (e v h) (by simp)
  constructor
  · rw [← some_iff a.conns, ← some_iff b.conns]
    unfold mergeTwo
    cases a.conns.findIdx? (· == b.id) <;> cases b.conns.findIdx? (· == a.id) <;> simp
  · intro a' b' h
    unfold mergeTwo at h
    cases ha : a.conns.findIdx? (· == b.id) with
    | none => simp [ha] at h
    | some insa =>
      cases hb : b.conns.findIdx? (· == a.id) with
      | none => simp [ha, hb] at h
      | some insb =>
        rw [ha, hb] at h
        simp only [Option.some.injEq, Prod.mk.injEq] at h
        obtain ⟨rfl, rfl⟩ := h
        rw [List.findIdx?_eq_some_iff_getElem] at ha hb
        obtain ⟨a1, a2, -⟩ := ha
        obtain ⟨b1, b2, -⟩ := hb
        refine ⟨(removeAdjacent_spec _).2.1, ?_, mem_addFloors _ _, nodup_addFloors _ _, rfl, rfl, rfl, rfl, rfl, rfl, rfl, rfl⟩
        intro x
        rw [(removeAdjacent_spec _).2.2.2, List.mem_append, (unroll_perm _ _ a1).mem_iff, (unroll_perm _ _ b1).mem_iff,
          eq_of_beq a2, eq_of_beq b2]

example : (mergeTwo ⟨4, 1, 63, false, [2, 5, 3, 0], [7]⟩ ⟨2, 2, 63, false, [0, 1, 5], [7, 8]⟩) =
    some (⟨6, 1, 63, false, [5, 3, 0, 5, 0], [7, 8]⟩, ⟨0, 2, 63, false, [], [7, 8]⟩) := by decide

/-- **C93** `canMergeWithRegion` allows a merge exactly for equal area types, if the other region is listed at one place at
most and is no floor of this one. -/
theorem canMerge_spec (r s : Region) : r.canMerge s = true ↔ r.areaType = s.areaType ∧
    (∀ i j : Nat, r.conns[i]? = some s.id → r.conns[j]? = some s.id → i = j) ∧ s.id ∉ r.floors := by
  unfold Region.canMerge
  simp only [Bool.and_eq_true, decide_eq_true_eq, Bool.not_eq_true', List.contains_eq_mem, decide_eq_false_iff_not, and_assoc]
  refine and_congr_right fun _ => and_congr_left fun _ => ?_
  generalize r.conns = l
  generalize s.id = a
  induction l with
  | nil => simp
  | cons b l ih =>
    by_cases hb : b = a
    · subst hb
      rw [List.count_cons_self]
      constructor
      · intro h
        have h0 : l.count b = 0 := by omega
        rw [List.count_eq_zero] at h0
        intro i j hi hj
        have : ∀ i : Nat, (b :: l)[i]? = some b → i = 0 := by
          intro i hi
          cases i with
          | zero => rfl
          | succ i =>
            rw [List.getElem?_cons_succ] at hi
            exact absurd (List.mem_of_getElem? hi) h0
        rw [this i hi, this j hj]
      · intro h
        have : l.count b = 0 := by
          rw [List.count_eq_zero]
          intro hm
          obtain ⟨k, hk⟩ := List.getElem?_of_mem hm
          have := h 0 (k + 1) rfl (by rw [List.getElem?_cons_succ]; exact hk)
          omega
        omega
    · rw [List.count_cons_of_ne hb, ih]
      constructor
      · intro h i j hi hj
        cases i with
        | zero => rw [List.getElem?_cons_zero] at hi; exact absurd (Option.some.inj hi) hb
        | succ i =>
          cases j with
          | zero => rw [List.getElem?_cons_zero] at hj; exact absurd (Option.some.inj hj) hb
          | succ j =>
            rw [List.getElem?_cons_succ] at hi hj
            rw [h i j hi hj]
      · intro h i j hi hj
        have := h (i + 1) (j + 1) (by rwa [List.getElem?_cons_succ]) (by rwa [List.getElem?_cons_succ])
        omega

example : (⟨3, 1, 63, false, [0, 2, 3], [4]⟩ : Region).canMerge ⟨1, 2, 63, false, [1, 0], []⟩ = true ∧
    (⟨3, 1, 63, false, [0, 2, 3, 2], []⟩ : Region).canMerge ⟨1, 2, 63, false, [1, 0], []⟩ = false := by decide

end Verif.Recast
