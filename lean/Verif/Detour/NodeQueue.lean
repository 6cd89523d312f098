/-
The open list of the path search: a binary heap of node pointers ordered by `Total`
(detour/nodequeue.go). Pointers are node indices; `Total` is read through the pointer, so the key of
an entry may change while it sits in the heap, exactly as in the code.
-/
import Verif.Common.Chain
import Mathlib.Logic.Equiv.Basic
import Mathlib.Order.Basic
import Mathlib.Data.Multiset.Basic
import Mathlib.Order.Nat
import Mathlib.Data.Prod.Lex

namespace Verif.Detour

/-! ## Model -/

/-- `nodeQueue` (detour/nodequeue.go:10-14). `len` is the length of the slice `heap`, which is
`capacity+1`; entries at or above `size` are leftovers. -/
structure Heap where
  arr : Nat → Nat
  size : Nat
  len : Nat

/-- `newnodeQueue` (detour/nodequeue.go:16-26); fresh entries are nil, here an arbitrary index. -/
def Heap.new (capacity : Nat) : Heap := ⟨fun _ => 0, 0, capacity + 1⟩

section
variable {C : Type} [LinearOrder C] (key : Nat → C)

/-- `bubbleUp` (detour/nodequeue.go:28-37). -/
def bubbleUp (a : Nat → Nat) (i x : Nat) : Nat → Nat :=
  if 0 < i ∧ key x < key (a ((i - 1) / 2)) then
    bubbleUp (upd a i (a ((i - 1) / 2))) ((i - 1) / 2) x
  else upd a i x
  termination_by i
  decreasing_by omega

/-- The child that `trickleDown` moves up (detour/nodequeue.go:42-45). -/
def smallChild (a : Nat → Nat) (size i : Nat) : Nat :=
  if 2 * i + 1 + 1 < size ∧ key (a (2 * i + 1 + 1)) < key (a (2 * i + 1)) then 2 * i + 1 + 1
  else 2 * i + 1

theorem smallChild_bounds (a : Nat → Nat) (size i : Nat) (h : 2 * i + 1 < size) :
    i < smallChild key a size i ∧ smallChild key a size i < size ∧
      (smallChild key a size i - 1) / 2 = i := by
  unfold smallChild
  split <;> omega

/-- `trickleDown` (detour/nodequeue.go:39-51). -/
def trickleDown (a : Nat → Nat) (size i x : Nat) : Nat → Nat :=
  if 2 * i + 1 < size then
    trickleDown (upd a i (a (smallChild key a size i))) size (smallChild key a size i) x
  else bubbleUp key a i x
  termination_by size - i
  decreasing_by
    rename_i h
    have := smallChild_bounds key a size i h
    omega

/-- `clear` (detour/nodequeue.go:53-55). -/
def Heap.clear (h : Heap) : Heap := { h with size := 0 }

/-- `push` (detour/nodequeue.go:68-71); `none` is the panic on a full slice. -/
def Heap.push (h : Heap) (x : Nat) : Option Heap :=
  if h.size < h.len then
    some { h with arr := bubbleUp key h.arr h.size x, size := h.size + 1 }
  else none

/-- `pop` (detour/nodequeue.go:61-66); `none` is the panic on index -1 when empty. -/
def Heap.pop (h : Heap) : Option (Nat × Heap) :=
  if h.size = 0 then none
  else some (h.arr 0, { h with
    arr := trickleDown key h.arr (h.size - 1) 0 (h.arr (h.size - 1)), size := h.size - 1 })

/-- The search loop of `modify` (detour/nodequeue.go:73-80). -/
def Heap.modify (h : Heap) (x : Nat) : Heap :=
  match (List.range h.size).find? (fun i => h.arr i == x) with
  | some i => { h with arr := bubbleUp key h.arr i x }
  | none => h

/-- `empty` (detour/nodequeue.go:82-84). -/
def Heap.isEmpty (h : Heap) : Bool := h.size == 0

end

/-! ## Content of the heap -/

/-- The first `n` entries. -/
def entries (a : Nat → Nat) (n : Nat) : List Nat := (List.range n).map a

/-- The nodes in the open list. -/
def Heap.toList (h : Heap) : List Nat := entries h.arr h.size

/-- The heap order on the first `n` entries. -/
def Ordered {C : Type} [LinearOrder C] (key : Nat → C) (a : Nat → Nat) (n : Nat) : Prop :=
  ∀ j, 0 < j → j < n → key (a ((j - 1) / 2)) ≤ key (a j)

/-- `b` is a rearrangement of `a` on the first `n` entries. -/
def Shuffled (n : Nat) (a b : Nat → Nat) : Prop :=
  ∃ s : Equiv.Perm Nat, (∀ j, n ≤ j → s j = j) ∧ ∀ j, b j = a (s j)

theorem Shuffled.refl (n : Nat) (a : Nat → Nat) : Shuffled n a a :=
  ⟨Equiv.refl _, fun _ _ => rfl, fun _ => rfl⟩

theorem Shuffled.trans {n : Nat} {a b c : Nat → Nat} (h1 : Shuffled n a b) (h2 : Shuffled n b c) :
    Shuffled n a c := by
  obtain ⟨s, s1, s2⟩ := h1
  obtain ⟨t, t1, t2⟩ := h2
  refine ⟨t.trans s, fun j hj => ?_, fun j => ?_⟩
  · rw [Equiv.trans_apply, t1 j hj, s1 j hj]
  · rw [t2, s2, Equiv.trans_apply]

theorem Shuffled.entries {n : Nat} {a b : Nat → Nat} (h : Shuffled n a b) :
    (entries b n).Perm (entries a n) := by
  obtain ⟨s, s1, s2⟩ := h
  have hlt : ∀ j, j < n → s j < n := by
    intro j hj
    by_contra hc
    have := s1 (s j) (by omega)
    have := s.injective this
    omega
  have hp : ((List.range n).map s).Perm (List.range n) := by
    have hsub : (List.range n).map s ⊆ List.range n := by
      intro x hx
      rw [List.mem_map] at hx
      obtain ⟨j, hj, rfl⟩ := hx
      exact List.mem_range.2 (hlt j (List.mem_range.1 hj))
    have hnd : ((List.range n).map s).Nodup := List.nodup_range.map s.injective
    exact (List.subperm_of_subset hnd hsub).perm_of_length_le (by simp)
  have : Verif.Detour.entries b n = ((List.range n).map s).map a := by
    unfold Verif.Detour.entries
    rw [List.map_map]
    apply List.map_congr_left
    intro j _
    rw [s2]
    rfl
  rw [this]
  exact hp.map a

/-- Moving the hole from `i` to `j`. -/
theorem shuffled_move (n : Nat) (a : Nat → Nat) (i j x : Nat) (hi : i < n) (hj : j < n) :
    Shuffled n (upd a i x) (upd (upd a i (a j)) j x) := by
  refine ⟨Equiv.swap i j, fun k hk => Equiv.swap_apply_of_ne_of_ne (by omega) (by omega), ?_⟩
  intro k
  by_cases hkj : k = j
  · subst hkj
    rw [upd_same, Equiv.swap_apply_right, upd_same]
  · rw [upd_ne _ _ hkj]
    by_cases hki : k = i
    · subst hki
      rw [upd_same, Equiv.swap_apply_left, upd_ne _ _ (fun h => hkj h.symm)]
    · rw [upd_ne _ _ hki, Equiv.swap_apply_of_ne_of_ne hki hkj, upd_ne _ _ hki]

section
variable {C : Type} [LinearOrder C] {key : Nat → C}

theorem bubbleUp_shuffled (n : Nat) (a : Nat → Nat) (i x : Nat) (hi : i < n) :
    Shuffled n (upd a i x) (bubbleUp key a i x) := by
  induction i using Nat.strong_induction_on generalizing a with
  | _ i ih =>
    rw [bubbleUp]
    split
    · rename_i h
      refine (shuffled_move n a i ((i - 1) / 2) x hi (by omega)).trans ?_
      exact ih _ (by omega) _ (by omega)
    · exact Shuffled.refl _ _

theorem trickleDown_shuffled (n : Nat) (a : Nat → Nat) (i x : Nat) (hi : i < n) :
    Shuffled n (upd a i x) (trickleDown key a n i x) := by
  generalize hk : n - i = k
  induction k using Nat.strong_induction_on generalizing a i with
  | _ k ih =>
    rw [trickleDown]
    split
    · rename_i h
      obtain ⟨h1, h2, h3⟩ := smallChild_bounds key a n i h
      refine (shuffled_move n a i _ x hi h2).trans ?_
      exact ih _ (by omega) _ _ h2 rfl
    · exact bubbleUp_shuffled n a i x hi

/-- What `bubbleUp` needs: everything is ordered except that `i` may be smaller than its parent. -/
structure UpPre (key : Nat → C) (b : Nat → Nat) (n i : Nat) : Prop where
  other : ∀ j, 0 < j → j < n → j ≠ i → key (b ((j - 1) / 2)) ≤ key (b j)
  grand : ∀ j, 0 < j → j < n → (j - 1) / 2 = i → 0 < i → key (b ((i - 1) / 2)) ≤ key (b j)

theorem bubbleUp_ordered (n : Nat) (a : Nat → Nat) (i x : Nat) (hi : i < n)
    (hp : UpPre key (upd a i x) n i) : Ordered key (bubbleUp key a i x) n := by
  induction i using Nat.strong_induction_on generalizing a with
  | _ i ih =>
    rw [bubbleUp]
    split
    · rename_i h
      obtain ⟨hi0, hlt⟩ := h
      have hpi : (i - 1) / 2 ≠ i := by omega
      apply ih _ (by omega) _ (by omega)
      have hpar : ∀ j, j ≠ i → (upd a i x) j = a j := fun j hj => upd_ne _ _ hj
      have old := hp.other
      have grand := hp.grand
      generalize hpdef : (i - 1) / 2 = p at *
      -- values of the new array
      have vp : (upd (upd a i (a p)) p x) p = x := upd_same _ _ _
      have vi : (upd (upd a i (a p)) p x) i = a p := by
        rw [upd_ne _ _ (fun h => hpi h.symm), upd_same]
      have vo : ∀ j, j ≠ p → j ≠ i → (upd (upd a i (a p)) p x) j = a j := by
        intro j h1 h2
        rw [upd_ne _ _ h1, upd_ne _ _ h2]
      constructor
      · intro j j0 jn jp
        by_cases hji : j = i
        · subst hji
          rw [hpdef, vp, vi]
          exact le_of_lt hlt
        · rw [vo j jp hji]
          by_cases hq : (j - 1) / 2 = p
          · rw [hq, vp]
            have := old j j0 jn hji
            rw [hq, hpar p hpi, hpar j hji] at this
            exact le_trans (le_of_lt hlt) this
          · by_cases hq' : (j - 1) / 2 = i
            · rw [hq', vi]
              have := grand j j0 jn hq' hi0
              rwa [hpar p hpi, hpar j hji] at this
            · rw [vo _ hq hq']
              have := old j j0 jn hji
              rwa [hpar _ hq', hpar j hji] at this
      · intro j j0 jn jp p0
        have hpp : (p - 1) / 2 ≠ p := by omega
        have hppi : (p - 1) / 2 ≠ i := by omega
        have hle : key (a ((p - 1) / 2)) ≤ key (a p) := by
          have := old p p0 (by omega) hpi
          rwa [hpar _ hppi, hpar p hpi] at this
        rw [vo _ hpp hppi]
        by_cases hji : j = i
        · subst hji
          rw [vi]
          exact hle
        · by_cases hjp : j = p
          · omega
          · rw [vo j hjp hji]
            have := old j j0 jn hji
            rw [jp, hpar p hpi, hpar j hji] at this
            exact le_trans hle this
    · rename_i h
      intro j j0 jn
      by_cases hji : j = i
      · subst hji
        rw [upd_same, upd_ne _ _ (by omega)]
        by_contra hc
        exact h ⟨j0, not_le.1 hc⟩
      · exact hp.other j j0 jn hji

/-- What `trickleDown` needs: the array is ordered around the hole `i`. -/
structure DownPre (key : Nat → C) (a : Nat → Nat) (n i : Nat) : Prop where
  other : ∀ j, 0 < j → j < n → j ≠ i → (j - 1) / 2 ≠ i → key (a ((j - 1) / 2)) ≤ key (a j)
  grand : ∀ j, 0 < j → j < n → (j - 1) / 2 = i → 0 < i → key (a ((i - 1) / 2)) ≤ key (a j)

theorem trickleDown_ordered (n : Nat) (a : Nat → Nat) (i x : Nat) (hi : i < n)
    (hp : DownPre key a n i) : Ordered key (trickleDown key a n i x) n := by
  generalize hk : n - i = k
  induction k using Nat.strong_induction_on generalizing a i with
  | _ k ih =>
    rw [trickleDown]
    split
    · rename_i h
      obtain ⟨h1, h2, h3⟩ := smallChild_bounds key a n i h
      have hmin : ∀ j, 0 < j → j < n → (j - 1) / 2 = i →
          key (a (smallChild key a n i)) ≤ key (a j) := by
        intro j j0 jn hj
        have hj' : j = 2 * i + 1 ∨ j = 2 * i + 1 + 1 := by omega
        unfold smallChild
        split
        · rename_i hc
          rcases hj' with rfl | rfl
          · exact le_of_lt hc.2
          · exact le_refl _
        · rename_i hc
          rcases hj' with rfl | rfl
          · exact le_refl _
          · by_contra hn
            exact hc ⟨jn, not_le.1 hn⟩
      generalize smallChild key a n i = c at *
      apply ih _ (by omega) _ _ h2 _ rfl
      constructor
      · intro j j0 jn jc hjc
        by_cases hji : j = i
        · subst hji
          rw [upd_same, upd_ne _ _ (by omega)]
          exact hp.grand c (by omega) h2 h3 j0
        · rw [upd_ne _ _ hji]
          by_cases hq : (j - 1) / 2 = i
          · rw [hq, upd_same]
            exact hmin j j0 jn hq
          · rw [upd_ne _ _ hq]
            exact hp.other j j0 jn hji hq
      · intro j j0 jn hj _
        rw [h3, upd_same, upd_ne _ _ (by omega)]
        have := hp.other j j0 jn (by omega) (by omega)
        rwa [hj] at this
    · rename_i h
      apply bubbleUp_ordered n a i x hi
      constructor
      · intro j j0 jn hji
        have hq : (j - 1) / 2 ≠ i := by omega
        rw [upd_ne _ _ hji, upd_ne _ _ hq]
        exact hp.other j j0 jn hji hq
      · intro j j0 jn hj
        omega

theorem Ordered.top_le {a : Nat → Nat} {n : Nat} (h : Ordered key a n) (j : Nat) (hj : j < n) :
    key (a 0) ≤ key (a j) := by
  induction j using Nat.strong_induction_on with
  | _ j ih =>
    by_cases h0 : j = 0
    · subst h0; exact le_refl _
    · exact le_trans (ih ((j - 1) / 2) (by omega) (by omega)) (h j (by omega) hj)

theorem entries_succ (a : Nat → Nat) (n : Nat) : entries a (n + 1) = entries a n ++ [a n] := by
  unfold entries
  rw [List.range_succ, List.map_append]
  rfl

theorem entries_congr {a b : Nat → Nat} {n : Nat} (h : ∀ j, j < n → a j = b j) :
    entries a n = entries b n := by
  unfold entries
  apply List.map_congr_left
  intro j hj
  exact h j (List.mem_range.1 hj)

theorem mem_entries {a : Nat → Nat} {n x : Nat} : x ∈ entries a n ↔ ∃ j, j < n ∧ a j = x := by
  unfold entries
  simp [List.mem_map, List.mem_range]

theorem entries_head (a : Nat → Nat) (n : Nat) :
    entries a (n + 1) = a 0 :: entries (fun j => a (j + 1)) n := by
  unfold entries
  rw [List.range_succ_eq_map, List.map_cons, List.map_map]
  rfl

/-! ## The three operations -/

/-- The open list is in heap order and holds no node twice. -/
structure HeapInv (key : Nat → C) (h : Heap) : Prop where
  ord : Ordered key h.arr h.size
  nodup : h.toList.Nodup
  room : h.size ≤ h.len

theorem push_spec {h : Heap} (hi : HeapInv key h) (x : Nat) (hx : x ∉ h.toList)
    (hroom : h.size < h.len) :
    ∃ h', h.push key x = some h' ∧ HeapInv key h' ∧ h'.toList.Perm (x :: h.toList) ∧
      h'.len = h.len := by
  unfold Heap.push
  rw [if_pos hroom]
  refine ⟨_, rfl, ?_⟩
  have hp : (entries (bubbleUp key h.arr h.size x) (h.size + 1)).Perm (x :: h.toList) := by
    refine (bubbleUp_shuffled (h.size + 1) h.arr h.size x (by omega)).entries.trans ?_
    rw [entries_succ, upd_same]
    rw [entries_congr (b := h.arr) (fun j hj => upd_ne _ _ (by omega))]
    exact List.perm_append_singleton _ _
  refine ⟨⟨?_, ?_, ?_⟩, hp, rfl⟩
  · apply bubbleUp_ordered (h.size + 1) _ _ _ (by omega)
    constructor
    · intro j j0 jn hji
      rw [upd_ne _ _ hji, upd_ne _ _ (by omega)]
      exact hi.ord j j0 (by omega)
    · intro j j0 jn hj
      omega
  · exact (hp.nodup_iff).2 (List.nodup_cons.2 ⟨hx, hi.nodup⟩)
  · exact hroom

theorem pop_spec {h : Heap} (hi : HeapInv key h) (hne : h.size ≠ 0) :
    ∃ x h', h.pop key = some (x, h') ∧ HeapInv key h' ∧ h.toList.Perm (x :: h'.toList) ∧
      (∀ y ∈ h.toList, key x ≤ key y) ∧ h'.len = h.len ∧ h'.size + 1 = h.size := by
  unfold Heap.pop
  rw [if_neg hne]
  refine ⟨_, _, rfl, ?_⟩
  obtain ⟨arr, size, len⟩ := h
  simp only at hne ⊢
  obtain ⟨n, rfl⟩ : ∃ n, size = n + 1 := ⟨size - 1, by omega⟩
  simp only [Nat.add_sub_cancel]
  have hmin : ∀ y ∈ entries arr (n + 1), key (arr 0) ≤ key y := by
    intro y hy
    obtain ⟨j, hj, rfl⟩ := mem_entries.1 hy
    exact hi.ord.top_le j hj
  have hp : (entries arr (n + 1)).Perm (arr 0 :: entries (trickleDown key arr n 0 (arr n)) n) := by
    cases n with
    | zero => exact List.Perm.refl _
    | succ n =>
      have hs := (trickleDown_shuffled (key := key) (n + 1) arr 0 (arr (n + 1)) (by omega)).entries
      rw [entries_head]
      apply List.Perm.cons
      refine List.Perm.trans ?_ hs.symm
      rw [entries_head (upd _ _ _), upd_same, entries_succ]
      refine (List.perm_append_singleton _ _).trans ?_
      apply List.Perm.cons
      rw [entries_congr]
      intro j hj
      exact (upd_ne _ _ (by omega)).symm
  refine ⟨⟨?_, ?_, ?_⟩, hp, hmin, trivial, trivial⟩
  · cases n with
    | zero => intro j j0 jn; simp at jn
    | succ n =>
      apply trickleDown_ordered _ _ _ _ (by omega)
      constructor
      · intro j j0 jn _ _
        exact hi.ord j j0 (by simp only; omega)
      · intro j j0 jn _ h0
        omega
  · have := (hp.nodup_iff).1 hi.nodup
    exact (List.nodup_cons.1 this).2
  · have := hi.room
    simp only at this ⊢
    omega

/-- `modify` after the key of `x` has been lowered restores the heap order. -/
theorem modify_spec {h : Heap} {key' : Nat → C} (hi : HeapInv key h) (x : Nat) (hx : x ∈ h.toList)
    (hle : key' x ≤ key x) (hother : ∀ y, y ≠ x → y ∈ h.toList → key' y = key y) :
    HeapInv key' (h.modify key' x) ∧ (h.modify key' x).toList.Perm h.toList ∧
      (h.modify key' x).len = h.len ∧ (h.modify key' x).size = h.size := by
  unfold Heap.modify
  obtain ⟨i, hil, hix⟩ := mem_entries.1 hx
  have hinj : ∀ j k, j < h.size → k < h.size → h.arr j = h.arr k → j = k := by
    intro j k hj hk he
    have hnd := hi.nodup
    unfold Heap.toList entries at hnd
    exact List.inj_on_of_nodup_map hnd (List.mem_range.2 hj) (List.mem_range.2 hk) he
  cases hf : (List.range h.size).find? (fun i => h.arr i == x) with
  | none =>
    rw [List.find?_eq_none] at hf
    exact absurd (by simpa using hix) (hf i (List.mem_range.2 hil))
  | some k =>
    have hk1 := List.find?_some hf
    have hk2 := List.mem_range.1 (List.mem_of_find?_eq_some hf)
    have hki : k = i := hinj k i hk2 hil (by rw [hix]; simpa using hk1)
    subst hki
    have hid : upd h.arr k x = h.arr := by
      funext j
      by_cases hj : j = k
      · subst hj; rw [upd_same, hix]
      · rw [upd_ne _ _ hj]
    have hne : ∀ j, j < h.size → j ≠ k → key' (h.arr j) = key (h.arr j) := by
      intro j hj hjk
      apply hother
      · intro he
        exact hjk (hinj j k hj hil (by rw [he, hix]))
      · exact mem_entries.2 ⟨j, hj, rfl⟩
    have hlow : ∀ j, j < h.size → key' (h.arr j) ≤ key (h.arr j) := by
      intro j hj
      by_cases hjk : j = k
      · subst hjk; rw [hix]; exact hle
      · rw [hne j hj hjk]
    have hs := bubbleUp_shuffled (key := key') h.size h.arr k x hil
    rw [hid] at hs
    refine ⟨⟨?_, ?_, hi.room⟩, hs.entries, rfl, rfl⟩
    · apply bubbleUp_ordered _ _ _ _ hil
      rw [hid]
      constructor
      · intro j j0 jn hj
        refine le_trans (hlow _ (by omega)) ?_
        rw [hne j jn hj]
        exact hi.ord j j0 jn
      · intro j j0 jn hj k0
        rw [hne _ (by omega) (by omega), hne j jn (by omega)]
        refine le_trans (hi.ord k k0 hil) ?_
        have := hi.ord j j0 jn
        rwa [hj] at this
    · exact (hs.entries.nodup_iff).2 hi.nodup

/-! ## Independence from leftovers -/

/-- Equality of the first `n` entries. -/
def AgreeBelow (n : Nat) (a b : Nat → Nat) : Prop := ∀ j, j < n → a j = b j

theorem AgreeBelow.upd {n : Nat} {a b : Nat → Nat} (h : AgreeBelow n a b) (i x : Nat) :
    AgreeBelow n (upd a i x) (upd b i x) := by
  intro j hj
  unfold Verif.upd
  split
  · rfl
  · exact h j hj

theorem bubbleUp_agree {key' : Nat → C} (n : Nat) {a b : Nat → Nat} {i x : Nat}
    (hi : i < n) (h : AgreeBelow n a b) (hx : key x = key' x)
    (hk : ∀ j, j < n → j ≠ i → key (a j) = key' (a j)) :
    AgreeBelow n (bubbleUp key a i x) (bubbleUp key' b i x) := by
  induction i using Nat.strong_induction_on generalizing a b with
  | _ i ih =>
    rw [bubbleUp, bubbleUp.eq_1 key']
    by_cases hi0 : 0 < i
    · have e1 : a ((i - 1) / 2) = b ((i - 1) / 2) := h _ (by omega)
      have e2 := hk ((i - 1) / 2) (by omega) (by omega)
      rw [← e1, ← hx, ← e2]
      split
      · apply ih _ (by omega) (by omega) (h.upd _ _)
        intro j hj hne
        by_cases hji : j = i
        · subst hji; rw [upd_same]; exact e2
        · rw [upd_ne _ _ hji]; exact hk j hj hji
      · exact h.upd _ _
    · simp only [hi0, false_and, if_false]
      exact h.upd _ _

theorem trickleDown_agree {key' : Nat → C} (n : Nat) {a b : Nat → Nat} {i x : Nat}
    (hi : i < n) (h : AgreeBelow n a b) (hx : key x = key' x)
    (hk : ∀ j, j < n → j ≠ i → key (a j) = key' (a j)) :
    AgreeBelow n (trickleDown key a n i x) (trickleDown key' b n i x) := by
  generalize hm : n - i = m
  induction m using Nat.strong_induction_on generalizing a b i with
  | _ m ih =>
    rw [trickleDown, trickleDown.eq_1 key']
    split
    · rename_i hc
      obtain ⟨h1, h2, h3⟩ := smallChild_bounds key a n i hc
      have hsc : smallChild key' b n i = smallChild key a n i := by
        unfold smallChild
        by_cases hc2 : 2 * i + 1 + 1 < n
        · rw [← h _ hc, ← h _ hc2, ← hk _ hc (by omega), ← hk _ hc2 (by omega)]
        · simp [hc2]
      rw [hsc]
      have hcv := h _ h2
      rw [← hcv]
      have hkc := hk _ h2 (by omega)
      apply ih _ (by omega) h2 (h.upd _ _) _ rfl
      intro j hj hne
      by_cases hji : j = i
      · subst hji; rw [upd_same]; exact hkc
      · rw [upd_ne _ _ hji]; exact hk j hj hji
    · exact bubbleUp_agree n hi h hx hk

end

/-! ## Properties -/

section
variable {C : Type} [LinearOrder C]

/-- What a caller does with the open list. -/
inductive QOp (C : Type) where
  /-- insert a node with the given total -/
  | push (x : Nat) (k : C)
  /-- remove a node of least total -/
  | pop
  /-- lower a node's total and tell the queue -/
  | lower (x : Nat) (k : C)

/-- Specification state: the nodes queued (as a multiset) and the totals of all nodes. -/
structure QSpec (C : Type) where
  nodes : Multiset Nat
  total : Nat → C

/-- The specification of one call that returned `r` (`none` for push/lower): written without
reference to the heap. -/
def QSpec.Step (s : QSpec C) : QOp C → Option Nat → QSpec C → Prop
  | .push x k, r, s' => r = none ∧ s'.nodes = x ::ₘ s.nodes ∧ s'.total = upd s.total x k
  | .lower x k, r, s' => r = none ∧ s'.nodes = s.nodes ∧ s'.total = upd s.total x k
  | .pop, r, s' => ∃ x, r = some x ∧ s.nodes = x ::ₘ s'.nodes ∧ (∀ y ∈ s.nodes, s.total x ≤ s.total y) ∧
      s'.total = s.total

/-- Calls the search may make: no double insertion, no overflow of `capacity+1`, no pop of an empty
queue, and totals only go down while queued. -/
def QSpec.Legal (cap : Nat) (s : QSpec C) : QOp C → Prop
  | .push x _ => x ∉ s.nodes ∧ Multiset.card s.nodes ≤ cap
  | .pop => s.nodes ≠ 0
  | .lower x k => x ∈ s.nodes ∧ k ≤ s.total x

/-- Running the code: the queue and the totals stored in the nodes. -/
def qstep (h : Heap) (total : Nat → C) : QOp C → Option (Option Nat × Heap × (Nat → C))
  | .push x k => (h.push (upd total x k) x).map fun h' => (none, h', upd total x k)
  | .pop => (h.pop total).map fun r => (some r.1, r.2, total)
  | .lower x k => some (none, h.modify (upd total x k) x, upd total x k)

/-- A history of calls, with the results returned. -/
inductive QRun (cap : Nat) : QSpec C → List (QOp C) → List (Option Nat) → QSpec C → Prop
  | nil (s) : QRun cap s [] [] s
  | cons {s s' s'' op ops r rs} : s.Legal cap op → s.Step op r s' → QRun cap s' ops rs s'' →
      QRun cap s (op :: ops) (r :: rs) s''

/-- Running the code on a history; `none` is a panic. -/
def qrun (h : Heap) (total : Nat → C) :
    List (QOp C) → Option (List (Option Nat) × Heap × (Nat → C))
  | [] => some ([], h, total)
  | op :: ops => (qstep h total op).bind fun r =>
      (qrun r.2.1 r.2.2 ops).map fun q => (r.1 :: q.1, q.2)

/-- The heap represents the specification state. -/
structure Rep (cap : Nat) (h : Heap) (total : Nat → C) (s : QSpec C) : Prop where
  inv : HeapInv total h
  nodes : s.nodes = (h.toList : Multiset Nat)
  total : s.total = total
  len : h.len = cap + 1

theorem toList_length (h : Heap) : h.toList.length = h.size := by
  unfold Heap.toList entries
  simp

theorem HeapInv.congr {key key' : Nat → C} {h : Heap} (hi : HeapInv key h)
    (hk : ∀ y ∈ h.toList, key' y = key y) : HeapInv key' h := by
  refine ⟨?_, hi.nodup, hi.room⟩
  intro j j0 jn
  rw [hk _ (mem_entries.2 ⟨(j - 1) / 2, by omega, rfl⟩), hk _ (mem_entries.2 ⟨j, jn, rfl⟩)]
  exact hi.ord j j0 jn

theorem qstep_spec {cap : Nat} {h : Heap} {total : Nat → C} {s : QSpec C} (hr : Rep cap h total s)
    (op : QOp C) (hl : s.Legal cap op) :
    ∃ r h' total', qstep h total op = some (r, h', total') ∧
      s.Step op r ⟨(h'.toList : Multiset Nat), total'⟩ ∧
      Rep cap h' total' ⟨(h'.toList : Multiset Nat), total'⟩ := by
  cases op with
  | push x k =>
    obtain ⟨h1, h2⟩ := hl
    rw [hr.nodes, Multiset.mem_coe] at h1
    rw [hr.nodes, Multiset.coe_card, toList_length] at h2
    have hinv : HeapInv (upd total x k) h :=
      hr.inv.congr fun y hy => upd_ne _ _ (by rintro rfl; exact h1 hy)
    obtain ⟨h', p1, p2, p3, p4⟩ := push_spec hinv x h1 (by rw [hr.len]; omega)
    refine ⟨none, h', upd total x k, ?_, ⟨rfl, ?_, ?_⟩, ⟨p2, rfl, rfl, by rw [p4, hr.len]⟩⟩
    · simp only [qstep, p1, Option.map_some]
    · rw [hr.nodes]
      exact Multiset.coe_eq_coe.2 p3
    · rw [hr.total]
  | pop =>
    have hne : h.size ≠ 0 := by
      intro h0
      apply hl
      rw [hr.nodes]
      have := toList_length h
      rw [h0] at this
      rw [List.length_eq_zero_iff.1 this]
      rfl
    obtain ⟨x, h', p1, p2, p3, p4, p5, p6⟩ := pop_spec hr.inv hne
    refine ⟨some x, h', total, ?_, ⟨x, rfl, ?_, ?_, ?_⟩, ⟨p2, rfl, rfl, by rw [p5, hr.len]⟩⟩
    · simp only [qstep, p1, Option.map_some]
    · rw [hr.nodes]
      exact Multiset.coe_eq_coe.2 p3
    · intro y hy
      rw [hr.nodes, Multiset.mem_coe] at hy
      rw [hr.total]
      exact p4 y hy
    · rw [hr.total]
  | lower x k =>
    obtain ⟨h1, h2⟩ := hl
    rw [hr.nodes, Multiset.mem_coe] at h1
    rw [hr.total] at h2
    obtain ⟨p1, p2, p3, p4⟩ := modify_spec (key' := upd total x k) hr.inv x h1
      (by rw [upd_same]; exact h2) (fun y hy _ => upd_ne _ _ hy)
    refine ⟨none, _, upd total x k, rfl, ⟨rfl, ?_, ?_⟩, ⟨p1, rfl, rfl, by rw [p3, hr.len]⟩⟩
    · rw [hr.nodes]
      exact Multiset.coe_eq_coe.2 p2
    · rw [hr.total]

/-- Histories the specification allows, whatever minimal element each pop picks. -/
inductive LegalRun (cap : Nat) : QSpec C → List (QOp C) → Prop
  | nil (s) : LegalRun cap s []
  | cons {s op ops} : s.Legal cap op → (∀ r s', s.Step op r s' → LegalRun cap s' ops) →
      LegalRun cap s (op :: ops)

theorem qrun_spec {cap : Nat} {h : Heap} {total : Nat → C} {s : QSpec C} (hr : Rep cap h total s)
    (ops : List (QOp C)) (hl : LegalRun cap s ops) :
    ∃ rs h' total', qrun h total ops = some (rs, h', total') ∧
      ∃ s', QRun cap s ops rs s' ∧ Rep cap h' total' s' := by
  induction ops generalizing h total s with
  | nil => exact ⟨[], h, total, rfl, s, .nil s, hr⟩
  | cons op ops ih =>
    cases hl with
    | cons hl1 hl2 =>
      obtain ⟨r, h1, t1, e1, e2, e3⟩ := qstep_spec hr op hl1
      obtain ⟨rs, h', t', f1, s', f2, f3⟩ := ih e3 (hl2 r _ e2)
      refine ⟨r :: rs, h', t', ?_, s', .cons hl1 e2 f2, f3⟩
      rw [qrun, e1]
      simp only [Option.bind_some, f1, Option.map_some]

/-- **C22**: from an empty queue with room for `cap+1` nodes, any legal sequence of push, pop and
decrease-key runs without panic, and its results are those of a priority queue: each pop returns a
queued node of minimal total, and the queue holds exactly the nodes pushed and not popped. -/
theorem queue_is_priority_queue (cap : Nat) (total : Nat → C) (ops : List (QOp C))
    (hl : LegalRun cap ⟨0, total⟩ ops) :
    ∃ rs h' total', qrun (Heap.new cap) total ops = some (rs, h', total') ∧
      ∃ s', QRun cap ⟨0, total⟩ ops rs s' ∧ s'.nodes = (h'.toList : Multiset Nat) ∧
        s'.total = total' := by
  have hr : Rep cap (Heap.new cap) total ⟨0, total⟩ := by
    refine ⟨⟨?_, ?_, ?_⟩, rfl, rfl, rfl⟩
    · intro j _ hj
      simp [Heap.new] at hj
    · exact List.nodup_nil
    · exact Nat.zero_le _
  obtain ⟨rs, h', t', e, s', f1, f2⟩ := qrun_spec hr ops hl
  exact ⟨rs, h', t', e, s', f1, f2.nodes, f2.total⟩

/-- The hypothesis of `queue_is_priority_queue` is met by a history with a decrease-key that changes
which node comes out first. -/
example : LegalRun (C := Nat) 4 ⟨0, fun _ => 0⟩ [.push 7 5, .push 8 3, .lower 7 1, .pop] := by
  refine .cons ⟨by simp, by simp⟩ ?_
  rintro r ⟨n1, t1⟩ ⟨_, h1, h2⟩
  simp only at h1 h2
  subst h1 h2
  refine .cons ⟨by simp, by simp⟩ ?_
  rintro r ⟨n2, t2⟩ ⟨_, h1, h2⟩
  simp only at h1 h2
  subst h1 h2
  refine .cons ⟨by simp, by simp [upd]⟩ ?_
  rintro r ⟨n3, t3⟩ ⟨_, h1, h2⟩
  simp only at h1 h2
  subst h1 h2
  refine .cons (by simp [QSpec.Legal]) ?_
  intro r s' _
  exact .nil _

/-- Popping an empty open list is a panic (heap[-1]). -/
theorem pop_empty_panics (key : Nat → C) (h : Heap) (h0 : h.size = 0) : h.pop key = none := by
  unfold Heap.pop
  rw [if_pos h0]

end

end Verif.Detour
