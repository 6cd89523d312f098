/-
The removal of small groups of regions (recast/region.go:967-1031): which records it drops.
-/
import Verif.Recast.RegionFilter

namespace Verif.Recast
open Verif Verif.Detour

set_option linter.unusedSimpArgs false
set_option linter.unusedVariables false

/-- Records before merging: each has its own index as id or is dropped, and neighbours are records or border regions. -/
structure Fresh (nreg : Nat) (regs : Nat → Region) : Prop where
  bound : nreg ≤ 0x8000
  id : ∀ k < nreg, (regs k).id = k ∨ (regs k).id = 0
  conns : ∀ k < nreg, ∀ e ∈ (regs k).conns, isBorder e = true ∨ e < nreg

/-- `Q` is kept by going to a neighbour record that is in use. -/
def Closed (nreg : Nat) (regs : Nat → Region) (Q : Nat → Prop) : Prop :=
  ∀ k < nreg, Q k → ∀ e ∈ (regs k).conns, isBorder e = false → e < nreg → (regs e).id ≠ 0 → Q e

/-- The state of the search that started at `i`, after the records `tr`; `B` says that a border was met. -/
structure FloodInv (nreg : Nat) (regs : Nat → Region) (vis0 : Nat → Bool) (i : Nat) (s : Visit) (tr : List Nat) (B : Prop) : Prop where
  nodup : (tr ++ s.stack).Nodup
  lt : ∀ k ∈ tr ++ s.stack, k < nreg
  fresh : ∀ k ∈ tr ++ s.stack, vis0 k = false
  vis : ∀ k, s.visited k = true ↔ vis0 k = true ∨ k ∈ tr ++ s.stack
  border : s.border = true ↔ B
  root : i ∈ tr ++ s.stack
  reach : ∀ Q : Nat → Prop, Q i → Closed nreg regs Q → ∀ k ∈ tr ++ s.stack, Q k

theorem visit_fold {nreg : Nat} {regs : Nat → Region} (hf : Fresh nreg regs) {vis0 : Nat → Bool} {i : Nat} {tr : List Nat} {r : Nat}
    (hr : r ∈ tr) (l : List Nat) : ∀ (s : Visit) (B : Prop), FloodInv nreg regs vis0 i s tr B → (∀ e ∈ l, e ∈ (regs r).conns) →
    ∃ s', l.foldlM (visitConn nreg regs) s = some s' ∧ FloodInv nreg regs vis0 i s' tr (B ∨ ∃ e ∈ l, isBorder e = true) := by
  induction l with
  | nil =>
    intro s B h _
    exact ⟨s, rfl, ⟨h.nodup, h.lt, h.fresh, h.vis, by rw [h.border]; simp, h.root, h.reach⟩⟩
  | cons e l ih =>
    intro s B h hl
    have hrl : r < nreg := h.lt r (List.mem_append_left _ hr)
    have hstep : ∃ s1, visitConn nreg regs s e = some s1 ∧ FloodInv nreg regs vis0 i s1 tr (B ∨ isBorder e = true) := by
      unfold visitConn
      by_cases hb : isBorder e = true
      · rw [if_pos hb]
        exact ⟨_, rfl, ⟨h.nodup, h.lt, h.fresh, h.vis, by simp [hb], h.root, h.reach⟩⟩
      · rw [if_neg hb]
        have hlt : e < nreg := (hf.conns r hrl e (hl e List.mem_cons_self)).resolve_left hb
        have hB : (B ∨ isBorder e = true) ↔ B := by simp [hb]
        rw [if_neg (by omega), hB]
        by_cases hv : s.visited e = true
        · rw [if_pos hv]; exact ⟨s, rfl, h⟩
        · rw [if_neg hv]
          by_cases hd : (regs e).id = 0 ∨ isBorder (regs e).id = true
          · rw [if_pos hd]; exact ⟨s, rfl, h⟩
          · rw [if_neg hd]
            push Not at hd
            have hid : (regs e).id = e := (hf.id e hlt).resolve_right hd.1
            rw [hid]
            have hnv : ¬ (vis0 e = true ∨ e ∈ tr ++ s.stack) := fun hh => hv ((h.vis e).2 hh)
            push Not at hnv
            have hmem : ∀ k, k ∈ tr ++ e :: s.stack ↔ k ∈ tr ++ s.stack ∨ k = e := by
              intro k
              simp only [List.mem_append, List.mem_cons]
              tauto
            refine ⟨_, rfl, ⟨?_, ?_, ?_, ?_, h.border, ?_, ?_⟩⟩
            · have hp : (tr ++ e :: s.stack).Perm (e :: (tr ++ s.stack)) := List.perm_middle
              exact hp.nodup_iff.2 (List.nodup_cons.2 ⟨hnv.2, h.nodup⟩)
            · intro k hk
              rcases (hmem k).1 hk with hk | rfl
              · exact h.lt k hk
              · exact hlt
            · intro k hk
              rcases (hmem k).1 hk with hk | rfl
              · exact h.fresh k hk
              · simpa using hnv.1
            · intro k
              show upd s.visited e true k = true ↔ vis0 k = true ∨ k ∈ tr ++ e :: s.stack
              rw [hmem]
              by_cases hk : k = e
              · subst hk; rw [upd_same]; simp
              · rw [upd_ne _ _ hk, h.vis]; simp [hk]
            · exact (hmem i).2 (Or.inl h.root)
            · intro Q hQ hcl k hk
              rcases (hmem k).1 hk with hk | rfl
              · exact h.reach Q hQ hcl k hk
              · exact hcl r hrl (h.reach Q hQ hcl r (List.mem_append_left _ hr)) k (hl k List.mem_cons_self) (by simpa using hb) hlt hd.1
    obtain ⟨s1, h1, h2⟩ := hstep
    obtain ⟨s', h3, h4⟩ := ih s1 _ h2 fun e' he' => hl e' (List.mem_cons_of_mem _ he')
    refine ⟨s', by rw [List.foldlM_cons, h1]; exact h3, ⟨h4.nodup, h4.lt, h4.fresh, h4.vis, ?_, h4.root, h4.reach⟩⟩
    rw [h4.border]
    simp only [List.mem_cons, exists_eq_or_imp, or_assoc]

/-- The records of a list all lie below `nreg` and are different, so there are at most `nreg`. -/
theorem length_le_of_nodup {l : List Nat} {n : Nat} (h : l.Nodup) (hl : ∀ k ∈ l, k < n) : l.length ≤ n := by
  have := (List.subperm_of_subset h (l₂ := List.range n) fun k hk => List.mem_range.2 (hl k hk)).length_le
  simpa using this

theorem le_sum_of_mem {l : List Nat} {a : Nat} (h : a ∈ l) : a ≤ l.sum := by
  induction l with
  | nil => simp at h
  | cons b l ih =>
    rw [List.sum_cons]
    rcases List.mem_cons.1 h with rfl | h
    · omega
    · have := ih h
      omega

theorem flood_spec {nreg : Nat} {regs : Nat → Region} (hf : Fresh nreg regs) {vis0 : Nat → Bool} {i : Nat} (fuel : Nat) :
    ∀ (s : Visit) (tr : List Nat), FloodInv nreg regs vis0 i s tr (∃ k ∈ tr, ∃ e ∈ (regs k).conns, isBorder e = true) →
    nreg < fuel + tr.length → ∃ s' tr', flood nreg regs fuel s ((tr.map fun k => (regs k).spanCount).sum) tr =
        some (s', (tr'.map fun k => (regs k).spanCount).sum, tr') ∧ s'.stack = [] ∧
      FloodInv nreg regs vis0 i s' tr' (∃ k ∈ tr', ∃ e ∈ (regs k).conns, isBorder e = true) := by
  induction fuel with
  | zero =>
    intro s tr h hlen
    have := length_le_of_nodup (List.Nodup.of_append_left h.nodup) fun k hk => h.lt k (List.mem_append_left _ hk)
    omega
  | succ fuel ih =>
    intro s tr h hlen
    rw [flood]
    cases hs : s.stack with
    | nil => exact ⟨s, tr, rfl, hs, h⟩
    | cons r st =>
      have hr : r < nreg := h.lt r (by rw [hs]; simp)
      dsimp only
      rw [if_neg (by omega)]
      have he : tr ++ s.stack = (tr ++ [r]) ++ st := by rw [hs]; simp
      have h1 : FloodInv nreg regs vis0 i { s with stack := st } (tr ++ [r]) (∃ k ∈ tr, ∃ e ∈ (regs k).conns, isBorder e = true) := by
        refine ⟨?_, ?_, ?_, ?_, h.border, ?_, ?_⟩
        · show ((tr ++ [r]) ++ st).Nodup
          rw [← he]; exact h.nodup
        · show ∀ k ∈ (tr ++ [r]) ++ st, _
          rw [← he]; exact h.lt
        · show ∀ k ∈ (tr ++ [r]) ++ st, _
          rw [← he]; exact h.fresh
        · show ∀ k, _ ↔ _ ∨ k ∈ (tr ++ [r]) ++ st
          rw [← he]; exact h.vis
        · show _ ∈ (tr ++ [r]) ++ st
          rw [← he]; exact h.root
        · show ∀ Q : Nat → Prop, _ → _ → ∀ k ∈ (tr ++ [r]) ++ st, _
          rw [← he]; exact h.reach
      obtain ⟨s', h2, h3⟩ := visit_fold hf (r := r) (by simp) (regs r).conns _ _ h1 (fun e he => he)
      rw [h2]
      dsimp only
      have hsum : (tr.map fun k => (regs k).spanCount).sum + (regs r).spanCount = ((tr ++ [r]).map fun k => (regs k).spanCount).sum := by simp
      rw [hsum]
      refine ih s' (tr ++ [r]) ⟨h3.nodup, h3.lt, h3.fresh, h3.vis, ?_, h3.root, h3.reach⟩ (by rw [List.length_append]; simp only [List.length_singleton]; omega)
      rw [h3.border]
      constructor
      · rintro (⟨k, hk, hh⟩ | hh)
        · exact ⟨k, List.mem_append_left _ hk, hh⟩
        · exact ⟨r, by simp, hh⟩
      · rintro ⟨k, hk, hh⟩
        rcases List.mem_append.1 hk with hk | hk
        · exact Or.inl ⟨k, hk, hh⟩
        · rw [List.mem_singleton] at hk
          subst hk
          exact Or.inr hh

/-- A dropped record. -/
def Region.dropped (r : Region) : Region := { r with spanCount := 0, id := 0 }

/-- A group of records that the removal cannot keep: closed under neighbours both ways, without border neighbours, and with
fewer than `minArea` spans however its records are listed. -/
structure Island (nreg minArea : Nat) (regs : Nat → Region) (Q : Nat → Prop) : Prop where
  conn : ∀ k < nreg, ∀ e ∈ (regs k).conns, isBorder e = false → e < nreg → (regs e).id ≠ 0 → (Q k ↔ Q e)
  border : ∀ k < nreg, Q k → ∀ e ∈ (regs k).conns, isBorder e = false
  size : ∀ tr : List Nat, tr.Nodup → (∀ k ∈ tr, Q k ∧ k < nreg) → (tr.map fun k => (regs k).spanCount).sum < minArea

/-- The record is in use, and it has spans or is a neighbour. -/
def Used (regs : Nat → Region) (k : Nat) : Prop := (regs k).id ≠ 0 ∧ ((regs k).spanCount ≠ 0 ∨ ∃ j, k ∈ (regs j).conns)

structure DropInv (nreg minArea : Nat) (regs0 : Nat → Region) (i : Nat) (st : (Nat → Region) × (Nat → Bool)) : Prop where
  shape : ∀ k, st.1 k = regs0 k ∨ (st.1 k = (regs0 k).dropped ∧ (regs0 k).spanCount < minArea ∧ st.2 k = true ∧ k < nreg ∧ Used regs0 k)
  seen : ∀ k < i, (regs0 k).id = 0 ∨ (regs0 k).spanCount = 0 ∨ st.2 k = true
  isle : ∀ Q, Island nreg minArea regs0 Q → ∀ k < nreg, Q k → st.2 k = true → st.1 k = (regs0 k).dropped

theorem dropOne_inv {nreg minArea : Nat} {regs0 : Nat → Region} (hf : Fresh nreg regs0) {i : Nat} (hi : i < nreg)
    {st : (Nat → Region) × (Nat → Bool)} (h : DropInv nreg minArea regs0 i st) :
    ∃ st', dropOne nreg minArea st i = some st' ∧ DropInv nreg minArea regs0 (i + 1) st' := by
  have hconns : ∀ k, (st.1 k).conns = (regs0 k).conns := by
    intro k
    rcases h.shape k with hk | ⟨hk, -⟩ <;> rw [hk]
    rfl
  have hf' : Fresh nreg st.1 := by
    refine ⟨hf.bound, ?_, ?_⟩
    · intro k hk
      rcases h.shape k with hk' | ⟨hk', -⟩ <;> rw [hk']
      · exact hf.id k hk
      · exact Or.inr rfl
    · intro k hk
      rw [hconns]
      exact hf.conns k hk
  unfold dropOne
  dsimp only
  by_cases hskip : (st.1 i).id = 0 ∨ isBorder (st.1 i).id = true ∨ (st.1 i).spanCount = 0 ∨ st.2 i = true
  · rw [if_pos hskip]
    refine ⟨st, rfl, h.shape, ?_, h.isle⟩
    intro k hk
    rcases Nat.lt_or_ge k i with hlt | hge
    · exact h.seen k hlt
    · have : k = i := by omega
      subst this
      rcases h.shape k with hs | hs
      · rw [hs] at hskip
        rcases hskip with h1 | h1 | h1 | h1
        · exact Or.inl h1
        · have := hf.id k hi
          have hb := hf.bound
          unfold isBorder at h1
          rw [decide_eq_true_eq] at h1
          exfalso
          omega
        · exact Or.inr (Or.inl h1)
        · exact Or.inr (Or.inr h1)
      · exact Or.inr (Or.inr hs.2.2.1)
  · rw [if_neg hskip]
    push Not at hskip
    obtain ⟨hs1, hs2, hs3, hs4⟩ := hskip
    have hvis : st.2 i = false := by simpa using hs4
    have h0 : FloodInv nreg st.1 st.2 i ⟨[i], upd st.2 i true, false⟩ [] (∃ k ∈ ([] : List Nat), ∃ e ∈ (st.1 k).conns, isBorder e = true) := by
      refine ⟨by simp, ?_, ?_, ?_, by simp, by simp, ?_⟩
      · intro k hk
        simp at hk
        omega
      · intro k hk
        simp at hk
        rw [hk]; exact hvis
      · intro k
        by_cases hk : k = i
        · subst hk; simp [upd_same]
        · simp [upd_ne _ _ hk, hk]
      · intro Q hQ _ k hk
        simp at hk
        rw [hk]; exact hQ
    obtain ⟨s', tr, h1, h2, h3⟩ := flood_spec hf' (nreg + 1) _ [] h0 (by simp)
    have h1' : flood nreg st.1 (nreg + 1) ⟨[i], upd st.2 i true, false⟩ 0 [] = some (s', (tr.map fun k => (st.1 k).spanCount).sum, tr) := h1
    rw [h1', Option.map_some]
    refine ⟨_, rfl, ?_⟩
    have htr0 : ∀ k ∈ tr, st.1 k = regs0 k := by
      intro k hk
      rcases h.shape k with hs | hs
      · exact hs
      · have := h3.fresh k (by simpa [h2] using hk)
        rw [hs.2.2.1] at this
        exact absurd this (by simp)
    have hnd : tr.Nodup := by have := h3.nodup; rw [h2, List.append_nil] at this; exact this
    have hlt : ∀ k ∈ tr, k < nreg := fun k hk => h3.lt k (by rw [h2, List.append_nil]; exact hk)
    have hvs : ∀ k, s'.visited k = true ↔ st.2 k = true ∨ k ∈ tr := by
      intro k
      have := h3.vis k
      rw [h2, List.append_nil] at this
      exact this
    have hroot : i ∈ tr := by have := h3.root; rw [h2, List.append_nil] at this; exact this
    have hsum : (tr.map fun k => (st.1 k).spanCount) = tr.map fun k => (regs0 k).spanCount :=
      List.map_congr_left fun k hk => by rw [htr0 k hk]
    have hone : ∀ k ∈ tr, (regs0 k).spanCount ≤ (tr.map fun k => (regs0 k).spanCount).sum := by
      intro k hk
      exact le_sum_of_mem (List.mem_map.2 ⟨k, hk, rfl⟩)
    -- the group of `i` lies inside or outside of an island
    have hside : ∀ Q, Island nreg minArea regs0 Q → ∀ k ∈ tr, Q k ↔ Q i := by
      intro Q hQ k hk
      have hcl : Closed nreg st.1 fun k => Q k ↔ Q i := by
        intro k hk hq e he hb hel hid
        rw [hconns] at he
        have hid' : (regs0 e).id ≠ 0 := by
          rcases h.shape e with hs | hs
          · rwa [hs] at hid
          · rw [hs.1] at hid
            exact absurd rfl hid
        rw [← hQ.conn k hk e he hb hel hid']
        exact hq
      exact h3.reach (fun k => Q k ↔ Q i) Iff.rfl hcl k (by rw [h2, List.append_nil]; exact hk)
    have hbor : s'.border = true ↔ ∃ k ∈ tr, ∃ e ∈ (regs0 k).conns, isBorder e = true := by
      rw [h3.border]
      simp only [hconns]
    have hused : ∀ k ∈ tr, Used regs0 k := by
      intro k hk
      refine h3.reach (Used regs0) ⟨?_, Or.inl ?_⟩ ?_ k (by rw [h2, List.append_nil]; exact hk)
      · rw [← htr0 i hroot]; exact hs1
      · rw [← htr0 i hroot]; exact hs3
      · intro k hk hq e he hb hel hid
        rw [hconns] at he
        refine ⟨?_, Or.inr ⟨k, he⟩⟩
        rcases h.shape e with hs | hs
        · rwa [hs] at hid
        · rw [hs.1] at hid
          exact absurd rfl hid
    rw [hsum]
    dsimp only
    refine ⟨?_, ?_, ?_⟩
    · intro k
      dsimp only
      by_cases hd : (tr.map fun k => (regs0 k).spanCount).sum < minArea ∧ s'.border = false
      · rw [if_pos hd]
        by_cases hk : k ∈ tr
        · rw [if_pos hk, htr0 k hk]
          exact Or.inr ⟨rfl, lt_of_le_of_lt (hone k hk) hd.1, (hvs k).2 (Or.inr hk), hlt k hk, hused k hk⟩
        · rw [if_neg hk]
          rcases h.shape k with hs | hs
          · exact Or.inl hs
          · exact Or.inr ⟨hs.1, hs.2.1, (hvs k).2 (Or.inl hs.2.2.1), hs.2.2.2⟩
      · rw [if_neg hd]
        rcases h.shape k with hs | hs
        · exact Or.inl hs
        · exact Or.inr ⟨hs.1, hs.2.1, (hvs k).2 (Or.inl hs.2.2.1), hs.2.2.2⟩
    · intro k hk
      dsimp only
      rcases Nat.lt_or_ge k i with hlt' | hge
      · rcases h.seen k hlt' with hh | hh | hh
        · exact Or.inl hh
        · exact Or.inr (Or.inl hh)
        · exact Or.inr (Or.inr ((hvs k).2 (Or.inl hh)))
      · have : k = i := by omega
        subst this
        exact Or.inr (Or.inr ((hvs k).2 (Or.inr hroot)))
    · intro Q hQ k hk hq hv
      dsimp only at hv ⊢
      by_cases hkt : k ∈ tr
      · have hqi : Q i := (hside Q hQ k hkt).1 hq
        have hall : ∀ k ∈ tr, Q k ∧ k < nreg := fun k hk => ⟨(hside Q hQ k hk).2 hqi, hlt k hk⟩
        have hnb : s'.border = false := by
          rw [Bool.eq_false_iff]
          intro hb
          obtain ⟨k, hk, e, he, hbe⟩ := hbor.1 hb
          rw [hQ.border k (hlt k hk) (hall k hk).1 e he] at hbe
          exact absurd hbe (by simp)
        rw [if_pos ⟨hQ.size tr hnd hall, hnb⟩, if_pos hkt, htr0 k hkt]
        rfl
      · have hv' : st.2 k = true := ((hvs k).1 hv).resolve_right hkt
        have := h.isle Q hQ k hk hq hv'
        split
        · dsimp only; rw [if_neg hkt]; exact this
        · exact this

/-- What the removal of small groups does: it completes, it drops only records with fewer than `minArea` spans and changes
no other, and it drops every record of an island. -/
theorem dropSmall_spec {nreg minArea : Nat} {regs : Nat → Region} (hf : Fresh nreg regs) :
    ∃ regs', dropSmall nreg minArea regs = some regs' ∧
      (∀ k, regs' k = regs k ∨ (regs' k = (regs k).dropped ∧ (regs k).spanCount < minArea ∧ k < nreg ∧ Used regs k)) ∧
      ∀ Q, Island nreg minArea regs Q → ∀ k < nreg, Q k → (regs k).spanCount ≠ 0 → (regs' k).id = 0 := by
  have key : ∀ i ≤ nreg, ∃ st, (List.range i).foldlM (dropOne nreg minArea) (regs, fun _ => false) = some st ∧ DropInv nreg minArea regs i st := by
    intro i
    induction i with
    | zero =>
      intro _
      exact ⟨_, rfl, fun k => Or.inl rfl, fun k hk => absurd hk (by omega), fun Q _ k _ _ h => absurd h (by simp)⟩
    | succ i ih =>
      intro hi
      obtain ⟨st, h1, h2⟩ := ih (by omega)
      obtain ⟨st', h3, h4⟩ := dropOne_inv hf (by omega) h2
      refine ⟨st', ?_, h4⟩
      rw [List.range_succ, List.foldlM_append, h1]
      show [i].foldlM (dropOne nreg minArea) st = some st'
      rw [List.foldlM_cons, h3]
      rfl
  obtain ⟨st, h1, h2⟩ := key nreg le_rfl
  refine ⟨st.1, by unfold dropSmall; rw [h1]; rfl, ?_, ?_⟩
  · intro k
    rcases h2.shape k with h | h
    · exact Or.inl h
    · exact Or.inr ⟨h.1, h.2.1, h.2.2.2⟩
  · intro Q hQ k hk hq hsc
    rcases h2.seen k hk with h | h | h
    · rcases h2.shape k with hs | hs
      · rw [hs]; exact h
      · rw [hs.1]; rfl
    · exact absurd h hsc
    · rw [h2.isle Q hQ k hk hq h]; rfl

end Verif.Recast
