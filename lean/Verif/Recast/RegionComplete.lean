/-
When the merging passes of `mergeAndFilterRegions` (recast/region.go:1033-1103) end: which regions are left unmerged.
-/
import Verif.Recast.RegionResult

namespace Verif.Recast
open Verif Verif.Detour

/-! ## Spec -/

/-- Spec: a region that is to be merged: it is alive, has one floor only, and is small or touches no border. -/
structure ToMerge (size : Nat) (r : Region) : Prop where
  live : r.id ≠ 0 ∧ r.id < 0x8000 ∧ r.spanCount ≠ 0
  flat : r.overlap = false
  small : r.spanCount ≤ size ∨ 0 ∉ r.conns

/-- Spec: record `e` is that of a neighbour which `r` may be merged with: a live region with one floor, of the same area
type, that meets `r` along one stretch of border only and does not lie above or below it. -/
structure Partner (regs : Nat → Region) (r : Region) (e : Nat) : Prop where
  near : e ∈ r.conns ∧ e < 0x8000
  live : (regs e).id ≠ 0 ∧ (regs e).id < 0x8000
  flat : (regs e).overlap = false
  area : r.areaType = (regs e).areaType
  once : r.conns.count (regs e).id ≤ 1 ∧ (regs e).conns.count r.id ≤ 1
  floor : (regs e).id ∉ r.floors ∧ r.id ∉ (regs e).floors

/-! ## The search for the neighbour -/

theorem isBorder_true {r : Nat} : isBorder r = true ↔ 0x8000 ≤ r := by
  cases h : isBorder r with
  | false => have := isBorder_false.1 h; simp; omega
  | true =>
    refine ⟨fun _ => ?_, fun _ => rfl⟩
    by_contra hc
    rw [isBorder_false.2 (by omega)] at h
    exact absurd h (by simp)

theorem canMerge_count (r s : Region) : r.canMerge s = true ↔
    r.areaType = s.areaType ∧ r.conns.count s.id ≤ 1 ∧ s.id ∉ r.floors := by
  unfold Region.canMerge
  simp [and_assoc]

/-- A step of the search takes the neighbour exactly if it is a partner smaller than the best so far. -/
theorem bestOne_step {nreg : Nat} {regs : Nat → Region} {reg : Region} {b b' : Nat × Nat} {e : Nat} (he : e ∈ reg.conns)
    (h : bestOne nreg regs reg b e = some b') :
    (Partner regs reg e ∧ (regs e).spanCount < b.1 ∧ b' = ((regs e).spanCount, (regs e).id)) ∨
    (b' = b ∧ (Partner regs reg e → b.1 ≤ (regs e).spanCount)) := by
  unfold bestOne at h
  by_cases hb : isBorder e = true
  · rw [if_pos hb] at h
    exact Or.inr ⟨(Option.some.inj h).symm, fun hp => absurd (isBorder_true.1 hb) (by have := hp.near.2; omega)⟩
  rw [if_neg hb] at h
  by_cases hn : nreg ≤ e
  · rw [if_pos hn] at h; exact absurd h (by simp)
  rw [if_neg hn] at h
  dsimp only at h
  by_cases h1 : (regs e).id = 0 ∨ isBorder (regs e).id = true ∨ (regs e).overlap = true
  · rw [if_pos h1] at h
    refine Or.inr ⟨(Option.some.inj h).symm, fun hp => ?_⟩
    rcases h1 with h1 | h1 | h1
    · exact absurd h1 hp.live.1
    · exact absurd (isBorder_true.1 h1) (by have := hp.live.2; omega)
    · rw [hp.flat] at h1; exact absurd h1 (by simp)
  rw [if_neg h1] at h
  push Not at h1
  by_cases h2 : (regs e).spanCount < b.1 ∧ reg.canMerge (regs e) = true ∧ (regs e).canMerge reg = true
  · rw [if_pos h2] at h
    have c1 := (canMerge_count _ _).1 h2.2.1
    have c2 := (canMerge_count _ _).1 h2.2.2
    exact Or.inl ⟨⟨⟨he, isBorder_false.1 (by simpa using hb)⟩, ⟨h1.1, isBorder_false.1 (by simpa using h1.2.1)⟩,
      by simpa using h1.2.2, c1.1, ⟨c1.2.1, c2.2.1⟩, ⟨c1.2.2, c2.2.2⟩⟩, h2.1, (Option.some.inj h).symm⟩
  · rw [if_neg h2] at h
    refine Or.inr ⟨(Option.some.inj h).symm, fun hp => ?_⟩
    by_contra hc
    exact h2 ⟨by omega, (canMerge_count _ _).2 ⟨hp.area, hp.once.1, hp.floor.1⟩,
      (canMerge_count _ _).2 ⟨hp.area.symm, hp.once.2, hp.floor.2⟩⟩

/-- The search ends with a smallest partner, or with the start if there is none below the starting size. -/
theorem bestFold_min {nreg : Nat} {regs : Nat → Region} {reg : Region} (l : List Nat) : ∀ b b' : Nat × Nat, (∀ e ∈ l, e ∈ reg.conns) →
    l.foldlM (bestOne nreg regs reg) b = some b' →
    b'.1 ≤ b.1 ∧ (∀ e ∈ l, Partner regs reg e → b'.1 ≤ (regs e).spanCount) ∧
    (b' = b ∨ ∃ e ∈ l, Partner regs reg e ∧ b' = ((regs e).spanCount, (regs e).id)) := by
  induction l with
  | nil =>
    intro b b' _ h
    have : b = b' := by simpa using h
    subst this
    exact ⟨le_rfl, fun e he => absurd he (by simp), Or.inl rfl⟩
  | cons e l ih =>
    intro b b' hl h
    rw [List.foldlM_cons] at h
    cases hb : bestOne nreg regs reg b e with
    | none => rw [hb] at h; exact absurd h (by simp)
    | some b1 =>
      rw [hb] at h
      obtain ⟨i1, i2, i3⟩ := ih b1 b' (fun x hx => hl x (List.mem_cons_of_mem _ hx)) h
      rcases bestOne_step (hl e List.mem_cons_self) hb with ⟨hp, hlt, he⟩ | ⟨he, hge⟩
      · have e1 : b1.1 = (regs e).spanCount := by rw [he]
        refine ⟨by omega, ?_, ?_⟩
        · intro x hx hpx
          rcases List.mem_cons.1 hx with rfl | hx
          · omega
          · exact i2 x hx hpx
        · rcases i3 with i3 | ⟨x, hx, i3⟩
          · exact Or.inr ⟨e, List.mem_cons_self, hp, by rw [i3, he]⟩
          · exact Or.inr ⟨x, List.mem_cons_of_mem _ hx, i3⟩
      · subst he
        refine ⟨i1, ?_, ?_⟩
        · intro x hx hpx
          rcases List.mem_cons.1 hx with rfl | hx
          · exact le_trans i1 (hge hpx)
          · exact i2 x hx hpx
        · rcases i3 with i3 | ⟨x, hx, i3⟩
          · exact Or.inl i3
          · exact Or.inr ⟨x, List.mem_cons_of_mem _ hx, i3⟩

/-! ## A pass that merges nothing -/

theorem mergeOne_count {nreg size : Nat} {st st' : (Nat → Region) × Nat} {i : Nat} (h : mergeOne nreg size st i = some st') :
    st' = st ∨ st'.2 = st.2 + 1 := by
  unfold mergeOne at h
  dsimp only at h
  split at h
  · exact Or.inl (Option.some.inj h).symm
  · split at h
    · exact absurd h (by simp)
    · split at h
      · exact Or.inl (Option.some.inj h).symm
      · split at h
        · exact absurd h (by simp)
        · split at h
          · exact Or.inl (Option.some.inj h).symm
          · exact Or.inr (by rw [← Option.some.inj h])

theorem mergePass_count {nreg size : Nat} (l : List Nat) : ∀ st st' : (Nat → Region) × Nat,
    l.foldlM (mergeOne nreg size) st = some st' → st.2 ≤ st'.2 ∧
      (st'.2 = st.2 → st' = st ∧ ∀ i ∈ l, mergeOne nreg size st i = some st) := by
  induction l with
  | nil =>
    intro st st' h
    have : st = st' := by simpa using h
    subst this
    exact ⟨le_rfl, fun _ => ⟨rfl, fun i hi => absurd hi (by simp)⟩⟩
  | cons i l ih =>
    intro st st' h
    rw [List.foldlM_cons] at h
    cases hb : mergeOne nreg size st i with
    | none => rw [hb] at h; exact absurd h (by simp)
    | some s1 =>
      rw [hb] at h
      obtain ⟨i1, i2⟩ := ih s1 st' h
      rcases mergeOne_count hb with he | he
      · subst he
        refine ⟨i1, fun hs => ⟨(i2 hs).1, fun k hk => ?_⟩⟩
        rcases List.mem_cons.1 hk with rfl | hk
        · exact hb
        · exact (i2 hs).2 k hk
      · exact ⟨by omega, fun hs => by omega⟩

/-- The passes end with records that another pass leaves alone. -/
theorem mergeLoop_fix {nreg size : Nat} (fuel : Nat) : ∀ regs regs' : Nat → Region, mergeLoop nreg size fuel regs = some regs' →
    ∀ i < nreg, mergeOne nreg size (regs', 0) i = some (regs', 0) := by
  induction fuel with
  | zero => intro regs regs' h; rw [mergeLoop] at h; exact absurd h (by simp)
  | succ fuel ih =>
    intro regs regs' h i hi
    rw [mergeLoop] at h
    split at h
    · exact absurd h (by simp)
    · rename_i st hst
      split at h
      · rename_i h0
        obtain ⟨e1, e2⟩ := (mergePass_count _ _ _ hst).2 h0
        have : regs' = regs := by rw [← Option.some.inj h, e1]
        subst this
        exact e2 i (List.mem_range.2 hi)
      · exact ih _ _ h i hi

/-- **C174** When the passes have ended, a region that is to be merged and still has a partner is held back by its
smallest one: a partner of least size that is the region itself or does not list the region among its neighbours.
Partial: the region then stays although a larger partner may list it (`merge_complete_refuted`). -/
theorem merge_complete_partial {nreg size fuel : Nat} {regs regs' : Nat → Region} (hl : mergeLoop nreg size fuel regs = some regs')
    {i : Nat} (hi : i < nreg) (hw : ToMerge size (regs' i)) {e : Nat} (he : Partner regs' (regs' i) e) (hs : (regs' e).spanCount < 0xfffffff) :
    ∃ t, Partner regs' (regs' i) t ∧ (∀ e, Partner regs' (regs' i) e → (regs' t).spanCount ≤ (regs' e).spanCount) ∧
      ((regs' t).id = (regs' i).id ∨ (regs' i).id ∉ (regs' (regs' t).id).conns ∨ (regs' (regs' t).id).id ∉ (regs' i).conns) := by
  have hfix := mergeLoop_fix fuel regs regs' hl i hi
  unfold mergeOne at hfix
  dsimp only at hfix
  rw [if_neg] at hfix
  · split at hfix
    · exact absurd hfix (by simp)
    · rename_i b hb
      obtain ⟨-, h2, h3⟩ := bestFold_min _ _ _ (fun _ h => h) hb
      have hbe := h2 e he.near.1 he
      rcases h3 with h3 | ⟨t, ht, hp, h3⟩
      · rw [h3] at hbe
        dsimp only at hbe
        omega
      · refine ⟨t, hp, fun x hx => ?_, ?_⟩
        · have := h2 x hx.near.1 hx
          rw [h3] at this
          exact this
        · have hb2 : b.2 = (regs' t).id := by rw [h3]
          rw [hb2] at hfix
          by_cases hid : (regs' t).id = (regs' i).id
          · exact Or.inl hid
          · rw [if_neg hid] at hfix
            split at hfix
            · exact absurd hfix (by simp)
            · split at hfix
              · rename_i hm
                right
                by_contra hc
                push Not at hc
                have := (mergeTwo_spec (regs' (regs' t).id) (regs' i)).1.2 hc
                rw [hm] at this
                exact absurd this (by simp)
              · exact absurd (congrArg (fun o => o.map Prod.snd) hfix) (by simp)
  · rintro (h | h | h | h | h)
    · exact hw.live.1 h
    · have := isBorder_true.1 h
      have := hw.live.2.1
      omega
    · rw [hw.flat] at h; exact absurd h (by simp)
    · exact hw.live.2.2 h
    · rcases hw.small with h' | h'
      · omega
      · refine h' ?_
        have := h.2
        unfold Region.atBorder at this
        rw [List.any_eq_true] at this
        obtain ⟨x, hx, h0⟩ := this
        rwa [eq_of_beq h0] at hx

/-- **C174** Merging is complete where neighbours list each other: after `mergeAndFilterRegions` has dropped the small
regions of a partition, the passes end, and no region that is to be merged and is listed by its partners has a partner
left. -/
theorem merge_complete {c : Chf} (hc : c.Wf) {bs id : Nat} {src : Nat → Nat} (hp : Partitioned c bs id src) (hid : id < 0x8000)
    (minArea size : Nat) :
    ∃ regs1 regs, dropSmall (id + 1) minArea (records c src (id + 1)) = some regs1 ∧ mergeLoop (id + 1) size (id + 1 + 1) regs1 = some regs ∧
      ∀ i < id + 1, ToMerge size (regs i) → (∀ e, Partner regs (regs i) e → e ≠ i ∧ i ∈ (regs e).conns) →
        ∀ e, (regs e).spanCount < 0xfffffff → ¬ Partner regs (regs i) e := by
  have hn : id + 1 ≤ 0x8000 := hid
  obtain ⟨regs1, d1, d2, d3⟩ := dropSmall_spec (minArea := minArea) (fresh_records hc hp hid)
  have h1 := start_inv hc hp hid d2
  have hlive : liveIds (id + 1) regs1 < id + 1 + 1 := by
    unfold liveIds
    refine lt_of_le_of_lt (List.length_filter_le _ _) ?_
    rw [List.length_range]
    omega
  obtain ⟨regs2, m1, m2, m3, m4⟩ := mergeLoop_inv hn size (id + 1 + 1) regs1 h1 hlive
  refine ⟨regs1, regs2, d1, m1, ?_⟩
  intro i hi hw hall e hs he
  obtain ⟨t, ht, -, h3⟩ := merge_complete_partial m1 hi hw he hs
  have hii := m2.own i hi hw.live.2.2
  obtain ⟨hti, hlist⟩ := hall t ht
  have hi0 : i ≠ 0 := by rw [← hii]; exact hw.live.1
  have ht0 : t ≠ 0 := by
    rintro rfl
    exact ht.live.1 m2.zero
  have htt : (regs2 t).id = t :=
    ((m2.link i hi hii hi0 t ht.near.1 ht0 (isBorder_false.2 ht.near.2)).resolve_left ht.live.1).1
  rw [htt, hii, htt] at h3
  rcases h3 with h3 | h3 | h3
  · exact hti h3
  · exact h3 hlist
  · exact h3 ht.near.1

/-! ## Cases -/

/-- The hypotheses of `merge_complete` meet: the partition of `tiny`. -/
example : ∃ id src, Partitioned tiny 0 id src ∧ id < 0x8000 := by
  obtain ⟨m, reg, h⟩ := monotone_runs_partial tiny_wf 0 2 0 (by decide) (by
    intro y _ hy
    have hy' : y < 3 := hy
    have : y = 0 ∨ y = 1 ∨ y = 2 := by omega
    rcases this with rfl | rfl | rfl <;> decide)
  obtain ⟨id, src, hpt, hp, -⟩ := monotone_from tiny_wf (by decide) h
  have h9 := partition_id_le tiny_wf hpt
  have hn : tiny.n = 9 := rfl
  exact ⟨id, src, hp, by omega⟩

/-- Three regions in a row: the passes merge all of them. -/
def rowRegs : Nat → Region := fun k =>
  if k = 1 then ⟨4, 1, 63, false, [2], []⟩ else if k = 2 then ⟨5, 2, 63, false, [1, 3], []⟩
  else if k = 3 then ⟨6, 3, 63, false, [2], []⟩ else ⟨0, 0, 0, false, [], []⟩

example : ((mergeLoop 4 20 5 rowRegs).map fun r => ((r 1).id, (r 2).id, (r 3).id)) = some (3, 3, 3) := by decide +kernel

/-- Region 1 lists 2 and 3; 2, the smaller one, does not list 1 (its own walk has gone along another border), 3 does. -/
def heldRegs : Nat → Region := fun k =>
  if k = 1 then ⟨4, 1, 63, false, [2, 3], []⟩ else if k = 2 then ⟨5, 2, 63, false, [0], []⟩
  else if k = 3 then ⟨6, 3, 63, false, [1, 0], []⟩ else ⟨0, 0, 0, false, [], []⟩

theorem held_stays : (mergeLoop 4 2 5 heldRegs).map (fun r => (List.range 4).map r) = some ((List.range 4).map heldRegs) := by decide +kernel

/-- **C174** Merging is not complete where a neighbour does not list the region: region 1 is to be merged, region 3
is a partner that lists it, and the passes end without the merge. -/
theorem merge_complete_refuted : ∃ regs', mergeLoop 4 2 5 heldRegs = some regs' ∧ ToMerge 2 (regs' 1) ∧ Partner regs' (regs' 1) 3 ∧
    1 ∈ (regs' 3).conns ∧ (regs' 3).spanCount < 0xfffffff := by
  cases h : mergeLoop 4 2 5 heldRegs with
  | none => have := held_stays; rw [h] at this; exact absurd this (by simp)
  | some r =>
    have := held_stays
    rw [h] at this
    simp only [Option.map_some, Option.some.injEq] at this
    have h1 : r 1 = heldRegs 1 := List.map_inj_left.1 this 1 (by decide)
    have h3 : r 3 = heldRegs 3 := List.map_inj_left.1 this 3 (by decide)
    refine ⟨r, rfl, ?_, ?_, ?_, ?_⟩
    · rw [h1]; exact ⟨by decide, by decide, by decide⟩
    · rw [h1]
      exact ⟨by decide, by rw [h3]; decide, by rw [h3]; decide, by rw [h3]; decide, by rw [h3]; decide, by rw [h3]; decide⟩
    · rw [h3]; decide
    · rw [h3]; decide

/-- The hypotheses of `merge_complete_partial` meet. -/
example : ToMerge 2 (heldRegs 1) ∧ Partner heldRegs (heldRegs 1) 3 :=
  ⟨⟨by decide, by decide, by decide⟩, ⟨by decide, by decide, by decide, by decide, by decide, by decide⟩⟩

end Verif.Recast
