/-
`BuildRegionsMonotone` as a whole: the theorems about the regions it gives to the spans.
-/
import Verif.Recast.RegionMerge

namespace Verif.Recast
open Verif Verif.Detour

set_option linter.unusedSimpArgs false
set_option linter.unusedVariables false

/-! ## The number of ids -/

theorem name_fold_le (prev : Nat → Nat) (l : List Nat) : ∀ st : Nat × (Nat → Sweep), (l.foldl (nameSweeps prev) st).1 ≤ st.1 + l.length := by
  induction l with
  | nil => intro st; simp
  | cons i l ih =>
    intro st
    rw [List.foldl_cons, List.length_cons]
    have h1 : (nameSweeps prev st i).1 ≤ st.1 + 1 := by
      unfold nameSweeps
      dsimp only
      split
      · show st.1 ≤ st.1 + 1; omega
      · exact le_rfl
    have := ih (nameSweeps prev st i)
    omega

theorem sweep_rid_le (c : Chf) (ns : Nat) (l : List ((Nat × Nat) × Nat)) : ∀ st st' : RowSt,
    l.foldlM (sweepOne c ns) st = some st' → st'.rid ≤ st.rid + l.length := by
  induction l with
  | nil =>
    intro st st' h
    simp only [List.foldlM_nil, Option.pure_def, Option.some.injEq] at h
    subst h
    simp
  | cons v l ih =>
    intro st st' h
    rw [List.foldlM_cons] at h
    cases h1 : sweepOne c ns st v with
    | none => rw [h1] at h; exact absurd h (by simp)
    | some st1 =>
      rw [h1] at h
      have hst : st1.rid ≤ st.rid + 1 := by
        unfold sweepOne at h1
        split at h1
        · simp only [Option.some.injEq] at h1; subst h1; omega
        · dsimp only at h1
          split at h1
          · simp only [Option.some.injEq] at h1
            subst h1
            dsimp only
            rw [lookUp_rid]
            omega
          · split at h1
            · simp only [Option.some.injEq] at h1
              subst h1
              dsimp only
              rw [lookUp_rid]
            · exact absurd h1 (by simp)
      have := ih st1 st' h
      rw [List.length_cons]
      omega

theorem sweepRow_id_le {c : Chf} {ns bs : Nat} {st st' : Nat × (Nat → Nat)} {y : Nat} (h : sweepRow c ns bs st y = some st') :
    st'.1 ≤ st.1 + (c.spansOf (rowCells bs (c.w - bs) y)).length := by
  unfold sweepRow at h
  dsimp only at h
  rw [Option.map_eq_some_iff] at h
  obtain ⟨r, hr, rfl⟩ := h
  have h1 := sweep_rid_le c ns _ _ r hr
  have h2 := name_fold_le r.prev (List.range' 1 (r.rid - 1)) (st.1, r.sweeps)
  rw [List.length_range'] at h2
  dsimp only at h1 h2 ⊢
  omega

theorem rows_id_le {c : Chf} {ns bs : Nat} (ys : List Nat) : ∀ st st' : Nat × (Nat → Nat), ys.foldlM (sweepRow c ns bs) st = some st' →
    st'.1 ≤ st.1 + (c.spansOf (ys.flatMap fun y => rowCells bs (c.w - bs) y)).length := by
  induction ys with
  | nil =>
    intro st st' h
    simp only [List.foldlM_nil, Option.pure_def, Option.some.injEq] at h
    subst h
    simp
  | cons y ys ih =>
    intro st st' h
    rw [List.foldlM_cons] at h
    cases h1 : sweepRow c ns bs st y with
    | none => rw [h1] at h; exact absurd h (by simp)
    | some st1 =>
      rw [h1] at h
      have g1 := ih st1 st' h
      have g2 := sweepRow_id_le h1
      have g3 : (c.spansOf ((y :: ys).flatMap fun y => rowCells bs (c.w - bs) y)).length =
          (c.spansOf (rowCells bs (c.w - bs) y)).length + (c.spansOf (ys.flatMap fun y => rowCells bs (c.w - bs) y)).length := by
        unfold Chf.spansOf
        rw [List.flatMap_cons, List.flatMap_append, List.length_append]
      omega

/-- The partition never needs more ids than there are spans, besides five. -/
theorem partition_id_le {c : Chf} (hc : c.Wf) {bs id : Nat} {src : Nat → Nat} (h : partition c bs = some (id, src)) : id ≤ c.n + 5 := by
  unfold partition at h
  have h1 := rows_id_le _ _ _ h
  have h2 : (paintBorder c bs).1 ≤ 5 := by
    unfold paintBorder
    split
    · exact le_rfl
    · show 1 ≤ 5; omega
  have hcell : ∀ p ∈ (List.range' bs (c.h - bs - bs)).flatMap (fun y => rowCells bs (c.w - bs) y), p.1 < c.w ∧ p.2 < c.h := by
    intro p hp
    obtain ⟨y, hy, hp⟩ := List.mem_flatMap.1 hp
    have := (mem_rowCells _ _ _ p).1 hp
    have := List.mem_range'_1.1 hy
    omega
  have hpw : ((List.range' bs (c.h - bs - bs)).flatMap (fun y => rowCells bs (c.w - bs) y)).Pairwise fun p q => p ≠ q := by
    rw [List.pairwise_flatMap]
    constructor
    · intro y _
      unfold rowCells
      rw [List.pairwise_map]
      refine List.Pairwise.imp ?_ (List.nodup_range' (step := 1))
      intro a b hab he
      exact hab (Prod.mk.inj he).1
    · refine List.Pairwise.imp ?_ (List.nodup_range' (step := 1))
      intro y y' hne p hp q hq he
      have h1 := ((mem_rowCells _ _ _ p).1 hp).2.2
      have h2 := ((mem_rowCells _ _ _ q).1 hq).2.2
      exact hne (by rw [← h1, ← h2, he])
  have h3 := (c.spansOf_pairwise hc _ (fun p q => p ≠ q) hcell hpw (fun p h => h rfl)).imp (S := fun u v => u.2 ≠ v.2) fun h => h.1
  have h4 : ((c.spansOf ((List.range' bs (c.h - bs - bs)).flatMap fun y => rowCells bs (c.w - bs) y)).map Prod.snd).length ≤ c.n := by
    refine length_le_of_nodup (by unfold List.Nodup; rw [List.pairwise_map]; exact h3) ?_
    intro i hi
    obtain ⟨v, hv, rfl⟩ := List.mem_map.1 hi
    exact hc.lt _ _ _ ((c.mem_spansOf _ _ hcell).1 hv).2
  rw [List.length_map] at h4
  have h5 : id ≤ (paintBorder c bs).1 + _ := h1
  omega

theorem monotone_filtered {c : Chf} (hc : c.Wf) {bs minArea size id : Nat} {src : Nat → Nat} (hn : c.n + 5 < 0x8000)
    (h : partition c bs = some (id, src)) : ∃ m reg, buildMonotone c bs minArea size = some (m, reg) ∧
      Partitioned c bs id src ∧ Filtered c bs minArea id src m reg := by
  have hid := partition_id_le hc h
  have hp := partition_pieces hc bs h (by omega)
  obtain ⟨m, reg, h1, h2⟩ := filter_spec hc hp (by omega) minArea size
  refine ⟨m, reg, ?_, hp, h2⟩
  unfold buildMonotone
  rw [h]
  exact h1

theorem monotone_from {c : Chf} (hc : c.Wf) {bs minArea size m : Nat} {reg : Nat → Nat} (hn : c.n + 5 < 0x8000)
    (h : buildMonotone c bs minArea size = some (m, reg)) :
    ∃ id src, partition c bs = some (id, src) ∧ Partitioned c bs id src ∧ Filtered c bs minArea id src m reg := by
  cases hpt : partition c bs with
  | none => unfold buildMonotone at h; rw [hpt] at h; exact absurd h (by simp)
  | some p =>
    obtain ⟨id, src⟩ := p
    obtain ⟨m', reg', h1, h2, h3⟩ := monotone_filtered (minArea := minArea) (size := size) hc hn hpt
    rw [h] at h1
    simp only [Option.some.injEq, Prod.mk.injEq] at h1
    obtain ⟨rfl, rfl⟩ := h1
    exact ⟨id, src, rfl, h2, h3⟩

/-! ## Theorems -/

/-- **C52** (partial). `BuildRegionsMonotone` completes, without panic and with finitely many passes, if every row has fewer
walkable spans than the grid has rows or columns and there are fewer than 0x7ffb spans. Missing: the other fields, see
`partition_panics_refuted`. -/
theorem monotone_runs_partial {c : Chf} (hc : c.Wf) (bs minArea size : Nat) (hn : c.n + 5 < 0x8000)
    (hrow : ∀ y, bs ≤ y → y + bs < c.h →
      ((c.spansOf (rowCells bs (c.w - bs) y)).filter fun v => c.area v.2 ≠ 0).length < max c.w c.h) :
    ∃ m reg, buildMonotone c bs minArea size = some (m, reg) := by
  obtain ⟨id, src, h⟩ := partition_runs_partial c bs hrow
  obtain ⟨m, reg, h1, -⟩ := monotone_filtered (minArea := minArea) (size := size) hc hn h
  exact ⟨m, reg, h1⟩

/-- The filter itself completes on every partition: only the sweeps can make `BuildRegionsMonotone` fail. -/
theorem monotone_fails_iff {c : Chf} (hc : c.Wf) (bs minArea size : Nat) (hn : c.n + 5 < 0x8000) :
    buildMonotone c bs minArea size = none ↔ partition c bs = none := by
  constructor
  · intro h
    cases hpt : partition c bs with
    | none => rfl
    | some p =>
      obtain ⟨id, src⟩ := p
      obtain ⟨m', reg', h1, -⟩ := monotone_filtered (minArea := minArea) (size := size) hc hn hpt
      rw [h] at h1
      exact absurd h1 (by simp)
  · intro h
    unfold buildMonotone
    rw [h]

/-- **C95** Whatever the limits for removing and merging: unwalkable spans are in no region, walkable spans of the border in
a border region, spans of the inside in none or in one of the regions up to `MaxRegions`; and each region is one connected
piece of one area type. -/
theorem monotone_regions {c : Chf} (hc : c.Wf) {bs minArea size m : Nat} {reg : Nat → Nat} (hn : c.n + 5 < 0x8000)
    (h : buildMonotone c bs minArea size = some (m, reg)) :
    (∀ i < c.n, c.area i = 0 → reg i = 0) ∧
    (∀ i < c.n, c.area i ≠ 0 → ¬ Inner c bs i → 0x8000 ≤ reg i) ∧
    (∀ i < c.n, Inner c bs i → reg i ≤ m) ∧ m < 0x8000 ∧
    ∀ r, 0 < r → r < 0x8000 → OnePiece c fun i => i < c.n ∧ reg i = r := by
  obtain ⟨id, src, hpt, hp, hf⟩ := monotone_from hc hn h
  have hid := partition_id_le hc hpt
  refine ⟨?_, ?_, ?_, lt_of_le_of_lt hf.max (by omega), hf.piece⟩
  · intro i hi ha
    exact hf.null i hi (hp.null i hi ha)
  · intro i hi ha hin
    have := (hp.outer i hi hin ha).1
    rw [hf.border i hi this]
    exact this
  · intro i hi hin
    refine hf.le i hi ?_
    by_cases ha : c.area i = 0
    · rw [hp.null i hi ha]; omega
    · have := hp.inner i hin ha
      omega

/-- **C96** A walkable span of the inside loses its region only if its region in the partition had fewer than
`minRegionArea` spans; in particular never if `minRegionArea` is 0. -/
theorem monotone_keeps {c : Chf} (hc : c.Wf) {bs minArea size m : Nat} {reg : Nat → Nat} (hn : c.n + 5 < 0x8000)
    (h : buildMonotone c bs minArea size = some (m, reg)) :
    ∃ id src, partition c bs = some (id, src) ∧ (∀ i < c.n, Inner c bs i → c.area i ≠ 0 → reg i = 0 →
      ((List.range c.n).filter fun j => decide (src j = src i)).length < minArea) ∧
    (minArea = 0 → ∀ i < c.n, Inner c bs i → c.area i ≠ 0 → 0 < reg i) := by
  obtain ⟨id, src, hpt, hp, hf⟩ := monotone_from hc hn h
  refine ⟨id, src, hpt, ?_, ?_⟩
  · intro i hi hin ha h0
    exact hf.kept i hi (by have := hp.inner i hin ha; omega) h0
  · intro hm i hi hin ha
    by_contra h0
    have := hf.kept i hi (by have := hp.inner i hin ha; omega) (by omega)
    omega

/-- **C96** A walkable span is dropped if the spans that can be reached from it through walkable spans all lie in the inside
and are fewer than `minRegionArea`. -/
theorem monotone_drops_islands {c : Chf} (hc : c.Wf) {bs minArea size m : Nat} {reg : Nat → Nat} (hn : c.n + 5 < 0x8000)
    (h : buildMonotone c bs minArea size = some (m, reg)) (i : Nat) (l : List Nat) (hi : Walk c i) (hl : Enclosed c bs i l)
    (hlen : l.length < minArea) : reg i = 0 := by
  obtain ⟨id, src, hpt, hp, hf⟩ := monotone_from hc hn h
  exact hf.isle i l hi hl hlen

/-- **C97** Merging puts no two spans of one column into one region: if a region has two spans of one column, it is one
region of the partition, unmerged. -/
theorem monotone_no_overlap {c : Chf} (hc : c.Wf) {bs minArea size m : Nat} {reg : Nat → Nat} (hn : c.n + 5 < 0x8000)
    (h : buildMonotone c bs minArea size = some (m, reg)) :
    ∃ id src, partition c bs = some (id, src) ∧
      (∀ i < c.n, ∀ j < c.n, src i = src j → reg i = reg j) ∧
      ∀ i < c.n, ∀ j < c.n, Stacked c i j → 0 < reg i → reg i < 0x8000 → reg i = reg j →
        ∀ k < c.n, reg k = reg i → src k = src i := by
  obtain ⟨id, src, hpt, hp, hf⟩ := monotone_from hc hn h
  exact ⟨id, src, hpt, hf.coarse, hf.column⟩

/-- **C51** (refuted). The largest id, `MaxRegions`, is never the region of a span: the filter counts one id more than the
partition has used. -/
theorem maxRegions_unused_refuted {c : Chf} (hc : c.Wf) {bs minArea size m : Nat} {reg : Nat → Nat} (hn : c.n + 5 < 0x8000)
    (h : buildMonotone c bs minArea size = some (m, reg)) : ∀ i < c.n, 0 < reg i → reg i ≠ m := by
  obtain ⟨id, src, hpt, hp, hf⟩ := monotone_from hc hn h
  intro i hi h0 he
  have hid := partition_id_le hc hpt
  have hm := hf.max
  have := hf.unused i hi h0 (by omega)
  omega

/-! ## An example -/

/-- A field of 3 x 3 cells with one span each, of which only the middle one is walkable. -/
def tiny : Chf := ⟨3, 3, 9, fun i => ⟨i, 1⟩, fun _ => 0xffffff#32, fun i => if i = 4 then 63 else 0⟩

theorem tiny_at (x y i : Nat) : tiny.At x y i ↔ x < 3 ∧ y < 3 ∧ i = x + y * 3 := by
  show (x < 3 ∧ y < 3 ∧ x + y * 3 ≤ i ∧ i < x + y * 3 + 1) ↔ _
  omega

theorem tiny_wf : tiny.Wf := by
  refine ⟨?_, ?_, ?_, ?_⟩
  · intro x y i h
    rw [tiny_at] at h
    show i < 9
    omega
  · intro i hi
    have hi' : i < 9 := hi
    exact ⟨i % 3, i / 3, (tiny_at _ _ _).2 ⟨Nat.mod_lt _ (by decide), by omega, by omega⟩⟩
  · intro x y x' y' i h h'
    rw [tiny_at] at h h'
    omega
  · intro x y i h d hd hcon
    have : ∀ d < 4, getCon 0xffffff#32 d = notConnected := by decide
    exact absurd (this d hd) hcon

/-- The hypotheses of the theorems above are met by `tiny`, and its island of one span is dropped for `minRegionArea` 2 and
kept for 0. -/
example : (∃ m reg, buildMonotone tiny 0 2 0 = some (m, reg) ∧ reg 4 = 0) ∧
    ∃ m reg, buildMonotone tiny 0 0 0 = some (m, reg) ∧ 0 < reg 4 ∧ reg 4 < m := by
  have hrow : ∀ y, 0 ≤ y → y + 0 < tiny.h →
      ((tiny.spansOf (rowCells 0 (tiny.w - 0) y)).filter fun v => tiny.area v.2 ≠ 0).length < max tiny.w tiny.h := by
    intro y _ hy
    have hy' : y < 3 := hy
    have : y = 0 ∨ y = 1 ∨ y = 2 := by omega
    rcases this with rfl | rfl | rfl <;> decide
  have hin : Inner tiny 0 4 := ⟨1, 1, by decide, by decide, by decide, by decide, (tiny_at _ _ _).2 ⟨by decide, by decide, rfl⟩⟩
  constructor
  · obtain ⟨m, reg, h⟩ := monotone_runs_partial tiny_wf 0 2 0 (by decide) hrow
    refine ⟨m, reg, h, monotone_drops_islands tiny_wf (by decide) h 4 [4] ⟨by decide, by decide⟩ ?_ (by decide)⟩
    intro j hj
    have hj4 : j = 4 := by
      induction hj with
      | refl => rfl
      | tail _ hs _ =>
        have := hs.2.1.2
        by_contra hne
        exact this (by show (if _ = 4 then 63 else 0) = 0; rw [if_neg hne])
    subst hj4
    exact ⟨by simp, hin⟩
  · obtain ⟨m, reg, h⟩ := monotone_runs_partial tiny_wf 0 0 0 (by decide) hrow
    obtain ⟨id, src, -, -, hk⟩ := monotone_keeps tiny_wf (by decide) h
    have h0 := hk rfl 4 (by decide) hin (by decide)
    have hle := (monotone_regions tiny_wf (by decide) h).2.2.1 4 (by decide) hin
    have hne := maxRegions_unused_refuted tiny_wf (by decide) h 4 (by decide) h0
    exact ⟨m, reg, h, h0, by omega⟩

end Verif.Recast
