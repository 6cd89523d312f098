/-
Filtering and merging of regions: `walkContour`, `isSolidEdge`, `mergeAndFilterRegions`
(recast/region.go:804-1149) and the end of `BuildRegionsMonotone` (recast/region.go:155-172).

Simplifications: ids and counters are unbounded naturals (the theorems assume fewer than 0x8000 ids, where no
uint16 wraps and no id has the border bit); `minRegionArea` and `mergeRegionSize` are naturals, a negative value
acts like 0 for the first. `ConnectsToBorder`, `YMin`, `YMax` and the list of overlapping regions, which the
caller ignores, are left out. The pointers `target` and `reg` of a merge are different records: `Merging` shows
that they have different indices.
-/
import Verif.Recast.Monotone
import Verif.Recast.RegionList

namespace Verif.Recast
open Verif Verif.Detour

set_option linter.unusedSimpArgs false
set_option linter.unusedVariables false

/-! ## Model: region records -/

/-- The region across edge `d` of a span, 0 if there is no neighbour (recast/region.go:806-813, 827-833, 843-849). -/
def edgeReg (c : Chf) (src : Nat → Nat) (v : (Nat × Nat) × Nat) (d : Nat) : Nat :=
  match c.nb v.1.1 v.1.2 v.2 d with
  | none => 0
  | some w => src w.2

/-- `isSolidEdge` (recast/region.go:804-818). -/
def solid (c : Chf) (src : Nat → Nat) (v : (Nat × Nat) × Nat) (d : Nat) : Bool :=
  decide (edgeReg c src v d ≠ src v.2)

/-- The loop of `walkContour` (recast/region.go:836-876). The flag is `false` for the early return of line 866. -/
def walk (c : Chf) (src : Nat → Nat) (start startDir : Nat) :
    Nat → (Nat × Nat) × Nat → Nat → Nat → List Nat → Bool × List Nat
  | 0, _, _, _, cont => (true, cont)
  | fuel + 1, v, d, cur, cont =>
    if solid c src v d then
      let r := edgeReg c src v d
      let cont := if r ≠ cur then cont ++ [r] else cont
      let d := (d + 1) % 4
      if start = v.2 ∧ startDir = d then (true, cont) else walk c src start startDir fuel v d r cont
    else
      match c.nb v.1.1 v.1.2 v.2 d with
      | none => (false, cont)
      | some w =>
        let d := (d + 3) % 4
        if start = w.2 ∧ startDir = d then (true, cont) else walk c src start startDir fuel w d cur cont

/-- The loop that removes adjacent duplicates (recast/region.go:880-889). As many rounds as there are entries suffice, each
round removes an entry or advances. -/
def dedupAll : Nat → Nat → List Nat → List Nat
  | 0, _, l => l
  | fuel + 1, i, l =>
    if i < l.length then
      if l[i]? = l[(i + 1) % l.length]? then dedupAll fuel i (l.eraseIdx i) else dedupAll fuel (i + 1) l
    else l

/-- `walkContour` (recast/region.go:820-891), from a span and direction with an empty list. -/
def walkContour (c : Chf) (src : Nat → Nat) (v : (Nat × Nat) × Nat) (d : Nat) : List Nat :=
  let r := walk c src v.2 d 39998 v d (edgeReg c src v d) [edgeReg c src v d]
  if r.1 = true ∧ 1 < r.2.length then dedupAll r.2.length 0 r.2 else r.2

/-- `newRegion` (recast/region.go:652-664). -/
def newRegion (i : Nat) : Region := ⟨0, i, 0, false, [], []⟩

/-- The floors of one span (recast/region.go:926-938). -/
def addFloors (c : Chf) (src : Nat → Nat) (nreg : Nat) (v : (Nat × Nat) × Nat) (reg : Region) : Region :=
  (c.spansOf [v.1]).foldl (fun reg w =>
    if v.2 = w.2 ∨ src w.2 = 0 ∨ nreg ≤ src w.2 then reg
    else { reg with overlap := reg.overlap || decide (src w.2 = src v.2), floors := addFloor reg.floors (src w.2) }) reg

/-- One span of the loop that fills the region records (recast/region.go:917-962). -/
def record (c : Chf) (src : Nat → Nat) (nreg : Nat) (regs : Nat → Region) (v : (Nat × Nat) × Nat) : Nat → Region :=
  let r := src v.2
  if r = 0 ∨ nreg ≤ r then regs
  else
    let reg := regs r
    let reg := addFloors c src nreg v { reg with spanCount := reg.spanCount + 1 }
    if reg.conns ≠ [] then upd regs r reg
    else
      let reg := { reg with areaType := c.area v.2 }
      match (List.range 4).find? (solid c src v) with
      | none => upd regs r reg
      | some d => upd regs r { reg with conns := walkContour c src v d }

/-- The region records (recast/region.go:904-965). -/
def records (c : Chf) (src : Nat → Nat) (nreg : Nat) : Nat → Region :=
  (c.spansOf (cellOrder c.w c.h)).foldl (record c src nreg) newRegion

/-! ## Model: dropping small groups of regions -/

/-- `stack`, the `Visited` flags and `connectsToBorder`; the top of the stack comes first. -/
structure Visit where
  stack : List Nat
  visited : Nat → Bool
  border : Bool

/-- One neighbour of the region taken from the stack (recast/region.go:1001-1016). `none` is an index panic. -/
def visitConn (nreg : Nat) (regs : Nat → Region) (s : Visit) (e : Nat) : Option Visit :=
  if isBorder e = true then some { s with border := true }
  else if nreg ≤ e then none
  else if s.visited e = true then some s
  else if (regs e).id = 0 ∨ isBorder (regs e).id = true then some s
  else some { s with stack := (regs e).id :: s.stack, visited := upd s.visited e true }

/-- The loop over the stack (recast/region.go:989-1017): the end state, the sum of span counts and `trace`. `none` is an
index panic, or out of fuel. -/
def flood (nreg : Nat) (regs : Nat → Region) : Nat → Visit → Nat → List Nat → Option (Visit × Nat × List Nat)
  | 0, _, _, _ => none
  | fuel + 1, s, cnt, tr =>
    match s.stack with
    | [] => some (s, cnt, tr)
    | r :: st =>
      if nreg ≤ r then none
      else
        match (regs r).conns.foldlM (visitConn nreg regs) { s with stack := st } with
        | none => none
        | some s' => flood nreg regs fuel s' (cnt + (regs r).spanCount) (tr ++ [r])

/-- One region of the loop that removes small groups (recast/region.go:970-1031). -/
def dropOne (nreg minArea : Nat) (st : (Nat → Region) × (Nat → Bool)) (i : Nat) : Option ((Nat → Region) × (Nat → Bool)) :=
  let reg := st.1 i
  if reg.id = 0 ∨ isBorder reg.id = true ∨ reg.spanCount = 0 ∨ st.2 i = true then some st
  else
    (flood nreg st.1 (nreg + 1) ⟨[i], upd st.2 i true, false⟩ 0 []).map fun r =>
      (if r.2.1 < minArea ∧ r.1.border = false then
        fun k => if k ∈ r.2.2 then { st.1 k with spanCount := 0, id := 0 } else st.1 k
      else st.1, r.1.visited)

/-- The removal of small groups (recast/region.go:967-1031). -/
def dropSmall (nreg minArea : Nat) (regs : Nat → Region) : Option (Nat → Region) :=
  ((List.range nreg).foldlM (dropOne nreg minArea) (regs, fun _ => false)).map Prod.fst

/-! ## Model: merging -/

/-- One neighbour in the search for the smallest neighbour region (recast/region.go:1059-1072): `smallest` and `mergeID`. -/
def bestOne (nreg : Nat) (regs : Nat → Region) (reg : Region) (b : Nat × Nat) (e : Nat) : Option (Nat × Nat) :=
  if isBorder e = true then some b
  else if nreg ≤ e then none
  else
    let m := regs e
    if m.id = 0 ∨ isBorder m.id = true ∨ m.overlap = true then some b
    else if m.spanCount < b.1 ∧ reg.canMerge m = true ∧ m.canMerge reg = true then some (m.spanCount, m.id)
    else some b

/-- The fix-up of one record after a merge (recast/region.go:1083-1096). -/
def fixup (old new : Nat) (r : Region) : Region :=
  if r.id = 0 ∨ isBorder r.id = true then r
  else ({ r with id := if r.id = old then new else r.id } : Region).replace old new

/-- One region of a merging pass (recast/region.go:1036-1099): the records and `mergeCount`. -/
def mergeOne (nreg size : Nat) (st : (Nat → Region) × Nat) (i : Nat) : Option ((Nat → Region) × Nat) :=
  let reg := st.1 i
  if reg.id = 0 ∨ isBorder reg.id = true ∨ reg.overlap = true ∨ reg.spanCount = 0 ∨
      (size < reg.spanCount ∧ reg.atBorder = true) then some st
  else
    match reg.conns.foldlM (bestOne nreg st.1 reg) (0xfffffff, reg.id) with
    | none => none
    | some b =>
      if b.2 = reg.id then some st
      else if nreg ≤ b.2 then none
      else
        match mergeTwo (st.1 b.2) reg with
        | none => some st
        | some tr =>
          let regs := upd (upd st.1 b.2 tr.1) i tr.2
          some (fun k => if k < nreg then fixup reg.id b.2 (regs k) else regs k, st.2 + 1)

/-- The passes, until one merges nothing (recast/region.go:1033-1103); `none` is a panic, or out of fuel. -/
def mergeLoop (nreg size : Nat) : Nat → (Nat → Region) → Option (Nat → Region)
  | 0, _ => none
  | fuel + 1, regs =>
    match (List.range nreg).foldlM (mergeOne nreg size) (regs, 0) with
    | none => none
    | some st => if st.2 = 0 then some st.1 else mergeLoop nreg size fuel st.1

/-! ## Model: compressing ids -/

/-- `regIDGen`, the ids and the `Remap` flags. -/
structure Comp where
  gen : Nat
  ids : Nat → Nat
  remap : Nat → Bool

/-- One region of the compression (recast/region.go:1119-1131). -/
def compressOne (nreg : Nat) (s : Comp) (i : Nat) : Comp :=
  if s.remap i = false then s
  else
    let old := s.ids i
    let hit := fun j => i ≤ j ∧ j < nreg ∧ s.ids j = old
    ⟨s.gen + 1, fun j => if hit j then s.gen + 1 else s.ids j, fun j => if hit j then false else s.remap j⟩

/-- The compression of ids (recast/region.go:1106-1132): `maxRegionID` and the new ids. -/
def compress (nreg : Nat) (ids : Nat → Nat) : Nat × (Nat → Nat) :=
  let s := (List.range nreg).foldl (compressOne nreg) ⟨0, ids, fun k => decide (ids k ≠ 0) && !isBorder (ids k)⟩
  (s.gen, s.ids)

/-- `mergeAndFilterRegions` (recast/region.go:893-1149) with `*maxRegionID = maxId`: the new `*maxRegionID` and
`srcReg`; `none` is a panic, or out of fuel. -/
def filterRegions (c : Chf) (minArea size maxId : Nat) (src : Nat → Nat) : Option (Nat × (Nat → Nat)) :=
  let nreg := maxId + 1
  match dropSmall nreg minArea (records c src nreg) with
  | none => none
  | some regs =>
    match mergeLoop nreg size (nreg + 1) regs with
    | none => none
    | some regs =>
      let cp := compress nreg fun k => (regs k).id
      if (List.range c.n).all fun i => isBorder (src i) || decide (src i < nreg) then
        some (cp.1, fun i => if isBorder (src i) = true then src i else cp.2 (src i))
      else none

/-- `BuildRegionsMonotone` (recast/region.go:40-172): `MaxRegions` and the regions of the spans. -/
def buildMonotone (c : Chf) (bs minArea size : Nat) : Option (Nat × (Nat → Nat)) :=
  match partition c bs with
  | none => none
  | some p => filterRegions c minArea size p.1 p.2

/-! ## Compressing ids -/

/-- An id table in which every id in use is the id of its own record. -/
structure Settled (nreg : Nat) (ids : Nat → Nat) : Prop where
  zero : ids 0 = 0
  lt : ∀ k < nreg, ids k < nreg
  self : ∀ k < nreg, ids (ids k) = ids k

structure CompInv (nreg i : Nat) (ids : Nat → Nat) (s : Comp) : Prop where
  gen : s.gen ≤ i - 1
  todo : ∀ k < nreg, s.remap k = true ↔ ids k ≠ 0 ∧ ∀ j < i, ids j ≠ ids k
  same : ∀ k, s.remap k = true → s.ids k = ids k
  zero : ∀ k < nreg, ids k = 0 → s.ids k = 0
  done : ∀ k < nreg, ids k ≠ 0 → s.remap k = false → 0 < s.ids k ∧ s.ids k ≤ s.gen
  onto : ∀ r, 0 < r → r ≤ s.gen → ∃ k < nreg, s.remap k = false ∧ s.ids k = r
  eqv : ∀ k < nreg, ∀ l < nreg, ids k ≠ 0 → ids l ≠ 0 → s.remap k = false → s.remap l = false → (s.ids k = s.ids l ↔ ids k = ids l)

theorem compressOne_inv {nreg : Nat} {ids : Nat → Nat} (hs : Settled nreg ids) {i : Nat} (hi : i < nreg) {s : Comp}
    (h : CompInv nreg i ids s) : CompInv nreg (i + 1) ids (compressOne nreg s i) := by
  unfold compressOne
  by_cases hr : s.remap i = false
  · rw [if_pos hr]
    have hold : ids i = 0 ∨ ∃ j < i, ids j = ids i := by
      by_contra hcon
      push Not at hcon
      have := (h.todo i hi).2 ⟨hcon.1, hcon.2⟩
      rw [hr] at this
      exact absurd this (by simp)
    refine ⟨le_trans h.gen (by omega), ?_, h.same, h.zero, h.done, h.onto, h.eqv⟩
    intro k hk
    rw [h.todo k hk]
    refine and_congr_right fun hk0 => ⟨fun hj j hj' => ?_, fun hj j hj' => hj j (by omega)⟩
    rcases Nat.lt_or_ge j i with hlt | hge
    · exact hj j hlt
    · have : j = i := by omega
      subst this
      rcases hold with h0 | ⟨m, hm, he⟩
      · rw [h0]; exact fun e => hk0 e.symm
      · rw [← he]; exact hj m hm
  · rw [if_neg hr]
    have hr' : s.remap i = true := by simpa using hr
    obtain ⟨hi0, hi1⟩ := (h.todo i hi).1 hr'
    have hold : s.ids i = ids i := h.same i hr'
    -- the class is not touched yet, and lies at `i` or beyond
    have hv : i ≤ ids i := by
      by_contra hlt
      exact hi1 (ids i) (by omega) (hs.self i hi)
    have hi_pos : 0 < i := by
      rcases Nat.eq_zero_or_pos i with rfl | h
      · exact absurd hs.zero hi0
      · exact h
    have hgen := h.gen
    have hit : ∀ j, (i ≤ j ∧ j < nreg ∧ s.ids j = s.ids i) ↔ (j < nreg ∧ ids j = ids i) := by
      intro j
      rw [hold]
      constructor
      · rintro ⟨h1, h2, h3⟩
        refine ⟨h2, ?_⟩
        by_cases hz : ids j = 0
        · rw [h.zero j h2 hz] at h3
          omega
        · by_cases hrj : s.remap j = true
          · rw [← h.same j hrj, h3]
          · have := (h.done j h2 hz (by simpa using hrj)).2
            omega
      · rintro ⟨h2, h3⟩
        have hij : i ≤ j := by
          by_contra hlt
          exact hi1 j (by omega) h3
        have hrj : s.remap j = true := (h.todo j h2).2 ⟨by rw [h3]; exact hi0, fun m hm => by rw [h3]; exact hi1 m hm⟩
        exact ⟨hij, h2, by rw [h.same j hrj, h3]⟩
    dsimp only
    simp only [hit]
    refine ⟨by show s.gen + 1 ≤ i + 1 - 1; omega, ?_, ?_, ?_, ?_, ?_, ?_⟩
    · intro k hk
      show (if k < nreg ∧ ids k = ids i then false else s.remap k) = true ↔ _
      by_cases he : ids k = ids i
      · rw [if_pos ⟨hk, he⟩]
        refine ⟨fun h => absurd h (by simp), fun h' => absurd he (Ne.symm (h'.2 i (by omega)))⟩
      · rw [if_neg fun h => he h.2, h.todo k hk]
        refine and_congr_right fun hk0 => ⟨fun hj j hj' => ?_, fun hj j hj' => hj j (by omega)⟩
        rcases Nat.lt_or_ge j i with hlt | hge
        · exact hj j hlt
        · have : j = i := by omega
          subst this
          exact fun e => he e.symm
    · intro k
      show (if k < nreg ∧ ids k = ids i then false else s.remap k) = true → (if k < nreg ∧ ids k = ids i then s.gen + 1 else s.ids k) = ids k
      by_cases he : k < nreg ∧ ids k = ids i
      · rw [if_pos he]; intro h; exact absurd h (by simp)
      · rw [if_neg he, if_neg he]; exact h.same k
    · intro k hk hk0
      show (if k < nreg ∧ ids k = ids i then s.gen + 1 else s.ids k) = 0
      rw [if_neg fun h => hi0 (by rw [← h.2, hk0])]
      exact h.zero k hk hk0
    · intro k hk hk0
      show (if k < nreg ∧ ids k = ids i then false else s.remap k) = false → 0 < (if k < nreg ∧ ids k = ids i then s.gen + 1 else s.ids k) ∧
        (if k < nreg ∧ ids k = ids i then s.gen + 1 else s.ids k) ≤ s.gen + 1
      by_cases he : k < nreg ∧ ids k = ids i
      · rw [if_pos he, if_pos he]; intro _; omega
      · rw [if_neg he, if_neg he]
        intro hrk
        have := h.done k hk hk0 hrk
        omega
    · intro r hr0 hr1
      show ∃ k < nreg, (if k < nreg ∧ ids k = ids i then false else s.remap k) = false ∧ (if k < nreg ∧ ids k = ids i then s.gen + 1 else s.ids k) = r
      have hr1' : r ≤ s.gen + 1 := hr1
      by_cases he : r = s.gen + 1
      · refine ⟨i, hi, ?_, ?_⟩
        · rw [if_pos ⟨hi, rfl⟩]
        · rw [if_pos ⟨hi, rfl⟩, he]
      · obtain ⟨k, hk, hk1, hk2⟩ := h.onto r hr0 (by omega)
        have hne : ¬ (k < nreg ∧ ids k = ids i) := by
          rintro ⟨-, he'⟩
          have := (h.todo k hk).2 ⟨by rw [he']; exact hi0, fun m hm => by rw [he']; exact hi1 m hm⟩
          rw [hk1] at this
          exact absurd this (by simp)
        exact ⟨k, hk, by rw [if_neg hne]; exact hk1, by rw [if_neg hne]; exact hk2⟩
    · intro k hk l hl hk0 hl0
      show (if k < nreg ∧ ids k = ids i then false else s.remap k) = false → (if l < nreg ∧ ids l = ids i then false else s.remap l) = false →
        ((if k < nreg ∧ ids k = ids i then s.gen + 1 else s.ids k) = (if l < nreg ∧ ids l = ids i then s.gen + 1 else s.ids l) ↔ ids k = ids l)
      by_cases hek : k < nreg ∧ ids k = ids i <;> by_cases hel : l < nreg ∧ ids l = ids i
      · rw [if_pos hek, if_pos hel, if_pos hek, if_pos hel]
        intro _ _
        rw [hek.2, hel.2]
        simp
      · rw [if_pos hek, if_neg hel, if_pos hek, if_neg hel]
        intro _ hrl
        have := h.done l hl hl0 hrl
        refine ⟨fun h => by omega, fun h => absurd ⟨hl, by rw [← h, hek.2]⟩ hel⟩
      · rw [if_neg hek, if_pos hel, if_neg hek, if_pos hel]
        intro hrk _
        have := h.done k hk hk0 hrk
        refine ⟨fun h => by omega, fun h => absurd ⟨hk, by rw [h, hel.2]⟩ hek⟩
      · rw [if_neg hek, if_neg hel, if_neg hek, if_neg hel]
        exact h.eqv k hk l hl hk0 hl0

theorem compress_fold {nreg : Nat} {ids : Nat → Nat} (hs : Settled nreg ids) (hn : nreg ≤ 0x8000) : ∀ i ≤ nreg,
    CompInv nreg i ids ((List.range i).foldl (compressOne nreg) ⟨0, ids, fun k => decide (ids k ≠ 0) && !isBorder (ids k)⟩) := by
  intro i
  induction i with
  | zero =>
    intro _
    refine ⟨Nat.zero_le _, ?_, fun _ _ => rfl, fun _ _ h => h, ?_, fun r h1 h2 => absurd h2 (by simp; omega), ?_⟩
    · intro k hk
      have : isBorder (ids k) = false := isBorder_false.2 (by have := hs.lt k hk; omega)
      simp [this]
    · intro k hk hk0 hr
      have : isBorder (ids k) = false := isBorder_false.2 (by have := hs.lt k hk; omega)
      simp [this, hk0] at hr
    · intro k hk l hl hk0 hl0 hr
      have : isBorder (ids k) = false := isBorder_false.2 (by have := hs.lt k hk; omega)
      simp [this, hk0] at hr
  | succ i ih =>
    intro hi
    rw [List.range_succ, List.foldl_append]
    exact compressOne_inv hs (by omega) (ih (by omega))

/-- **C51** (table). For every table of fewer than 0x8000 records in which every id in use is the id of its own record, the
new ids are exactly 1 to the returned maximum, dropped records stay dropped, equal ids stay equal and different ids
different. -/
theorem compress_spec {nreg : Nat} {ids : Nat → Nat} (hs : Settled nreg ids) (hn : nreg ≤ 0x8000) :
    (∀ k < nreg, (compress nreg ids).2 k ≤ (compress nreg ids).1) ∧
    (∀ r, 0 < r → r ≤ (compress nreg ids).1 → ∃ k < nreg, (compress nreg ids).2 k = r) ∧
    (∀ k < nreg, (compress nreg ids).2 k = 0 ↔ ids k = 0) ∧
    (∀ k < nreg, ∀ l < nreg, (compress nreg ids).2 k = (compress nreg ids).2 l ↔ ids k = ids l) := by
  have h := compress_fold hs hn nreg le_rfl
  have hdone : ∀ k < nreg, ids k ≠ 0 → Comp.remap ((List.range nreg).foldl (compressOne nreg) ⟨0, ids, fun k => decide (ids k ≠ 0) && !isBorder (ids k)⟩) k = false := by
    intro k hk hk0
    rw [Bool.eq_false_iff]
    intro hr
    exact ((h.todo k hk).1 hr).2 k hk rfl
  have hz : ∀ k < nreg, (compress nreg ids).2 k = 0 ↔ ids k = 0 := by
    intro k hk
    refine ⟨fun h0 => ?_, h.zero k hk⟩
    by_contra hk0
    have := (h.done k hk hk0 (hdone k hk hk0)).1
    have h0' : _ = 0 := h0
    unfold compress at h0'
    dsimp only at h0'
    omega
  refine ⟨?_, ?_, hz, ?_⟩
  · intro k hk
    by_cases hk0 : ids k = 0
    · rw [(hz k hk).2 hk0]; exact Nat.zero_le _
    · exact (h.done k hk hk0 (hdone k hk hk0)).2
  · intro r h0 h1
    obtain ⟨k, hk, -, hk2⟩ := h.onto r h0 h1
    exact ⟨k, hk, hk2⟩
  · intro k hk l hl
    by_cases hk0 : ids k = 0
    · rw [(hz k hk).2 hk0, hk0, eq_comm, hz l hl, eq_comm]
    · by_cases hl0 : ids l = 0
      · rw [(hz l hl).2 hl0, hl0, hz k hk]
      · exact h.eqv k hk l hl hk0 hl0 (hdone k hk hk0) (hdone l hl hl0)

/-- The last record gets the last id, if it is in use and no other record has its id. -/
theorem compress_last {m : Nat} {ids : Nat → Nat} (hs : Settled (m + 1) ids) (hn : m + 1 ≤ 0x8000) (h0 : ids m ≠ 0)
    (h1 : ∀ j < m, ids j ≠ ids m) : (compress (m + 1) ids).2 m = (compress (m + 1) ids).1 := by
  have h := compress_fold hs hn m (by omega)
  unfold compress
  dsimp only
  rw [List.range_succ, List.foldl_append]
  have hr := (h.todo m (by omega)).2 ⟨h0, h1⟩
  have key : ∀ s : Comp, s.remap m = true → (compressOne (m + 1) s m).ids m = (compressOne (m + 1) s m).gen := by
    intro s hs
    unfold compressOne
    rw [if_neg (by rw [hs]; simp)]
    dsimp only
    rw [if_pos ⟨le_rfl, by omega, rfl⟩]
  exact key _ hr

/-! ## The region records -/

theorem dedupAll_sublist (fuel : Nat) : ∀ (i : Nat) (l : List Nat), (dedupAll fuel i l).Sublist l := by
  induction fuel with
  | zero => intro i l; exact List.Sublist.refl l
  | succ fuel ih =>
    intro i l
    rw [dedupAll]
    split
    · split
      · exact (ih _ _).trans (List.eraseIdx_sublist _ _)
      · exact ih _ _
    · exact List.Sublist.refl l

/-- `e` is the region across an edge of a span of region `r`. -/
def Across (c : Chf) (src : Nat → Nat) (r e : Nat) : Prop :=
  e = 0 ∨ ∃ i j, i < c.n ∧ j < c.n ∧ src i = r ∧ src j = e ∧ Linked c i j

theorem edgeReg_across {c : Chf} (hc : c.Wf) (src : Nat → Nat) {v : (Nat × Nat) × Nat} (hv : c.At v.1.1 v.1.2 v.2)
    {d : Nat} (hd : d < 4) : Across c src (src v.2) (edgeReg c src v d) := by
  unfold edgeReg
  cases h : c.nb v.1.1 v.1.2 v.2 d with
  | none => exact Or.inl rfl
  | some w =>
    have := hc.nb_some hv hd h
    exact Or.inr ⟨v.2, w.2, hc.lt _ _ _ hv, hc.lt _ _ _ this.1, rfl, rfl, Or.inl ⟨d, hd, this.2.2.2⟩⟩

theorem walk_across {c : Chf} (hc : c.Wf) (src : Nat → Nat) (r start sd : Nat) : ∀ (fuel : Nat) (v : (Nat × Nat) × Nat) (d cur : Nat) (cont : List Nat),
    c.At v.1.1 v.1.2 v.2 → d < 4 → src v.2 = r → (∀ e ∈ cont, Across c src r e) →
    ∀ e ∈ (walk c src start sd fuel v d cur cont).2, Across c src r e := by
  intro fuel
  induction fuel with
  | zero => intro v d cur cont _ _ _ h; exact h
  | succ fuel ih =>
    intro v d cur cont hv hd hr h
    rw [walk]
    by_cases hs : solid c src v d = true
    · rw [if_pos hs]
      dsimp only
      have hcont : ∀ e ∈ (if edgeReg c src v d ≠ cur then cont ++ [edgeReg c src v d] else cont), Across c src r e := by
        intro e he
        split at he
        · rcases List.mem_append.1 he with he | he
          · exact h e he
          · rw [List.mem_singleton] at he
            subst he
            rw [← hr]
            exact edgeReg_across hc src hv hd
        · exact h e he
      split
      · exact hcont
      · exact ih v _ _ _ hv (Nat.mod_lt _ (by decide)) hr hcont
    · rw [if_neg hs]
      cases hn : c.nb v.1.1 v.1.2 v.2 d with
      | none => exact h
      | some w =>
        dsimp only
        have hw := hc.nb_some hv hd hn
        have hsrc : src w.2 = r := by
          unfold solid edgeReg at hs
          rw [hn] at hs
          simp only [ne_eq, decide_not, Bool.not_eq_true', decide_eq_false_iff_not, not_not] at hs
          rw [hs, hr]
        split
        · exact h
        · exact ih w _ _ _ hw.1 (Nat.mod_lt _ (by decide)) hsrc h

theorem walkContour_across {c : Chf} (hc : c.Wf) (src : Nat → Nat) {v : (Nat × Nat) × Nat} (hv : c.At v.1.1 v.1.2 v.2)
    {d : Nat} (hd : d < 4) : ∀ e ∈ walkContour c src v d, Across c src (src v.2) e := by
  have h := walk_across hc src (src v.2) v.2 d 39998 v d (edgeReg c src v d) [edgeReg c src v d] hv hd rfl
    (by intro e he; rw [List.mem_singleton] at he; subst he; exact edgeReg_across hc src hv hd)
  unfold walkContour
  dsimp only
  split
  · exact fun e he => h e ((dedupAll_sublist _ _ _).subset he)
  · exact h

/-- Two different spans of one cell. -/
def Stacked (c : Chf) (i j : Nat) : Prop := i ≠ j ∧ ∃ x y, c.At x y i ∧ c.At x y j

theorem addFloors_facts (c : Chf) (src : Nat → Nat) (nreg : Nat) (v : (Nat × Nat) × Nat) (reg : Region) :
    (addFloors c src nreg v reg).spanCount = reg.spanCount ∧ (addFloors c src nreg v reg).id = reg.id ∧
    (addFloors c src nreg v reg).conns = reg.conns ∧ (addFloors c src nreg v reg).areaType = reg.areaType ∧
    (∀ f, f ∈ (addFloors c src nreg v reg).floors ↔ f ∈ reg.floors ∨
      ∃ w ∈ c.spansOf [v.1], v.2 ≠ w.2 ∧ src w.2 ≠ 0 ∧ src w.2 < nreg ∧ src w.2 = f) ∧
    ((addFloors c src nreg v reg).overlap = true ↔ reg.overlap = true ∨
      ∃ w ∈ c.spansOf [v.1], v.2 ≠ w.2 ∧ src w.2 ≠ 0 ∧ src w.2 < nreg ∧ src w.2 = src v.2) := by
  unfold addFloors
  generalize c.spansOf [v.1] = l
  induction l generalizing reg with
  | nil => simp
  | cons w l ih =>
    rw [List.foldl_cons]
    by_cases hw : v.2 = w.2 ∨ src w.2 = 0 ∨ nreg ≤ src w.2
    · rw [if_pos hw]
      obtain ⟨h1, h2, h3, h4, h5, h6⟩ := ih reg
      refine ⟨h1, h2, h3, h4, fun f => ?_, ?_⟩
      · rw [h5]
        refine or_congr_right ⟨fun ⟨u, hu, h⟩ => ⟨u, List.mem_cons_of_mem _ hu, h⟩, ?_⟩
        rintro ⟨u, hu, h⟩
        rcases List.mem_cons.1 hu with rfl | hu
        · exfalso; omega
        · exact ⟨u, hu, h⟩
      · rw [h6]
        refine or_congr_right ⟨fun ⟨u, hu, h⟩ => ⟨u, List.mem_cons_of_mem _ hu, h⟩, ?_⟩
        rintro ⟨u, hu, h⟩
        rcases List.mem_cons.1 hu with rfl | hu
        · exfalso; omega
        · exact ⟨u, hu, h⟩
    · rw [if_neg hw]
      push Not at hw
      obtain ⟨h1, h2, h3, h4, h5, h6⟩ := ih { reg with overlap := reg.overlap || decide (src w.2 = src v.2), floors := addFloor reg.floors (src w.2) }
      refine ⟨h1, h2, h3, h4, fun f => ?_, ?_⟩
      · rw [h5]
        have := mem_addFloors reg.floors [src w.2] f
        simp only [List.foldl_cons, List.foldl_nil, List.mem_singleton] at this
        dsimp only
        rw [this]
        constructor
        · rintro ((h | h) | ⟨u, hu, h⟩)
          · exact Or.inl h
          · exact Or.inr ⟨w, List.mem_cons_self, hw.1, hw.2.1, hw.2.2, h.symm⟩
          · exact Or.inr ⟨u, List.mem_cons_of_mem _ hu, h⟩
        · rintro (h | ⟨u, hu, h⟩)
          · exact Or.inl (Or.inl h)
          · rcases List.mem_cons.1 hu with rfl | hu
            · exact Or.inl (Or.inr h.2.2.2.symm)
            · exact Or.inr ⟨u, hu, h⟩
      · rw [h6]
        dsimp only
        rw [Bool.or_eq_true, decide_eq_true_eq]
        constructor
        · rintro ((h | h) | ⟨u, hu, h⟩)
          · exact Or.inl h
          · exact Or.inr ⟨w, List.mem_cons_self, hw.1, hw.2.1, hw.2.2, h⟩
          · exact Or.inr ⟨u, List.mem_cons_of_mem _ hu, h⟩
        · rintro (h | ⟨u, hu, h⟩)
          · exact Or.inl (Or.inl h)
          · rcases List.mem_cons.1 hu with rfl | hu
            · exact Or.inl (Or.inr h.2.2.2)
            · exact Or.inr ⟨u, hu, h⟩

/-- What the records say after the spans `done`. -/
structure RecInv (c : Chf) (src : Nat → Nat) (nreg : Nat) (done : List ((Nat × Nat) × Nat)) (regs : Nat → Region) : Prop where
  id : ∀ k, (regs k).id = k
  count : ∀ k < nreg, k ≠ 0 → (regs k).spanCount = (done.filter fun v => decide (src v.2 = k)).length
  none : ∀ k, (k = 0 ∨ ∀ v ∈ done, src v.2 ≠ k) → regs k = newRegion k
  conns : ∀ k, ∀ e ∈ (regs k).conns, Across c src k e
  area : ∀ k < nreg, k ≠ 0 → (∃ v ∈ done, src v.2 = k) → ∃ v ∈ done, src v.2 = k ∧ (regs k).areaType = c.area v.2
  floors : ∀ v ∈ done, src v.2 ≠ 0 → src v.2 < nreg → ∀ j, Stacked c v.2 j → src j ≠ 0 → src j < nreg → src j ∈ (regs (src v.2)).floors
  overlap : ∀ v ∈ done, src v.2 ≠ 0 → src v.2 < nreg → ∀ j, Stacked c v.2 j → src j = src v.2 → (regs (src v.2)).overlap = true

theorem mem_cell {c : Chf} (hc : c.Wf) {v : (Nat × Nat) × Nat} (hv : c.At v.1.1 v.1.2 v.2) {j : Nat} (h : Stacked c v.2 j) :
    v.2 ≠ j ∧ (v.1, j) ∈ c.spansOf [v.1] := by
  obtain ⟨h1, x, y, h2, h3⟩ := h
  obtain ⟨rfl, rfl⟩ := hc.unique _ _ _ _ _ hv h2
  refine ⟨h1, (c.mem_spansOf _ _ ?_).2 ⟨List.mem_singleton.2 rfl, h3⟩⟩
  intro p hp
  rw [List.mem_singleton] at hp
  subst hp
  exact ⟨hv.1, hv.2.1⟩

theorem record_inv {c : Chf} (hc : c.Wf) {src : Nat → Nat} {nreg : Nat} {done : List ((Nat × Nat) × Nat)} {regs : Nat → Region}
    (h : RecInv c src nreg done regs) {v : (Nat × Nat) × Nat} (hv : c.At v.1.1 v.1.2 v.2) :
    RecInv c src nreg (done ++ [v]) (record c src nreg regs v) := by
  by_cases hr : src v.2 = 0 ∨ nreg ≤ src v.2
  · unfold record
    dsimp only
    rw [if_pos hr]
    refine ⟨h.id, ?_, ?_, h.conns, ?_, ?_, ?_⟩
    · intro k hk hk0
      rw [h.count k hk hk0, List.filter_append, List.length_append]
      have : decide (src v.2 = k) = false := by rw [decide_eq_false_iff_not]; omega
      simp [this]
    · intro k hk
      refine h.none k (hk.imp_right fun hk w hw => hk w (List.mem_append_left _ hw))
    · rintro k hk hk0 ⟨w, hw, hwk⟩
      rcases List.mem_append.1 hw with hw | hw
      · obtain ⟨u, hu, h1, h2⟩ := h.area k hk hk0 ⟨w, hw, hwk⟩
        exact ⟨u, List.mem_append_left _ hu, h1, h2⟩
      · rw [List.mem_singleton] at hw
        subst hw
        omega
    · intro w hw h0 h1
      rcases List.mem_append.1 hw with hw | hw
      · exact h.floors w hw h0 h1
      · rw [List.mem_singleton] at hw
        subst hw
        omega
    · intro w hw h0 h1
      rcases List.mem_append.1 hw with hw | hw
      · exact h.overlap w hw h0 h1
      · rw [List.mem_singleton] at hw
        subst hw
        omega
  · push Not at hr
    -- the new record
    have hrec : ∃ reg : Region, record c src nreg regs v = upd regs (src v.2) reg ∧ reg.id = src v.2 ∧
        reg.spanCount = (regs (src v.2)).spanCount + 1 ∧ (∀ e ∈ reg.conns, Across c src (src v.2) e) ∧
        (reg.areaType = c.area v.2 ∨ (reg.areaType = (regs (src v.2)).areaType ∧ (regs (src v.2)).conns ≠ [])) ∧
        (∀ f, f ∈ reg.floors ↔ f ∈ (regs (src v.2)).floors ∨
          ∃ w ∈ c.spansOf [v.1], v.2 ≠ w.2 ∧ src w.2 ≠ 0 ∧ src w.2 < nreg ∧ src w.2 = f) ∧
        (reg.overlap = true ↔ (regs (src v.2)).overlap = true ∨
          ∃ w ∈ c.spansOf [v.1], v.2 ≠ w.2 ∧ src w.2 ≠ 0 ∧ src w.2 < nreg ∧ src w.2 = src v.2) := by
      unfold record
      dsimp only
      rw [if_neg (by omega)]
      obtain ⟨h1, h2, h3, h4, h5, h6⟩ := addFloors_facts c src nreg v
        { regs (src v.2) with spanCount := (regs (src v.2)).spanCount + 1 }
      generalize addFloors c src nreg v { regs (src v.2) with spanCount := (regs (src v.2)).spanCount + 1 } = reg at *
      dsimp only at h1 h2 h3 h4 h5 h6
      by_cases hcn : reg.conns ≠ []
      · rw [if_pos hcn]
        refine ⟨reg, rfl, by rw [h2, h.id], h1, ?_, Or.inr ⟨h4, by rw [← h3]; exact hcn⟩, h5, h6⟩
        rw [h3]
        exact h.conns _
      · rw [if_neg hcn]
        push Not at hcn
        cases hf : (List.range 4).find? (solid c src v) with
        | none =>
          refine ⟨{ reg with areaType := c.area v.2 }, rfl, by dsimp only; rw [h2, h.id], h1, ?_, Or.inl rfl, h5, h6⟩
          dsimp only
          rw [hcn]
          intro e he
          exact absurd he (by simp)
        | some d =>
          have hd : d < 4 := List.mem_range.1 (List.mem_of_find?_eq_some hf)
          exact ⟨{ { reg with areaType := c.area v.2 } with conns := walkContour c src v d }, rfl, by dsimp only; rw [h2, h.id], h1,
            walkContour_across hc src hv hd, Or.inl rfl, h5, h6⟩
    obtain ⟨reg, he, g1, g2, g3, g4, g5, g6⟩ := hrec
    rw [he]
    refine ⟨?_, ?_, ?_, ?_, ?_, ?_, ?_⟩
    · intro k
      by_cases hk : k = src v.2
      · subst hk; rw [upd_same]; exact g1
      · rw [upd_ne _ _ hk]; exact h.id k
    · intro k hk hk0
      rw [List.filter_append, List.length_append]
      by_cases hks : k = src v.2
      · subst hks
        rw [upd_same, g2, h.count _ hk hk0]
        simp
      · rw [upd_ne _ _ hks, h.count _ hk hk0]
        have : decide (src v.2 = k) = false := by rw [decide_eq_false_iff_not]; omega
        simp [this]
    · intro k hk
      have hks : k ≠ src v.2 := by
        rcases hk with hk | hk
        · omega
        · exact (hk v (by simp)).symm
      rw [upd_ne _ _ hks]
      exact h.none k (hk.imp_right fun hk w hw => hk w (List.mem_append_left _ hw))
    · intro k
      by_cases hk : k = src v.2
      · subst hk; rw [upd_same]; exact g3
      · rw [upd_ne _ _ hk]; exact h.conns k
    · intro k hk hk0 hex
      by_cases hks : k = src v.2
      · subst hks
        rw [upd_same]
        rcases g4 with g4 | ⟨g4, g4'⟩
        · exact ⟨v, by simp, rfl, g4⟩
        · have : ∃ w ∈ done, src w.2 = src v.2 := by
            by_contra hno
            push Not at hno
            rw [h.none _ (Or.inr hno)] at g4'
            exact g4' rfl
          obtain ⟨u, hu, h1, h2⟩ := h.area _ hk hk0 this
          exact ⟨u, List.mem_append_left _ hu, h1, by rw [g4, h2]⟩
      · rw [upd_ne _ _ hks]
        obtain ⟨w, hw, hwk⟩ := hex
        rcases List.mem_append.1 hw with hw | hw
        · obtain ⟨u, hu, h1, h2⟩ := h.area k hk hk0 ⟨w, hw, hwk⟩
          exact ⟨u, List.mem_append_left _ hu, h1, h2⟩
        · rw [List.mem_singleton] at hw
          subst hw
          exact absurd hwk.symm hks
    · intro w hw h0 h1 j hj hj0 hj1
      by_cases hws : src w.2 = src v.2
      · rw [hws, upd_same, g5]
        rcases List.mem_append.1 hw with hw | hw
        · left
          have := h.floors w hw h0 h1 j hj hj0 hj1
          rwa [hws] at this
        · rw [List.mem_singleton] at hw
          subst hw
          obtain ⟨m1, m2⟩ := mem_cell hc hv hj
          exact Or.inr ⟨_, m2, m1, hj0, hj1, rfl⟩
      · rw [upd_ne _ _ hws]
        rcases List.mem_append.1 hw with hw | hw
        · exact h.floors w hw h0 h1 j hj hj0 hj1
        · rw [List.mem_singleton] at hw
          subst hw
          exact absurd rfl hws
    · intro w hw h0 h1 j hj hjs
      by_cases hws : src w.2 = src v.2
      · rw [hws, upd_same, g6]
        rcases List.mem_append.1 hw with hw | hw
        · left
          have := h.overlap w hw h0 h1 j hj hjs
          rwa [hws] at this
        · rw [List.mem_singleton] at hw
          subst hw
          obtain ⟨m1, m2⟩ := mem_cell hc hv hj
          exact Or.inr ⟨_, m2, m1, by rw [hjs]; exact h0, by rw [hjs]; exact h1, hjs⟩
      · rw [upd_ne _ _ hws]
        rcases List.mem_append.1 hw with hw | hw
        · exact h.overlap w hw h0 h1 j hj hjs
        · rw [List.mem_singleton] at hw
          subst hw
          exact absurd rfl hws

/-- All spans, with their cells. -/
def allSpans (c : Chf) : List ((Nat × Nat) × Nat) := c.spansOf (cellOrder c.w c.h)

theorem mem_allSpans (c : Chf) (v : (Nat × Nat) × Nat) : v ∈ allSpans c ↔ c.At v.1.1 v.1.2 v.2 := by
  unfold allSpans
  rw [c.mem_spansOf _ _ (fun p hp => (mem_cellOrder _ _ p).1 hp)]
  refine ⟨fun h => h.2, fun h => ⟨(mem_cellOrder _ _ _).2 ⟨h.1, h.2.1⟩, h⟩⟩

theorem records_inv {c : Chf} (hc : c.Wf) (src : Nat → Nat) (nreg : Nat) : RecInv c src nreg (allSpans c) (records c src nreg) := by
  have key : ∀ (l done : List ((Nat × Nat) × Nat)) (regs : Nat → Region), (∀ v ∈ l, c.At v.1.1 v.1.2 v.2) →
      RecInv c src nreg done regs → RecInv c src nreg (done ++ l) (l.foldl (record c src nreg) regs) := by
    intro l
    induction l with
    | nil => intro done regs _ h; simpa using h
    | cons v l ih =>
      intro done regs hl h
      rw [List.foldl_cons]
      have := ih (done ++ [v]) _ (fun w hw => hl w (List.mem_cons_of_mem _ hw)) (record_inv hc h (hl v List.mem_cons_self))
      rwa [List.append_assoc, List.singleton_append] at this
  have := key (allSpans c) [] newRegion (fun v hv => (mem_allSpans c v).1 hv)
    ⟨fun k => rfl, fun k _ _ => rfl, fun k _ => rfl, fun k e he => absurd he (by simp [newRegion]),
      fun k _ _ ⟨v, hv, _⟩ => absurd hv (by simp), fun v hv => absurd hv (by simp), fun v hv => absurd hv (by simp)⟩
  rw [List.nil_append] at this
  exact this

end Verif.Recast
