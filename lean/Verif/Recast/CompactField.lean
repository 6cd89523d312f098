/-
The compact heightfield: filling cells and spans, neighbour connections
(`BuildCompactHeightfield`, recast/heightfield.go:229-382).

Simplifications: a column is the list of its spans (see `Verif.Recast.Filters`); the `Con` words are
kept in an array of their own, since the first pass leaves them zero and the second pass writes nothing
else; indices and differences are unbounded (the number of spans is below 2^31). `Reg`, the bounds and
the error message about too many layers are left out.
-/
import Verif.Recast.Filters

namespace Verif.Recast
open Verif Verif.Detour

/-! ## Model -/

/-- `CompactCell` (recast/heightfield.go:194-197). -/
structure CCell where
  index : Nat
  count : Nat
  deriving DecidableEq, Repr

/-- `CompactSpan` and its entry in `Areas` (recast/heightfield.go:201-206, 226). -/
structure CSpan where
  y : Nat
  h : Nat
  area : Nat
  deriving DecidableEq, Repr

/-- `int32Clamp` (recast/rasterization.go:270-278). -/
def clamp (a lo hi : Int) : Int := if a < lo then lo else if a > hi then hi else a

/-- The order of the loops `for y .. for x ..`. -/
def cellOrder (w h : Nat) : List (Nat × Nat) :=
  (List.range h).flatMap fun y => (List.range w).map fun x => (x, y)

/-- `GetHeightFieldSpanCount` (recast/heightfield.go:229-243). -/
def spanCount (F : Field) : Nat :=
  (cellOrder F.w F.h).foldl
    (fun n p => (F.col (p.1 + p.2 * F.w)).foldl (fun n s => if s.area ≠ nullArea then n + 1 else n) n) 0

/-- The compact span made from `s` under the rest of its column (recast/heightfield.go:313-322). -/
def compactSpan (s : SpanV) (rest : List SpanV) : CSpan :=
  ⟨(clamp s.smax 0 0xffff).toNat, (clamp (ceilAbove rest - s.smax) 0 0xff).toNat, s.area⟩

/-- The loop over one column (recast/heightfield.go:311-327): `idx`, `c.Count` (a uint8) and the span
array of size `cap`; `none` is an index out of range. -/
def fillCol (cap : Nat) : List SpanV → Nat → Nat → (Nat → CSpan) → Option (Nat × Nat × (Nat → CSpan))
  | [], idx, cnt, a => some (idx, cnt, a)
  | s :: rest, idx, cnt, a =>
    if s.area ≠ nullArea then
      if idx < cap then fillCol cap rest (idx + 1) ((cnt + 1) % 256) (upd a idx (compactSpan s rest))
      else none
    else fillCol cap rest idx cnt a

/-- `idx`, `chf.Cells`, `chf.Spans` (recast/heightfield.go:287-300). -/
structure Fill where
  idx : Nat
  cells : Nat → CCell
  spans : Nat → CSpan

/-- One cell of the first pass (recast/heightfield.go:303-328). -/
def fillCell (F : Field) (cap : Nat) (st : Fill) (p : Nat × Nat) : Option Fill :=
  let i := p.1 + p.2 * F.w
  if F.col i = [] then some st
  else (fillCol cap (F.col i) st.idx 0 st.spans).map fun r => ⟨r.1, upd st.cells i ⟨st.idx, r.2.1⟩, r.2.2⟩

/-- The first pass (recast/heightfield.go:300-330). -/
def fillField (F : Field) : Option Fill :=
  (cellOrder F.w F.h).foldlM (fillCell F (spanCount F)) ⟨0, fun _ => ⟨0, 0⟩, fun _ => ⟨0, 0, 0⟩⟩

/-- The test for a connection (recast/heightfield.go:352-357). -/
def canStep (height climb : Int) (s ns : CSpan) : Bool :=
  let bot := max (s.y : Int) ns.y
  let top := min ((s.y : Int) + s.h) ((ns.y : Int) + ns.h)
  decide (top - bot ≥ height) && decide ((((ns.y : Int) - s.y).natAbs : Int) ≤ climb)

/-- The loop over the spans of the neighbour cell (recast/heightfield.go:349-369); `n` spans are left,
`k` is the current one. -/
def conLoop (height climb : Int) (spans : Nat → CSpan) (s : CSpan) (index dir : Nat) : Nat → Nat → U32 → U32
  | 0, _, c => c
  | n + 1, k, c =>
    if canStep height climb s (spans k) then
      if k - index > 62 then conLoop height climb spans s index dir n (k + 1) c
      else setCon c dir (BitVec.ofNat 32 (k - index))
    else conLoop height climb spans s index dir n (k + 1) c

/-- One direction (recast/heightfield.go:342-370). -/
def conDir (height climb : Int) (w h : Nat) (f : Fill) (x y : Nat) (s : CSpan) (c : U32) (dir : Nat) : U32 :=
  let c1 := setCon c dir notConnected
  let nx := (x : Int) + dirX (BitVec.ofNat 32 dir)
  let ny := (y : Int) + dirY (BitVec.ofNat 32 dir)
  if nx < 0 ∨ ny < 0 ∨ nx ≥ w ∨ ny ≥ h then c1
  else
    let nc := f.cells (nx + ny * w).toNat
    conLoop height climb f.spans s nc.index dir nc.count nc.index c1

/-- All directions of one span (recast/heightfield.go:339-372). -/
def conSpan (height climb : Int) (w h : Nat) (f : Fill) (x y : Nat) (s : CSpan) (c : U32) : U32 :=
  [0, 1, 2, 3].foldl (conDir height climb w h f x y s) c

/-- All spans of one cell (recast/heightfield.go:336-373). -/
def conCell (height climb : Int) (w h : Nat) (f : Fill) (con : Nat → U32) (p : Nat × Nat) : Nat → U32 :=
  let c := f.cells (p.1 + p.2 * w)
  (List.range c.count).foldl (fun con j =>
    upd con (c.index + j) (conSpan height climb w h f p.1 p.2 (f.spans (c.index + j)) (con (c.index + j)))) con

/-- The second pass (recast/heightfield.go:332-375). -/
def conField (height climb : Int) (w h : Nat) (f : Fill) : Nat → U32 :=
  (cellOrder w h).foldl (conCell height climb w h f) fun _ => 0#32

/-- `BuildCompactHeightfield` (recast/heightfield.go:266-382). -/
def buildCompact (height climb : Int) (F : Field) : Option (Fill × (Nat → U32)) :=
  (fillField F).map fun f => (f, conField height climb F.w F.h f)

/-! ## Cells and spans -/

/-- Spec: the open spans of a column, bottom up: one above every walkable solid span, reaching to the
next solid span (whether walkable or not), at most 255 high. -/
def openSpans : List SpanV → List CSpan
  | [] => []
  | s :: rest => if s.area = 0 then openSpans rest else
      ⟨min s.smax 65535, min (ceilAbove rest - s.smax).toNat 255, s.area⟩ :: openSpans rest

/-- Spec: how many open spans the cells before cell `n` have. -/
def before (F : Field) (n : Nat) : Nat := ((List.range n).map fun i => (openSpans (F.col i)).length).sum

theorem before_succ (F : Field) (n : Nat) : before F (n + 1) = before F n + (openSpans (F.col n)).length := by
  simp [before, List.range_succ]

theorem before_mono (F : Field) {m n : Nat} (h : m ≤ n) : before F m ≤ before F n := by
  induction n with
  | zero => have : m = 0 := by omega
            subst this; exact le_rfl
  | succ n ih =>
    rcases Nat.lt_or_eq_of_le h with h | h
    · rw [before_succ]; have := ih (by omega); omega
    · subst h; exact le_rfl

theorem compactSpan_eq (s : SpanV) (rest : List SpanV) :
    compactSpan s rest = ⟨min s.smax 65535, min (ceilAbove rest - s.smax).toNat 255, s.area⟩ := by
  unfold compactSpan clamp
  have e1 : (if (s.smax : Int) < 0 then (0 : Int) else if (s.smax : Int) > 0xffff then 0xffff else s.smax).toNat = min s.smax 65535 := by
    split
    · omega
    · split <;> omega
  have e2 : (if ceilAbove rest - (s.smax : Int) < 0 then (0 : Int)
      else if ceilAbove rest - (s.smax : Int) > 0xff then 0xff else ceilAbove rest - (s.smax : Int)).toNat =
      min (ceilAbove rest - s.smax).toNat 255 := by
    split
    · omega
    · split <;> omega
  rw [e1, e2]

theorem cellOrder_map (w h : Nat) : (cellOrder w h).map (fun p => p.1 + p.2 * w) = List.range (w * h) := by
  unfold cellOrder
  induction h with
  | zero => simp
  | succ h ih =>
    rw [List.range_succ, List.flatMap_append, List.map_append, ih, Nat.mul_succ, List.range_add]
    simp [Nat.mul_comm, Nat.add_comm, Function.comp_def]

theorem mem_cellOrder (w h : Nat) (p : Nat × Nat) : p ∈ cellOrder w h ↔ p.1 < w ∧ p.2 < h := by
  unfold cellOrder
  simp only [List.mem_flatMap, List.mem_range, List.mem_map]
  constructor
  · rintro ⟨y, hy, x, hx, rfl⟩; exact ⟨hx, hy⟩
  · intro ⟨h1, h2⟩; exact ⟨p.2, h2, p.1, h1, rfl⟩

theorem spanCount_eq (F : Field) : spanCount F = before F (F.w * F.h) := by
  have inner : ∀ (l : List SpanV) n, l.foldl (fun n s => if s.area ≠ nullArea then n + 1 else n) n = n + (openSpans l).length := by
    intro l
    induction l with
    | nil => intro n; rfl
    | cons s l ih =>
      intro n
      rw [List.foldl_cons, ih]
      rw [openSpans]
      unfold nullArea
      by_cases h : s.area = 0
      · simp [h]
      · simp [h]; omega
  unfold spanCount before
  rw [← cellOrder_map]
  generalize cellOrder F.w F.h = ps
  have : ∀ n, ps.foldl (fun n p => (F.col (p.1 + p.2 * F.w)).foldl (fun n s => if s.area ≠ nullArea then n + 1 else n) n) n =
      n + ((ps.map (fun p => p.1 + p.2 * F.w)).map fun i => (openSpans (F.col i)).length).sum := by
    induction ps with
    | nil => intro n; rfl
    | cons p ps ih =>
      intro n
      rw [List.foldl_cons, ih, inner]
      simp; omega
  rw [this]; omega

theorem fillCol_spec (cap : Nat) (l : List SpanV) : ∀ idx cnt a, idx + (openSpans l).length ≤ cap → cnt < 256 →
    ∃ a', fillCol cap l idx cnt a = some (idx + (openSpans l).length, (cnt + (openSpans l).length) % 256, a') ∧
      (∀ j, j < idx → a' j = a j) ∧ ∀ j e, (openSpans l)[j]? = some e → a' (idx + j) = e := by
  induction l with
  | nil =>
    intro idx cnt a _ hc
    exact ⟨a, by simp [fillCol, openSpans, Nat.mod_eq_of_lt hc], fun _ _ => rfl, by simp [openSpans]⟩
  | cons s l ih =>
    intro idx cnt a h hc
    rw [fillCol]
    unfold nullArea
    by_cases h0 : s.area = 0
    · rw [if_neg (by simpa using h0)]
      have e : openSpans (s :: l) = openSpans l := by simp [openSpans, h0]
      rw [e] at h ⊢
      exact ih idx cnt a h hc
    · rw [if_pos h0]
      have e : openSpans (s :: l) = compactSpan s l :: openSpans l := by
        rw [compactSpan_eq]; simp [openSpans, h0]
      rw [e] at h ⊢
      simp only [List.length_cons] at h ⊢
      rw [if_pos (by omega)]
      obtain ⟨a', h1, h2, h3⟩ := ih (idx + 1) ((cnt + 1) % 256) (upd a idx (compactSpan s l)) (by omega)
        (Nat.mod_lt _ (by omega))
      refine ⟨a', ?_, fun j hj => ?_, fun j e he => ?_⟩
      · rw [h1]
        have e1 : idx + 1 + (openSpans l).length = idx + ((openSpans l).length + 1) := by omega
        have e2 : ((cnt + 1) % 256 + (openSpans l).length) % 256 = (cnt + ((openSpans l).length + 1)) % 256 := by omega
        rw [e1, e2]
      · rw [h2 j (by omega), upd_ne _ _ (by omega)]
      · cases j with
        | zero =>
          simp only [List.getElem?_cons_zero, Option.some.injEq] at he
          rw [Nat.add_zero, h2 idx (by omega), upd_same, he]
        | succ j =>
          rw [List.getElem?_cons_succ] at he
          have := h3 j e he
          rw [show idx + (j + 1) = idx + 1 + j by omega]
          exact this

/-- The cell of a column as the first pass leaves it. -/
def cellSpec (F : Field) (i : Nat) : CCell :=
  if F.col i = [] then ⟨0, 0⟩ else ⟨before F i, (openSpans (F.col i)).length % 256⟩

structure Filled (F : Field) (n : Nat) (st : Fill) : Prop where
  idx : st.idx = before F n
  cells : ∀ i, st.cells i = if i < n then cellSpec F i else ⟨0, 0⟩
  spans : ∀ i < n, ∀ j e, (openSpans (F.col i))[j]? = some e → st.spans (before F i + j) = e

theorem fillCell_spec (F : Field) (n : Nat) (p : Nat × Nat) (hp : p.1 + p.2 * F.w = n) (hn : n < F.w * F.h) (st : Fill)
    (h : Filled F n st) : ∃ st', fillCell F (spanCount F) st p = some st' ∧ Filled F (n + 1) st' := by
  unfold fillCell
  simp only
  rw [hp]
  by_cases he : F.col n = []
  · rw [if_pos he]
    refine ⟨st, rfl, ?_, fun i => ?_, fun i hi j e hj => ?_⟩
    · rw [h.idx, before_succ, he]; rfl
    · rw [h.cells]
      by_cases hi : i = n
      · subst hi
        rw [if_neg (by omega), if_pos (by omega), cellSpec, if_pos he]
      · by_cases hi' : i < n
        · rw [if_pos hi', if_pos (by omega)]
        · rw [if_neg hi', if_neg (by omega)]
    · by_cases hi' : i = n
      · subst hi'; rw [he] at hj; simp [openSpans] at hj
      · exact h.spans i (by omega) j e hj
  · rw [if_neg he]
    have hle : before F (n + 1) ≤ spanCount F := by rw [spanCount_eq]; exact before_mono F hn
    rw [before_succ] at hle
    obtain ⟨a', h1, h2, h3⟩ := fillCol_spec (spanCount F) (F.col n) st.idx 0 st.spans (by rw [h.idx]; exact hle) (by omega)
    rw [h1]
    refine ⟨_, rfl, ?_, fun i => ?_, fun i hi j e hj => ?_⟩
    · simp only [h.idx, before_succ]
    · simp only
      by_cases hi : i = n
      · subst hi
        rw [upd_same, if_pos (by omega), cellSpec, if_neg he, h.idx, Nat.zero_add]
      · rw [upd_ne _ _ hi, h.cells]
        by_cases hi' : i < n
        · rw [if_pos hi', if_pos (by omega)]
        · rw [if_neg hi', if_neg (by omega)]
    · simp only
      by_cases hi' : i = n
      · subst hi'
        rw [← h.idx]
        exact h3 j e hj
      · have hlt : before F i + j < st.idx := by
          rw [h.idx]
          have h5 : before F (i + 1) ≤ before F n := before_mono F (by omega)
          rw [before_succ] at h5
          have := (List.getElem?_eq_some_iff.1 hj).1
          omega
        rw [h2 _ hlt]
        exact h.spans i (by omega) j e hj

theorem fillField_spec (F : Field) : ∃ st, fillField F = some st ∧ Filled F (F.w * F.h) st := by
  unfold fillField
  have gen : ∀ (ps : List (Nat × Nat)) n st, ps.map (fun p => p.1 + p.2 * F.w) = List.range' n ps.length →
      n + ps.length ≤ F.w * F.h → Filled F n st →
      ∃ st', ps.foldlM (fillCell F (spanCount F)) st = some st' ∧ Filled F (n + ps.length) st' := by
    intro ps
    induction ps with
    | nil => intro n st _ _ h; exact ⟨st, rfl, h⟩
    | cons p ps ih =>
      intro n st hm hl h
      simp only [List.map_cons, List.length_cons, List.range'_succ, List.cons.injEq] at hm hl
      obtain ⟨st', h1, h2⟩ := fillCell_spec F n p hm.1 (by omega) st h
      obtain ⟨st2, h3, h4⟩ := ih (n + 1) st' hm.2 (by omega) h2
      refine ⟨st2, ?_, ?_⟩
      · rw [List.foldlM_cons, h1]; exact h3
      · rw [List.length_cons, show n + (ps.length + 1) = n + 1 + ps.length by omega]; exact h4
  have hlen : (cellOrder F.w F.h).length = F.w * F.h := by
    have := congrArg List.length (cellOrder_map F.w F.h)
    simpa using this
  have := gen (cellOrder F.w F.h) 0 ⟨0, fun _ => ⟨0, 0⟩, fun _ => ⟨0, 0, 0⟩⟩
    (by rw [cellOrder_map, hlen, List.range_eq_range']) (by omega)
    ⟨by simp [before], fun i => by simp, fun i hi => by omega⟩
  rw [hlen, Nat.zero_add] at this
  exact this

/-- **C46** (partial). The first pass never runs out of its span array; every column's open spans are
stored bottom-up, one column after the other without holes, `SpanCount` in all; a cell with solid spans
points at its first open span and counts them modulo 256. Missing: the true count for columns with more
than 255 walkable spans, see `compact_cells_refuted`. -/
theorem compact_cells_partial (F : Field) : ∃ f, fillField F = some f ∧
    spanCount F = before F (F.w * F.h) ∧
    (∀ i < F.w * F.h, (∀ j e, (openSpans (F.col i))[j]? = some e → f.spans (before F i + j) = e) ∧
      (F.col i = [] → f.cells i = ⟨0, 0⟩) ∧
      (F.col i ≠ [] → f.cells i = ⟨before F i, (openSpans (F.col i)).length % 256⟩)) := by
  obtain ⟨f, h1, h2⟩ := fillField_spec F
  refine ⟨f, h1, spanCount_eq F, fun i hi => ⟨h2.spans i hi, fun he => ?_, fun he => ?_⟩⟩
  · rw [h2.cells, if_pos hi, cellSpec, if_pos he]
  · rw [h2.cells, if_pos hi, cellSpec, if_neg he]

theorem openSpans_of_nil {l : List SpanV} (h : l = []) : openSpans l = [] := by rw [h]; rfl

/-- Which span numbers belong to which cell, as `before` counts them. -/
theorem before_cell (F : Field) (n : Nat) : ∀ j < before F n, ∃ i < n, before F i ≤ j ∧ j < before F (i + 1) := by
  induction n with
  | zero => intro j hj; simp [before] at hj
  | succ n ih =>
    intro j hj
    by_cases h : j < before F n
    · obtain ⟨i, h1, h2, h3⟩ := ih j h
      exact ⟨i, by omega, h2, h3⟩
    · exact ⟨n, by omega, by omega, hj⟩

/-- **C46** (partial). With at most 255 walkable spans per column the cell ranges partition the spans:
every span number belongs to exactly one cell. -/
theorem compact_cells_partition_partial (F : Field) (hF : ∀ i < F.w * F.h, (openSpans (F.col i)).length ≤ 255) :
    ∃ f, fillField F = some f ∧ ∀ j, j < spanCount F ↔
      ∃ i < F.w * F.h, ((f.cells i).index ≤ j ∧ j < (f.cells i).index + (f.cells i).count) ∧
        ∀ i' < F.w * F.h, (f.cells i').index ≤ j ∧ j < (f.cells i').index + (f.cells i').count → i' = i := by
  obtain ⟨f, h1, h2⟩ := fillField_spec F
  have hc : ∀ i < F.w * F.h, ∀ j, (f.cells i).index ≤ j ∧ j < (f.cells i).index + (f.cells i).count ↔
      before F i ≤ j ∧ j < before F (i + 1) := by
    intro i hi j
    rw [h2.cells, if_pos hi, cellSpec, before_succ]
    by_cases he : F.col i = []
    · rw [if_pos he, openSpans_of_nil he]; simp
    · rw [if_neg he]
      have := hF i hi
      rw [Nat.mod_eq_of_lt (by omega)]
  refine ⟨f, h1, fun j => ?_⟩
  rw [spanCount_eq]
  constructor
  · intro hj
    obtain ⟨i, h3, h4, h5⟩ := before_cell F _ j hj
    refine ⟨i, h3, (hc i h3 j).2 ⟨h4, h5⟩, fun i' hi' hj' => ?_⟩
    obtain ⟨h6, h7⟩ := (hc i' hi' j).1 hj'
    by_contra hne
    rcases Nat.lt_or_gt_of_ne hne with h | h
    · have := before_mono F (m := i' + 1) (n := i) h; omega
    · have := before_mono F (m := i + 1) (n := i') h; omega
  · rintro ⟨i, h3, h4, -⟩
    have := (hc i h3 j).1 h4
    have := before_mono F (m := i + 1) (n := F.w * F.h) h3
    omega

/-- A column of `n` thin walkable spans. -/
def tower : Nat → Nat → List SpanV
  | _, 0 => []
  | z, n + 1 => ⟨z, z + 1, 63⟩ :: tower (z + 10) n

theorem tower_open (n : Nat) : ∀ z, (openSpans (tower z n)).length = n := by
  induction n with
  | zero => intro z; rfl
  | succ n ih => intro z; simp [tower, openSpans, ih]

theorem tower_canon (n : Nat) : ∀ z, Canon (tower z n) ∧ ∀ s ∈ tower z n, z ≤ s.smin ∧ s.smax ≤ z + 10 * n := by
  induction n with
  | zero => intro z; exact ⟨⟨by simp [tower], by simp [tower]⟩, by simp [tower]⟩
  | succ n ih =>
    intro z
    obtain ⟨⟨h1, h2⟩, h3⟩ := ih (z + 10)
    refine ⟨⟨?_, fun s hs => ?_⟩, fun s hs => ?_⟩
    · rw [tower, List.pairwise_cons]
      exact ⟨fun s hs => by have := h3 s hs; simp only; omega, h1⟩
    · rw [tower] at hs
      rcases List.mem_cons.1 hs with rfl | hs
      · show z ≤ z + 1; omega
      · exact h2 s hs
    · rw [tower] at hs
      rcases List.mem_cons.1 hs with rfl | hs
      · simp only; omega
      · have := h3 s hs; omega

/-- **C46** (refuted in full). A column with 256 walkable spans (a well-formed one, within the height
range) gets `Count` 0: `SpanCount` is 256 and no cell owns any of the spans. -/
theorem compact_cells_refuted : ∃ (F : Field) (f : Fill), (∀ i, Canon (F.col i) ∧ ∀ s ∈ F.col i, s.smax ≤ 0xffff) ∧
    fillField F = some f ∧ spanCount F = 256 ∧
    ∀ i < F.w * F.h, ∀ j, ¬ ((f.cells i).index ≤ j ∧ j < (f.cells i).index + (f.cells i).count) := by
  let F : Field := ⟨1, 1, fun _ => tower 0 256⟩
  obtain ⟨f, h1, h2⟩ := fillField_spec F
  have hl : (openSpans (F.col 0)).length = 256 := tower_open 256 0
  refine ⟨F, f, fun i => ⟨(tower_canon 256 0).1, fun s hs => ?_⟩, h1, ?_, fun i hi j => ?_⟩
  · have := ((tower_canon 256 0).2 s hs).2; omega
  · rw [spanCount_eq]
    show before F 1 = 256
    rw [before_succ, hl]; rfl
  · have hi0 : i = 0 := by have : i < 1 * 1 := hi; omega
    subst hi0
    rw [h2.cells, if_pos hi, cellSpec]
    split
    · simp
    · rw [hl]; simp

example : fillField ⟨2, 1, fun i => if i = 0 then [⟨0, 2, 1⟩, ⟨10, 11, 0⟩, ⟨300, 302, 5⟩] else [⟨1, 2, 0⟩]⟩ ≠ none ∧
    openSpans [⟨0, 2, 1⟩, ⟨10, 11, 0⟩, ⟨300, 302, 5⟩] = [⟨2, 8, 1⟩, ⟨302, 255, 5⟩] := by
  constructor
  · obtain ⟨f, h1, -⟩ := fillField_spec ⟨2, 1, fun i => if i = 0 then [⟨0, 2, 1⟩, ⟨10, 11, 0⟩, ⟨300, 302, 5⟩] else [⟨1, 2, 0⟩]⟩
    rw [h1]; simp
  · decide

/-! ## Connections -/

/-- Spec: the agent can step between two open spans: their common height is at least `height` and the
floors differ by at most `climb`. -/
def StepOk (height climb : Int) (a b : CSpan) : Prop :=
  (∀ z : Int, z < height → ∃ bot : Int, (a.y : Int) ≤ bot ∧ (b.y : Int) ≤ bot ∧ bot + z < a.y + a.h ∧ bot + z < b.y + b.h) ∧
  |(a.y : Int) - b.y| ≤ climb

theorem canStep_iff (height climb : Int) (s ns : CSpan) : canStep height climb s ns = true ↔ StepOk height climb s ns := by
  unfold canStep StepOk
  simp only [Bool.and_eq_true, decide_eq_true_eq]
  have e : |(s.y : Int) - ns.y| = (((ns.y : Int) - s.y).natAbs : Int) := by
    rw [abs_sub_comm, Int.abs_eq_natAbs]
  rw [e]
  refine and_congr_left fun _ => ?_
  constructor
  · intro h z hz
    exact ⟨max (s.y : Int) ns.y, by omega, by omega, by omega, by omega⟩
  · intro h
    obtain ⟨bot, h1, h2, h3, h4⟩ := h (height - 1) (by omega)
    omega

theorem StepOk.symm {height climb : Int} {a b : CSpan} (h : StepOk height climb a b) : StepOk height climb b a := by
  refine ⟨fun z hz => ?_, by rw [abs_sub_comm]; exact h.2⟩
  obtain ⟨bot, h1, h2, h3, h4⟩ := h.1 z hz
  exact ⟨bot, h2, h1, h4, h3⟩

theorem conLoop_other (height climb : Int) (spans : Nat → CSpan) (s : CSpan) (index dir : Nat) {e : Nat} (he : e < 4)
    (hne : e ≠ dir) (n : Nat) : ∀ k c, getCon (conLoop height climb spans s index dir n k c) e = getCon c e := by
  induction n with
  | zero => intro k c; rfl
  | succ n ih =>
    intro k c
    rw [conLoop]
    split
    · split
      · exact ih _ _
      · exact setCon_other_partial c he hne _
    · exact ih _ _

theorem conLoop_spec (height climb : Int) (spans : Nat → CSpan) (s : CSpan) (index : Nat) {dir : Nat} (hd : dir < 4)
    (n : Nat) : ∀ k c, index ≤ k → getCon c dir = notConnected →
    (getCon (conLoop height climb spans s index dir n k c) dir = notConnected ∧
      ∀ m, k ≤ m → m < k + n → m - index ≤ 62 → ¬ StepOk height climb s (spans m)) ∨
    ∃ m, k ≤ m ∧ m < k + n ∧ m - index ≤ 62 ∧ StepOk height climb s (spans m) ∧
      (∀ m', k ≤ m' → m' < m → ¬ StepOk height climb s (spans m')) ∧
      getCon (conLoop height climb spans s index dir n k c) dir = BitVec.ofNat 32 (m - index) := by
  induction n with
  | zero => intro k c _ hc; exact Or.inl ⟨hc, fun m h1 h2 => by omega⟩
  | succ n ih =>
    intro k c hk hc
    rw [conLoop]
    by_cases hq : canStep height climb s (spans k) = true
    · rw [if_pos hq]
      by_cases h62 : k - index > 62
      · rw [if_pos h62]
        rcases ih (k + 1) c (by omega) hc with ⟨h1, h2⟩ | ⟨m, h1, h2, h3, -⟩
        · refine Or.inl ⟨h1, fun m g1 g2 g3 => ?_⟩
          exact h2 m (by omega) (by omega) g3
        · omega
      · rw [if_neg h62]
        refine Or.inr ⟨k, le_rfl, by omega, by omega, (canStep_iff _ _ _ _).1 hq, fun m' g1 g2 => by omega, ?_⟩
        rw [setCon_fresh_partial c hd _ hc]
        apply BitVec.eq_of_toNat_eq
        have h63 : (0x3f#32).toNat = 2 ^ 6 - 1 := by decide
        rw [BitVec.toNat_and, h63, Nat.and_two_pow_sub_one_eq_mod, BitVec.toNat_ofNat]
        omega
    · rw [if_neg hq]
      have hnot : ¬ StepOk height climb s (spans k) := fun h => hq ((canStep_iff _ _ _ _).2 h)
      rcases ih (k + 1) c (by omega) hc with ⟨h1, h2⟩ | ⟨m, h1, h2, h3, h4, h5, h6⟩
      · refine Or.inl ⟨h1, fun m g1 g2 g3 => ?_⟩
        by_cases hm : m = k
        · subst hm; exact hnot
        · exact h2 m (by omega) (by omega) g3
      · refine Or.inr ⟨m, by omega, by omega, h3, h4, fun m' g1 g2 => ?_, h6⟩
        by_cases hm : m' = k
        · subst hm; exact hnot
        · exact h5 m' (by omega) g2

/-- What direction `dir` of a span in cell `(x, y)` says after the second pass. -/
def ConSpec (height climb : Int) (w h : Nat) (f : Fill) (x y : Nat) (s : CSpan) (dir : Nat) (v : U32) : Prop :=
  (v = notConnected ∧ ∀ i, NeiCell w h x y dir i → ∀ m ≤ 62, m < (f.cells i).count →
      ¬ StepOk height climb s (f.spans ((f.cells i).index + m))) ∨
  ∃ i, NeiCell w h x y dir i ∧ ∃ m ≤ 62, m < (f.cells i).count ∧ v = BitVec.ofNat 32 m ∧
    StepOk height climb s (f.spans ((f.cells i).index + m)) ∧
    ∀ m' < m, ¬ StepOk height climb s (f.spans ((f.cells i).index + m'))

theorem conDir_other (height climb : Int) (w h : Nat) (f : Fill) (x y : Nat) (s : CSpan) (c : U32) {dir e : Nat}
    (he : e < 4) (hne : e ≠ dir) : getCon (conDir height climb w h f x y s c dir) e = getCon c e := by
  unfold conDir
  simp only
  split
  · exact setCon_other_partial c he hne _
  · rw [conLoop_other height climb f.spans s _ dir he hne]
    exact setCon_other_partial c he hne _

theorem conDir_spec (height climb : Int) (w h : Nat) (f : Fill) (x y : Nat) (s : CSpan) (c : U32) {dir : Nat}
    (hd : dir < 4) : ConSpec height climb w h f x y s dir (getCon (conDir height climb w h f x y s c dir) dir) := by
  unfold conDir
  simp only
  generalize ex : (x : Int) + dirX (BitVec.ofNat 32 dir) = dx
  generalize ey : (y : Int) + dirY (BitVec.ofNat 32 dir) = dy
  have hr := setCon_reset_partial c hd
  generalize setCon c dir notConnected = c1 at hr
  split
  · rename_i ho
    refine Or.inl ⟨hr, fun i hi => ?_⟩
    obtain ⟨nx, ny, h1, h2, h3, h4, -⟩ := hi
    rw [ex] at h3; rw [ey] at h4
    omega
  · rename_i ho
    obtain ⟨nx, rfl⟩ := Int.eq_ofNat_of_zero_le (a := dx) (by omega)
    obtain ⟨ny, rfl⟩ := Int.eq_ofNat_of_zero_le (a := dy) (by omega)
    have ei : ((nx : Int) + (ny : Int) * (w : Int)).toNat = nx + ny * w := by
      have : ((nx : Int) + (ny : Int) * (w : Int)) = ((nx + ny * w : Nat) : Int) := by push_cast; rfl
      rw [this, Int.toNat_natCast]
    rw [ei]
    have hc : NeiCell w h x y dir (nx + ny * w) := ⟨nx, ny, by omega, by omega, ex.symm, ey.symm, rfl⟩
    generalize nx + ny * w = j at hc
    rcases conLoop_spec height climb f.spans s (f.cells j).index hd (f.cells j).count (f.cells j).index c1 le_rfl hr with
      ⟨h1, h2⟩ | ⟨m, h1, h2, h3, h4, h5, h6⟩
    · refine Or.inl ⟨h1, fun i hi m hm hmc => ?_⟩
      rw [neiCell_unique hi hc] at hmc ⊢
      exact h2 _ (by omega) (by omega) (by omega)
    · refine Or.inr ⟨j, hc, m - (f.cells j).index, h3, by omega, h6, ?_, fun m' hm' => ?_⟩
      · rw [show (f.cells j).index + (m - (f.cells j).index) = m by omega]; exact h4
      · exact h5 _ (by omega) (by omega)

theorem conSpan_spec (height climb : Int) (w h : Nat) (f : Fill) (x y : Nat) (s : CSpan) (c : U32) {dir : Nat}
    (hd : dir < 4) : ConSpec height climb w h f x y s dir (getCon (conSpan height climb w h f x y s c) dir) := by
  unfold conSpan
  simp only [List.foldl_cons, List.foldl_nil]
  have : dir = 0 ∨ dir = 1 ∨ dir = 2 ∨ dir = 3 := by omega
  rcases this with rfl | rfl | rfl | rfl
  · rw [conDir_other _ _ _ _ _ _ _ _ _ hd (by omega), conDir_other _ _ _ _ _ _ _ _ _ hd (by omega),
      conDir_other _ _ _ _ _ _ _ _ _ hd (by omega)]
    exact conDir_spec _ _ _ _ _ _ _ _ _ hd
  · rw [conDir_other _ _ _ _ _ _ _ _ _ hd (by omega), conDir_other _ _ _ _ _ _ _ _ _ hd (by omega)]
    exact conDir_spec _ _ _ _ _ _ _ _ _ hd
  · rw [conDir_other _ _ _ _ _ _ _ _ _ hd (by omega)]
    exact conDir_spec _ _ _ _ _ _ _ _ _ hd
  · exact conDir_spec _ _ _ _ _ _ _ _ _ hd

/-- The spans of a cell as numbers. -/
def InCell (f : Fill) (i j : Nat) : Prop := (f.cells i).index ≤ j ∧ j < (f.cells i).index + (f.cells i).count

theorem conCell_spec (height climb : Int) (w h : Nat) (f : Fill) (con : Nat → U32) (p : Nat × Nat) (j : Nat) :
    (InCell f (p.1 + p.2 * w) j → conCell height climb w h f con p j =
      conSpan height climb w h f p.1 p.2 (f.spans j) (con j)) ∧
    (¬ InCell f (p.1 + p.2 * w) j → conCell height climb w h f con p j = con j) := by
  unfold conCell InCell
  generalize f.cells (p.1 + p.2 * w) = c
  have gen : ∀ n, let r := (List.range n).foldl (fun con j =>
      upd con (c.index + j) (conSpan height climb w h f p.1 p.2 (f.spans (c.index + j)) (con (c.index + j)))) con
      ((c.index ≤ j ∧ j < c.index + n) → r j = conSpan height climb w h f p.1 p.2 (f.spans j) (con j)) ∧
      (¬ (c.index ≤ j ∧ j < c.index + n) → r j = con j) := by
    intro n
    induction n with
    | zero => exact ⟨fun h => by omega, fun _ => rfl⟩
    | succ n ih =>
      simp only [List.range_succ, List.foldl_append, List.foldl_cons, List.foldl_nil]
      by_cases hj : j = c.index + n
      · subst hj
        refine ⟨fun _ => ?_, fun h => by omega⟩
        rw [upd_same, ih.2 (by omega)]
      · refine ⟨fun h => ?_, fun h => ?_⟩
        · rw [upd_ne _ _ hj]; exact ih.1 (by omega)
        · rw [upd_ne _ _ hj]; exact ih.2 (by omega)
  exact gen c.count

theorem cellOrder_pairwise (w h : Nat) :
    (cellOrder w h).Pairwise fun p q => p.1 + p.2 * w < q.1 + q.2 * w := by
  have h1 : ((cellOrder w h).map (fun p => p.1 + p.2 * w)).Pairwise (· < ·) := by
    rw [cellOrder_map]; exact List.pairwise_lt_range
  exact List.pairwise_map.1 h1

/-- Cells own disjoint ranges of spans, even with wrapped counts. -/
theorem inCell_bounds {F : Field} {f : Fill} (hf : Filled F (F.w * F.h) f) {i j : Nat} (h : InCell f i j) :
    i < F.w * F.h ∧ before F i ≤ j ∧ j < before F (i + 1) := by
  unfold InCell at h
  rw [hf.cells] at h
  by_cases hi : i < F.w * F.h
  · rw [if_pos hi, cellSpec] at h
    split at h
    · simp at h
    · refine ⟨hi, h.1, ?_⟩
      rw [before_succ]
      have : (openSpans (F.col i)).length % 256 ≤ (openSpans (F.col i)).length := Nat.mod_le _ _
      simp only at h
      omega
  · rw [if_neg hi] at h; simp at h

theorem inCell_unique {F : Field} {f : Fill} (hf : Filled F (F.w * F.h) f) {i i' j : Nat} (h : InCell f i j)
    (h' : InCell f i' j) : i = i' := by
  obtain ⟨-, h1, h2⟩ := inCell_bounds hf h
  obtain ⟨-, h3, h4⟩ := inCell_bounds hf h'
  by_contra hne
  rcases Nat.lt_or_gt_of_ne hne with hl | hl
  · have := before_mono F (m := i + 1) (n := i') hl; omega
  · have := before_mono F (m := i' + 1) (n := i) hl; omega

theorem conField_spec (height climb : Int) {F : Field} {f : Fill} (hf : Filled F (F.w * F.h) f) (x y j : Nat)
    (hx : x < F.w) (hy : y < F.h) (hj : InCell f (x + y * F.w) j) :
    conField height climb F.w F.h f j = conSpan height climb F.w F.h f x y (f.spans j) 0#32 := by
  unfold conField
  have gen : ∀ (ps : List (Nat × Nat)) (con : Nat → U32), ps.Pairwise (fun p q => p.1 + p.2 * F.w < q.1 + q.2 * F.w) →
      ((x, y) ∈ ps → ps.foldl (conCell height climb F.w F.h f) con j = conSpan height climb F.w F.h f x y (f.spans j) (con j)) ∧
      ((∀ p ∈ ps, p.1 + p.2 * F.w ≠ x + y * F.w) → ps.foldl (conCell height climb F.w F.h f) con j = con j) := by
    intro ps
    induction ps with
    | nil => intro con _; exact ⟨fun h => by simp at h, fun _ => rfl⟩
    | cons p ps ih =>
      intro con hp
      rw [List.pairwise_cons] at hp
      rw [List.foldl_cons]
      obtain ⟨c1, c2⟩ := conCell_spec height climb F.w F.h f con p j
      obtain ⟨i1, i2⟩ := ih (conCell height climb F.w F.h f con p) hp.2
      constructor
      · intro hm
        rcases List.mem_cons.1 hm with he | hm
        · subst he
          rw [i2 (fun q hq => by have := hp.1 q hq; simp only at this; omega), c1 hj]
        · rw [i1 hm, c2]
          intro hc
          have := inCell_unique hf hc hj
          have := hp.1 _ hm
          simp only at this
          omega
      · intro hm
        rw [i2 (fun q hq => hm q (by simp [hq])), c2]
        intro hc
        exact hm p (by simp) (inCell_unique hf hc hj)
  exact (gen _ _ (cellOrder_pairwise F.w F.h)).1 ((mem_cellOrder _ _ _).2 ⟨hx, hy⟩)

/-- **C47** (partial). For every span of every cell and every direction the stored connection is the
first of the neighbour cell's (first 63) spans to which the agent can step, and `notConnected` iff there
is none or the neighbour cell is outside the grid. Missing: spans not counted by their cell (columns
with more than 255 walkable spans), see `connections_refuted`. -/
theorem connections_partial (height climb : Int) (F : Field) :
    ∃ f con, buildCompact height climb F = some (f, con) ∧ fillField F = some f ∧
      ∀ x < F.w, ∀ y < F.h, ∀ j, InCell f (x + y * F.w) j → ∀ dir < 4,
        ConSpec height climb F.w F.h f x y (f.spans j) dir (getCon (con j) dir) := by
  obtain ⟨f, h1, h2⟩ := fillField_spec F
  refine ⟨f, conField height climb F.w F.h f, by rw [buildCompact, h1]; rfl, h1, fun x hx y hy j hj dir hd => ?_⟩
  rw [conField_spec height climb h2 x y j hx hy hj]
  exact conSpan_spec _ _ _ _ _ _ _ _ _ hd

/-- **C47** (refuted in full). The neighbour column has 256 walkable spans; its lowest one can be stepped
to, but the span is not connected, because the neighbour cell counts no spans. -/
theorem connections_refuted : ∃ (F : Field) (f : Fill) (con : Nat → U32), buildCompact 3 1 F = some (f, con) ∧
    (∀ i, Canon (F.col i) ∧ ∀ s ∈ F.col i, s.smax ≤ 0xffff) ∧
    InCell f 1 256 ∧ NeiCell F.w F.h 1 0 0 0 ∧
    (∃ a b, (openSpans (F.col 0))[0]? = some a ∧ f.spans 256 = b ∧ StepOk 3 1 b a) ∧
    getCon (con 256) 0 = notConnected := by
  let F : Field := ⟨2, 1, fun i => if i = 0 then tower 0 256 else [⟨0, 1, 63⟩]⟩
  obtain ⟨f, con, h0, h1, h3⟩ := connections_partial 3 1 F
  obtain ⟨f', h1', h2⟩ := fillField_spec F
  rw [h1] at h1'; cases h1'
  have hl : (openSpans (F.col 0)).length = 256 := tower_open 256 0
  have hb0 : before F 0 = 0 := rfl
  have hb : before F 1 = 256 := by rw [before_succ, hl]; rfl
  have hc : InCell f 1 256 := by
    unfold InCell
    rw [h2.cells, if_pos (by decide), cellSpec, if_neg (by decide), hb]
    decide
  have hn : NeiCell F.w F.h 1 0 0 0 := ⟨0, 0, by decide, by decide, by decide, by decide, rfl⟩
  have hc0 : (f.cells 0).count = 0 := by
    rw [h2.cells, if_pos (by decide), cellSpec]
    split
    · rfl
    · rw [hl]
  have e1 : openSpans (F.col 0) = ⟨1, 9, 63⟩ :: openSpans (tower 10 255) := rfl
  have e2 : f.spans 256 = ⟨1, 255, 63⟩ := by
    have := h2.spans 1 (by decide) 0 ⟨1, 255, 63⟩ (by decide)
    rw [hb] at this; exact this
  refine ⟨F, f, con, h0, fun i => ?_, hc, hn, ⟨⟨1, 9, 63⟩, ⟨1, 255, 63⟩, by rw [e1]; rfl, e2, ?_⟩, ?_⟩
  · show Canon (if i = 0 then tower 0 256 else [⟨0, 1, 63⟩]) ∧ _
    by_cases hi : i = 0
    · subst hi
      exact ⟨(tower_canon 256 0).1, fun s hs => by have := ((tower_canon 256 0).2 s hs).2; omega⟩
    · have : F.col i = [⟨0, 1, 63⟩] := by show (if i = 0 then _ else _) = _; rw [if_neg hi]
      rw [if_neg hi, this]
      refine ⟨⟨by simp, ?_⟩, ?_⟩
      · simp [SpanV.Valid]
      · simp
  · exact (canStep_iff _ _ _ _).1 (by decide)
  · rcases h3 1 (by decide) 0 (by decide) 256 hc 0 (by omega) with ⟨h, -⟩ | ⟨i, hi, m, hm, hmc, -⟩
    · exact h
    · rw [neiCell_unique hi hn, hc0] at hmc
      omega

/-! ## Mutual connections -/

theorem ceilAbove_le (s : SpanV) (l : List SpanV) (h : Canon l) (hs : s ∈ l) : ceilAbove l ≤ s.smin := by
  cases l with
  | nil => simp at hs
  | cons c l =>
    simp only [ceilAbove]
    rcases List.mem_cons.1 hs with rfl | hs
    · exact le_rfl
    · have h1 := (List.pairwise_cons.1 h.1).1 s hs
      have : c.smin ≤ c.smax := h.2 c (by simp)
      omega

theorem openSpans_mem (l : List SpanV) (e : CSpan) (he : e ∈ openSpans l) : ∃ s ∈ l, e.y = min s.smax 65535 := by
  induction l with
  | nil => simp [openSpans] at he
  | cons s l ih =>
    rw [openSpans] at he
    split at he
    · obtain ⟨t, h1, h2⟩ := ih he; exact ⟨t, by simp [h1], h2⟩
    · rcases List.mem_cons.1 he with rfl | he
      · exact ⟨s, by simp, rfl⟩
      · obtain ⟨t, h1, h2⟩ := ih he; exact ⟨t, by simp [h1], h2⟩

/-- In a well-formed column each open span ends below the floor of the next. -/
theorem openSpans_stacked (l : List SpanV) (h : Canon l) (hb : ∀ s ∈ l, s.smax ≤ 0xffff) :
    (openSpans l).Pairwise fun a b => a.y + a.h ≤ b.y := by
  induction l with
  | nil => simp [openSpans]
  | cons s l ih =>
    obtain ⟨hp, hv⟩ := h
    rw [List.pairwise_cons] at hp
    have hcl : Canon l := ⟨hp.2, fun c hc => hv c (by simp [hc])⟩
    have i := ih hcl fun c hc => hb c (by simp [hc])
    rw [openSpans]
    split
    · exact i
    · rw [List.pairwise_cons]
      refine ⟨fun e he => ?_, i⟩
      obtain ⟨t, h1, h2⟩ := openSpans_mem l e he
      have h3 := ceilAbove_le t l hcl h1
      have h4 := hp.1 t h1
      have h5 : t.smin ≤ t.smax := hv t (by simp [h1])
      have h6 := hb s (by simp)
      have h7 := hb t (by simp [h1])
      simp only [h2]
      omega

theorem neiCell_back {w h x y dir : Nat} (hx : x < w) (hy : y < h) (hd : dir < 4) {i : Nat} (hn : NeiCell w h x y dir i) :
    ∃ nx ny, nx < w ∧ ny < h ∧ i = nx + ny * w ∧ NeiCell w h nx ny ((dir + 2) % 4) (x + y * w) := by
  obtain ⟨nx, ny, h1, h2, h3, h4, rfl⟩ := hn
  refine ⟨nx, ny, h1, h2, rfl, x, y, hx, hy, ?_, ?_, rfl⟩
  · have : ∀ d < 4, dirX (BitVec.ofNat 32 ((d + 2) % 4)) = -dirX (BitVec.ofNat 32 d) := by decide
    rw [this dir hd]; omega
  · have : ∀ d < 4, dirY (BitVec.ofNat 32 ((d + 2) % 4)) = -dirY (BitVec.ofNat 32 d) := by decide
    rw [this dir hd]; omega

/-- Two different open spans of a well-formed column cannot both be stepped to from the same span if
`2 * climb < height`. -/
theorem step_unique {height climb : Int} (hhc : 2 * climb < height) {l : List SpanV} (h : Canon l)
    (hb : ∀ s ∈ l, s.smax ≤ 0xffff) {m m' : Nat} {a b s : CSpan} (ha : (openSpans l)[m]? = some a)
    (hb' : (openSpans l)[m']? = some b) (h1 : StepOk height climb s a) (h2 : StepOk height climb s b) : m = m' := by
  have key : ∀ (m m' : Nat) (a b : CSpan), (openSpans l)[m]? = some a → (openSpans l)[m']? = some b → StepOk height climb s a →
      StepOk height climb s b → ¬ m < m' := by
    intro m m' a b ha hb' h1 h2 hlt
    have hp := openSpans_stacked l h hb
    have := List.pairwise_iff_getElem.1 hp
    obtain ⟨q1, q2⟩ := List.getElem?_eq_some_iff.1 ha
    obtain ⟨q3, q4⟩ := List.getElem?_eq_some_iff.1 hb'
    have h5 := this m m' q1 q3 hlt
    rw [q2, q4] at h5
    obtain ⟨bot, g1, g2, g3, g4⟩ := h1.1 (height - 1) (by omega)
    have g5 := h1.2
    have g6 := h2.2
    rw [Int.abs_eq_natAbs] at g5 g6
    omega
  by_contra hne
  rcases Nat.lt_or_gt_of_ne hne with hl | hl
  · exact key m m' a b ha hb' h1 h2 hl
  · exact key m' m b a hb' ha h2 h1 hl

/-- **C84** (partial). With `2 * walkableClimb < walkableHeight`, on well-formed columns of at most 255
walkable spans, connections between the first 63 layers are mutual: if span `j` of a cell is connected
in direction `dir` to span `j'` of the neighbour, then `j'` is connected in the opposite direction to
`j`. Missing: climbs of half the agent height and more, see `mutual_refuted`. -/
theorem mutual_partial (height climb : Int) (hhc : 2 * climb < height) (F : Field)
    (hF : ∀ i < F.w * F.h, Canon (F.col i) ∧ (∀ s ∈ F.col i, s.smax ≤ 0xffff) ∧ (openSpans (F.col i)).length ≤ 255) :
    ∃ f con, buildCompact height climb F = some (f, con) ∧
      ∀ x < F.w, ∀ y < F.h, ∀ m ≤ 62, m < (f.cells (x + y * F.w)).count →
      ∀ dir < 4, ∀ i, NeiCell F.w F.h x y dir i →
      ∀ m', getCon (con ((f.cells (x + y * F.w)).index + m)) dir = BitVec.ofNat 32 m' → m' ≤ 62 →
        m' < (f.cells i).count ∧
        getCon (con ((f.cells i).index + m')) ((dir + 2) % 4) = BitVec.ofNat 32 m := by
  obtain ⟨f, con, h0, h1, h3⟩ := connections_partial height climb F
  obtain ⟨f', h1', h2⟩ := fillField_spec F
  rw [h1] at h1'; cases h1'
  refine ⟨f, con, h0, fun x hx y hy m hm hmc dir hd i hn m' hv hm' => ?_⟩
  have ofNat_inj : ∀ a b : Nat, a ≤ 63 → b ≤ 63 → BitVec.ofNat 32 a = BitVec.ofNat 32 b → a = b := by
    intro a b ha hb h
    have := congrArg BitVec.toNat h
    simp only [BitVec.toNat_ofNat] at this
    omega
  -- spans of a cell
  have hspan : ∀ i < F.w * F.h, ∀ m < (f.cells i).count,
      (openSpans (F.col i))[m]? = some (f.spans ((f.cells i).index + m)) := by
    intro i hi m hm
    have hc := h2.cells i
    rw [if_pos hi, cellSpec] at hc
    split at hc
    · rw [hc] at hm; simp at hm
    · rw [hc] at hm ⊢
      have hlen := (hF i hi).2.2
      simp only at hm ⊢
      rw [Nat.mod_eq_of_lt (by omega)] at hm
      have := h2.spans i hi m _ (List.getElem?_eq_getElem hm)
      rw [this]
      exact List.getElem?_eq_getElem hm
  have hi1 := cell_lt hx hy
  rcases h3 x hx y hy ((f.cells (x + y * F.w)).index + m) ⟨by omega, by omega⟩ dir hd with ⟨g1, -⟩ | ⟨i', hn', k, hk, hkc, g1, g2, -⟩
  · rw [hv] at g1
    have := ofNat_inj m' 63 (by omega) le_rfl g1
    omega
  · have := neiCell_unique hn' hn
    subst this
    rw [hv] at g1
    have := ofNat_inj m' k (by omega) (by omega) g1
    subst this
    refine ⟨hkc, ?_⟩
    obtain ⟨nx, ny, c1, c2, rfl, c3⟩ := neiCell_back hx hy hd hn
    have hi2 := cell_lt c1 c2
    have hopp : (dir + 2) % 4 < 4 := Nat.mod_lt _ (by omega)
    have hs1 := hspan _ hi1 m hmc
    rcases h3 nx c1 ny c2 ((f.cells (nx + ny * F.w)).index + m') ⟨by omega, by omega⟩ _ hopp with ⟨-, e2⟩ | ⟨i2, n2, k2, hk2, hk2c, e1, e2, -⟩
    · exact absurd g2.symm (e2 _ c3 m hm hmc)
    · have := neiCell_unique n2 c3
      subst this
      have hs2 := hspan _ hi1 k2 hk2c
      have hF1 := hF _ hi1
      have : k2 = m := step_unique hhc hF1.1 hF1.2.1 hs2 hs1 e2 g2.symm
      rw [e1, this]

/-- A concrete field with two layers on one side. -/
def steepField : Field := ⟨2, 1, fun i => if i = 0 then [⟨0, 1, 63⟩, ⟨11, 13, 63⟩] else [⟨0, 6, 63⟩]⟩

/-- **C84** (refuted in full). Agent height 5, climb 8: the upper span of cell 0 is connected to the
span of cell 1, whose back connection leads to the lower span of cell 0. -/
theorem mutual_refuted : ∃ f con, buildCompact 5 8 steepField = some (f, con) ∧
    getCon (con 1) 2 = 0#32 ∧ getCon (con 2) 0 = 0#32 ∧ f.cells 0 = ⟨0, 2⟩ ∧ f.cells 1 = ⟨2, 1⟩ :=
  ⟨_, _, rfl, by decide, by decide, by decide, by decide⟩

/-- Agent height 5, climb 2 on stairs: connections in both directions. -/
example : ∃ f con, buildCompact 5 2 ⟨2, 1, fun i => if i = 0 then [⟨0, 1, 63⟩, ⟨11, 13, 63⟩] else [⟨0, 3, 63⟩]⟩ = some (f, con) ∧
    getCon (con 0) 2 = 0#32 ∧ getCon (con 2) 0 = 0#32 ∧ getCon (con 1) 2 = notConnected :=
  ⟨_, _, rfl, by decide, by decide, by decide⟩

end Verif.Recast
