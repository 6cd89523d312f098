/-
Monotone partitioning of a compact heightfield into regions: the part of `BuildRegionsMonotone` before the
filtering of regions (recast/region.go:40-150), with `paintRectRegion` (recast/region.go:368-381).

Simplifications: region ids (uint16) and counters are unbounded; the theorems assume that the number of ids
stays below 0x8000, where no uint16 wraps and no id has the border bit. `sweepSpan.rid` is never read and
left out. `borderSize` is a natural number, as documented.
-/
import Verif.Recast.Erode
import Mathlib.Logic.Relation

namespace Verif.Recast
open Verif Verif.Detour

set_option linter.unusedSimpArgs false
set_option linter.unusedVariables false

/-! ## Model -/

/-- `srcReg[i]&borderReg != 0`, for a uint16. -/
def isBorder (r : Nat) : Bool := decide (0x8000 ≤ r)

/-- `sweepSpan` (recast/region.go:1153-1158). -/
structure Sweep where
  id : Nat
  ns : Nat
  nei : Nat

/-- `RC_NULL_NEI` (recast/region.go:1151). -/
def nullNei : Nat := 0xffff

/-- What the sweep over one row changes: `rid`, `sweeps`, `prev`, `srcReg`. -/
structure RowSt where
  rid : Nat
  sweeps : Nat → Sweep
  prev : Nat → Nat
  src : Nat → Nat

/-- The row id taken over from the neighbour at -x, or 0 (recast/region.go:91-101). -/
def leftId (c : Chf) (src : Nat → Nat) (v : (Nat × Nat) × Nat) : Nat :=
  match c.nb v.1.1 v.1.2 v.2 0 with
  | none => 0
  | some (_, ai) => if isBorder (src ai) = false ∧ c.area v.2 = c.area ai then src ai else 0

/-- The bookkeeping for the neighbour at -y (recast/region.go:112-128). -/
def lookUp (c : Chf) (st : RowSt) (p : Nat) (v : (Nat × Nat) × Nat) : RowSt :=
  match c.nb v.1.1 v.1.2 v.2 3 with
  | none => st
  | some (_, ai) =>
    if st.src ai ≠ 0 ∧ isBorder (st.src ai) = false ∧ c.area v.2 = c.area ai then
      let nr := st.src ai
      let s := st.sweeps p
      if s.nei = 0 ∨ s.nei = nr then
        { st with sweeps := upd st.sweeps p { s with nei := nr, ns := s.ns + 1 }, prev := upd st.prev nr (st.prev nr + 1) }
      else { st with sweeps := upd st.sweeps p { s with nei := nullNei } }
    else st

/-- One span of the row (recast/region.go:85-131). `none` is the index panic of `sweeps[previd]`; the other accesses
to `sweeps` use ids that were checked when they were made. -/
def sweepOne (c : Chf) (nsweeps : Nat) (st : RowSt) (v : (Nat × Nat) × Nat) : Option RowSt :=
  if c.area v.2 = nullArea then some st
  else
    let p := leftId c st.src v
    if p ≠ 0 then
      let st := lookUp c st p v
      some { st with src := upd st.src v.2 p }
    else if st.rid < nsweeps then
      let p := st.rid
      let st := lookUp c { st with rid := st.rid + 1, sweeps := upd st.sweeps p ⟨(st.sweeps p).id, 0, 0⟩ } p v
      some { st with src := upd st.src v.2 p }
    else none

/-- The cells of the loop `for x := lo; x < hi; x++` in row `y`. -/
def rowCells (lo hi y : Nat) : List (Nat × Nat) := (List.range' lo (hi - lo)).map fun x => (x, y)

/-- The loop that gives the sweeps their ids (recast/region.go:134-141): the next free id and the sweeps. -/
def nameSweeps (prev : Nat → Nat) (st : Nat × (Nat → Sweep)) (i : Nat) : Nat × (Nat → Sweep) :=
  let s := st.2 i
  if s.nei ≠ nullNei ∧ s.nei ≠ 0 ∧ prev s.nei = s.ns then (st.1, upd st.2 i { s with id := s.nei })
  else (st.1 + 1, upd st.2 i { s with id := st.1 })

/-- One span of the loop that writes the final ids (recast/region.go:144-152). -/
def renameOne (rid : Nat) (sw : Nat → Sweep) (src : Nat → Nat) (v : (Nat × Nat) × Nat) : Nat → Nat :=
  if 0 < src v.2 ∧ src v.2 < rid then upd src v.2 (sw (src v.2)).id else src

/-- One row (recast/region.go:74-152): the next free id and `srcReg`. The values left in `sweeps` by earlier rows are not
used: `ns`, `nei` are set when a sweep is taken, `id` before it is read. -/
def sweepRow (c : Chf) (nsweeps bs : Nat) (st : Nat × (Nat → Nat)) (y : Nat) : Option (Nat × (Nat → Nat)) :=
  let spans := c.spansOf (rowCells bs (c.w - bs) y)
  (spans.foldlM (sweepOne c nsweeps) ⟨1, fun _ => ⟨0, 0, 0⟩, fun _ => 0, st.2⟩).map fun r =>
    let nm := (List.range' 1 (r.rid - 1)).foldl (nameSweeps r.prev) (st.1, r.sweeps)
    (nm.1, spans.foldl (renameOne r.rid nm.2) r.src)

/-- `paintRectRegion` (recast/region.go:368-381). -/
def paintRect (c : Chf) (x0 x1 y0 y1 reg : Nat) (src : Nat → Nat) : Nat → Nat :=
  (c.spansOf ((List.range' y0 (y1 - y0)).flatMap fun y => rowCells x0 x1 y)).foldl
    (fun s v => if c.area v.2 ≠ nullArea then upd s v.2 reg else s) src

/-- The border regions (recast/region.go:52-69): the next free id and `srcReg`. -/
def paintBorder (c : Chf) (bs : Nat) : Nat × (Nat → Nat) :=
  if 0 < bs then
    let bw := min c.w bs
    let bh := min c.h bs
    let s := paintRect c 0 bw 0 c.h (0x8000 + 1) (fun _ => 0)
    let s := paintRect c (c.w - bw) c.w 0 c.h (0x8000 + 2) s
    let s := paintRect c 0 c.w 0 bh (0x8000 + 3) s
    let s := paintRect c 0 c.w (c.h - bh) c.h (0x8000 + 4) s
    (5, s)
  else (1, fun _ => 0)

/-- `BuildRegionsMonotone` up to the filtering (recast/region.go:45-153): the next free id and `srcReg`;
`none` is a panic. -/
def partition (c : Chf) (bs : Nat) : Option (Nat × (Nat → Nat)) :=
  (List.range' bs (c.h - bs - bs)).foldlM (sweepRow c (max c.w c.h) bs) (paintBorder c bs)

/-! ## Specification -/

/-- Two spans are connected to each other, in one of the directions. -/
def Linked (c : Chf) (i j : Nat) : Prop := (∃ d < 4, c.Nb i d j) ∨ ∃ d < 4, c.Nb j d i

/-- `i` and `j` are joined by a path of connected spans, all of them in `S`. -/
def Joined (c : Chf) (S : Nat → Prop) : Nat → Nat → Prop :=
  Relation.ReflTransGen fun a b => S a ∧ S b ∧ Linked c a b

/-- The spans of `S` have one area type, and any two of them are joined within `S`. -/
def OnePiece (c : Chf) (S : Nat → Prop) : Prop := ∀ i j, S i → S j → c.area i = c.area j ∧ Joined c S i j

/-- Span of a cell of the inside, `bs` or more cells from the edge of the grid. -/
def Inner (c : Chf) (bs i : Nat) : Prop := ∃ x y, bs ≤ x ∧ x + bs < c.w ∧ bs ≤ y ∧ y + bs < c.h ∧ c.At x y i

theorem Linked.symm {c : Chf} {i j : Nat} (h : Linked c i j) : Linked c j i := Or.symm h

theorem Joined.symm {c : Chf} {S : Nat → Prop} {i j : Nat} (h : Joined c S i j) : Joined c S j i := by
  induction h with
  | refl => exact Relation.ReflTransGen.refl
  | tail _ h ih => exact Relation.ReflTransGen.head ⟨h.2.1, h.1, h.2.2.symm⟩ ih

theorem Joined.mono {c : Chf} {S T : Nat → Prop} {i j : Nat} (h : Joined c S i j) (hST : ∀ i, S i → T i) : Joined c T i j := by
  induction h with
  | refl => exact Relation.ReflTransGen.refl
  | tail _ h ih => exact ih.tail ⟨hST _ h.1, hST _ h.2.1, h.2.2⟩

theorem Joined.one {c : Chf} {S : Nat → Prop} {i j : Nat} (hi : S i) (hj : S j) (h : Linked c i j) : Joined c S i j :=
  Relation.ReflTransGen.single ⟨hi, hj, h⟩

/-- Adding one span that is linked to a span of the same area. -/
theorem OnePiece.insert {c : Chf} {S T : Nat → Prop} {v a : Nat} (h : OnePiece c S) (hT : ∀ i, T i ↔ S i ∨ i = v)
    (ha : S a) (hl : Linked c v a) (har : c.area v = c.area a) : OnePiece c T := by
  have key : ∀ i, T i → c.area i = c.area a ∧ Joined c T i a := by
    intro i hi
    rcases (hT i).1 hi with hi | rfl
    · obtain ⟨h1, h2⟩ := h i a hi ha
      exact ⟨h1, h2.mono fun i hi => (hT i).2 (Or.inl hi)⟩
    · exact ⟨har, Joined.one hi ((hT a).2 (Or.inl ha)) hl⟩
  intro i j hi hj
  obtain ⟨h1, h2⟩ := key i hi
  obtain ⟨h3, h4⟩ := key j hj
  exact ⟨by rw [h1, h3], h2.trans h4.symm⟩

/-- Two pieces with a link between spans of the same area make one piece. -/
theorem OnePiece.union {c : Chf} {S S' T : Nat → Prop} {v a : Nat} (h : OnePiece c S) (h' : OnePiece c S')
    (hT : ∀ i, T i ↔ S i ∨ S' i) (hv : S' v) (ha : S a) (hl : Linked c v a) (har : c.area v = c.area a) : OnePiece c T := by
  have key : ∀ i, T i → c.area i = c.area a ∧ Joined c T i a := by
    intro i hi
    rcases (hT i).1 hi with hi | hi
    · obtain ⟨h1, h2⟩ := h i a hi ha
      exact ⟨h1, h2.mono fun i hi => (hT i).2 (Or.inl hi)⟩
    · obtain ⟨h1, h2⟩ := h' i v hi hv
      exact ⟨by rw [h1, har], (h2.mono fun i hi => (hT i).2 (Or.inr hi)).trans
        (Joined.one ((hT v).2 (Or.inr hv)) ((hT a).2 (Or.inl ha)) hl)⟩
  intro i j hi hj
  obtain ⟨h1, h2⟩ := key i hi
  obtain ⟨h3, h4⟩ := key j hj
  exact ⟨by rw [h1, h3], h2.trans h4.symm⟩

theorem OnePiece.congr {c : Chf} {S T : Nat → Prop} (h : OnePiece c S) (hT : ∀ i, T i ↔ S i) : OnePiece c T := by
  have : T = S := funext fun i => propext (hT i)
  rwa [this]

theorem OnePiece.single {c : Chf} {S : Nat → Prop} {v : Nat} (h : ∀ i, S i → i = v) : OnePiece c S := by
  intro i j hi hj
  rw [h i hi, h j hj]
  exact ⟨rfl, Relation.ReflTransGen.refl⟩

/-! ## One row -/

theorem isBorder_false {r : Nat} : isBorder r = false ↔ r < 0x8000 := by unfold isBorder; simp

/-- What is known of the spans of a row while it is swept. -/
structure RowInv (c : Chf) (y : Nat) (src0 : Nat → Nat) (done : List ((Nat × Nat) × Nat)) (st : RowSt) : Prop where
  rid : 0 < st.rid
  out : ∀ i, (∀ v ∈ done, v.2 ≠ i) → st.src i = src0 i
  zero : ∀ v ∈ done, c.area v.2 = 0 → st.src v.2 = 0
  pos : ∀ v ∈ done, c.area v.2 ≠ 0 → 0 < st.src v.2 ∧ st.src v.2 < st.rid
  conn : ∀ p, p ≠ 0 → OnePiece c fun i => (∃ w ∈ done, w.2 = i) ∧ st.src i = p
  nei : ∀ p, 0 < p → p < st.rid → (st.sweeps p).nei ≠ 0 → (st.sweeps p).nei ≠ nullNei →
    (st.sweeps p).nei < 0x8000 ∧ ∃ v ∈ done, st.src v.2 = p ∧ ∃ j, Linked c v.2 j ∧ c.area v.2 = c.area j ∧
      src0 j = (st.sweeps p).nei ∧ ∀ x, ¬ c.At x y j
  ns : ∀ p, 0 < p → p < st.rid → (st.sweeps p).nei = 0 → (st.sweeps p).ns = 0

theorem lookUp_rid (c : Chf) (st : RowSt) (p : Nat) (v : (Nat × Nat) × Nat) : (lookUp c st p v).rid = st.rid := by
  unfold lookUp
  split
  · rfl
  · dsimp only
    split
    · split <;> rfl
    · rfl

theorem lookUp_src (c : Chf) (st : RowSt) (p : Nat) (v : (Nat × Nat) × Nat) : (lookUp c st p v).src = st.src := by
  unfold lookUp
  split
  · rfl
  · dsimp only
    split
    · split <;> rfl
    · rfl

theorem lookUp_other (c : Chf) (st : RowSt) (p q : Nat) (v : (Nat × Nat) × Nat) (h : q ≠ p) :
    (lookUp c st p v).sweeps q = st.sweeps q := by
  unfold lookUp
  split
  · rfl
  · dsimp only
    split
    · split
      · exact upd_ne _ _ h
      · exact upd_ne _ _ h
    · rfl

theorem lookUp_self (c : Chf) (st : RowSt) (p : Nat) (v : (Nat × Nat) × Nat) :
    let s := (lookUp c st p v).sweeps p
    s = st.sweeps p ∨ s.nei = nullNei ∨
      ((∃ q ai, c.nb v.1.1 v.1.2 v.2 3 = some (q, ai) ∧ st.src ai = s.nei ∧ c.area v.2 = c.area ai) ∧
        s.nei ≠ 0 ∧ s.nei < 0x8000) := by
  unfold lookUp
  split
  · exact Or.inl rfl
  · rename_i q ai hq
    dsimp only
    split
    · rename_i h
      split
      · right; right
        dsimp only
        rw [upd_same]
        exact ⟨⟨q, ai, hq, rfl, h.2.2⟩, h.1, isBorder_false.1 h.2.1⟩
      · right; left
        dsimp only
        rw [upd_same]
    · exact Or.inl rfl

/-- The spans of a row. -/
def rowSpans (c : Chf) (bs y : Nat) : List ((Nat × Nat) × Nat) := c.spansOf (rowCells bs (c.w - bs) y)

theorem mem_rowCells (lo hi y : Nat) (p : Nat × Nat) : p ∈ rowCells lo hi y ↔ lo ≤ p.1 ∧ p.1 < hi ∧ p.2 = y := by
  obtain ⟨x, z⟩ := p
  simp only [rowCells, List.mem_map, List.mem_range'_1, Prod.mk.injEq]
  constructor
  · rintro ⟨a, ⟨h1, h2⟩, rfl, rfl⟩; omega
  · rintro ⟨h1, h2, rfl⟩; exact ⟨x, by omega, rfl, rfl⟩

theorem mem_rowSpans {c : Chf} {bs y : Nat} (hy : y < c.h) (v : (Nat × Nat) × Nat) :
    v ∈ rowSpans c bs y ↔ bs ≤ v.1.1 ∧ v.1.1 + bs < c.w ∧ v.1.2 = y ∧ c.At v.1.1 y v.2 := by
  unfold rowSpans
  rw [c.mem_spansOf _ _ (fun p hp => by have := (mem_rowCells _ _ _ p).1 hp; omega), mem_rowCells]
  constructor
  · rintro ⟨⟨h1, h2, h3⟩, h4⟩; exact ⟨h1, by omega, h3, h3 ▸ h4⟩
  · rintro ⟨h1, h2, h3, h4⟩; exact ⟨⟨h1, by omega, h3⟩, by rw [h3]; exact h4⟩

theorem rowSpans_pairwise {c : Chf} (hc : c.Wf) (bs : Nat) {y : Nat} (hy : y < c.h) :
    (rowSpans c bs y).Pairwise fun u v => u.2 ≠ v.2 ∧ u.1.1 ≤ v.1.1 := by
  unfold rowSpans
  refine (c.spansOf_pairwise hc (rowCells bs (c.w - bs) y) (fun p q => p.1 < q.1)
    (fun p hp => by have := (mem_rowCells _ _ _ p).1 hp; omega) ?_ (fun p => by simp)).imp ?_
  · unfold rowCells
    rw [List.pairwise_map]
    exact List.pairwise_lt_range'
  · rintro u v ⟨h1, h2 | h2⟩
    · exact ⟨h1, by rw [h2]⟩
    · exact ⟨h1, h2.le⟩

theorem dir0 : dirX (BitVec.ofNat 32 0) = -1 ∧ dirY (BitVec.ofNat 32 0) = 0 := by decide
theorem dir3 : dirX (BitVec.ofNat 32 3) = 0 ∧ dirY (BitVec.ofNat 32 3) = -1 := by decide

/-- The row before it is swept: its inner spans have no region, the walkable ones to the left of them a border id. -/
def RowStart (c : Chf) (bs y : Nat) (src : Nat → Nat) : Prop :=
  (∀ v ∈ rowSpans c bs y, src v.2 = 0) ∧ ∀ x i, x < bs → c.At x y i → c.area i ≠ 0 → 0x8000 ≤ src i

theorem sweepOne_inv {c : Chf} (hc : c.Wf) {bs y : Nat} (hy : y < c.h) {src0 : Nat → Nat} (h0 : RowStart c bs y src0)
    {done rest : List ((Nat × Nat) × Nat)} {v : (Nat × Nat) × Nat} (hl : rowSpans c bs y = done ++ v :: rest)
    {nsweeps : Nat} {st st' : RowSt} (hi : RowInv c y src0 done st) (h : sweepOne c nsweeps st v = some st') :
    RowInv c y src0 (done ++ [v]) st' ∧ st'.rid ≤ st.rid + 1 := by
  have hv : v ∈ rowSpans c bs y := by rw [hl]; simp
  obtain ⟨v1, v2, v3, v4⟩ := (mem_rowSpans hy v).1 hv
  have hpw := rowSpans_pairwise hc bs hy
  rw [hl, List.pairwise_append, List.pairwise_cons] at hpw
  have hnd : ∀ w ∈ done, w.2 ≠ v.2 := fun w hw => (hpw.2.2 w hw v (by simp)).1
  have hsv : st.src v.2 = 0 := by rw [hi.out _ hnd]; exact h0.1 v hv
  have hsub : ∀ w ∈ done, w ∈ rowSpans c bs y := fun w hw => by rw [hl]; simp [hw]
  -- both walkable cases at once: span `v` gets id `p`
  have finish : ∀ (p : Nat) (st1 : RowSt), p ≠ 0 → p < st1.rid → st.rid ≤ st1.rid → st1.rid ≤ st.rid + 1 → st1.src = st.src →
      c.area v.2 ≠ 0 →
      (p = st.rid ∨ ∃ a, (∃ w ∈ done, w.2 = a) ∧ st.src a = p ∧ Linked c v.2 a ∧ c.area v.2 = c.area a) →
      (∀ q, 0 < q → q < st1.rid → q ≠ p → q < st.rid ∧ st1.sweeps q = st.sweeps q) →
      ((st1.sweeps p).nei = 0 ∧ (st1.sweeps p).ns = 0 ∨ (p < st.rid ∧ st1.sweeps p = st.sweeps p)) →
      RowInv c y src0 (done ++ [v]) { lookUp c st1 p v with src := upd (lookUp c st1 p v).src v.2 p } ∧
        (lookUp c st1 p v).rid ≤ st.rid + 1 := by
    intro p st1 hp hp1 hr1 hr2 hs1 hw hcase hq hself
    have hsrc : ∀ i, upd (lookUp c st1 p v).src v.2 p i = if i = v.2 then p else st.src i := by
      intro i
      rw [lookUp_src, hs1]
      rfl
    refine ⟨⟨?_, ?_, ?_, ?_, ?_, ?_, ?_⟩, by rw [lookUp_rid]; exact hr2⟩
    · show 0 < (lookUp c st1 p v).rid
      rw [lookUp_rid]; omega
    · intro i hi'
      show upd _ v.2 p i = _
      rw [hsrc, if_neg (fun e => hi' v (by simp) e.symm)]
      exact hi.out i fun w hw => hi' w (by simp [hw])
    · intro w hw hz
      show upd _ v.2 p w.2 = _
      rw [hsrc]
      rcases List.mem_append.1 hw with hw | hw
      · rw [if_neg (hnd w hw)]; exact hi.zero w hw hz
      · simp only [List.mem_singleton] at hw
        subst hw
        exact absurd hz (by assumption)
    · intro w hw hz
      show 0 < upd _ v.2 p w.2 ∧ upd _ v.2 p w.2 < (lookUp c st1 p v).rid
      rw [hsrc, lookUp_rid]
      rcases List.mem_append.1 hw with hw | hw
      · rw [if_neg (hnd w hw)]
        have := hi.pos w hw hz
        omega
      · simp only [List.mem_singleton] at hw
        subst hw
        rw [if_pos rfl]; omega
    · intro q hq0
      have hset : ∀ i, ((∃ w ∈ done ++ [v], w.2 = i) ∧ upd (lookUp c st1 p v).src v.2 p i = q) ↔
          ((∃ w ∈ done, w.2 = i) ∧ st.src i = q) ∨ (i = v.2 ∧ p = q) := by
        intro i
        rw [hsrc]
        constructor
        · rintro ⟨⟨w, hw, rfl⟩, h2⟩
          rcases List.mem_append.1 hw with hw | hw
          · rw [if_neg (hnd w hw)] at h2
            exact Or.inl ⟨⟨w, hw, rfl⟩, h2⟩
          · simp only [List.mem_singleton] at hw
            subst hw
            rw [if_pos rfl] at h2
            exact Or.inr ⟨rfl, h2⟩
        · rintro (⟨⟨w, hw, rfl⟩, h2⟩ | ⟨rfl, h2⟩)
          · rw [if_neg (hnd w hw)]
            exact ⟨⟨w, by simp [hw], rfl⟩, h2⟩
          · rw [if_pos rfl]
            exact ⟨⟨v, by simp, rfl⟩, h2⟩
      by_cases hpq : p = q
      · subst hpq
        rcases hcase with hrid | ⟨a, h1, h2, h3, h4⟩
        · refine OnePiece.single (v := v.2) fun i hi' => ?_
          rcases (hset i).1 hi' with ⟨⟨w, hw, rfl⟩, h2⟩ | ⟨h, -⟩
          · exfalso
            by_cases hz : c.area w.2 = 0
            · rw [hi.zero w hw hz] at h2; omega
            · have := hi.pos w hw hz; omega
          · exact h
        · exact (hi.conn p hp).insert (fun i => (hset i).trans ⟨fun h => h.imp id And.left, fun h => h.imp id fun e => ⟨e, rfl⟩⟩) ⟨h1, h2⟩ h3 h4
      · exact (hi.conn q hq0).congr fun i => (hset i).trans ⟨fun h => h.resolve_right fun e => hpq e.2, Or.inl⟩
    · intro q hq0 hq1 hn0 hn1
      change q < (lookUp c st1 p v).rid at hq1
      change ((lookUp c st1 p v).sweeps q).nei ≠ 0 at hn0
      change ((lookUp c st1 p v).sweeps q).nei ≠ nullNei at hn1
      show ((lookUp c st1 p v).sweeps q).nei < 0x8000 ∧ ∃ w ∈ done ++ [v], upd (lookUp c st1 p v).src v.2 p w.2 = q ∧
        ∃ j, Linked c w.2 j ∧ c.area w.2 = c.area j ∧ src0 j = ((lookUp c st1 p v).sweeps q).nei ∧ ∀ x, ¬ c.At x y j
      rw [lookUp_rid] at hq1
      have old : q < st.rid → (lookUp c st1 p v).sweeps q = st.sweeps q →
          ((lookUp c st1 p v).sweeps q).nei < 0x8000 ∧ ∃ w ∈ done ++ [v], upd (lookUp c st1 p v).src v.2 p w.2 = q ∧
          ∃ j, Linked c w.2 j ∧ c.area w.2 = c.area j ∧ src0 j = ((lookUp c st1 p v).sweeps q).nei ∧ ∀ x, ¬ c.At x y j := by
        intro hlt he
        rw [he] at hn0 hn1 ⊢
        obtain ⟨g1, w, hw, g2, g3⟩ := hi.nei q hq0 hlt hn0 hn1
        exact ⟨g1, w, by simp [hw], by rw [hsrc, if_neg (hnd w hw)]; exact g2, g3⟩
      by_cases hpq : q = p
      · subst hpq
        rcases lookUp_self c st1 q v with e | e | ⟨⟨r, ai, e1, e2, e3⟩, e4, e5⟩
        · rw [e] at hn0
          rcases hself with ⟨hz, -⟩ | ⟨hlt, he⟩
          · exact absurd hz hn0
          · exact old hlt (e.trans he)
        · exact absurd e hn1
        · refine ⟨e5, v, by simp, by rw [hsrc, if_pos rfl], ai, ?_⟩
          have hat : c.At v.1.1 v.1.2 v.2 := by rw [v3]; exact v4
          obtain ⟨g1, g2, g3, g4⟩ := hc.nb_some hat (by decide) e1
          have hnot : ∀ x, ¬ c.At x y ai := by
            intro x hx
            obtain ⟨k1, k2⟩ := hc.unique _ _ _ _ _ hx g1
            have := dir3
            omega
          refine ⟨Or.inl ⟨3, by decide, g4⟩, e3, ?_, hnot⟩
          rw [← e2, hs1]
          refine (hi.out ai fun w hw he => hnot w.1.1 ?_).symm
          have := (mem_rowSpans hy w).1 (hsub w hw)
          rw [← he]; exact this.2.2.2
      · obtain ⟨hlt, he⟩ := hq q hq0 hq1 hpq
        exact old hlt (by rw [lookUp_other _ _ _ _ _ hpq, he])
    · intro q hq0 hq1 hn0
      change q < (lookUp c st1 p v).rid at hq1
      change ((lookUp c st1 p v).sweeps q).nei = 0 at hn0
      show ((lookUp c st1 p v).sweeps q).ns = 0
      rw [lookUp_rid] at hq1
      by_cases hpq : q = p
      · subst hpq
        rcases lookUp_self c st1 q v with e | e | ⟨-, e4, -⟩
        · rw [e] at hn0 ⊢
          rcases hself with ⟨-, hz⟩ | ⟨hlt, he⟩
          · exact hz
          · rw [he] at hn0 ⊢; exact hi.ns q hq0 hlt hn0
        · rw [e] at hn0; exact absurd hn0 (by decide)
        · exact absurd hn0 e4
      · obtain ⟨hlt, he⟩ := hq q hq0 hq1 hpq
        rw [lookUp_other _ _ _ _ _ hpq, he] at hn0 ⊢
        exact hi.ns q hq0 hlt hn0
  unfold sweepOne at h
  by_cases hz : c.area v.2 = nullArea
  · rw [if_pos hz] at h
    simp only [Option.some.injEq] at h
    subst h
    refine ⟨⟨hi.rid, ?_, ?_, ?_, ?_, ?_, hi.ns⟩, by omega⟩
    · intro i hi'; exact hi.out i fun w hw => hi' w (by simp [hw])
    · intro w hw hw0
      rcases List.mem_append.1 hw with hw | hw
      · exact hi.zero w hw hw0
      · simp only [List.mem_singleton] at hw; subst hw; exact hsv
    · intro w hw hw0
      rcases List.mem_append.1 hw with hw | hw
      · exact hi.pos w hw hw0
      · simp only [List.mem_singleton] at hw; subst hw; exact absurd hz hw0
    · intro p hp
      refine (hi.conn p hp).congr fun i => ?_
      constructor
      · rintro ⟨⟨w, hw, rfl⟩, h2⟩
        rcases List.mem_append.1 hw with hw | hw
        · exact ⟨⟨w, hw, rfl⟩, h2⟩
        · simp only [List.mem_singleton] at hw; subst hw; rw [hsv] at h2; exact absurd h2.symm hp
      · rintro ⟨⟨w, hw, rfl⟩, h2⟩; exact ⟨⟨w, by simp [hw], rfl⟩, h2⟩
    · intro p h1 h2 h3 h4
      obtain ⟨g1, w, hw, g2⟩ := hi.nei p h1 h2 h3 h4
      exact ⟨g1, w, by simp [hw], g2⟩
  · rw [if_neg hz] at h
    by_cases hp : leftId c st.src v ≠ 0
    · rw [if_pos hp] at h
      simp only [Option.some.injEq] at h
      subst h
      -- the neighbour at -x has been swept
      obtain ⟨a, ha1, ha2, ha3, ha4⟩ : ∃ a, (∃ w ∈ done, w.2 = a) ∧ st.src a = leftId c st.src v ∧ Linked c v.2 a ∧
          c.area v.2 = c.area a := by
        unfold leftId at hp ⊢
        split at hp
        · exact absurd rfl hp
        · rename_i q ai hq
          split at hp
          · rename_i hb
            rw [if_pos hb]
            have hat : c.At v.1.1 v.1.2 v.2 := by rw [v3]; exact v4
            obtain ⟨g1, g2, g3, g4⟩ := hc.nb_some hat (by decide) hq
            have hd := dir0
            have hq2 : q.2 = y := by omega
            have hq1 : q.1 + 1 = v.1.1 := by omega
            refine ⟨ai, ?_, rfl, Or.inl ⟨0, by decide, g4⟩, hb.2⟩
            by_cases hx : bs ≤ q.1
            · have hm : (q, ai) ∈ rowSpans c bs y := (mem_rowSpans hy _).2 ⟨hx, by show q.1 + bs < c.w; omega, hq2, hq2 ▸ g1⟩
              rw [hl] at hm
              rcases List.mem_append.1 hm with hm | hm
              · exact ⟨_, hm, rfl⟩
              · exfalso
                rcases List.mem_cons.1 hm with rfl | hm
                · simp at hq1
                · have := (hpw.2.1.1 _ hm).2
                  simp only at this
                  omega
            · exfalso
              have h5 := h0.2 q.1 ai (by omega) (hq2 ▸ g1) (by rw [← hb.2]; exact hz)
              have h6 := isBorder_false.1 hb.1
              rw [hi.out ai ?_] at h6
              · omega
              · intro w hw he
                have := (mem_rowSpans hy w).1 (hsub w hw)
                have h7 := this.2.2.2
                rw [he] at h7
                obtain ⟨k1, -⟩ := hc.unique _ _ _ _ _ h7 g1
                omega
          · exact absurd rfl hp
      have hpr : leftId c st.src v < st.rid := by
        obtain ⟨w, hw, rfl⟩ := ha1
        have := (hi.pos w hw (by rw [← ha4]; exact hz)).2
        omega
      have := finish (leftId c st.src v) st hp hpr le_rfl (by omega) rfl hz (Or.inr ⟨a, ha1, ha2, ha3, ha4⟩)
        (fun q _ h1 _ => ⟨h1, rfl⟩) (Or.inr ⟨hpr, rfl⟩)
      exact this
    · rw [if_neg hp] at h
      by_cases hr : st.rid < nsweeps
      · rw [if_pos hr] at h
        simp only [Option.some.injEq] at h
        subst h
        have := finish st.rid { st with rid := st.rid + 1, sweeps := upd st.sweeps st.rid ⟨(st.sweeps st.rid).id, 0, 0⟩ }
          hi.rid.ne' (by simp) (by simp) le_rfl rfl hz (Or.inl rfl) (fun q h0 h1 h2 => by
            simp only at h1
            exact ⟨by omega, upd_ne _ _ h2⟩) (Or.inl (by simp))
        exact this
      · rw [if_neg hr] at h
        exact absurd h (by simp)

theorem sweep_fold {c : Chf} (hc : c.Wf) {bs y : Nat} (hy : y < c.h) {src0 : Nat → Nat} (h0 : RowStart c bs y src0)
    {nsweeps : Nat} (rest : List ((Nat × Nat) × Nat)) : ∀ (done : List ((Nat × Nat) × Nat)) (st st' : RowSt),
    rowSpans c bs y = done ++ rest → RowInv c y src0 done st → rest.foldlM (sweepOne c nsweeps) st = some st' →
    RowInv c y src0 (rowSpans c bs y) st' := by
  induction rest with
  | nil =>
    intro done st st' hl hi h
    simp only [List.foldlM_nil, Option.pure_def, Option.some.injEq] at h
    rw [hl, List.append_nil, ← h]; exact hi
  | cons v rest ih =>
    intro done st st' hl hi h
    rw [List.foldlM_cons] at h
    cases h1 : sweepOne c nsweeps st v with
    | none => rw [h1] at h; exact absurd h (by simp)
    | some st1 =>
      rw [h1] at h
      exact ih (done ++ [v]) st1 st' (by rw [hl]; simp) (sweepOne_inv hc hy h0 hl hi h1).1 h

/-- A row with few walkable spans is swept without panic. -/
theorem sweep_runs (c : Chf) (nsweeps : Nat) (l : List ((Nat × Nat) × Nat)) : ∀ st : RowSt,
    st.rid + (l.filter fun v => c.area v.2 ≠ 0).length ≤ nsweeps → ∃ st', l.foldlM (sweepOne c nsweeps) st = some st' := by
  induction l with
  | nil => intro st _; exact ⟨st, rfl⟩
  | cons v l ih =>
    intro st hle
    rw [List.foldlM_cons]
    have : ∃ st1, sweepOne c nsweeps st v = some st1 ∧ st1.rid + (l.filter fun v => c.area v.2 ≠ 0).length ≤ nsweeps := by
      unfold sweepOne
      by_cases hz : c.area v.2 = nullArea
      · rw [if_pos hz]
        refine ⟨st, rfl, ?_⟩
        have hz' : c.area v.2 = 0 := hz
        rw [List.filter_cons_of_neg (by simp [hz'])] at hle
        exact hle
      · rw [if_neg hz]
        have hz' : c.area v.2 ≠ 0 := hz
        rw [List.filter_cons_of_pos (by simp [hz']), List.length_cons] at hle
        by_cases hp : leftId c st.src v ≠ 0
        · rw [if_pos hp]
          refine ⟨_, rfl, ?_⟩
          dsimp only
          rw [lookUp_rid]; omega
        · rw [if_neg hp, if_pos (by omega)]
          refine ⟨_, rfl, ?_⟩
          dsimp only
          rw [lookUp_rid]; dsimp only; omega
    obtain ⟨st1, h1, h2⟩ := this
    rw [h1]
    exact ih st1 h2

/-! ## Naming the sweeps -/

/-- After naming: a sweep has the id of the region above it, or a new id that no other sweep has. -/
theorem nameSweeps_spec (prev : Nat → Nat) (l : List Nat) : ∀ st : Nat × (Nat → Sweep), l.Nodup →
    let nm := l.foldl (nameSweeps prev) st
    st.1 ≤ nm.1 ∧ nm.1 ≤ st.1 + l.length ∧ (∀ p, p ∉ l → nm.2 p = st.2 p) ∧
    (∀ p ∈ l, (((nm.2 p).id = (st.2 p).nei ∧ (st.2 p).nei ≠ 0 ∧ (st.2 p).nei ≠ nullNei) ∨
      (st.1 ≤ (nm.2 p).id ∧ (nm.2 p).id < nm.1 ∧ ∀ q ∈ l, (nm.2 q).id = (nm.2 p).id → q ≠ p →
        ((nm.2 q).id = (st.2 q).nei ∧ (st.2 q).nei ≠ 0 ∧ (st.2 q).nei ≠ nullNei)))) := by
  induction l with
  | nil => intro st _; simp
  | cons a l ih =>
    intro st hnd
    rw [List.nodup_cons] at hnd
    rw [List.foldl_cons]
    obtain ⟨g1, g2, g3, g4⟩ := ih (nameSweeps prev st a) hnd.2
    have hother : ∀ p, p ≠ a → (nameSweeps prev st a).2 p = st.2 p := by
      intro p hp
      unfold nameSweeps
      dsimp only
      split
      · exact upd_ne _ _ hp
      · exact upd_ne _ _ hp
    have hself : ((nameSweeps prev st a).1 = st.1 ∧ ((nameSweeps prev st a).2 a).id = (st.2 a).nei ∧ (st.2 a).nei ≠ 0 ∧ (st.2 a).nei ≠ nullNei) ∨
        ((nameSweeps prev st a).1 = st.1 + 1 ∧ ((nameSweeps prev st a).2 a).id = st.1) := by
      unfold nameSweeps
      dsimp only
      split
      · rename_i h
        left; dsimp only; rw [upd_same]; exact ⟨rfl, rfl, h.2.1, h.1⟩
      · right; dsimp only; rw [upd_same]; exact ⟨rfl, rfl⟩
    have ha := g3 a hnd.1
    refine ⟨by omega, by rw [List.length_cons]; omega, ?_, ?_⟩
    · intro p hp
      rw [List.mem_cons, not_or] at hp
      rw [g3 p hp.2, hother p hp.1]
    · intro p hp
      rcases List.mem_cons.1 hp with rfl | hp
      · rw [ha]
        rcases hself with ⟨-, h2⟩ | ⟨h1, h2⟩
        · exact Or.inl h2
        · right
          rw [h2]
          refine ⟨le_rfl, by omega, fun q hq he hqp => ?_⟩
          rcases List.mem_cons.1 hq with rfl | hq
          · exact absurd rfl hqp
          · rcases g4 q hq with h | ⟨h, -⟩
            · rw [hother q hqp] at h
              rwa [he] at h ⊢
            · omega
      · have hpa : p ≠ a := fun e => hnd.1 (e ▸ hp)
        rcases g4 p hp with h | ⟨h3, h4, h5⟩
        · rw [hother p hpa] at h; exact Or.inl h
        · right
          refine ⟨by omega, h4, fun q hq he hqp => ?_⟩
          rcases List.mem_cons.1 hq with rfl | hq
          · rw [ha] at he ⊢
            rcases hself with ⟨-, h2⟩ | ⟨h1, h2⟩
            · exact h2
            · omega
          · have := h5 q hq he hqp
            rwa [hother q (fun e => hnd.1 (e ▸ hq))] at this

theorem rename_fold (rid : Nat) (sw : Nat → Sweep) (l : List ((Nat × Nat) × Nat)) : ∀ src : Nat → Nat,
    l.Pairwise (fun u v => u.2 ≠ v.2) →
    (∀ v ∈ l, (l.foldl (renameOne rid sw) src) v.2 = if 0 < src v.2 ∧ src v.2 < rid then (sw (src v.2)).id else src v.2) ∧
    ∀ i, (∀ v ∈ l, v.2 ≠ i) → (l.foldl (renameOne rid sw) src) i = src i := by
  induction l with
  | nil => intro src _; simp
  | cons a l ih =>
    intro src hpw
    rw [List.pairwise_cons] at hpw
    rw [List.foldl_cons]
    have hs : ∀ i, i ≠ a.2 → renameOne rid sw src a i = src i := by
      intro i hi
      unfold renameOne
      split
      · exact upd_ne _ _ hi
      · rfl
    have ha : renameOne rid sw src a a.2 = if 0 < src a.2 ∧ src a.2 < rid then (sw (src a.2)).id else src a.2 := by
      unfold renameOne
      split
      · rw [upd_same]
      · rfl
    obtain ⟨g1, g2⟩ := ih (renameOne rid sw src a) hpw.2
    constructor
    · intro v hv
      rcases List.mem_cons.1 hv with rfl | hv
      · rw [g2 _ fun w hw => (hpw.1 w hw).symm, ha]
      · rw [g1 v hv, hs _ (hpw.1 v hv).symm]
    · intro i hi
      rw [g2 i fun w hw => hi w (by simp [hw]), hs i fun e => hi a (by simp) e.symm]

/-! ## All rows -/

/-- What is known when the rows below `y` have been swept. -/
structure PartInv (c : Chf) (bs y : Nat) (id : Nat) (src : Nat → Nat) : Prop where
  idpos : 0 < id
  null : ∀ i < c.n, c.area i = 0 → src i = 0
  lt : ∀ i < c.n, src i < 0x8000 → src i < id
  piece : ∀ r, 0 < r → r < 0x8000 → OnePiece c fun i => i < c.n ∧ src i = r
  todo : ∀ x z i, bs ≤ x → x + bs < c.w → y ≤ z → z + bs < c.h → c.At x z i → src i = 0
  edge : ∀ x z i, x < bs → c.At x z i → c.area i ≠ 0 → 0x8000 ≤ src i
  done : ∀ x z i, bs ≤ x → x + bs < c.w → bs ≤ z → z < y → z + bs < c.h → c.At x z i → c.area i ≠ 0 → 0 < src i ∧ src i < id
  outer : ∀ i < c.n, ¬ Inner c bs i → c.area i ≠ 0 → 0x8000 ≤ src i ∧ src i < 0x8000 + 5

theorem sweepRow_inv {c : Chf} (hc : c.Wf) {nsweeps bs y id id' : Nat} {src src' : Nat → Nat} (hy0 : bs ≤ y) (hy : y + bs < c.h)
    (hi : PartInv c bs y id src) (h : sweepRow c nsweeps bs (id, src) y = some (id', src')) (hid : id' ≤ 0x8000) :
    PartInv c bs (y + 1) id' src' ∧ id ≤ id' := by
  have hyh : y < c.h := by omega
  have hstart : RowStart c bs y src := by
    refine ⟨fun v hv => ?_, fun x i hx hat ha => hi.edge x y i hx hat ha⟩
    obtain ⟨v1, v2, v3, v4⟩ := (mem_rowSpans hyh v).1 hv
    exact hi.todo v.1.1 y v.2 v1 v2 le_rfl hy v4
  unfold sweepRow at h
  dsimp only at h
  change Option.map _ (List.foldlM (sweepOne c nsweeps) _ (rowSpans c bs y)) = _ at h
  cases hf : (rowSpans c bs y).foldlM (sweepOne c nsweeps) ⟨1, fun _ => ⟨0, 0, 0⟩, fun _ => 0, src⟩ with
  | none => rw [hf] at h; exact absurd h (by simp)
  | some r =>
    rw [hf, Option.map_some, Option.some.injEq, Prod.mk.injEq] at h
    obtain ⟨h1, h2⟩ := h
    have hr : RowInv c y src (rowSpans c bs y) r := sweep_fold hc hyh hstart _ [] _ _ rfl
      ⟨Nat.one_pos, fun _ _ => rfl, by simp, by simp, fun p _ => OnePiece.single (v := 0) (by simp),
        fun p h1 h2 => absurd h2 (by simp only; omega), fun p h1 h2 => absurd h2 (by simp only; omega)⟩ hf
    have hpw := (rowSpans_pairwise hc bs hyh).imp fun h => h.1
    obtain ⟨s1, s2⟩ := rename_fold r.rid ((List.range' 1 (r.rid - 1)).foldl (nameSweeps r.prev) (id, r.sweeps)).2 _ r.src hpw
    obtain ⟨n1, n2, n3, n4⟩ := nameSweeps_spec r.prev (List.range' 1 (r.rid - 1)) (id, r.sweeps) List.nodup_range'
    change (rowSpans c bs y).foldl _ _ = src' at h2
    rw [h1] at n1 n4
    rw [h2] at s1 s2
    dsimp only at n1 n4
    generalize ((List.range' 1 (r.rid - 1)).foldl (nameSweeps r.prev) (id, r.sweeps)).2 = sw at *
    have hrow : ∀ i, (∃ v ∈ rowSpans c bs y, v.2 = i) ↔ ∃ x, bs ≤ x ∧ x + bs < c.w ∧ c.At x y i := by
      intro i
      constructor
      · rintro ⟨v, hv, rfl⟩
        obtain ⟨v1, v2, v3, v4⟩ := (mem_rowSpans hyh v).1 hv
        exact ⟨_, v1, v2, v4⟩
      · rintro ⟨x, h1, h2, h3⟩
        exact ⟨((x, y), i), (mem_rowSpans hyh _).2 ⟨h1, h2, rfl, h3⟩, rfl⟩
    -- spans of the row and other spans
    have hin : ∀ v ∈ rowSpans c bs y, c.area v.2 ≠ 0 → src' v.2 = (sw (r.src v.2)).id ∧ 0 < r.src v.2 ∧ r.src v.2 < r.rid := by
      intro v hv ha
      have := hr.pos v hv ha
      rw [s1 v hv, if_pos this]
      exact ⟨rfl, this⟩
    have hin0 : ∀ v ∈ rowSpans c bs y, c.area v.2 = 0 → src' v.2 = 0 := by
      intro v hv ha
      rw [s1 v hv, hr.zero v hv ha, if_neg (by simp)]
    have hout : ∀ i, (∀ v ∈ rowSpans c bs y, v.2 ≠ i) → src' i = src i := by
      intro i hi'
      rw [s2 i hi', hr.out i hi']
    have hnot : ∀ x z i, c.At x z i → z ≠ y → ∀ v ∈ rowSpans c bs y, v.2 ≠ i := by
      rintro x z i hat hz v hv rfl
      have := ((mem_rowSpans hyh v).1 hv).2.2.2
      exact hz (hc.unique _ _ _ _ _ hat this).2
    -- the sweeps and the region above them
    have hsw : ∀ p, 0 < p → p < r.rid →
        (((sw p).id < id ∧ 0 < (sw p).id ∧ ∃ v ∈ rowSpans c bs y, r.src v.2 = p ∧ ∃ j, Linked c v.2 j ∧ c.area v.2 = c.area j ∧
          src j = (sw p).id ∧ j < c.n ∧ ∀ v ∈ rowSpans c bs y, v.2 ≠ j) ∨
        (id ≤ (sw p).id ∧ (sw p).id < id' ∧ ∀ q, 0 < q → q < r.rid → (sw q).id = (sw p).id → q = p)) := by
      intro p hp0 hp1
      have up : ∀ p, 0 < p → p < r.rid → ((sw p).id = (r.sweeps p).nei ∧ (r.sweeps p).nei ≠ 0 ∧ (r.sweeps p).nei ≠ nullNei) →
          ((sw p).id < id ∧ 0 < (sw p).id ∧ ∃ v ∈ rowSpans c bs y, r.src v.2 = p ∧ ∃ j, Linked c v.2 j ∧ c.area v.2 = c.area j ∧
          src j = (sw p).id ∧ j < c.n ∧ ∀ v ∈ rowSpans c bs y, v.2 ≠ j) := by
        rintro p hp0 hp1 ⟨e1, e2, e3⟩
        obtain ⟨g1, v, hv, g2, j, g3, g4, g5, g6⟩ := hr.nei p hp0 hp1 e2 e3
        have hj : j < c.n := by
          rcases g3 with ⟨d, hd, x, y', nx, ny, k1, k2, -⟩ | ⟨d, hd, x, y', nx, ny, k1, k2, -⟩
          · exact hc.lt _ _ _ k2
          · exact hc.lt _ _ _ k1
        rw [e1]
        refine ⟨?_, by omega, v, hv, g2, j, g3, g4, g5, hj, ?_⟩
        · rw [← g5]; exact hi.lt j hj (by omega)
        · rintro w hw rfl
          exact g6 _ ((mem_rowSpans hyh w).1 hw).2.2.2
      rcases n4 p (by rw [List.mem_range'_1]; omega) with h | ⟨h1, h2, h3⟩
      · exact Or.inl (up p hp0 hp1 h)
      · right
        refine ⟨h1, h2, fun q hq0 hq1 he => ?_⟩
        by_contra hne
        have := up q hq0 hq1 (h3 q (by rw [List.mem_range'_1]; omega) he hne)
        omega
    refine ⟨⟨by have := hi.idpos; omega, ?_, ?_, ?_, ?_, ?_, ?_, ?_⟩, n1⟩
    · intro i hin' ha
      by_cases h : ∃ v ∈ rowSpans c bs y, v.2 = i
      · obtain ⟨v, hv, rfl⟩ := h
        exact hin0 v hv ha
      · push Not at h
        rw [hout i h]; exact hi.null i hin' ha
    · intro i hin' hb
      by_cases h : ∃ v ∈ rowSpans c bs y, v.2 = i
      · obtain ⟨v, hv, rfl⟩ := h
        by_cases ha : c.area v.2 = 0
        · rw [hin0 v hv ha]; have := hi.idpos; omega
        · obtain ⟨e1, e2, e3⟩ := hin v hv ha
          rw [e1]
          rcases hsw _ e2 e3 with h | h <;> omega
      · push Not at h
        rw [hout i h] at hb ⊢
        have := hi.lt i hin' hb
        omega
    · intro q hq0 hq1
      -- the spans of region `q` outside the row, and the sweeps named `q`
      have hold := hi.piece q hq0 hq1
      have hmem : ∀ i, (i < c.n ∧ src' i = q) ↔ ((i < c.n ∧ src i = q ∧ ∀ v ∈ rowSpans c bs y, v.2 ≠ i) ∨
          ∃ v ∈ rowSpans c bs y, v.2 = i ∧ c.area i ≠ 0 ∧ (sw (r.src i)).id = q) := by
        intro i
        by_cases h : ∃ v ∈ rowSpans c bs y, v.2 = i
        · obtain ⟨v, hv, rfl⟩ := h
          constructor
          · rintro ⟨-, h2⟩
            by_cases ha : c.area v.2 = 0
            · rw [hin0 v hv ha] at h2; omega
            · exact Or.inr ⟨v, hv, rfl, ha, by rw [← (hin v hv ha).1]; exact h2⟩
          · rintro (⟨-, -, h2⟩ | ⟨w, hw, -, ha, h2⟩)
            · exact absurd rfl (h2 v hv)
            · exact ⟨hc.lt _ _ _ ((mem_rowSpans hyh v).1 hv).2.2.2, by rw [(hin v hv ha).1]; exact h2⟩
        · push Not at h
          rw [hout i h]
          constructor
          · rintro ⟨h1, h2⟩; exact Or.inl ⟨h1, h2, h⟩
          · rintro (⟨h1, h2, -⟩ | ⟨v, hv, he, -⟩)
            · exact ⟨h1, h2⟩
            · exact absurd he (h v hv)
      have hpiece : ∀ p, 0 < p → OnePiece c fun i => (∃ w ∈ rowSpans c bs y, w.2 = i) ∧ r.src i = p :=
        fun p hp => hr.conn p (by omega)
      by_cases hq : q < id
      · -- an old region, joined by every sweep named after it
        have old_row : ∀ i, src i = q → ∀ v ∈ rowSpans c bs y, v.2 ≠ i := by
          rintro i hs v hv rfl
          have := hstart.1 v hv
          omega
        by_cases hex : ∃ v ∈ rowSpans c bs y, c.area v.2 ≠ 0 ∧ (sw (r.src v.2)).id = q
        · obtain ⟨v0, hv0, ha0, he0⟩ := hex
          obtain ⟨-, e2, e3⟩ := hin v0 hv0 ha0
          obtain ⟨k, hk, hkq⟩ : ∃ k, k < c.n ∧ src k = q := by
            rcases hsw _ e2 e3 with ⟨-, -, v, hv, -, j, -, -, h4, h5, -⟩ | ⟨h, -⟩
            · exact ⟨j, h5, by rw [h4, he0]⟩
            · omega
          have hsub : ∀ i, (i < c.n ∧ src i = q) → i < c.n ∧ src' i = q := fun i h =>
            (hmem i).2 (Or.inl ⟨h.1, h.2, old_row i h.2⟩)
          have key : ∀ i, i < c.n ∧ src' i = q → c.area i = c.area k ∧ Joined c (fun i => i < c.n ∧ src' i = q) i k := by
            intro i hi'
            rcases (hmem i).1 hi' with ⟨g1, g2, -⟩ | ⟨v, hv, rfl, g1, g2⟩
            · obtain ⟨k1, k2⟩ := hold i k ⟨g1, g2⟩ ⟨hk, hkq⟩
              exact ⟨k1, k2.mono hsub⟩
            · obtain ⟨-, e2, e3⟩ := hin v hv g1
              rcases hsw _ e2 e3 with ⟨-, -, w, hw, f1, j, f2, f3, f4, f5, f6⟩ | ⟨h, -⟩
              · have hwa : r.src v.2 = r.src w.2 := f1.symm
                obtain ⟨k1, k2⟩ := hpiece _ e2 v.2 w.2 ⟨⟨v, hv, rfl⟩, rfl⟩ ⟨⟨w, hw, rfl⟩, f1⟩
                obtain ⟨k3, k4⟩ := hold j k ⟨f5, by rw [f4, g2]⟩ ⟨hk, hkq⟩
                have hTS : ∀ i, ((∃ w ∈ rowSpans c bs y, w.2 = i) ∧ r.src i = r.src v.2) → i < c.n ∧ src' i = q := by
                  rintro i ⟨⟨u, hu, rfl⟩, hs⟩
                  refine (hmem _).2 (Or.inr ⟨u, hu, rfl, ?_, by rw [hs]; exact g2⟩)
                  intro h0
                  have := hr.zero u hu h0
                  omega
                refine ⟨by rw [k1, f3, k3], (k2.mono hTS).trans ((Joined.one (hTS _ ⟨⟨w, hw, rfl⟩, f1⟩)
                  (hsub _ ⟨f5, by rw [f4, g2]⟩) f2).trans (k4.mono hsub))⟩
              · omega
          intro i j hi' hj'
          obtain ⟨h1, h2⟩ := key i hi'
          obtain ⟨h3, h4⟩ := key j hj'
          exact ⟨by rw [h1, h3], h2.trans h4.symm⟩
        · refine hold.congr fun i => ?_
          rw [hmem i]
          constructor
          · rintro (⟨g1, g2, -⟩ | ⟨v, hv, rfl, g1, g2⟩)
            · exact ⟨g1, g2⟩
            · exact absurd ⟨v, hv, g1, g2⟩ hex
          · rintro ⟨g1, g2⟩
            exact Or.inl ⟨g1, g2, old_row i g2⟩
      · -- a new region: one sweep
        by_cases hex : ∃ v ∈ rowSpans c bs y, c.area v.2 ≠ 0 ∧ (sw (r.src v.2)).id = q
        · obtain ⟨v0, hv0, ha0, he0⟩ := hex
          obtain ⟨-, e2, e3⟩ := hin v0 hv0 ha0
          rcases hsw _ e2 e3 with ⟨h, -⟩ | ⟨-, -, huniq⟩
          · omega
          refine (hpiece _ e2).congr fun i => ?_
          rw [hmem i]
          constructor
          · rintro (⟨g1, g2, -⟩ | ⟨v, hv, rfl, g1, g2⟩)
            · have := hi.lt i g1 (by omega); omega
            · obtain ⟨-, k2, k3⟩ := hin v hv g1
              exact ⟨⟨v, hv, rfl⟩, huniq _ k2 k3 (by rw [g2, he0])⟩
          · rintro ⟨⟨v, hv, rfl⟩, hs⟩
            refine Or.inr ⟨v, hv, rfl, ?_, by rw [hs]; exact he0⟩
            intro h0
            have := hr.zero v hv h0
            omega
        · refine OnePiece.single (v := 0) fun i hi' => ?_
          rcases (hmem i).1 hi' with ⟨g1, g2, -⟩ | ⟨v, hv, rfl, g1, g2⟩
          · have := hi.lt i g1 (by omega); omega
          · exact absurd ⟨v, hv, g1, g2⟩ hex
    · intro x z i h1 h2 h3 h4 h5
      rw [hout i (hnot x z i h5 (by omega))]
      exact hi.todo x z i h1 h2 (by omega) h4 h5
    · intro x z i h1 h2 h3
      rw [hout i ?_]
      · exact hi.edge x z i h1 h2 h3
      · rintro v hv rfl
        obtain ⟨v1, v2, v3, v4⟩ := (mem_rowSpans hyh v).1 hv
        have := (hc.unique _ _ _ _ _ h2 v4).1
        omega
    · intro x z i hx1 hx2 h3 h4 h4' h5 h6
      by_cases hz : z = y
      · subst hz
        obtain ⟨v, hv, rfl⟩ := (hrow i).2 ⟨x, hx1, hx2, h5⟩
        obtain ⟨e1, e2, e3⟩ := hin v hv h6
        rw [e1]
        have := hi.idpos
        rcases hsw _ e2 e3 with h | h <;> omega
      · rw [hout i (hnot x z i h5 hz)]
        have := hi.done x z i hx1 hx2 h3 (by omega) h4' h5 h6
        omega
    · intro i h1 h2 h3
      rw [hout i ?_]
      · exact hi.outer i h1 h2 h3
      · rintro v hv rfl
        obtain ⟨v1, v2, v3, v4⟩ := (mem_rowSpans hyh v).1 hv
        exact h2 ⟨_, y, v1, v2, hy0, hy, v4⟩

/-! ## The border -/

theorem mem_rectCells (x0 x1 y0 y1 : Nat) (p : Nat × Nat) :
    p ∈ (List.range' y0 (y1 - y0)).flatMap (fun y => rowCells x0 x1 y) ↔ x0 ≤ p.1 ∧ p.1 < x1 ∧ y0 ≤ p.2 ∧ p.2 < y1 := by
  simp only [List.mem_flatMap, List.mem_range'_1, mem_rowCells]
  constructor
  · rintro ⟨y, h1, h2, h3, rfl⟩; omega
  · rintro ⟨h1, h2, h3, h4⟩; exact ⟨p.2, by omega, h1, h2, rfl⟩

theorem paint_fold (area : Nat → Nat) (reg : Nat) (l : List ((Nat × Nat) × Nat)) (s : Nat → Nat) (i : Nat) :
    (area i ≠ 0 → (∃ v ∈ l, v.2 = i) → l.foldl (fun s v => if area v.2 ≠ nullArea then upd s v.2 reg else s) s i = reg) ∧
    (¬ (area i ≠ 0 ∧ ∃ v ∈ l, v.2 = i) → l.foldl (fun s v => if area v.2 ≠ nullArea then upd s v.2 reg else s) s i = s i) := by
  induction l generalizing s with
  | nil => simp
  | cons a l ih =>
    rw [List.foldl_cons]
    have hstep : (if area a.2 ≠ nullArea then upd s a.2 reg else s) i = if area a.2 ≠ 0 ∧ i = a.2 then reg else s i := by
      by_cases h : area a.2 = 0
      · rw [if_neg (show ¬ area a.2 ≠ nullArea from fun h' => h' h), if_neg (fun h' => h'.1 h)]
      · rw [if_pos (show area a.2 ≠ nullArea from h)]
        by_cases he : i = a.2
        · rw [if_pos ⟨h, he⟩, he, upd_same]
        · rw [if_neg (fun h' => he h'.2), upd_ne _ _ he]
    obtain ⟨g1, g2⟩ := ih (if area a.2 ≠ nullArea then upd s a.2 reg else s)
    constructor
    · intro h0 h1
      by_cases h2 : ∃ v ∈ l, v.2 = i
      · exact g1 h0 h2
      · obtain ⟨v, hv, he⟩ := h1
        rcases List.mem_cons.1 hv with rfl | hv
        · rw [g2 (fun h => h2 h.2), hstep, if_pos ⟨by rw [he]; exact h0, he.symm⟩]
        · exact absurd ⟨v, hv, he⟩ h2
    · intro hn
      rw [g2 (fun h => hn ⟨h.1, by obtain ⟨v, hv, e⟩ := h.2; exact ⟨v, by simp [hv], e⟩⟩), hstep, if_neg]
      rintro ⟨h1, rfl⟩
      exact hn ⟨h1, a, by simp, rfl⟩

theorem paintRect_spec {c : Chf} (hc : c.Wf) {x0 x1 y0 y1 reg : Nat} (hx : x1 ≤ c.w) (hy : y1 ≤ c.h) (s : Nat → Nat) {x y i : Nat}
    (hat : c.At x y i) : paintRect c x0 x1 y0 y1 reg s i =
      if c.area i ≠ 0 ∧ x0 ≤ x ∧ x < x1 ∧ y0 ≤ y ∧ y < y1 then reg else s i := by
  unfold paintRect
  have : (∃ v ∈ c.spansOf ((List.range' y0 (y1 - y0)).flatMap fun y => rowCells x0 x1 y), v.2 = i) ↔
      x0 ≤ x ∧ x < x1 ∧ y0 ≤ y ∧ y < y1 := by
    have hps : ∀ p ∈ (List.range' y0 (y1 - y0)).flatMap (fun y => rowCells x0 x1 y), p.1 < c.w ∧ p.2 < c.h := by
      intro p hp
      have := (mem_rectCells _ _ _ _ p).1 hp
      omega
    constructor
    · rintro ⟨v, hv, rfl⟩
      obtain ⟨h1, h2⟩ := (c.mem_spansOf _ v hps).1 hv
      have := (mem_rectCells _ _ _ _ _).1 h1
      obtain ⟨e1, e2⟩ := hc.unique _ _ _ _ _ hat h2
      omega
    · intro h
      exact ⟨((x, y), i), (c.mem_spansOf _ _ hps).2 ⟨(mem_rectCells _ _ _ _ _).2 h, hat⟩, rfl⟩
  obtain ⟨g1, g2⟩ := paint_fold c.area reg (c.spansOf ((List.range' y0 (y1 - y0)).flatMap fun y => rowCells x0 x1 y)) s i
  by_cases h : c.area i ≠ 0 ∧ x0 ≤ x ∧ x < x1 ∧ y0 ≤ y ∧ y < y1
  · rw [if_pos h]; exact g1 h.1 (this.2 h.2)
  · rw [if_neg h]; exact g2 fun h' => h ⟨h'.1, this.1 h'.2⟩

theorem paintBorder_inv {c : Chf} (hc : c.Wf) (bs : Nat) :
    PartInv c bs bs (paintBorder c bs).1 (paintBorder c bs).2 := by
  by_cases hb : 0 < bs
  · have key : ∀ x y i, c.At x y i → c.area i ≠ 0 →
        (¬ (bs ≤ x ∧ x + bs < c.w ∧ bs ≤ y ∧ y + bs < c.h) → 0x8000 ≤ (paintBorder c bs).2 i ∧ (paintBorder c bs).2 i < 0x8000 + 5) ∧
        ((bs ≤ x ∧ x + bs < c.w ∧ bs ≤ y ∧ y + bs < c.h) → (paintBorder c bs).2 i = 0) := by
      intro x y i hat ha
      have hx := hat.1
      have hy := hat.2.1
      unfold paintBorder
      rw [if_pos hb]
      dsimp only
      rw [paintRect_spec hc le_rfl le_rfl _ hat, paintRect_spec hc le_rfl (by omega) _ hat,
        paintRect_spec hc le_rfl le_rfl _ hat, paintRect_spec hc (by omega) le_rfl _ hat]
      split
      · constructor <;> intro h <;> omega
      · split
        · constructor <;> intro h <;> omega
        · split
          · constructor <;> intro h <;> omega
          · split
            · constructor <;> intro h <;> omega
            · constructor <;> intro h <;> omega
    have key0 : ∀ x y i, c.At x y i → c.area i = 0 → (paintBorder c bs).2 i = 0 := by
      intro x y i hat ha
      unfold paintBorder
      rw [if_pos hb]
      dsimp only
      rw [paintRect_spec hc le_rfl le_rfl _ hat, paintRect_spec hc le_rfl (by omega) _ hat,
        paintRect_spec hc le_rfl le_rfl _ hat, paintRect_spec hc (by omega) le_rfl _ hat]
      simp [ha]
    have hid : (paintBorder c bs).1 = 5 := by unfold paintBorder; rw [if_pos hb]
    have hval : ∀ i < c.n, (paintBorder c bs).2 i = 0 ∨ 0x8000 ≤ (paintBorder c bs).2 i := by
      intro i hi
      obtain ⟨x, y, hat⟩ := hc.cell i hi
      by_cases ha : c.area i = 0
      · exact Or.inl (key0 x y i hat ha)
      · by_cases h : bs ≤ x ∧ x + bs < c.w ∧ bs ≤ y ∧ y + bs < c.h
        · exact Or.inl ((key x y i hat ha).2 h)
        · exact Or.inr ((key x y i hat ha).1 h).1
    refine ⟨by omega, ?_, ?_, ?_, ?_, ?_, ?_, ?_⟩
    · intro i hi ha
      obtain ⟨x, y, hat⟩ := hc.cell i hi
      exact key0 x y i hat ha
    · intro i hi h
      rcases hval i hi with h' | h' <;> omega
    · intro r h1 h2
      refine OnePiece.single (v := 0) ?_
      rintro i ⟨hi, rfl⟩
      rcases hval i hi with h' | h' <;> omega
    · intro x z i h1 h2 h3 h4 hat
      by_cases ha : c.area i = 0
      · exact key0 x z i hat ha
      · exact (key x z i hat ha).2 ⟨h1, h2, h3, h4⟩
    · intro x z i h1 hat ha
      exact ((key x z i hat ha).1 (by omega)).1
    · intro x z i h1 h2 h3 h4
      omega
    · intro i hi hn ha
      obtain ⟨x, y, hat⟩ := hc.cell i hi
      exact (key x y i hat ha).1 fun h => hn ⟨x, y, h.1, h.2.1, h.2.2.1, h.2.2.2, hat⟩
  · have : paintBorder c bs = (1, fun _ => 0) := by unfold paintBorder; rw [if_neg hb]
    rw [this]
    have hb0 : bs = 0 := by omega
    subst hb0
    refine ⟨by decide, fun _ _ _ => rfl, fun _ _ _ => Nat.one_pos, ?_, fun _ _ _ _ _ _ _ _ => rfl, ?_, ?_, ?_⟩
    · intro r h1 h2
      refine OnePiece.single (v := 0) ?_
      rintro i ⟨hi, h⟩
      exact absurd h (by dsimp only; omega)
    · intro x z i h; omega
    · intro x z i h1 h2 h3 h4; omega
    · intro i hi hn
      obtain ⟨x, y, hat⟩ := hc.cell i hi
      exact absurd ⟨x, y, by omega, by have := hat.1; omega, by omega, by have := hat.2.1; omega, hat⟩ hn

/-! ## The partition -/

theorem sweepRow_id (c : Chf) (nsweeps bs y : Nat) (st st' : Nat × (Nat → Nat)) (h : sweepRow c nsweeps bs st y = some st') :
    st.1 ≤ st'.1 := by
  unfold sweepRow at h
  dsimp only at h
  rw [Option.map_eq_some_iff] at h
  obtain ⟨r, -, rfl⟩ := h
  exact (nameSweeps_spec r.prev (List.range' 1 (r.rid - 1)) (st.1, r.sweeps) List.nodup_range').1

theorem rows_id (c : Chf) (nsweeps bs : Nat) (l : List Nat) : ∀ st st' : Nat × (Nat → Nat),
    l.foldlM (sweepRow c nsweeps bs) st = some st' → st.1 ≤ st'.1 := by
  induction l with
  | nil => intro st st' h; simp at h; rw [h]
  | cons y l ih =>
    intro st st' h
    rw [List.foldlM_cons] at h
    cases h1 : sweepRow c nsweeps bs st y with
    | none => rw [h1] at h; exact absurd h (by simp)
    | some st1 => rw [h1] at h; exact (sweepRow_id _ _ _ _ _ _ h1).trans (ih st1 st' h)

theorem rows_inv {c : Chf} (hc : c.Wf) (nsweeps bs k : Nat) : ∀ (y : Nat) (st st' : Nat × (Nat → Nat)), bs ≤ y → y + k + bs ≤ c.h →
    PartInv c bs y st.1 st.2 → (List.range' y k).foldlM (sweepRow c nsweeps bs) st = some st' → st'.1 ≤ 0x8000 →
    PartInv c bs (y + k) st'.1 st'.2 := by
  induction k with
  | zero =>
    intro y st st' _ _ hi h _
    simp at h
    rw [← h]; exact hi
  | succ k ih =>
    intro y st st' hb hy hi h hid
    rw [List.range'_succ, List.foldlM_cons] at h
    cases h1 : sweepRow c nsweeps bs st y with
    | none => rw [h1] at h; exact absurd h (by simp)
    | some st1 =>
      rw [h1] at h
      have hle := rows_id _ _ _ _ _ _ h
      obtain ⟨g1, -⟩ := sweepRow_inv hc hb (by omega) hi h1 (by omega)
      have := ih (y + 1) st1 st' (by omega) (by omega) g1 h hid
      rwa [show y + 1 + k = y + (k + 1) by omega] at this

/-- What the partition is, before regions are filtered: `id` is the next free region id. -/
structure Partitioned (c : Chf) (bs id : Nat) (src : Nat → Nat) : Prop where
  null : ∀ i < c.n, c.area i = 0 → src i = 0
  inner : ∀ i, Inner c bs i → c.area i ≠ 0 → 0 < src i ∧ src i < id
  outer : ∀ i < c.n, ¬ Inner c bs i → c.area i ≠ 0 → 0x8000 ≤ src i ∧ src i < 0x8000 + 5
  piece : ∀ r, 0 < r → r < 0x8000 → OnePiece c fun i => i < c.n ∧ src i = r

/-- **C94** When the sweeps complete, every walkable span of the inside is in a region, every walkable span of the border
in a border region, the others in none; and each region is one connected piece of one area type. -/
theorem partition_pieces {c : Chf} (hc : c.Wf) (bs : Nat) {id : Nat} {src : Nat → Nat} (h : partition c bs = some (id, src))
    (hid : id ≤ 0x8000) : Partitioned c bs id src := by
  unfold partition at h
  by_cases hb : bs + bs ≤ c.h
  · have := rows_inv hc _ bs (c.h - bs - bs) bs _ (id, src) le_rfl (by omega) (paintBorder_inv hc bs) h hid
    refine ⟨this.null, ?_, this.outer, this.piece⟩
    rintro i ⟨x, y, h1, h2, h3, h4, h5⟩ ha
    exact this.done x y i h1 h2 h3 (by omega) h4 h5 ha
  · rw [show c.h - bs - bs = 0 by omega] at h
    simp at h
    have := paintBorder_inv hc bs
    rw [h] at this
    refine ⟨this.null, ?_, this.outer, this.piece⟩
    rintro i ⟨x, y, h1, h2, h3, h4, h5⟩ ha
    omega

/-- **C52** (partial). The sweeps complete if every row has fewer walkable spans than the grid has rows or columns.
Missing: other fields, for which it is false, see `partition_panics_refuted`. -/
theorem partition_runs_partial (c : Chf) (bs : Nat)
    (hrow : ∀ y, bs ≤ y → y + bs < c.h →
      ((c.spansOf (rowCells bs (c.w - bs) y)).filter fun v => c.area v.2 ≠ 0).length < max c.w c.h) :
    ∃ id src, partition c bs = some (id, src) := by
  have gen : ∀ (k y : Nat) (st : Nat × (Nat → Nat)), bs ≤ y → y + k + bs ≤ c.h →
      ∃ st', (List.range' y k).foldlM (sweepRow c (max c.w c.h) bs) st = some st' := by
    intro k
    induction k with
    | zero => intro y st _ _; exact ⟨st, rfl⟩
    | succ k ih =>
      intro y st hb hy
      rw [List.range'_succ, List.foldlM_cons]
      have hr := hrow y hb (by omega)
      obtain ⟨r, hr⟩ := sweep_runs c (max c.w c.h) (c.spansOf (rowCells bs (c.w - bs) y)) ⟨1, fun _ => ⟨0, 0, 0⟩, fun _ => 0, st.2⟩
        (by dsimp only; omega)
      have h1 : ∃ st1, sweepRow c (max c.w c.h) bs st y = some st1 := by
        unfold sweepRow
        dsimp only
        rw [hr]
        exact ⟨_, rfl⟩
      obtain ⟨st1, h1⟩ := h1
      rw [h1]
      exact ih (y + 1) st1 (by omega) (by omega)
  unfold partition
  by_cases hb : bs + bs ≤ c.h
  · obtain ⟨st', h⟩ := gen (c.h - bs - bs) bs (paintBorder c bs) le_rfl (by omega)
    exact ⟨_, _, h⟩
  · rw [show c.h - bs - bs = 0 by omega]
    exact ⟨_, _, rfl⟩

/-- A walkable span that starts a new sweep whatever came before: no neighbour at -x, or one of another area. -/
def Starts (c : Chf) (v : (Nat × Nat) × Nat) : Bool :=
  decide (c.area v.2 ≠ 0) && match c.nb v.1.1 v.1.2 v.2 0 with
    | none => true
    | some (_, ai) => decide (c.area v.2 ≠ c.area ai)

theorem sweep_count (c : Chf) (nsweeps : Nat) (l : List ((Nat × Nat) × Nat)) : ∀ st st' : RowSt, st.rid ≤ nsweeps →
    l.foldlM (sweepOne c nsweeps) st = some st' → st.rid + (l.filter (Starts c)).length ≤ st'.rid ∧ st'.rid ≤ nsweeps := by
  induction l with
  | nil =>
    intro st st' hn h
    simp only [List.foldlM_nil, Option.pure_def, Option.some.injEq] at h
    subst h
    exact ⟨by simp, hn⟩
  | cons v l ih =>
    intro st st' hn h
    rw [List.foldlM_cons] at h
    cases h1 : sweepOne c nsweeps st v with
    | none => rw [h1] at h; exact absurd h (by simp)
    | some st1 =>
      rw [h1] at h
      have hst : st1.rid ≤ nsweeps ∧ st.rid ≤ st1.rid ∧ (Starts c v = true → st1.rid = st.rid + 1) := by
        unfold sweepOne at h1
        by_cases hz : c.area v.2 = nullArea
        · rw [if_pos hz] at h1
          simp only [Option.some.injEq] at h1
          subst h1
          refine ⟨hn, le_rfl, fun h => ?_⟩
          have hz' : c.area v.2 = 0 := hz
          simp [Starts, hz'] at h
        · rw [if_neg hz] at h1
          by_cases hp : leftId c st.src v ≠ 0
          · rw [if_pos hp] at h1
            simp only [Option.some.injEq] at h1
            subst h1
            dsimp only
            rw [lookUp_rid]
            refine ⟨hn, le_rfl, fun h => ?_⟩
            exfalso
            apply hp
            unfold Starts at h
            unfold leftId
            cases hnb : c.nb v.1.1 v.1.2 v.2 0 with
            | none => rfl
            | some q =>
              rw [hnb] at h
              obtain ⟨q, ai⟩ := q
              simp only [Bool.and_eq_true, decide_eq_true_eq] at h
              exact if_neg fun h' => h.2 h'.2
          · rw [if_neg hp] at h1
            by_cases hr : st.rid < nsweeps
            · rw [if_pos hr] at h1
              simp only [Option.some.injEq] at h1
              subst h1
              dsimp only
              rw [lookUp_rid]
              exact ⟨hr, Nat.le_succ _, fun _ => rfl⟩
            · rw [if_neg hr] at h1
              exact absurd h1 (by simp)
      obtain ⟨g1, g2⟩ := ih st1 st' hst.1 h
      refine ⟨?_, g2⟩
      by_cases hs : Starts c v = true
      · rw [List.filter_cons_of_pos hs, List.length_cons]
        have := hst.2.2 hs
        omega
      · rw [List.filter_cons_of_neg hs]
        have := hst.2.1
        omega

/-- **C52** (refuted). `BuildRegionsMonotone` panics on every field whose first row starts as many sweeps as the grid
has rows or columns: sweeps are numbered from 1, but there is room for `max(width, height)` numbers from 0. The
field of one flat walkable cell is such a field. -/
theorem partition_panics_refuted :
    (∀ c : Chf, 0 < c.h → max c.w c.h ≤ ((c.spansOf (rowCells 0 c.w 0)).filter (Starts c)).length → partition c 0 = none) ∧
    ∃ f con, buildCompact 2 1 (plain 1) = some (f, con) ∧ (mkChf (plain 1) f con).Wf ∧ partition (mkChf (plain 1) f con) 0 = none := by
  have gen : ∀ c : Chf, 0 < c.h → max c.w c.h ≤ ((c.spansOf (rowCells 0 c.w 0)).filter (Starts c)).length → partition c 0 = none := by
    intro c hh hn
    have h1 : ∀ st, sweepRow c (max c.w c.h) 0 st 0 = none := by
      intro st
      cases hf : sweepRow c (max c.w c.h) 0 st 0 with
      | none => rfl
      | some r =>
        exfalso
        unfold sweepRow at hf
        dsimp only at hf
        rw [Option.map_eq_some_iff] at hf
        obtain ⟨r, hf, -⟩ := hf
        have := sweep_count c (max c.w c.h) _ _ r (by dsimp only; omega) hf
        rw [Nat.sub_zero] at this
        dsimp only at this
        omega
    unfold partition
    rw [show c.h - 0 - 0 = (c.h - 1) + 1 by omega, List.range'_succ, List.foldlM_cons, h1]
    rfl
  refine ⟨gen, ?_⟩
  obtain ⟨f, con, h0, hc, hn, hat, ha, hnb⟩ := plain_facts 1
  refine ⟨f, con, h0, hc, gen _ Nat.one_pos ?_⟩
  have hm : ((0, 0), 0) ∈ (mkChf (plain 1) f con).spansOf (rowCells 0 (mkChf (plain 1) f con).w 0) := by
    refine ((mkChf (plain 1) f con).mem_spansOf _ _ ?_).2 ⟨?_, (hat _ _ _).2 ⟨by decide, by decide, rfl⟩⟩
    · intro p hp
      have := (mem_rowCells _ _ _ p).1 hp
      exact ⟨this.2.1, by rw [this.2.2]; exact Nat.one_pos⟩
    · exact (mem_rowCells _ _ _ _).2 ⟨le_rfl, Nat.one_pos, rfl⟩
  have hs : Starts (mkChf (plain 1) f con) ((0, 0), 0) = true := by
    unfold Starts
    cases hnb' : (mkChf (plain 1) f con).nb 0 0 0 0 with
    | none =>
      rw [ha 0 (by decide)]
      rfl
    | some q =>
      exfalso
      obtain ⟨q, j⟩ := q
      have h1 := (hc.nb_some ((hat 0 0 0).2 ⟨by decide, by decide, rfl⟩) (by decide) hnb').2.1
      have := dir0.1
      omega
  show 1 ≤ _
  exact List.length_pos_of_mem (List.mem_filter.2 ⟨hm, hs⟩)

/-- The hypotheses of `partition_runs_partial` and `partition_pieces` are met, with border: the flat field of 4 x 4 cells
with a border of one cell (rows of two inner spans). -/
example : ∃ f con id src, buildCompact 2 1 (plain 4) = some (f, con) ∧ (mkChf (plain 4) f con).Wf ∧
    partition (mkChf (plain 4) f con) 1 = some (id, src) := by
  obtain ⟨f, con, h0, hc, hn, hat, ha, hnb⟩ := plain_facts 4
  obtain ⟨id, src, h⟩ := partition_runs_partial (mkChf (plain 4) f con) 1 (by
    intro y h1 h2
    have hy : y < 4 := by
      have : (mkChf (plain 4) f con).h = 4 := rfl
      omega
    refine lt_of_le_of_lt (List.length_filter_le _ _) ?_
    have hpw := rowSpans_pairwise hc 1 (y := y) hy
    have hlen : (rowSpans (mkChf (plain 4) f con) 1 y).length ≤ 2 := by
      have hnd : ((rowSpans (mkChf (plain 4) f con) 1 y).map fun v => v.1.1).Nodup := by
        unfold List.Nodup
        rw [List.pairwise_map]
        refine List.Pairwise.imp_of_mem ?_ hpw
        intro a b hma hmb hab he
        have h1 := ((mem_rowSpans hy a).1 hma).2.2.2
        have h2 := ((mem_rowSpans hy b).1 hmb).2.2.2
        rw [hat] at h1 h2
        omega
      have hsub : ((rowSpans (mkChf (plain 4) f con) 1 y).map fun v => v.1.1) ⊆ [1, 2] := by
        intro x hx
        obtain ⟨v, hv, rfl⟩ := List.mem_map.1 hx
        have := (mem_rowSpans hy v).1 hv
        have hw : (mkChf (plain 4) f con).w = 4 := rfl
        have : v.1.1 = 1 ∨ v.1.1 = 2 := by omega
        rcases this with h | h <;> simp [h]
      have := (hnd.subperm hsub).length_le
      simpa using this
    exact lt_of_le_of_lt hlen (by show 2 < max 4 4; decide))
  exact ⟨f, con, id, src, h0, hc, h⟩

end Verif.Recast
