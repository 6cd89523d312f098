/-
Collecting the heights around a polygon: `getHeightData` (recast/meshdetail.go:1221-1332).

Simplifications: the compact heightfield is the one of `Chf`; regions and heights of spans are arrays of their own; indices are
unbounded. The patch is a function of the cell. `seedArrayWithPolyCenter` is given by its result, a cell of the patch and one of its
spans, or a panic (`none`). A field with connections out of the grid is excluded by `Chf.Wf`.
-/
import Verif.Recast.ContourCorner
import Mathlib.Data.List.Basic

namespace Verif.Recast
open Verif Verif.Detour

set_option linter.unusedSimpArgs false
set_option linter.unusedVariables false

/-- Where the patch lies, borders not counted: `hp.xmin`, `hp.ymin`, `hp.width`, `hp.height` (recast/meshdetail.go:438-442). -/
structure PatchBox where
  xmin : Nat
  ymin : Nat
  w : Nat
  h : Nat

/-- The patch cell of a field cell (recast/meshdetail.go:1312-1319): differences below 0 are large when unsigned. -/
def PatchBox.cell (B : PatchBox) (bs ax ay : Nat) : Option (Nat × Nat) :=
  if B.xmin + bs ≤ ax ∧ B.ymin + bs ≤ ay ∧ ax - (B.xmin + bs) < B.w ∧ ay - (B.ymin + bs) < B.h then
    some (ax - (B.xmin + bs), ay - (B.ymin + bs)) else none

/-- The field cell of a patch cell (recast/meshdetail.go:1243-1246). -/
def PatchBox.field (B : PatchBox) (bs : Nat) (p : Nat × Nat) : Nat × Nat := (B.xmin + p.1 + bs, B.ymin + p.2 + bs)

/-- The cells of the patch, in the order of the loops (recast/meshdetail.go:1242-1245). -/
def PatchBox.cells (B : PatchBox) : List (Nat × Nat) := (List.range B.h).flatMap fun hy => (List.range B.w).map fun hx => (hx, hy)

/-- A height is stored. -/
def setCell (f : Nat × Nat → Nat) (p : Nat × Nat) (v : Nat) : Nat × Nat → Nat := fun q => if q = p then v else f q

/-- The first span of a cell in the region (recast/meshdetail.go:1249-1251). -/
def regionSpan (c : Chf) (reg : Nat → Nat) (region : Nat) (p : Nat × Nat) : Option Nat :=
  (((List.range (c.cells (p.1 + p.2 * c.w)).count).map fun k => (c.cells (p.1 + p.2 * c.w)).index + k)).find? fun i => reg i == region

/-- Some neighbour is not in the region (recast/meshdetail.go:1258-1269). -/
def borderAt (c : Chf) (reg : Nat → Nat) (region : Nat) (p : Nat × Nat) (i : Nat) : Bool :=
  [0, 1, 2, 3].any fun d => match c.nb p.1 p.2 i d with
    | none => false
    | some v => reg v.2 != region

/-- Heights, queue, and whether no height is stored yet. -/
structure FSt where
  data : Nat × Nat → Nat
  queue : List ((Nat × Nat) × Nat)
  empty : Bool

/-- One cell of the patch (recast/meshdetail.go:1246-1277). -/
def copyCell (c : Chf) (reg ys : Nat → Nat) (region bs : Nat) (B : PatchBox) (st : FSt) (p : Nat × Nat) : FSt :=
  match regionSpan c reg region (B.field bs p) with
  | none => st
  | some i => ⟨setCell st.data p (ys i), if borderAt c reg region (B.field bs p) i then st.queue ++ [(B.field bs p, i)] else st.queue, false⟩

/-- The heights of the region (recast/meshdetail.go:1230-1279). -/
def copyRegion (c : Chf) (reg ys : Nat → Nat) (region bs : Nat) (B : PatchBox) : FSt :=
  let st : FSt := ⟨fun _ => 65535, [], true⟩
  if region = 0 then st else B.cells.foldl (copyCell c reg ys region bs B) st

/-- The start from the seed if the region has no heights (recast/meshdetail.go:1283-1285, 1184-1191). -/
def withSeed (ys : Nat → Nat) (bs : Nat) (B : PatchBox) (seed : Option ((Nat × Nat) × Nat)) (st : FSt) : Option FSt :=
  if st.empty then seed.map fun v => ⟨setCell (fun _ => 65535) v.1 (ys v.2), [(B.field bs v.1, v.2)], true⟩ else some st

/-- Taking the head of the queue, with the cut after 256 items (recast/meshdetail.go:1294-1304). -/
def popHead (q : List ((Nat × Nat) × Nat)) (head : Nat) : List ((Nat × Nat) × Nat) × Nat :=
  if 256 ≤ head + 1 then (q.drop 256, 0) else (q, head + 1)

/-- One direction (recast/meshdetail.go:1307-1330). -/
def floodDir (c : Chf) (ys : Nat → Nat) (bs : Nat) (B : PatchBox) (v : (Nat × Nat) × Nat)
    (st : (Nat × Nat → Nat) × List ((Nat × Nat) × Nat)) (d : Nat) : (Nat × Nat → Nat) × List ((Nat × Nat) × Nat) :=
  match c.nb v.1.1 v.1.2 v.2 d with
  | none => st
  | some n => match B.cell bs n.1.1 n.1.2 with
    | none => st
    | some p => if st.1 p ≠ 65535 then st else (setCell st.1 p (ys n.2), st.2 ++ [n])

/-- The search over the queue (recast/meshdetail.go:1287-1331); the first argument bounds the rounds. -/
def floodLoop (c : Chf) (ys : Nat → Nat) (bs : Nat) (B : PatchBox) : Nat → (Nat × Nat → Nat) → List ((Nat × Nat) × Nat) → Nat → Option (Nat × Nat → Nat)
  | 0, data, q, head => if head < q.length then none else some data
  | fuel + 1, data, q, head =>
    match q[head]? with
    | none => some data
    | some v =>
      let st := [0, 1, 2, 3].foldl (floodDir c ys bs B v) (data, (popHead q head).1)
      floodLoop c ys bs B fuel st.1 st.2 (popHead q head).2

/-- `getHeightData` (recast/meshdetail.go:1221-1332): the heights, 0xffff where there is none. The bound on the rounds suffices, see
`heightData_region` and `heightData_seed`. -/
def heightData (c : Chf) (reg ys : Nat → Nat) (region bs : Nat) (B : PatchBox) (seed : Option ((Nat × Nat) × Nat)) : Option (Nat × Nat → Nat) :=
  (withSeed ys bs B seed (copyRegion c reg ys region bs B)).bind fun st => floodLoop c ys bs B (2 * (B.w * B.h) + 1) st.data st.queue 0

/-! ## The queue -/

/-- The search over a plain queue. -/
def floodQ (c : Chf) (ys : Nat → Nat) (bs : Nat) (B : PatchBox) : Nat → (Nat × Nat → Nat) → List ((Nat × Nat) × Nat) → Option (Nat × Nat → Nat)
  | _, data, [] => some data
  | 0, _, _ :: _ => none
  | fuel + 1, data, v :: vs =>
    let st := [0, 1, 2, 3].foldl (floodDir c ys bs B v) (data, vs)
    floodQ c ys bs B fuel st.1 st.2

theorem floodDir_prefix (c : Chf) (ys : Nat → Nat) (bs : Nat) (B : PatchBox) (v : (Nat × Nat) × Nat) (data : Nat × Nat → Nat)
    (a b : List ((Nat × Nat) × Nat)) (d : Nat) :
    floodDir c ys bs B v (data, a ++ b) d = ((floodDir c ys bs B v (data, b) d).1, a ++ (floodDir c ys bs B v (data, b) d).2) := by
  unfold floodDir
  split
  · rfl
  split
  · rfl
  simp only
  split
  · rfl
  · simp

theorem floodDirs_prefix (c : Chf) (ys : Nat → Nat) (bs : Nat) (B : PatchBox) (v : (Nat × Nat) × Nat) (ds : List Nat) (data : Nat × Nat → Nat)
    (a b : List ((Nat × Nat) × Nat)) : ds.foldl (floodDir c ys bs B v) (data, a ++ b) =
      ((ds.foldl (floodDir c ys bs B v) (data, b)).1, a ++ (ds.foldl (floodDir c ys bs B v) (data, b)).2) := by
  induction ds generalizing data b with
  | nil => rfl
  | cons d ds ih =>
    rw [List.foldl_cons, List.foldl_cons, floodDir_prefix, ih]

theorem floodLoop_eq (c : Chf) (ys : Nat → Nat) (bs : Nat) (B : PatchBox) (fuel : Nat) (data : Nat × Nat → Nat) (q : List ((Nat × Nat) × Nat)) (head : Nat)
    (hh : head < 256) : floodLoop c ys bs B fuel data q head = floodQ c ys bs B fuel data (q.drop head) := by
  induction fuel generalizing data q head with
  | zero =>
    rw [floodLoop]
    split
    · rename_i h
      rw [List.drop_eq_getElem_cons h, floodQ]
    · rename_i h
      rw [List.drop_eq_nil_of_le (by omega), floodQ]
  | succ fuel ih =>
    rw [floodLoop]
    cases hq : q[head]? with
    | none => rw [List.drop_eq_nil_of_le (List.getElem?_eq_none_iff.1 hq), floodQ]
    | some v =>
      obtain ⟨hlt, rfl⟩ := List.getElem?_eq_some_iff.1 hq
      rw [List.drop_eq_getElem_cons hlt, floodQ]
      simp only
      unfold popHead
      split
      · rename_i h256
        have he : head + 1 = 256 := by omega
        rw [ih _ _ 0 (by omega), List.drop_zero, he]
      · rename_i h256
        rw [ih _ _ (head + 1) (by omega)]
        simp only
        have hsplit : q = q.take (head + 1) ++ q.drop (head + 1) := (List.take_append_drop _ _).symm
        generalize q[head] = v
        conv_lhs => rw [hsplit]
        rw [floodDirs_prefix]
        simp only
        congr 1
        rw [List.drop_append_of_le_length (by rw [List.length_take]; omega)]
        rw [List.drop_eq_nil_of_le (by rw [List.length_take]; omega)]
        simp

/-! ## Cells -/

theorem PatchBox.cell_iff (B : PatchBox) (bs ax ay : Nat) (q : Nat × Nat) :
    B.cell bs ax ay = some q ↔ B.field bs q = (ax, ay) ∧ q.1 < B.w ∧ q.2 < B.h := by
  unfold PatchBox.cell PatchBox.field
  constructor
  · intro h
    split at h
    · cases h
      rename_i hc
      refine ⟨?_, hc.2.2.1, hc.2.2.2⟩
      simp only [Prod.mk.injEq]
      omega
    · cases h
  · rintro ⟨h1, h2, h3⟩
    simp only [Prod.mk.injEq] at h1
    rw [if_pos (by omega)]
    obtain ⟨a, b⟩ := q
    simp only at h1 h2 h3 ⊢
    congr 2 <;> omega

theorem PatchBox.mem_cells (B : PatchBox) (q : Nat × Nat) : q ∈ B.cells ↔ q.1 < B.w ∧ q.2 < B.h := by
  obtain ⟨a, b⟩ := q
  unfold PatchBox.cells
  simp only [List.mem_flatMap, List.mem_map, List.mem_range, Prod.mk.injEq]
  constructor
  · rintro ⟨y, hy, x, hx, rfl, rfl⟩; exact ⟨hx, hy⟩
  · rintro ⟨h1, h2⟩; exact ⟨b, h2, a, h1, rfl, rfl⟩

theorem PatchBox.field_inj (B : PatchBox) (bs : Nat) {p q : Nat × Nat} (h : B.field bs p = B.field bs q) : p = q := by
  unfold PatchBox.field at h
  simp only [Prod.mk.injEq] at h
  obtain ⟨a, b⟩ := p
  obtain ⟨a', b'⟩ := q
  simp only at h
  rw [Prod.mk.injEq]
  omega

theorem countP_less {α : Type} (P P' : α → Bool) (l : List α) (h : ∀ x ∈ l, P' x = true → P x = true) {p : α} (hp : p ∈ l) (h1 : P p = true)
    (h2 : P' p = false) : l.countP P' + 1 ≤ l.countP P := by
  induction l with
  | nil => cases hp
  | cons a l ih =>
    rw [List.countP_cons, List.countP_cons]
    have hmono : l.countP P' ≤ l.countP P := List.countP_mono_left fun x hx => h x (by simp [hx])
    rcases List.mem_cons.1 hp with rfl | hp
    · rw [h1, h2]; simp; omega
    · have := ih (fun x hx => h x (by simp [hx])) hp
      have ha := h a (by simp)
      cases hP' : P' a with
      | false => simp; omega
      | true => rw [ha hP']; simp; omega

/-! ## The search -/

/-- Spec: the span lies in the patch. -/
def PatchBox.Over (B : PatchBox) (c : Chf) (bs i : Nat) : Prop := ∃ hx hy, hx < B.w ∧ hy < B.h ∧ c.At (B.xmin + hx + bs) (B.ymin + hy + bs) i

/-- Spec: spans of the patch reached from the spans `S` over connections without leaving the patch. -/
inductive GrownFrom (c : Chf) (bs : Nat) (B : PatchBox) (S : Nat → Prop) : Nat → Prop
  | start {i : Nat} (h : S i) (hin : B.Over c bs i) : GrownFrom c bs B S i
  | step {i d j : Nat} (h : GrownFrom c bs B S i) (hd : d < 4) (hn : c.Nb i d j) (hin : B.Over c bs j) : GrownFrom c bs B S j

theorem PatchBox.over {B : PatchBox} {c : Chf} {bs : Nat} {p : Nat × Nat} {i : Nat} (h1 : p.1 < B.w) (h2 : p.2 < B.h)
    (h : c.At (B.field bs p).1 (B.field bs p).2 i) : B.Over c bs i := ⟨p.1, p.2, h1, h2, h⟩

/-- Every height is the one of a span of its cell, `own`. -/
structure HInv (c : Chf) (ys : Nat → Nat) (bs : Nat) (B : PatchBox) (S : Nat → Prop) (own : Nat × Nat → Option Nat) (data : Nat × Nat → Nat)
    (pend : List ((Nat × Nat) × Nat)) : Prop where
  data : ∀ p, data p = match own p with | none => 65535 | some i => ys i
  at_ : ∀ p i, own p = some i → (p.1 < B.w ∧ p.2 < B.h) ∧ c.At (B.field bs p).1 (B.field bs p).2 i
  pend : ∀ v ∈ pend, ∃ p, v.1 = B.field bs p ∧ own p = some v.2
  grown : ∀ p i, own p = some i → GrownFrom c bs B S i

/-- All connections of the span in the directions `ds` lead to cells with heights, or out of the patch. -/
def ClosedAt (c : Chf) (bs : Nat) (B : PatchBox) (own : Nat × Nat → Option Nat) (v : (Nat × Nat) × Nat) (d : Nat) : Prop :=
  ∀ n, c.nb v.1.1 v.1.2 v.2 d = some n → ∀ q, B.cell bs n.1.1 n.1.2 = some q → own q ≠ none

theorem ClosedAt.mono {c : Chf} {bs : Nat} {B : PatchBox} {own own' : Nat × Nat → Option Nat} (hm : ∀ p i, own p = some i → own' p = some i)
    {v : (Nat × Nat) × Nat} {d : Nat} (h : ClosedAt c bs B own v d) : ClosedAt c bs B own' v d := by
  intro n hn q hq hnone
  cases ho : own q with
  | none => exact h n hn q hq ho
  | some i => rw [hm q i ho] at hnone; cases hnone

/-- The number of cells without height. -/
def unsetCount (B : PatchBox) (data : Nat × Nat → Nat) : Nat := B.cells.countP fun p => data p == 65535

theorem floodDir_spec {c : Chf} (hc : c.Wf) {ys : Nat → Nat} (hy : ∀ i, ys i ≠ 65535) {bs : Nat} {B : PatchBox} {S : Nat → Prop}
    {own : Nat × Nat → Option Nat} {st : (Nat × Nat → Nat) × List ((Nat × Nat) × Nat)} (h : HInv c ys bs B S own st.1 st.2) {p0 : Nat × Nat} {i0 : Nat}
    (h0 : own p0 = some i0) {d : Nat} (hd : d < 4) : ∃ own', HInv c ys bs B S own' (floodDir c ys bs B (B.field bs p0, i0) st d).1
      (floodDir c ys bs B (B.field bs p0, i0) st d).2 ∧ (∀ p i, own p = some i → own' p = some i) ∧
      (∀ p i, own' p = some i → own p = some i ∨ (B.field bs p, i) ∈ (floodDir c ys bs B (B.field bs p0, i0) st d).2) ∧
      (∀ v ∈ st.2, v ∈ (floodDir c ys bs B (B.field bs p0, i0) st d).2) ∧ ClosedAt c bs B own' (B.field bs p0, i0) d ∧
      (floodDir c ys bs B (B.field bs p0, i0) st d).2.length + unsetCount B (floodDir c ys bs B (B.field bs p0, i0) st d).1 ≤
        st.2.length + unsetCount B st.1 := by
  have hat := (h.at_ p0 i0 h0).2
  have hsame : ClosedAt c bs B own (B.field bs p0, i0) d → ∃ own', HInv c ys bs B S own' st.1 st.2 ∧ (∀ p i, own p = some i → own' p = some i) ∧
      (∀ p i, own' p = some i → own p = some i ∨ (B.field bs p, i) ∈ st.2) ∧ (∀ v ∈ st.2, v ∈ st.2) ∧ ClosedAt c bs B own' (B.field bs p0, i0) d ∧
      st.2.length + unsetCount B st.1 ≤ st.2.length + unsetCount B st.1 :=
    fun hcl => ⟨own, h, fun _ _ => id, fun _ _ => .inl, fun _ => id, hcl, le_refl _⟩
  unfold floodDir
  simp only
  cases hn : c.nb (B.field bs p0).1 (B.field bs p0).2 i0 d with
  | none => exact hsame fun n hn' => by simp only at hn'; rw [hn] at hn'; cases hn'
  | some n =>
    simp only
    obtain ⟨n1, n2, n3, n4⟩ := hc.nb_some hat hd (show c.nb _ _ i0 d = some (n.1, n.2) from hn)
    cases hq : B.cell bs n.1.1 n.1.2 with
    | none =>
      refine hsame fun n' hn' q hq' => ?_
      simp only at hn'
      rw [hn] at hn'
      cases hn'
      rw [hq] at hq'
      cases hq'
    | some q =>
      simp only
      obtain ⟨q1, q2, q3⟩ := (B.cell_iff bs n.1.1 n.1.2 q).1 hq
      have hdq := h.data q
      by_cases hset : st.1 q ≠ 65535
      · rw [if_pos hset]
        refine hsame fun n' hn' q' hq' => ?_
        simp only at hn'
        rw [hn] at hn'
        cases hn'
        rw [hq] at hq'
        cases hq'
        intro hnone
        rw [hnone] at hdq
        exact hset hdq
      · rw [if_neg hset]
        have hset' : st.1 q = 65535 := not_not.1 hset
        have hnone : own q = none := by
          cases ho : own q with
          | none => rfl
          | some i => rw [ho, hset'] at hdq; exact absurd hdq.symm (hy i)
        refine ⟨fun p => if p = q then some n.2 else own p, ⟨?_, ?_, ?_, ?_⟩, ?_, ?_, ?_, ?_, ?_⟩
        · intro p
          unfold setCell
          by_cases hp : p = q
          · simp [hp]
          · simp only [hp, if_false]; exact h.data p
        · intro p i hp
          split at hp
          · rename_i he
            cases hp
            subst he
            exact ⟨⟨q2, q3⟩, by rw [q1]; exact n1⟩
          · exact h.at_ p i hp
        · intro v hv
          rcases List.mem_append.1 hv with hv | hv
          · obtain ⟨p, h1, h2⟩ := h.pend v hv
            refine ⟨p, h1, ?_⟩
            rw [if_neg (by rintro rfl; rw [hnone] at h2; cases h2)]
            exact h2
          · rw [List.mem_singleton.1 hv]
            exact ⟨q, by rw [q1], by simp⟩
        · intro p i hp
          split at hp
          · cases hp
            exact .step (h.grown p0 i0 h0) hd n4 (PatchBox.over q2 q3 (by rw [q1]; exact n1))
          · exact h.grown p i hp
        · intro p i hp
          simp only
          rw [if_neg (by rintro rfl; rw [hnone] at hp; cases hp)]
          exact hp
        · intro p i hp
          simp only at hp
          split at hp
          · rename_i he
            cases hp
            subst he
            exact .inr (List.mem_append_right _ (by rw [q1]; simp))
          · exact .inl hp
        · intro v hv
          exact List.mem_append_left _ hv
        · intro n' hn' q' hq'
          simp only at hn'
          rw [hn] at hn'
          cases hn'
          rw [hq] at hq'
          cases hq'
          simp
        · have hlt := countP_less (fun p => st.1 p == 65535) (fun p => setCell st.1 q (ys n.2) p == 65535) B.cells (by
              intro x _ hx
              unfold setCell at hx
              by_cases hxq : x = q
              · subst hxq; simp [hset']
              · simpa [hxq] using hx) ((B.mem_cells q).2 ⟨q2, q3⟩) (by simp [hset']) (by unfold setCell; simpa using hy n.2)
          unfold unsetCount
          simp only [List.length_append, List.length_singleton]
          omega

theorem floodDirs_spec {c : Chf} (hc : c.Wf) {ys : Nat → Nat} (hy : ∀ i, ys i ≠ 65535) {bs : Nat} {B : PatchBox} {S : Nat → Prop} (ds : List Nat)
    (hds : ∀ d ∈ ds, d < 4) {own : Nat × Nat → Option Nat} {st : (Nat × Nat → Nat) × List ((Nat × Nat) × Nat)} (h : HInv c ys bs B S own st.1 st.2)
    {p0 : Nat × Nat} {i0 : Nat} (h0 : own p0 = some i0) : ∃ own', HInv c ys bs B S own' (ds.foldl (floodDir c ys bs B (B.field bs p0, i0)) st).1
      (ds.foldl (floodDir c ys bs B (B.field bs p0, i0)) st).2 ∧ (∀ p i, own p = some i → own' p = some i) ∧
      (∀ p i, own' p = some i → own p = some i ∨ (B.field bs p, i) ∈ (ds.foldl (floodDir c ys bs B (B.field bs p0, i0)) st).2) ∧
      (∀ v ∈ st.2, v ∈ (ds.foldl (floodDir c ys bs B (B.field bs p0, i0)) st).2) ∧ (∀ d ∈ ds, ClosedAt c bs B own' (B.field bs p0, i0) d) ∧
      (ds.foldl (floodDir c ys bs B (B.field bs p0, i0)) st).2.length + unsetCount B (ds.foldl (floodDir c ys bs B (B.field bs p0, i0)) st).1 ≤
        st.2.length + unsetCount B st.1 := by
  induction ds generalizing own st with
  | nil => exact ⟨own, h, fun _ _ => id, fun _ _ => .inl, fun _ => id, by simp, le_refl _⟩
  | cons d ds ih =>
    rw [List.foldl_cons]
    obtain ⟨own1, a1, a2, a3, a4, a5, a6⟩ := floodDir_spec hc hy h h0 (hds d (by simp))
    obtain ⟨own2, b1, b2, b3, b4, b5, b6⟩ := ih (fun d' hd' => hds d' (by simp [hd'])) a1 (a2 _ _ h0)
    refine ⟨own2, b1, fun p i hp => b2 p i (a2 p i hp), ?_, fun v hv => b4 v (a4 v hv), ?_, le_trans b6 a6⟩
    · intro p i hp
      rcases b3 p i hp with h1 | h1
      · rcases a3 p i h1 with h2 | h2
        · exact .inl h2
        · exact .inr (b4 _ h2)
      · exact .inr h1
    · intro d' hd'
      rcases List.mem_cons.1 hd' with rfl | hd'
      · exact a5.mono b2
      · exact b5 d' hd'

/-- What is closed, apart from what waits. -/
def ClosedBut (c : Chf) (bs : Nat) (B : PatchBox) (own : Nat × Nat → Option Nat) (pend : List ((Nat × Nat) × Nat)) : Prop :=
  ∀ p i, own p = some i → (B.field bs p, i) ∈ pend ∨ ∀ d < 4, ClosedAt c bs B own (B.field bs p, i) d

theorem floodQ_spec {c : Chf} (hc : c.Wf) {ys : Nat → Nat} (hy : ∀ i, ys i ≠ 65535) {bs : Nat} {B : PatchBox} {S : Nat → Prop} (fuel : Nat)
    {own : Nat × Nat → Option Nat} {data : Nat × Nat → Nat} {pend : List ((Nat × Nat) × Nat)} (h : HInv c ys bs B S own data pend)
    (hcl : ClosedBut c bs B own pend) (hf : pend.length + unsetCount B data ≤ fuel) :
    ∃ own' data', floodQ c ys bs B fuel data pend = some data' ∧ HInv c ys bs B S own' data' [] ∧ ClosedBut c bs B own' [] ∧
      ∀ p i, own p = some i → own' p = some i := by
  induction fuel generalizing own data pend with
  | zero =>
    cases pend with
    | nil => exact ⟨own, data, by rw [floodQ], h, hcl, fun _ _ => id⟩
    | cons v vs => simp at hf
  | succ fuel ih =>
    cases pend with
    | nil => exact ⟨own, data, by rw [floodQ], h, hcl, fun _ _ => id⟩
    | cons v vs =>
      rw [floodQ]
      obtain ⟨p0, e1, e2⟩ := h.pend v (by simp)
      obtain ⟨vp, vi⟩ := v
      simp only at e1 e2
      subst e1
      have h' : HInv c ys bs B S own data vs := ⟨h.data, h.at_, fun v hv => h.pend v (by simp [hv]), h.grown⟩
      obtain ⟨own1, a1, a2, a3, a4, a5, a6⟩ := floodDirs_spec hc hy [0, 1, 2, 3] (by simp) (st := (data, vs)) h' e2
      generalize [0, 1, 2, 3].foldl (floodDir c ys bs B (B.field bs p0, vi)) (data, vs) = st at a1 a3 a4 a6 ⊢
      have hcl1 : ClosedBut c bs B own1 st.2 := by
        intro p i hp
        rcases a3 p i hp with h1 | h1
        · rcases hcl p i h1 with h2 | h2
          · rcases List.mem_cons.1 h2 with h3 | h3
            · right
              intro d hd
              rw [h3]
              exact a5 d (by have : d = 0 ∨ d = 1 ∨ d = 2 ∨ d = 3 := by omega
                             simp only [List.mem_cons, List.not_mem_nil, or_false]; exact this)
            · exact .inl (a4 _ h3)
          · exact .inr fun d hd => (h2 d hd).mono a2
        · exact .inl h1
      obtain ⟨own2, data2, b1, b2, b3, b4⟩ := ih a1 hcl1 (by simp only [List.length_cons] at hf a6; omega)
      exact ⟨own2, data2, b1, b2, b3, fun p i hp => b4 p i (a2 p i hp)⟩

/-! ## The start -/

theorem regionSpan_some {c : Chf} {reg : Nat → Nat} {region : Nat} {p : Nat × Nat} {i : Nat} (hx : p.1 < c.w) (hy : p.2 < c.h)
    (h : regionSpan c reg region p = some i) : c.At p.1 p.2 i ∧ reg i = region := by
  unfold regionSpan at h
  have h1 := List.find?_some h
  have h2 := List.mem_of_find?_eq_some h
  simp only [List.mem_map, List.mem_range] at h2
  obtain ⟨k, hk, rfl⟩ := h2
  exact ⟨⟨hx, hy, by omega, by omega⟩, by simpa using h1⟩

theorem regionSpan_ne_none {c : Chf} {reg : Nat → Nat} {region : Nat} {p : Nat × Nat} {i : Nat} (h : c.At p.1 p.2 i) (hr : reg i = region) :
    regionSpan c reg region p ≠ none := by
  intro hn
  unfold regionSpan at hn
  rw [List.find?_eq_none] at hn
  obtain ⟨_, _, h3, h4⟩ := h
  exact hn i (by
    simp only [List.mem_map, List.mem_range]
    exact ⟨i - (c.cells (p.1 + p.2 * c.w)).index, by omega, by omega⟩) (by simpa using hr)

/-- The span copied for a cell of the patch. -/
def copied (c : Chf) (reg : Nat → Nat) (region bs : Nat) (B : PatchBox) (l : List (Nat × Nat)) (p : Nat × Nat) : Option Nat :=
  if p ∈ l then regionSpan c reg region (B.field bs p) else none

/-- What holds after the cells `l` were copied. -/
structure CopyInv (c : Chf) (reg ys : Nat → Nat) (region bs : Nat) (B : PatchBox) (l : List (Nat × Nat)) (st : FSt) : Prop where
  data : ∀ p, st.data p = match copied c reg region bs B l p with | none => 65535 | some i => ys i
  queue : ∀ v ∈ st.queue, ∃ p ∈ l, v.1 = B.field bs p ∧ regionSpan c reg region (B.field bs p) = some v.2
  border : ∀ p ∈ l, ∀ i, regionSpan c reg region (B.field bs p) = some i → borderAt c reg region (B.field bs p) i = true → (B.field bs p, i) ∈ st.queue
  empty : st.empty = true ↔ ∀ p ∈ l, regionSpan c reg region (B.field bs p) = none
  len : st.queue.length ≤ l.length

theorem copyCell_inv {c : Chf} {reg ys : Nat → Nat} {region bs : Nat} {B : PatchBox} {l : List (Nat × Nat)} {st : FSt}
    (h : CopyInv c reg ys region bs B l st) (p : Nat × Nat) : CopyInv c reg ys region bs B (l ++ [p]) (copyCell c reg ys region bs B st p) := by
  unfold copyCell
  cases hr : regionSpan c reg region (B.field bs p) with
  | none =>
    simp only
    refine ⟨?_, ?_, ?_, ?_, ?_⟩
    · intro q
      rw [h.data q]
      unfold copied
      by_cases hq : q = p
      · subst hq; simp [hr]
      · simp [hq]
    · intro v hv
      obtain ⟨q, h1, h2⟩ := h.queue v hv
      exact ⟨q, by simp [h1], h2⟩
    · intro q hq i hi hb
      rcases List.mem_append.1 hq with hq | hq
      · exact h.border q hq i hi hb
      · rw [List.mem_singleton.1 hq, hr] at hi; cases hi
    · rw [h.empty]
      constructor
      · intro h1 q hq
        rcases List.mem_append.1 hq with hq | hq
        · exact h1 q hq
        · rw [List.mem_singleton.1 hq, hr]
      · intro h1 q hq
        exact h1 q (by simp [hq])
    · have := h.len
      simp only [List.length_append, List.length_singleton]
      omega
  | some i =>
    simp only
    refine ⟨?_, ?_, ?_, ?_, ?_⟩
    · intro q
      unfold copied setCell
      simp only
      by_cases hq : q = p
      · subst hq; simp [hr]
      · rw [if_neg hq, h.data q]
        unfold copied
        simp [hq]
    · intro v hv
      have hv' : v ∈ st.queue ∨ v = (B.field bs p, i) := by
        simp only at hv
        split at hv
        · simpa using hv
        · exact .inl hv
      rcases hv' with hv | rfl
      · obtain ⟨q, h1, h2⟩ := h.queue v hv
        exact ⟨q, by simp [h1], h2⟩
      · exact ⟨p, by simp, rfl, hr⟩
    · intro q hq j hj hb
      simp only
      rcases List.mem_append.1 hq with hq | hq
      · have := h.border q hq j hj hb
        split
        · exact List.mem_append_left _ this
        · exact this
      · have he := List.mem_singleton.1 hq
        subst he
        rw [hr] at hj
        cases hj
        rw [if_pos hb]
        simp
    · constructor
      · intro hf; cases hf
      · intro h1
        have := h1 p (by simp)
        rw [hr] at this
        cases this
    · have := h.len
      simp only
      split
      all_goals simp only [List.length_append, List.length_singleton]; omega

theorem copyRegion_inv {c : Chf} {reg ys : Nat → Nat} {region bs : Nat} {B : PatchBox} (hr : region ≠ 0) :
    CopyInv c reg ys region bs B B.cells (copyRegion c reg ys region bs B) := by
  unfold copyRegion
  simp only
  rw [if_neg hr]
  have key : ∀ (l l0 : List (Nat × Nat)) (st : FSt), CopyInv c reg ys region bs B l0 st →
      CopyInv c reg ys region bs B (l0 ++ l) (l.foldl (copyCell c reg ys region bs B) st) := by
    intro l
    induction l with
    | nil => intro l0 st h; simpa using h
    | cons p l ih =>
      intro l0 st h
      rw [List.foldl_cons]
      have := ih _ _ (copyCell_inv h p)
      simpa using this
  have := key B.cells [] ⟨fun _ => 65535, [], true⟩ ⟨by intro p; simp [copied], by simp, by simp, by simp, by simp⟩
  simpa using this

theorem cells_length (B : PatchBox) : B.cells.length = B.w * B.h := by
  unfold PatchBox.cells
  rw [List.length_flatMap]
  simp [Nat.mul_comm]

theorem unsetCount_le (B : PatchBox) (data : Nat × Nat → Nat) : unsetCount B data ≤ B.w * B.h := by
  rw [← cells_length]
  exact List.countP_le_length

/-- Spec: the patch lies inside the field. -/
def PatchBox.Inside (B : PatchBox) (c : Chf) (bs : Nat) : Prop := B.xmin + B.w + bs ≤ c.w ∧ B.ymin + B.h + bs ≤ c.h

theorem PatchBox.Inside.field {B : PatchBox} {c : Chf} {bs : Nat} (h : B.Inside c bs) {p : Nat × Nat} (h1 : p.1 < B.w) (h2 : p.2 < B.h) :
    (B.field bs p).1 < c.w ∧ (B.field bs p).2 < c.h := by
  unfold PatchBox.Inside at h
  unfold PatchBox.field
  simp only
  omega

/-- Spec: the heights `data` of the patch are those of spans of the cells, `own`; every one is reached from the spans `S` over
connections inside the patch; and whatever cell of the patch is next to such a span over a connection has a height too. -/
structure Heights (c : Chf) (ys : Nat → Nat) (bs : Nat) (B : PatchBox) (S : Nat → Prop) (own : Nat × Nat → Option Nat) (data : Nat × Nat → Nat) : Prop where
  none_ : ∀ hx < B.w, ∀ hy < B.h, own (hx, hy) = none → data (hx, hy) = 65535
  some_ : ∀ hx < B.w, ∀ hy < B.h, ∀ i, own (hx, hy) = some i → data (hx, hy) = ys i
  at_ : ∀ hx < B.w, ∀ hy < B.h, ∀ i, own (hx, hy) = some i → c.At (B.xmin + hx + bs) (B.ymin + hy + bs) i
  grown : ∀ hx < B.w, ∀ hy < B.h, ∀ i, own (hx, hy) = some i → GrownFrom c bs B S i
  closed : ∀ hx < B.w, ∀ hy < B.h, ∀ i, own (hx, hy) = some i → ∀ d < 4, ∀ j, c.Nb i d j → ∀ qx < B.w, ∀ qy < B.h,
    c.At (B.xmin + qx + bs) (B.ymin + qy + bs) j → own (qx, qy) ≠ none

theorem HInv.heights {c : Chf} (hc : c.Wf) {ys : Nat → Nat} {bs : Nat} {B : PatchBox} {S : Nat → Prop} {own : Nat × Nat → Option Nat}
    {data : Nat × Nat → Nat} (h : HInv c ys bs B S own data []) (hcl : ClosedBut c bs B own []) : Heights c ys bs B S own data := by
  refine ⟨?_, ?_, ?_, ?_, ?_⟩
  · intro hx _ hy _ ho
    rw [h.data, ho]
  · intro hx _ hy _ i ho
    rw [h.data, ho]
  · intro hx _ hy _ i ho
    exact (h.at_ _ _ ho).2
  · intro hx _ hy _ i ho
    exact h.grown _ _ ho
  · intro hx _ hy _ i ho d hd j hn qx hqx qy hqy hj
    rcases hcl _ _ ho with h1 | h1
    · cases h1
    · have hat := (h.at_ _ _ ho).2
      obtain ⟨p, hp⟩ := (hc.nb_iff hat hd j).1 hn
      obtain ⟨a1, a2, a3, a4⟩ := hc.nb_some hat hd hp
      obtain ⟨e1, e2⟩ := hc.unique _ _ _ _ _ a1 hj
      exact h1 d hd (p, j) hp (qx, qy) ((B.cell_iff bs _ _ _).2 ⟨by simp [PatchBox.field, e1, e2], hqx, hqy⟩)

/-- **C152** The heights collected for a polygon whose region has a span in the patch: every cell of the patch with spans of the region
has the height of the lowest of them; every other height is the one of a span of its own cell that is reached from the region over
connections inside the patch; all cells next to such spans over connections have heights; and the search ends. -/
theorem heightData_region {c : Chf} (hc : c.Wf) (reg : Nat → Nat) {ys : Nat → Nat} (hy : ∀ i, ys i ≠ 65535) {region bs : Nat} {B : PatchBox}
    (hin : B.Inside c bs) (hr : region ≠ 0) (hne : ∃ i, B.Over c bs i ∧ reg i = region) (seed : Option ((Nat × Nat) × Nat)) :
    ∃ data own, heightData c reg ys region bs B seed = some data ∧ Heights c ys bs B (fun i => reg i = region) own data ∧
      ∀ hx < B.w, ∀ hy < B.h, ∀ j, c.At (B.xmin + hx + bs) (B.ymin + hy + bs) j → reg j = region →
        ∃ i ≤ j, own (hx, hy) = some i ∧ reg i = region := by
  have hinv := copyRegion_inv (c := c) (reg := reg) (ys := ys) (bs := bs) (B := B) hr
  unfold heightData withSeed
  generalize copyRegion c reg ys region bs B = st at hinv
  have hemp : st.empty = false := by
    cases he : st.empty with
    | false => rfl
    | true =>
      obtain ⟨i, ⟨hx, hy', h1, h2, h3⟩, h4⟩ := hne
      exact absurd (hinv.empty.1 he (hx, hy') ((B.mem_cells _).2 ⟨h1, h2⟩)) (regionSpan_ne_none (p := B.field bs (hx, hy')) h3 h4)
  rw [hemp]
  simp only [Bool.false_eq_true, if_false, Option.bind_some]
  rw [floodLoop_eq _ _ _ _ _ _ _ _ (by omega), List.drop_zero]
  have hcop : ∀ p i, copied c reg region bs B B.cells p = some i → ((p.1 < B.w ∧ p.2 < B.h) ∧ c.At (B.field bs p).1 (B.field bs p).2 i) ∧ reg i = region ∧
      regionSpan c reg region (B.field bs p) = some i := by
    intro p i hp
    unfold copied at hp
    split at hp
    · rename_i hm
      obtain ⟨m1, m2⟩ := (B.mem_cells _).1 hm
      obtain ⟨f1, f2⟩ := hin.field m1 m2
      obtain ⟨g1, g2⟩ := regionSpan_some f1 f2 hp
      exact ⟨⟨⟨m1, m2⟩, g1⟩, g2, hp⟩
    · cases hp
  have hI : HInv c ys bs B (fun i => reg i = region) (copied c reg region bs B B.cells) st.data st.queue := by
    refine ⟨hinv.data, fun p i hp => (hcop p i hp).1, ?_, ?_⟩
    · intro v hv
      obtain ⟨p, h1, h2, h3⟩ := hinv.queue v hv
      exact ⟨p, h2, by unfold copied; rw [if_pos h1]; exact h3⟩
    · intro p i hp
      obtain ⟨⟨⟨h1, h2⟩, h3⟩, h4, _⟩ := hcop p i hp
      exact .start h4 (PatchBox.over h1 h2 h3)
  have hC : ClosedBut c bs B (copied c reg region bs B B.cells) st.queue := by
    intro p i hp
    obtain ⟨⟨⟨h1, h2⟩, h3⟩, h4, h5⟩ := hcop p i hp
    cases hb : borderAt c reg region (B.field bs p) i with
    | true => exact .inl (hinv.border p ((B.mem_cells _).2 ⟨h1, h2⟩) i h5 hb)
    | false =>
      right
      intro d hd n hn q hq
      obtain ⟨q1, q2, q3⟩ := (B.cell_iff bs _ _ _).1 hq
      obtain ⟨a1, -⟩ := hc.nb_some h3 hd (show c.nb _ _ i d = some (n.1, n.2) from hn)
      unfold copied
      rw [if_pos ((B.mem_cells _).2 ⟨q2, q3⟩)]
      refine regionSpan_ne_none (i := n.2) (by rw [q1]; exact a1) ?_
      unfold borderAt at hb
      rw [List.any_eq_false] at hb
      have := hb d (by have : d = 0 ∨ d = 1 ∨ d = 2 ∨ d = 3 := by omega
                       simpa using this)
      rw [hn] at this
      simpa using this
  obtain ⟨own, data, e1, e2, e3, e4⟩ := floodQ_spec hc hy (2 * (B.w * B.h) + 1) hI hC (by
    have h1 := hinv.len
    have h2 := unsetCount_le B st.data
    rw [cells_length] at h1
    omega)
  refine ⟨data, own, e1, e2.heights hc e3, ?_⟩
  intro hx h1 hy' h2 j hj hrj
  cases hs : regionSpan c reg region (B.field bs (hx, hy')) with
  | none => exact absurd hs (regionSpan_ne_none (p := B.field bs (hx, hy')) hj hrj)
  | some i =>
    obtain ⟨f1, f2⟩ := hin.field (p := (hx, hy')) h1 h2
    refine ⟨i, ?_, e4 _ _ (by unfold copied; rw [if_pos ((B.mem_cells _).2 ⟨h1, h2⟩)]; exact hs), (regionSpan_some f1 f2 hs).2⟩
    by_contra hlt
    unfold regionSpan at hs
    rw [List.find?_map] at hs
    simp only [Option.map_eq_some_iff] at hs
    obtain ⟨k, hk, rfl⟩ := hs
    rw [List.find?_range_eq_some] at hk
    obtain ⟨_, _, hj3, hj4⟩ := hj
    have := hk.2.2 (j - (c.cells ((B.field bs (hx, hy')).1 + (B.field bs (hx, hy')).2 * c.w)).index) (by
      simp only [PatchBox.field] at hlt ⊢
      omega)
    simp only [Function.comp, PatchBox.field] at this
    rw [show (c.cells (B.xmin + hx + bs + (B.ymin + hy' + bs) * c.w)).index + (j - (c.cells (B.xmin + hx + bs + (B.ymin + hy' + bs) * c.w)).index) = j by omega] at this
    simp [hrj] at this

/-- **C152** Without a span of the region in the patch, or for a polygon of several regions, everything starts from the seed. -/
theorem heightData_seed {c : Chf} (hc : c.Wf) (reg : Nat → Nat) {ys : Nat → Nat} (hy : ∀ i, ys i ≠ 65535) {region bs : Nat} {B : PatchBox}
    (hin : B.Inside c bs) (hne : region = 0 ∨ ∀ i, B.Over c bs i → reg i ≠ region) {v : (Nat × Nat) × Nat} (hv : v.1.1 < B.w ∧ v.1.2 < B.h)
    (hva : c.At (B.xmin + v.1.1 + bs) (B.ymin + v.1.2 + bs) v.2) :
    ∃ data own, heightData c reg ys region bs B (some v) = some data ∧ Heights c ys bs B (fun i => i = v.2) own data ∧ own v.1 = some v.2 := by
  have hemp : (copyRegion c reg ys region bs B).empty = true := by
    rcases hne with h0 | h0
    · unfold copyRegion
      simp [h0]
    · by_cases hr : region = 0
      · unfold copyRegion
        simp [hr]
      · refine (copyRegion_inv hr).empty.2 ?_
        intro p hp
        obtain ⟨m1, m2⟩ := (B.mem_cells _).1 hp
        obtain ⟨f1, f2⟩ := hin.field m1 m2
        cases hs : regionSpan c reg region (B.field bs p) with
        | none => rfl
        | some i =>
          obtain ⟨g1, g2⟩ := regionSpan_some f1 f2 hs
          exact absurd g2 (h0 i (PatchBox.over m1 m2 g1))
  unfold heightData withSeed
  rw [if_pos hemp]
  simp only [Option.map_some, Option.bind_some]
  rw [floodLoop_eq _ _ _ _ _ _ _ _ (by omega), List.drop_zero]
  obtain ⟨own, data, e1, e2, e3, e4⟩ := floodQ_spec (bs := bs) (B := B) (S := fun i => i = v.2) hc hy (own := fun p => if p = v.1 then some v.2 else none)
    (data := setCell (fun _ => 65535) v.1 (ys v.2)) (pend := [(B.field bs v.1, v.2)]) (2 * (B.w * B.h) + 1) (by
    refine ⟨?_, ?_, ?_, ?_⟩
    · intro p
      unfold setCell
      by_cases hp : p = v.1 <;> simp [hp]
    · intro p i hp
      split at hp
      · rename_i he
        cases hp
        rw [he]
        exact ⟨hv, hva⟩
      · cases hp
    · intro u hu
      rw [List.mem_singleton.1 hu]
      exact ⟨v.1, rfl, by simp⟩
    · intro p i hp
      split at hp
      · cases hp
        exact .start rfl (PatchBox.over hv.1 hv.2 hva)
      · cases hp) (by
    intro p i hp
    simp only at hp
    split at hp
    · rename_i he
      cases hp
      rw [he]
      exact .inl (by simp)
    · cases hp) (by
    have h2 := unsetCount_le B (setCell (fun _ => 65535) v.1 (ys v.2))
    simp only [List.length_singleton]
    omega)
  exact ⟨data, own, e1, e2.heights hc e3, e4 _ _ (by simp)⟩

/-- A cliff whose first span is the region: the lower row, the ramp and the upper row are reached. -/
def cliffReg (i : Nat) : Nat := if i = 0 then 7 else 0

example : ∃ data own, heightData cliffChf cliffReg cliffY 7 0 ⟨0, 0, 3, 2⟩ none = some data ∧
    Heights cliffChf cliffY 0 ⟨0, 0, 3, 2⟩ (fun i => cliffReg i = 7) own data ∧
      ∀ hx < 3, ∀ hy < 2, ∀ j, cliffChf.At (0 + hx + 0) (0 + hy + 0) j → cliffReg j = 7 → ∃ i ≤ j, own (hx, hy) = some i ∧ cliffReg i = 7 :=
  heightData_region cliff_wf cliffReg (by intro i h; unfold cliffY at h; rcases i with _ | _ | _ | _ | _ | _ | i <;> simp at h) ⟨by decide, by decide⟩ (by decide)
    ⟨0, ⟨0, 0, by decide, by decide, cliff_at.2 (by decide)⟩, rfl⟩ none

example : (heightData cliffChf cliffReg cliffY 7 0 ⟨0, 0, 3, 2⟩ none).map (fun f => (PatchBox.mk 0 0 3 2).cells.map f) = some [0, 0, 5, 10, 10, 5] := by
  decide +kernel

/-- A patch over the left two columns does not reach the upper row, for the way leads around it. -/
example : (heightData cliffChf cliffReg cliffY 7 0 ⟨0, 0, 2, 2⟩ none).map (fun f => (PatchBox.mk 0 0 2 2).cells.map f) = some [0, 0, 65535, 65535] := by
  decide +kernel

/-- From a seed in the upper row. -/
example : ∃ data own, heightData cliffChf cliffReg cliffY 0 0 ⟨0, 0, 3, 2⟩ (some ((1, 1), 4)) = some data ∧
    Heights cliffChf cliffY 0 ⟨0, 0, 3, 2⟩ (fun i => i = 4) own data ∧ own (1, 1) = some 4 :=
  heightData_seed cliff_wf cliffReg (by intro i h; unfold cliffY at h; rcases i with _ | _ | _ | _ | _ | _ | i <;> simp at h) ⟨by decide, by decide⟩ (.inl rfl)
    (v := ((1, 1), 4)) (by decide) (cliff_at.2 (by decide))

end Verif.Recast
