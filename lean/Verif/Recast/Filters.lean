/-
The three heightfield filters (recast/filter.go).

Simplifications: a column is the list of its spans (`addSpan_history` in `Verif.Recast.Spans` relates
lists and pointers; the filters write nothing but `area`). Heights are `Nat`, differences are taken in
`Int`: with uint16 heights and agent parameters below 2^30 no int32 operation of the code overflows.
`nullArea` is 0. The timer calls are left out.
-/
import Verif.Recast.Spans
import Verif.Recast.SpanBits

namespace Verif.Recast
open Verif

/-! ## Model -/

/-- `nullArea` (recast/constants.go). -/
def nullArea : Nat := 0

/-- A heightfield: `Spans[x + y*Width]`, one list per cell (recast/heightfield.go:30-45). -/
structure Field where
  w : Nat
  h : Nat
  col : Nat → List SpanV

/-- The loops `for y ..  for x ..` over all cells, in order (recast/filter.go:31-32, 85-86, 196-197). -/
def sweepCells (w h : Nat) (body : Nat → Nat → (Nat → List SpanV) → Nat → List SpanV)
    (col : Nat → List SpanV) : Nat → List SpanV :=
  (List.range h).foldl (fun col y => (List.range w).foldl (fun col x => body x y col) col) col

/-- The loop over one column in `FilterLowHangingWalkableObstacles` (recast/filter.go:33-52):
`previousWalkable`, `previousArea` and `ps.smax` are carried along. -/
def lowHangingCol (climb : Int) : Bool → Nat → Nat → List SpanV → List SpanV
  | _, _, _, [] => []
  | pw, pa, pm, s :: rest =>
    let walkable := s.area != nullArea
    let s' := if !walkable && pw then
        (if ((s.smax : Int) - (pm : Int)).natAbs ≤ climb then { s with area := pa } else s) else s
    s' :: lowHangingCol climb walkable s'.area s.smax rest

/-- `FilterLowHangingWalkableObstacles` (recast/filter.go:24-54). -/
def filterLowHanging (climb : Int) (F : Field) : Field :=
  { F with col := sweepCells F.w F.h (fun x y col => upd col (x + y * F.w)
      (lowHangingCol climb false nullArea 0 (col (x + y * F.w)))) F.col }

/-- `s.next.smin`, or `MAX_HEIGHT` without a next span (recast/filter.go:94-99, 200-205). -/
def ceilAbove : List SpanV → Int
  | [] => 0xffff
  | s :: _ => s.smin

/-- The loop over one column in `FilterWalkableLowHeightSpans` (recast/filter.go:198-210). -/
def lowHeightCol (height : Int) : List SpanV → List SpanV
  | [] => []
  | s :: rest =>
    (if ceilAbove rest - s.smax ≤ height then { s with area := nullArea } else s) :: lowHeightCol height rest

/-- `FilterWalkableLowHeightSpans` (recast/filter.go:187-213). -/
def filterLowHeight (height : Int) (F : Field) : Field :=
  { F with col := sweepCells F.w F.h (fun x y col => upd col (x + y * F.w)
      (lowHeightCol height (col (x + y * F.w)))) F.col }

/-- `minh`, `asmin`, `asmax` (recast/filter.go:101-106). -/
structure LedgeAcc where
  minh : Int
  asmin : Int
  asmax : Int

/-- The loop over the spans of a neighbour column (recast/filter.go:134-155). -/
def ledgeNeis (height climb bot top : Int) : List SpanV → LedgeAcc → LedgeAcc
  | [], a => a
  | ns :: rest, a =>
    let nbot : Int := ns.smax
    let ntop := ceilAbove rest
    let a' := if min top ntop - max bot nbot > height then
        let a1 := { a with minh := min a.minh (nbot - bot) }
        if ((nbot - bot).natAbs : Int) ≤ climb then
          let a2 := if nbot < a1.asmin then { a1 with asmin := nbot } else a1
          if nbot > a2.asmax then { a2 with asmax := nbot } else a2
        else a1
      else a
    ledgeNeis height climb bot top rest a'

/-- One direction (recast/filter.go:108-156). -/
def ledgeDir (height climb bot top : Int) (w h : Nat) (col : Nat → List SpanV) (x y : Nat) (a : LedgeAcc) (dir : Nat) :
    LedgeAcc :=
  let dx := (x : Int) + dirX (BitVec.ofNat 32 dir)
  let dy := (y : Int) + dirY (BitVec.ofNat 32 dir)
  if dx < 0 ∨ dy < 0 ∨ dx ≥ w ∨ dy ≥ h then { a with minh := min a.minh (-climb - bot) }
  else
    let nc := col (dx + dy * w).toNat
    let nbot := -climb
    let ntop := ceilAbove nc
    let a1 := if min top ntop - max bot nbot > height then { a with minh := min a.minh (nbot - bot) } else a
    ledgeNeis height climb bot top nc a1

/-- Whether a walkable span is cleared (recast/filter.go:93-167). -/
def isLedge (height climb : Int) (w h : Nat) (col : Nat → List SpanV) (x y : Nat) (bot top : Int) : Bool :=
  let a := [0, 1, 2, 3].foldl (ledgeDir height climb bot top w h col x y) ⟨0xffff, bot, bot⟩
  if a.minh < -climb then true
  else if a.asmax - a.asmin > climb then true
  else false

/-- The loop over one column in `FilterLedgeSpans` (recast/filter.go:87-168). The neighbour columns are
never the column itself, so they may be read from the state before the loop. -/
def ledgeCol (height climb : Int) (w h : Nat) (col : Nat → List SpanV) (x y : Nat) : List SpanV → List SpanV
  | [] => []
  | s :: rest =>
    (if s.area = nullArea then s
     else if isLedge height climb w h col x y s.smax (ceilAbove rest) then { s with area := nullArea } else s) ::
      ledgeCol height climb w h col x y rest

/-- `FilterLedgeSpans` (recast/filter.go:77-171). -/
def filterLedge (height climb : Int) (F : Field) : Field :=
  { F with col := sweepCells F.w F.h (fun x y col => upd col (x + y * F.w)
      (ledgeCol height climb F.w F.h col x y (col (x + y * F.w)))) F.col }

/-! ## Sweeps -/

theorem cell_inj {w x y x' y' : Nat} (hx : x < w) (hx' : x' < w) (h : x + y * w = x' + y' * w) : x = x' ∧ y = y' := by
  have h1 : (x + y * w) % w = x := by rw [Nat.add_mul_mod_self_right, Nat.mod_eq_of_lt hx]
  have h2 : (x' + y' * w) % w = x' := by rw [Nat.add_mul_mod_self_right, Nat.mod_eq_of_lt hx']
  have h3 : (x + y * w) / w = y := by rw [Nat.add_mul_div_right _ _ (by omega), Nat.div_eq_of_lt hx]; omega
  have h4 : (x' + y' * w) / w = y' := by rw [Nat.add_mul_div_right _ _ (by omega), Nat.div_eq_of_lt hx']; omega
  rw [h] at h1 h3
  exact ⟨h1.symm.trans h2, h3.symm.trans h4⟩

theorem cell_lt {w h x y : Nat} (hx : x < w) (hy : y < h) : x + y * w < w * h := by
  have : (y + 1) * w ≤ h * w := Nat.mul_le_mul_right _ hy
  rw [Nat.add_mul, Nat.one_mul] at this
  rw [Nat.mul_comm w h]
  omega

theorem cell_of_lt {w h i : Nat} (hi : i < w * h) : i % w < w ∧ i / w < h ∧ i % w + i / w * w = i := by
  have hw : 0 < w := by
    rcases Nat.eq_zero_or_pos w with rfl | h
    · simp at hi
    · exact h
  refine ⟨Nat.mod_lt _ hw, Nat.div_lt_of_lt_mul hi, ?_⟩
  rw [Nat.mul_comm]; exact Nat.mod_add_div i w

/-- A sweep whose step at a cell rewrites that cell only, with a result `g` that depends on its own
column and on a part of the state that the sweep does not change. -/
theorem sweep_spec (w h : Nat) (body : Nat → Nat → (Nat → List SpanV) → Nat → List SpanV)
    (g : Nat → List SpanV → List SpanV) (P : (Nat → List SpanV) → Prop)
    (hb : ∀ x < w, ∀ y < h, ∀ col, P col → body x y col = upd col (x + y * w) (g (x + y * w) (col (x + y * w))) ∧
      P (body x y col)) (col : Nat → List SpanV) (hP : P col) :
    ∀ i, sweepCells w h body col i = if i < w * h then g i (col i) else col i := by
  -- rows
  have row : ∀ y < h, ∀ n ≤ w, ∀ col, P col →
      let r := (List.range n).foldl (fun col x => body x y col) col
      P r ∧ ∀ i, r i = if ∃ x < n, i = x + y * w then g i (col i) else col i := by
    intro y hy n
    induction n with
    | zero => intro _ col hP; exact ⟨hP, fun i => by simp⟩
    | succ n ih =>
      intro hn col hP
      obtain ⟨h1, h2⟩ := ih (by omega) col hP
      simp only [List.range_succ, List.foldl_append, List.foldl_cons, List.foldl_nil]
      obtain ⟨b1, b2⟩ := hb n (by omega) y hy _ h1
      refine ⟨b2, fun i => ?_⟩
      rw [b1]
      by_cases hi : i = n + y * w
      · subst hi
        rw [upd_same, h2, if_neg, if_pos ⟨n, by omega, rfl⟩]
        rintro ⟨x, hx, he⟩
        have := (cell_inj (by omega) (by omega) he).1
        omega
      · rw [upd_ne _ _ hi, h2]
        congr 1
        apply propext
        constructor
        · rintro ⟨x, hx, he⟩; exact ⟨x, by omega, he⟩
        · rintro ⟨x, hx, he⟩
          refine ⟨x, ?_, he⟩
          rcases Nat.lt_or_eq_of_le (Nat.lt_succ_iff.1 hx) with h | h
          · exact h
          · subst h; exact absurd he hi
  have rows : ∀ n ≤ h,
      let r := (List.range n).foldl (fun col y => (List.range w).foldl (fun col x => body x y col) col) col
      P r ∧ ∀ i, r i = if i < w * n then g i (col i) else col i := by
    intro n
    induction n with
    | zero => intro _; exact ⟨hP, fun i => by simp⟩
    | succ n ih =>
      intro hn
      obtain ⟨h1, h2⟩ := ih (by omega)
      simp only [List.range_succ, List.foldl_append, List.foldl_cons, List.foldl_nil]
      obtain ⟨r1, r2⟩ := row n (by omega) w le_rfl _ h1
      refine ⟨r1, fun i => ?_⟩
      rw [r2]
      by_cases hi : ∃ x < w, i = x + n * w
      · rw [if_pos hi]
        obtain ⟨x, hx, rfl⟩ := hi
        rw [h2, if_neg (by rw [Nat.mul_comm w n]; omega), if_pos (cell_lt hx (by omega))]
      · rw [if_neg hi, h2]
        congr 1
        apply propext
        constructor
        · intro h; exact Nat.lt_of_lt_of_le h (Nat.mul_le_mul_left _ (by omega))
        · intro h
          by_contra hc
          obtain ⟨c1, c2, c3⟩ := cell_of_lt h
          apply hi
          have : i / w = n := by
            have : n ≤ i / w := by
              rw [Nat.le_div_iff_mul_le (by omega), Nat.mul_comm]; omega
            omega
          exact ⟨i % w, c1, by rw [← this]; exact c3.symm⟩
  exact (rows h le_rfl).2

/-! ## Low-hanging obstacles -/

theorem filterLowHanging_col (climb : Int) (F : Field) (i : Nat) :
    (filterLowHanging climb F).col i =
      if i < F.w * F.h then lowHangingCol climb false nullArea 0 (F.col i) else F.col i := by
  unfold filterLowHanging
  exact sweep_spec F.w F.h _ (fun _ l => lowHangingCol climb false nullArea 0 l) (fun _ => True)
    (fun _ _ _ _ _ _ => ⟨rfl, trivial⟩) F.col trivial i

theorem lowHangingCol_length (climb : Int) (l : List SpanV) : ∀ pw pa pm,
    (lowHangingCol climb pw pa pm l).length = l.length := by
  induction l with
  | nil => intros; rfl
  | cons s l ih => intro pw pa pm; simp [lowHangingCol, ih]

/-- `pa`/`pm` describe the original span below. -/
theorem lowHangingCol_get (climb : Int) (l : List SpanV) : ∀ (p : SpanV) (pa : Nat), (p.area ≠ 0 → pa = p.area) →
    ∀ k s, (p :: l)[k + 1]? = some s → ∃ b, (p :: l)[k]? = some b ∧
      (lowHangingCol climb (p.area != nullArea) pa p.smax l)[k]? =
        some (if s.area = 0 ∧ b.area ≠ 0 ∧ ((s.smax : Int) - b.smax).natAbs ≤ climb then { s with area := b.area } else s) := by
  induction l with
  | nil => intro p pa hp k s hs; simp at hs
  | cons c l ih =>
    intro p pa hp k s hs
    cases k with
    | zero =>
      simp only [List.getElem?_cons_succ, List.getElem?_cons_zero, Option.some.injEq] at hs
      subst hs
      refine ⟨p, rfl, ?_⟩
      simp only [lowHangingCol, List.getElem?_cons_zero, nullArea, Option.some.injEq]
      by_cases h1 : c.area = 0
      · by_cases h2 : p.area = 0
        · simp [h1, h2]
        · rw [hp h2]; simp [h1, h2]
      · simp [h1]
    | succ k =>
      rw [List.getElem?_cons_succ] at hs
      simp only [lowHangingCol, List.getElem?_cons_succ]
      refine ih c _ (fun hc => ?_) k s hs
      have : (c.area != nullArea) = true := by simpa [nullArea] using hc
      simp [this]

/-- **C43.** `FilterLowHangingWalkableObstacles` changes nothing but areas; the area of a span changes
exactly when it is unwalkable, lies directly above a span that was walkable before the filter, and its
top is within `walkableClimb` of that span's top; it then takes over that span's area. -/
theorem lowHanging_effect (climb : Int) (F : Field) (i : Nat) (hi : i < F.w * F.h) :
    ((filterLowHanging climb F).col i).length = (F.col i).length ∧
    (∀ s, (F.col i)[0]? = some s → ((filterLowHanging climb F).col i)[0]? = some s) ∧
    ∀ k b s, (F.col i)[k]? = some b → (F.col i)[k + 1]? = some s →
      ((filterLowHanging climb F).col i)[k + 1]? =
        some (if s.area = 0 ∧ b.area ≠ 0 ∧ ((s.smax : Int) - b.smax).natAbs ≤ climb then { s with area := b.area } else s) := by
  rw [filterLowHanging_col, if_pos hi]
  refine ⟨lowHangingCol_length _ _ _ _ _, ?_⟩
  generalize F.col i = l
  cases l with
  | nil => exact ⟨by simp, by simp⟩
  | cons p l =>
    refine ⟨fun s hs => ?_, fun k b s hb hs => ?_⟩
    · simp only [List.getElem?_cons_zero, Option.some.injEq] at hs
      subst hs
      simp [lowHangingCol]
    · obtain ⟨b', h1, h2⟩ := lowHangingCol_get climb l p p.area (fun _ => rfl) k s hs
      rw [hb] at h1
      cases h1
      rw [← h2]
      simp [lowHangingCol]

/-- Cells outside the grid do not exist for the filters. -/
theorem lowHanging_outside (climb : Int) (F : Field) (i : Nat) (hi : ¬ i < F.w * F.h) :
    (filterLowHanging climb F).col i = F.col i := by
  rw [filterLowHanging_col, if_neg hi]

/-- The filter lifts one layer per run: it is not idempotent. -/
theorem lowHanging_not_idempotent : ∃ climb F,
    (filterLowHanging climb (filterLowHanging climb F)).col 0 ≠ (filterLowHanging climb F).col 0 :=
  ⟨2, ⟨1, 1, fun _ => [⟨0, 1, 63⟩, ⟨2, 3, 0⟩, ⟨4, 5, 0⟩]⟩, by decide⟩

example : (filterLowHanging 2 ⟨1, 1, fun _ => [⟨0, 1, 63⟩, ⟨2, 3, 0⟩, ⟨4, 5, 0⟩]⟩).col 0 =
    [⟨0, 1, 63⟩, ⟨2, 3, 63⟩, ⟨4, 5, 0⟩] := by decide

/-! ## Low ceilings -/

theorem filterLowHeight_col (height : Int) (F : Field) (i : Nat) :
    (filterLowHeight height F).col i = if i < F.w * F.h then lowHeightCol height (F.col i) else F.col i := by
  unfold filterLowHeight
  exact sweep_spec F.w F.h _ (fun _ l => lowHeightCol height l) (fun _ => True)
    (fun _ _ _ _ _ _ => ⟨rfl, trivial⟩) F.col trivial i

/-- Spec: the free height above the `k`-th span of a column; nothing is above 65535. -/
def clearance (l : List SpanV) (k : Nat) (s : SpanV) : Int :=
  match l[k + 1]? with
  | some n => (n.smin : Int) - s.smax
  | none => 0xffff - s.smax

theorem clearance_eq (l : List SpanV) (s : SpanV) : clearance (s :: l) 0 s = ceilAbove l - s.smax := by
  cases l <;> rfl

/-- **C44.** `FilterWalkableLowHeightSpans` clears the area of exactly the spans whose clearance is not
more than `walkableHeight`, and changes nothing else. -/
theorem lowHeight_effect (height : Int) (F : Field) (i : Nat) (hi : i < F.w * F.h) :
    ((filterLowHeight height F).col i).length = (F.col i).length ∧
    ∀ k s, (F.col i)[k]? = some s → ((filterLowHeight height F).col i)[k]? =
      some (if clearance (F.col i) k s ≤ height then { s with area := 0 } else s) := by
  rw [filterLowHeight_col, if_pos hi]
  generalize F.col i = l
  induction l with
  | nil => exact ⟨rfl, by simp⟩
  | cons c l ih =>
    refine ⟨by simp [lowHeightCol, ih.1], fun k s hs => ?_⟩
    cases k with
    | zero =>
      simp only [List.getElem?_cons_zero, Option.some.injEq] at hs
      subst hs
      rw [clearance_eq]
      simp [lowHeightCol, nullArea]
    | succ k =>
      rw [List.getElem?_cons_succ] at hs
      have := ih.2 k s hs
      simp only [lowHeightCol, List.getElem?_cons_succ]
      rw [this]
      rfl

theorem ceilAbove_congr {l l' : List SpanV} (h : l.map (fun s => (s.smin, s.smax)) = l'.map (fun s => (s.smin, s.smax))) :
    ceilAbove l = ceilAbove l' := by
  cases l <;> cases l' <;> simp_all [ceilAbove]

theorem lowHeightCol_geom (height : Int) (l : List SpanV) :
    (lowHeightCol height l).map (fun s => (s.smin, s.smax)) = l.map (fun s => (s.smin, s.smax)) := by
  induction l with
  | nil => rfl
  | cons s l ih =>
    simp only [lowHeightCol, List.map_cons, ih]
    split <;> rfl

theorem lowHeightCol_idem (height : Int) (l : List SpanV) :
    lowHeightCol height (lowHeightCol height l) = lowHeightCol height l := by
  induction l with
  | nil => rfl
  | cons s l ih =>
    simp only [lowHeightCol, ih, ceilAbove_congr (lowHeightCol_geom height l)]
    congr 1
    split <;> simp_all

/-- **C44.** A second run changes nothing. -/
theorem lowHeight_idempotent (height : Int) (F : Field) :
    filterLowHeight height (filterLowHeight height F) = filterLowHeight height F := by
  have h : ∀ i, (filterLowHeight height (filterLowHeight height F)).col i = (filterLowHeight height F).col i := by
    intro i
    rw [filterLowHeight_col]
    have e1 : (filterLowHeight height F).w = F.w := rfl
    have e2 : (filterLowHeight height F).h = F.h := rfl
    rw [e1, e2, filterLowHeight_col]
    split
    · exact lowHeightCol_idem _ _
    · rfl
  have : (filterLowHeight height (filterLowHeight height F)).col = (filterLowHeight height F).col := funext h
  calc filterLowHeight height (filterLowHeight height F)
      = ⟨F.w, F.h, (filterLowHeight height (filterLowHeight height F)).col⟩ := rfl
    _ = ⟨F.w, F.h, (filterLowHeight height F).col⟩ := by rw [this]
    _ = filterLowHeight height F := rfl

/-- **C83** (refuted). The documentation clears spans "if the clearance above the span is less than the
specified height"; the code also clears a span with exactly that clearance. -/
theorem lowHeight_documented_refuted : ∃ (height : Int) (F : Field), 3 ≤ height ∧
    ∃ s, (F.col 0)[0]? = some s ∧ s.area ≠ 0 ∧ ¬ clearance (F.col 0) 0 s < height ∧
      ((filterLowHeight height F).col 0)[0]? = some { s with area := 0 } :=
  ⟨10, ⟨1, 1, fun _ => [⟨0, 5, 63⟩, ⟨15, 16, 63⟩]⟩, by decide, ⟨0, 5, 63⟩, rfl, by decide, by decide, by decide⟩

/-- **C83** (partial). Apart from clearance equal to the height the documentation is right. -/
theorem lowHeight_documented_partial (height : Int) (F : Field) (i : Nat) (hi : i < F.w * F.h) (k : Nat) (s : SpanV)
    (hs : (F.col i)[k]? = some s) (hne : clearance (F.col i) k s ≠ height) :
    ((filterLowHeight height F).col i)[k]? =
      some (if clearance (F.col i) k s < height then { s with area := 0 } else s) := by
  rw [(lowHeight_effect height F i hi).2 k s hs]
  congr 2
  apply propext
  omega

example : (filterLowHeight 10 ⟨1, 1, fun _ => [⟨0, 5, 63⟩, ⟨15, 16, 63⟩, ⟨30, 31, 2⟩]⟩).col 0 =
    [⟨0, 5, 0⟩, ⟨15, 16, 63⟩, ⟨30, 31, 2⟩] := by decide

/-! ## Ledges -/

/-- Spec: the open space above the `k`-th span of a column: floor and ceiling. -/
def Gap (l : List SpanV) (floor ceil : Int) : Prop :=
  ∃ k s, l[k]? = some s ∧ floor = s.smax ∧
    ceil = match l[k + 1]? with | some n => (n.smin : Int) | none => 0xffff

/-- Spec: the open space below the first span of a column ends at this height. -/
def groundCeil (l : List SpanV) : Int := match l[0]? with | some n => (n.smin : Int) | none => 0xffff

/-- Spec: an agent of the given height passes between two open spaces. -/
def Fits (height bot top floor ceil : Int) : Prop := height < min top ceil - max bot floor

/-- Spec: the cell next to `(x, y)` in direction `dir` and whether it is in the grid. -/
def NeiCell (w h : Nat) (x y : Nat) (dir : Nat) (i : Nat) : Prop :=
  ∃ nx ny : Nat, nx < w ∧ ny < h ∧ (nx : Int) = x + dirX (BitVec.ofNat 32 dir) ∧
    (ny : Int) = y + dirY (BitVec.ofNat 32 dir) ∧ i = nx + ny * w

/-- Spec: from floor `bot` of cell `(x, y)` the agent can step to floor `f` of a neighbour cell. -/
def Steps (height climb : Int) (F : Field) (x y : Nat) (bot top f : Int) : Prop :=
  ∃ dir < 4, ∃ i, NeiCell F.w F.h x y dir i ∧ ∃ c, Gap (F.col i) f c ∧ Fits height bot top f c ∧
    |f - bot| ≤ climb

/-- Spec of a ledge: a neighbour is missing or its ground is open below (a drop to nothing, unless the
span lies on the ground of the field), or there is a drop deeper than `climb` next to the span, or the floors that can be
stepped to (the own one included) differ by more than `climb`. -/
def Ledge (height climb : Int) (F : Field) (x y : Nat) (bot top : Int) : Prop :=
  (0 < bot ∧ ∃ dir < 4, ∀ i, ¬ NeiCell F.w F.h x y dir i) ∨
  (0 < bot ∧ ∃ dir < 4, ∃ i, NeiCell F.w F.h x y dir i ∧ Fits height bot top (-climb) (groundCeil (F.col i))) ∨
  (∃ dir < 4, ∃ i, NeiCell F.w F.h x y dir i ∧ ∃ f c, Gap (F.col i) f c ∧ Fits height bot top f c ∧ f < bot - climb) ∨
  (∃ f g, (f = bot ∨ Steps height climb F x y bot top f) ∧ (g = bot ∨ Steps height climb F x y bot top g) ∧
    climb < f - g)

theorem gap_cons (s : SpanV) (l : List SpanV) (f c : Int) :
    Gap (s :: l) f c ↔ (f = s.smax ∧ c = ceilAbove l) ∨ Gap l f c := by
  constructor
  · rintro ⟨k, t, h1, h2, h3⟩
    cases k with
    | zero =>
      simp only [List.getElem?_cons_zero, Option.some.injEq] at h1
      subst h1
      left
      refine ⟨h2, ?_⟩
      rw [h3]
      cases l <;> rfl
    | succ k => exact Or.inr ⟨k, t, h1, h2, h3⟩
  · rintro (⟨h1, h2⟩ | ⟨k, t, h1, h2, h3⟩)
    · refine ⟨0, s, rfl, h1, ?_⟩
      rw [h2]
      cases l <;> rfl
    · exact ⟨k + 1, t, h1, h2, h3⟩

theorem groundCeil_eq (l : List SpanV) : groundCeil l = ceilAbove l := by cases l <;> rfl

/-- `minh` is the minimum of the values in `M`, `asmin`/`asmax` those of `R`. -/
structure AccSpec (a : LedgeAcc) (M R : Int → Prop) : Prop where
  minh : ∀ t, a.minh < t ↔ ∃ m, M m ∧ m < t
  lo : R a.asmin
  hi : R a.asmax
  all : ∀ r, R r → a.asmin ≤ r ∧ r ≤ a.asmax

theorem AccSpec.congr {a : LedgeAcc} {M R M' R' : Int → Prop} (h : AccSpec a M R) (hM : ∀ m, M m ↔ M' m)
    (hR : ∀ r, R r ↔ R' r) : AccSpec a M' R' := by
  have e1 : M = M' := funext fun m => propext (hM m)
  have e2 : R = R' := funext fun m => propext (hR m)
  exact e1 ▸ e2 ▸ h

theorem AccSpec.min {a : LedgeAcc} {M R : Int → Prop} (h : AccSpec a M R) (v : Int) :
    AccSpec { a with minh := min a.minh v } (fun m => M m ∨ m = v) R := by
  refine ⟨fun t => ?_, h.lo, h.hi, h.all⟩
  show Min.min a.minh v < t ↔ _
  rw [min_lt_iff, h.minh]
  constructor
  · rintro (⟨m, h1, h2⟩ | h1)
    · exact ⟨m, Or.inl h1, h2⟩
    · exact ⟨v, Or.inr rfl, h1⟩
  · rintro ⟨m, h1 | rfl, h2⟩
    · exact Or.inl ⟨m, h1, h2⟩
    · exact Or.inr h2

theorem AccSpec.reach {a : LedgeAcc} {M R : Int → Prop} (h : AccSpec a M R) (v : Int) :
    AccSpec (let a2 := if v < a.asmin then { a with asmin := v } else a
      if v > a2.asmax then { a2 with asmax := v } else a2) M (fun r => R r ∨ r = v) := by
  have hlh : a.asmin ≤ a.asmax := (h.all _ h.lo).2
  simp only
  split
  · split
    · rename_i h1 h2
      simp only at h2
      omega
    · rename_i h1 h2
      refine ⟨h.minh, Or.inr rfl, Or.inl h.hi, fun r hr => ?_⟩
      rcases hr with hr | rfl
      · have := h.all r hr; simp only; omega
      · simp only; omega
  · split
    · rename_i h1 h2
      refine ⟨h.minh, Or.inl h.lo, Or.inr rfl, fun r hr => ?_⟩
      rcases hr with hr | rfl
      · have := h.all r hr; simp only; omega
      · simp only; omega
    · rename_i h1 h2
      refine ⟨h.minh, Or.inl h.lo, Or.inl h.hi, fun r hr => ?_⟩
      rcases hr with hr | rfl
      · exact h.all r hr
      · omega

theorem ledgeNeis_spec (height climb bot top : Int) (l : List SpanV) : ∀ (a : LedgeAcc) (M R : Int → Prop),
    AccSpec a M R → AccSpec (ledgeNeis height climb bot top l a)
      (fun m => M m ∨ ∃ f c, Gap l f c ∧ Fits height bot top f c ∧ m = f - bot)
      (fun r => R r ∨ ∃ c, Gap l r c ∧ Fits height bot top r c ∧ |r - bot| ≤ climb) := by
  induction l with
  | nil =>
    intro a M R h
    refine h.congr (fun m => ?_) (fun r => ?_) <;> simp [Gap]
  | cons s l ih =>
    intro a M R h
    rw [ledgeNeis]
    simp only
    by_cases hf : Fits height bot top s.smax (ceilAbove l)
    · have hf' := hf
      unfold Fits at hf'
      rw [if_pos hf']
      by_cases hc : (((s.smax : Int) - bot).natAbs : Int) ≤ climb
      · rw [if_pos hc]
        refine (ih _ _ _ ((h.min ((s.smax : Int) - bot)).reach s.smax)).congr (fun m => ?_) (fun r => ?_)
        · constructor
          · rintro ((h1 | rfl) | ⟨f, c, h1, h2, h3⟩)
            · exact Or.inl h1
            · exact Or.inr ⟨_, _, (gap_cons s l _ _).2 (Or.inl ⟨rfl, rfl⟩), hf, rfl⟩
            · exact Or.inr ⟨f, c, (gap_cons s l _ _).2 (Or.inr h1), h2, h3⟩
          · rintro (h1 | ⟨f, c, h1, h2, h3⟩)
            · exact Or.inl (Or.inl h1)
            · rcases (gap_cons s l _ _).1 h1 with ⟨rfl, rfl⟩ | h1
              · exact Or.inl (Or.inr h3)
              · exact Or.inr ⟨f, c, h1, h2, h3⟩
        · constructor
          · rintro ((h1 | rfl) | ⟨c, h1, h2, h3⟩)
            · exact Or.inl h1
            · refine Or.inr ⟨_, (gap_cons s l _ _).2 (Or.inl ⟨rfl, rfl⟩), hf, ?_⟩
              rw [Int.abs_eq_natAbs]; exact hc
            · exact Or.inr ⟨c, (gap_cons s l _ _).2 (Or.inr h1), h2, h3⟩
          · rintro (h1 | ⟨c, h1, h2, h3⟩)
            · exact Or.inl (Or.inl h1)
            · rcases (gap_cons s l _ _).1 h1 with ⟨rfl, rfl⟩ | h1
              · exact Or.inl (Or.inr rfl)
              · exact Or.inr ⟨c, h1, h2, h3⟩
      · rw [if_neg hc]
        refine (ih _ _ _ (h.min ((s.smax : Int) - bot))).congr (fun m => ?_) (fun r => ?_)
        · constructor
          · rintro ((h1 | rfl) | ⟨f, c, h1, h2, h3⟩)
            · exact Or.inl h1
            · exact Or.inr ⟨_, _, (gap_cons s l _ _).2 (Or.inl ⟨rfl, rfl⟩), hf, rfl⟩
            · exact Or.inr ⟨f, c, (gap_cons s l _ _).2 (Or.inr h1), h2, h3⟩
          · rintro (h1 | ⟨f, c, h1, h2, h3⟩)
            · exact Or.inl (Or.inl h1)
            · rcases (gap_cons s l _ _).1 h1 with ⟨rfl, rfl⟩ | h1
              · exact Or.inl (Or.inr h3)
              · exact Or.inr ⟨f, c, h1, h2, h3⟩
        · constructor
          · rintro (h1 | ⟨c, h1, h2, h3⟩)
            · exact Or.inl h1
            · exact Or.inr ⟨c, (gap_cons s l _ _).2 (Or.inr h1), h2, h3⟩
          · rintro (h1 | ⟨c, h1, h2, h3⟩)
            · exact Or.inl h1
            · rcases (gap_cons s l _ _).1 h1 with ⟨rfl, rfl⟩ | h1
              · rw [Int.abs_eq_natAbs] at h3; exact absurd h3 hc
              · exact Or.inr ⟨c, h1, h2, h3⟩
    · have hf' := hf
      unfold Fits at hf'
      rw [if_neg hf']
      refine (ih _ _ _ h).congr (fun m => ?_) (fun r => ?_)
      · constructor
        · rintro (h1 | ⟨f, c, h1, h2, h3⟩)
          · exact Or.inl h1
          · exact Or.inr ⟨f, c, (gap_cons s l _ _).2 (Or.inr h1), h2, h3⟩
        · rintro (h1 | ⟨f, c, h1, h2, h3⟩)
          · exact Or.inl h1
          · rcases (gap_cons s l _ _).1 h1 with ⟨rfl, rfl⟩ | h1
            · exact absurd h2 hf
            · exact Or.inr ⟨f, c, h1, h2, h3⟩
      · constructor
        · rintro (h1 | ⟨c, h1, h2, h3⟩)
          · exact Or.inl h1
          · exact Or.inr ⟨c, (gap_cons s l _ _).2 (Or.inr h1), h2, h3⟩
        · rintro (h1 | ⟨c, h1, h2, h3⟩)
          · exact Or.inl h1
          · rcases (gap_cons s l _ _).1 h1 with ⟨rfl, rfl⟩ | h1
            · exact absurd h2 hf
            · exact Or.inr ⟨c, h1, h2, h3⟩

theorem neiCell_unique {w h x y dir i j : Nat} (h1 : NeiCell w h x y dir i) (h2 : NeiCell w h x y dir j) : i = j := by
  obtain ⟨a, b, -, -, e1, e2, rfl⟩ := h1
  obtain ⟨c, d, -, -, e3, e4, rfl⟩ := h2
  have : a = c := by omega
  have : b = d := by omega
  subst_vars; rfl

/-- The drops seen in direction `dir`. -/
def dirM (height climb : Int) (F : Field) (x y : Nat) (bot top : Int) (dir : Nat) (m : Int) : Prop :=
  ((∀ i, ¬ NeiCell F.w F.h x y dir i) ∧ m = -climb - bot) ∨
  (∃ i, NeiCell F.w F.h x y dir i ∧ Fits height bot top (-climb) (groundCeil (F.col i)) ∧ m = -climb - bot) ∨
  (∃ i, NeiCell F.w F.h x y dir i ∧ ∃ f c, Gap (F.col i) f c ∧ Fits height bot top f c ∧ m = f - bot)

/-- The floors that can be stepped to in direction `dir`. -/
def dirR (height climb : Int) (F : Field) (x y : Nat) (bot top : Int) (dir : Nat) (r : Int) : Prop :=
  ∃ i, NeiCell F.w F.h x y dir i ∧ ∃ c, Gap (F.col i) r c ∧ Fits height bot top r c ∧ |r - bot| ≤ climb

theorem ledgeDir_spec (height climb bot top : Int) (F : Field) (x y : Nat) (dir : Nat) (a : LedgeAcc)
    (M R : Int → Prop) (h : AccSpec a M R) :
    AccSpec (ledgeDir height climb bot top F.w F.h F.col x y a dir)
      (fun m => M m ∨ dirM height climb F x y bot top dir m) (fun r => R r ∨ dirR height climb F x y bot top dir r) := by
  unfold ledgeDir
  simp only
  generalize ex : (x : Int) + dirX (BitVec.ofNat 32 dir) = dx
  generalize ey : (y : Int) + dirY (BitVec.ofNat 32 dir) = dy
  split
  · rename_i ho
    have hno : ∀ i, ¬ NeiCell F.w F.h x y dir i := by
      rintro i ⟨nx, ny, h1, h2, h3, h4, -⟩
      rw [ex] at h3; rw [ey] at h4
      omega
    refine (h.min _).congr (fun m => ?_) (fun r => ?_)
    · constructor
      · rintro (h1 | h1)
        · exact Or.inl h1
        · exact Or.inr (Or.inl ⟨hno, h1⟩)
      · rintro (h1 | ⟨_, h1⟩ | ⟨i, hi, _⟩ | ⟨i, hi, _⟩)
        · exact Or.inl h1
        · exact Or.inr h1
        · exact absurd hi (hno i)
        · exact absurd hi (hno i)
    · constructor
      · exact Or.inl
      · rintro (h1 | ⟨i, hi, _⟩)
        · exact h1
        · exact absurd hi (hno i)
  · rename_i ho
    obtain ⟨nx, rfl⟩ := Int.eq_ofNat_of_zero_le (a := dx) (by omega)
    obtain ⟨ny, rfl⟩ := Int.eq_ofNat_of_zero_le (a := dy) (by omega)
    have ei : ((nx : Int) + (ny : Int) * (F.w : Int)).toNat = nx + ny * F.w := by
      have : ((nx : Int) + (ny : Int) * (F.w : Int)) = ((nx + ny * F.w : Nat) : Int) := by push_cast; rfl
      rw [this, Int.toNat_natCast]
    rw [ei]
    have hc : NeiCell F.w F.h x y dir (nx + ny * F.w) :=
      ⟨nx, ny, by omega, by omega, ex.symm, ey.symm, rfl⟩
    have hu : ∀ i, NeiCell F.w F.h x y dir i → i = nx + ny * F.w := fun i hi => neiCell_unique hi hc
    generalize nx + ny * F.w = j at hc hu
    have key : AccSpec (if min top (ceilAbove (F.col j)) - max bot (-climb) > height then
          { a with minh := min a.minh (-climb - bot) } else a)
        (fun m => M m ∨ (Fits height bot top (-climb) (groundCeil (F.col j)) ∧ m = -climb - bot)) R := by
      rw [groundCeil_eq]
      by_cases hf : Fits height bot top (-climb) (ceilAbove (F.col j))
      · have hf' := hf
        unfold Fits at hf'
        rw [if_pos hf']
        exact (h.min _).congr (fun m => by simp [hf]) (fun r => Iff.rfl)
      · have hf' := hf
        unfold Fits at hf'
        rw [if_neg hf']
        exact h.congr (fun m => by simp [hf]) (fun r => Iff.rfl)
    refine (ledgeNeis_spec height climb bot top (F.col j) _ _ _ key).congr (fun m => ?_) (fun r => ?_)
    · constructor
      · rintro ((h1 | h1) | h1)
        · exact Or.inl h1
        · exact Or.inr (Or.inr (Or.inl ⟨j, hc, h1⟩))
        · exact Or.inr (Or.inr (Or.inr ⟨j, hc, h1⟩))
      · rintro (h1 | ⟨h1, _⟩ | ⟨i, hi, h1⟩ | ⟨i, hi, h1⟩)
        · exact Or.inl (Or.inl h1)
        · exact absurd hc (h1 j)
        · rw [hu i hi] at h1; exact Or.inl (Or.inr h1)
        · rw [hu i hi] at h1; exact Or.inr h1
    · constructor
      · rintro (h1 | h1)
        · exact Or.inl h1
        · exact Or.inr ⟨j, hc, h1⟩
      · rintro (h1 | ⟨i, hi, h1⟩)
        · exact Or.inl h1
        · rw [hu i hi] at h1; exact Or.inr h1

theorem ledgeDirs_spec (height climb bot top : Int) (F : Field) (x y : Nat) (ds : List Nat) : ∀ (a : LedgeAcc)
    (M R : Int → Prop), AccSpec a M R →
    AccSpec (ds.foldl (ledgeDir height climb bot top F.w F.h F.col x y) a)
      (fun m => M m ∨ ∃ d ∈ ds, dirM height climb F x y bot top d m)
      (fun r => R r ∨ ∃ d ∈ ds, dirR height climb F x y bot top d r) := by
  induction ds with
  | nil => intro a M R h; exact h.congr (fun m => by simp) (fun r => by simp)
  | cons d ds ih =>
    intro a M R h
    rw [List.foldl_cons]
    refine (ih _ _ _ (ledgeDir_spec height climb bot top F x y d a M R h)).congr (fun m => ?_) (fun r => ?_)
    · simp only [List.mem_cons, exists_eq_or_imp]; exact or_assoc
    · simp only [List.mem_cons, exists_eq_or_imp]; exact or_assoc

/-- The decision of the code is the specification, for a non-negative climb. -/
theorem isLedge_iff (height climb : Int) (hcl : 0 ≤ climb) (F : Field) (x y : Nat) (bot top : Int) :
    isLedge height climb F.w F.h F.col x y bot top = true ↔ Ledge height climb F x y bot top := by
  have h0 : AccSpec ⟨0xffff, bot, bot⟩ (fun m => m = 0xffff) (fun r => r = bot) :=
    ⟨fun t => by simp, rfl, rfl, fun r hr => by subst hr; simp⟩
  have h := ledgeDirs_spec height climb bot top F x y [0, 1, 2, 3] _ _ _ h0
  unfold isLedge
  simp only
  generalize [0, 1, 2, 3].foldl (ledgeDir height climb bot top F.w F.h F.col x y) ⟨0xffff, bot, bot⟩ = a at h
  have hd : ∀ d, d ∈ [0, 1, 2, 3] ↔ d < 4 := by intro d; simp; omega
  simp only [hd] at h
  have e : (if a.minh < -climb then true else if a.asmax - a.asmin > climb then true else false) = true ↔
      a.minh < -climb ∨ climb < a.asmax - a.asmin := by
    split <;> simp_all
  rw [e, h.minh]
  constructor
  · rintro (⟨m, h1, h2⟩ | h1)
    · rcases h1 with rfl | ⟨d, hd4, ⟨h1, rfl⟩ | ⟨i, hi, h1, rfl⟩ | ⟨i, hi, f, c, h1, h3, rfl⟩⟩
      · omega
      · exact Or.inl ⟨by omega, d, hd4, h1⟩
      · exact Or.inr (Or.inl ⟨by omega, d, hd4, i, hi, h1⟩)
      · exact Or.inr (Or.inr (Or.inl ⟨d, hd4, i, hi, f, c, h1, h3, by omega⟩))
    · exact Or.inr (Or.inr (Or.inr ⟨a.asmax, a.asmin, h.hi, h.lo, h1⟩))
  · rintro (⟨h0, d, hd4, h1⟩ | ⟨h0, d, hd4, i, hi, h1⟩ | ⟨d, hd4, i, hi, f, c, h1, h2, h3⟩ | ⟨f, g, h1, h2, h3⟩)
    · exact Or.inl ⟨-climb - bot, Or.inr ⟨d, hd4, Or.inl ⟨h1, rfl⟩⟩, by omega⟩
    · exact Or.inl ⟨-climb - bot, Or.inr ⟨d, hd4, Or.inr (Or.inl ⟨i, hi, h1, rfl⟩)⟩, by omega⟩
    · exact Or.inl ⟨f - bot, Or.inr ⟨d, hd4, Or.inr (Or.inr ⟨i, hi, f, c, h1, h2, rfl⟩)⟩, by omega⟩
    · right
      have := h.all f h1
      have := h.all g h2
      omega

/-! ### Only geometry matters -/

/-- The geometry of a column. -/
def geom (l : List SpanV) : List (Nat × Nat) := l.map fun s => (s.smin, s.smax)

theorem ledgeNeis_geom (height climb bot top : Int) (l : List SpanV) : ∀ l' a, geom l = geom l' →
    ledgeNeis height climb bot top l a = ledgeNeis height climb bot top l' a := by
  induction l with
  | nil => intro l' a h; cases l' with
    | nil => rfl
    | cons _ _ => simp [geom] at h
  | cons s l ih =>
    intro l' a h
    cases l' with
    | nil => simp [geom] at h
    | cons s' l' =>
      simp only [geom, List.map_cons, List.cons.injEq, Prod.mk.injEq] at h
      obtain ⟨⟨h1, h2⟩, h3⟩ := h
      simp only [ledgeNeis]
      rw [h2, ceilAbove_congr h3]
      exact ih l' _ h3

theorem ledgeDir_geom (height climb bot top : Int) (w h : Nat) (col col' : Nat → List SpanV) (x y : Nat)
    (he : ∀ i, geom (col i) = geom (col' i)) (a : LedgeAcc) (d : Nat) :
    ledgeDir height climb bot top w h col x y a d = ledgeDir height climb bot top w h col' x y a d := by
  unfold ledgeDir
  simp only
  split
  · rfl
  · rw [ceilAbove_congr (he _)]
    exact ledgeNeis_geom _ _ _ _ _ _ _ (he _)

theorem isLedge_geom (height climb : Int) (w h : Nat) (col col' : Nat → List SpanV) (x y : Nat) (bot top : Int)
    (he : ∀ i, geom (col i) = geom (col' i)) :
    isLedge height climb w h col x y bot top = isLedge height climb w h col' x y bot top := by
  have : ledgeDir height climb bot top w h col x y = ledgeDir height climb bot top w h col' x y :=
    funext fun a => funext fun d => ledgeDir_geom _ _ _ _ _ _ _ _ _ _ he a d
  unfold isLedge
  rw [this]

theorem ledgeCol_geom (height climb : Int) (w h : Nat) (col : Nat → List SpanV) (x y : Nat) (l : List SpanV) :
    geom (ledgeCol height climb w h col x y l) = geom l := by
  unfold geom
  induction l with
  | nil => rfl
  | cons s l ih =>
    simp only [ledgeCol, List.map_cons, ih]
    split
    · rfl
    · split <;> rfl

theorem ledgeCol_congr (height climb : Int) (w h : Nat) (col col' : Nat → List SpanV) (x y : Nat)
    (he : ∀ i, geom (col i) = geom (col' i)) (l : List SpanV) :
    ledgeCol height climb w h col x y l = ledgeCol height climb w h col' x y l := by
  induction l with
  | nil => rfl
  | cons s l ih => simp only [ledgeCol, ih, isLedge_geom height climb w h col col' x y _ _ he]

theorem filterLedge_col (height climb : Int) (F : Field) (i : Nat) :
    (filterLedge height climb F).col i = if i < F.w * F.h then
      ledgeCol height climb F.w F.h F.col (i % F.w) (i / F.w) (F.col i) else F.col i := by
  unfold filterLedge
  refine sweep_spec F.w F.h _ (fun i l => ledgeCol height climb F.w F.h F.col (i % F.w) (i / F.w) l)
    (fun col => ∀ i, geom (col i) = geom (F.col i)) ?_ F.col (fun _ => rfl) i
  intro x hx y hy col hP
  have e : (x + y * F.w) % F.w = x ∧ (x + y * F.w) / F.w = y := by
    obtain ⟨h1, h2, h3⟩ := cell_of_lt (cell_lt hx hy)
    exact cell_inj h1 hx h3
  refine ⟨?_, fun i => ?_⟩
  · rw [e.1, e.2, ledgeCol_congr height climb F.w F.h col F.col x y hP]
  · by_cases hi : i = x + y * F.w
    · subst hi
      rw [upd_same, ledgeCol_geom]
      exact hP _
    · rw [upd_ne _ _ hi]
      exact hP i

/-- Spec: the height at which the open space above the `k`-th span ends. -/
def ceilOf (l : List SpanV) (k : Nat) : Int :=
  match l[k + 1]? with | some n => (n.smin : Int) | none => 0xffff

open Classical in
/-- **C45.** `FilterLedgeSpans` clears exactly the spans that are ledges in the geometry it was given:
the decision for a span does not depend on areas or on the spans processed before. -/
theorem ledge_effect (height climb : Int) (hcl : 0 ≤ climb) (F : Field) (i : Nat) (hi : i < F.w * F.h) :
    ((filterLedge height climb F).col i).length = (F.col i).length ∧
    ∀ k s, (F.col i)[k]? = some s → ((filterLedge height climb F).col i)[k]? =
      some (if Ledge height climb F (i % F.w) (i / F.w) s.smax (ceilOf (F.col i) k) then { s with area := 0 } else s) := by
  rw [filterLedge_col, if_pos hi]
  generalize F.col i = l
  induction l with
  | nil => exact ⟨rfl, by simp⟩
  | cons c l ih =>
    refine ⟨by simp [ledgeCol, ih.1], fun k s hs => ?_⟩
    cases k with
    | zero =>
      simp only [List.getElem?_cons_zero, Option.some.injEq] at hs
      subst hs
      have hc : ceilOf (c :: l) 0 = ceilAbove l := by cases l <;> rfl
      simp only [ledgeCol, List.getElem?_cons_zero, Option.some.injEq, hc, isLedge_iff height climb hcl, nullArea]
      split
      · rename_i h0
        split
        · cases c; simp_all
        · rfl
      · rfl
    | succ k =>
      rw [List.getElem?_cons_succ] at hs
      have := ih.2 k s hs
      simp only [ledgeCol, List.getElem?_cons_succ]
      rw [this]
      rfl

/-- **C45.** The filter only takes walkability away. -/
theorem ledge_only_clears (height climb : Int) (hcl : 0 ≤ climb) (F : Field) (i k : Nat) (s t : SpanV)
    (hs : (F.col i)[k]? = some s) (ht : ((filterLedge height climb F).col i)[k]? = some t) :
    t.smin = s.smin ∧ t.smax = s.smax ∧ (t.area = s.area ∨ t.area = 0) := by
  by_cases hi : i < F.w * F.h
  · rw [(ledge_effect height climb hcl F i hi).2 k s hs] at ht
    cases ht
    split
    · exact ⟨rfl, rfl, Or.inr rfl⟩
    · exact ⟨rfl, rfl, Or.inl rfl⟩
  · rw [filterLedge_col, if_neg hi, hs] at ht
    cases ht
    exact ⟨rfl, rfl, Or.inl rfl⟩

theorem ledgeCol_idem (height climb : Int) (w h : Nat) (col : Nat → List SpanV) (x y : Nat) (l : List SpanV) :
    ledgeCol height climb w h col x y (ledgeCol height climb w h col x y l) = ledgeCol height climb w h col x y l := by
  induction l with
  | nil => rfl
  | cons s l ih =>
    have hg := ceilAbove_congr (ledgeCol_geom height climb w h col x y l)
    simp only [ledgeCol, ih, hg]
    congr 1
    by_cases h1 : s.area = nullArea
    · simp [h1]
    · by_cases h2 : isLedge height climb w h col x y s.smax (ceilAbove l) = true
      · simp [h1, h2]
      · simp [h1, h2]

/-- **C45.** A second run changes nothing. -/
theorem ledge_idempotent (height climb : Int) (F : Field) (i : Nat) :
    (filterLedge height climb (filterLedge height climb F)).col i = (filterLedge height climb F).col i := by
  rw [filterLedge_col]
  have e1 : (filterLedge height climb F).w = F.w := rfl
  have e2 : (filterLedge height climb F).h = F.h := rfl
  have hg : ∀ i, geom ((filterLedge height climb F).col i) = geom (F.col i) := by
    intro i
    rw [filterLedge_col]
    split
    · exact ledgeCol_geom _ _ _ _ _ _ _ _
    · rfl
  rw [e1, e2, ledgeCol_congr height climb F.w F.h _ F.col _ _ hg, filterLedge_col]
  split
  · exact ledgeCol_idem _ _ _ _ _ _ _ _
  · rfl

/-- **C45.** Consequence: a span at the edge of the grid whose top is above the ground is never
walkable afterwards. -/
theorem ledge_border (height climb : Int) (hcl : 0 ≤ climb) (F : Field) (x y k : Nat) (hx : x < F.w) (hy : y < F.h)
    (hb : x = 0 ∨ y = 0 ∨ x + 1 = F.w ∨ y + 1 = F.h) (s : SpanV) (hs : (F.col (x + y * F.w))[k]? = some s)
    (h0 : 0 < s.smax) :
    ((filterLedge height climb F).col (x + y * F.w))[k]? = some { s with area := 0 } := by
  have hi := cell_lt hx hy
  obtain ⟨h1, h2, h3⟩ := cell_of_lt hi
  obtain ⟨e1, e2⟩ := cell_inj h1 hx h3
  rw [(ledge_effect height climb hcl F _ hi).2 k s hs, if_pos]
  rw [e1, e2]
  refine Or.inl ⟨by omega, ?_⟩
  rcases hb with h | h | h | h
  · exact ⟨0, by omega, fun i ⟨nx, ny, g1, g2, g3, g4, _⟩ => by simp [dirX] at g3; omega⟩
  · exact ⟨3, by omega, fun i ⟨nx, ny, g1, g2, g3, g4, _⟩ => by simp [dirY] at g4; omega⟩
  · exact ⟨2, by omega, fun i ⟨nx, ny, g1, g2, g3, g4, _⟩ => by simp [dirX] at g3; omega⟩
  · exact ⟨1, by omega, fun i ⟨nx, ny, g1, g2, g3, g4, _⟩ => by simp [dirY] at g4; omega⟩

/-- A 3×3 plateau at height 5 with a hole in the middle of one side: the centre survives only without
the hole. -/
example : ((filterLedge 3 1 ⟨3, 3, fun _ => [⟨0, 5, 63⟩]⟩).col 4) = [⟨0, 5, 63⟩] ∧
    ((filterLedge 3 1 ⟨3, 3, fun i => if i = 3 then [⟨0, 2, 63⟩] else [⟨0, 5, 63⟩]⟩).col 4) = [⟨0, 5, 0⟩] := by decide

end Verif.Recast
