/-
Tracing the outlines of regions: `cornerHeight`, `walkContour2` and the first part of `BuildContours`
(recast/contour.go:9-71, 204-355, 434-513).

Simplifications: indices are unbounded; `Spans[i].Reg` and `Spans[i].Y` are arrays of their own (`reg`, `ys`), areas
are the ones of `Chf`. `simplifyContour` is a parameter (any function on vertex lists), `removeDegenerateSegments` is the
one of `Contour`. The search for holes that follows (recast/contour.go:357-432) changes nothing, see
`mergeHoles_partial`, and is left out. Timers and the bounds of the set are left out.
-/
import Verif.Recast.RegionMerge
import Verif.Recast.Contour
import Mathlib.Dynamics.PeriodicPts.Defs
import Mathlib.Algebra.BigOperators.Group.Finset.Basic

namespace Verif.Recast
open Verif Verif.Detour

set_option linter.unusedSimpArgs false
set_option linter.unusedVariables false

/-! ## Model -/

/-- A span with its cell, and a direction: one of the four edges of the span. -/
abbrev SpanEdge := ((Nat × Nat) × Nat) × Nat

/-- The `uint16` in which `cornerHeight` wants to combine region and area (recast/contour.go:18, 26, 32, 42, 48). -/
def cornerCode (c : Chf) (reg : Nat → Nat) (i : Nat) : Nat := (reg i ||| (c.area i <<< 16)) % 65536

/-- The border test of `cornerHeight` for one rotation of the four codes (recast/contour.go:61-65). -/
def borderTest (a b c d : Nat) : Bool :=
  decide (a &&& b &&& 0x8000 ≠ 0) && decide (a = b) && decide ((c ||| d) &&& 0x8000 = 0) &&
    decide (c >>> 16 = d >>> 16) && (decide (a ≠ 0) && decide (b ≠ 0) && decide (c ≠ 0) && decide (d ≠ 0))

/-- `cornerHeight` (recast/contour.go:9-71): the height of the corner after edge `d`, and whether it is a border
vertex. -/
def cornerHeight (c : Chf) (reg ys : Nat → Nat) (e : SpanEdge) : Nat × Bool :=
  let v := e.1
  let d := e.2
  let dp := (d + 1) % 4
  let n1 := c.nb v.1.1 v.1.2 v.2 d
  let n2 := n1.bind fun w => c.nb w.1.1 w.1.2 w.2 dp
  let n3 := c.nb v.1.1 v.1.2 v.2 dp
  let n4 := n3.bind fun w => c.nb w.1.1 w.1.2 w.2 d
  let up := fun (ch : Nat) (w : Option ((Nat × Nat) × Nat)) => match w with | none => ch | some w => max ch (ys w.2)
  let code := fun (r : Nat) (w : Option ((Nat × Nat) × Nat)) =>
    match w with | none => r | some w => cornerCode c reg w.2
  let ch := up (up (up (up (ys v.2) n1) n2) n3) n4
  let r0 := cornerCode c reg v.2
  let r1 := code 0 n1
  let r2 := code (code 0 n2) n4
  let r3 := code 0 n3
  (ch, borderTest r0 r1 r2 r3 || borderTest r1 r2 r3 r0 || borderTest r2 r3 r0 r1 || borderTest r3 r0 r1 r2)

/-- The bits of `flags[i]` for one span (recast/contour.go:248-269). -/
def markOne (c : Chf) (reg : Nat → Nat) (v : (Nat × Nat) × Nat) : BitVec 8 :=
  if reg v.2 = 0 ∨ isBorder (reg v.2) = true then 0#8
  else (List.range 4).foldl (fun res d => if edgeReg c reg v d = reg v.2 then res ||| (1#8 <<< d) else res) 0#8 ^^^ 0xf#8

/-- The loop that marks boundaries (recast/contour.go:243-273). -/
def markAll (c : Chf) (reg : Nat → Nat) : Nat → BitVec 8 :=
  (c.spansOf (cellOrder c.w c.h)).foldl (fun fl v => upd fl v.2 (markOne c reg v)) fun _ => 0#8

/-- The vertex that `walkContour2` appends for an edge (recast/contour.go:452-485). -/
def tracePt (c : Chf) (reg ys : Nat → Nat) (area : Nat) (e : SpanEdge) : Pt :=
  let v := e.1
  let d := e.2
  let ch := cornerHeight c reg ys e
  let px := if d = 0 then v.1.1 else if d = 1 then v.1.1 + 1 else if d = 2 then v.1.1 + 1 else v.1.1
  let pz := if d = 0 then v.1.2 + 1 else if d = 1 then v.1.2 + 1 else if d = 2 then v.1.2 else v.1.2
  let r := edgeReg c reg v d
  let areaBorder := match c.nb v.1.1 v.1.2 v.2 d with | none => false | some w => decide (area ≠ c.area w.2)
  let r := if ch.2 = true then r ||| 0x10000 else r
  let r := if areaBorder = true then r ||| 0x20000 else r
  ⟨px, ch.1, pz, r⟩

/-- The loop of `walkContour2` (recast/contour.go:449-512): the flags and the vertices. -/
def traceLoop (c : Chf) (reg ys : Nat → Nat) (area start startDir : Nat) :
    Nat → (Nat × Nat) × Nat → Nat → (Nat → BitVec 8) → List Pt → (Nat → BitVec 8) × List Pt
  | 0, _, _, fl, pts => (fl, pts)
  | fuel + 1, v, d, fl, pts =>
    if fl v.2 &&& (1#8 <<< d) ≠ 0#8 then
      let pts := pts ++ [tracePt c reg ys area (v, d)]
      let fl := upd fl v.2 (fl v.2 &&& ~~~(1#8 <<< d))
      let d := (d + 1) % 4
      if start = v.2 ∧ startDir = d then (fl, pts) else traceLoop c reg ys area start startDir fuel v d fl pts
    else
      match c.nb v.1.1 v.1.2 v.2 d with
      | none => (fl, pts)
      | some w =>
        let d := (d + 3) % 4
        if start = w.2 ∧ startDir = d then (fl, pts) else traceLoop c reg ys area start startDir fuel w d fl pts

/-- The first marked edge (recast/contour.go:438-441). The loop of the code ends because it is called only with a
non-zero byte. -/
def firstFlag (b : BitVec 8) : Nat := ((List.range 8).find? fun d => decide (b &&& (1#8 <<< d) ≠ 0#8)).getD 0

/-- `walkContour2` (recast/contour.go:434-513); the loop makes at most 39999 rounds (`iter+1 < 40000`). -/
def walkContour2 (c : Chf) (reg ys : Nat → Nat) (fl : Nat → BitVec 8) (v : (Nat × Nat) × Nat) : (Nat → BitVec 8) × List Pt :=
  let d := firstFlag (fl v.2)
  traceLoop c reg ys (c.area v.2) v.2 d 39999 v d fl []

/-- One span of the main loop of `BuildContours`, up to the raw contour (recast/contour.go:285-301): the flags, and the
raw contour with the span where it begins. -/
def traceOne (c : Chf) (reg ys : Nat → Nat) (fl : Nat → BitVec 8) (v : (Nat × Nat) × Nat) :
    (Nat → BitVec 8) × Option (List Pt) :=
  if fl v.2 = 0#8 ∨ fl v.2 = 0xf#8 then (upd fl v.2 0#8, none)
  else if reg v.2 = 0 ∨ isBorder (reg v.2) = true then (fl, none)
  else
    let r := walkContour2 c reg ys fl v
    (r.1, some r.2)

/-- `Contour` (recast/contour.go:74-82): `Verts`, `RVerts`, `Reg`, `Area`. -/
structure Cont where
  verts : List Pt
  rverts : List Pt
  reg : Nat
  area : Nat
deriving DecidableEq

/-- Taking the border off the vertices (recast/contour.go:335-342, 347-354). -/
def shiftPts (bs : Nat) (l : List Pt) : List Pt := if 0 < bs then l.map fun p => { p with x := p.x - bs, z := p.z - bs } else l

/-- One span of the main loop of `BuildContours` (recast/contour.go:285-355); `none` is `panic("ENTERING")`. -/
def contourOne (c : Chf) (reg ys : Nat → Nat) (maxContours bs : Nat) (simplify : List Pt → List Pt)
    (st : (Nat → BitVec 8) × List Cont) (v : (Nat × Nat) × Nat) : Option ((Nat → BitVec 8) × List Cont) :=
  match traceOne c reg ys st.1 v with
  | (fl, none) => some (fl, st.2)
  | (fl, some raw) =>
    let s := removeDegenerate (simplify raw)
    if 3 ≤ s.length then
      if maxContours ≤ st.2.length then none
      else some (fl, st.2 ++ [⟨shiftPts bs s, shiftPts bs raw, reg v.2, c.area v.2⟩])
    else some (fl, st.2)

/-- `BuildContours` (recast/contour.go:204-355): the contours of the set, or `none` for a panic. -/
def buildContours (c : Chf) (reg ys : Nat → Nat) (maxRegions bs : Nat) (simplify : List Pt → List Pt) : Option (List Cont) :=
  ((c.spansOf (cellOrder c.w c.h)).foldlM (contourOne c reg ys (max maxRegions 8) bs simplify) (markAll c reg, [])).map Prod.snd

/-- The raw contours of a field with the span where each begins, whatever becomes of them. -/
def traceAll (c : Chf) (reg ys : Nat → Nat) : List (((Nat × Nat) × Nat) × List Pt) :=
  ((c.spansOf (cellOrder c.w c.h)).foldl (fun st v =>
    match traceOne c reg ys st.1 v with
    | (fl, none) => (fl, st.2)
    | (fl, some raw) => (fl, st.2 ++ [(v, raw)])) (markAll c reg, [])).2

/-! ## Spec -/

/-- Spec: every connection leads back. -/
def Chf.Mutual (c : Chf) : Prop := ∀ i d j, d < 4 → c.Nb i d j → c.Nb j ((d + 2) % 4) i

/-- Spec: an edge of a span of a proper region. -/
structure RegionEdge (c : Chf) (reg : Nat → Nat) (e : SpanEdge) : Prop where
  cell : c.At e.1.1.1 e.1.1.2 e.1.2
  dir : e.2 < 4
  pos : reg e.1.2 ≠ 0
  inner : isBorder (reg e.1.2) = false

/-- Spec: an edge on the outline of a region: no span of the same region is connected across it. -/
def OnOutline (c : Chf) (reg : Nat → Nat) (e : SpanEdge) : Prop :=
  RegionEdge c reg e ∧ ∀ j, c.Nb e.1.2 e.2 j → reg j ≠ reg e.1.2

/-- Spec: a span that is connected to no other span of its region. -/
def Alone (c : Chf) (reg : Nat → Nat) (i : Nat) : Prop := ∀ d < 4, ∀ j, c.Nb i d j → reg j ≠ reg i

/-- Spec: the corner where an edge begins, going round the span with the span's inside to the same side. -/
def cornerA (e : SpanEdge) : Int × Int :=
  match e.2 with
  | 0 => (e.1.1.1, e.1.1.2)
  | 1 => (e.1.1.1, e.1.1.2 + 1)
  | 2 => (e.1.1.1 + 1, e.1.1.2 + 1)
  | _ => (e.1.1.1 + 1, e.1.1.2)

/-- Spec: the corner where an edge ends. -/
def cornerB (e : SpanEdge) : Int × Int := cornerA (e.1, (e.2 + 1) % 4)

/-- Spec: turning round the corner where `e` begins, through connected spans of one region, until an edge of the outline. -/
inductive Pivot (c : Chf) (reg : Nat → Nat) : SpanEdge → SpanEdge → Prop
  | here (e : SpanEdge) : OnOutline c reg e → Pivot c reg e e
  | cross (e e' : SpanEdge) (w : (Nat × Nat) × Nat) : ¬ OnOutline c reg e → c.At w.1.1 w.1.2 w.2 → c.Nb e.1.2 e.2 w.2 →
      reg w.2 = reg e.1.2 → Pivot c reg (w, (e.2 + 3) % 4) e' → Pivot c reg e e'

/-- Spec: `e'` is the next edge of the outline after `e`. -/
def NextEdge (c : Chf) (reg : Nat → Nat) (e e' : SpanEdge) : Prop := Pivot c reg (e.1, (e.2 + 1) % 4) e'

/-! ## Orbits of an injective map -/

theorem orbit_period {α β : Type} [DecidableEq β] (f : α → α) (D : α → Prop) (proj : α → β) (T : Finset β)
    (hD : ∀ x, D x → D (f x)) (hinj : ∀ x y, D x → D y → f x = f y → x = y) (hT : ∀ x, D x → proj x ∈ T)
    (hp : ∀ x y, D x → D y → proj x = proj y → x = y) (x : α) (hx : D x) :
    0 < Function.minimalPeriod f x ∧ Function.minimalPeriod f x ≤ T.card := by
  have hit : ∀ k, D (f^[k] x) := by
    intro k
    induction k with
    | zero => exact hx
    | succ k ih => rw [Function.iterate_succ_apply']; exact hD _ ih
  have cancel : ∀ i m, f^[i + m] x = f^[i] x → f^[m] x = x := by
    intro i
    induction i with
    | zero => intro m h; simpa using h
    | succ i ih =>
      intro m h
      rw [show i + 1 + m = (i + m) + 1 by omega, Function.iterate_succ_apply', Function.iterate_succ_apply'] at h
      exact ih m (hinj _ _ (hit _) (hit _) h)
  have hper : ∃ m, 0 < m ∧ f^[m] x = x := by
    have hc : T.card < (Finset.range (T.card + 1)).card := by simp
    obtain ⟨i, _, j, _, hne, he⟩ := Finset.exists_ne_map_eq_of_card_lt_of_maps_to hc
      (f := fun k => proj (f^[k] x)) (fun k _ => hT _ (hit k))
    have he := hp _ _ (hit i) (hit j) he
    rcases Nat.lt_or_gt_of_ne hne with h | h
    · exact ⟨j - i, by omega, cancel i _ (by rw [show i + (j - i) = j by omega]; exact he.symm)⟩
    · exact ⟨i - j, by omega, cancel j _ (by rw [show j + (i - j) = i by omega]; exact he)⟩
  obtain ⟨m, hm, he⟩ := hper
  refine ⟨Function.minimalPeriod_pos_of_mem_periodicPts ⟨m, hm, he⟩, ?_⟩
  have := Finset.card_le_card_of_injOn (s := Finset.range (Function.minimalPeriod f x)) (t := T) (fun k => proj (f^[k] x))
    (fun k _ => hT _ (hit k)) (by
      intro i hi j hj h
      have hi' : i < Function.minimalPeriod f x := by simpa using hi
      have hj' : j < Function.minimalPeriod f x := by simpa using hj
      exact (Function.iterate_eq_iterate_iff_of_lt_minimalPeriod hi' hj').1 (hp _ _ (hit i) (hit j) h))
  simpa using this

/-! ## The step from edge to edge -/

/-- Whether `walkContour2` finds edge `e` marked, if it was not there before. -/
def isCut (c : Chf) (reg : Nat → Nat) (e : SpanEdge) : Bool := solid c reg e.1 e.2

/-- One step of the walk. -/
def stepEdge (c : Chf) (reg : Nat → Nat) (e : SpanEdge) : SpanEdge :=
  if isCut c reg e = true then (e.1, (e.2 + 1) % 4)
  else match c.nb e.1.1.1 e.1.1.2 e.1.2 e.2 with
    | none => e
    | some w => (w, (e.2 + 3) % 4)

section
variable {c : Chf} {reg : Nat → Nat}

theorem edgeReg_spec (hc : c.Wf) {e : SpanEdge} (he : RegionEdge c reg e) :
    (edgeReg c reg e.1 e.2 = 0 ∧ ∀ j, ¬ c.Nb e.1.2 e.2 j) ∨ ∃ w, c.nb e.1.1.1 e.1.1.2 e.1.2 e.2 = some w ∧ c.At w.1.1 w.1.2 w.2 ∧
      c.Nb e.1.2 e.2 w.2 ∧ edgeReg c reg e.1 e.2 = reg w.2 := by
  cases h : c.nb e.1.1.1 e.1.1.2 e.1.2 e.2 with
  | none =>
    refine Or.inl ⟨by rw [edgeReg, h], fun j hj => ?_⟩
    obtain ⟨p, hp⟩ := (hc.nb_iff he.cell he.dir j).1 hj
    rw [h] at hp; cases hp
  | some w =>
    obtain ⟨p, j⟩ := w
    obtain ⟨h1, _, _, h2⟩ := hc.nb_some he.cell he.dir h
    exact Or.inr ⟨(p, j), rfl, h1, h2, by rw [edgeReg, h]⟩

theorem isCut_iff (hc : c.Wf) {e : SpanEdge} (he : RegionEdge c reg e) : isCut c reg e = true ↔ OnOutline c reg e := by
  unfold isCut solid
  rw [decide_eq_true_eq]
  rcases edgeReg_spec hc he with ⟨h1, h2⟩ | ⟨w, h1, h2, h3, h4⟩
  · rw [h1]
    exact ⟨fun _ => ⟨he, fun j hj => absurd hj (h2 j)⟩, fun _ => Ne.symm he.pos⟩
  · rw [h4]
    constructor
    · intro h
      refine ⟨he, fun j hj => ?_⟩
      rw [Chf.Nb.unique hc he.dir hj h3]
      exact h
    · exact fun h => h.2 _ h3

/-- What one step does. -/
theorem stepEdge_cases (hc : c.Wf) {e : SpanEdge} (he : RegionEdge c reg e) :
    (OnOutline c reg e ∧ isCut c reg e = true ∧ stepEdge c reg e = (e.1, (e.2 + 1) % 4)) ∨
    (¬ OnOutline c reg e ∧ isCut c reg e = false ∧ ∃ w, c.nb e.1.1.1 e.1.1.2 e.1.2 e.2 = some w ∧ c.At w.1.1 w.1.2 w.2 ∧ c.Nb e.1.2 e.2 w.2 ∧
      reg w.2 = reg e.1.2 ∧ stepEdge c reg e = (w, (e.2 + 3) % 4)) := by
  by_cases h : isCut c reg e = true
  · exact Or.inl ⟨(isCut_iff hc he).1 h, h, by rw [stepEdge, if_pos h]⟩
  · refine Or.inr ⟨fun h' => h ((isCut_iff hc he).2 h'), by simpa using h, ?_⟩
    rcases edgeReg_spec hc he with ⟨h1, h2⟩ | ⟨w, h1, h2, h3, h4⟩
    · exfalso
      apply h
      rw [isCut_iff hc he]
      exact ⟨he, fun j hj => absurd hj (h2 j)⟩
    · refine ⟨w, h1, h2, h3, ?_, by rw [stepEdge, if_neg h, h1]⟩
      by_contra hne
      apply h
      unfold isCut solid
      rw [decide_eq_true_eq, h4]
      exact hne

theorem stepEdge_region (hc : c.Wf) {e : SpanEdge} (he : RegionEdge c reg e) :
    RegionEdge c reg (stepEdge c reg e) ∧ reg (stepEdge c reg e).1.2 = reg e.1.2 := by
  rcases stepEdge_cases hc he with ⟨-, -, h⟩ | ⟨-, -, w, -, h1, -, h2, h⟩
  · rw [h]; exact ⟨⟨he.cell, Nat.mod_lt _ (by omega), he.pos, he.inner⟩, rfl⟩
  · rw [h]
    exact ⟨⟨h1, Nat.mod_lt _ (by omega), by show reg w.2 ≠ 0; rw [h2]; exact he.pos, by show isBorder (reg w.2) = _; rw [h2]; exact he.inner⟩, h2⟩

theorem spanEdge_ext (hc : c.Wf) {e e' : SpanEdge} (he : RegionEdge c reg e) (he' : RegionEdge c reg e') (h1 : e.1.2 = e'.1.2)
    (h2 : e.2 = e'.2) : e = e' := by
  obtain ⟨⟨⟨x, y⟩, i⟩, d⟩ := e
  obtain ⟨⟨⟨x', y'⟩, i'⟩, d'⟩ := e'
  simp only at h1 h2
  subst h1 h2
  obtain ⟨e1, e2⟩ := hc.unique _ _ _ _ _ he.cell he'.cell
  simp only at e1 e2
  subst e1 e2
  rfl

/-- With mutual connections the step has an inverse. -/
theorem stepEdge_inj (hc : c.Wf) (hm : c.Mutual) {e e' : SpanEdge} (he : RegionEdge c reg e) (he' : RegionEdge c reg e')
    (h : stepEdge c reg e = stepEdge c reg e') : e = e' := by
  have hd := he.dir
  have hd' := he'.dir
  -- a turn and a move end at different edges
  have key : ∀ {e e' : SpanEdge}, RegionEdge c reg e → RegionEdge c reg e' → OnOutline c reg e → ∀ w : (Nat × Nat) × Nat,
      c.Nb e'.1.2 e'.2 w.2 → reg w.2 = reg e'.1.2 → (e.1, (e.2 + 1) % 4) = (w, (e'.2 + 3) % 4) → False := by
    intro e e' he he' ho w hw hr h
    simp only [Prod.mk.injEq] at h
    obtain ⟨h1, h2⟩ := h
    have hd := he.dir
    have hd' := he'.dir
    have hb := hm _ _ _ hd' hw
    rw [show (e'.2 + 2) % 4 = e.2 by omega, ← h1] at hb
    exact ho.2 _ hb (by rw [← hr, ← h1])
  rcases stepEdge_cases hc he with ⟨a1, a2, a3⟩ | ⟨a1, a2, w, a3, a4, a5, a6, a7⟩ <;>
    rcases stepEdge_cases hc he' with ⟨b1, b2, b3⟩ | ⟨b1, b2, w', b3, b4, b5, b6, b7⟩
  · rw [a3, b3] at h
    simp only [Prod.mk.injEq] at h
    exact spanEdge_ext hc he he' (by rw [h.1]) (by omega)
  · rw [a3, b7] at h
    exact (key he he' a1 w' b5 b6 h).elim
  · rw [a7, b3] at h
    exact (key he' he b1 w a5 a6 h.symm).elim
  · rw [a7, b7] at h
    simp only [Prod.mk.injEq] at h
    obtain ⟨rfl, h2⟩ := h
    have hdd : e.2 = e'.2 := by omega
    have g1 := hm _ _ _ hd a5
    have g2 := hm _ _ _ hd' b5
    rw [hdd] at g1
    exact spanEdge_ext hc he he' (Chf.Nb.unique hc (Nat.mod_lt _ (by omega)) g1 g2) hdd

theorem stepEdge_iter (hc : c.Wf) {e : SpanEdge} (he : RegionEdge c reg e) (k : Nat) :
    RegionEdge c reg ((stepEdge c reg)^[k] e) ∧ reg ((stepEdge c reg)^[k] e).1.2 = reg e.1.2 := by
  induction k with
  | zero => exact ⟨he, rfl⟩
  | succ k ih =>
    rw [Function.iterate_succ_apply']
    obtain ⟨h1, h2⟩ := stepEdge_region hc ih.1
    exact ⟨h1, h2.trans ih.2⟩

/-- The number of steps after which the walk comes back. -/
noncomputable def period (c : Chf) (reg : Nat → Nat) (e : SpanEdge) : Nat := Function.minimalPeriod (stepEdge c reg) e

theorem period_spec (hc : c.Wf) (hm : c.Mutual) {e : SpanEdge} (he : RegionEdge c reg e) :
    0 < period c reg e ∧ period c reg e ≤ 4 * ((List.range c.n).filter fun i => decide (reg i = reg e.1.2)).length := by
  have := orbit_period (stepEdge c reg) (fun x => RegionEdge c reg x ∧ reg x.1.2 = reg e.1.2) (fun x => (x.1.2, x.2))
    (((List.range c.n).filter fun i => decide (reg i = reg e.1.2)).toFinset ×ˢ Finset.range 4)
    (fun x hx => ⟨(stepEdge_region hc hx.1).1, (stepEdge_region hc hx.1).2.trans hx.2⟩)
    (fun x y hx hy h => stepEdge_inj hc hm hx.1 hy.1 h)
    (fun x hx => by
      simp only [Finset.mem_product, List.mem_toFinset, List.mem_filter, List.mem_range, decide_eq_true_eq, Finset.mem_range]
      exact ⟨⟨hc.lt _ _ _ hx.1.cell, hx.2⟩, hx.1.dir⟩)
    (fun x y hx hy h => by
      simp only [Prod.mk.injEq] at h
      exact spanEdge_ext hc hx.1 hy.1 h.1 h.2) e ⟨he, rfl⟩
  refine ⟨this.1, this.2.trans ?_⟩
  rw [Finset.card_product, Finset.card_range, List.toFinset_card_of_nodup (List.Nodup.filter _ List.nodup_range)]
  omega

theorem period_step (e : SpanEdge) : (stepEdge c reg)^[period c reg e] e = e := Function.iterate_minimalPeriod

theorem period_inj {e : SpanEdge} {i j : Nat} (hi : i < period c reg e) (hj : j < period c reg e)
    (h : (stepEdge c reg)^[i] e = (stepEdge c reg)^[j] e) : i = j :=
  (Function.iterate_eq_iterate_iff_of_lt_minimalPeriod hi hj).1 h

/-! ## One walk -/

/-- Edge `e` is marked. -/
def marked (fl : Nat → BitVec 8) (e : SpanEdge) : Prop := fl e.1.2 &&& (1#8 <<< e.2) ≠ 0#8

instance (fl : Nat → BitVec 8) (e : SpanEdge) : Decidable (marked fl e) := inferInstanceAs (Decidable (_ ≠ _))

/-- The flags after the edges `l` were visited. -/
def clearEdges (fl : Nat → BitVec 8) (l : List SpanEdge) : Nat → BitVec 8 :=
  l.foldl (fun fl e => upd fl e.1.2 (fl e.1.2 &&& ~~~(1#8 <<< e.2))) fl

theorem bit_clear : ∀ b : BitVec 8, ∀ d < 4, ∀ e < 4,
    ((b &&& ~~~(1#8 <<< d)) &&& (1#8 <<< e) ≠ 0#8 ↔ (b &&& (1#8 <<< e) ≠ 0#8 ∧ e ≠ d)) := by decide +kernel

theorem marked_clear (hc : c.Wf) {fl : Nat → BitVec 8} {e a : SpanEdge} (he : RegionEdge c reg e) (ha : RegionEdge c reg a) :
    marked (upd fl a.1.2 (fl a.1.2 &&& ~~~(1#8 <<< a.2))) e ↔ marked fl e ∧ e ≠ a := by
  unfold marked
  by_cases h : e.1.2 = a.1.2
  · rw [← h, upd_same, bit_clear _ _ ha.dir _ he.dir]
    refine and_congr_right fun _ => not_congr ⟨fun h' => spanEdge_ext hc he ha h h', fun h' => by rw [h']⟩
  · rw [upd_ne _ _ h]
    exact ⟨fun h' => ⟨h', fun h'' => h (by rw [h''])⟩, fun h' => h'.1⟩

theorem marked_clearEdges (hc : c.Wf) (l : List SpanEdge) : ∀ (fl : Nat → BitVec 8) (e : SpanEdge), RegionEdge c reg e →
    (∀ a ∈ l, RegionEdge c reg a) → (marked (clearEdges fl l) e ↔ marked fl e ∧ e ∉ l) := by
  induction l with
  | nil => intro fl e _ _; simp [clearEdges]
  | cons a l ih =>
    intro fl e he hl
    have := ih (upd fl a.1.2 (fl a.1.2 &&& ~~~(1#8 <<< a.2))) e he (fun b hb => hl b (by simp [hb]))
    show marked (clearEdges (upd fl a.1.2 (fl a.1.2 &&& ~~~(1#8 <<< a.2))) l) e ↔ _
    rw [this, marked_clear hc he (hl a (by simp)), List.mem_cons, not_or, and_assoc]

/-- The `m` states of a walk from the `k`th on. -/
def orbit (c : Chf) (reg : Nat → Nat) (s : SpanEdge) (k m : Nat) : List SpanEdge := (List.range' k m).map fun j => (stepEdge c reg)^[j] s

theorem orbit_succ (s : SpanEdge) (k m : Nat) : orbit c reg s k (m + 1) = (stepEdge c reg)^[k] s :: orbit c reg s (k + 1) m := by
  rw [orbit, List.range'_succ, List.map_cons]; rfl

theorem mem_orbit (s : SpanEdge) (k m : Nat) (e : SpanEdge) :
    e ∈ orbit c reg s k m ↔ ∃ j, k ≤ j ∧ j < k + m ∧ (stepEdge c reg)^[j] s = e := by
  simp only [orbit, List.mem_map, List.mem_range'_1]
  constructor
  · rintro ⟨j, ⟨h1, h2⟩, h3⟩; exact ⟨j, h1, h2, h3⟩
  · rintro ⟨j, h1, h2, h3⟩; exact ⟨j, ⟨h1, h2⟩, h3⟩

theorem traceLoop_spec (hc : c.Wf) (ys : Nat → Nat) (area : Nat) {s : SpanEdge} (hs : RegionEdge c reg s) :
    ∀ (fuel k : Nat) (fl : Nat → BitVec 8) (pts : List Pt), k < period c reg s →
    (∀ j, k ≤ j → j < period c reg s → (marked fl ((stepEdge c reg)^[j] s) ↔ isCut c reg ((stepEdge c reg)^[j] s) = true)) →
    traceLoop c reg ys area s.1.2 s.2 fuel ((stepEdge c reg)^[k] s).1 ((stepEdge c reg)^[k] s).2 fl pts =
      let l := (orbit c reg s k (min fuel (period c reg s - k))).filter (isCut c reg)
      (clearEdges fl l, pts ++ l.map (tracePt c reg ys area)) := by
  intro fuel
  induction fuel with
  | zero =>
    intro k fl pts hk hf
    simp [traceLoop, orbit, clearEdges]
  | succ fuel ih =>
    intro k fl pts hk hf
    have hreg := (stepEdge_iter hc hs k).1
    have hnext : (stepEdge c reg)^[k + 1] s = stepEdge c reg ((stepEdge c reg)^[k] s) := Function.iterate_succ_apply' _ _ _
    have hreg' := (stepEdge_iter hc hs (k + 1)).1
    have hstop : (s.1.2 = ((stepEdge c reg)^[k + 1] s).1.2 ∧ s.2 = ((stepEdge c reg)^[k + 1] s).2) ↔ k + 1 = period c reg s := by
      constructor
      · intro h
        have he : s = (stepEdge c reg)^[k + 1] s := spanEdge_ext hc hs hreg' h.1 h.2
        by_contra hne
        have := period_inj (c := c) (reg := reg) (e := s) (i := 0) (j := k + 1) (by omega) (by omega) (by simpa using he)
        omega
      · intro h
        rw [h, period_step]
        exact ⟨rfl, rfl⟩
    have hmin : min (fuel + 1) (period c reg s - k) = min fuel (period c reg s - (k + 1)) + 1 := by omega
    rw [hmin, orbit_succ]
    rw [traceLoop]
    have hk0 := hf k le_rfl hk
    rcases stepEdge_cases hc hreg with ⟨-, a2, a3⟩ | ⟨-, a2, w, a3, -, -, -, a7⟩
    · have hmk : marked fl ((stepEdge c reg)^[k] s) := hk0.2 a2
      unfold marked at hmk
      rw [List.filter_cons_of_pos a2, if_pos hmk]
      rw [← hnext] at a3
      have e1 : ((stepEdge c reg)^[k] s).1 = ((stepEdge c reg)^[k + 1] s).1 := by rw [a3]
      have e2 : (((stepEdge c reg)^[k] s).2 + 1) % 4 = ((stepEdge c reg)^[k + 1] s).2 := by rw [a3]
      dsimp only
      by_cases hlast : k + 1 = period c reg s
      · rw [if_pos (by rw [e2, e1]; exact hstop.2 hlast)]
        rw [show min fuel (period c reg s - (k + 1)) = 0 by omega]
        simp [orbit, clearEdges]
      · rw [if_neg (by rw [e2, e1]; exact fun h => hlast (hstop.1 h)), e2]
        have hcl : ∀ j, k + 1 ≤ j → j < period c reg s →
            (marked (upd fl ((stepEdge c reg)^[k] s).1.2 (fl ((stepEdge c reg)^[k] s).1.2 &&& ~~~(1#8 <<< ((stepEdge c reg)^[k] s).2))) ((stepEdge c reg)^[j] s) ↔
              isCut c reg ((stepEdge c reg)^[j] s) = true) := by
          intro j h1 h2
          rw [marked_clear hc (stepEdge_iter hc hs j).1 hreg, hf j (by omega) h2]
          refine and_iff_left fun h => ?_
          have := period_inj (c := c) (reg := reg) (e := s) h2 hk h
          omega
        have := ih (k + 1) _ (pts ++ [tracePt c reg ys area ((stepEdge c reg)^[k] s)]) (by omega) hcl
        rw [← e1] at this
        rw [this]
        dsimp only
        rw [List.map_cons, List.append_assoc]
        rfl
    · have hmk : ¬ marked fl ((stepEdge c reg)^[k] s) := fun h => by rw [hk0.1 h] at a2; exact absurd a2 (by simp)
      unfold marked at hmk
      rw [List.filter_cons_of_neg (by rw [a2]; simp), if_neg hmk, a3]
      rw [← hnext] at a7
      have e1 : w = ((stepEdge c reg)^[k + 1] s).1 := by rw [a7]
      have e2 : (((stepEdge c reg)^[k] s).2 + 3) % 4 = ((stepEdge c reg)^[k + 1] s).2 := by rw [a7]
      dsimp only
      rw [e1, e2]
      by_cases hlast : k + 1 = period c reg s
      · rw [if_pos (hstop.2 hlast)]
        rw [show min fuel (period c reg s - (k + 1)) = 0 by omega]
        simp [orbit, clearEdges]
      · rw [if_neg (fun h => hlast (hstop.1 h))]
        exact ih (k + 1) fl pts (by omega) fun j h1 h2 => hf j (by omega) h2

/-! ## Outline edges in the order of a walk -/

/-- In a list of states each of which is the step after the one before, the outline edges follow each other round the
outline. -/
theorem chain_edges (hc : c.Wf) (l : List SpanEdge) : (∀ e ∈ l, RegionEdge c reg e) → l.IsChain (fun a b => b = stepEdge c reg a) →
    (l.filter (isCut c reg)).IsChain (NextEdge c reg) ∧
      ∀ a, l.head? = some a → ∀ b, (l.filter (isCut c reg)).head? = some b → Pivot c reg a b := by
  induction l with
  | nil => intro _ _; simp
  | cons a l ih =>
    intro hr hch
    have ha := hr a (by simp)
    have htail : l.IsChain (fun a b => b = stepEdge c reg a) := hch.tail
    obtain ⟨i1, i2⟩ := ih (fun e he => hr e (by simp [he])) htail
    have hnext : ∀ b, (l.filter (isCut c reg)).head? = some b → Pivot c reg (stepEdge c reg a) b := by
      intro b hb
      cases l with
      | nil => simp at hb
      | cons a' l =>
        have := (List.isChain_cons_cons.1 hch).1
        subst this
        exact i2 _ rfl b hb
    rcases stepEdge_cases hc ha with ⟨a1, a2, a3⟩ | ⟨a1, a2, w, a3, a4, a5, a6, a7⟩
    · rw [List.filter_cons_of_pos a2]
      constructor
      · rw [List.isChain_cons]
        refine ⟨fun b hb => ?_, i1⟩
        have := hnext b hb
        rw [a3] at this
        exact this
      · intro a' ha' b hb
        simp only [List.head?_cons, Option.some.injEq] at ha' hb
        subst ha' hb
        exact Pivot.here _ a1
    · rw [List.filter_cons_of_neg (by rw [a2]; simp)]
      refine ⟨i1, ?_⟩
      intro a' ha' b hb
      simp only [List.head?_cons, Option.some.injEq] at ha'
      subst ha'
      have := hnext b hb
      rw [a7] at this
      exact Pivot.cross _ _ w a1 a4 a5 a6 this

theorem orbit_chain (s : SpanEdge) (m : Nat) : ∀ k, (orbit c reg s k m).IsChain (fun a b => b = stepEdge c reg a) := by
  induction m with
  | zero => intro k; simp [orbit]
  | succ m ih =>
    intro k
    rw [orbit_succ, List.isChain_cons]
    refine ⟨fun b hb => ?_, ih _⟩
    cases m with
    | zero => simp [orbit] at hb
    | succ m =>
      rw [orbit_succ] at hb
      simp only [List.head?_cons, Option.mem_def, Option.some.injEq] at hb
      rw [← hb, Function.iterate_succ_apply']

/-- The edges of the contour through `s`. -/
noncomputable def contourEdges (c : Chf) (reg : Nat → Nat) (s : SpanEdge) : List SpanEdge :=
  (orbit c reg s 0 (period c reg s)).filter (isCut c reg)

theorem mem_contourEdges (hc : c.Wf) {s e : SpanEdge} (hs : RegionEdge c reg s) :
    e ∈ contourEdges c reg s ↔ OnOutline c reg e ∧ ∃ j < period c reg s, (stepEdge c reg)^[j] s = e := by
  unfold contourEdges
  rw [List.mem_filter, mem_orbit]
  constructor
  · rintro ⟨⟨j, _, h2, rfl⟩, h4⟩
    exact ⟨(isCut_iff hc (stepEdge_iter hc hs j).1).1 h4, j, by omega, rfl⟩
  · rintro ⟨h1, j, h2, rfl⟩
    exact ⟨⟨j, by omega, by omega, rfl⟩, (isCut_iff hc h1.1).2 h1⟩

theorem contourEdges_nodup (hc : c.Wf) {s : SpanEdge} : (contourEdges c reg s).Nodup := by
  unfold contourEdges orbit
  refine List.Nodup.filter _ (List.Nodup.map_on ?_ List.nodup_range')
  intro i hi j hj h
  simp only [List.mem_range'_1] at hi hj
  exact period_inj (by omega) (by omega) h

/-- The contour through an outline edge goes once round and comes back to it. -/
theorem contourEdges_closed (hc : c.Wf) (hm : c.Mutual) {s : SpanEdge} (hs : OnOutline c reg s) :
    ∃ t, contourEdges c reg s = s :: t ∧ (s :: t ++ [s]).IsChain (NextEdge c reg) := by
  obtain ⟨h0, -⟩ := period_spec hc hm hs.1
  obtain ⟨m, hmm⟩ : ∃ m, period c reg s = m + 1 := ⟨period c reg s - 1, by omega⟩
  have hcut := (isCut_iff hc hs.1).2 hs
  refine ⟨(orbit c reg s 1 m).filter (isCut c reg), ?_, ?_⟩
  · unfold contourEdges
    rw [hmm, orbit_succ, Function.iterate_zero, id, List.filter_cons_of_pos hcut]
  · have hlong := (chain_edges hc (orbit c reg s 0 (period c reg s + 1)) (fun e he => by
      obtain ⟨j, _, _, rfl⟩ := (mem_orbit _ _ _ _).1 he
      exact (stepEdge_iter hc hs.1 j).1) (orbit_chain _ _ _)).1
    have hsplit : orbit c reg s 0 (period c reg s + 1) = orbit c reg s 0 (period c reg s) ++ [s] := by
      unfold orbit
      rw [List.range'_concat, List.map_append]
      simp [period_step]
    rw [hsplit, List.filter_append, hmm, orbit_succ, Function.iterate_zero, id, List.filter_cons_of_pos hcut,
      List.filter_cons_of_pos hcut] at hlong
    simpa using hlong

/-! ## Corners -/

theorem cornerA_cross (hc : c.Wf) {v w : (Nat × Nat) × Nat} {d : Nat} (hd : d < 4) (hv : c.At v.1.1 v.1.2 v.2) (hw : c.At w.1.1 w.1.2 w.2)
    (h : c.Nb v.2 d w.2) : cornerA (w, (d + 3) % 4) = cornerA (v, d) := by
  obtain ⟨x, y, nx, ny, h1, h2, h3, h4, -⟩ := h
  obtain ⟨e1, e2⟩ := hc.unique _ _ _ _ _ h1 hv
  obtain ⟨e3, e4⟩ := hc.unique _ _ _ _ _ h2 hw
  subst e1 e2 e3 e4
  unfold cornerA
  have : d = 0 ∨ d = 1 ∨ d = 2 ∨ d = 3 := by omega
  rcases this with rfl | rfl | rfl | rfl
  · have a : dirX (BitVec.ofNat 32 0) = -1 := by decide
    have b : dirY (BitVec.ofNat 32 0) = 0 := by decide
    rw [a] at h3; rw [b] at h4
    simp only [Nat.zero_add, Nat.reduceMod, Prod.mk.injEq]
    omega
  · have a : dirX (BitVec.ofNat 32 1) = 0 := by decide
    have b : dirY (BitVec.ofNat 32 1) = 1 := by decide
    rw [a] at h3; rw [b] at h4
    simp only [Nat.reduceAdd, Nat.reduceMod, Prod.mk.injEq]
    omega
  · have a : dirX (BitVec.ofNat 32 2) = 1 := by decide
    have b : dirY (BitVec.ofNat 32 2) = 0 := by decide
    rw [a] at h3; rw [b] at h4
    simp only [Nat.reduceAdd, Nat.reduceMod, Prod.mk.injEq]
    omega
  · have a : dirX (BitVec.ofNat 32 3) = 0 := by decide
    have b : dirY (BitVec.ofNat 32 3) = -1 := by decide
    rw [a] at h3; rw [b] at h4
    simp only [Nat.reduceAdd, Nat.reduceMod, Prod.mk.injEq]
    omega

theorem pivot_corner (hc : c.Wf) {e e' : SpanEdge} (h : Pivot c reg e e') :
    c.At e.1.1.1 e.1.1.2 e.1.2 → e.2 < 4 → cornerA e' = cornerA e := by
  induction h with
  | here e _ => intro _ _; rfl
  | cross e e' w h1 h2 h3 h4 h5 ih =>
    intro ha hd
    rw [ih h2 (Nat.mod_lt _ (by omega))]
    exact cornerA_cross hc hd ha h2 h3

/-- The next edge of an outline begins where the edge ends. -/
theorem nextEdge_corner (hc : c.Wf) {e e' : SpanEdge} (he : RegionEdge c reg e) (h : NextEdge c reg e e') : cornerA e' = cornerB e :=
  pivot_corner hc h he.cell (Nat.mod_lt _ (by omega))

theorem cornerB_sum (e : SpanEdge) (hd : e.2 < 4) :
    (cornerB e).1 + (cornerB e).2 = (cornerA e).1 + (cornerA e).2 + if e.2 < 2 then 1 else -1 := by
  obtain ⟨v, d⟩ := e
  simp only at hd
  have : d = 0 ∨ d = 1 ∨ d = 2 ∨ d = 3 := by omega
  rcases this with rfl | rfl | rfl | rfl <;> simp [cornerA, cornerB] <;> omega

/-- Every walk goes along an edge in direction 0 or 1: it could not come back otherwise. -/
theorem low_edge (hc : c.Wf) (hm : c.Mutual) {e : SpanEdge} (he : OnOutline c reg e) :
    ∃ k, OnOutline c reg ((stepEdge c reg)^[k] e) ∧ ((stepEdge c reg)^[k] e).2 < 2 := by
  by_contra hcon
  push Not at hcon
  let φ : SpanEdge → Int := fun e => (cornerA e).1 + (cornerA e).2
  have hstep : ∀ k, φ ((stepEdge c reg)^[k + 1] e) = φ ((stepEdge c reg)^[k] e) ∧ ¬ OnOutline c reg ((stepEdge c reg)^[k] e) ∨
      φ ((stepEdge c reg)^[k + 1] e) < φ ((stepEdge c reg)^[k] e) := by
    intro k
    rw [Function.iterate_succ_apply']
    have hr := (stepEdge_iter hc he.1 k).1
    rcases stepEdge_cases hc hr with ⟨a1, a2, a3⟩ | ⟨a1, a2, w, a3, a4, a5, a6, a7⟩
    · right
      rw [a3]
      have := cornerB_sum _ hr.dir
      have h2 := hcon k a1
      rw [if_neg (by omega)] at this
      show (cornerB _).1 + (cornerB _).2 < (cornerA _).1 + (cornerA _).2
      omega
    · left
      rw [a7]
      exact ⟨by show (cornerA _).1 + (cornerA _).2 = (cornerA _).1 + (cornerA _).2; rw [cornerA_cross hc hr.dir hr.cell a4 a5], a1⟩
  have hdown : ∀ k, φ ((stepEdge c reg)^[k + 1] e) < φ e := by
    intro k
    induction k with
    | zero =>
      rcases hstep 0 with h | h
      · exact absurd he h.2
      · exact h
    | succ k ih =>
      rcases hstep (k + 1) with h | h
      · rw [h.1]; exact ih
      · omega
  obtain ⟨h0, -⟩ := period_spec hc hm he.1
  obtain ⟨m, hmm⟩ : ∃ m, period c reg e = m + 1 := ⟨period c reg e - 1, by omega⟩
  have := hdown m
  rw [← hmm, period_step] at this
  omega

theorem alone_iter (hc : c.Wf) {e : SpanEdge} (he : RegionEdge c reg e) (ha : Alone c reg e.1.2) (k : Nat) :
    ((stepEdge c reg)^[k] e).1 = e.1 ∧ ((stepEdge c reg)^[k] e).2 = (e.2 + k) % 4 := by
  induction k with
  | zero =>
    have := he.dir
    exact ⟨rfl, by simp only [Function.iterate_zero, id]; omega⟩
  | succ k ih =>
    rw [Function.iterate_succ_apply']
    have hr := (stepEdge_iter hc he k).1
    rcases stepEdge_cases hc hr with ⟨a1, a2, a3⟩ | ⟨a1, a2, w, a3, a4, a5, a6, a7⟩
    · rw [a3]
      refine ⟨ih.1, ?_⟩
      show (((stepEdge c reg)^[k] e).2 + 1) % 4 = _
      rw [ih.2]; omega
    · exfalso
      rw [ih.1] at a5 a6
      exact ha _ hr.dir _ a5 a6

/-- The steps can be undone by going on. -/
theorem iter_back (hc : c.Wf) (hm : c.Mutual) {e : SpanEdge} (he : RegionEdge c reg e) (j : Nat) :
    ∃ k, (stepEdge c reg)^[k] ((stepEdge c reg)^[j] e) = e := by
  obtain ⟨h0, -⟩ := period_spec hc hm he
  refine ⟨period c reg e * (j + 1) - j, ?_⟩
  rw [← Function.iterate_add_apply]
  have hle : j ≤ period c reg e * (j + 1) := by
    calc j ≤ j + 1 := by omega
      _ = 1 * (j + 1) := by omega
      _ ≤ _ := Nat.mul_le_mul_right _ h0
  rw [show period c reg e * (j + 1) - j + j = period c reg e * (j + 1) by omega, ← Function.iterate_mod_minimalPeriod_eq]
  show (stepEdge c reg)^[(period c reg e * (j + 1)) % period c reg e] e = e
  rw [Nat.mul_mod_right]
  rfl

theorem iter_mem_contourEdges (hc : c.Wf) (hm : c.Mutual) {s : SpanEdge} (hs : RegionEdge c reg s) (j : Nat)
    (h : OnOutline c reg ((stepEdge c reg)^[j] s)) : (stepEdge c reg)^[j] s ∈ contourEdges c reg s := by
  rw [mem_contourEdges hc hs]
  refine ⟨h, j % period c reg s, Nat.mod_lt _ (period_spec hc hm hs).1, ?_⟩
  exact Function.iterate_mod_minimalPeriod_eq

/-! ## The flags -/

theorem markOne_bits : ∀ b0 b1 b2 b3 : Bool, ∀ d < 4,
    ((([b0, b1, b2, b3].zipIdx.foldl (fun (res : BitVec 8) p => if p.1 = true then res ||| (1#8 <<< p.2) else res) 0#8) ^^^ 0xf#8) &&& (1#8 <<< d) ≠ 0#8 ↔
      [b0, b1, b2, b3].getD d true = false) ∧
    (([b0, b1, b2, b3].zipIdx.foldl (fun (res : BitVec 8) p => if p.1 = true then res ||| (1#8 <<< p.2) else res) 0#8) ^^^ 0xf#8).toNat < 16 := by
  decide +kernel

theorem markOne_eq (v : (Nat × Nat) × Nat) (h : ¬ (reg v.2 = 0 ∨ isBorder (reg v.2) = true)) :
    markOne c reg v = ([decide (edgeReg c reg v 0 = reg v.2), decide (edgeReg c reg v 1 = reg v.2), decide (edgeReg c reg v 2 = reg v.2),
      decide (edgeReg c reg v 3 = reg v.2)].zipIdx.foldl (fun (res : BitVec 8) p => if p.1 = true then res ||| (1#8 <<< p.2) else res) 0#8) ^^^ 0xf#8 := by
  rw [markOne, if_neg h, show List.range 4 = [0, 1, 2, 3] from rfl]
  simp only [List.foldl_cons, List.foldl_nil, List.zipIdx_cons, List.zipIdx_nil, decide_eq_true_eq, Nat.zero_add, Nat.reduceAdd]

theorem markOne_spec (v : (Nat × Nat) × Nat) : (markOne c reg v).toNat < 16 ∧
    (reg v.2 = 0 ∨ isBorder (reg v.2) = true → markOne c reg v = 0#8) ∧
    ∀ d, RegionEdge c reg (v, d) → (markOne c reg v &&& (1#8 <<< d) ≠ 0#8 ↔ isCut c reg (v, d) = true) := by
  by_cases h : reg v.2 = 0 ∨ isBorder (reg v.2) = true
  · have h0 : markOne c reg v = 0#8 := by rw [markOne, if_pos h]
    refine ⟨by rw [h0]; decide, fun _ => h0, fun d hd => ?_⟩
    rcases h with h | h
    · exact absurd h hd.pos
    · have := hd.inner; simp only at this; rw [h] at this; exact absurd this (by simp)
  · refine ⟨?_, fun h' => absurd h' h, fun d hd => ?_⟩
    · rw [markOne_eq v h]
      exact (markOne_bits _ _ _ _ 0 (by omega)).2
    · rw [markOne_eq v h, (markOne_bits _ _ _ _ d hd.dir).1]
      unfold isCut solid
      have hd4 := hd.dir
      simp only at hd4
      have : d = 0 ∨ d = 1 ∨ d = 2 ∨ d = 3 := by omega
      rcases this with rfl | rfl | rfl | rfl <;> simp

theorem foldl_upd_map {α : Type} (g : (Nat × Nat) × Nat → α) (l : List ((Nat × Nat) × Nat)) : ∀ (fl : Nat → α), (l.map Prod.snd).Nodup →
    (∀ v ∈ l, (l.foldl (fun fl v => upd fl v.2 (g v)) fl) v.2 = g v) ∧
    (∀ i, i ∉ l.map Prod.snd → (l.foldl (fun fl v => upd fl v.2 (g v)) fl) i = fl i) := by
  induction l with
  | nil => intro fl _; simp
  | cons a l ih =>
    intro fl hnd
    rw [List.map_cons, List.nodup_cons] at hnd
    obtain ⟨i1, i2⟩ := ih (upd fl a.2 (g a)) hnd.2
    refine ⟨fun v hv => ?_, fun i hi => ?_⟩
    · rw [List.foldl_cons]
      rcases List.mem_cons.1 hv with rfl | hv
      · rw [i2 _ hnd.1, upd_same]
      · exact i1 v hv
    · rw [List.map_cons, List.mem_cons, not_or] at hi
      rw [List.foldl_cons, i2 i hi.2, upd_ne _ _ hi.1]

theorem markAll_spec (hc : c.Wf) (v : (Nat × Nat) × Nat) (hv : c.At v.1.1 v.1.2 v.2) : markAll c reg v.2 = markOne c reg v :=
  (foldl_upd_map (markOne c reg) (allSpans c) (fun _ => 0#8) (allSpans_perm hc).1).1 v ((mem_allSpans c v).2 hv)

theorem clearEdges_and (l : List SpanEdge) : ∀ (fl : Nat → BitVec 8) (i : Nat), ∃ m, clearEdges fl l i = fl i &&& m := by
  induction l with
  | nil => intro fl i; exact ⟨BitVec.allOnes 8, BitVec.and_allOnes.symm⟩
  | cons a l ih =>
    intro fl i
    obtain ⟨m, hm⟩ := ih (upd fl a.1.2 (fl a.1.2 &&& ~~~(1#8 <<< a.2))) i
    show ∃ m, clearEdges (upd fl a.1.2 (fl a.1.2 &&& ~~~(1#8 <<< a.2))) l i = _
    rw [hm]
    by_cases h : i = a.1.2
    · rw [h, upd_same]; exact ⟨_, BitVec.and_assoc _ _ _⟩
    · rw [upd_ne _ _ h]; exact ⟨m, rfl⟩

theorem byte_bits : ∀ b : BitVec 8, b.toNat < 16 → (b = 0#8 ↔ ∀ d < 4, ¬ (b &&& (1#8 <<< d) ≠ 0#8)) ∧ (b = 0xf#8 ↔ ∀ d < 4, b &&& (1#8 <<< d) ≠ 0#8) ∧
    (b ≠ 0#8 → firstFlag b < 4 ∧ b &&& (1#8 <<< firstFlag b) ≠ 0#8 ∧ ∀ d < firstFlag b, ¬ (b &&& (1#8 <<< d) ≠ 0#8)) := by
  decide +kernel

/-! ## All walks -/

/-- The state of the main loop after the spans `P`; `ss` are the edges where the walks began. -/
structure TraceInv (c : Chf) (reg : Nat → Nat) (P : List ((Nat × Nat) × Nat)) (fl : Nat → BitVec 8) (ss : List SpanEdge) : Prop where
  small : ∀ v : (Nat × Nat) × Nat, c.At v.1.1 v.1.2 v.2 → (fl v.2).toNat < 16
  zero : ∀ v : (Nat × Nat) × Nat, c.At v.1.1 v.1.2 v.2 → reg v.2 = 0 ∨ isBorder (reg v.2) = true → fl v.2 = 0#8
  flag : ∀ e, RegionEdge c reg e → (marked fl e ↔ OnOutline c reg e ∧ e ∉ ss.flatMap (contourEdges c reg) ∧ ¬ (Alone c reg e.1.2 ∧ e.1 ∈ P))
  starts : ∀ s ∈ ss, OnOutline c reg s ∧ ¬ Alone c reg s.1.2
  nodup : (ss.flatMap (contourEdges c reg)).Nodup
  seen : ∀ v ∈ P, ∀ d < 2, OnOutline c reg (v, d) → (v, d) ∈ ss.flatMap (contourEdges c reg) ∨ Alone c reg v.2

theorem TraceInv.closed (hc : c.Wf) (hm : c.Mutual) {P : List ((Nat × Nat) × Nat)} {fl : Nat → BitVec 8} {ss : List SpanEdge}
    (h : TraceInv c reg P fl ss) {e : SpanEdge} (he : e ∈ ss.flatMap (contourEdges c reg)) (k : Nat)
    (ho : OnOutline c reg ((stepEdge c reg)^[k] e)) : (stepEdge c reg)^[k] e ∈ ss.flatMap (contourEdges c reg) := by
  rw [List.mem_flatMap] at he ⊢
  obtain ⟨s, hs, he⟩ := he
  have hr := (h.starts s hs).1.1
  obtain ⟨-, j, -, rfl⟩ := (mem_contourEdges hc hr).1 he
  rw [← Function.iterate_add_apply] at ho ⊢
  exact ⟨s, hs, iter_mem_contourEdges hc hm hr _ ho⟩

theorem TraceInv.empty (hc : c.Wf) : TraceInv c reg [] (markAll c reg) [] where
  small v hv := by rw [markAll_spec hc v hv]; exact (markOne_spec v).1
  zero v hv h := by rw [markAll_spec hc v hv]; exact (markOne_spec v).2.1 h
  flag e he := by
    unfold marked
    rw [markAll_spec hc e.1 he.cell, (markOne_spec e.1).2.2 e.2 he, isCut_iff hc he]
    simp
  starts := by simp
  nodup := by simp
  seen := by simp

/-- What a walk leaves: the contour through its first edge. -/
theorem walkContour2_spec (hc : c.Wf) (ys : Nat → Nat) (fl : Nat → BitVec 8) (v : (Nat × Nat) × Nat)
    (hs : RegionEdge c reg (v, firstFlag (fl v.2)))
    (hp : 0 < period c reg (v, firstFlag (fl v.2)))
    (hsmall : period c reg (v, firstFlag (fl v.2)) ≤ 39999)
    (hf : ∀ j, j < period c reg (v, firstFlag (fl v.2)) →
      (marked fl ((stepEdge c reg)^[j] (v, firstFlag (fl v.2))) ↔ isCut c reg ((stepEdge c reg)^[j] (v, firstFlag (fl v.2))) = true)) :
    walkContour2 c reg ys fl v = (clearEdges fl (contourEdges c reg (v, firstFlag (fl v.2))),
      (contourEdges c reg (v, firstFlag (fl v.2))).map (tracePt c reg ys (c.area v.2))) := by
  have := traceLoop_spec hc ys (c.area v.2) hs 39999 0 fl [] hp (fun j _ hj => hf j hj)
  rw [Nat.sub_zero, Nat.min_eq_right hsmall] at this
  simpa [walkContour2, contourEdges] using this

/-- The raw contour through `s`, with its first span. -/
noncomputable def rawContour (c : Chf) (reg ys : Nat → Nat) (s : SpanEdge) : ((Nat × Nat) × Nat) × List Pt :=
  (s.1, (contourEdges c reg s).map (tracePt c reg ys (c.area s.1.2)))

theorem traceOne_spec (hc : c.Wf) (hm : c.Mutual) (ys : Nat → Nat)
    (hn : ∀ i < c.n, 4 * ((List.range c.n).filter fun j => decide (reg j = reg i)).length ≤ 39999)
    {P : List ((Nat × Nat) × Nat)} {fl : Nat → BitVec 8} {ss : List SpanEdge} (h : TraceInv c reg P fl ss) {v : (Nat × Nat) × Nat}
    (hv : c.At v.1.1 v.1.2 v.2) (hP : ∀ u ∈ P, c.At u.1.1 u.1.2 u.2) :
    (∃ fl', traceOne c reg ys fl v = (fl', none) ∧ TraceInv c reg (P ++ [v]) fl' ss) ∨
    ∃ fl' s, s.1 = v ∧ traceOne c reg ys fl v = (fl', some (rawContour c reg ys s).2) ∧ TraceInv c reg (P ++ [v]) fl' (ss ++ [s]) := by
  obtain ⟨b1, b2, b3⟩ := byte_bits (fl v.2) (h.small v hv)
  unfold traceOne
  by_cases h0 : fl v.2 = 0#8 ∨ fl v.2 = 0xf#8
  · rw [if_pos h0]
    left
    refine ⟨_, rfl, ?_⟩
    -- either nothing is marked, or the span is alone
    have hdone : ∀ d, RegionEdge c reg (v, d) → OnOutline c reg (v, d) →
        (v, d) ∈ ss.flatMap (contourEdges c reg) ∨ Alone c reg v.2 := by
      intro d hd ho
      rcases h0 with h0 | h0
      · have := (b1.1 h0) d hd.dir
        by_contra hcon
        push Not at hcon
        exact this ((h.flag _ hd).2 ⟨ho, hcon.1, fun h => hcon.2 h.1⟩)
      · right
        intro d' hd' j hj
        have hr : RegionEdge c reg (v, d') := ⟨hd.cell, hd', hd.pos, hd.inner⟩
        exact ((h.flag _ hr).1 ((b2.1 h0) d' hd')).1.2 j hj
    refine ⟨?_, ?_, ?_, h.starts, h.nodup, ?_⟩
    · intro u hu
      by_cases he : u.2 = v.2
      · rw [he, upd_same]; decide
      · rw [upd_ne _ _ he]; exact h.small u hu
    · intro u hu hz
      by_cases he : u.2 = v.2
      · rw [he, upd_same]
      · rw [upd_ne _ _ he]; exact h.zero u hu hz
    · intro e he
      by_cases hev : e.1 = v
      · obtain ⟨e1, d⟩ := e
        simp only at hev
        subst hev
        have hn : ¬ marked (upd fl e1.2 0#8) (e1, d) := by
          unfold marked; simp
        refine iff_of_false hn ?_
        rintro ⟨g1, g2, g3⟩
        rcases hdone d he g1 with g | g
        · exact g2 g
        · exact g3 ⟨g, by simp⟩
      · have hne : e.1.2 ≠ v.2 := by
          intro hh
          apply hev
          have h1 := he.cell
          rw [hh] at h1
          obtain ⟨e1, e2⟩ := hc.unique _ _ _ _ _ h1 hv
          exact Prod.ext (Prod.ext e1 e2) hh
        have : marked (upd fl v.2 0#8) e ↔ marked fl e := by unfold marked; rw [upd_ne _ _ hne]
        rw [this, h.flag e he]
        simp [hev]
    · intro u hu d hd ho
      rcases List.mem_append.1 hu with hu | hu
      · exact h.seen u hu d hd ho
      · simp only [List.mem_singleton] at hu
        subst hu
        exact hdone d ho.1 ho
  · rw [if_neg h0]
    push Not at h0
    have hreg : ¬ (reg v.2 = 0 ∨ isBorder (reg v.2) = true) := fun hz => h0.1 (h.zero v hv hz)
    rw [if_neg hreg]
    right
    obtain ⟨f1, f2, f3⟩ := b3 h0.1
    have hedge : ∀ d < 4, RegionEdge c reg (v, d) := by
      intro d hd
      push Not at hreg
      exact ⟨hv, hd, hreg.1, by simpa using hreg.2⟩
    set s : SpanEdge := (v, firstFlag (fl v.2)) with hsdef
    have hs : RegionEdge c reg s := hedge _ f1
    obtain ⟨s1, s2, s3⟩ := (h.flag s hs).1 f2
    -- no edge of this walk was visited before
    have hfresh : ∀ j, (stepEdge c reg)^[j] s ∉ ss.flatMap (contourEdges c reg) := by
      intro j hj
      obtain ⟨k, hk⟩ := iter_back hc hm hs j
      apply s2
      have := h.closed hc hm hj k (by rw [hk]; exact s1)
      rwa [hk] at this
    have halone : ¬ Alone c reg v.2 := by
      intro ha
      apply h0.2
      rw [b2]
      intro d hd
      have hd' : OnOutline c reg (v, d) := ⟨hedge d hd, fun j hj => ha d hd j hj⟩
      refine (h.flag (v, d) hd'.1).2 ⟨hd', ?_, fun hh => s3 ⟨ha, hh.2⟩⟩
      have hit := alone_iter hc hs ha (d + 4 - firstFlag (fl v.2))
      have he : (stepEdge c reg)^[d + 4 - firstFlag (fl v.2)] s = (v, d) := by
        refine Prod.ext hit.1 (hit.2.trans ?_)
        show (firstFlag (fl v.2) + (d + 4 - firstFlag (fl v.2))) % 4 = d
        omega
      rw [← he]
      exact hfresh _
    have hwalk : ∀ j, ¬ Alone c reg ((stepEdge c reg)^[j] s).1.2 := by
      intro j ha
      obtain ⟨k, hk⟩ := iter_back hc hm hs j
      have := (alone_iter hc (stepEdge_iter hc hs j).1 ha k).1
      rw [hk] at this
      rw [← this] at ha
      exact halone ha
    obtain ⟨p0, p1⟩ := period_spec hc hm hs
    have hmark : ∀ j, marked fl ((stepEdge c reg)^[j] s) ↔ isCut c reg ((stepEdge c reg)^[j] s) = true := by
      intro j
      have hr := (stepEdge_iter hc hs j).1
      rw [h.flag _ hr, isCut_iff hc hr]
      exact ⟨fun g => g.1, fun g => ⟨g, hfresh j, fun g' => hwalk j g'.1⟩⟩
    have hw := walkContour2_spec hc ys fl v hs p0 (p1.trans (hn _ (hc.lt _ _ _ hv))) (fun j _ => hmark j)
    refine ⟨clearEdges fl (contourEdges c reg s), s, rfl, ?_, ?_⟩
    · rw [hw]; rfl
    have hmem : ∀ e ∈ contourEdges c reg s, RegionEdge c reg e := fun e he => ((mem_contourEdges hc hs).1 he).1.1
    have hflat : (ss ++ [s]).flatMap (contourEdges c reg) = ss.flatMap (contourEdges c reg) ++ contourEdges c reg s := by
      rw [List.flatMap_append]; simp
    have hself : s ∈ contourEdges c reg s := by
      have := iter_mem_contourEdges hc hm hs 0 s1
      exact this
    refine ⟨?_, ?_, ?_, ?_, ?_, ?_⟩
    · intro u hu
      obtain ⟨m, hm'⟩ := clearEdges_and (contourEdges c reg s) fl u.2
      rw [hm', BitVec.toNat_and]
      exact lt_of_le_of_lt Nat.and_le_left (h.small u hu)
    · intro u hu hz
      obtain ⟨m, hm'⟩ := clearEdges_and (contourEdges c reg s) fl u.2
      rw [hm', h.zero u hu hz, BitVec.zero_and]
    · intro e he
      rw [marked_clearEdges hc _ _ _ he hmem, h.flag e he, hflat, List.mem_append, not_or]
      constructor
      · rintro ⟨⟨g1, g2, g3⟩, g4⟩
        refine ⟨g1, ⟨g2, g4⟩, ?_⟩
        rintro ⟨g5, g6⟩
        rcases List.mem_append.1 g6 with g6 | g6
        · exact g3 ⟨g5, g6⟩
        · simp only [List.mem_singleton] at g6
          rw [g6] at g5
          exact halone g5
      · rintro ⟨g1, ⟨g2, g3⟩, g4⟩
        exact ⟨⟨g1, g2, fun g => g4 ⟨g.1, List.mem_append_left _ g.2⟩⟩, g3⟩
    · intro t ht
      rcases List.mem_append.1 ht with ht | ht
      · exact h.starts t ht
      · simp only [List.mem_singleton] at ht
        subst ht
        exact ⟨s1, halone⟩
    · rw [hflat, List.nodup_append]
      refine ⟨h.nodup, contourEdges_nodup hc, ?_⟩
      intro a ha b hb hab
      subst hab
      obtain ⟨-, j, -, rfl⟩ := (mem_contourEdges hc hs).1 hb
      exact hfresh j ha
    · intro u hu d hd ho
      rw [hflat, List.mem_append]
      rcases List.mem_append.1 hu with hu | hu
      · rcases h.seen u hu d hd ho with g | g
        · exact Or.inl (Or.inl g)
        · exact Or.inr g
      · simp only [List.mem_singleton] at hu
        subst hu
        left
        by_cases hin : (u, d) ∈ ss.flatMap (contourEdges c reg)
        · exact Or.inl hin
        · right
          have hmk : marked fl (u, d) := (h.flag _ ho.1).2 ⟨ho, hin, fun g => halone g.1⟩
          have hle : firstFlag (fl u.2) ≤ d := by
            by_contra hlt
            exact f3 d (by omega) hmk
          by_cases he : firstFlag (fl u.2) = d
          · have : s = (u, d) := by rw [hsdef, he]
            rw [← this]; exact hself
          · have h1 : firstFlag (fl u.2) = 0 := by omega
            have hd1 : d = 1 := by omega
            have hs0 : s = (u, 0) := by rw [hsdef, h1]
            have hstep : (stepEdge c reg)^[1] s = (u, d) := by
              rcases stepEdge_cases hc hs with ⟨-, -, a3⟩ | ⟨a1, -⟩
              · show stepEdge c reg s = _
                rw [a3, hs0, hd1]
                rfl
              · exact absurd s1 a1
            rw [← hstep]
            exact iter_mem_contourEdges hc hm hs 1 (by rw [hstep]; exact ho)

/-- The walks of the main loop, and what they visited. -/
theorem traceAll_spec (hc : c.Wf) (hm : c.Mutual) (ys : Nat → Nat)
    (hn : ∀ i < c.n, 4 * ((List.range c.n).filter fun j => decide (reg j = reg i)).length ≤ 39999) :
    ∃ ss : List SpanEdge, traceAll c reg ys = ss.map (rawContour c reg ys) ∧ (∀ s ∈ ss, OnOutline c reg s) ∧
      (ss.flatMap (contourEdges c reg)).Nodup ∧
      ∀ e, e ∈ ss.flatMap (contourEdges c reg) ↔ OnOutline c reg e ∧ ¬ Alone c reg e.1.2 := by
  have key : ∀ (l P : List ((Nat × Nat) × Nat)) (fl : Nat → BitVec 8) (ss : List SpanEdge), (∀ v ∈ P ++ l, c.At v.1.1 v.1.2 v.2) →
      TraceInv c reg P fl ss → ∃ fl' ss', l.foldl (fun st v => match traceOne c reg ys st.1 v with
        | (fl, none) => (fl, st.2)
        | (fl, some raw) => (fl, st.2 ++ [(v, raw)])) (fl, ss.map (rawContour c reg ys)) = (fl', ss'.map (rawContour c reg ys)) ∧
        TraceInv c reg (P ++ l) fl' ss' := by
    intro l
    induction l with
    | nil => intro P fl ss _ h; exact ⟨fl, ss, rfl, by simpa using h⟩
    | cons v l ih =>
      intro P fl ss hat h
      have hat' : ∀ u ∈ (P ++ [v]) ++ l, c.At u.1.1 u.1.2 u.2 := fun u hu => hat u (by simpa using hu)
      rw [List.foldl_cons, show P ++ v :: l = (P ++ [v]) ++ l by simp]
      rcases traceOne_spec hc hm ys hn h (hat v (by simp)) (fun u hu => hat u (by simp [hu])) with ⟨fl', h1, h2⟩ | ⟨fl', s, h0, h1, h2⟩
      · rw [h1]
        exact ih _ _ _ hat' h2
      · rw [h1]
        have := ih (P ++ [v]) fl' (ss ++ [s]) hat' h2
        have hv : (v, (rawContour c reg ys s).2) = rawContour c reg ys s := by rw [← h0]; rfl
        dsimp only
        rw [hv]
        simpa using this
  obtain ⟨fl', ss, h1, h2⟩ := key (allSpans c) [] (markAll c reg) [] (fun v hv => (mem_allSpans c v).1 (by simpa using hv)) (TraceInv.empty hc)
  refine ⟨ss, ?_, fun s hs => (h2.starts s hs).1, h2.nodup, ?_⟩
  · unfold traceAll
    exact congrArg Prod.snd h1
  · intro e
    constructor
    · intro he
      obtain ⟨s, hs, he⟩ := List.mem_flatMap.1 he
      obtain ⟨g1, g2⟩ := h2.starts s hs
      obtain ⟨g3, j, -, rfl⟩ := (mem_contourEdges hc g1.1).1 he
      refine ⟨g3, fun ha => g2 ?_⟩
      obtain ⟨k, hk⟩ := iter_back hc hm g1.1 j
      have := (alone_iter hc g3.1 ha k).1
      rw [hk] at this
      rw [this]; exact ha
    · rintro ⟨ho, hna⟩
      obtain ⟨k, g1, g2⟩ := low_edge hc hm ho
      obtain ⟨m, hk⟩ := iter_back hc hm ho.1 k
      have hmem : (stepEdge c reg)^[k] e ∈ ss.flatMap (contourEdges c reg) := by
        rcases h2.seen ((stepEdge c reg)^[k] e).1 (by simpa using (mem_allSpans c _).2 g1.1.cell) _ g2 g1 with g | g
        · exact g
        · exfalso
          have := (alone_iter hc g1.1 g m).1
          rw [hk] at this
          rw [← this] at g
          exact hna g
      have := h2.closed hc hm hmem m (by rw [hk]; exact ho)
      rwa [hk] at this

end

end Verif.Recast
