/-
Where raw contours miss the outlines of regions: outlines of 40000 steps and more, single spans, and more contours than
regions. The witnesses are flat fields with one span per cell.
-/
import Verif.Recast.ContourOutline

namespace Verif.Recast
open Verif Verif.Detour

set_option linter.unusedSimpArgs false
set_option linter.unusedVariables false

/-! ## Flat fields -/

/-- The `Con` word of a span with one layer around it: the flags say where the field ends. -/
def flatCon (b0 b1 b2 b3 : Bool) : U32 :=
  let f := fun b : Bool => if b = true then 63#32 else 0#32
  f b0 ||| (f b1 <<< 6) ||| (f b2 <<< 12) ||| (f b3 <<< 18)

/-- A flat field of `w` times `h` cells with one span each. -/
def flatChf (w h : Nat) (area : Nat → Nat) : Chf where
  w := w
  h := h
  n := w * h
  cells i := ⟨i, 1⟩
  con i := flatCon (decide (i % w = 0)) (decide (i / w + 1 = h)) (decide (i % w + 1 = w)) (decide (i / w = 0))
  area := area

theorem flatCon_get : ∀ b0 b1 b2 b3 : Bool, ∀ d < 4,
    getCon (flatCon b0 b1 b2 b3) d = if [b0, b1, b2, b3].getD d false = true then notConnected else 0#32 := by decide +kernel

theorem flat_at {w h : Nat} {area : Nat → Nat} {x y i : Nat} : (flatChf w h area).At x y i ↔ x < w ∧ y < h ∧ i = x + y * w := by
  simp only [Chf.At, flatChf]
  omega

theorem flat_div {w x y : Nat} (hx : x < w) : (x + y * w) % w = x ∧ (x + y * w) / w = y := by
  constructor
  · rw [Nat.add_mul_mod_self_right, Nat.mod_eq_of_lt hx]
  · rw [Nat.add_mul_div_right _ _ (by omega), Nat.div_eq_of_lt hx, Nat.zero_add]

/-- Whether the neighbour cell in direction `d` is inside. -/
def inside (w h x y d : Nat) : Prop :=
  match d with
  | 0 => 0 < x
  | 1 => y + 1 < h
  | 2 => x + 1 < w
  | _ => 0 < y

theorem flat_con {w h : Nat} {area : Nat → Nat} {x y d : Nat} (hx : x < w) (hy : y < h) (hd : d < 4) :
    getCon ((flatChf w h area).con (x + y * w)) d = notConnected ∧ ¬ inside w h x y d ∨
    getCon ((flatChf w h area).con (x + y * w)) d = 0#32 ∧ inside w h x y d := by
  obtain ⟨e1, e2⟩ := flat_div (y := y) hx
  simp only [flatChf]
  rw [flatCon_get _ _ _ _ d hd, e1, e2]
  have : d = 0 ∨ d = 1 ∨ d = 2 ∨ d = 3 := by omega
  rcases this with rfl | rfl | rfl | rfl <;> simp [inside, notConnected] <;> omega

theorem inside_cell {w h x y d : Nat} (hx : x < w) (hy : y < h) (hd : d < 4) (hi : inside w h x y d) :
    ∃ nx ny : Nat, nx < w ∧ ny < h ∧ (nx : Int) = x + dirX (BitVec.ofNat 32 d) ∧ (ny : Int) = y + dirY (BitVec.ofNat 32 d) ∧
      inside w h nx ny ((d + 2) % 4) := by
  have : d = 0 ∨ d = 1 ∨ d = 2 ∨ d = 3 := by omega
  rcases this with rfl | rfl | rfl | rfl
  · have a : dirX (BitVec.ofNat 32 0) = -1 := by decide
    have b : dirY (BitVec.ofNat 32 0) = 0 := by decide
    simp only [inside] at hi
    exact ⟨x - 1, y, by omega, hy, by rw [a]; omega, by rw [b]; omega, by simp [inside]; omega⟩
  · have a : dirX (BitVec.ofNat 32 1) = 0 := by decide
    have b : dirY (BitVec.ofNat 32 1) = 1 := by decide
    simp only [inside] at hi
    exact ⟨x, y + 1, hx, by omega, by rw [a]; omega, by rw [b]; omega, by simp [inside]⟩
  · have a : dirX (BitVec.ofNat 32 2) = 1 := by decide
    have b : dirY (BitVec.ofNat 32 2) = 0 := by decide
    simp only [inside] at hi
    exact ⟨x + 1, y, by omega, hy, by rw [a]; omega, by rw [b]; omega, by simp [inside]⟩
  · have a : dirX (BitVec.ofNat 32 3) = 0 := by decide
    have b : dirY (BitVec.ofNat 32 3) = -1 := by decide
    simp only [inside] at hi
    exact ⟨x, y - 1, hx, by omega, by rw [a]; omega, by rw [b]; omega, by simp [inside]; omega⟩

theorem flat_wf (w h : Nat) (area : Nat → Nat) : (flatChf w h area).Wf := by
  refine ⟨?_, ?_, ?_, ?_⟩
  · intro x y i hi
    obtain ⟨hx, hy, rfl⟩ := flat_at.1 hi
    exact cell_lt hx hy
  · intro i hi
    have hi' : i < w * h := hi
    obtain ⟨e1, e2, e3⟩ := cell_of_lt hi'
    exact ⟨i % w, i / w, flat_at.2 ⟨e1, e2, e3.symm⟩⟩
  · intro x y x' y' i h1 h2
    obtain ⟨hx, hy, e1⟩ := flat_at.1 h1
    obtain ⟨hx', hy', e2⟩ := flat_at.1 h2
    exact cell_inj hx hx' (e1.symm.trans e2)
  · intro x y i hi d hd hne
    obtain ⟨hx, hy, rfl⟩ := flat_at.1 hi
    rcases flat_con (area := area) hx hy hd with ⟨h1, -⟩ | ⟨h1, h2⟩
    · exact absurd h1 hne
    · obtain ⟨nx, ny, g1, g2, g3, g4, -⟩ := inside_cell hx hy hd h2
      exact ⟨nx, ny, g3, g4, g1, g2, by rw [h1]; simp [flatChf]⟩

theorem flat_nb {w h : Nat} {area : Nat → Nat} {x y d j : Nat} (hx : x < w) (hy : y < h) (hd : d < 4) :
    (flatChf w h area).Nb (x + y * w) d j ↔ inside w h x y d ∧ ∃ nx ny : Nat, nx < w ∧ ny < h ∧ (nx : Int) = x + dirX (BitVec.ofNat 32 d) ∧
      (ny : Int) = y + dirY (BitVec.ofNat 32 d) ∧ j = nx + ny * w := by
  constructor
  · rintro ⟨x', y', nx, ny, h1, h2, h3, h4, h5, h6⟩
    obtain ⟨e1, e2⟩ := (flat_wf w h area).unique _ _ _ _ _ h1 (flat_at.2 ⟨hx, hy, rfl⟩)
    subst e1 e2
    obtain ⟨g1, g2, g3⟩ := flat_at.1 h2
    rcases flat_con (area := area) hx hy hd with ⟨q1, -⟩ | ⟨q1, q2⟩
    · exact absurd q1 h5
    · exact ⟨q2, nx, ny, g1, g2, h3, h4, g3⟩
  · rintro ⟨hi, nx, ny, g1, g2, g3, g4, rfl⟩
    rcases flat_con (area := area) hx hy hd with ⟨-, q1⟩ | ⟨q1, -⟩
    · exact absurd hi q1
    · refine ⟨x, y, nx, ny, flat_at.2 ⟨hx, hy, rfl⟩, flat_at.2 ⟨g1, g2, rfl⟩, g3, g4, by rw [q1]; decide, ?_⟩
      rw [q1]; simp [flatChf]

theorem flat_mutual (w h : Nat) (area : Nat → Nat) : (flatChf w h area).Mutual := by
  intro i d j hd hn
  obtain ⟨x, y, nx, ny, h1, h2, h3, h4, -⟩ := id hn
  obtain ⟨hx, hy, rfl⟩ := flat_at.1 h1
  obtain ⟨hnx, hny, rfl⟩ := flat_at.1 h2
  obtain ⟨hi, -⟩ := (flat_nb hx hy hd).1 hn
  obtain ⟨nx', ny', -, -, g3, g4, g5⟩ := inside_cell hx hy hd hi
  have e1 : nx' = nx := by omega
  have e2 : ny' = ny := by omega
  subst e1 e2
  have f1 : ∀ d < 4, dirX (BitVec.ofNat 32 ((d + 2) % 4)) = -dirX (BitVec.ofNat 32 d) := by decide
  have f2 : ∀ d < 4, dirY (BitVec.ofNat 32 ((d + 2) % 4)) = -dirY (BitVec.ofNat 32 d) := by decide
  exact (flat_nb hnx hny (Nat.mod_lt _ (by omega))).2 ⟨g5, x, y, hx, hy, by rw [f1 d hd]; omega, by rw [f2 d hd]; omega, rfl⟩

/-! ## Examples -/

/-- A ring of eight spans round a hole: two raw contours, the outline and the hole. -/
example : (traceAll (flatChf 3 3 fun _ => 63) (fun i => if i = 4 then 0 else 1) fun _ => 0).map (fun t => (t.1.2, t.2.length, area2D t.2)) =
    [(0, 12, 18), (1, 4, -2)] := by decide +kernel

/-- The hypotheses of C117 and C118 hold for it. -/
example : (flatChf 3 3 fun _ => 63).Wf ∧ (flatChf 3 3 fun _ => 63).Mutual ∧
    (∀ i < (flatChf 3 3 fun _ => 63).n, ((List.range (flatChf 3 3 fun _ => 63).n).filter
      fun j => decide ((if j = 4 then 0 else 1) = if i = 4 then 0 else 1)).length < 10000) :=
  ⟨flat_wf _ _ _, flat_mutual _ _ _, by decide +kernel⟩

/-- Two regions side by side: the vertices between them name the region across. -/
example : (traceAll (flatChf 4 1 fun _ => 63) (fun i => if i < 2 then 1 else 2) fun _ => 7).map Prod.snd =
    [[⟨0, 7, 1, 0⟩, ⟨1, 7, 1, 0⟩, ⟨2, 7, 1, 0⟩, ⟨2, 7, 0, 2⟩, ⟨1, 7, 0, 0⟩, ⟨0, 7, 0, 0⟩],
     [⟨2, 7, 1, 1⟩, ⟨3, 7, 1, 0⟩, ⟨4, 7, 1, 0⟩, ⟨4, 7, 0, 0⟩, ⟨3, 7, 0, 0⟩, ⟨2, 7, 0, 0⟩]] := by decide +kernel

/-- **C117** (refuted in full). A region of one span has an outline of four edges, but no contour. -/
theorem lone_span_refuted : ∃ (c : Chf) (reg : Nat → Nat), c.Wf ∧ c.Mutual ∧ OnOutline c reg (((0, 0), 0), 0) ∧
    traceAll c reg (fun _ => 0) = [] := by
  refine ⟨flatChf 1 1 fun _ => 63, fun _ => 1, flat_wf _ _ _, flat_mutual _ _ _, ⟨⟨flat_at.2 (by decide), by decide, by decide, by decide⟩, ?_⟩,
    by decide +kernel⟩
  intro j hj
  have := ((flat_nb (x := 0) (y := 0) (by decide) (by decide) (by decide)).1 hj).1
  simp [inside] at this

/-- **C119** (refuted). A region with eight holes, and no other region: the ninth contour makes `BuildContours` panic. -/
theorem contour_limit_refuted : ∃ (c : Chf) (reg : Nat → Nat), c.Wf ∧ c.Mutual ∧
    buildContours c reg (fun _ => 0) 1 0 id = none ∧ (traceAll c reg fun _ => 0).length = 9 := by
  refine ⟨flatChf 17 3 fun _ => 63, fun i => if 17 ≤ i ∧ i < 34 ∧ i % 2 = 0 then 0 else 1, flat_wf _ _ _, flat_mutual _ _ _, ?_, ?_⟩
  · decide +kernel
  · decide +kernel

/-- The raw contours that `BuildContours` wants to keep: those of at least three vertices when simplified. -/
def keptContours (c : Chf) (reg ys : Nat → Nat) (simplify : List Pt → List Pt) : List (((Nat × Nat) × Nat) × List Pt) :=
  (traceAll c reg ys).filter fun t => decide (3 ≤ (removeDegenerate (simplify t.2)).length)

/-- Spec: the vertices with a border of `bs` cells taken off. -/
def offBorder (bs : Nat) (l : List Pt) : List Pt := l.map fun p => ⟨p.x - bs, p.y, p.z - bs, p.r⟩

theorem shiftPts_eq (bs : Nat) (l : List Pt) : shiftPts bs l = offBorder bs l := by
  unfold shiftPts offBorder
  split
  · rfl
  · have h : bs = 0 := by omega
    subst h
    conv_lhs => rw [← List.map_id l]
    refine List.map_congr_left fun p _ => ?_
    show p = _
    cases p
    simp

/-- **C119** (partial). `BuildContours` returns a contour for every raw contour that keeps three vertices when simplified, in order, with
the border taken off, the region and the area of its first span; and it panics if and only if these are more than `MaxRegions` and more
than 8. Missing: regions with many holes, see `contour_limit_refuted`. -/
theorem build_contours_partial (c : Chf) (reg ys : Nat → Nat) (maxRegions bs : Nat) (simplify : List Pt → List Pt) :
    buildContours c reg ys maxRegions bs simplify =
      if (keptContours c reg ys simplify).length ≤ max maxRegions 8 then
        some ((keptContours c reg ys simplify).map fun t => ⟨offBorder bs (removeDegenerate (simplify t.2)), offBorder bs t.2, reg t.1.2, c.area t.1.2⟩)
      else none := by
  simp only [← shiftPts_eq]
  let mk : ((Nat × Nat) × Nat) × List Pt → Cont :=
    fun t => ⟨shiftPts bs (removeDegenerate (simplify t.2)), shiftPts bs t.2, reg t.1.2, c.area t.1.2⟩
  let keep : ((Nat × Nat) × Nat) × List Pt → Bool := fun t => decide (3 ≤ (removeDegenerate (simplify t.2)).length)
  let step := fun (st : (Nat → BitVec 8) × List (((Nat × Nat) × Nat) × List Pt)) (v : (Nat × Nat) × Nat) => match traceOne c reg ys st.1 v with
    | (fl, none) => (fl, st.2)
    | (fl, some raw) => (fl, st.2 ++ [(v, raw)])
  have hgrow : ∀ (l : List ((Nat × Nat) × Nat)) st, ∃ t, (l.foldl step st).2 = st.2 ++ t := by
    intro l
    induction l with
    | nil => intro st; exact ⟨[], by simp⟩
    | cons v l ih =>
      intro st
      obtain ⟨t, ht⟩ := ih (step st v)
      rw [List.foldl_cons, ht]
      simp only [step]
      split
      · exact ⟨t, rfl⟩
      · exact ⟨_, by rw [List.append_assoc]⟩
  have key : ∀ (l : List ((Nat × Nat) × Nat)) (fl : Nat → BitVec 8) (acc : List (((Nat × Nat) × Nat) × List Pt)),
      (acc.filter keep).length ≤ max maxRegions 8 →
      (l.foldlM (contourOne c reg ys (max maxRegions 8) bs simplify) (fl, (acc.filter keep).map mk)).map Prod.snd =
        if (((l.foldl step (fl, acc)).2.filter keep).length ≤ max maxRegions 8) then some (((l.foldl step (fl, acc)).2.filter keep).map mk) else none := by
    intro l
    induction l with
    | nil =>
      intro fl acc h
      rw [List.foldl_nil, if_pos h]
      rfl
    | cons v l ih =>
      intro fl acc h
      rw [List.foldlM_cons, List.foldl_cons]
      cases hone : traceOne c reg ys fl v with
      | mk fl' raw =>
        cases raw with
        | none =>
          have h1 : contourOne c reg ys (max maxRegions 8) bs simplify (fl, (acc.filter keep).map mk) v = some (fl', (acc.filter keep).map mk) := by
            simp only [contourOne, hone]
          have h2 : step (fl, acc) v = (fl', acc) := by simp only [step, hone]
          rw [h1, h2]
          exact ih fl' acc h
        | some raw =>
          have h2 : step (fl, acc) v = (fl', acc ++ [(v, raw)]) := by simp only [step, hone]
          rw [h2]
          by_cases hk : 3 ≤ (removeDegenerate (simplify raw)).length
          · have hf : (acc ++ [(v, raw)]).filter keep = acc.filter keep ++ [(v, raw)] := by
              rw [List.filter_append, List.filter_cons_of_pos (by simpa [keep] using hk)]
              rfl
            by_cases hlim : max maxRegions 8 ≤ (acc.filter keep).length
            · have h1 : contourOne c reg ys (max maxRegions 8) bs simplify (fl, (acc.filter keep).map mk) v = none := by
                simp only [contourOne, hone]
                rw [if_pos hk, if_pos (by rw [List.length_map]; exact hlim)]
              rw [h1]
              obtain ⟨t, ht⟩ := hgrow l (fl', acc ++ [(v, raw)])
              rw [if_neg]
              · rfl
              · rw [ht, List.filter_append, hf]
                simp only [List.length_append, List.length_cons, List.length_nil]
                omega
            · have h1 : contourOne c reg ys (max maxRegions 8) bs simplify (fl, (acc.filter keep).map mk) v =
                  some (fl', ((acc ++ [(v, raw)]).filter keep).map mk) := by
                simp only [contourOne, hone]
                rw [if_pos hk, if_neg (by rw [List.length_map]; exact hlim), hf, List.map_append]
                rfl
              rw [h1]
              refine ih fl' (acc ++ [(v, raw)]) ?_
              rw [hf, List.length_append, List.length_singleton]
              omega
          · have hf : (acc ++ [(v, raw)]).filter keep = acc.filter keep := by
              rw [List.filter_append, List.filter_cons_of_neg (by simpa [keep] using hk)]
              simp
            have h1 : contourOne c reg ys (max maxRegions 8) bs simplify (fl, (acc.filter keep).map mk) v =
                some (fl', ((acc ++ [(v, raw)]).filter keep).map mk) := by
              simp only [contourOne, hone]
              rw [if_neg hk, hf]
            rw [h1]
            exact ih fl' (acc ++ [(v, raw)]) (by rw [hf]; exact h)
  exact key _ (markAll c reg) [] (by simp)

/-- Three regions and a lone span: three contours, moved by the border of 1. -/
example : (buildContours (flatChf 5 3 fun _ => 63) (fun i => if i = 14 then 4 else i / 5 + 1) (fun _ => 0) 4 1 id).map
    (fun l => l.map fun k => (k.reg, k.verts.length, k.rverts.head?)) =
    some [(1, 12, some ⟨-1, 0, 0, 0⟩), (2, 12, some ⟨-1, 0, 1, 0⟩), (3, 10, some ⟨-1, 0, 2, 0⟩)] := by decide +kernel

/-! ## A strip -/

section Strip
variable (n : Nat)

/-- A strip of `n` spans. -/
abbrev strip (n : Nat) : Chf := flatChf n 1 fun _ => 63

/-- Edge `d` of span `i` of the strip. -/
def se (i d : Nat) : SpanEdge := (((i, 0), i), d)

theorem se_region {n i d : Nat} (hi : i < n) (hd : d < 4) : RegionEdge (strip n) (fun _ => 1) (se i d) :=
  ⟨flat_at.2 ⟨hi, by simp [se], by simp [se]⟩, hd, by decide, by decide⟩

theorem se_of {n : Nat} {e : SpanEdge} (h : RegionEdge (strip n) (fun _ => 1) e) : ∃ i < n, e = se i e.2 := by
  obtain ⟨⟨⟨x, y⟩, i⟩, d⟩ := e
  obtain ⟨h1, h2, h3⟩ := flat_at.1 h.cell
  simp only at h1 h2 h3
  have : y = 0 := by omega
  subst this
  have : i = x := by omega
  subst this
  exact ⟨i, h1, rfl⟩

/-- The edges of the strip that are on the outline. -/
theorem se_outline {n i d : Nat} (hi : i < n) (hd : d < 4) : OnOutline (strip n) (fun _ => 1) (se i d) ↔ ¬ inside n 1 i 0 d := by
  constructor
  · rintro ⟨-, h⟩ hin
    obtain ⟨nx, ny, g1, g2, g3, g4, -⟩ := inside_cell hi (by decide) hd hin
    have hnb : (strip n).Nb i d (nx + ny * n) := by
      have := (flat_nb (area := fun _ => 63) (j := nx + ny * n) hi (show 0 < 1 by decide) hd).2 ⟨hin, nx, ny, g1, g2, g3, g4, rfl⟩
      rwa [Nat.zero_mul, Nat.add_zero] at this
    exact h _ hnb rfl
  · intro h
    refine ⟨se_region hi hd, fun j hj => ?_⟩
    have hj' : (strip n).Nb (i + 0 * n) d j := by simpa [se] using hj
    exact absurd ((flat_nb hi (by decide) hd).1 hj').1 h

theorem se_step {n i d : Nat} (hi : i < n) (hd : d < 4) : stepEdge (strip n) (fun _ => 1) (se i d) =
    if d = 0 ∧ 0 < i then se (i - 1) 3 else if d = 2 ∧ i + 1 < n then se (i + 1) 1 else se i ((d + 1) % 4) := by
  have hr := se_region hi hd
  rcases stepEdge_cases (flat_wf n 1 _) hr with ⟨a1, a2, a3⟩ | ⟨a1, a2, w, a3, a4, a5, a6, a7⟩
  · rw [se_outline hi hd] at a1
    rw [a3]
    have : d = 0 ∨ d = 1 ∨ d = 2 ∨ d = 3 := by omega
    rcases this with rfl | rfl | rfl | rfl <;> simp only [inside] at a1
    · rw [if_neg (by omega), if_neg (by omega)]; rfl
    · rw [if_neg (by omega), if_neg (by omega)]; rfl
    · rw [if_neg (by omega), if_neg (by omega)]; rfl
    · rw [if_neg (by omega), if_neg (by omega)]; rfl
  · rw [se_outline hi hd, not_not] at a1
    rw [a7]
    obtain ⟨w1, w2, w3⟩ := flat_at.1 a4
    have hj' : (strip n).Nb (i + 0 * n) d w.2 := by simpa [se] using a5
    obtain ⟨-, nx, ny, g1, g2, g3, g4, g5⟩ := (flat_nb hi (by decide) hd).1 hj'
    have hny : ny = 0 := by omega
    have hw : w.1.2 = 0 := by omega
    rw [hny] at g5
    rw [hw] at w3
    have hwe : w = ((nx, 0), nx) := by
      refine Prod.ext (Prod.ext ?_ hw) ?_
      · show w.1.1 = nx; omega
      · show w.2 = nx; omega
    rw [hwe]
    have : d = 0 ∨ d = 1 ∨ d = 2 ∨ d = 3 := by omega
    rcases this with rfl | rfl | rfl | rfl <;> simp only [inside] at a1
    · have a : dirX (BitVec.ofNat 32 0) = -1 := by decide
      rw [a] at g3
      rw [if_pos ⟨rfl, a1⟩, show nx = i - 1 by omega]
      rfl
    · omega
    · have a : dirX (BitVec.ofNat 32 2) = 1 := by decide
      rw [a] at g3
      rw [if_neg (by omega), if_pos ⟨rfl, a1⟩, show nx = i + 1 by omega]
      simp [se]
    · omega

/-- The states of the walk round the strip. -/
theorem se_walk {n : Nat} (hn : 0 < n) : ∀ i < n,
    (stepEdge (strip n) fun _ => 1)^[2 * i + 1] (se 0 0) = se i 1 ∧ (stepEdge (strip n) fun _ => 1)^[2 * i + 2] (se 0 0) = se i 2 := by
  intro i
  induction i with
  | zero =>
    intro _
    have h1 : (stepEdge (strip n) fun _ => 1)^[2 * 0 + 1] (se 0 0) = se 0 1 := by
      rw [Function.iterate_succ_apply', Function.iterate_zero, id, se_step hn (by decide), if_neg (by omega), if_neg (by omega)]
    refine ⟨h1, ?_⟩
    rw [show 2 * 0 + 2 = (2 * 0 + 1) + 1 from rfl, Function.iterate_succ_apply', h1, se_step hn (by decide), if_neg (by omega), if_neg (by omega)]
  | succ i ih =>
    intro hi
    obtain ⟨-, h2⟩ := ih (by omega)
    have h1 : (stepEdge (strip n) fun _ => 1)^[2 * (i + 1) + 1] (se 0 0) = se (i + 1) 1 := by
      rw [show 2 * (i + 1) + 1 = (2 * i + 2) + 1 by omega, Function.iterate_succ_apply', h2, se_step (by omega) (by decide), if_neg (by omega),
        if_pos ⟨rfl, hi⟩]
    refine ⟨h1, ?_⟩
    rw [show 2 * (i + 1) + 2 = (2 * (i + 1) + 1) + 1 by omega, Function.iterate_succ_apply', h1, se_step hi (by decide), if_neg (by omega),
      if_neg (by omega)]

theorem se_walk_back {n : Nat} (hn : 0 < n) : ∀ j < n,
    (stepEdge (strip n) fun _ => 1)^[2 * n + 2 * j + 1] (se 0 0) = se (n - 1 - j) 3 ∧
    (stepEdge (strip n) fun _ => 1)^[2 * n + 2 * j + 2] (se 0 0) = se (n - 1 - j) 0 := by
  intro j
  induction j with
  | zero =>
    intro _
    have h1 : (stepEdge (strip n) fun _ => 1)^[2 * n + 2 * 0 + 1] (se 0 0) = se (n - 1 - 0) 3 := by
      rw [show 2 * n + 2 * 0 + 1 = (2 * (n - 1) + 2) + 1 by omega, Function.iterate_succ_apply', (se_walk hn (n - 1) (by omega)).2,
        se_step (by omega) (by decide), if_neg (by omega), if_neg (by omega)]
      rfl
    refine ⟨h1, ?_⟩
    rw [show 2 * n + 2 * 0 + 2 = (2 * n + 2 * 0 + 1) + 1 by omega, Function.iterate_succ_apply', h1, se_step (by omega) (by decide), if_neg (by omega),
      if_neg (by omega)]
  | succ j ih =>
    intro hj
    obtain ⟨-, h2⟩ := ih (by omega)
    have h1 : (stepEdge (strip n) fun _ => 1)^[2 * n + 2 * (j + 1) + 1] (se 0 0) = se (n - 1 - (j + 1)) 3 := by
      rw [show 2 * n + 2 * (j + 1) + 1 = (2 * n + 2 * j + 2) + 1 by omega, Function.iterate_succ_apply', h2, se_step (by omega) (by decide),
        if_pos ⟨rfl, by omega⟩]
      rfl
    refine ⟨h1, ?_⟩
    rw [show 2 * n + 2 * (j + 1) + 2 = (2 * n + 2 * (j + 1) + 1) + 1 by omega, Function.iterate_succ_apply', h1, se_step (by omega) (by decide),
      if_neg (by omega), if_neg (by omega)]

/-- The states in order: every state before the last has its place. -/
theorem se_state {n : Nat} (hn : 0 < n) {k : Nat} (h0 : 0 < k) (hk : k ≤ 4 * n) :
    (∃ i < n, k = 2 * i + 1 ∧ (stepEdge (strip n) fun _ => 1)^[k] (se 0 0) = se i 1) ∨
    (∃ i < n, k = 2 * i + 2 ∧ (stepEdge (strip n) fun _ => 1)^[k] (se 0 0) = se i 2) ∨
    (∃ j < n, k = 2 * n + 2 * j + 1 ∧ (stepEdge (strip n) fun _ => 1)^[k] (se 0 0) = se (n - 1 - j) 3) ∨
    (∃ j < n, k = 2 * n + 2 * j + 2 ∧ (stepEdge (strip n) fun _ => 1)^[k] (se 0 0) = se (n - 1 - j) 0) := by
  by_cases h1 : k ≤ 2 * n
  · by_cases h2 : k % 2 = 1
    · refine Or.inl ⟨k / 2, by omega, by omega, ?_⟩
      rw [← (se_walk hn (k / 2) (by omega)).1]; congr 1; omega
    · refine Or.inr (Or.inl ⟨k / 2 - 1, by omega, by omega, ?_⟩)
      rw [← (se_walk hn (k / 2 - 1) (by omega)).2]; congr 1; omega
  · by_cases h2 : k % 2 = 1
    · refine Or.inr (Or.inr (Or.inl ⟨(k - 2 * n) / 2, by omega, by omega, ?_⟩))
      rw [← (se_walk_back hn ((k - 2 * n) / 2) (by omega)).1]; congr 1; omega
    · refine Or.inr (Or.inr (Or.inr ⟨(k - 2 * n) / 2 - 1, by omega, by omega, ?_⟩))
      rw [← (se_walk_back hn ((k - 2 * n) / 2 - 1) (by omega)).2]; congr 1; omega

theorem se_inj {i j d d' : Nat} (h : se i d = se j d') : i = j ∧ d = d' := by
  unfold se at h
  simp only [Prod.mk.injEq] at h
  omega

theorem strip_period {n : Nat} (hn : 0 < n) : period (strip n) (fun _ => 1) (se 0 0) = 4 * n := by
  have hback : (stepEdge (strip n) fun _ => 1)^[4 * n] (se 0 0) = se 0 0 := by
    have := (se_walk_back hn (n - 1) (by omega)).2
    rw [show 2 * n + 2 * (n - 1) + 2 = 4 * n by omega, show n - 1 - (n - 1) = 0 by omega] at this
    exact this
  have hle : period (strip n) (fun _ => 1) (se 0 0) ≤ 4 * n := Function.IsPeriodicPt.minimalPeriod_le (by omega) hback
  have hpos : 0 < period (strip n) (fun _ => 1) (se 0 0) :=
    (period_spec (flat_wf n 1 _) (flat_mutual n 1 _) (se_region hn (by decide))).1
  have hp : (stepEdge (strip n) fun _ => 1)^[period (strip n) (fun _ => 1) (se 0 0)] (se 0 0) = se 0 0 := period_step _
  rcases se_state hn hpos hle with ⟨i, _, _, h⟩ | ⟨i, _, _, h⟩ | ⟨j, _, _, h⟩ | ⟨j, hj, hk, h⟩ <;> rw [hp] at h
  · exact absurd (se_inj h).2 (by decide)
  · exact absurd (se_inj h).2 (by decide)
  · exact absurd (se_inj h).2 (by decide)
  · have := (se_inj h).1
    omega

end Strip

/-- **C117** (refuted in full). A strip of 10000 spans, all connected: the walk stops one step short, and the corner `(0, 0)` of the
strip is in no raw contour, so the contour is not closed. -/
theorem long_outline_refuted : ∃ (c : Chf) (reg : Nat → Nat) (e : SpanEdge), c.Wf ∧ c.Mutual ∧ OnOutline c reg e ∧ ¬ Alone c reg e.1.2 ∧
    cornerB e = (0, 0) ∧ ∀ ys, ∀ t ∈ traceAll c reg ys, ∀ p ∈ t.2, (p.x, p.z) ≠ (0, 0) := by
  obtain ⟨n, hn⟩ : ∃ n, n = 10000 := ⟨_, rfl⟩
  have hn0 : 0 < n := by omega
  have hc := flat_wf n 1 fun _ => 63
  have hm := flat_mutual n 1 fun _ => 63
  refine ⟨strip n, fun _ => 1, se 0 3, hc, hm, (se_outline hn0 (by decide)).2 (by simp [inside]), ?_, by simp [cornerB, cornerA, se], ?_⟩
  · intro ha
    have hnb : (strip n).Nb (0 + 0 * n) 2 (1 + 0 * n) := (flat_nb hn0 (by decide) (by decide)).2
      ⟨by simp [inside]; omega, 1, 0, by omega, by decide, by decide, by decide, rfl⟩
    simp only [Nat.zero_mul, Nat.add_zero] at hnb
    exact ha 2 (by decide) 1 hnb rfl
  · intro ys
    -- the first walk
    let W := (orbit (strip n) (fun _ => 1) (se 0 0) 0 39999).filter (isCut (strip n) fun _ => 1)
    have hinv := TraceInv.empty (reg := fun _ => 1) hc
    have hwalk : ∀ d, d = 0 → traceLoop (strip n) (fun _ => 1) ys 63 0 d 39999 ((0, 0), 0) d (markAll (strip n) fun _ => 1) [] =
        (clearEdges (markAll (strip n) fun _ => 1) W, W.map (tracePt (strip n) (fun _ => 1) ys 63)) := by
      intro d hd
      subst hd
      have := traceLoop_spec (c := strip n) (reg := fun _ => 1) hc ys 63 (se_region hn0 (show 0 < 4 by decide)) 39999 0 (markAll (strip n) fun _ => 1) []
        (by rw [strip_period hn0]; omega) (fun j _ _ => by
          have hr := (stepEdge_iter hc (se_region hn0 (show 0 < 4 by decide)) j).1
          rw [hinv.flag _ hr, isCut_iff hc hr]
          simp)
      rw [strip_period hn0, Nat.sub_zero, Nat.min_eq_left (by omega)] at this
      exact this
    -- what is in it
    have hW : ∀ e ∈ W, RegionEdge (strip n) (fun _ => 1) e ∧ e ≠ se 0 3 := by
      intro e he
      obtain ⟨h1, -⟩ := List.mem_filter.1 he
      obtain ⟨j, -, hj, rfl⟩ := (mem_orbit _ _ _ _).1 h1
      refine ⟨(stepEdge_iter hc (se_region hn0 (by decide)) j).1, fun h => ?_⟩
      have hlast := (se_walk_back hn0 (n - 1) (by omega)).1
      rw [show n - 1 - (n - 1) = 0 by omega, ← h] at hlast
      have := period_inj (c := strip n) (reg := fun _ => 1) (e := se 0 0) (by rw [strip_period hn0]; omega) (by rw [strip_period hn0]; omega) hlast
      omega
    have hall : ∀ i, 0 < i → i < n → ∀ d < 4, OnOutline (strip n) (fun _ => 1) (se i d) → se i d ∈ W := by
      intro i hi0 hi d hd ho
      have hcut := (isCut_iff hc ho.1).2 ho
      refine List.mem_filter.2 ⟨(mem_orbit _ _ _ _).2 ?_, hcut⟩
      have : d = 0 ∨ d = 1 ∨ d = 2 ∨ d = 3 := by omega
      rcases this with rfl | rfl | rfl | rfl
      · refine ⟨2 * n + 2 * (n - 1 - i) + 2, by omega, by omega, ?_⟩
        rw [(se_walk_back hn0 (n - 1 - i) (by omega)).2]; congr 1; omega
      · exact ⟨2 * i + 1, by omega, by omega, (se_walk hn0 i hi).1⟩
      · exact ⟨2 * i + 2, by omega, by omega, (se_walk hn0 i hi).2⟩
      · refine ⟨2 * n + 2 * (n - 1 - i) + 1, by omega, by omega, ?_⟩
        rw [(se_walk_back hn0 (n - 1 - i) (by omega)).1]; congr 1; omega
    have hend : ∀ p ∈ W.map (tracePt (strip n) (fun _ => 1) ys 63), (p.x, p.z) ≠ (0, 0) := by
      intro p hp h
      obtain ⟨e, he, rfl⟩ := List.mem_map.1 hp
      obtain ⟨hr, hne⟩ := hW e he
      rw [(tracePt_spec hc ys (fun _ => by decide) 63 hr).place] at h
      obtain ⟨i, hi, hei⟩ := se_of hr
      have hd := hr.dir
      rw [hei] at h hne
      have : e.2 = 0 ∨ e.2 = 1 ∨ e.2 = 2 ∨ e.2 = 3 := by omega
      rcases this with h' | h' | h' | h' <;> rw [h'] at h hne <;> simp [cornerB, cornerA, se] at h
      · omega
      · subst h
        exact hne rfl
    -- the first span, and the others
    have hspans : allSpans (strip n) = ((0, 0), 0) :: (List.range' 1 (n - 1)).map fun i => ((i, 0), i) := by
      have h1 : allSpans (strip n) = (List.range n).map fun i => ((i, 0), i) := by
        simp only [allSpans, cellOrder, Chf.spansOf, flatChf, List.range_one, List.flatMap_cons, List.flatMap_nil, List.append_nil, List.map_cons,
          List.map_nil, List.flatMap_map, Nat.zero_mul, Nat.add_zero]
        rw [← List.flatMap_singleton' (List.map _ _), List.flatMap_map]
      rw [h1, List.range_eq_range', show n = (n - 1) + 1 by omega, List.range'_succ, List.map_cons]
      rfl
    have hlater : ∀ (l : List Nat) (fl : Nat → BitVec 8) (acc : List (((Nat × Nat) × Nat) × List Pt)), (∀ i ∈ l, fl i = 0#8) →
        ((l.map fun i => ((i, 0), i)).foldl (fun st v => match traceOne (strip n) (fun _ => 1) ys st.1 v with
          | (fl, none) => (fl, st.2)
          | (fl, some raw) => (fl, st.2 ++ [(v, raw)])) (fl, acc)).2 = acc := by
      intro l
      induction l with
      | nil => intro fl acc _; rfl
      | cons i l ih =>
        intro fl acc h
        rw [List.map_cons, List.foldl_cons]
        have : traceOne (strip n) (fun _ => 1) ys fl ((i, 0), i) = (upd fl i 0#8, none) := by
          rw [traceOne, if_pos (Or.inl (h i (by simp)))]
        simp only [this]
        refine ih _ _ fun j hj => ?_
        by_cases hji : j = i
        · rw [hji, upd_same]
        · rw [upd_ne _ _ hji]; exact h j (by simp [hj])
    have hzero : ∀ i ∈ List.range' 1 (n - 1), clearEdges (markAll (strip n) fun _ => 1) W i = 0#8 := by
      intro i hi
      rw [List.mem_range'_1] at hi
      have hat : (strip n).At i 0 i := flat_at.2 ⟨by omega, by decide, by omega⟩
      obtain ⟨m, hm'⟩ := clearEdges_and W (markAll (strip n) fun _ => 1) i
      have hs := hinv.small ((i, 0), i) hat
      simp only at hs
      have hs' : (clearEdges (markAll (strip n) fun _ => 1) W i).toNat < 16 := by
        rw [hm', BitVec.toNat_and]
        exact lt_of_le_of_lt Nat.and_le_left hs
      rw [(byte_bits _ hs').1]
      intro d hd hmk
      have hr := se_region (n := n) (i := i) (by omega) hd
      have := (marked_clearEdges hc W (markAll (strip n) fun _ => 1) (se i d) hr (fun a ha => (hW a ha).1)).1 hmk
      exact this.2 (hall i (by omega) (by omega) d hd ((hinv.flag _ hr).1 this.1).1)
    have hbyte : markAll (strip n) (fun _ => 1) 0 = 0xb#8 := by
      have h1 := hinv.small ((0, 0), 0) (flat_at.2 ⟨hn0, by decide, by simp⟩)
      have hb : ∀ d < 4, (markAll (strip n) (fun _ => 1) 0 &&& (1#8 <<< d) ≠ 0#8 ↔ d ≠ 2) := by
        intro d hd
        have h2 := hinv.flag (se 0 d) (se_region hn0 hd)
        rw [se_outline hn0 hd] at h2
        have h3 : (markAll (strip n) (fun _ => 1) 0 &&& (1#8 <<< d) ≠ 0#8) ↔ ¬ inside n 1 0 0 d := by
          refine Iff.trans h2 ?_
          simp
        rw [h3]
        have : d = 0 ∨ d = 1 ∨ d = 2 ∨ d = 3 := by omega
        rcases this with rfl | rfl | rfl | rfl <;> simp [inside]
        omega
      have key : ∀ b : BitVec 8, b.toNat < 16 → (∀ d < 4, (b &&& (1#8 <<< d) ≠ 0#8 ↔ d ≠ 2)) → b = 0xb#8 := by decide +kernel
      exact key _ h1 hb
    have hfirst : traceOne (strip n) (fun _ => 1) ys (markAll (strip n) fun _ => 1) ((0, 0), 0) =
        (clearEdges (markAll (strip n) fun _ => 1) W, some (W.map (tracePt (strip n) (fun _ => 1) ys 63))) := by
      rw [traceOne, if_neg (by simp only [hbyte]; decide), if_neg (by decide)]
      unfold walkContour2
      have := hwalk (firstFlag (markAll (strip n) (fun _ => 1) 0)) (by rw [hbyte]; decide)
      simp only [flatChf] at this ⊢
      rw [this]
    have hres : traceAll (strip n) (fun _ => 1) ys = [(((0, 0), 0), W.map (tracePt (strip n) (fun _ => 1) ys 63))] := by
      unfold traceAll
      have hsp : (strip n).spansOf (cellOrder (strip n).w (strip n).h) = allSpans (strip n) := rfl
      rw [hsp, hspans, List.foldl_cons]
      simp only [hfirst]
      exact hlater _ _ _ hzero
    rw [hres]
    intro t ht
    simp only [List.mem_singleton] at ht
    subst ht
    exact hend

end Verif.Recast
