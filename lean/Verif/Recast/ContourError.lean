/-
What a simplified contour guarantees: its distance from the raw contour, and the length of its edges
(recast/contour.go:606-748).
-/
import Verif.Recast.ContourSimplify

namespace Verif.Recast
open Verif Verif.Detour

set_option linter.unusedSimpArgs false
set_option linter.unusedVariables false

/-- Spec: the simplified contour keeps the raw vertices `idx`, and `R` holds for neighbours in it, round the contour. -/
def Neighbours (idx : List Nat) (R : Nat → Nat → Prop) : Prop := (idx ++ [idx.headD 0]).IsChain R

theorem CycleOrder.neighbours {pts : List Pt} {z : Sv} {r : List Sv} (h : CycleOrder pts z r) {R : Nat → Nat → Prop}
    (hc : (r ++ [z]).IsChain fun x y => R x.i y.i) : Neighbours (r.map Sv.i) R := by
  unfold Neighbours
  have hd : (r.map Sv.i).headD 0 = z.i := by
    have := h.head
    cases r with
    | nil => simp at this
    | cons a r => simp at this; rw [this]; rfl
  rw [hd, show r.map Sv.i ++ [z.i] = (r ++ [z]).map Sv.i by simp, List.isChain_map]
  exact hc

theorem chain_and {α : Type} {R S : α → α → Prop} : ∀ {l : List α}, l.IsChain R → l.IsChain S → l.IsChain fun x y => R x y ∧ S x y
  | [], _, _ => by simp
  | [a], _, _ => by simp
  | a :: b :: l, h1, h2 => by
    rw [List.isChain_cons_cons] at h1 h2 ⊢
    exact ⟨⟨h1.1, h2.1⟩, chain_and h1.2 h2.2⟩

/-- The vertices that the first loop keeps, and how near the raw border vertices are to the edges between them. -/
theorem simplify_near {K : Type} [_root_.Field K] [LinearOrder K] [IsStrictOrderedRing K] (E : K) (M : Int) (wall area : Bool)
    {pts : List Pt} (h : TwoPlaces pts) (hno : ¬ (M > 0 ∧ (wall || area) = true)) :
    ∃ z r, simplifyContour (exactSeg K E) M wall area pts = some (r.map (setCode pts)) ∧ CycleOrder pts z r ∧
      (r ++ [z]).IsChain fun x y => ∀ k < pts.length, 0 < gap pts.length x.i k → gap pts.length x.i k < gap pts.length x.i y.i →
        refinable (rawAt pts k) → NearSegment E (rawAt pts k) (rawAt pts x.i) (rawAt pts y.i) := by
  obtain ⟨z, r1, r2, h1, h2, h3, h4, h5, h6, h7, -⟩ := simplifyIdx_spec (exactSeg K E) M wall area h
  have e := h7 hno
  subst e
  refine ⟨z, r2, by unfold simplifyContour; rw [h1]; rfl, h4, ?_⟩
  refine List.IsChain.imp ?_ (chain_and (chain_and h6 h4.consecutive) (run_codes h h4 h5.sublist))
  rintro x y ⟨⟨hs, hx, hy, hne, -⟩, hcode⟩ k hk h0 hg href
  obtain ⟨ex, hxl⟩ := h4.raw x hx
  obtain ⟨ey, hyl⟩ := h4.raw y hy
  have hgl := gap_lt hxl hyl
  have hxk : ∀ e : Sv, e = rawEntry pts e.i → e.x = (rawAt pts e.i).x ∧ e.z = (rawAt pts e.i).z := fun e he => ⟨congrArg Sv.x he, congrArg Sv.z he⟩
  obtain ⟨ax, az⟩ := hxk x ex
  obtain ⟨bx, bz⟩ := hxk y ey
  have hgt : ∀ a b, (exactSeg K E).gt a b = true ↔ b < a := fun a b => by simp [exactSeg]
  have htol : (exactSeg K E).zero ≤ (exactSeg K E).tol := mul_self_nonneg E
  have hkm := inner_mem (g := gap pts.length x.i y.i) hxl hk h0 hg
  have h1' : refinable (rawAt pts ((x.i + 1) % pts.length)) := by
    refine (hcode (gap pts.length x.i k) h0 (le_of_lt hg)).1 ?_
    rw [add_gap hxl hk]; exact href
  rw [splitError_eq _ _ hxl hyl hne] at hs
  by_cases hu : Upward x y
  · rw [if_pos hu, if_pos h1'] at hs
    have := decideError_none _ hgt htol pts x y _ hs k hkm
    rw [ax, az, bx, bz] at this
    exact exactSeg_near this
  · rw [if_neg hu, if_pos] at hs
    · have := decideError_none _ hgt htol pts y x _ hs k (List.mem_reverse.2 hkm)
      rw [ax, az, bx, bz] at this
      exact (exactSeg_near this).symm
    · exact (hcode (gap pts.length x.i y.i - 1) (by omega) (by omega)).2 h1'

/-- **C124** (partial). Without splitting of long edges, in exact arithmetic: every raw vertex on a border edge, that is against no region or
between areas, is within `maxError` of the edge of the simplified contour that replaces it. Missing: with splitting of long edges it is
false, see `simplify_error_refuted`; rounding. -/
theorem simplify_error_partial {K : Type} [_root_.Field K] [LinearOrder K] [IsStrictOrderedRing K] (E : K) (M : Int) (wall area : Bool)
    {pts : List Pt} (h : TwoPlaces pts) (hno : ¬ (M > 0 ∧ (wall || area) = true)) :
    ∃ out idx, simplifyContour (exactSeg K E) M wall area pts = some out ∧ List.Forall₂ (SimplifiedOf pts) out idx ∧
      Neighbours idx fun a b => ∀ k < pts.length, 0 < gap pts.length a k → gap pts.length a k < gap pts.length a b → refinable (rawAt pts k) →
        NearSegment E (rawAt pts k) (rawAt pts a) (rawAt pts b) := by
  obtain ⟨z, r, h1, h2, h3⟩ := simplify_near E M wall area h hno
  refine ⟨r.map (setCode pts), r.map Sv.i, h1, ?_, h2.neighbours h3⟩
  rw [List.forall₂_map_left_iff, List.forall₂_map_right_iff, List.forall₂_same]
  intro e he
  exact setCode_spec (h2.raw e he).1 (h2.raw e he).2

/-- Spec: raw vertices next to each other are at most `M` apart. Raw contours have steps of one cell. -/
def StepsWithin (M : Int) (pts : List Pt) : Prop :=
  ∀ i < pts.length, ((rawAt pts ((i + 1) % pts.length)).x - (rawAt pts i).x) ^ 2 + ((rawAt pts ((i + 1) % pts.length)).z - (rawAt pts i).z) ^ 2 ≤ M ^ 2

theorem forall₂_getElem_map {α β : Type} {R : α → β → Prop} {l : List α} {l' : List β} (h : List.Forall₂ R l l') :
    l.length = l'.length ∧ ∀ i (h1 : i < l.length) (h2 : i < l'.length), R l[i] l'[i] := by
  induction h with
  | nil => simp
  | cons hr _ ih =>
    refine ⟨by simp [ih.1], ?_⟩
    intro i h1 h2
    cases i with
    | zero => exact hr
    | succ i => exact ih.2 i (by simpa using h1) (by simpa using h2)

/-- **C125**. With splitting of long edges, an edge of the simplified contour that is asked to be split, because it is against no region
(`ContourTessWallEdges`) or between areas (`ContourTessAreaEdges`), is at most `maxEdgeLen` long. -/
theorem simplify_edges {F : Type} (o : SegDist F) (M : Int) (wall area : Bool) {pts : List Pt} (h : TwoPlaces pts) (hM : 0 < M)
    (hstep : StepsWithin M pts) :
    ∃ out, simplifyContour o M wall area pts = some out ∧
      (out ++ [out.headD default]).IsChain fun p q => wall = true ∧ regOf p = 0 ∨ area = true ∧ areaBit p ≠ 0 →
        (q.x - p.x) ^ 2 + (q.z - p.z) ^ 2 ≤ M ^ 2 := by
  obtain ⟨z, r1, r2, h1, h2, h3, h4, h5, h6, h7, h8⟩ := simplifyIdx_spec o M wall area h
  refine ⟨r2.map (setCode pts), by unfold simplifyContour; rw [h1]; rfl, ?_⟩
  have hd : (r2.map (setCode pts)).headD default = setCode pts z := by
    have := h4.head
    cases r2 with
    | nil => simp at this
    | cons a r => simp at this; rw [this]; rfl
  rw [hd, show r2.map (setCode pts) ++ [setCode pts z] = (r2 ++ [z]).map (setCode pts) by simp, List.isChain_map]
  by_cases hc : M > 0 ∧ (wall || area) = true
  · refine List.IsChain.imp ?_ (chain_and (h8 hc).2 h4.consecutive)
    rintro x y ⟨hs, hx, hy, hne, -⟩ hcode
    obtain ⟨ex, hxl⟩ := h4.raw x hx
    obtain ⟨ey, hyl⟩ := h4.raw y hy
    have sx := setCode_spec ex hxl
    rw [sx.reg, sx.area] at hcode
    show (y.x - x.x) ^ 2 + (y.z - x.z) ^ 2 ≤ M ^ 2
    unfold splitLong at hs
    simp only [ite_eq_right_iff] at hs
    have hn : (if y.i < x.i then y.i + pts.length - x.i else y.i - x.i) = gap pts.length x.i y.i := by
      unfold gap; split <;> split <;> omega
    rw [hn] at hs
    have ht : ((wall && decide (regOf (rawAt pts ((x.i + 1) % pts.length)) = 0)) || (area && decide (areaBit (rawAt pts ((x.i + 1) % pts.length)) ≠ 0))) = true := by
      simpa using hcode
    by_cases hlong : (y.x - x.x) * (y.x - x.x) + (y.z - x.z) * (y.z - x.z) > M * M
    · have hg1 : ¬ gap pts.length x.i y.i > 1 := fun hg => by
        have := hs ⟨ht, hlong, hg⟩
        cases this
      have hpos := gap_pos hxl hyl hne
      have hg : gap pts.length x.i y.i = 1 := by omega
      have hyi := add_gap hxl hyl
      rw [hg] at hyi
      have := hstep x.i hxl
      rw [hyi] at this
      rw [congrArg Sv.x ex, congrArg Sv.x ey, congrArg Sv.z ex, congrArg Sv.z ey]
      exact this
    · rw [gt_iff_lt, not_lt] at hlong
      nlinarith [hlong]
  · have hf : wall = false ∧ area = false := by
      by_contra hcon
      apply hc
      refine ⟨hM, ?_⟩
      cases wall <;> cases area <;> simp_all
    refine List.IsChain.imp ?_ h4.consecutive
    intro x y _ hcode
    rw [hf.1, hf.2] at hcode
    simp at hcode

instance (M : Int) (pts : List Pt) : Decidable (StepsWithin M pts) := by unfold StepsWithin; infer_instance

/-! ## Examples -/

/-- The outline of a rectangle of `w` times `d` cells, as `walkContour2` would trace it, against nothing. -/
def rectRaw (w d : Nat) : List Pt :=
  (List.range d).map (fun i => ⟨0, 0, i, 0⟩) ++ (List.range w).map (fun i => ⟨i, 0, d, 0⟩) ++
    (List.range d).map (fun i => ⟨w, 0, d - i, 0⟩) ++ (List.range w).map (fun i => ⟨w - i, 0, 0, 0⟩)

/-- Hypotheses and result for a rectangle. -/
example : TwoPlaces (rectRaw 6 4) ∧ StepsWithin 3 (rectRaw 6 4) ∧
    simplifyContour (exactSeg ℚ 1) 0 true true (rectRaw 6 4) = some [⟨0, 0, 0, 0⟩, ⟨0, 0, 4, 0⟩, ⟨6, 0, 4, 0⟩, ⟨6, 0, 0, 0⟩] ∧
    (simplifyContour (exactSeg ℚ 1) 3 true true (rectRaw 6 4)).map List.length = some 8 := by
  refine ⟨⟨⟨0, 0, 0, 0⟩, by decide, ⟨6, 0, 4, 0⟩, by decide, by decide⟩, by decide, by decide +kernel, by decide +kernel⟩

/-- The outline of a region of five columns of cells with a ragged lower side. -/
def ragged : List Pt :=
  [(0, 1), (0, 2), (0, 3), (0, 4), (0, 5), (1, 5), (2, 5), (3, 5), (4, 5), (5, 5), (5, 4), (5, 3), (5, 2), (5, 1), (4, 1), (4, 2), (3, 2),
    (3, 1), (3, 0), (2, 0), (2, 1), (1, 1)].map fun p => ⟨p.1, 0, p.2, 0⟩

/-- Without splitting, the ragged side becomes one edge. -/
example : simplifyContour (exactSeg ℚ 1) 0 true true ragged = some [⟨0, 0, 1, 0⟩, ⟨0, 0, 5, 0⟩, ⟨5, 0, 5, 0⟩, ⟨5, 0, 1, 0⟩] := by decide +kernel

/-- **C124** (refuted in full). Splitting long edges moves the contour away from the raw contour: an outline against nothing, with steps of one
cell, maximum error 1 and maximum edge length 3, where the raw vertex (3, 2) is further than 1 from every edge of the simplified contour. -/
theorem simplify_error_refuted : ∃ (pts out : List Pt) (p : Pt), TwoPlaces pts ∧ StepsWithin 1 pts ∧ (∀ q ∈ pts, regOf q = 0) ∧ p ∈ pts ∧
    simplifyContour (exactSeg ℚ 1) 3 true false pts = some out ∧
    (out ++ [out.headD default]).IsChain fun a b => ¬ NearSegment (1 : ℚ) p a b := by
  refine ⟨ragged, [(0, 1), (0, 3), (0, 5), (2, 5), (5, 5), (5, 3), (5, 1), (3, 0), (2, 1)].map fun p => ⟨p.1, 0, p.2, 0⟩, ⟨3, 0, 2, 0⟩,
    ⟨⟨0, 0, 1, 0⟩, by decide, ⟨5, 0, 5, 0⟩, by decide, by decide⟩, by decide, by decide, by decide, by decide +kernel, ?_⟩
  simp only [List.map_cons, List.map_nil, List.headD_cons, List.cons_append, List.nil_append, List.isChain_cons_cons, NearSegment]
  refine ⟨?_, ?_, ?_, ?_, ?_, ?_, ?_, ?_, ?_, by simp⟩ <;>
  · rintro ⟨t, h0, h1, h⟩
    norm_num at h
    nlinarith [sq_nonneg (5 * t - 1), sq_nonneg (2 * t - 1), sq_nonneg t]

end Verif.Recast
