/-
Plane geometry helpers of the navigation mesh, in exact arithmetic: side classification of
off-mesh end points (detour/navmeshcreate.go), and detour/common.go.

Simplification: `float32` is replaced by an arbitrary linear order (where the code only compares)
or an arbitrary linearly ordered field (where it computes); NaN and rounding are outside the model.
Vector functions: see Common/Vec.
-/
import Verif.Detour.MeshLinks
import Verif.Common.Vec
import Mathlib.Order.Defs.LinearOrder
import Mathlib.Tactic.Order
import Mathlib.Algebra.Order.Field.Basic
import Mathlib.Algebra.Order.Field.Rat
import Mathlib.Tactic.Linarith
import Mathlib.Tactic.FieldSimp
import Mathlib.Tactic.Ring
import Mathlib.Tactic.LinearCombination
import Mathlib.Tactic.NormNum
import Mathlib.Tactic.Positivity

namespace Verif.Detour

set_option linter.unusedSectionVars false

/-! ## Model -/

section
variable {K : Type} [LinearOrder K]

/-- `classifyOffMeshPoint` (detour/navmeshcreate.go:341-385): the outcode as four flags
XP, ZP, XM, ZM, then the switch. -/
def classify (pt bmin bmax : V3 K) : Nat :=
  match decide (bmax.x ≤ pt.x), decide (bmax.z ≤ pt.z), decide (pt.x < bmin.x),
      decide (pt.z < bmin.z) with
  | true, false, false, false => 0
  | true, true, false, false => 1
  | false, true, false, false => 2
  | false, true, true, false => 3
  | false, false, true, false => 4
  | false, false, true, true => 5
  | false, false, false, true => 6
  | true, false, false, true => 7
  | _, _, _, _ => 0xff

/-- `OverlapBounds` (detour/common.go:74-85). -/
def overlapBounds (amin amax bmin bmax : V3 K) : Bool :=
  if bmax.x < amin.x ∨ amax.x < bmin.x then false
  else if bmax.y < amin.y ∨ amax.y < bmin.y then false
  else if bmax.z < amin.z ∨ amax.z < bmin.z then false
  else true

end

/-- `oppositeTile` (detour/common.go:204-206) on `int32`. -/
def oppositeTile (side : U32) : U32 := (side + 4#32) &&& 0x7#32

section
variable {K : Type} [Field K] [LinearOrder K]

/-- `TriArea2D` (detour/common.go:18-24). -/
def triArea (a b c : V3 K) : K :=
  (c.x - a.x) * (b.z - a.z) - (b.x - a.x) * (c.z - a.z)

/-- `IntersectSegSeg2D` (detour/common.go:28-39); `eps` is the literal 1e-6. -/
def segSeg (eps : K) (ap aq bp bq : V3 K) : Option (K × K) :=
  let u := aq.sub ap
  let v := bq.sub bp
  let w := ap.sub bp
  let d := u.perp v
  if |d| < eps then none else some (v.perp w / d, u.perp w / d)

/-- `distancePtSegSqr2D` (detour/common.go:155-173): the distance and `*t`. -/
def distPtSeg (pt p q : V3 K) : K × K :=
  let pqx := q.x - p.x
  let pqz := q.z - p.z
  let dx := pt.x - p.x
  let dz := pt.z - p.z
  let d := pqx * pqx + pqz * pqz
  let t := pqx * dx + pqz * dz
  let t := if 0 < d then t / d else t
  let t := if t < 0 then 0 else if 1 < t then 1 else t
  let dx := p.x + t * pqx - pt.x
  let dz := p.z + t * pqz - pt.z
  (dx * dx + dz * dz, t)

/-- `closestHeightPointTriangle` (detour/common.go:175-202); `eps` is the literal 1e-4. -/
def heightTri (eps : K) (p a b c : V3 K) : Option K :=
  let v0 := c.sub a
  let v1 := b.sub a
  let v2 := p.sub a
  let dot00 := v0.dot v0
  let dot01 := v0.dot v1
  let dot02 := v0.dot v2
  let dot11 := v1.dot v1
  let dot12 := v1.dot v2
  let invDenom := 1 / (dot00 * dot11 - dot01 * dot01)
  let u := (dot11 * dot02 - dot01 * dot12) * invDenom
  let v := (dot00 * dot12 - dot01 * dot02) * invDenom
  if -eps ≤ u ∧ -eps ≤ v ∧ u + v ≤ 1 + eps then some (a.y + v0.y * u + v1.y * v) else none

/-- State of the loop of `IntersectSegmentPoly2D`: `segMin`, `segMax` as `none` for -1. -/
structure Clip (K : Type) where
  tmin : K
  tmax : K
  segMin : Option Nat
  segMax : Option Nat

/-- One edge `(vj, vi)` of `IntersectSegmentPoly2D` (detour/common.go:114-148). `inl` is the early
`return` with `res = false`. -/
def clipEdge (eps : K) (p0 dir : V3 K) (st : Clip K) (j : Nat) (vj vi : V3 K) :
    Clip K ⊕ Clip K :=
  let edge := vi.sub vj
  let diff := p0.sub vj
  let n := edge.perp diff
  let d := dir.perp edge
  if |d| < eps then
    if n < 0 then .inl st else .inr st
  else
    let t := n / d
    if d < 0 then
      if st.tmin < t then
        let st := { st with tmin := t, segMin := some j }
        if st.tmax < st.tmin then .inl st else .inr st
      else .inr st
    else
      if t < st.tmax then
        let st := { st with tmax := t, segMax := some j }
        if st.tmax < st.tmin then .inl st else .inr st
      else .inr st

/-- The loop over `i` with trailing index `j` (detour/common.go:112-148): `js` lists the edges as
(index of the first vertex, first vertex, second vertex). -/
def clipLoop (eps : K) (p0 dir : V3 K) : Clip K → List (Nat × V3 K × V3 K) → Clip K × Bool
  | st, [] => (st, true)
  | st, (j, vj, vi) :: es =>
    match clipEdge eps p0 dir st j vj vi with
    | .inl st => (st, false)
    | .inr st => clipLoop eps p0 dir st es

/-- The sequence of edges visited by `for i, j := 0, n-1; i < n; j, i = i, i+1`. -/
def edgesFrom : Nat → V3 K → Nat → List (V3 K) → List (Nat × V3 K × V3 K)
  | _, _, _, [] => []
  | j, vj, i, vi :: vs => (j, vj, vi) :: edgesFrom i vi (i + 1) vs

/-- Edges of a polygon in visiting order (last edge first). -/
def polyEdges (vs : List (V3 K)) : List (Nat × V3 K × V3 K) :=
  match vs.getLast? with
  | none => []
  | some l => edgesFrom (vs.length - 1) l 0 vs

/-- `IntersectSegmentPoly2D` (detour/common.go:103-153); `eps` is the literal 1e-8. -/
def segPoly (eps : K) (p0 p1 : V3 K) (vs : List (V3 K)) : Clip K × Bool :=
  clipLoop eps p0 (p1.sub p0) ⟨0, 1, none, none⟩ (polyEdges vs)

end

/-! ## Specification -/

/-- The coordinate range a value falls into: below (-1), in (0), beyond (1) the half-open interval
`[lo, hi)`. -/
inductive Band {K : Type} [LinearOrder K] (lo hi v : K) : Int → Prop
  | below : v < lo → Band lo hi v (-1)
  | within : lo ≤ v → v < hi → Band lo hi v 0
  | beyond : hi ≤ v → Band lo hi v 1

/-- The eight directions in steps of 45 degrees, as grid offsets. -/
def compass : Nat → Int × Int
  | 0 => (1, 0) | 1 => (1, 1) | 2 => (0, 1) | 3 => (-1, 1)
  | 4 => (-1, 0) | 5 => (-1, -1) | 6 => (0, -1) | 7 => (1, -1) | _ => (0, 0)

/-! ## Properties: sides -/

section
variable {K : Type} [LinearOrder K]

theorem Band.flags {lo hi v : K} (h : lo ≤ hi) {s : Int} (b : Band lo hi v s) :
    (s = -1 ∧ decide (hi ≤ v) = false ∧ decide (v < lo) = true) ∨
    (s = 0 ∧ decide (hi ≤ v) = false ∧ decide (v < lo) = false) ∨
    (s = 1 ∧ decide (hi ≤ v) = true ∧ decide (v < lo) = false) := by
  cases b with
  | below h1 => exact .inl ⟨rfl, decide_eq_false (by order), decide_eq_true h1⟩
  | within h1 h2 => exact .inr (.inl ⟨rfl, decide_eq_false (by order), decide_eq_false (by order)⟩)
  | beyond h1 => exact .inr (.inr ⟨rfl, decide_eq_true h1, decide_eq_false (by order)⟩)

/-- **C35** The class of a point is 0xff exactly for the points of the (half-open) rectangle, and
otherwise it is the direction of the sector the point lies in. -/
theorem classify_spec (pt bmin bmax : V3 K) (hx : bmin.x ≤ bmax.x) (hz : bmin.z ≤ bmax.z)
    (sx sz : Int) (bx : Band bmin.x bmax.x pt.x sx) (bz : Band bmin.z bmax.z pt.z sz) :
    (classify pt bmin bmax = 0xff ↔ (sx = 0 ∧ sz = 0)) ∧
    (classify pt bmin bmax ≠ 0xff → classify pt bmin bmax < 8 ∧
      compass (classify pt bmin bmax) = (sx, sz)) := by
  unfold classify
  rcases bx.flags hx with ⟨e1, e2, e3⟩ | ⟨e1, e2, e3⟩ | ⟨e1, e2, e3⟩ <;>
  rcases bz.flags hz with ⟨f1, f2, f3⟩ | ⟨f1, f2, f3⟩ | ⟨f1, f2, f3⟩ <;>
  rw [e2, e3, f2, f3, e1, f1] <;> simp [compass]

/-- Every coordinate falls into one of the three ranges, so `classify_spec` covers every point. -/
theorem Band.exists (lo hi v : K) : ∃ s, Band lo hi v s := by
  by_cases h : v < lo
  · exact ⟨_, .below h⟩
  · by_cases h2 : v < hi
    · exact ⟨_, .within (not_lt.1 h) h2⟩
    · exact ⟨_, .beyond (not_lt.1 h2)⟩

/-- A point beyond the far corner in x only: direction 0. -/
example : classify (K := Int) ⟨10, 0, 5⟩ ⟨0, 0, 0⟩ ⟨10, 10, 10⟩ = 0 := by decide
example : Band (0 : Int) 10 10 1 ∧ Band (0 : Int) 10 5 0 :=
  ⟨.beyond (by decide), .within (by decide) (by decide)⟩

/-- **C37** `OverlapBounds` is true exactly when the two boxes share a point. -/
theorem overlapBounds_exact (amin amax bmin bmax : V3 K)
    (ha : amin.x ≤ amax.x ∧ amin.y ≤ amax.y ∧ amin.z ≤ amax.z)
    (hb : bmin.x ≤ bmax.x ∧ bmin.y ≤ bmax.y ∧ bmin.z ≤ bmax.z) :
    overlapBounds amin amax bmin bmax = true ↔
      ∃ p : V3 K, (amin.x ≤ p.x ∧ p.x ≤ amax.x ∧ bmin.x ≤ p.x ∧ p.x ≤ bmax.x) ∧
        (amin.y ≤ p.y ∧ p.y ≤ amax.y ∧ bmin.y ≤ p.y ∧ p.y ≤ bmax.y) ∧
        (amin.z ≤ p.z ∧ p.z ≤ amax.z ∧ bmin.z ≤ p.z ∧ p.z ≤ bmax.z) := by
  unfold overlapBounds
  constructor
  · intro h
    refine ⟨⟨max amin.x bmin.x, max amin.y bmin.y, max amin.z bmin.z⟩, ?_, ?_, ?_⟩ <;>
      refine ⟨le_max_left _ _, max_le ?_ ?_, le_max_right _ _, max_le ?_ ?_⟩ <;>
      (split at h <;> [exact absurd h (by simp); skip]) <;>
      (split at h <;> [exact absurd h (by simp); skip]) <;>
      (split at h <;> [exact absurd h (by simp); skip]) <;>
      simp only [not_or, not_lt] at * <;> tauto
  · rintro ⟨p, ⟨h1, h2, h3, h4⟩, ⟨h5, h6, h7, h8⟩, h9, h10, h11, h12⟩
    rw [if_neg, if_neg, if_neg] <;> simp only [not_or, not_lt] <;>
      refine ⟨?_, ?_⟩ <;> order

/-- **C37** `OverlapBounds` is symmetric. -/
theorem overlapBounds_symm (amin amax bmin bmax : V3 K) :
    overlapBounds amin amax bmin bmax = overlapBounds bmin bmax amin amax := by
  unfold overlapBounds
  simp only [or_comm]

/-- Boxes touching in one point overlap; boxes apart do not. -/
example : overlapBounds (K := Int) ⟨0, 0, 0⟩ ⟨1, 1, 1⟩ ⟨1, 1, 1⟩ ⟨2, 2, 2⟩ = true ∧
    overlapBounds (K := Int) ⟨0, 0, 0⟩ ⟨1, 1, 1⟩ ⟨0, 0, 2⟩ ⟨2, 2, 2⟩ = false := by decide

end

/-- **C36** The opposite side is again a side, and taking the opposite twice gives the side back. -/
theorem oppositeTile_involutive (side : Nat) (h : side < 8) :
    (oppositeTile (BitVec.ofNat 32 side)).toNat < 8 ∧
    oppositeTile (oppositeTile (BitVec.ofNat 32 side)) = BitVec.ofNat 32 side := by
  revert side
  decide

/-- **C36** The neighbour at a side, and from there the neighbour at the opposite side: back at the
starting tile, for all coordinates (including the ones that wrap around). The offsets are those
`neighbourTilesAt` uses. -/
theorem neighbour_opposite (side : Nat) (h : side < 8) (x y : U32) :
    let o := (oppositeTile (BitVec.ofNat 32 side)).toNat
    x + sideX side + sideX o = x ∧ y + sideY side + sideY o = y ∧
    (sideX side ≠ 0#32 ∨ sideY side ≠ 0#32) := by
  have hc : sideX side + sideX (oppositeTile (BitVec.ofNat 32 side)).toNat = 0#32 ∧
      sideY side + sideY (oppositeTile (BitVec.ofNat 32 side)).toNat = 0#32 ∧
      (sideX side ≠ 0#32 ∨ sideY side ≠ 0#32) := by
    revert side
    decide
  obtain ⟨h1, h2, h3⟩ := hc
  refine ⟨?_, ?_, h3⟩
  · rw [BitVec.add_assoc, h1, BitVec.add_zero]
  · rw [BitVec.add_assoc, h2, BitVec.add_zero]

/-- **C36** The sides are the compass directions off-mesh end points are classified by. -/
theorem sides_compass (side : Nat) (h : side < 8) :
    sideX side = BitVec.ofInt 32 (compass side).1 ∧
    sideY side = BitVec.ofInt 32 (compass side).2 := by
  revert side
  decide

/-- **C36** The mesh-level search for neighbours of the neighbour on the opposite side looks at the
starting cell. -/
theorem neighbours_return (m : Mesh) (side : Nat) (h : side < 8) (x y : U32) (max : Nat) :
    m.neighboursAt (x + sideX side) (y + sideY side)
      (oppositeTile (BitVec.ofNat 32 side)).toNat max = m.tilesAt x y max := by
  obtain ⟨h1, h2, _⟩ := neighbour_opposite side h x y
  unfold Mesh.neighboursAt
  rw [h1, h2]

/-- Side 3 (up-left) and its opposite 7 (down-right). -/
example : oppositeTile 3#32 = 7#32 ∧ sideX 3 = -1#32 ∧ sideX 7 = 1#32 := by decide

/-! ## Properties: exact plane geometry -/

section
variable {K : Type} [Field K] [LinearOrder K] [IsStrictOrderedRing K]

/-- **C86** `distancePtSegSqr2D` returns a parameter in [0, 1], the squared distance to the point of
the segment at that parameter, and no point of the segment is closer. -/
theorem distPtSeg_closest (pt p q : V3 K) :
    let r := distPtSeg pt p q
    (0 ≤ r.2 ∧ r.2 ≤ 1) ∧
    r.1 = (p.x + r.2 * (q.x - p.x) - pt.x) ^ 2 + (p.z + r.2 * (q.z - p.z) - pt.z) ^ 2 ∧
    ∀ s, 0 ≤ s → s ≤ 1 →
      r.1 ≤ (p.x + s * (q.x - p.x) - pt.x) ^ 2 + (p.z + s * (q.z - p.z) - pt.z) ^ 2 := by
  intro r
  have hr : r = distPtSeg pt p q := rfl
  unfold distPtSeg at hr
  simp only at hr
  generalize ha : q.x - p.x = a at hr ⊢
  generalize hb : q.z - p.z = b at hr ⊢
  have hcx : pt.x = p.x - (p.x - pt.x) := by ring
  generalize hc : pt.x - p.x = c at hr ⊢
  generalize hd : pt.z - p.z = d at hr ⊢
  have hc' : ∀ t, p.x + t * a - pt.x = t * a - c := fun t => by rw [← hc]; ring
  have hd' : ∀ t, p.z + t * b - pt.z = t * b - d := fun t => by rw [← hd]; ring
  simp only [hc', hd'] at hr ⊢
  generalize ht : (if 0 < a * a + b * b then (a * c + b * d) / (a * a + b * b)
    else a * c + b * d) = t at hr
  -- the unclamped parameter
  have hsq : 0 ≤ a * a + b * b := add_nonneg (mul_self_nonneg a) (mul_self_nonneg b)
  have key : ∀ s, (s * a - c) ^ 2 + (s * b - d) ^ 2 =
      (a * a + b * b) * (s - t) ^ 2 + ((t * a - c) ^ 2 + (t * b - d) ^ 2) := by
    intro s
    have hm : (a * a + b * b) * t = a * c + b * d := by
      by_cases h : 0 < a * a + b * b
      · rw [if_pos h] at ht
        rw [← ht, mul_div_assoc', mul_div_cancel_left₀ _ h.ne']
      · have h0 : a * a + b * b = 0 := le_antisymm (not_lt.1 h) hsq
        have ha0 : a = 0 := by nlinarith [mul_self_nonneg a, mul_self_nonneg b]
        have hb0 : b = 0 := by nlinarith [mul_self_nonneg a, mul_self_nonneg b]
        rw [ha0, hb0]; ring
    linear_combination (2 * s - 2 * t) * hm
  generalize hu : (if t < 0 then 0 else if 1 < t then 1 else t) = u at hr
  have e1 : r.1 = (u * a - c) * (u * a - c) + (u * b - d) * (u * b - d) := by rw [hr]
  have e2 : r.2 = u := by rw [hr]
  rw [e1, e2]
  refine ⟨?_, by ring, ?_⟩
  · rw [← hu]
    split
    · exact ⟨le_rfl, zero_le_one⟩
    · split
      · exact ⟨zero_le_one, le_rfl⟩
      · constructor <;> order
  · intro s h0 h1
    have e3 : (u * a - c) * (u * a - c) + (u * b - d) * (u * b - d)
      = (u * a - c) ^ 2 + (u * b - d) ^ 2 := by ring
    rw [e3, key s, key u]
    have : (u - t) ^ 2 ≤ (s - t) ^ 2 := by
      rw [← hu]
      split
      · nlinarith
      · split
        · nlinarith
        · have : (t - t) ^ 2 = 0 := by ring
          rw [this]; positivity
    have := mul_le_mul_of_nonneg_left this hsq
    linarith

/-- A point off the middle of a segment. -/
example : distPtSeg (K := ℚ) ⟨1, 0, 3⟩ ⟨0, 0, 0⟩ ⟨4, 0, 0⟩ = (9, 1 / 4) := by
  norm_num [distPtSeg]

/-- **C89** The two parameters returned by `IntersectSegSeg2D` name the same point on both lines. -/
theorem segSeg_point (eps : K) (he : 0 < eps) (ap aq bp bq : V3 K) (s t : K)
    (h : segSeg eps ap aq bp bq = some (s, t)) :
    ap.x + s * (aq.x - ap.x) = bp.x + t * (bq.x - bp.x) ∧
    ap.z + s * (aq.z - ap.z) = bp.z + t * (bq.z - bp.z) := by
  unfold segSeg at h
  simp only at h
  split at h
  · simp at h
  · rename_i hd
    have hne : (aq.sub ap).perp (bq.sub bp) ≠ 0 := by
      intro h0; rw [h0, abs_zero] at hd; exact hd he
    simp only [Option.some.injEq, Prod.mk.injEq] at h
    obtain ⟨h1, h2⟩ := h
    rw [div_eq_iff hne] at h1 h2
    simp only [V3.perp, V3.sub] at *
    constructor
    · apply mul_right_cancel₀ hne
      linear_combination (aq.x - ap.x) * (-h1) - (bq.x - bp.x) * (-h2)
    · apply mul_right_cancel₀ hne
      linear_combination (aq.z - ap.z) * (-h1) - (bq.z - bp.z) * (-h2)

/-- **C89** Lines that are not (nearly) parallel always meet, in one point only. -/
theorem segSeg_complete (eps : K) (he : 0 < eps) (ap aq bp bq : V3 K)
    (hd : eps ≤ |(aq.z - ap.z) * (bq.x - bp.x) - (aq.x - ap.x) * (bq.z - bp.z)|) (s t : K)
    (hx : ap.x + s * (aq.x - ap.x) = bp.x + t * (bq.x - bp.x))
    (hz : ap.z + s * (aq.z - ap.z) = bp.z + t * (bq.z - bp.z)) :
    segSeg eps ap aq bp bq = some (s, t) := by
  unfold segSeg
  simp only
  have hn : ¬ |(aq.sub ap).perp (bq.sub bp)| < eps := not_lt.2 hd
  rw [if_neg hn]
  simp only [V3.perp, V3.sub]
  have hne : (aq.z - ap.z) * (bq.x - bp.x) - (aq.x - ap.x) * (bq.z - bp.z) ≠ 0 := by
    intro h0; rw [h0, abs_zero] at hd; exact absurd he (not_lt.2 hd)
  simp only [Option.some.injEq, Prod.mk.injEq]
  rw [div_eq_iff hne, div_eq_iff hne]
  constructor
  · linear_combination (bq.z - bp.z) * hx - (bq.x - bp.x) * hz
  · linear_combination (aq.z - ap.z) * hx - (aq.x - ap.x) * hz

/-- The diagonals of a square. -/
example : segSeg (K := ℚ) (1 / 1000000) ⟨0, 0, 0⟩ ⟨2, 0, 2⟩ ⟨0, 0, 2⟩ ⟨2, 0, 0⟩ =
    some (1 / 2, 1 / 2) := by
  norm_num [segSeg, V3.perp, V3.sub]

/-- **C88** On a triangle of non-zero area every point has plane coordinates `u`, `v`; the height is
that of the plane, and it is reported exactly for the points whose coordinates are inside the
triangle up to the tolerance. -/
theorem heightTri_spec (eps : K) (p a b c : V3 K)
    (harea : (c.x - a.x) * (b.z - a.z) - (b.x - a.x) * (c.z - a.z) ≠ 0) (u v : K)
    (hx : p.x = a.x + u * (c.x - a.x) + v * (b.x - a.x))
    (hz : p.z = a.z + u * (c.z - a.z) + v * (b.z - a.z)) :
    heightTri eps p a b c =
      if -eps ≤ u ∧ -eps ≤ v ∧ u + v ≤ 1 + eps then
        some (a.y + u * (c.y - a.y) + v * (b.y - a.y)) else none := by
  unfold heightTri
  simp only [V3.dot, V3.sub]
  have hden : ((c.x - a.x) * (c.x - a.x) + (c.z - a.z) * (c.z - a.z)) *
      ((b.x - a.x) * (b.x - a.x) + (b.z - a.z) * (b.z - a.z)) -
      ((c.x - a.x) * (b.x - a.x) + (c.z - a.z) * (b.z - a.z)) *
      ((c.x - a.x) * (b.x - a.x) + (c.z - a.z) * (b.z - a.z))
      = ((c.x - a.x) * (b.z - a.z) - (b.x - a.x) * (c.z - a.z)) ^ 2 := by ring
  have hne := pow_ne_zero 2 harea
  have hu : (((b.x - a.x) * (b.x - a.x) + (b.z - a.z) * (b.z - a.z)) *
      ((c.x - a.x) * (p.x - a.x) + (c.z - a.z) * (p.z - a.z)) -
      ((c.x - a.x) * (b.x - a.x) + (c.z - a.z) * (b.z - a.z)) *
      ((b.x - a.x) * (p.x - a.x) + (b.z - a.z) * (p.z - a.z))) *
      (1 / ((c.x - a.x) * (b.z - a.z) - (b.x - a.x) * (c.z - a.z)) ^ 2) = u := by
    rw [mul_one_div, div_eq_iff hne, hx, hz]; ring
  have hv : (((c.x - a.x) * (c.x - a.x) + (c.z - a.z) * (c.z - a.z)) *
      ((b.x - a.x) * (p.x - a.x) + (b.z - a.z) * (p.z - a.z)) -
      ((c.x - a.x) * (b.x - a.x) + (c.z - a.z) * (b.z - a.z)) *
      ((c.x - a.x) * (p.x - a.x) + (c.z - a.z) * (p.z - a.z))) *
      (1 / ((c.x - a.x) * (b.z - a.z) - (b.x - a.x) * (c.z - a.z)) ^ 2) = v := by
    rw [mul_one_div, div_eq_iff hne, hx, hz]; ring
  have hy : a.y + (c.y - a.y) * u + (b.y - a.y) * v = a.y + u * (c.y - a.y) + v * (b.y - a.y) := by
    ring
  simp only [hden, hu, hv, hy]

/-- **C88** Every point of the triangle gets the height of the triangle there. -/
theorem heightTri_inside (eps : K) (he : 0 ≤ eps) (a b c : V3 K)
    (harea : (c.x - a.x) * (b.z - a.z) - (b.x - a.x) * (c.z - a.z) ≠ 0) (α β γ : K)
    (h0 : 0 ≤ α) (h1 : 0 ≤ β) (h2 : 0 ≤ γ) (hs : α + β + γ = 1) (p : V3 K)
    (hx : p.x = α * a.x + β * b.x + γ * c.x) (hz : p.z = α * a.z + β * b.z + γ * c.z) :
    heightTri eps p a b c = some (α * a.y + β * b.y + γ * c.y) := by
  have hα : α = 1 - β - γ := by linear_combination hs
  rw [heightTri_spec eps p a b c harea γ β (by rw [hx, hα]; ring) (by rw [hz, hα]; ring), if_pos]
  · congr 1
    rw [hα]; ring
  · refine ⟨by linarith, by linarith, by linarith⟩

/-- **C88** A degenerate triangle: in a field where `1/0 = 0` the model would answer with the height
of `a`, and in `float32` the division gives infinities and NaN, so the claim needs the area
hypothesis. A proper triangle: -/
example : heightTri (K := ℚ) (1 / 10000) ⟨1, 0, 1⟩ ⟨0, 0, 0⟩ ⟨4, 4, 0⟩ ⟨0, 8, 4⟩ = some 3 := by
  norm_num [heightTri, V3.dot, V3.sub]

/-! ### Segment against polygon -/

/-- The points of the segment are `p0 + t (p1 - p0)`; the point is on the inner side of the edge
`(vj, vi)` iff this is non-negative (the same sign convention as `TriArea2D`). -/
def edgeVal (p0 p1 vj vi : V3 K) (t : K) : K :=
  triArea vj vi ⟨p0.x + t * (p1.x - p0.x), 0, p0.z + t * (p1.z - p0.z)⟩

/-- The edges of a polygon: each vertex with its cyclic successor. -/
def PolyEdge (vs : List (V3 K)) (j : Nat) (vj vi : V3 K) : Prop :=
  vs[j]? = some vj ∧ vs[(j + 1) % vs.length]? = some vi

theorem mem_edgesFrom (vs : List (V3 K)) : ∀ (pre : List (V3 K)) (j : Nat) (vj : V3 K)
    (k : Nat) (a b : V3 K), (k, a, b) ∈ edgesFrom j vj pre.length vs ↔
      (vs ≠ [] ∧ k = j ∧ a = vj ∧ vs[0]? = some b) ∨
      (pre.length ≤ k ∧ (pre ++ vs)[k]? = some a ∧ (pre ++ vs)[k + 1]? = some b) := by
  induction vs with
  | nil =>
    intro pre j vj k a b
    simp only [edgesFrom, List.not_mem_nil, ne_eq, not_true_eq_false, false_and, List.append_nil,
      false_or, false_iff]
    rintro ⟨h1, h2, h3⟩
    rw [List.getElem?_eq_none (by omega)] at h3
    simp at h3
  | cons v vs ih =>
    intro pre j vj k a b
    have := ih (pre ++ [v]) pre.length v k a b
    rw [List.length_append, List.length_singleton] at this
    rw [edgesFrom, List.mem_cons, this]
    simp only [Prod.mk.injEq, ne_eq, reduceCtorEq, not_false_eq_true, true_and,
      List.getElem?_cons_zero, Option.some.injEq, List.append_assoc, List.singleton_append]
    have hv : (pre ++ v :: vs)[pre.length]? = some v := by simp
    have hv1 : (pre ++ v :: vs)[pre.length + 1]? = vs[0]? := by
      rw [List.getElem?_append_right (by omega)]; simp
    constructor
    · rintro (⟨h1, h2, h3⟩ | ⟨h1, h2, h3, h4⟩ | ⟨h1, h2, h3⟩)
      · exact .inl ⟨h1, h2, h3.symm⟩
      · subst h2; subst h3
        exact .inr ⟨le_rfl, hv, by rw [hv1]; exact h4⟩
      · exact .inr ⟨by omega, h2, h3⟩
    · rintro (⟨h1, h2, h3⟩ | ⟨h1, h2, h3⟩)
      · exact .inl ⟨h1, h2, h3.symm⟩
      · by_cases hk : k = pre.length
        · subst hk
          rw [hv] at h2
          rw [hv1] at h3
          refine .inr (.inl ⟨?_, rfl, ?_, h3⟩)
          · rintro rfl; simp at h3
          · simpa using h2.symm
        · exact .inr (.inr ⟨by omega, h2, h3⟩)

/-- The loop visits exactly the edges of the polygon. -/
theorem mem_polyEdges (vs : List (V3 K)) (k : Nat) (a b : V3 K) :
    (k, a, b) ∈ polyEdges vs ↔ PolyEdge vs k a b := by
  unfold polyEdges PolyEdge
  rcases List.eq_nil_or_concat vs with rfl | ⟨ini, l, hvs⟩
  · simp
  · rw [List.concat_eq_append] at hvs
    subst hvs
    have hl : (ini ++ [l]).getLast? = some l := by simp
    rw [hl]
    have := mem_edgesFrom (ini ++ [l]) [] ((ini ++ [l]).length - 1) l k a b
    simp only [List.length_nil, List.nil_append] at this
    simp only
    rw [this]
    have hlen : (ini ++ [l]).length = ini.length + 1 := by simp
    rw [hlen]
    have hlast : (ini ++ [l])[ini.length]? = some l := by simp
    constructor
    · rintro (⟨_, h2, h3, h4⟩ | ⟨_, h2, h3⟩)
      · subst h2; subst h3
        refine ⟨by simp, ?_⟩
        rw [show (ini.length + 1 - 1 + 1) % (ini.length + 1) = 0 by
          rw [Nat.add_sub_cancel]; exact Nat.mod_self _]
        exact h4
      · refine ⟨h2, ?_⟩
        have : k + 1 < ini.length + 1 := by
          rcases Nat.lt_or_ge (k + 1) (ini.length + 1) with h | h
          · exact h
          · rw [List.getElem?_eq_none (by simp; omega)] at h3; simp at h3
        rw [Nat.mod_eq_of_lt this]
        exact h3
    · rintro ⟨h1, h2⟩
      have hk : k < ini.length + 1 := by
        rcases Nat.lt_or_ge k (ini.length + 1) with h | h
        · exact h
        · rw [List.getElem?_eq_none (by simp; omega)] at h1; simp at h1
      by_cases he : k = ini.length
      · subst he
        rw [Nat.mod_self] at h2
        refine .inl ⟨by simp, by omega, ?_, h2⟩
        rw [hlast] at h1
        simpa using h1.symm
      · rw [Nat.mod_eq_of_lt (by omega)] at h2
        exact .inr ⟨by omega, h1, h2⟩

/-- What the edge admits of the segment: nearly parallel edges are judged by the start point. -/
def Admits (eps : K) (p0 p1 vj vi : V3 K) (t : K) : Prop :=
  if |(p1.sub p0).perp (vi.sub vj)| < eps then 0 ≤ edgeVal p0 p1 vj vi 0
  else 0 ≤ edgeVal p0 p1 vj vi t

theorem edgeVal_eq (p0 p1 vj vi : V3 K) (t : K) :
    edgeVal p0 p1 vj vi t =
      (vi.sub vj).perp (p0.sub vj) - t * (p1.sub p0).perp (vi.sub vj) := by
  simp only [edgeVal, triArea, V3.perp, V3.sub]; ring

theorem clipEdge_spec (eps : K) (he : 0 < eps) (p0 p1 : V3 K) (st : Clip K) (j : Nat)
    (vj vi : V3 K) :
    match clipEdge eps p0 (p1.sub p0) st j vj vi with
    | .inl _ => ∀ t, st.tmin ≤ t → t ≤ st.tmax → ¬ Admits eps p0 p1 vj vi t
    | .inr s => (∀ t, (s.tmin ≤ t ∧ t ≤ s.tmax) ↔
        (st.tmin ≤ t ∧ t ≤ st.tmax) ∧ Admits eps p0 p1 vj vi t) ∧
        (st.tmin ≤ st.tmax → s.tmin ≤ s.tmax) ∧
        ((s.tmin = st.tmin ∧ s.segMin = st.segMin) ∨
          (s.segMin = some j ∧ st.tmin < s.tmin ∧ edgeVal p0 p1 vj vi s.tmin = 0)) ∧
        ((s.tmax = st.tmax ∧ s.segMax = st.segMax) ∨
          (s.segMax = some j ∧ s.tmax < st.tmax ∧ edgeVal p0 p1 vj vi s.tmax = 0)) := by
  have h0 : edgeVal p0 p1 vj vi 0 = (vi.sub vj).perp (p0.sub vj) := by
    rw [edgeVal_eq]; ring
  unfold clipEdge Admits
  simp only
  by_cases hp : |(p1.sub p0).perp (vi.sub vj)| < eps
  · simp only [if_pos hp, h0]
    by_cases hn : (vi.sub vj).perp (p0.sub vj) < 0
    · simp only [if_pos hn]
      intro t _ _
      exact not_le.2 hn
    · simp only [if_neg hn]
      refine ⟨fun t => ⟨fun h => ⟨h, not_lt.1 hn⟩, fun h => h.1⟩, id, .inl (by simp),
        .inl (by simp)⟩
  · simp only [if_neg hp, edgeVal_eq]
    generalize (p1.sub p0).perp (vi.sub vj) = d at *
    generalize (vi.sub vj).perp (p0.sub vj) = n at *
    have hd0 : d ≠ 0 := by rintro rfl; exact hp (by rw [abs_zero]; exact he)
    have hz : n - n / d * d = 0 := by rw [div_mul_cancel₀ _ hd0, sub_self]
    by_cases hd : d < 0
    · have hiff : ∀ t, 0 ≤ n - t * d ↔ n / d ≤ t := by
        intro t
        rw [div_le_iff_of_neg hd, sub_nonneg]
      simp only [if_pos hd, hiff]
      by_cases ht : st.tmin < n / d
      · simp only [if_pos ht]
        by_cases hx : st.tmax < n / d
        · simp only [if_pos hx]
          intro t _ h2 h3; order
        · simp only [if_neg hx]
          refine ⟨fun t => ⟨fun h => ⟨⟨by order, h.2⟩, h.1⟩, fun h => ⟨h.2, h.1.2⟩⟩,
            fun _ => not_lt.1 hx, .inr ⟨by simp, ht, hz⟩, .inl (by simp)⟩
      · simp only [if_neg ht]
        refine ⟨fun t => ⟨fun h => ⟨h, by order⟩, fun h => h.1⟩, id, .inl (by simp),
          .inl (by simp)⟩
    · have hd' : 0 < d := lt_of_le_of_ne (not_lt.1 hd) hd0.symm
      have hiff : ∀ t, 0 ≤ n - t * d ↔ t ≤ n / d := by
        intro t
        rw [le_div_iff₀ hd', sub_nonneg]
      simp only [if_neg hd, hiff]
      by_cases ht : n / d < st.tmax
      · simp only [if_pos ht]
        by_cases hx : n / d < st.tmin
        · simp only [if_pos hx]
          intro t _ h2 h3; order
        · simp only [if_neg hx]
          refine ⟨fun t => ⟨fun h => ⟨⟨h.1, by order⟩, h.2⟩, fun h => ⟨h.1.1, h.2⟩⟩,
            fun _ => not_lt.1 hx, .inl (by simp), .inr ⟨by simp, ht, hz⟩⟩
      · simp only [if_neg ht]
        refine ⟨fun t => ⟨fun h => ⟨h, by order⟩, fun h => h.1⟩, id, .inl (by simp),
          .inl (by simp)⟩

theorem clipLoop_spec (eps : K) (he : 0 < eps) (p0 p1 : V3 K) (es : List (Nat × V3 K × V3 K)) :
    ∀ (st : Clip K), st.tmin ≤ st.tmax →
    ((clipLoop eps p0 (p1.sub p0) st es).2 = true →
      (∀ t, ((clipLoop eps p0 (p1.sub p0) st es).1.tmin ≤ t ∧
          t ≤ (clipLoop eps p0 (p1.sub p0) st es).1.tmax) ↔
        (st.tmin ≤ t ∧ t ≤ st.tmax) ∧ ∀ e ∈ es, Admits eps p0 p1 e.2.1 e.2.2 t) ∧
      (clipLoop eps p0 (p1.sub p0) st es).1.tmin ≤ (clipLoop eps p0 (p1.sub p0) st es).1.tmax ∧
      (((clipLoop eps p0 (p1.sub p0) st es).1.tmin = st.tmin ∧
          (clipLoop eps p0 (p1.sub p0) st es).1.segMin = st.segMin) ∨
        ∃ e ∈ es, (clipLoop eps p0 (p1.sub p0) st es).1.segMin = some e.1 ∧
          st.tmin < (clipLoop eps p0 (p1.sub p0) st es).1.tmin ∧
          edgeVal p0 p1 e.2.1 e.2.2 (clipLoop eps p0 (p1.sub p0) st es).1.tmin = 0) ∧
      (((clipLoop eps p0 (p1.sub p0) st es).1.tmax = st.tmax ∧
          (clipLoop eps p0 (p1.sub p0) st es).1.segMax = st.segMax) ∨
        ∃ e ∈ es, (clipLoop eps p0 (p1.sub p0) st es).1.segMax = some e.1 ∧
          (clipLoop eps p0 (p1.sub p0) st es).1.tmax < st.tmax ∧
          edgeVal p0 p1 e.2.1 e.2.2 (clipLoop eps p0 (p1.sub p0) st es).1.tmax = 0)) ∧
    ((clipLoop eps p0 (p1.sub p0) st es).2 = false →
      ∀ t, st.tmin ≤ t → t ≤ st.tmax → ∃ e ∈ es, ¬ Admits eps p0 p1 e.2.1 e.2.2 t) := by
  induction es with
  | nil =>
    intro st hst
    simp [clipLoop, hst]
  | cons e es ih =>
    intro st hst
    obtain ⟨j, vj, vi⟩ := e
    have hc := clipEdge_spec eps he p0 p1 st j vj vi
    rw [clipLoop]
    cases hce : clipEdge eps p0 (p1.sub p0) st j vj vi with
    | inl s =>
      rw [hce] at hc
      simp only at hc ⊢
      refine ⟨fun h => by simp at h, fun _ t h1 h2 => ⟨_, List.mem_cons_self, hc t h1 h2⟩⟩
    | inr s =>
      rw [hce] at hc
      simp only at hc ⊢
      obtain ⟨hc1, hc2, hc3, hc4⟩ := hc
      obtain ⟨i1, i2⟩ := ih s (hc2 hst)
      clear ih hce
      generalize clipLoop eps p0 (p1.sub p0) s es = r at i1 i2 ⊢
      refine ⟨fun h => ?_, fun h t h1 h2 => ?_⟩
      · obtain ⟨a1, a2, a3, a4⟩ := i1 h
        have hle1 : st.tmin ≤ s.tmin := by
          rcases hc3 with ⟨e, _⟩ | ⟨_, e, _⟩
          · exact e.ge
          · exact e.le
        have hle2 : s.tmax ≤ st.tmax := by
          rcases hc4 with ⟨e, _⟩ | ⟨_, e, _⟩
          · exact e.le
          · exact e.le
        refine ⟨fun t => ?_, a2, ?_, ?_⟩
        · rw [a1 t, hc1 t]
          simp only [List.mem_cons, forall_eq_or_imp]
          exact and_assoc
        · rcases a3 with ⟨b1, b2⟩ | ⟨e, hem, b1, b2, b3⟩
          · rcases hc3 with ⟨d1, d2⟩ | ⟨d1, d2, d3⟩
            · exact .inl ⟨b1.trans d1, b2.trans d2⟩
            · exact .inr ⟨_, List.mem_cons_self, b2.trans d1, by rw [b1]; exact d2,
                by rw [b1]; exact d3⟩
          · exact .inr ⟨e, List.mem_cons_of_mem _ hem, b1, lt_of_le_of_lt hle1 b2, b3⟩
        · rcases a4 with ⟨b1, b2⟩ | ⟨e, hem, b1, b2, b3⟩
          · rcases hc4 with ⟨d1, d2⟩ | ⟨d1, d2, d3⟩
            · exact .inl ⟨b1.trans d1, b2.trans d2⟩
            · exact .inr ⟨_, List.mem_cons_self, b2.trans d1, by rw [b1]; exact d2,
                by rw [b1]; exact d3⟩
          · exact .inr ⟨e, List.mem_cons_of_mem _ hem, b1, lt_of_lt_of_le b2 hle2, b3⟩
      · by_cases hA : Admits eps p0 p1 vj vi t
        · obtain ⟨s1, s2⟩ := (hc1 t).2 ⟨⟨h1, h2⟩, hA⟩
          obtain ⟨e, hem, hne⟩ := i2 h t s1 s2
          exact ⟨e, List.mem_cons_of_mem _ hem, hne⟩
        · exact ⟨_, List.mem_cons_self, hA⟩

/-- **C87** A segment against a polygon whose edges are parallel to it or clearly not so: the
answer is whether some point of the segment is on the inner side of all edges; if so the parameters
returned delimit exactly those points, and the edge indices returned name the edges crossed there
(-1 standing for "the segment starts, ends inside"). -/
theorem segPoly_exact (eps : K) (he : 0 < eps) (p0 p1 : V3 K) (vs : List (V3 K))
    (hpar : ∀ j vj vi, PolyEdge vs j vj vi →
      |(p1.sub p0).perp (vi.sub vj)| < eps → (p1.sub p0).perp (vi.sub vj) = 0) :
    let r := segPoly eps p0 p1 vs
    let Inside := fun t : K => ∀ j vj vi, PolyEdge vs j vj vi → 0 ≤ edgeVal p0 p1 vj vi t
    (r.2 = true ↔ ∃ t, 0 ≤ t ∧ t ≤ 1 ∧ Inside t) ∧
    (r.2 = true → (∀ t, (r.1.tmin ≤ t ∧ t ≤ r.1.tmax) ↔ (0 ≤ t ∧ t ≤ 1 ∧ Inside t)) ∧
      ((r.1.segMin = none ∧ r.1.tmin = 0) ∨
        ∃ j vj vi, PolyEdge vs j vj vi ∧ r.1.segMin = some j ∧ 0 < r.1.tmin ∧
          edgeVal p0 p1 vj vi r.1.tmin = 0) ∧
      ((r.1.segMax = none ∧ r.1.tmax = 1) ∨
        ∃ j vj vi, PolyEdge vs j vj vi ∧ r.1.segMax = some j ∧ r.1.tmax < 1 ∧
          edgeVal p0 p1 vj vi r.1.tmax = 0)) := by
  intro r Inside
  have hI : ∀ t, Inside t ↔ ∀ e ∈ polyEdges vs, Admits eps p0 p1 e.2.1 e.2.2 t := by
    intro t
    constructor
    · rintro h ⟨j, vj, vi⟩ hm
      have hm' := (mem_polyEdges vs j vj vi).1 hm
      unfold Admits
      split
      · rename_i hlt
        have := h j vj vi hm'
        rw [edgeVal_eq, hpar j vj vi hm' hlt] at this
        rw [edgeVal_eq, hpar j vj vi hm' hlt]
        simpa using this
      · exact h j vj vi hm'
    · intro h j vj vi hm
      have := h _ ((mem_polyEdges vs j vj vi).2 hm)
      unfold Admits at this
      split at this
      · rename_i hlt
        simp only at hlt this
        rw [edgeVal_eq, hpar j vj vi hm hlt] at this
        rw [edgeVal_eq, hpar j vj vi hm hlt]
        simpa using this
      · exact this
  obtain ⟨c1, c2⟩ := clipLoop_spec eps he p0 p1 (polyEdges vs) ⟨0, 1, none, none⟩ zero_le_one
  have hr : r = clipLoop eps p0 (p1.sub p0) ⟨0, 1, none, none⟩ (polyEdges vs) := rfl
  rw [← hr] at c1 c2
  simp only at c1 c2
  refine ⟨⟨fun h => ?_, fun h => ?_⟩, fun h => ?_⟩
  · obtain ⟨a1, a2, _⟩ := c1 h
    obtain ⟨⟨b1, b2⟩, b3⟩ := (a1 r.1.tmin).1 ⟨le_rfl, a2⟩
    exact ⟨_, b1, b2, (hI _).2 b3⟩
  · obtain ⟨t, h1, h2, h3⟩ := h
    by_contra hf
    obtain ⟨e, hem, hne⟩ := c2 (by simpa using hf) t h1 h2
    exact hne ((hI t).1 h3 e hem)
  · obtain ⟨a1, a2, a3, a4⟩ := c1 h
    refine ⟨fun t => by rw [a1 t, hI t, and_assoc], ?_, ?_⟩
    · rcases a3 with ⟨b1, b2⟩ | ⟨⟨j, vj, vi⟩, hem, b1, b2, b3⟩
      · exact .inl ⟨b2, b1⟩
      · exact .inr ⟨j, vj, vi, (mem_polyEdges vs j vj vi).1 hem, b1, b2, b3⟩
    · rcases a4 with ⟨b1, b2⟩ | ⟨⟨j, vj, vi⟩, hem, b1, b2, b3⟩
      · exact .inl ⟨b2, b1⟩
      · exact .inr ⟨j, vj, vi, (mem_polyEdges vs j vj vi).1 hem, b1, b2, b3⟩

/-- A segment through the unit square from left to right enters over edge 0, leaves over edge 2. -/
example : segPoly (K := ℚ) (1 / 100000000) ⟨-1, 0, 1 / 2⟩ ⟨3, 0, 1 / 2⟩
      [⟨0, 0, 0⟩, ⟨0, 0, 1⟩, ⟨1, 0, 1⟩, ⟨1, 0, 0⟩] =
    (⟨1 / 4, 1 / 2, some 0, some 2⟩, true) := by
  norm_num [segPoly, polyEdges, edgesFrom, clipLoop, clipEdge, V3.perp, V3.sub]

end
end Verif.Detour
