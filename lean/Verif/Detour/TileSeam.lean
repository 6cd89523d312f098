/-
How the portal edges of neighbouring tiles find each other: `slabCoord`, `calcSlabEndPoints`, `overlapSlabs`
(detour/mesh.go:1421-1492), `findConnectingPolys` (1323-1388), the limits stored by `connectExtLinks` (1299-1316) and the
portal they stand for (detour/query.go:866-877), in exact arithmetic.

Simplifications: `float32` is replaced by an arbitrary linearly ordered field with integer parts. Vertices are given with
the edges. For sides other than 0, 2, 4, 6 (which CreateNavMeshData does not make) the arrays keep their zeros, and nothing overlaps.
-/
import Verif.Detour.NearestPoly
import Verif.Detour.LinkComplete
import Verif.Detour.PortalPoints

set_option linter.unusedVariables false
set_option linter.unusedSimpArgs false
set_option linter.unusedSectionVars false

namespace Verif.Detour
open Verif

variable {K : Type} [Field K] [LinearOrder K] [IsStrictOrderedRing K]

/-! ## Model -/

/-- `slabCoord` (detour/mesh.go:1449-1456). -/
def slabCoord (side : Nat) (v : V3 K) : K :=
  if side = 0 ∨ side = 4 then v.x else if side = 2 ∨ side = 6 then v.z else 0

/-- `calcSlabEndPoints` (detour/mesh.go:1421-1447) into zeroed arrays: `bmin` and `bmax`. -/
def slabEnds (side : Nat) (a b : V3 K) : (K × K) × (K × K) :=
  if side = 0 ∨ side = 4 then
    if a.z < b.z then ((a.z, a.y), (b.z, b.y)) else ((b.z, b.y), (a.z, a.y))
  else if side = 2 ∨ side = 6 then
    if a.x < b.x then ((a.x, a.y), (b.x, b.y)) else ((b.x, b.y), (a.x, a.y))
  else ((0, 0), (0, 0))

/-- `overlapSlabs` (detour/mesh.go:1458-1492). -/
def overlapSlabs (amin amax bmin bmax : K × K) (px py : K) : Bool :=
  let minx := max (amin.1 + px) (bmin.1 + px)
  let maxx := min (amax.1 - px) (bmax.1 - px)
  if maxx < minx then false
  else
    let ad := (amax.2 - amin.2) / (amax.1 - amin.1)
    let ak := amin.2 - ad * amin.1
    let bd := (bmax.2 - bmin.2) / (bmax.1 - bmin.1)
    let bk := bmin.2 - bd * bmin.1
    let dmin := (bd * minx + bk) - (ad * minx + ak)
    let dmax := (bd * maxx + bk) - (ad * maxx + ak)
    if dmin * dmax < 0 then true
    else
      let thr := (py * 2) * (py * 2)
      decide (dmin * dmin ≤ thr ∨ dmax * dmax ≤ thr)

/-- The tests on one edge (`c`, `d`) of the other tile (detour/mesh.go:1363-1374), and `conarea` (1378-1379). -/
def seamArea (side : Nat) (climb : K) (a b c d : V3 K) : Option (K × K) :=
  if 1 / 100 < |slabCoord side a - slabCoord side c| then none
  else
    let s := slabEnds side a b
    let t := slabEnds side c d
    if overlapSlabs s.1 s.2 t.1 t.2 (1 / 100) climb then some (max s.1.1 t.1.1, min s.2.1 t.2.1) else none

/-- An edge of a polygon with its `Neis` entry. -/
structure SeamEdge (K : Type) where
  nei : U16
  a : V3 K
  b : V3 K
  deriving DecidableEq

/-- One polygon of the other tile (detour/mesh.go:1349-1385): its first edge that faces `side` and overlaps. -/
def seamPoly (side : Nat) (climb : K) (a b : V3 K) (es : List (SeamEdge K)) : Option (K × K) :=
  es.findSome? fun e => if e.nei = 0x8000#16 ||| BitVec.ofNat 16 side then seamArea side climb a b e.a e.b else none

/-- `uint8(f32.Clamp(t, 0.0, 1.0) * 255.0)` (detour/mesh.go:1305-1306). -/
def limitByte [FloorRing K] (t : K) : Byte := BitVec.ofNat 8 ⌊clampK t 0 1 * 255⌋₊

/-- The coordinate along the border. -/
def alongSide (dir : Nat) (v : V3 K) : K := if dir = 0 ∨ dir = 4 then v.z else v.x

/-- `link.BMin` and `link.BMax` for the sides 0, 2, 4, 6 (detour/mesh.go:1299-1316). -/
def linkLimits [FloorRing K] (dir : Nat) (a b : V3 K) (area : K × K) : Byte × Byte :=
  let t0 := (area.1 - alongSide dir a) / (alongSide dir b - alongSide dir a)
  let t1 := (area.2 - alongSide dir a) / (alongSide dir b - alongSide dir a)
  if t1 < t0 then (limitByte t1, limitByte t0) else (limitByte t0, limitByte t1)

/-- The portal of a border link (detour/query.go:861-877). -/
def borderPortal (a b : V3 K) (lim : Byte × Byte) : V3 K × V3 K :=
  if lim.1 ≠ 0#8 ∨ lim.2 ≠ 255#8 then (lerp3 a b (lim.1.toNat * (1 / 255)), lerp3 a b (lim.2.toNat * (1 / 255))) else (a, b)

/-- A point from three words. -/
def pointOf (val : U32 → K) : List U32 → Option (V3 K)
  | [x, y, z] => some ⟨val x, val y, val z⟩
  | _ => none

/-- Edge `j` of a polygon of a tile: `va`, `vb` (detour/mesh.go:1280-1281, 1359-1362) with `poly.Neis[j]`; `none` is an index out of
range. -/
def seamEdge (val : U32 → K) (t : Tile) (P : Poly) (j : Nat) : Option (SeamEdge K) :=
  P.neis[j]?.bind fun ne => P.verts[j]?.bind fun v => P.verts[(j + 1) % P.vertCount.toNat]?.bind fun w =>
    (vertAt t.body.verts v).bind fun a => (vertAt t.body.verts w).bind fun b =>
      (pointOf val a).bind fun a => (pointOf val b).map fun b => ⟨ne, a, b⟩

/-- The edges of a polygon (detour/mesh.go:1350-1362). -/
def seamEdges (val : U32 → K) (t : Tile) (P : Poly) : List (SeamEdge K) :=
  (List.range P.vertCount.toNat).filterMap (seamEdge val t P)

/-- The geometric decision of `findConnectingPolys` for polygon `k` of tile `b` (detour/mesh.go:1349-1385), and the limits of the
link (1299-1316). -/
def seamTouch [FloorRing K] (val : U32 → K) (s : LMesh) (a i j b k : Nat) : Option (Byte × Byte) :=
  (s.mesh.tile a).bind fun ta => (s.mesh.tile b).bind fun tb => ta.body.polys[i]?.bind fun P => tb.body.polys[k]?.bind fun Q =>
    (seamEdge val ta P j).bind fun e =>
      (seamPoly ((e.nei.toNat % 256 + 4) % 8) (val tb.header.walkableClimb) e.a e.b (seamEdges val tb Q)).map
        (linkLimits (e.nei.toNat % 256) e.a e.b)

/-- The geometry of the mesh with these seams. -/
def seamGeo [FloorRing K] (val : U32 → K) (land : LMesh → Nat → Nat → Nat → Bool → Option Nat) : Geo := ⟨seamTouch val, land⟩

/-! ## Specification -/

/-- `p` is a point of the segment. -/
def OnEdge (a b p : V3 K) : Prop := ∃ s, 0 ≤ s ∧ s ≤ 1 ∧ p = lerp3 a b s

/-- `p` is a point of the segment, at least `r` from its ends along the border. -/
def WellOn (side : Nat) (r : K) (a b p : V3 K) : Prop :=
  OnEdge a b p ∧ r ≤ |alongSide side p - alongSide side a| ∧ r ≤ |alongSide side p - alongSide side b|

/-- One can step from one edge to the other: at some place along the border, not at the ends of the edges, their heights differ by
at most `h`. -/
def Passage (side : Nat) (r h : K) (a b c d : V3 K) : Prop :=
  ∃ p q, WellOn side r a b p ∧ WellOn side r c d q ∧ alongSide side p = alongSide side q ∧ |q.y - p.y| ≤ h

/-- The sides on which tiles have portals. -/
def MainSide (side : Nat) : Prop := side = 0 ∨ side = 2 ∨ side = 4 ∨ side = 6

/-! ## Overlap of slabs -/

/-- A linear function on an interval is small somewhere exactly if it changes its sign or is small at an end. -/
theorem linear_small {m n p q h : K} (hmn : m ≤ n) (hh : 0 ≤ h) :
    (∃ x, m ≤ x ∧ x ≤ n ∧ |p * x + q| ≤ h) ↔
      ((p * m + q) * (p * n + q) < 0 ∨ (p * m + q) * (p * m + q) ≤ h * h ∨ (p * n + q) * (p * n + q) ≤ h * h) := by
  have small : ∀ u : K, u * u ≤ h * h → |u| ≤ h := fun u hu => abs_le.2 ⟨by nlinarith, by nlinarith⟩
  constructor
  · rintro ⟨x, h1, h2, h3⟩
    by_contra hc
    push Not at hc
    obtain ⟨c1, c2, c3⟩ := hc
    rw [abs_le] at h3
    obtain ⟨h3, h4⟩ := h3
    have hb : (p * m + q ≤ p * x + q ∧ p * x + q ≤ p * n + q) ∨ (p * n + q ≤ p * x + q ∧ p * x + q ≤ p * m + q) := by
      rcases le_total 0 p with hp | hp
      · left
        constructor
        · have := mul_le_mul_of_nonneg_left h1 hp; linarith
        · have := mul_le_mul_of_nonneg_left h2 hp; linarith
      · right
        constructor
        · have := mul_le_mul_of_nonpos_left h2 hp; linarith
        · have := mul_le_mul_of_nonpos_left h1 hp; linarith
    generalize p * m + q = u at *
    generalize p * n + q = v at *
    generalize p * x + q = w at *
    have hu : h < u ∨ u < -h := by
      by_contra hk
      push Not at hk
      nlinarith [hk.1, hk.2]
    have hv : h < v ∨ v < -h := by
      by_contra hk
      push Not at hk
      nlinarith [hk.1, hk.2]
    rcases hu with hu | hu <;> rcases hv with hv | hv
    · rcases hb with ⟨b1, b2⟩ | ⟨b1, b2⟩ <;> linarith
    · nlinarith
    · nlinarith
    · rcases hb with ⟨b1, b2⟩ | ⟨b1, b2⟩ <;> linarith
  · rintro (hc | hc | hc)
    · have hp : p ≠ 0 := by
        rintro rfl
        simp only [zero_mul, zero_add] at hc
        nlinarith [mul_self_nonneg q]
      refine ⟨-q / p, ?_, ?_, ?_⟩
      · rcases lt_or_gt_of_ne hp with h0 | h0
        · rw [le_div_iff_of_neg h0]
          by_contra hk
          push Not at hk
          have h1 := mul_le_mul_of_nonpos_left hmn h0.le
          nlinarith
        · rw [le_div_iff₀ h0]
          by_contra hk
          push Not at hk
          have h1 := mul_le_mul_of_nonneg_left hmn h0.le
          nlinarith
      · rcases lt_or_gt_of_ne hp with h0 | h0
        · rw [div_le_iff_of_neg h0]
          by_contra hk
          push Not at hk
          have h1 := mul_le_mul_of_nonpos_left hmn h0.le
          nlinarith
        · rw [div_le_iff₀ h0]
          by_contra hk
          push Not at hk
          have h1 := mul_le_mul_of_nonneg_left hmn h0.le
          nlinarith
      · rw [mul_div_cancel₀ _ hp]
        simpa using hh
    · exact ⟨m, le_refl _, hmn, small _ hc⟩
    · exact ⟨n, hmn, le_refl _, small _ hc⟩

/-- The height of a slab at a place. -/
def slabY (lo hi : K × K) (x : K) : K := lo.2 + (hi.2 - lo.2) / (hi.1 - lo.1) * (x - lo.1)

theorem overlapSlabs_iff {amin amax bmin bmax : K × K} {px py : K} (hy : 0 ≤ py) :
    overlapSlabs amin amax bmin bmax px py = true ↔
      ∃ x, (amin.1 + px ≤ x ∧ x ≤ amax.1 - px) ∧ (bmin.1 + px ≤ x ∧ x ≤ bmax.1 - px) ∧
        |slabY bmin bmax x - slabY amin amax x| ≤ 2 * py := by
  unfold overlapSlabs
  dsimp only
  split
  · rename_i h
    simp only [Bool.false_eq_true, false_iff]
    rintro ⟨x, ⟨h1, h2⟩, ⟨h3, h4⟩, -⟩
    have := max_le h1 h3
    have := le_min h2 h4
    linarith
  · rename_i h
    rw [not_lt] at h
    have key := linear_small (p := (bmax.2 - bmin.2) / (bmax.1 - bmin.1) - (amax.2 - amin.2) / (amax.1 - amin.1))
      (q := (bmin.2 - (bmax.2 - bmin.2) / (bmax.1 - bmin.1) * bmin.1) - (amin.2 - (amax.2 - amin.2) / (amax.1 - amin.1) * amin.1))
      (h := py * 2) h (by linarith)
    unfold slabY
    generalize (bmax.2 - bmin.2) / (bmax.1 - bmin.1) = bd at *
    generalize (amax.2 - amin.2) / (amax.1 - amin.1) = ad at *
    have e : ∀ x, (bd * x + (bmin.2 - bd * bmin.1)) - (ad * x + (amin.2 - ad * amin.1)) =
        (bd - ad) * x + ((bmin.2 - bd * bmin.1) - (amin.2 - ad * amin.1)) := fun x => by ring
    have e' : ∀ x, bmin.2 + bd * (x - bmin.1) - (amin.2 + ad * (x - amin.1)) =
        (bd - ad) * x + ((bmin.2 - bd * bmin.1) - (amin.2 - ad * amin.1)) := fun x => by ring
    simp only [e, e']
    have hx : ∀ x, (max (amin.1 + px) (bmin.1 + px) ≤ x ∧ x ≤ min (amax.1 - px) (bmax.1 - px)) ↔
        ((amin.1 + px ≤ x ∧ x ≤ amax.1 - px) ∧ (bmin.1 + px ≤ x ∧ x ≤ bmax.1 - px)) := by
      intro x
      rw [max_le_iff, le_min_iff]
      tauto
    constructor
    · intro hh
      have : ∃ x, max (amin.1 + px) (bmin.1 + px) ≤ x ∧ x ≤ min (amax.1 - px) (bmax.1 - px) ∧
          |(bd - ad) * x + ((bmin.2 - bd * bmin.1) - (amin.2 - ad * amin.1))| ≤ py * 2 := by
        rw [key]
        split at hh
        · exact Or.inl (by assumption)
        · exact Or.inr (of_decide_eq_true hh)
      obtain ⟨x, h1, h2, h3⟩ := this
      obtain ⟨k1, k2⟩ := (hx x).1 ⟨h1, h2⟩
      exact ⟨x, k1, k2, by linarith⟩
    · rintro ⟨x, k1, k2, h3⟩
      obtain ⟨h1, h2⟩ := (hx x).2 ⟨k1, k2⟩
      have := key.1 ⟨x, h1, h2, by linarith⟩
      split
      · rfl
      · rename_i hn
        exact decide_eq_true (this.resolve_left hn)

/-! ## Edges of neighbouring tiles -/

/-- The ends of an edge in the order along the border: places with heights. -/
theorem slabEnds_eq {side : Nat} (hs : MainSide side) (a b : V3 K) : slabEnds side a b =
    if alongSide side a < alongSide side b then ((alongSide side a, a.y), (alongSide side b, b.y))
    else ((alongSide side b, b.y), (alongSide side a, a.y)) := by
  rcases hs with rfl | rfl | rfl | rfl <;> simp [slabEnds, alongSide]

theorem along_lerp {side : Nat} (a b : V3 K) (t : K) :
    alongSide side (lerp3 a b t) = alongSide side a + (alongSide side b - alongSide side a) * t := by
  unfold alongSide lerp3
  split <;> rfl

theorem wellOn_iff {side : Nat} (hs : MainSide side) {r : K} (hr : 0 < r) (a b : V3 K) (x y : K) :
    (∃ p, WellOn side r a b p ∧ alongSide side p = x ∧ p.y = y) ↔
      ((slabEnds side a b).1.1 + r ≤ x ∧ x ≤ (slabEnds side a b).2.1 - r) ∧
        y = slabY (slabEnds side a b).1 (slabEnds side a b).2 x := by
  rw [slabEnds_eq hs]
  constructor
  · rintro ⟨p, ⟨⟨t, h0, h1, rfl⟩, h2, h3⟩, rfl, rfl⟩
    rw [along_lerp] at h2 h3 ⊢
    have ey : (lerp3 a b t).y = a.y + (b.y - a.y) * t := rfl
    rw [ey]
    generalize alongSide side a = u at *
    generalize alongSide side b = v at *
    unfold slabY
    split
    · rename_i h
      dsimp only
      have hd : 0 < v - u := by linarith
      have k1 : 0 ≤ (v - u) * t := by positivity
      have k2 : (v - u) * t ≤ v - u := by nlinarith
      rw [abs_of_nonneg (by linarith)] at h2
      rw [abs_of_nonpos (by linarith)] at h3
      refine ⟨⟨by linarith, by linarith⟩, ?_⟩
      field_simp
      ring
    · rename_i h
      dsimp only
      rw [not_lt] at h
      have k1 : (v - u) * t ≤ 0 := mul_nonpos_of_nonpos_of_nonneg (by linarith) h0
      have k2 : v - u ≤ (v - u) * t := by nlinarith
      rw [abs_of_nonpos (by linarith)] at h2
      rw [abs_of_nonneg (by linarith)] at h3
      refine ⟨⟨by linarith, by linarith⟩, ?_⟩
      have hd : u - v ≠ 0 := by
        intro hd
        have : (v - u) * t = 0 := by rw [show v - u = 0 by linarith, zero_mul]
        linarith
      field_simp
      ring
  · rintro ⟨⟨h1, h2⟩, rfl⟩
    unfold slabY
    have hne : alongSide side b - alongSide side a ≠ 0 := by
      intro hd
      split at h1 <;> rename_i h
      · linarith
      · rw [if_neg h] at h2
        dsimp only at h1 h2
        linarith
    refine ⟨lerp3 a b ((x - alongSide side a) / (alongSide side b - alongSide side a)), ⟨⟨_, ?_, ?_, rfl⟩, ?_, ?_⟩, ?_, ?_⟩ <;>
      try simp only [along_lerp, mul_div_cancel₀ _ hne, add_sub_cancel]
    · split at h1 <;> rename_i h
      · exact div_nonneg (by linarith) (by linarith)
      · rw [if_neg h] at h2
        exact div_nonneg_of_nonpos (by dsimp only at h2; linarith) (by linarith)
    · split at h1 <;> rename_i h
      · rw [if_pos h] at h2
        dsimp only at h1 h2
        rw [div_le_one (by linarith)]
        linarith
      · rw [if_neg h] at h2
        dsimp only at h1 h2
        rw [div_le_one_of_neg (by linarith)]
        linarith
    · split at h1 <;> rename_i h
      · dsimp only at h1
        exact le_trans (by linarith) (le_abs_self _)
      · rw [if_neg h] at h2
        dsimp only at h1 h2
        exact le_trans (by linarith) (neg_le_abs _)
    · split at h1 <;> rename_i h
      · rw [if_pos h] at h2
        dsimp only at h1 h2
        exact le_trans (by linarith) (neg_le_abs _)
      · dsimp only at h1
        exact le_trans (by linarith) (le_abs_self _)
    · have ey : ∀ t, (lerp3 a b t).y = a.y + (b.y - a.y) * t := fun t => rfl
      rw [ey]
      split
      · dsimp only
        ring
      · dsimp only
        have hne' : alongSide side a - alongSide side b ≠ 0 := fun e => hne (by linarith)
        field_simp
        ring

/-- **C143** (partial): the edges are found to touch exactly if they are in line (within 1/100 across the border) and one can step from
one to the other, with heights that differ by at most twice `WalkableClimb` at a place at least 1/100 from their ends. Missing: the
code takes twice the climb. -/
theorem seam_partial {side : Nat} (hs : MainSide side) {climb : K} (hc : 0 ≤ climb) (a b c d : V3 K) :
    (seamArea side climb a b c d).isSome ↔
      |slabCoord side a - slabCoord side c| ≤ 1 / 100 ∧ Passage side (1 / 100) (2 * climb) a b c d := by
  have e : (seamArea side climb a b c d).isSome ↔ |slabCoord side a - slabCoord side c| ≤ 1 / 100 ∧
      overlapSlabs (slabEnds side a b).1 (slabEnds side a b).2 (slabEnds side c d).1 (slabEnds side c d).2 (1 / 100) climb = true := by
    unfold seamArea
    split
    · rename_i h
      exact ⟨fun h1 => by simp at h1, fun h1 => absurd h1.1 (not_le.2 h)⟩
    · rename_i h
      dsimp only
      split <;> rename_i h1
      · exact ⟨fun _ => ⟨not_lt.1 h, h1⟩, fun _ => rfl⟩
      · exact ⟨fun h2 => by simp at h2, fun h2 => absurd h2.2 h1⟩
  rw [e]
  refine and_congr_right fun _ => ?_
  rw [overlapSlabs_iff hc]
  constructor
  · rintro ⟨x, h1, h2, h3⟩
    obtain ⟨p, p1, p2, p3⟩ := (wellOn_iff hs (by norm_num) a b x _).2 ⟨h1, rfl⟩
    obtain ⟨q, q1, q2, q3⟩ := (wellOn_iff hs (by norm_num) c d x _).2 ⟨h2, rfl⟩
    exact ⟨p, q, p1, q1, by rw [p2, q2], by rw [p3, q3]; exact h3⟩
  · rintro ⟨p, q, p1, q1, h, h3⟩
    obtain ⟨k1, k2⟩ := (wellOn_iff hs (by norm_num) a b _ _).1 ⟨p, p1, rfl, rfl⟩
    obtain ⟨l1, l2⟩ := (wellOn_iff hs (by norm_num) c d _ _).1 ⟨q, q1, rfl, rfl⟩
    refine ⟨alongSide side p, k1, by rw [h]; exact l1, ?_⟩
    rw [← k2, h, ← l2]
    exact h3

example : (seamArea (K := ℚ) 0 (1 / 2) ⟨10, 0, 0⟩ ⟨10, 1, 4⟩ ⟨10, 3, 8⟩ ⟨10, 0, 2⟩).isSome := by decide +kernel

example : ¬ (seamArea (K := ℚ) 0 (1 / 2) ⟨10, 0, 0⟩ ⟨10, 1, 4⟩ ⟨10, 3, 8⟩ ⟨10, 0, 4⟩).isSome := by decide +kernel

/-- **C143** (refuted): edges whose heights differ by more than the climb all along are found to touch. -/
theorem seam_refuted : ∃ (side : Nat) (climb : ℚ) (a b c d : V3 ℚ), MainSide side ∧ 0 ≤ climb ∧
    (seamArea side climb a b c d).isSome ∧ ¬ Passage side 0 climb a b c d := by
  refine ⟨0, 1, ⟨10, 0, 0⟩, ⟨10, 0, 4⟩, ⟨10, 2, 4⟩, ⟨10, 2, 0⟩, .inl rfl, by decide, by decide +kernel, ?_⟩
  rintro ⟨p, q, ⟨⟨s, _, _, rfl⟩, _⟩, ⟨⟨t, _, _, rfl⟩, _⟩, _, h⟩
  norm_num [lerp3] at h

/-- The area handed over is the shared stretch: the places along the border that both edges reach. It has a length. -/
theorem seamArea_stretch {side : Nat} (hs : MainSide side) {climb : K} {a b c d : V3 K} {area : K × K}
    (h : seamArea side climb a b c d = some area) :
    area.1 < area.2 ∧ ∀ x, (area.1 ≤ x ∧ x ≤ area.2) ↔
      ((∃ p, OnEdge a b p ∧ alongSide side p = x) ∧ ∃ q, OnEdge c d q ∧ alongSide side q = x) := by
  have seg : ∀ (a b : V3 K) (x : K), (∃ p, OnEdge a b p ∧ alongSide side p = x) ↔
      (slabEnds side a b).1.1 ≤ x ∧ x ≤ (slabEnds side a b).2.1 := by
    intro a b x
    rw [slabEnds_eq hs]
    constructor
    · rintro ⟨p, ⟨t, h0, h1, rfl⟩, rfl⟩
      rw [along_lerp]
      split <;> dsimp only <;> constructor <;> nlinarith
    · intro hx
      by_cases he : alongSide side a = alongSide side b
      · rw [if_neg (by rw [he]; exact lt_irrefl _)] at hx
        refine ⟨a, ⟨0, le_refl _, zero_le_one, by simp [lerp3]⟩, ?_⟩
        dsimp only at hx
        exact le_antisymm (by rw [he]; exact hx.1) hx.2
      · have hne : alongSide side b - alongSide side a ≠ 0 := fun e => he (by linarith)
        refine ⟨lerp3 a b ((x - alongSide side a) / (alongSide side b - alongSide side a)), ⟨_, ?_, ?_, rfl⟩, ?_⟩
        · split at hx <;> dsimp only at hx <;> rename_i hlt
          · exact div_nonneg (by linarith) (by linarith)
          · exact div_nonneg_of_nonpos (by linarith) (by linarith)
        · split at hx <;> dsimp only at hx <;> rename_i hlt
          · rw [div_le_one (by linarith)]
            linarith
          · rw [div_le_one_of_neg (lt_of_le_of_ne (by linarith) hne)]
            linarith
        · rw [along_lerp, mul_div_cancel₀ _ hne]
          ring
  unfold seamArea at h
  split at h
  · cases h
  · dsimp only at h
    split at h
    · rename_i ho
      cases h
      dsimp only
      refine ⟨?_, fun x => ?_⟩
      · unfold overlapSlabs at ho
        dsimp only at ho
        split at ho
        · cases ho
        · rename_i hlt
          rw [not_lt, max_le_iff, le_min_iff, le_min_iff] at hlt
          rw [max_lt_iff, lt_min_iff, lt_min_iff]
          refine ⟨⟨?_, ?_⟩, ?_, ?_⟩ <;> linarith [hlt.1.1, hlt.1.2, hlt.2.1, hlt.2.2]
      · rw [seg, seg, max_le_iff, le_min_iff]
        tauto
    · cases h

/-- The decision and the shared stretch are the same seen from the other tile (if the tiles have the same climb). -/
theorem seamArea_comm {side : Nat} (hs : MainSide side) {climb : K} (hc : 0 ≤ climb) (a b c d : V3 K) :
    seamArea ((side + 4) % 8) climb c d a b = seamArea side climb a b c d := by
  have e1 : ∀ v : V3 K, slabCoord ((side + 4) % 8) v = slabCoord side v := by
    intro v
    rcases hs with rfl | rfl | rfl | rfl <;> rfl
  have e2 : ∀ a b : V3 K, slabEnds ((side + 4) % 8) a b = slabEnds side a b := by
    intro a b
    rcases hs with rfl | rfl | rfl | rfl <;> rfl
  unfold seamArea
  rw [e1, e1, e2, e2, abs_sub_comm]
  split
  · rfl
  · dsimp only
    have : overlapSlabs (slabEnds side c d).1 (slabEnds side c d).2 (slabEnds side a b).1 (slabEnds side a b).2 (1 / 100) climb =
        overlapSlabs (slabEnds side a b).1 (slabEnds side a b).2 (slabEnds side c d).1 (slabEnds side c d).2 (1 / 100) climb := by
      rw [Bool.eq_iff_iff, overlapSlabs_iff hc, overlapSlabs_iff hc]
      refine exists_congr fun x => ?_
      rw [abs_sub_comm]
      tauto
    rw [this, max_comm, min_comm]

/-! ## Limits -/

/-- Spec: the stretch of the edge from `a` to `b` between two places along the border, as fractions of the edge in order. -/
def Fractions (side : Nat) (a b : V3 K) (lo hi s t : K) : Prop :=
  s ≤ t ∧ ((alongSide side (lerp3 a b s) = lo ∧ alongSide side (lerp3 a b t) = hi) ∨
    (alongSide side (lerp3 a b s) = hi ∧ alongSide side (lerp3 a b t) = lo))

theorem limitByte_spec [FloorRing K] {t : K} (h0 : 0 ≤ t) (h1 : t ≤ 1) :
    ((limitByte t).toNat : K) ≤ t * 255 ∧ t * 255 < (limitByte t).toNat + 1 := by
  have hc : clampK t 0 1 = t := by
    unfold clampK
    grind
  have hp : 0 ≤ t * 255 := by positivity
  have hle : ⌊t * 255⌋₊ ≤ 255 := by
    have : (⌊t * 255⌋₊ : K) ≤ 255 := le_trans (Nat.floor_le hp) (by linarith)
    exact_mod_cast this
  unfold limitByte
  rw [hc, BitVec.toNat_ofNat, Nat.mod_eq_of_lt (by omega)]
  exact ⟨Nat.floor_le hp, Nat.lt_floor_add_one _⟩

/-- **C144** (partial): take the shared stretch of two edges, from the fraction `s` to the fraction `t` of the first edge. The limits
of the link are in order and at most 1/255 of the edge before `s` and `t`; they are exact where the stretch ends with the
edge. Missing: the rounding always goes towards the start of the edge. -/
theorem limits_partial [FloorRing K] {dir : Nat} {a b : V3 K} {lo hi s t : K} (hf : Fractions dir a b lo hi s t)
    (hlt : lo < hi) (h0 : 0 ≤ s) (h1 : t ≤ 1) :
    let l := linkLimits dir a b (lo, hi)
    l.1.toNat ≤ l.2.toNat ∧
    (s - 1 / 255 < (l.1.toNat : K) / 255 ∧ (l.1.toNat : K) / 255 ≤ s) ∧ (t - 1 / 255 < (l.2.toNat : K) / 255 ∧ (l.2.toNat : K) / 255 ≤ t) ∧
    (s = 0 → l.1.toNat = 0) ∧ (t = 1 → l.2.toNat = 255) := by
  have hst := hf.1
  have key : linkLimits dir a b (lo, hi) = (limitByte s, limitByte t) := by
    have hne : alongSide dir b - alongSide dir a ≠ 0 := by
      intro e
      rcases hf.2 with ⟨k1, k2⟩ | ⟨k1, k2⟩ <;> rw [along_lerp, e] at k1 k2 <;> linarith
    have hq : ∀ u x, alongSide dir (lerp3 a b u) = x → (x - alongSide dir a) / (alongSide dir b - alongSide dir a) = u := by
      intro u x e
      rw [along_lerp] at e
      rw [← e]
      field_simp
      ring
    unfold linkLimits
    dsimp only
    rcases hf.2 with ⟨k1, k2⟩ | ⟨k1, k2⟩
    · rw [hq _ _ k1, hq _ _ k2, if_neg (not_lt.2 hst)]
    · rw [hq _ _ k1, hq _ _ k2]
      by_cases e : s < t
      · rw [if_pos e]
      · rw [if_neg e, show s = t from le_antisymm hst (not_lt.1 e)]
  dsimp only
  rw [key]
  dsimp only
  have e1 := limitByte_spec h0 (le_trans hst h1)
  have e2 := limitByte_spec (le_trans h0 hst) h1
  refine ⟨?_, ⟨?_, ?_⟩, ⟨?_, ?_⟩, ?_, ?_⟩
  · have : ((limitByte s).toNat : K) < ((limitByte t).toNat : K) + 1 := by linarith
    have : (limitByte s).toNat < (limitByte t).toNat + 1 := by exact_mod_cast this
    omega
  · rw [lt_div_iff₀ (by norm_num)]; linarith
  · rw [div_le_iff₀ (by norm_num)]; linarith
  · rw [lt_div_iff₀ (by norm_num)]; linarith
  · rw [div_le_iff₀ (by norm_num)]; linarith
  · rintro rfl
    rw [zero_mul] at e1
    have : (((limitByte (0 : K)).toNat : K)) ≤ ((0 : Nat) : K) := by simpa using e1.1
    have := Nat.cast_le.1 this
    omega
  · rintro rfl
    have h := (limitByte (1 : K)).isLt
    have : ((255 : Nat) : K) < ((limitByte (1 : K)).toNat + 1 : Nat) := by push_cast; linarith [e2.2]
    have := Nat.cast_lt.1 this
    omega

/-- Spec: the fractions of the edge from `a` to `b` at places that the edge from `c` to `d` reaches are those from `s` to `t`. -/
def Shared (side : Nat) (a b c d : V3 K) (s t : K) : Prop :=
  0 ≤ s ∧ s < t ∧ t ≤ 1 ∧
    ∀ u, 0 ≤ u → u ≤ 1 → ((s ≤ u ∧ u ≤ t) ↔ ∃ q, OnEdge c d q ∧ alongSide side q = alongSide side (lerp3 a b u))

theorem shared_fractions {side : Nat} (hs : MainSide side) {climb : K} {a b c d : V3 K} {area : K × K}
    (h : seamArea side climb a b c d = some area) :
    ∃ s t, Shared side a b c d s t ∧ Fractions side a b area.1 area.2 s t := by
  obtain ⟨hlt, hst⟩ := seamArea_stretch hs h
  obtain ⟨⟨p, ⟨s, s0, s1, rfl⟩, ep⟩, -⟩ := (hst area.1).1 ⟨le_refl _, hlt.le⟩
  obtain ⟨⟨q, ⟨t, t0, t1, rfl⟩, eq⟩, -⟩ := (hst area.2).1 ⟨hlt.le, le_refl _⟩
  have both : ∀ u, 0 ≤ u → u ≤ 1 → ((area.1 ≤ alongSide side (lerp3 a b u) ∧ alongSide side (lerp3 a b u) ≤ area.2) ↔
      ∃ q, OnEdge c d q ∧ alongSide side q = alongSide side (lerp3 a b u)) := fun u h0 h1 =>
    (hst _).trans ⟨fun k => k.2, fun k => ⟨⟨_, ⟨u, h0, h1, rfl⟩, rfl⟩, k⟩⟩
  have es : ∀ u, alongSide side (lerp3 a b u) = alongSide side a + (alongSide side b - alongSide side a) * u :=
    fun u => along_lerp a b u
  have hprod : 0 < (alongSide side b - alongSide side a) * (t - s) := by
    have := es s
    have := es t
    nlinarith
  rcases lt_trichotomy s t with hc | hc | hc
  · have hd : 0 < alongSide side b - alongSide side a := by
      by_contra hk
      push Not at hk
      nlinarith
    refine ⟨s, t, ⟨s0, hc, t1, fun u h0 h1 => ?_⟩, hc.le, .inl ⟨ep, eq⟩⟩
    rw [← both u h0 h1, ← ep, ← eq, es, es, es]
    constructor
    · rintro ⟨k1, k2⟩
      constructor <;> nlinarith
    · rintro ⟨k1, k2⟩
      constructor <;> by_contra hk <;> push Not at hk <;> nlinarith
  · rw [hc, sub_self, mul_zero] at hprod
    exact absurd hprod (lt_irrefl _)
  · have hd : alongSide side b - alongSide side a < 0 := by
      by_contra hk
      push Not at hk
      nlinarith
    refine ⟨t, s, ⟨t0, hc, s1, fun u h0 h1 => ?_⟩, hc.le, .inr ⟨eq, ep⟩⟩
    rw [← both u h0 h1, ← ep, ← eq, es, es, es]
    constructor
    · rintro ⟨k1, k2⟩
      constructor <;> nlinarith
    · rintro ⟨k1, k2⟩
      constructor <;> by_contra hk <;> push Not at hk <;> nlinarith

/-- **C144** (partial): let the edges touch. The fractions `s` to `t` of the first edge are at places the second edge reaches; the portal
of the link runs along the first edge, from a point less than 1/255 of the edge before `s` to a point less than 1/255 before `t`, and is exact
where the stretch ends with the edge. Missing: the rounding always goes towards the start of the edge. -/
theorem portal_partial [FloorRing K] {dir : Nat} (hs : MainSide dir) {climb : K} {a b c d : V3 K} {area : K × K}
    (h : seamArea ((dir + 4) % 8) climb a b c d = some area) :
    ∃ s t u v, Shared dir a b c d s t ∧ borderPortal a b (linkLimits dir a b area) = (lerp3 a b u, lerp3 a b v) ∧
      0 ≤ u ∧ u ≤ v ∧ v ≤ 1 ∧ (s - 1 / 255 < u ∧ u ≤ s) ∧ (t - 1 / 255 < v ∧ v ≤ t) ∧ (s = 0 → u = 0) ∧ (t = 1 → v = 1) := by
  have hs' : MainSide ((dir + 4) % 8) := by
    rcases hs with rfl | rfl | rfl | rfl
    · exact .inr (.inr (.inl rfl))
    · exact .inr (.inr (.inr rfl))
    · exact .inl rfl
    · exact .inr (.inl rfl)
  have ea : ∀ v : V3 K, alongSide ((dir + 4) % 8) v = alongSide dir v := by
    intro v
    rcases hs with rfl | rfl | rfl | rfl <;> rfl
  obtain ⟨s, t, hsh, hfr⟩ := shared_fractions hs' h
  obtain ⟨hlt, -⟩ := seamArea_stretch hs' h
  unfold Shared Fractions at *
  simp only [ea] at hsh hfr
  obtain ⟨h1, ⟨h2, h3⟩, ⟨h4, h5⟩, h6, h7⟩ := limits_partial (dir := dir) (a := a) (b := b) hfr hlt hsh.1 hsh.2.2.1
  rw [show (area.1, area.2) = area from rfl] at *
  refine ⟨s, t, ((linkLimits dir a b area).1.toNat : K) / 255, ((linkLimits dir a b area).2.toNat : K) / 255, hsh, ?_, by positivity, ?_,
    le_trans h5 hsh.2.2.1, ⟨h2, h3⟩, ⟨h4, h5⟩, ?_, ?_⟩
  · unfold borderPortal
    split
    · rw [mul_one_div, mul_one_div]
    · rename_i hn
      push Not at hn
      rw [hn.1, hn.2]
      norm_num [lerp3]
  · have : ((linkLimits dir a b area).1.toNat : K) ≤ ((linkLimits dir a b area).2.toNat : K) := by exact_mod_cast h1
    rw [div_le_div_iff_of_pos_right (by norm_num)]
    exact this
  · intro e
    rw [h6 e]
    simp
  · intro e
    rw [h7 e]
    norm_num

example : seamArea (K := ℚ) 4 1 ⟨10, 0, 0⟩ ⟨10, 0, 10⟩ ⟨10, 0, 5⟩ ⟨10, 0, -5⟩ = some (0, 5) ∧
    borderPortal (K := ℚ) ⟨10, 0, 0⟩ ⟨10, 0, 10⟩ (linkLimits (K := ℚ) 0 ⟨10, 0, 0⟩ ⟨10, 0, 10⟩ (0, 5)) =
      (⟨10, 0, 0⟩, ⟨10, 0, 254 / 51⟩) := by decide +kernel

/-- **C144** (refuted): edges that touch, and a portal that has no point at a place the second edge reaches. -/
theorem portal_refuted : ∃ (dir : Nat) (a b c d : V3 ℚ) (area : ℚ × ℚ), MainSide dir ∧
    seamArea ((dir + 4) % 8) 1 a b c d = some area ∧
    ∀ q, OnEdge c d q → ∀ p, OnEdge (borderPortal a b (linkLimits dir a b area)).1 (borderPortal a b (linkLimits dir a b area)).2 p →
      alongSide dir p ≠ alongSide dir q := by
  refine ⟨0, ⟨10, 0, 0⟩, ⟨10, 0, 1000⟩, ⟨10, 0, 11⟩, ⟨10, 0, 21 / 2⟩, (21 / 2, 11), .inl rfl, by decide +kernel, ?_⟩
  have e : borderPortal (K := ℚ) ⟨10, 0, 0⟩ ⟨10, 0, 1000⟩ (linkLimits (K := ℚ) 0 ⟨10, 0, 0⟩ ⟨10, 0, 1000⟩ (21 / 2, 11)) =
      (⟨10, 0, 2000 / 255⟩, ⟨10, 0, 2000 / 255⟩) := by decide +kernel
  rw [e]
  rintro q ⟨s, s0, s1, rfl⟩ p ⟨t, t0, t1, rfl⟩ h
  simp only [alongSide, lerp3, true_or, if_true, sub_self, zero_mul, add_zero] at h
  linarith

/-! ## Links -/

/-- Spec: corner `i` of a polygon of a tile. -/
def CornerAt (val : U32 → K) (t : Tile) (P : Poly) (i : Nat) (p : V3 K) : Prop :=
  ∃ v c, P.verts[i]? = some v ∧ vertAt t.body.verts v = some c ∧ pointOf val c = some p

/-- Spec: `e` is edge `j` of the polygon: it runs from corner `j` to the next one, from the last back to the first. -/
structure EdgeNo (val : U32 → K) (t : Tile) (P : Poly) (j : Nat) (e : SeamEdge K) : Prop where
  lt : j < P.vertCount.toNat
  nei : P.neis[j]? = some e.nei
  first : CornerAt val t P j e.a
  next : j + 1 < P.vertCount.toNat → CornerAt val t P (j + 1) e.b
  last : j + 1 = P.vertCount.toNat → CornerAt val t P 0 e.b

theorem seamEdge_iff (val : U32 → K) (t : Tile) (P : Poly) (j : Nat) (e : SeamEdge K) :
    (j < P.vertCount.toNat ∧ seamEdge val t P j = some e) ↔ EdgeNo val t P j e := by
  constructor
  · rintro ⟨hj, he⟩
    unfold seamEdge at he
    obtain ⟨ne, h1, he⟩ := Option.bind_eq_some_iff.1 he
    obtain ⟨v, h2, he⟩ := Option.bind_eq_some_iff.1 he
    obtain ⟨w, h3, he⟩ := Option.bind_eq_some_iff.1 he
    obtain ⟨a, h4, he⟩ := Option.bind_eq_some_iff.1 he
    obtain ⟨b, h5, he⟩ := Option.bind_eq_some_iff.1 he
    obtain ⟨a', h6, he⟩ := Option.bind_eq_some_iff.1 he
    obtain ⟨b', h7, rfl⟩ := Option.map_eq_some_iff.1 he
    refine ⟨hj, h1, ⟨v, a, h2, h4, h6⟩, fun h => ⟨w, b, ?_, h5, h7⟩, fun h => ⟨w, b, ?_, h5, h7⟩⟩
    · rwa [Nat.mod_eq_of_lt h] at h3
    · rwa [h, Nat.mod_self] at h3
  · rintro ⟨hj, h1, ⟨v, a, h2, h4, h6⟩, h7, h8⟩
    refine ⟨hj, ?_⟩
    have key : ∃ w b, P.verts[(j + 1) % P.vertCount.toNat]? = some w ∧ vertAt t.body.verts w = some b ∧ pointOf val b = some e.b := by
      by_cases h : j + 1 < P.vertCount.toNat
      · rw [Nat.mod_eq_of_lt h]
        exact h7 h
      · have h : j + 1 = P.vertCount.toNat := by omega
        rw [h, Nat.mod_self]
        exact h8 h
    obtain ⟨w, b, k1, k2, k3⟩ := key
    unfold seamEdge
    simp only [h1, h2, k1, h4, k2, h6, k3, Option.bind_some, Option.map_some]

/-- **C143** (partial, links): after `AddTile`, take the new tile and another tile in its cell or on a side, in either order, a portal
edge of the first facing the second, and an edge of polygon `k` of the second facing back, in line with it, with a passage of at
most twice the climb. Then the polygon of the first edge has a link to `k` that carries the number and side of the edge and the limits of the
stretch shared with an edge of `k`, or the link table is full, or four polygons before `k` touch the edge. -/
theorem seam_links_partial [FloorRing K] {s s' : LMesh} (h : LReach s) (val : U32 → K)
    {land : LMesh → Nat → Nat → Nat → Bool → Option Nat} (hland : ∀ s s' : LMesh, s.mesh = s'.mesh → land s = land s')
    {d : Bytes} {r ref : U32} (hop : GoodOp s.mesh.bits (.add (seamGeo val land) d r))
    (ha : s.addTile (seamGeo val land) d r = .ok (Status.success, ref, s')) {a b : Nat} {ta tb : Tile}
    (hta : s'.mesh.tile a = some ta) (htb : s'.mesh.tile b = some tb) (hab : a ≠ b)
    (hone : (s'.mesh.bits.decodeTile ref).toNat = a ∨ (s'.mesh.bits.decodeTile ref).toNat = b)
    {p j k l : Nat} {P Q : Poly} {e f : SeamEdge K} (hP : ta.body.polys[p]? = some P)
    (he : EdgeNo val ta P j e) (hQ : tb.body.polys[k]? = some Q) (hf : EdgeNo val tb Q l f) {dir : Nat} (hdir : MainSide dir) (hne : e.nei = 0x8000#16 ||| BitVec.ofNat 16 dir)
    (hnf : f.nei = 0x8000#16 ||| BitVec.ofNat 16 ((dir + 4) % 8))
    (hat : At none ta tb ∨ At (some dir) ta tb) (hc : 0 ≤ val tb.header.walkableClimb)
    (hline : |slabCoord dir e.a - slabCoord dir f.a| ≤ 1 / 100)
    (hpass : Passage dir (1 / 100) (2 * val tb.header.walkableClimb) e.a e.b f.a f.b) :
    (∃ l' f' area, EdgeNo val tb Q l' f' ∧ f'.nei = f.nei ∧
      seamArea ((dir + 4) % 8) (val tb.header.walkableClimb) e.a e.b f'.a f'.b = some area ∧
      Has a p ⟨polyRefOf s'.mesh b k, BitVec.ofNat 8 j, BitVec.ofNat 8 dir, (linkLimits dir e.a e.b area).1,
        (linkLimits dir e.a e.b area).2⟩ s') ∨
    4 ≤ ((List.range k).filter fun k' => (seamTouch val s' a p j b k').isSome).length := by
  by_cases h4 : 4 ≤ ((List.range k).filter fun k' => (seamTouch val s' a p j b k').isSome).length
  · exact .inr h4
  left
  have hnei := he.nei
  obtain ⟨hj, he⟩ := (seamEdge_iff val ta P j e).2 he
  obtain ⟨hl, hf⟩ := (seamEdge_iff val tb Q l f).2 hf
  have hs' : MainSide ((dir + 4) % 8) := by
    rcases hdir with rfl | rfl | rfl | rfl
    · exact .inr (.inr (.inl rfl))
    · exact .inr (.inr (.inr rfl))
    · exact .inl rfl
    · exact .inr (.inl rfl)
  have hd : e.nei.toNat % 256 = dir := by
    rw [hne]
    rcases hdir with rfl | rfl | rfl | rfl <;> rfl
  have hext : 0x8000 ≤ e.nei.toNat := by
    rw [hne]
    rcases hdir with rfl | rfl | rfl | rfl <;> decide
  have hfm : f ∈ seamEdges val tb Q := List.mem_filterMap.2 ⟨l, List.mem_range.2 hl, hf⟩
  have harea : (seamArea ((dir + 4) % 8) (val tb.header.walkableClimb) e.a e.b f.a f.b).isSome := by
    rw [seam_partial hs' hc]
    unfold Passage WellOn
    have e1 : ∀ v : V3 K, slabCoord ((dir + 4) % 8) v = slabCoord dir v := by
      intro v
      rcases hdir with rfl | rfl | rfl | rfl <;> rfl
    have e2 : ∀ v : V3 K, alongSide ((dir + 4) % 8) v = alongSide dir v := by
      intro v
      rcases hdir with rfl | rfl | rfl | rfl <;> rfl
    simp only [e1, e2]
    exact ⟨hline, hpass⟩
  have hsome : (seamPoly ((dir + 4) % 8) (val tb.header.walkableClimb) e.a e.b (seamEdges val tb Q)).isSome := by
    unfold seamPoly
    rw [List.findSome?_isSome_iff]
    exact ⟨f, hfm, by rw [if_pos hnf]; exact harea⟩
  obtain ⟨area, hsp⟩ := Option.isSome_iff_exists.1 hsome
  obtain ⟨f', hf', hcase⟩ := List.exists_of_findSome?_eq_some hsp
  split at hcase
  · rename_i hn'
    obtain ⟨l', hl', hf''⟩ := List.mem_filterMap.1 hf'
    refine ⟨l', f', area, (seamEdge_iff val tb Q l' f').1 ⟨List.mem_range.1 hl', hf''⟩, hn'.trans hnf.symm, hcase, ?_⟩
    have htouch : seamTouch val s' a p j b k = some (linkLimits dir e.a e.b area) := by
      unfold seamTouch
      rw [hta, htb]
      simp only [Option.bind_some, hP, hQ, he, hd, hsp, Option.map_some]
    have hblind : (seamGeo val land).Blind := by
      intro s1 s2 hm
      refine ⟨fun a i j b k => ?_, fun a b c e => by show land s1 a b c e = land s2 a b c e; rw [hland s1 s2 hm]⟩
      show seamTouch val s1 a i j b k = seamTouch val s2 a i j b k
      unfold seamTouch
      rw [hm]
    have := border_links h hblind hop ha hta htb hab hone hP hj hnei hext (by rw [hd]; exact hat) (k := k)
      (bb := linkLimits dir e.a e.b area) ⟨by rw [polysOf_eq htb]; exact (List.getElem?_eq_some_iff.1 hQ).1, htouch, not_le.1 h4⟩
    rw [hd] at this
    exact this
  · cases hcase

/-! ## Witness -/

/-- Header of a tile at `(x, 0, 0)` with three vertices, one polygon, four link slots and climb 1. -/
def triHeader (x : U32) : MeshHeader :=
  ⟨navMeshMagic, navMeshVersion, x, 0, 0, 0, 1, 3, 4, 0, 0, 0, 0, 0, 0, 0, 0, 1, 0, 0, 0, 0, 0, 0, 0⟩

/-- A triangle whose first edge is a portal. -/
def triPoly (n : U16) : Poly := ⟨0, [0, 1, 2, 0, 0, 0], [n, 0, 0, 0, 0, 0], 0, 3, 0⟩

def triData (x : U32) (n : U16) (vs : List U32) : Bytes :=
  (triHeader x).words.flatMap le32 ++ vs.flatMap le32 ++ encPoly (triPoly n) ++ zeros 48

def triTile (x : U32) (n : U16) (vs : List U32) : Tile :=
  ⟨triHeader x, ⟨vs, [triPoly n], List.replicate 4 ⟨0, 0, 0, 0, 0, 0⟩, [], [], [], [], []⟩, triData x n vs⟩

/-- The tile on the left: its portal edge at x = 10 from z = 0 to z = 10. -/
def leftVerts : List U32 := [10, 0, 0, 10, 0, 10, 0, 0, 0]

/-- The tile on the right: its portal edge at x = 10 from z = 5 to z = 0, one higher. -/
def rightVerts : List U32 := [10, 1, 5, 10, 1, 0, 20, 0, 0]

def triGeo : Geo := seamGeo (fun w => (w.toNat : ℚ)) fun _ _ _ _ _ => none

theorem triGeo_ok : triGeo.OK := by intro s a b c e k h; simp [triGeo, seamGeo] at h

set_option maxRecDepth 100000 in
theorem triTile_ok : TileOK (triTile 5 0x8000 leftVerts) ∧ TileOK (triTile 6 0x8004 rightVerts) :=
  ⟨⟨rfl, rfl, by decide, rfl, rfl⟩, ⟨rfl, rfl, by decide, rfl, rfl⟩⟩

theorem triTile_good (x : U32) (n : U16) (vs : List U32) (hn : n = 0x8000 ∨ n = 0x8004) : GoodTile smallMesh.bits (triTile x n vs) := by
  refine ⟨by show 1 ≤ _; decide, ?_, ?_, ?_, ?_, by show (0#32 : U32).toNat < 32; decide⟩
  · intro p hp
    simp only [triTile, List.mem_singleton] at hp
    subst hp
    exact ⟨rfl, .inr (by show 1 ≤ 3 ∧ 3 ≤ 6; decide)⟩
  · intro p hp
    simp only [triTile, List.mem_singleton] at hp
    subst hp
    show 3 ≤ 6
    decide
  · intro p hp ne hne hi
    simp only [triTile, List.mem_singleton] at hp
    subst hp
    simp only [triPoly, List.mem_cons, List.not_mem_nil, or_false] at hne
    rcases hne with rfl | rfl | rfl | rfl | rfl | rfl <;> simp [internal] at hi
    rcases hn with rfl | rfl <;> simp at hi
  · intro c hc; simp [triTile] at hc

def triOps : List LMOp := [.add triGeo (triData 5 0x8000 leftVerts) 0#32, .add triGeo (triData 6 0x8004 rightVerts) 0#32]

theorem triOps_good : ∀ op ∈ triOps, GoodOp smallMesh.bits op := by
  intro op hop
  simp only [triOps, List.mem_cons, List.not_mem_nil, or_false] at hop
  rcases hop with rfl | rfl
  · exact goodOp_of triGeo_ok rfl triTile_ok.1 (triTile_good 5 0x8000 leftVerts (.inl rfl))
  · exact goodOp_of triGeo_ok rfl triTile_ok.2 (triTile_good 6 0x8004 rightVerts (.inr rfl))

def triMesh (ops : List LMOp) : LMesh :=
  match LMesh.run ops ⟨smallMesh, fun _ => .fresh 0 (fun _ => ⟨0, 0, 0, 0, 0⟩) fun _ => none⟩ with
  | .ok s => s
  | _ => ⟨smallMesh, fun _ => .fresh 0 (fun _ => ⟨0, 0, 0, 0, 0⟩) fun _ => none⟩

theorem okAnd {α : Type} {o : Out α} {f : α → Bool} (h : (match o with | .ok x => f x | _ => false) = true) :
    ∃ x, o = .ok x ∧ f x = true := by
  cases o
  all_goals first | exact ⟨_, rfl, h⟩ | cases h

set_option maxRecDepth 100000 in
/-- The hypotheses of `seam_links_partial` are met: the tile on the right is added beside the one on the left. Both triangles get their
link, with the limits of the shared stretch from z = 0 to z = 5. -/
example : ∃ s s' : LMesh, LReach s ∧ GoodOp s.mesh.bits (.add triGeo (triData 6 0x8004 rightVerts) 0#32) ∧
    s.addTile triGeo (triData 6 0x8004 rightVerts) 0#32 = .ok (Status.success, 80#32, s') ∧
    s'.mesh.tile 0 = some (triTile 5 0x8000 leftVerts) ∧ s'.mesh.tile 1 = some (triTile 6 0x8004 rightVerts) ∧
    At (some 0) (triTile 5 0x8000 leftVerts) (triTile 6 0x8004 rightVerts) ∧
    (s'.lk 0).links 0 = some [⟨80#32, 0, 0, 0, 127⟩] ∧ (s'.lk 1).links 0 = some [⟨64#32, 0, 4, 0, 255⟩] ∧
    (s'.lk 0).free = some 1 ∧ (s'.lk 1).free = some 1 :=
  by
  obtain ⟨⟨st, ref, s'⟩, h1, h2⟩ := okAnd (o := (triMesh [.add triGeo (triData 5 0x8000 leftVerts) 0#32]).addTile triGeo
    (triData 6 0x8004 rightVerts) 0#32) (f := fun x => decide (x.1 = Status.success ∧ x.2.1 = 80#32 ∧
      x.2.2.mesh.tile 0 = some (triTile 5 0x8000 leftVerts) ∧ x.2.2.mesh.tile 1 = some (triTile 6 0x8004 rightVerts) ∧
      (x.2.2.lk 0).links 0 = some [⟨80#32, 0, 0, 0, 127⟩] ∧ (x.2.2.lk 1).links 0 = some [⟨64#32, 0, 4, 0, 255⟩] ∧
      (x.2.2.lk 0).free = some 1 ∧ (x.2.2.lk 1).free = some 1)) (by decide +kernel)
  obtain ⟨rfl, rfl, k1, k2, k3, k4, k5, k6⟩ := of_decide_eq_true h2
  exact ⟨_, s', ⟨smallParams, smallMesh, fun _ => .fresh 0 (fun _ => ⟨0, 0, 0, 0, 0⟩) fun _ => none,
      [.add triGeo (triData 5 0x8000 leftVerts) 0#32], _, smallMesh_fresh,
      fun op hop => triOps_good op (by rw [List.mem_singleton.1 hop]; simp [triOps]), rfl, rfl⟩,
    triOps_good _ (by simp [triOps]), h1, k1, k2, ⟨by decide, rfl, rfl⟩, k3, k4, k5, k6⟩

set_option maxRecDepth 100000 in
example : ∃ e f : SeamEdge ℚ, EdgeNo (fun w => (w.toNat : ℚ)) (triTile 5 0x8000 leftVerts) (triPoly 0x8000) 0 e ∧
    EdgeNo (fun w => (w.toNat : ℚ)) (triTile 6 0x8004 rightVerts) (triPoly 0x8004) 0 f ∧
    e.nei = 0x8000#16 ||| BitVec.ofNat 16 0 ∧ f.nei = 0x8000#16 ||| BitVec.ofNat 16 4 ∧
    |slabCoord 0 e.a - slabCoord 0 f.a| ≤ 1 / 100 ∧ Passage 0 (1 / 100) 1 e.a e.b f.a f.b :=
  ⟨⟨0x8000#16, ⟨10, 0, 0⟩, ⟨10, 0, 10⟩⟩, ⟨0x8004#16, ⟨10, 1, 5⟩, ⟨10, 1, 0⟩⟩,
    (seamEdge_iff _ _ _ _ _).1 ⟨by decide, by decide +kernel⟩, (seamEdge_iff _ _ _ _ _).1 ⟨by decide, by decide +kernel⟩, rfl, rfl,
    by decide +kernel, ⟨10, 0, 2⟩, ⟨10, 1, 2⟩, ⟨⟨1 / 5, by norm_num, by norm_num, by norm_num [lerp3]⟩, by decide +kernel, by decide +kernel⟩,
    ⟨⟨3 / 5, by norm_num, by norm_num, by norm_num [lerp3]⟩, by decide +kernel, by decide +kernel⟩, rfl, by norm_num⟩

end Verif.Detour
