/-
Rasterisation of triangles (recast/rasterization.go).

Exact arithmetic over an arbitrary linearly ordered field with a floor (rounding and int32 overflow
of the conversions are outside the model). The four scratch polygons live in `buf [84]float32`, at
offsets 0, 21, 42 and 63: writing more than 7 points to one of them overwrites the next one or
panics, and more than 12 points overrun the array `d` of `dividePoly`; both are the outcome `none`.
`addSpan` is the operation of Recast/Spans, here only recorded as an `AddOp` (it never fails).
-/
import Verif.Recast.ClipHull
import Verif.Recast.Spans
import Mathlib.Algebra.Order.Floor.Defs
import Mathlib.Algebra.Order.Floor.Ring
import Mathlib.Data.Rat.Floor

namespace Verif.Recast

set_option linter.unusedSectionVars false
set_option linter.unusedSimpArgs false

/-- The part of the heightfield the rasteriser reads (recast/heightfield.go:14-24). -/
structure Grid (K : Type) where
  /-- `BMin` -/
  bmin : V3 K
  /-- `BMax` -/
  bmax : V3 K
  /-- `Cs` -/
  cs : K
  /-- `Ch` -/
  ch : K
  /-- `Width` -/
  w : Nat
  /-- `Height` -/
  h : Nat

section
variable {K : Type} [Field K] [LinearOrder K]

/-! ## Model -/

/-- The interpolated point (recast/rasterization.go:299-301). -/
def mix3 (p q : V3 K) (t : K) : V3 K :=
  ⟨p.x + (q.x - p.x) * t, p.y + (q.y - p.y) * t, p.z + (q.z - p.z) * t⟩

/-- `dividePoly` into scratch polygons of 7 points, with an array of 12 distances
(recast/rasterization.go:161-166, 281-287). -/
def splitBuf (f : V3 K → K) (l : List (V3 K)) : Option (List (V3 K) × List (V3 K)) :=
  let r := divide f mix3 l
  if l.length ≤ 12 ∧ r.1.length ≤ 7 ∧ r.2.length ≤ 7 then some r else none

/-- The successive cuts of the row loop and of the column loop (recast/rasterization.go:175-179 and
202-206): the part below each cut, and the rest passed on. -/
def sweep (plane : Int → V3 K → K) : List Int → List (V3 K) → Option (List (Int × List (V3 K)))
  | [], _ => some []
  | k :: ks, l =>
    (splitBuf (plane k) l).bind fun r => (sweep plane ks r.2).map fun ps => (k, r.1) :: ps

/-- `for k := lo; k <= hi; k++`. -/
def intRange (lo hi : Int) : List Int := (List.range (hi + 1 - lo).toNat).map fun i : Nat => lo + (i : Int)

/-- `int32Clamp` (recast/rasterization.go:270-278). -/
def clampI (a lo hi : Int) : Int := if a < lo then lo else if a > hi then hi else a

/-- The least value of a coordinate over a polygon (recast/rasterization.go:185-193, 212-216). -/
def polyMin (f : V3 K → K) : List (V3 K) → K
  | [] => 0
  | p :: l => l.foldl (fun m q => min m (f q)) (f p)

/-- The greatest value. -/
def polyMax (f : V3 K → K) : List (V3 K) → K
  | [] => 0
  | p :: l => l.foldl (fun m q => max m (f q)) (f p)

/-- `overlapBounds` (recast/rasterization.go:257-268). -/
def boxesOverlap (amin amax bmin bmax : V3 K) : Bool :=
  if amin.x > bmax.x ∨ amax.x < bmin.x then false
  else if amin.y > bmax.y ∨ amax.y < bmin.y then false
  else if amin.z > bmax.z ∨ amax.z < bmin.z then false
  else true

variable [FloorRing K]

/-- `int32(x)`: truncation towards zero. -/
def truncI (x : K) : Int := if 0 ≤ x then ⌊x⌋ else ⌈x⌉

/-- The span of a clipped polygon (recast/rasterization.go:207-237). -/
def cellSpan (g : Grid K) (poly : List (V3 K)) : Option (Nat × Nat) :=
  if poly.length < 3 then none
  else
    let by' := g.bmax.y - g.bmin.y
    let smin := polyMin V3.y poly - g.bmin.y
    let smax := polyMax V3.y poly - g.bmin.y
    if smax < 0 then none
    else if smin > by' then none
    else
      let smin := if smin < 0 then 0 else smin
      let smax := if smax > by' then by' else smax
      let ismin := (clampI ⌊smin * (1 / g.ch)⌋ 0 65535).toNat % 65536
      let ismax := (clampI ⌈smax * (1 / g.ch)⌉ (((ismin + 1) % 65536 : Nat) : Int) 65535).toNat % 65536
      some (ismin, ismax)

/-- One row (recast/rasterization.go:184-242). -/
def rasterRow (g : Grid K) (area : Nat) (thr : Int) (y : Int) (row : List (V3 K)) :
    Option (List AddOp) :=
  if row.length < 3 then some []
  else
    let x0 := clampI (truncI ((polyMin V3.x row - g.bmin.x) * (1 / g.cs))) 0 ((g.w : Int) - 1)
    let x1 := clampI (truncI ((polyMax V3.x row - g.bmin.x) * (1 / g.cs))) 0 ((g.w : Int) - 1)
    (sweep (fun x p => g.bmin.x + (x : K) * g.cs + g.cs - p.x) (intRange x0 x1) row).map fun cols =>
      cols.filterMap fun c => (cellSpan g c.2).map fun s =>
        ⟨(c.1 + y * (g.w : Int)).toNat, ⟨s.1, s.2, area⟩, thr⟩

/-- All rows, in order. -/
def rasterRows (g : Grid K) (area : Nat) (thr : Int) : List (Int × List (V3 K)) → Option (List AddOp)
  | [] => some []
  | r :: rs => (rasterRow g area thr r.1 r.2).bind fun a =>
      (rasterRows g area thr rs).map fun b => a ++ b

/-- `rasterizeTri` (recast/rasterization.go:130-246): the spans added, in order. -/
def rasterizeTri (g : Grid K) (v0 v1 v2 : V3 K) (area : Nat) (thr : Int) : Option (List AddOp) :=
  let tmin := (v0.vmin v1).vmin v2
  let tmax := (v0.vmax v1).vmax v2
  if boxesOverlap g.bmin g.bmax tmin tmax = false then some []
  else
    let y0 := clampI (truncI ((tmin.z - g.bmin.z) * (1 / g.cs))) 0 ((g.h : Int) - 1)
    let y1 := clampI (truncI ((tmax.z - g.bmin.z) * (1 / g.cs))) 0 ((g.h : Int) - 1)
    (sweep (fun y p => g.bmin.z + (y : K) * g.cs + g.cs - p.z) (intRange y0 y1) [v0, v1, v2]).bind
      (rasterRows g area thr)

/-- The loop of `RasterizeTriangles` from triangle `i` on (recast/rasterization.go:74-83). An index
outside the slices is `none`. -/
def rasterTris (g : Grid K) (verts : List (V3 K)) (areas : List Nat) (thr : Int) :
    List (Nat × Nat × Nat) → Nat → Option (List AddOp)
  | [], _ => some []
  | (a, b, c) :: ts, i =>
    (verts[a]?).bind fun v0 => (verts[b]?).bind fun v1 => (verts[c]?).bind fun v2 =>
    (areas[i]?).bind fun area =>
    (rasterizeTri g v0 v1 v2 area thr).bind fun ops =>
      (rasterTris g verts areas thr ts (i + 1)).map fun rest => ops ++ rest

/-- `RasterizeTriangles` (recast/rasterization.go:62-86). -/
def rasterizeTriangles (g : Grid K) (verts : List (V3 K)) (tris : List (Nat × Nat × Nat))
    (areas : List Nat) (thr : Int) : Option (List AddOp) := rasterTris g verts areas thr tris 0

/-- `RasterizeTriangles2` (recast/rasterization.go:105-128), from triangle `i` on: triangle `i` has the
vertices `3*i`, `3*i+1` and `3*i+2`; `n` triangles remain. -/
def rasterTris2 (g : Grid K) (verts : List (V3 K)) (areas : List Nat) (thr : Int) :
    Nat → Nat → Option (List AddOp)
  | 0, _ => some []
  | n + 1, i =>
    (verts[i * 3 + 0]?).bind fun v0 => (verts[i * 3 + 1]?).bind fun v1 =>
    (verts[i * 3 + 2]?).bind fun v2 => (areas[i]?).bind fun area =>
    (rasterizeTri g v0 v1 v2 area thr).bind fun ops =>
      (rasterTris2 g verts areas thr n (i + 1)).map fun rest => ops ++ rest

/-! ## Spec -/

/-- `p` is a point of the triangle. -/
def InTri (v0 v1 v2 p : V3 K) : Prop :=
  ∃ a b c : K, 0 ≤ a ∧ 0 ≤ b ∧ 0 ≤ c ∧ a + b + c = 1 ∧
    p = ⟨a * v0.x + b * v1.x + c * v2.x, a * v0.y + b * v1.y + c * v2.y,
      a * v0.z + b * v1.z + c * v2.z⟩

/-- `p` lies strictly inside the cell `(x, y)`, seen from above. -/
def Grid.Over (g : Grid K) (x y : Nat) (p : V3 K) : Prop :=
  g.bmin.x + x * g.cs < p.x ∧ p.x < g.bmin.x + (x + 1) * g.cs ∧
  g.bmin.z + y * g.cs < p.z ∧ p.z < g.bmin.z + (y + 1) * g.cs

/-- `p` lies in the closed cell `(x, y)`, seen from above, or, for the cells of the first column and
row, in its extension beyond the border of the grid. -/
def Grid.Near (g : Grid K) (x y : Nat) (p : V3 K) : Prop :=
  (g.bmin.x + x * g.cs ≤ p.x ∨ x = 0) ∧ p.x ≤ g.bmin.x + (x + 1) * g.cs ∧
  (g.bmin.z + y * g.cs ≤ p.z ∨ y = 0) ∧ p.z ≤ g.bmin.z + (y + 1) * g.cs

/-- The grid is sound: positive sizes, a box that is not empty, and heights that fit in 16 bits. -/
structure Grid.Ok (g : Grid K) : Prop where
  cs : 0 < g.cs
  ch : 0 < g.ch
  w : 0 < g.w
  h : 0 < g.h
  box : g.bmin.y ≤ g.bmax.y
  fits : (g.bmax.y - g.bmin.y) / g.ch ≤ 65535

/-! ## Elementary facts -/

theorem mem_intRange {lo hi k : Int} : k ∈ intRange lo hi ↔ lo ≤ k ∧ k ≤ hi := by
  unfold intRange
  rw [List.mem_map]
  constructor
  · rintro ⟨i, hi', rfl⟩
    rw [List.mem_range] at hi'
    omega
  · rintro ⟨h1, h2⟩
    exact ⟨(k - lo).toNat, by rw [List.mem_range]; omega, by omega⟩

theorem intRange_step (lo hi : Int) :
    intRange lo hi = if lo ≤ hi then lo :: intRange (lo + 1) hi else [] := by
  unfold intRange
  split
  · rename_i h
    have e : (hi + 1 - lo).toNat = (hi + 1 - (lo + 1)).toNat + 1 := by omega
    rw [e, List.range_succ_eq_map, List.map_cons, List.map_map]
    congr 1
    · simp
    · apply List.map_congr_left
      intro i _
      simp; omega
  · rename_i h
    have e : (hi + 1 - lo).toNat = 0 := by omega
    rw [e]; rfl

theorem clampI_range {a lo hi : Int} (h : lo ≤ hi) : lo ≤ clampI a lo hi ∧ clampI a lo hi ≤ hi := by
  unfold clampI; split
  · omega
  · split <;> omega

variable [IsStrictOrderedRing K]

theorem truncI_mono {a b : K} (h : a ≤ b) : truncI a ≤ truncI b := by
  unfold truncI
  split
  · rename_i ha
    rw [if_pos (ha.trans h)]; exact Int.floor_mono h
  · rename_i ha
    split
    · rename_i hb
      have h1 : ⌈a⌉ ≤ 0 := Int.ceil_le.2 (by push_cast; exact (not_le.1 ha).le)
      have h2 : 0 ≤ ⌊b⌋ := Int.floor_nonneg.2 hb
      omega
    · exact Int.ceil_mono h

theorem truncI_nat {a : K} {n : Nat} (h1 : (n : K) ≤ a) (h2 : a < n + 1) : truncI a = n := by
  unfold truncI
  rw [if_pos ((Nat.cast_nonneg n).trans h1), Int.floor_eq_iff]
  exact ⟨by push_cast; exact h1, by push_cast; exact h2⟩

theorem le_truncI {a : K} {n : Nat} (h : (n : Int) ≤ truncI a) (hn : 0 < n) : (n : K) ≤ a := by
  unfold truncI at h
  split at h
  · have := Int.le_floor.1 h
    exact_mod_cast this
  · rename_i ha
    exfalso
    have h1 : ⌈a⌉ ≤ 0 := Int.ceil_le.2 (by push_cast; exact (not_le.1 ha).le)
    omega

theorem polyMin_spec (f : V3 K → K) (l : List (V3 K)) (hne : l ≠ []) :
    (∀ p ∈ l, polyMin f l ≤ f p) ∧ ∃ p ∈ l, f p = polyMin f l := by
  cases l with
  | nil => exact absurd rfl hne
  | cons a l =>
    have key : ∀ (l : List (V3 K)) (m : K), (∀ p ∈ l, l.foldl (fun m q => min m (f q)) m ≤ f p) ∧
        l.foldl (fun m q => min m (f q)) m ≤ m ∧
        (l.foldl (fun m q => min m (f q)) m = m ∨
          ∃ p ∈ l, f p = l.foldl (fun m q => min m (f q)) m) := by
      intro l
      induction l with
      | nil => intro m; simp
      | cons b l ih =>
        intro m
        obtain ⟨h1, h2, h3⟩ := ih (min m (f b))
        rw [List.foldl_cons]
        refine ⟨?_, h2.trans (min_le_left _ _), ?_⟩
        · intro p hp
          rw [List.mem_cons] at hp
          rcases hp with rfl | hp
          · exact h2.trans (min_le_right _ _)
          · exact h1 p hp
        · rcases h3 with h3 | ⟨p, hp, e⟩
          · rcases le_total m (f b) with hle | hle
            · left; rw [h3, min_eq_left hle]
            · right; exact ⟨b, List.mem_cons_self, by rw [h3, min_eq_right hle]⟩
          · right; exact ⟨p, List.mem_cons_of_mem _ hp, e⟩
    obtain ⟨h1, h2, h3⟩ := key l (f a)
    refine ⟨?_, ?_⟩
    · intro p hp
      rw [List.mem_cons] at hp
      rcases hp with rfl | hp
      · exact h2
      · exact h1 p hp
    · rcases h3 with h3 | ⟨p, hp, e⟩
      · exact ⟨a, List.mem_cons_self, h3.symm⟩
      · exact ⟨p, List.mem_cons_of_mem _ hp, e⟩

theorem polyMax_spec (f : V3 K → K) (l : List (V3 K)) (hne : l ≠ []) :
    (∀ p ∈ l, f p ≤ polyMax f l) ∧ ∃ p ∈ l, f p = polyMax f l := by
  have e : polyMax f l = -polyMin (fun p => -f p) l := by
    cases l with
    | nil => exact absurd rfl hne
    | cons a l =>
      unfold polyMax polyMin
      have key : ∀ (l : List (V3 K)) (m : K), l.foldl (fun m q => max m (f q)) m =
          -l.foldl (fun m q => min m (-f q)) (-m) := by
        intro l
        induction l with
        | nil => intro m; simp
        | cons b l ih => 
          intro m
          have e : -max m (f b) = min (-m) (-f b) := by
            rcases le_total m (f b) with h | h
            · rw [max_eq_right h, min_eq_right (neg_le_neg h)]
            · rw [max_eq_left h, min_eq_left (neg_le_neg h)]
          rw [List.foldl_cons, List.foldl_cons, ih, e]
      exact key l (f a)
  obtain ⟨h1, p, hp, h2⟩ := polyMin_spec (fun p => -f p) l hne
  rw [e]
  exact ⟨fun q hq => by linarith [h1 q hq], p, hp, by linarith⟩

/-! ## The triangle as an affine image -/

/-- The point of the triangle's plane with the given coordinates. -/
def triMap (v0 v1 v2 : V3 K) (q : Q2 K) : V3 K :=
  ⟨v0.x + q.u * (v1.x - v0.x) + q.v * (v2.x - v0.x),
   v0.y + q.u * (v1.y - v0.y) + q.v * (v2.y - v0.y),
   v0.z + q.u * (v1.z - v0.z) + q.v * (v2.z - v0.z)⟩

theorem triMap_mix (v0 v1 v2 : V3 K) (p q : Q2 K) (t : K) :
    triMap v0 v1 v2 (Q2.mix p q t) = mix3 (triMap v0 v1 v2 p) (triMap v0 v1 v2 q) t := by
  simp only [triMap, Q2.mix, mix3, V3.mk.injEq]
  refine ⟨?_, ?_, ?_⟩ <;> ring

/-- The corners of the triangle in its plane. -/
def corners : List (Q2 K) := [⟨0, 0⟩, ⟨1, 0⟩, ⟨0, 1⟩]

theorem corners_map (v0 v1 v2 : V3 K) : (corners : List (Q2 K)).map (triMap v0 v1 v2) = [v0, v1, v2] := by
  simp [corners, triMap]

theorem corners_convex : Convex (corners : List (Q2 K)) := convex_three _ _ _

/-- A point of the triangle comes from the hull of the corners. -/
theorem inTri_hull {v0 v1 v2 p : V3 K} (h : InTri v0 v1 v2 p) :
    ∃ q, Hull corners q ∧ triMap v0 v1 v2 q = p := by
  obtain ⟨a, b, c, ha, hb, hc, hs, rfl⟩ := h
  refine ⟨⟨b, c⟩, ?_, ?_⟩
  · have c0 := Cone.scale ha (Cone.one (L := corners) (q := (⟨0, 0⟩ : Q2 K)) (by simp [corners]))
    have c1 := Cone.scale hb (Cone.one (L := corners) (q := (⟨1, 0⟩ : Q2 K)) (by simp [corners]))
    have c2 := Cone.scale hc (Cone.one (L := corners) (q := (⟨0, 1⟩ : Q2 K)) (by simp [corners]))
    have := (c0.plus c1).plus c2
    unfold Hull
    convert this using 1
    · linear_combination -hs
    · simp
    · simp
  · have ha' : a = 1 - b - c := by linarith
    subst ha'
    simp only [triMap, V3.mk.injEq]
    refine ⟨?_, ?_, ?_⟩ <;> ring

/-- A point in the half planes of the corners is a point of the triangle. -/
theorem inTri_of {v0 v1 v2 : V3 K} {q : Q2 K}
    (h : ∀ a : Aff K, (∀ c ∈ (corners : List (Q2 K)), 0 ≤ a.val c) → 0 ≤ a.val q) :
    InTri v0 v1 v2 (triMap v0 v1 v2 q) := by
  have h1 := h ⟨1, 0, 0⟩ (by simp [corners, Aff.val])
  have h2 := h ⟨0, 1, 0⟩ (by simp [corners, Aff.val])
  have h3 := h ⟨-1, -1, 1⟩ (by simp [corners, Aff.val])
  simp only [Aff.val] at h1 h2 h3
  refine ⟨1 - q.u - q.v, q.u, q.v, by linarith, by linarith, by linarith, by ring, ?_⟩
  simp only [triMap, V3.mk.injEq]
  refine ⟨?_, ?_, ?_⟩ <;> ring

/-! ## Sweeps -/

/-- What a sweep with cut positions `cut k < cut (k+1)` along a coordinate `co` leaves as piece
number `k`, for the polygon `qs`. -/
structure Piece (φ : Q2 K → V3 K) (co : V3 K → K) (cut : Int → K) (k0 : Int) (N : Nat)
    (qs : List (Q2 K)) (k : Int) (L : List (V3 K)) (qs' : List (Q2 K)) : Prop where
  img : L = qs'.map φ
  convex : Convex qs'
  len : qs'.length ≤ N + 2
  inside : ∀ a : Aff K, (∀ q ∈ qs, 0 ≤ a.val q) → ∀ q ∈ qs', 0 ≤ a.val q
  upper : ∀ q ∈ qs', co (φ q) ≤ cut (k + 1)
  lower : k ≠ k0 → ∀ q ∈ qs', cut k ≤ co (φ q)
  covers : 3 ≤ qs.length → ∀ q, Hull qs q → cut k < co (φ q) → co (φ q) < cut (k + 1) →
    Hull qs' q ∧ 3 ≤ qs'.length

theorem hull_val {L : List (Q2 K)} {q : Q2 K} (h : Hull L q) (a : Aff K)
    (ha : ∀ p ∈ L, 0 ≤ a.val p) : 0 ≤ a.val q := by
  have := Cone.val_nonneg a ha h
  simp only [Aff.cval, mul_one] at this
  exact this

theorem divide_half (g a : Aff K) (qs : List (Q2 K)) (ha : ∀ q ∈ qs, 0 ≤ a.val q) :
    (∀ q ∈ (divide g.val Q2.mix qs).1, 0 ≤ a.val q) ∧
    (∀ q ∈ (divide g.val Q2.mix qs).2, 0 ≤ a.val q) :=
  forall_divide g.val Q2.mix (fun q => 0 ≤ a.val q) (fun p q hp hq hpq => by
    obtain ⟨-, h1, h2⟩ := cross_param g p q hpq
    rw [Aff.val_mix]
    have e : ∀ t : K, a.val p + (a.val q - a.val p) * t = a.val p * (1 - t) + a.val q * t := by
      intro t; ring
    rw [e]
    exact add_nonneg (mul_nonneg hp (by linarith)) (mul_nonneg hq h1)) qs ha

/-- The sweep of a convex polygon: never out of buffer space, and the pieces are as specified. -/
theorem sweep_spec' (φ : Q2 K → V3 K) (hφ : ∀ p q t, φ (Q2.mix p q t) = mix3 (φ p) (φ q) t)
    (co : V3 K → K) (cut : Int → K) (hcut : ∀ k, cut k < cut (k + 1))
    (pl : Int → Aff K) (hpl : ∀ k q, (pl k).val q = cut (k + 1) - co (φ q))
    (plane : Int → V3 K → K) (hplane : ∀ k p, plane k p = cut (k + 1) - co p)
    (N : Nat) (hN : N ≤ 5) (n : Nat) : ∀ (k0 hi : Int), (hi + 1 - k0).toNat = n →
    ∀ (qs : List (Q2 K)) (f : Q2 K → K), Convex qs → Rest f N qs →
    (∀ q, (pl k0).val q ≤ 0 → f q < 0) →
    ∃ ps, sweep plane (intRange k0 hi) (qs.map φ) = some ps ∧
      ps.map Prod.fst = intRange k0 hi ∧
      ∀ k L, (k, L) ∈ ps → ∃ qs', Piece φ co cut k0 N qs k L qs' := by
  induction n with
  | zero =>
    intro k0 hi hn qs f _ _ _
    have e : intRange k0 hi = [] := by rw [intRange_step, if_neg (by omega)]
    rw [e]
    exact ⟨[], rfl, rfl, by simp⟩
  | succ n ih =>
    intro k0 hi hn qs f hc hr hlt
    have e : intRange k0 hi = k0 :: intRange (k0 + 1) hi := by rw [intRange_step, if_pos (by omega)]
    rw [e]
    have hX : ∀ p q, decide (0 ≤ (pl k0).val p) ≠ decide (0 ≤ (pl k0).val q) →
        (pl k0).val (Q2.mix p q ((pl k0).val p / ((pl k0).val p - (pl k0).val q))) = 0 :=
      fun p q h => cross_zero (pl k0) p q h
    have hfun : (fun q => plane k0 (φ q)) = (pl k0).val := by
      funext q; rw [hpl, hplane]
    have hdiv := divide_map φ (plane k0) mix3 Q2.mix hφ qs
    rw [hfun] at hdiv
    have hlow : ctr (qs.map (low (pl k0).val)) ≤ 2 := hc (pl k0)
    obtain ⟨l1, l2, -⟩ := divide_len (pl k0).val Q2.mix qs hlow
    obtain ⟨s1, s2, -⟩ := divide_sides (pl k0).val Q2.mix hX qs
    have hlen := hr.len
    have hr2 : Rest (pl k0).val N (divide (pl k0).val Q2.mix qs).2 := hr.step hX hlt hlow
    have hlen2 := hr2.len
    have hsb : splitBuf (plane k0) (qs.map φ) =
        some ((divide (pl k0).val Q2.mix qs).1.map φ, (divide (pl k0).val Q2.mix qs).2.map φ) := by
      unfold splitBuf
      simp only [hdiv]
      rw [if_pos]
      simp only [List.length_map]
      omega
    obtain ⟨cv1, cv2⟩ := hc.divide (pl k0)
    obtain ⟨ps, hps, hks, hpieces⟩ := ih (k0 + 1) hi (by omega) _ (pl k0).val cv2 hr2 (by
      intro q hq
      rw [hpl] at hq ⊢
      have := hcut (k0 + 1)
      linarith)
    refine ⟨(k0, (divide (pl k0).val Q2.mix qs).1.map φ) :: ps, ?_, ?_, ?_⟩
    · rw [sweep, hsb]
      simp only [Option.bind_some]
      rw [hps]; rfl
    · rw [List.map_cons, hks]
    · intro k L hkL
      rw [List.mem_cons] at hkL
      rcases hkL with heq | hkL
      · rw [Prod.mk.injEq] at heq
        obtain ⟨rfl, rfl⟩ := heq
        refine ⟨(divide (pl k).val Q2.mix qs).1, rfl, cv1, by omega, fun a ha => (divide_half (pl k) a qs ha).1, ?_, ?_, ?_⟩
        · intro q hq
          have := s1 q hq
          rw [hpl] at this; linarith
        · intro h; exact absurd rfl h
        · intro h3 q hq _ hup
          have hv : 0 < (pl k).val q := by rw [hpl]; linarith
          refine ⟨(divide_hull (pl k) qs hc q hq).1 hv.le, ?_⟩
          refine (divide_three (pl k).val Q2.mix qs h3).1 ?_
          by_contra hcon
          push Not at hcon
          have := hull_val hq ⟨-(pl k).a, -(pl k).b, -(pl k).c⟩ (fun p hp => by
            have := hcon p hp
            simp only [Aff.val] at this ⊢; linarith)
          simp only [Aff.val] at this hv
          linarith
      · have hmem : k ∈ intRange (k0 + 1) hi := by
          rw [← hks]; exact List.mem_map.2 ⟨(k, L), hkL, rfl⟩
        rw [mem_intRange] at hmem
        obtain ⟨qs', P⟩ := hpieces k L hkL
        have hcutmono : cut (k0 + 1) ≤ cut k := by
          have : ∀ m : Nat, cut (k0 + 1) ≤ cut (k0 + 1 + (m : Int)) := by
            intro m
            induction m with
            | zero => simp
            | succ m ihm =>
              have := hcut (k0 + 1 + (m : Int))
              push_cast
              rw [← add_assoc]
              linarith
          have h := this (k - (k0 + 1)).toNat
          have e2 : k0 + 1 + ((k - (k0 + 1)).toNat : Int) = k := by omega
          rwa [e2] at h
        refine ⟨qs', P.img, P.convex, P.len, ?_, P.upper, ?_, ?_⟩
        · intro a ha
          exact P.inside a (divide_half (pl k0) a qs ha).2
        · intro hne q hq
          by_cases hk : k = k0 + 1
          · subst hk
            have := P.inside ⟨-(pl k0).a, -(pl k0).b, -(pl k0).c⟩ (fun p hp => by
              have := s2 p hp
              simp only [Aff.val] at this ⊢; linarith) q hq
            have e3 : (⟨-(pl k0).a, -(pl k0).b, -(pl k0).c⟩ : Aff K).val q = -(pl k0).val q := by
              simp only [Aff.val]; ring
            rw [e3, hpl] at this
            linarith
          · exact P.lower hk q hq
        · intro h3 q hq hlo hup
          have hv : (pl k0).val q < 0 := by rw [hpl]; linarith
          refine P.covers ?_ q ((divide_hull (pl k0) qs hc q hq).2 hv) hlo hup
          refine (divide_three (pl k0).val Q2.mix qs h3).2 ?_
          by_contra hcon
          push Not at hcon
          have := hull_val hq (pl k0) hcon
          linarith

/-! ## Spans of clipped polygons -/

theorem clampI_spec (a lo hi : Int) (h : lo ≤ hi) :
    clampI a lo hi = max lo (min a hi) := by
  unfold clampI; split
  · omega
  · split <;> omega

/-- A span made from a clipped polygon is not upside down, fits in 16 bits, and its bottom and top
come from points of the polygon (the top may be raised to make the span one voxel high). -/
theorem cellSpan_sound {g : Grid K} (hg : g.Ok) {L : List (V3 K)} {s : Nat × Nat}
    (h : cellSpan g L = some s) :
    s.1 ≤ s.2 ∧ s.2 ≤ 65535 ∧
    (∃ p ∈ L, (p.y - g.bmin.y) / g.ch < s.1 + 1) ∧
    (s.2 = s.1 + 1 ∨ (s.2 : K) < (g.bmax.y - g.bmin.y) / g.ch + 1 ∧
      ∃ p ∈ L, (s.2 : K) < (p.y - g.bmin.y) / g.ch + 1) ∧
    (∃ p ∈ L, (s.1 : K) ≤ (p.y - g.bmin.y) / g.ch) ∧ (s.1 < 65535 → s.1 < s.2) := by
  unfold cellSpan at h
  split at h
  · exact absurd h (by simp)
  · rename_i hlen
    have hne : L ≠ [] := by rintro rfl; simp at hlen
    obtain ⟨hmin, pmin, hpmin, emin⟩ := polyMin_spec V3.y L hne
    obtain ⟨hmax, pmax, hpmax, emax⟩ := polyMax_spec V3.y L hne
    have hmm : polyMin V3.y L ≤ polyMax V3.y L := by rw [← emax]; exact hmin pmax hpmax
    simp only at h
    split at h
    · exact absurd h (by simp)
    · rename_i h1
      split at h
      · exact absurd h (by simp)
      · rename_i h2
        have hch := hg.ch
        have hbox := hg.box
        set a : K := if polyMin V3.y L - g.bmin.y < 0 then 0 else polyMin V3.y L - g.bmin.y with ha
        set b : K := if polyMax V3.y L - g.bmin.y > g.bmax.y - g.bmin.y then g.bmax.y - g.bmin.y
          else polyMax V3.y L - g.bmin.y with hb
        have ha0 : 0 ≤ a := by rw [ha]; split <;> linarith
        have hage : polyMin V3.y L - g.bmin.y ≤ a := by rw [ha]; split <;> linarith
        have hale : a ≤ g.bmax.y - g.bmin.y := by rw [ha]; split <;> linarith
        have hble : b ≤ polyMax V3.y L - g.bmin.y := by rw [hb]; split <;> linarith
        have hbby : b ≤ g.bmax.y - g.bmin.y := by rw [hb]; split <;> linarith
        have hab : a ≤ b := by
          rw [ha, hb]; split <;> split <;> linarith
        have hich : 0 < 1 / g.ch := div_pos zero_lt_one hch
        have hfa : ⌊a * (1 / g.ch)⌋ ≤ 65535 := by
          have : a * (1 / g.ch) ≤ 65535 := by
            have h3 := mul_le_mul_of_nonneg_right hale hich.le
            have h4 := hg.fits
            rw [div_eq_mul_one_div] at h4
            linarith
          have h5 := Int.floor_mono this
          have : ⌊(65535 : K)⌋ = 65535 := Int.floor_ofNat 65535
          omega
        have hfa0 : 0 ≤ ⌊a * (1 / g.ch)⌋ := Int.floor_nonneg.2 (mul_nonneg ha0 hich.le)
        have hfb : ⌈b * (1 / g.ch)⌉ ≤ 65535 := by
          have h3 := mul_le_mul_of_nonneg_right hbby hich.le
          have h4 := hg.fits
          rw [div_eq_mul_one_div] at h4
          exact Int.ceil_le.2 (by push_cast; linarith)
        have hfab : ⌊a * (1 / g.ch)⌋ ≤ ⌈b * (1 / g.ch)⌉ :=
          (Int.floor_mono (mul_le_mul_of_nonneg_right hab hich.le)).trans (Int.floor_le_ceil _)
        have e1 : (clampI ⌊a * (1 / g.ch)⌋ 0 65535).toNat % 65536 = ⌊a * (1 / g.ch)⌋.toNat := by
          rw [clampI_spec _ _ _ (by omega)]; omega
        rw [e1] at h
        set A := ⌊a * (1 / g.ch)⌋ with hA
        set B := ⌈b * (1 / g.ch)⌉ with hB
        have e2 : (clampI B (((A.toNat + 1) % 65536 : Nat) : Int) 65535).toNat % 65536 =
            (max (((A.toNat + 1) % 65536 : Nat) : Int) B).toNat := by
          rw [clampI_spec _ _ _ (by omega)]; omega
        rw [e2] at h
        have h := Option.some.inj h
        have hs1 : s.1 = A.toNat := by rw [← h]
        have hs2 : s.2 = (max (((A.toNat + 1) % 65536 : Nat) : Int) B).toNat := by rw [← h]
        have hap : a ≤ polyMax V3.y L - g.bmin.y := by rw [ha]; split <;> linarith
        refine ⟨by omega, by omega, ⟨pmin, hpmin, ?_⟩, ?_, ⟨pmax, hpmax, ?_⟩, by omega⟩
        rotate_left 2
        · have h3 := Int.floor_le (a * (1 / g.ch))
          have h4 : ((A.toNat : Nat) : K) = ((A : Int) : K) := by
            have : ((A.toNat : Int) : K) = ((A : Int) : K) := by congr 1; omega
            exact_mod_cast this
          rw [hs1, h4, emax, div_eq_mul_one_div]
          have := mul_le_mul_of_nonneg_right hap hich.le
          linarith
        · have h3 := Int.lt_floor_add_one (a * (1 / g.ch))
          have h4 : ((A.toNat : Nat) : K) = ((A : Int) : K) := by
            have : ((A.toNat : Int) : K) = ((A : Int) : K) := by congr 1; omega
            exact_mod_cast this
          rw [hs1, h4, emin, div_eq_mul_one_div]
          have := mul_le_mul_of_nonneg_right hage hich.le
          linarith
        · by_cases hcase : s.2 = s.1 + 1
          · left; exact hcase
          · right
            rw [← and_comm]
            refine ⟨⟨pmax, hpmax, ?_⟩, ?_⟩
            rotate_left
            · have h3 := Int.ceil_lt_add_one (b * (1 / g.ch))
              have h4 : ((s.2 : Nat) : K) = ((B : Int) : K) := by
                have : (((s.2 : Nat) : Int) : K) = ((B : Int) : K) := by congr 1; omega
                exact_mod_cast this
              rw [h4, div_eq_mul_one_div]
              have := mul_le_mul_of_nonneg_right hbby hich.le
              linarith
            have h3 := Int.ceil_lt_add_one (b * (1 / g.ch))
            have h4 : ((s.2 : Nat) : K) = ((B : Int) : K) := by
              have : (((s.2 : Nat) : Int) : K) = ((B : Int) : K) := by congr 1; omega
              exact_mod_cast this
            rw [h4, emax, div_eq_mul_one_div]
            have := mul_le_mul_of_nonneg_right hble hich.le
            linarith

/-- A height between the bottom and the top of the polygon, and inside the box, is in its span. -/
theorem cellSpan_covers {g : Grid K} (hg : g.Ok) {L : List (V3 K)} (hlen : 3 ≤ L.length) {y : K}
    (hlo : polyMin V3.y L ≤ y) (hhi : y ≤ polyMax V3.y L) (hy0 : g.bmin.y ≤ y)
    (hy1 : y ≤ g.bmax.y) : ∃ s, cellSpan g L = some s ∧
      (s.1 : K) ≤ (y - g.bmin.y) / g.ch ∧ (y - g.bmin.y) / g.ch ≤ s.2 := by
  unfold cellSpan
  rw [if_neg (by omega)]
  simp only
  rw [if_neg (by linarith), if_neg (by linarith)]
  have hch := hg.ch
  set a : K := if polyMin V3.y L - g.bmin.y < 0 then 0 else polyMin V3.y L - g.bmin.y with ha
  set b : K := if polyMax V3.y L - g.bmin.y > g.bmax.y - g.bmin.y then g.bmax.y - g.bmin.y
    else polyMax V3.y L - g.bmin.y with hb
  have ha0 : 0 ≤ a := by rw [ha]; split <;> linarith
  have hale : a ≤ y - g.bmin.y := by rw [ha]; split <;> linarith
  have hble : y - g.bmin.y ≤ b := by rw [hb]; split <;> linarith
  have hich : 0 < 1 / g.ch := div_pos zero_lt_one hch
  have hfa0 : 0 ≤ ⌊a * (1 / g.ch)⌋ := Int.floor_nonneg.2 (mul_nonneg ha0 hich.le)
  have hy65 : (y - g.bmin.y) * (1 / g.ch) ≤ 65535 := by
    have h3 : (y - g.bmin.y) * (1 / g.ch) ≤ (g.bmax.y - g.bmin.y) * (1 / g.ch) :=
      mul_le_mul_of_nonneg_right (by linarith) hich.le
    have h4 := hg.fits
    rw [div_eq_mul_one_div] at h4
    linarith
  refine ⟨_, rfl, ?_, ?_⟩
  · rw [div_eq_mul_one_div (y - g.bmin.y)]
    have h1 : (clampI ⌊a * (1 / g.ch)⌋ 0 65535).toNat % 65536 ≤ ⌊a * (1 / g.ch)⌋.toNat := by
      rw [clampI_spec _ _ _ (by omega)]; omega
    have h2 : ((⌊a * (1 / g.ch)⌋.toNat : Nat) : K) = ((⌊a * (1 / g.ch)⌋ : Int) : K) := by
      have : ((⌊a * (1 / g.ch)⌋.toNat : Int) : K) = ((⌊a * (1 / g.ch)⌋ : Int) : K) := by
        congr 1; omega
      exact_mod_cast this
    have h3 := Int.floor_le (a * (1 / g.ch))
    have h4 := mul_le_mul_of_nonneg_right hale hich.le
    have h1' : (((clampI ⌊a * (1 / g.ch)⌋ 0 65535).toNat % 65536 : Nat) : K)
        ≤ ((⌊a * (1 / g.ch)⌋.toNat : Nat) : K) := Nat.cast_le.2 h1
    linarith
  · rw [div_eq_mul_one_div (y - g.bmin.y)]
    simp only
    generalize (clampI ⌊a * (1 / g.ch)⌋ 0 65535).toNat % 65536 = A
    have hm : (min ⌈b * (1 / g.ch)⌉ 65535 : Int) ≤
        (((clampI ⌈b * (1 / g.ch)⌉ (((A + 1) % 65536 : Nat) : Int) 65535).toNat % 65536 : Nat) : Int) := by
      rw [clampI_spec _ _ _ (by omega)]; omega
    have hm' := (Int.cast_le (R := K)).2 hm
    rw [Int.cast_natCast] at hm'
    refine le_trans ?_ hm'
    rcases le_total ⌈b * (1 / g.ch)⌉ 65535 with hle | hle
    · rw [min_eq_left hle]
      exact (mul_le_mul_of_nonneg_right hble hich.le).trans (Int.le_ceil _)
    · rw [min_eq_right hle]
      push_cast
      exact hy65

/-! ## Rows -/

/-- Position of the cut `k` along x. -/
def Grid.cutX (g : Grid K) (k : Int) : K := g.bmin.x + (k : K) * g.cs
/-- Position of the cut `k` along z. -/
def Grid.cutZ (g : Grid K) (k : Int) : K := g.bmin.z + (k : K) * g.cs

/-- What the rows produce for a row polygon `qs`. -/
theorem rasterRow_spec {g : Grid K} (hcs : 0 < g.cs) (area : Nat) (thr : Int) (y : Int)
    (v0 v1 v2 : V3 K) (qs : List (Q2 K)) (hc : Convex qs) (h5 : qs.length ≤ 5) :
    ∃ ops, rasterRow g area thr y (qs.map (triMap v0 v1 v2)) = some ops ∧
    (∀ op ∈ ops, ∃ (x : Int) (qs' : List (Q2 K)) (s : Nat × Nat),
      cellSpan g (qs'.map (triMap v0 v1 v2)) = some s ∧
      op = ⟨(x + y * (g.w : Int)).toNat, ⟨s.1, s.2, area⟩, thr⟩ ∧
      (0 < g.w → 0 ≤ x ∧ x < g.w) ∧
      (∀ a : Aff K, (∀ q ∈ qs, 0 ≤ a.val q) → ∀ q ∈ qs', 0 ≤ a.val q) ∧
      ∀ q ∈ qs', (triMap v0 v1 v2 q).x ≤ g.cutX (x + 1) ∧
        (g.cutX x ≤ (triMap v0 v1 v2 q).x ∨ x ≤ 0)) ∧
    (∀ (x : Nat) q, x < g.w → 3 ≤ qs.length → Hull qs q → g.cutX x < (triMap v0 v1 v2 q).x →
      (triMap v0 v1 v2 q).x < g.cutX (x + 1) →
      ∃ qs' : List (Q2 K), Hull qs' q ∧ 3 ≤ qs'.length ∧
        ∀ s, cellSpan g (qs'.map (triMap v0 v1 v2)) = some s →
          (⟨((x : Int) + y * (g.w : Int)).toNat, ⟨s.1, s.2, area⟩, thr⟩ : AddOp) ∈ ops) := by
  unfold rasterRow
  by_cases h3 : (qs.map (triMap v0 v1 v2)).length < 3
  · rw [if_pos h3]
    rw [List.length_map] at h3
    exact ⟨[], rfl, by simp, fun x q _ h => by omega⟩
  · rw [if_neg h3]
    have hne : qs.map (triMap v0 v1 v2) ≠ [] := by
      intro e; rw [e] at h3; simp at h3
    obtain ⟨hmin, -⟩ := polyMin_spec V3.x _ hne
    obtain ⟨hmax, -⟩ := polyMax_spec V3.x _ hne
    simp only
    set X0 := truncI ((polyMin V3.x (qs.map (triMap v0 v1 v2)) - g.bmin.x) * (1 / g.cs)) with hX0
    set X1 := truncI ((polyMax V3.x (qs.map (triMap v0 v1 v2)) - g.bmin.x) * (1 / g.cs)) with hX1
    have hics : 0 < 1 / g.cs := div_pos zero_lt_one hcs
    obtain ⟨ps, hps, hks, hpieces⟩ := sweep_spec' (triMap v0 v1 v2) (triMap_mix v0 v1 v2) V3.x g.cutX
      (fun k => by simp only [Grid.cutX]; push_cast; linarith)
      (fun k => ⟨-(v1.x - v0.x), -(v2.x - v0.x), g.cutX (k + 1) - v0.x⟩)
      (fun k q => by simp only [Aff.val, triMap]; ring)
      (fun x p => g.bmin.x + (x : K) * g.cs + g.cs - p.x)
      (fun k p => by simp only [Grid.cutX]; push_cast; ring)
      qs.length h5 _ (clampI X0 0 ((g.w : Int) - 1)) (clampI X1 0 ((g.w : Int) - 1)) rfl qs
      (fun _ => -1) hc (by right; simp [cnt]) (fun _ _ => by linarith)
    rw [hps]
    refine ⟨_, rfl, ?_, ?_⟩
    · intro op hop
      rw [List.mem_filterMap] at hop
      obtain ⟨⟨k, L⟩, hkL, he⟩ := hop
      obtain ⟨qs', P⟩ := hpieces k L hkL
      have hk : k ∈ intRange (clampI X0 0 ((g.w : Int) - 1)) (clampI X1 0 ((g.w : Int) - 1)) := by
        rw [← hks]; exact List.mem_map.2 ⟨(k, L), hkL, rfl⟩
      rw [mem_intRange] at hk
      cases hcs' : cellSpan g L with
      | none => rw [hcs'] at he; simp at he
      | some s =>
        simp only [hcs', Option.map_some, Option.some.injEq] at he
        refine ⟨k, qs', s, by rw [← P.img]; exact hcs', he.symm, ?_, P.inside, ?_⟩
        · intro hw
          have h1 := clampI_range (a := X0) (lo := 0) (hi := (g.w : Int) - 1) (by omega)
          have h2 := clampI_range (a := X1) (lo := 0) (hi := (g.w : Int) - 1) (by omega)
          omega
        · intro q hq
          refine ⟨P.upper q hq, ?_⟩
          by_cases hk0 : k = clampI X0 0 ((g.w : Int) - 1)
          · by_cases hkpos : k ≤ 0
            · right; exact hkpos
            · left
              have hkX : k ≤ X0 := by
                unfold clampI at hk0; split at hk0
                · omega
                · split at hk0 <;> omega
              have h1 : ((k.toNat : Nat) : K) ≤
                  (polyMin V3.x (qs.map (triMap v0 v1 v2)) - g.bmin.x) * (1 / g.cs) :=
                le_truncI (by rw [← hX0]; omega) (by omega)
              have h2 : ((k.toNat : Nat) : K) = ((k : Int) : K) := by
                have : ((k.toNat : Int) : K) = ((k : Int) : K) := by congr 1; omega
                exact_mod_cast this
              have h4 : ((k : Int) : K) * g.cs ≤
                  polyMin V3.x (qs.map (triMap v0 v1 v2)) - g.bmin.x := by
                rw [h2, mul_one_div, le_div_iff₀ hcs] at h1; exact h1
              have h6 := P.inside ⟨v1.x - v0.x, v2.x - v0.x,
                v0.x - polyMin V3.x (qs.map (triMap v0 v1 v2))⟩ (fun r hr => by
                have := hmin (triMap v0 v1 v2 r) (List.mem_map.2 ⟨r, hr, rfl⟩)
                simp only [Aff.val, triMap] at this ⊢; linarith) q hq
              simp only [Aff.val, triMap, Grid.cutX] at h6 ⊢
              linarith
          · left; exact P.lower hk0 q hq
    · intro x q hx h3' hq hlo hup
      have hb : polyMin V3.x (qs.map (triMap v0 v1 v2)) ≤ (triMap v0 v1 v2 q).x := by
        have h6 := hull_val hq ⟨v1.x - v0.x, v2.x - v0.x,
          v0.x - polyMin V3.x (qs.map (triMap v0 v1 v2))⟩ (fun r hr => by
          have := hmin (triMap v0 v1 v2 r) (List.mem_map.2 ⟨r, hr, rfl⟩)
          simp only [Aff.val, triMap] at this ⊢; linarith)
        simp only [Aff.val, triMap] at h6 ⊢
        linarith
      have ht : (triMap v0 v1 v2 q).x ≤ polyMax V3.x (qs.map (triMap v0 v1 v2)) := by
        have h6 := hull_val hq ⟨-(v1.x - v0.x), -(v2.x - v0.x),
          polyMax V3.x (qs.map (triMap v0 v1 v2)) - v0.x⟩ (fun r hr => by
          have := hmax (triMap v0 v1 v2 r) (List.mem_map.2 ⟨r, hr, rfl⟩)
          simp only [Aff.val, triMap] at this ⊢; linarith)
        simp only [Aff.val, triMap] at h6 ⊢
        linarith
      have hx' : truncI (((triMap v0 v1 v2 q).x - g.bmin.x) * (1 / g.cs)) = x := by
        simp only [Grid.cutX] at hlo hup
        push_cast at hlo hup
        apply truncI_nat
        · rw [mul_one_div, le_div_iff₀ hcs]; linarith
        · rw [mul_one_div, div_lt_iff₀ hcs]; linarith
      have hX0x : X0 ≤ x := by
        rw [← hx']; exact truncI_mono (mul_le_mul_of_nonneg_right (by linarith) hics.le)
      have hX1x : (x : Int) ≤ X1 := by
        rw [← hx']; exact truncI_mono (mul_le_mul_of_nonneg_right (by linarith) hics.le)
      have hxr : (x : Int) ∈ intRange (clampI X0 0 ((g.w : Int) - 1)) (clampI X1 0 ((g.w : Int) - 1)) := by
        rw [mem_intRange, clampI_spec _ _ _ (by omega), clampI_spec _ _ _ (by omega)]
        omega
      rw [← hks, List.mem_map] at hxr
      obtain ⟨⟨k, L⟩, hkL, hk⟩ := hxr
      simp only at hk
      subst hk
      obtain ⟨qs', P⟩ := hpieces _ L hkL
      obtain ⟨c1, c2⟩ := P.covers h3' q hq hlo hup
      refine ⟨qs', c1, c2, fun s hs => ?_⟩
      rw [List.mem_filterMap]
      refine ⟨(_, L), hkL, ?_⟩
      simp only
      rw [P.img, hs]
      rfl

theorem rasterRows_spec {g : Grid K} (area : Nat) (thr : Int) (rows : List (Int × List (V3 K)))
    (h : ∀ r ∈ rows, ∃ ops, rasterRow g area thr r.1 r.2 = some ops) :
    ∃ ops, rasterRows g area thr rows = some ops ∧
      ∀ op, op ∈ ops ↔ ∃ r ∈ rows, ∃ o, rasterRow g area thr r.1 r.2 = some o ∧ op ∈ o := by
  induction rows with
  | nil => exact ⟨[], rfl, by simp⟩
  | cons r rs ih =>
    obtain ⟨b, hb, hbm⟩ := ih (fun r hr => h r (List.mem_cons_of_mem _ hr))
    obtain ⟨a, ha⟩ := h r List.mem_cons_self
    refine ⟨a ++ b, by rw [rasterRows, ha]; simp [hb], fun op => ?_⟩
    rw [List.mem_append, hbm]
    constructor
    · rintro (h1 | ⟨r', hr', o, ho, h1⟩)
      · exact ⟨r, List.mem_cons_self, a, ha, h1⟩
      · exact ⟨r', List.mem_cons_of_mem _ hr', o, ho, h1⟩
    · rintro ⟨r', hr', o, ho, h1⟩
      rw [List.mem_cons] at hr'
      rcases hr' with rfl | hr'
      · left; rw [ha] at ho; rw [Option.some.inj ho]; exact h1
      · right; exact ⟨r', hr', o, ho, h1⟩

/-! ## Triangles -/

theorem comb_bounds {a b c x y z m M : K} (ha : 0 ≤ a) (hb : 0 ≤ b) (hc : 0 ≤ c)
    (hs : a + b + c = 1) (h1 : m ≤ x) (h2 : m ≤ y) (h3 : m ≤ z) (h4 : x ≤ M) (h5 : y ≤ M)
    (h6 : z ≤ M) : m ≤ a * x + b * y + c * z ∧ a * x + b * y + c * z ≤ M := by
  have e1 : m = a * m + b * m + c * m := by linear_combination -m * hs
  have e2 : M = a * M + b * M + c * M := by linear_combination -M * hs
  have := mul_le_mul_of_nonneg_left h1 ha
  have := mul_le_mul_of_nonneg_left h2 hb
  have := mul_le_mul_of_nonneg_left h3 hc
  have := mul_le_mul_of_nonneg_left h4 ha
  have := mul_le_mul_of_nonneg_left h5 hb
  have := mul_le_mul_of_nonneg_left h6 hc
  constructor
  · rw [e1]; linarith
  · rw [e2]; linarith

theorem min3 (a b c : K) : min (min a b) c ≤ a ∧ min (min a b) c ≤ b ∧ min (min a b) c ≤ c :=
  ⟨(min_le_left _ _).trans (min_le_left _ _), (min_le_left _ _).trans (min_le_right _ _),
    min_le_right _ _⟩

theorem max3 (a b c : K) : a ≤ max (max a b) c ∧ b ≤ max (max a b) c ∧ c ≤ max (max a b) c :=
  ⟨(le_max_left _ _).trans (le_max_left _ _), (le_max_right _ _).trans (le_max_left _ _),
    le_max_right _ _⟩

theorem inTri_bounds {v0 v1 v2 p : V3 K} (h : InTri v0 v1 v2 p) :
    (((v0.vmin v1).vmin v2).x ≤ p.x ∧ p.x ≤ ((v0.vmax v1).vmax v2).x) ∧
    (((v0.vmin v1).vmin v2).y ≤ p.y ∧ p.y ≤ ((v0.vmax v1).vmax v2).y) ∧
    (((v0.vmin v1).vmin v2).z ≤ p.z ∧ p.z ≤ ((v0.vmax v1).vmax v2).z) := by
  obtain ⟨a, b, c, ha, hb, hc, hs, rfl⟩ := h
  simp only [V3.vmin, V3.vmax]
  have key : ∀ x y z : K, min (min x y) z ≤ a * x + b * y + c * z ∧
      a * x + b * y + c * z ≤ max (max x y) z := by
    intro x y z
    obtain ⟨m1, m2, m3⟩ := min3 x y z
    obtain ⟨n1, n2, n3⟩ := max3 x y z
    exact comb_bounds ha hb hc hs m1 m2 m3 n1 n2 n3
  exact ⟨key _ _ _, key _ _ _, key _ _ _⟩

/-- The point is inside the box of the heightfield. -/
def Grid.InBox (g : Grid K) (p : V3 K) : Prop :=
  g.bmin.x ≤ p.x ∧ p.x ≤ g.bmax.x ∧ g.bmin.y ≤ p.y ∧ p.y ≤ g.bmax.y ∧
  g.bmin.z ≤ p.z ∧ p.z ≤ g.bmax.z

/-- What a span added for a triangle may be. -/
def SpanOf (g : Grid K) (v0 v1 v2 : V3 K) (area : Nat) (thr : Int) (op : AddOp) : Prop :=
  ∃ x y : Nat, x < g.w ∧ y < g.h ∧ op.cell = x + y * g.w ∧
    op.span.area = area ∧ op.thr = thr ∧ op.span.Valid ∧ op.span.smax ≤ 65535 ∧
    (∃ p, InTri v0 v1 v2 p ∧ g.Near x y p ∧ (p.y - g.bmin.y) / g.ch < op.span.smin + 1) ∧
    (op.span.smax = op.span.smin + 1 ∨ (op.span.smax : K) < (g.bmax.y - g.bmin.y) / g.ch + 1 ∧
      ∃ p, InTri v0 v1 v2 p ∧ g.Near x y p ∧ (op.span.smax : K) < (p.y - g.bmin.y) / g.ch + 1) ∧
    (∃ p, InTri v0 v1 v2 p ∧ g.Near x y p ∧ (op.span.smin : K) ≤ (p.y - g.bmin.y) / g.ch) ∧
    (op.span.smin < 65535 → op.span.smin < op.span.smax)

/-- The span covers the point's height, in the cell of the point. -/
def SpanHas (g : Grid K) (x y : Nat) (p : V3 K) (op : AddOp) : Prop :=
  op.cell = x + y * g.w ∧ (op.span.smin : K) ≤ (p.y - g.bmin.y) / g.ch ∧
    (p.y - g.bmin.y) / g.ch ≤ op.span.smax

/-- The complete account of one triangle: the rasterisation never overruns a buffer; every span is
in the grid, valid and comes from points of the triangle near its cell; and every point of the
triangle over the inside of a cell and inside the box is in a span of that cell. -/
theorem rasterizeTri_spec {g : Grid K} (hcs : 0 < g.cs) (v0 v1 v2 : V3 K) (area : Nat) (thr : Int) :
    ∃ ops, rasterizeTri g v0 v1 v2 area thr = some ops ∧
    (g.Ok → ∀ op ∈ ops, SpanOf g v0 v1 v2 area thr op) ∧
    (g.Ok → ∀ (x y : Nat) (p : V3 K), x < g.w → y < g.h → InTri v0 v1 v2 p → g.Over x y p →
      g.InBox p → ∃ op ∈ ops, op.span.area = area ∧ SpanHas g x y p op) := by
  unfold rasterizeTri
  simp only
  by_cases hov : boxesOverlap g.bmin g.bmax ((v0.vmin v1).vmin v2) ((v0.vmax v1).vmax v2) = false
  · rw [if_pos hov]
    refine ⟨[], rfl, by simp, ?_⟩
    intro _ x y p _ _ hp _ hb
    exfalso
    obtain ⟨⟨a1, a2⟩, ⟨a3, a4⟩, ⟨a5, a6⟩⟩ := inTri_bounds hp
    obtain ⟨b1, b2, b3, b4, b5, b6⟩ := hb
    unfold boxesOverlap at hov
    rw [if_neg, if_neg, if_neg] at hov
    · simp at hov
    · rintro (h | h)
      · exact absurd h (not_lt.2 (b5.trans a6))
      · exact absurd h (not_lt.2 (a5.trans b6))
    · rintro (h | h)
      · exact absurd h (not_lt.2 (b3.trans a4))
      · exact absurd h (not_lt.2 (a3.trans b4))
    · rintro (h | h)
      · exact absurd h (not_lt.2 (b1.trans a2))
      · exact absurd h (not_lt.2 (a1.trans b2))
  · rw [if_neg hov]
    have hics : 0 < 1 / g.cs := div_pos zero_lt_one hcs
    set Z0 := truncI ((((v0.vmin v1).vmin v2).z - g.bmin.z) * (1 / g.cs)) with hZ0
    set Z1 := truncI ((((v0.vmax v1).vmax v2).z - g.bmin.z) * (1 / g.cs)) with hZ1
    obtain ⟨ps, hps, hks, hpieces⟩ := sweep_spec' (triMap v0 v1 v2) (triMap_mix v0 v1 v2) V3.z g.cutZ
      (fun k => by simp only [Grid.cutZ]; push_cast; linarith)
      (fun k => ⟨-(v1.z - v0.z), -(v2.z - v0.z), g.cutZ (k + 1) - v0.z⟩)
      (fun k q => by simp only [Aff.val, triMap]; ring)
      (fun y p => g.bmin.z + (y : K) * g.cs + g.cs - p.z)
      (fun k p => by simp only [Grid.cutZ]; push_cast; ring)
      3 (by omega) _ (clampI Z0 0 ((g.h : Int) - 1)) (clampI Z1 0 ((g.h : Int) - 1)) rfl corners
      (fun _ => -1) corners_convex (by right; simp [cnt, corners]) (fun _ _ => by linarith)
    rw [corners_map] at hps
    rw [hps]
    simp only [Option.bind_some]
    obtain ⟨ops, hops, hmem⟩ := rasterRows_spec (g := g) area thr ps (by
      rintro ⟨k, L⟩ hkL
      obtain ⟨qs', P⟩ := hpieces k L hkL
      obtain ⟨o, ho, -, -⟩ := rasterRow_spec hcs area thr k v0 v1 v2 qs' P.convex P.len
      exact ⟨o, by simp only; rw [P.img]; exact ho⟩)
    refine ⟨ops, hops, ?_, ?_⟩
    · intro hg op hop
      rw [hmem] at hop
      obtain ⟨⟨k, L⟩, hkL, o, ho, hop⟩ := hop
      simp only at ho
      obtain ⟨qs', P⟩ := hpieces k L hkL
      obtain ⟨o', ho', hsound, -⟩ := rasterRow_spec hcs area thr k v0 v1 v2 qs' P.convex P.len
      rw [← P.img, ho] at ho'
      rw [Option.some.inj ho'] at hop
      obtain ⟨x, qc, s, hs, rfl, hxr, hin, hx⟩ := hsound op hop
      obtain ⟨hx0, hxw⟩ := hxr hg.w
      have hk : k ∈ intRange (clampI Z0 0 ((g.h : Int) - 1)) (clampI Z1 0 ((g.h : Int) - 1)) := by
        rw [← hks]; exact List.mem_map.2 ⟨(k, L), hkL, rfl⟩
      rw [mem_intRange] at hk
      have hh := hg.h
      have hz0 := clampI_range (a := Z0) (lo := 0) (hi := (g.h : Int) - 1) (by omega)
      have hz1 := clampI_range (a := Z1) (lo := 0) (hi := (g.h : Int) - 1) (by omega)
      obtain ⟨s1, s2, ⟨plo, hplo, e1⟩, s4, ⟨pup, hpup, e3⟩, e4⟩ := cellSpan_sound hg hs
      have tri : ∀ q ∈ qc, InTri v0 v1 v2 (triMap v0 v1 v2 q) := fun q hq =>
        inTri_of (fun a ha => hin a (P.inside a ha) q hq)
      have kx : ((x.toNat : Nat) : K) = ((x : Int) : K) := by
        have : ((x.toNat : Int) : K) = ((x : Int) : K) := by congr 1; omega
        exact_mod_cast this
      have kz : ((k.toNat : Nat) : K) = ((k : Int) : K) := by
        have : ((k.toNat : Int) : K) = ((k : Int) : K) := by congr 1; omega
        exact_mod_cast this
      have near : ∀ q ∈ qc, g.Near x.toNat k.toNat (triMap v0 v1 v2 q) := by
        intro q hq
        obtain ⟨u1, u2⟩ := hx q hq
        have u3 : (triMap v0 v1 v2 q).z ≤ g.cutZ (k + 1) := by
          have := hin ⟨-(v1.z - v0.z), -(v2.z - v0.z), g.cutZ (k + 1) - v0.z⟩ (fun r hr => by
            have := P.upper r hr
            simp only [Aff.val, triMap] at this ⊢; linarith) q hq
          simp only [Aff.val, triMap] at this ⊢; linarith
        have u4 : g.cutZ k ≤ (triMap v0 v1 v2 q).z ∨ k ≤ 0 := by
          by_cases hk0 : k = clampI Z0 0 ((g.h : Int) - 1)
          · by_cases hkpos : k ≤ 0
            · right; exact hkpos
            · left
              have hkZ : k ≤ Z0 := by
                unfold clampI at hk0; split at hk0
                · omega
                · split at hk0 <;> omega
              have h1 : ((k.toNat : Nat) : K) ≤
                  (((v0.vmin v1).vmin v2).z - g.bmin.z) * (1 / g.cs) :=
                le_truncI (by rw [← hZ0]; omega) (by omega)
              rw [kz, mul_one_div, le_div_iff₀ hcs] at h1
              have := (inTri_bounds (tri q hq)).2.2.1
              simp only [Grid.cutZ]
              linarith
          · left
            have := hin ⟨v1.z - v0.z, v2.z - v0.z, v0.z - g.cutZ k⟩ (fun r hr => by
              have := P.lower hk0 r hr
              simp only [Aff.val, triMap] at this ⊢; linarith) q hq
            simp only [Aff.val, triMap] at this ⊢; linarith
        simp only [Grid.cutX, Grid.cutZ] at u1 u2 u3 u4
        push_cast at u1 u3
        refine ⟨?_, by rw [kx]; exact u1, ?_, by rw [kz]; exact u3⟩
        · rcases u2 with u2 | u2
          · left; rw [kx]; exact u2
          · right; omega
        · rcases u4 with u4 | u4
          · left; rw [kz]; exact u4
          · right; omega
      refine ⟨x.toNat, k.toNat, by omega, by omega, ?_, rfl, rfl, s1, s2, ?_, ?_, ?_, e4⟩
      · simp only
        have : x + k * (g.w : Int) = ((x.toNat + k.toNat * g.w : Nat) : Int) := by
          push_cast
          rw [Int.toNat_of_nonneg hx0, Int.toNat_of_nonneg (by omega)]
        rw [this, Int.toNat_natCast]
      · obtain ⟨q, hq, rfl⟩ := List.mem_map.1 hplo
        exact ⟨_, tri q hq, near q hq, e1⟩
      · rcases s4 with s4 | ⟨s5, phi, hphi, e2⟩
        · left; exact s4
        · right
          obtain ⟨q, hq, rfl⟩ := List.mem_map.1 hphi
          exact ⟨s5, _, tri q hq, near q hq, e2⟩
      · obtain ⟨q, hq, rfl⟩ := List.mem_map.1 hpup
        exact ⟨_, tri q hq, near q hq, e3⟩
    · intro hg x y p hx hy hp hover hbox
      obtain ⟨q, hq, rfl⟩ := inTri_hull hp
      obtain ⟨o1, o2, o3, o4⟩ := hover
      obtain ⟨b1, b2, b3, b4, b5, b6⟩ := hbox
      obtain ⟨-, -, ⟨t5, t6⟩⟩ := inTri_bounds hp
      have hz' : truncI (((triMap v0 v1 v2 q).z - g.bmin.z) * (1 / g.cs)) = y := by
        apply truncI_nat
        · rw [mul_one_div, le_div_iff₀ hcs]; linarith
        · rw [mul_one_div, div_lt_iff₀ hcs]; linarith
      have hZ0y : Z0 ≤ y := by
        rw [← hz']; exact truncI_mono (mul_le_mul_of_nonneg_right (by linarith) hics.le)
      have hZ1y : (y : Int) ≤ Z1 := by
        rw [← hz']; exact truncI_mono (mul_le_mul_of_nonneg_right (by linarith) hics.le)
      have hyr : (y : Int) ∈ intRange (clampI Z0 0 ((g.h : Int) - 1)) (clampI Z1 0 ((g.h : Int) - 1)) := by
        rw [mem_intRange, clampI_spec _ _ _ (by omega), clampI_spec _ _ _ (by omega)]
        omega
      rw [← hks, List.mem_map] at hyr
      obtain ⟨⟨k, L⟩, hkL, hk⟩ := hyr
      simp only at hk
      subst hk
      obtain ⟨qs', P⟩ := hpieces _ L hkL
      obtain ⟨c1, c2⟩ := P.covers (by simp [corners]) q hq
        (by simp only [Grid.cutZ]; push_cast; exact o3) (by simp only [Grid.cutZ]; push_cast; exact o4)
      obtain ⟨o, ho, -, hcov⟩ := rasterRow_spec hcs area thr (y : Int) v0 v1 v2 qs' P.convex P.len
      obtain ⟨qc, d1, d2, d3⟩ := hcov x q hx c2 c1
        (by simp only [Grid.cutX]; push_cast; exact o1) (by simp only [Grid.cutX]; push_cast; exact o2)
      have hne : qc.map (triMap v0 v1 v2) ≠ [] := by
        intro e
        rw [List.map_eq_nil_iff] at e
        rw [e] at d2; simp at d2
      have hlo : polyMin V3.y (qc.map (triMap v0 v1 v2)) ≤ (triMap v0 v1 v2 q).y := by
        have h6 := hull_val d1 ⟨v1.y - v0.y, v2.y - v0.y,
          v0.y - polyMin V3.y (qc.map (triMap v0 v1 v2))⟩ (fun r hr => by
          have := (polyMin_spec V3.y _ hne).1 (triMap v0 v1 v2 r) (List.mem_map.2 ⟨r, hr, rfl⟩)
          simp only [Aff.val, triMap] at this ⊢; linarith)
        simp only [Aff.val, triMap] at h6 ⊢
        linarith
      have hhi : (triMap v0 v1 v2 q).y ≤ polyMax V3.y (qc.map (triMap v0 v1 v2)) := by
        have h6 := hull_val d1 ⟨-(v1.y - v0.y), -(v2.y - v0.y),
          polyMax V3.y (qc.map (triMap v0 v1 v2)) - v0.y⟩ (fun r hr => by
          have := (polyMax_spec V3.y _ hne).1 (triMap v0 v1 v2 r) (List.mem_map.2 ⟨r, hr, rfl⟩)
          simp only [Aff.val, triMap] at this ⊢; linarith)
        simp only [Aff.val, triMap] at h6 ⊢
        linarith
      obtain ⟨s, hs, e1, e2⟩ := cellSpan_covers hg (by rw [List.length_map]; exact d2) hlo hhi b3 b4
      refine ⟨_, (hmem _).2 ⟨(_, L), hkL, o, by simp only; rw [P.img]; exact ho, d3 s hs⟩, rfl,
        ?_, e1, e2⟩
      simp only
      have : (x : Int) + (y : Int) * (g.w : Int) = ((x + y * g.w : Nat) : Int) := by push_cast; ring
      rw [this, Int.toNat_natCast]

/-- **C63.** Splitting a convex polygon (one where no affine function changes sign more than twice
around the boundary) of `n` points: both parts have at most `n + 1` points, are convex again, lie on
their side of the plane and inside every half plane of the polygon, and lose no point of it. -/
theorem divide_convex (g : Aff K) (L : List (Q2 K)) (hL : Convex L) :
    let r := divide g.val Q2.mix L
    r.1.length ≤ L.length + 1 ∧ r.2.length ≤ L.length + 1 ∧ Convex r.1 ∧ Convex r.2 ∧
    (∀ q ∈ r.1, 0 ≤ g.val q) ∧ (∀ q ∈ r.2, g.val q ≤ 0) ∧
    (∀ a : Aff K, (∀ q ∈ L, 0 ≤ a.val q) → ∀ q ∈ r.1 ++ r.2, 0 ≤ a.val q) ∧
    (∀ q, Hull L q → (0 ≤ g.val q → Hull r.1 q) ∧ (g.val q < 0 → Hull r.2 q)) := by
  have hlow : ctr (L.map (low g.val)) ≤ 2 := hL g
  obtain ⟨l1, l2, -⟩ := divide_len g.val Q2.mix L hlow
  obtain ⟨s1, s2, -⟩ := divide_sides g.val Q2.mix (fun p q h => cross_zero g p q h) L
  obtain ⟨c1, c2⟩ := hL.divide g
  refine ⟨l1, l2, c1, c2, s1, s2, ?_, fun q hq => divide_hull g L hL q hq⟩
  intro a ha q hq
  obtain ⟨h1, h2⟩ := divide_half g a L ha
  rw [List.mem_append] at hq
  exact hq.elim (h1 q) (h2 q)

/-- **C63.** No triangle overruns the scratch buffers: the outcome `none` never occurs. -/
theorem rasterizeTri_in_buffers (g : Grid K) (hcs : 0 < g.cs) (v0 v1 v2 : V3 K) (area : Nat)
    (thr : Int) : ∃ ops, rasterizeTri g v0 v1 v2 area thr = some ops := by
  obtain ⟨ops, h, -, -⟩ := rasterizeTri_spec hcs v0 v1 v2 area thr
  exact ⟨ops, h⟩

/-! ## Meshes -/

/-- Spec: triangle `i` of the mesh, with its area. -/
def TriAt (verts : List (V3 K)) (tris : List (Nat × Nat × Nat)) (areas : List Nat) (i : Nat)
    (v0 v1 v2 : V3 K) (area : Nat) : Prop :=
  ∃ a b c, tris[i]? = some (a, b, c) ∧ verts[a]? = some v0 ∧ verts[b]? = some v1 ∧
    verts[c]? = some v2 ∧ areas[i]? = some area

theorem rasterTris_spec {g : Grid K} (hg : g.Ok) (verts : List (V3 K)) (areas : List Nat) (thr : Int)
    (ts : List (Nat × Nat × Nat)) : ∀ i,
    (∀ t ∈ ts, t.1 < verts.length ∧ t.2.1 < verts.length ∧ t.2.2 < verts.length) →
    i + ts.length ≤ areas.length →
    ∃ ops, rasterTris g verts areas thr ts i = some ops ∧
      (∀ op ∈ ops, ∃ k v0 v1 v2 area, (∃ a b c, ts[k]? = some (a, b, c) ∧ verts[a]? = some v0 ∧
        verts[b]? = some v1 ∧ verts[c]? = some v2 ∧ areas[i + k]? = some area) ∧
        SpanOf g v0 v1 v2 area thr op) ∧
      (∀ k v0 v1 v2 area, (∃ a b c, ts[k]? = some (a, b, c) ∧ verts[a]? = some v0 ∧
        verts[b]? = some v1 ∧ verts[c]? = some v2 ∧ areas[i + k]? = some area) →
        ∀ (x y : Nat) p, x < g.w → y < g.h → InTri v0 v1 v2 p → g.Over x y p → g.InBox p →
          ∃ op ∈ ops, op.span.area = area ∧ SpanHas g x y p op) := by
  induction ts with
  | nil => intro i _ _; exact ⟨[], rfl, by simp, by simp⟩
  | cons t ts ih =>
    intro i ht hlen
    obtain ⟨a, b, c⟩ := t
    obtain ⟨h1, h2, h3⟩ := ht (a, b, c) List.mem_cons_self
    simp only at h1 h2 h3
    rw [List.length_cons] at hlen
    obtain ⟨rest, hrest, hs, hcov⟩ := ih (i + 1) (fun t h => ht t (List.mem_cons_of_mem _ h)) (by omega)
    obtain ⟨ops, hops, hs0, hc0⟩ := rasterizeTri_spec hg.cs verts[a] verts[b] verts[c]
      (areas[i]'(by omega)) thr
    refine ⟨ops ++ rest, ?_, ?_, ?_⟩
    · rw [rasterTris, List.getElem?_eq_getElem h1, List.getElem?_eq_getElem h2,
        List.getElem?_eq_getElem h3, List.getElem?_eq_getElem (by omega : i < areas.length)]
      simp [hops, hrest]
    · intro op hop
      rw [List.mem_append] at hop
      rcases hop with hop | hop
      · exact ⟨0, _, _, _, _, ⟨a, b, c, rfl, List.getElem?_eq_getElem h1,
          List.getElem?_eq_getElem h2, List.getElem?_eq_getElem h3,
          List.getElem?_eq_getElem (by omega : i < areas.length)⟩, hs0 hg op hop⟩
      · obtain ⟨k, v0, v1, v2, area, ⟨a', b', c', e, r⟩, hso⟩ := hs op hop
        refine ⟨k + 1, v0, v1, v2, area, ⟨a', b', c', by simpa using e, ?_⟩, hso⟩
        rw [show i + (k + 1) = i + 1 + k by omega]
        exact r
    · intro k v0 v1 v2 area hk x y p hx hy hp hov hb
      obtain ⟨a', b', c', e, r1, r2, r3, r4⟩ := hk
      cases k with
      | zero =>
        simp only [List.getElem?_cons_zero, Option.some.injEq, Prod.mk.injEq] at e
        obtain ⟨rfl, rfl, rfl⟩ := e
        rw [List.getElem?_eq_getElem h1] at r1
        rw [List.getElem?_eq_getElem h2] at r2
        rw [List.getElem?_eq_getElem h3] at r3
        rw [Nat.add_zero, List.getElem?_eq_getElem (by omega : i < areas.length)] at r4
        obtain rfl := Option.some.inj r1
        obtain rfl := Option.some.inj r2
        obtain rfl := Option.some.inj r3
        obtain rfl := Option.some.inj r4
        obtain ⟨op, hop, hr⟩ := hc0 hg x y p hx hy hp hov hb
        exact ⟨op, List.mem_append_left _ hop, hr⟩
      | succ k =>
        obtain ⟨op, hop, hr⟩ := hcov k v0 v1 v2 area ⟨a', b', c', by simpa using e, r1, r2, r3, by
          rw [show i + 1 + k = i + (k + 1) by omega]; exact r4⟩ x y p hx hy hp hov hb
        exact ⟨op, List.mem_append_right _ hop, hr⟩

/-- **C85.** Rasterising a mesh into an empty heightfield: the call ends without overrun, and every
point of a triangle that lies over the inside of a cell and inside the box is in a span added to
that cell with the triangle's area, and so in a solid span of that cell's column. -/
theorem rasterize_covers (g : Grid K) (hg : g.Ok) (verts : List (V3 K))
    (tris : List (Nat × Nat × Nat)) (areas : List Nat) (thr : Int)
    (hidx : ∀ t ∈ tris, t.1 < verts.length ∧ t.2.1 < verts.length ∧ t.2.2 < verts.length)
    (hareas : tris.length ≤ areas.length) :
    ∃ ops f h, rasterizeTriangles g verts tris areas thr = some ops ∧ runAdds f .empty ops = some h ∧
    ∀ i v0 v1 v2 area, TriAt verts tris areas i v0 v1 v2 area →
    ∀ (x y : Nat) p, x < g.w → y < g.h → InTri v0 v1 v2 p → g.Over x y p → g.InBox p →
      (∃ op ∈ ops, op.span.area = area ∧ op.thr = thr ∧ SpanHas g x y p op) ∧
      ∃ col, h.readCol f (x + y * g.w) = some col ∧
        ∃ s ∈ col, (s.smin : K) ≤ (p.y - g.bmin.y) / g.ch ∧ (p.y - g.bmin.y) / g.ch ≤ s.smax := by
  obtain ⟨ops, hops, hs, hcov⟩ := rasterTris_spec hg verts areas thr tris 0 hidx (by omega)
  have hv : ∀ op ∈ ops, op.span.Valid := by
    intro op hop
    obtain ⟨_, _, _, _, _, _, x, y, _, _, _, _, _, hv, _⟩ := hs op hop
    exact hv
  obtain ⟨h, hh, hcol⟩ := columns_cover ops hv (le_refl ops.length)
  refine ⟨ops, ops.length, h, hops, hh, ?_⟩
  intro i v0 v1 v2 area hi x y p hx hy hp hov hb
  obtain ⟨a, b, c, e, r1, r2, r3, r4⟩ := hi
  obtain ⟨op, hop, harea, hcell, hmin, hmax⟩ := hcov i v0 v1 v2 area
    ⟨a, b, c, e, r1, r2, r3, by rw [Nat.zero_add]; exact r4⟩ x y p hx hy hp hov hb
  obtain ⟨col, hread, hsol⟩ := hcol (x + y * g.w)
  have hthr : op.thr = thr := by
    obtain ⟨_, _, _, _, _, _, x', y', _, _, _, _, ht, _⟩ := hs op hop
    exact ht
  refine ⟨⟨op, hop, harea, hthr, hcell, hmin, hmax⟩, col, hread, ?_⟩
  set Y := (p.y - g.bmin.y) / g.ch with hY
  have hY0 : 0 ≤ Y := (Nat.cast_nonneg op.span.smin).trans hmin
  -- the voxel of the height
  have hf0 : 0 ≤ ⌊Y⌋ := Int.floor_nonneg.2 hY0
  have hfc : ((⌊Y⌋.toNat : Nat) : K) = ((⌊Y⌋ : Int) : K) := by
    have : ((⌊Y⌋.toNat : Int) : K) = ((⌊Y⌋ : Int) : K) := by congr 1; omega
    exact_mod_cast this
  have hfl := Int.floor_le Y
  have hfu := Int.lt_floor_add_one Y
  rw [← hfc] at hfl hfu
  set k := ⌊Y⌋.toNat with hk
  have hk1 : op.span.smin ≤ k := by
    have : (op.span.smin : K) < ((k + 1 : Nat) : K) := by push_cast; linarith
    have := Nat.cast_lt.1 this
    omega
  have hk2 : k ≤ op.span.smax := by
    have : ((k : Nat) : K) ≤ ((op.span.smax : Nat) : K) := by linarith
    exact Nat.cast_le.1 this
  rcases Nat.lt_or_ge k op.span.smax with hlt | hge
  · obtain ⟨s, hs', h1, h2⟩ := (hsol (2 * k + 1)).2 ⟨op, hop, hcell, by omega, by omega⟩
    have e1 : s.smin ≤ k := by omega
    have e2 : k + 1 ≤ s.smax := by omega
    refine ⟨s, hs', ?_, ?_⟩
    · have : (s.smin : K) ≤ (k : K) := Nat.cast_le.2 e1
      linarith
    · have : ((k + 1 : Nat) : K) ≤ (s.smax : K) := Nat.cast_le.2 e2
      push_cast at this
      linarith
  · have hkm : k = op.span.smax := by omega
    obtain ⟨s, hs', h1, h2⟩ := (hsol (2 * k)).2 ⟨op, hop, hcell, by omega, by omega⟩
    have e1 : s.smin ≤ k := by omega
    have e2 : k ≤ s.smax := by omega
    have hYk : Y ≤ (k : K) := by rw [hkm]; exact hmax
    refine ⟨s, hs', ?_, ?_⟩
    · have : (s.smin : K) ≤ (k : K) := Nat.cast_le.2 e1
      linarith
    · have : (k : K) ≤ (s.smax : K) := Nat.cast_le.2 e2
      linarith

/-- **C85.** `RasterizeTriangles2` on `n` consecutive triangles is `RasterizeTriangles` on the mesh with
the indices `0, 1, 2, 3, ...` (so `rasterize_covers` applies to it). -/
theorem rasterTris2_eq (g : Grid K) (verts : List (V3 K)) (areas : List Nat) (thr : Int) (n : Nat) :
    rasterTris2 g verts areas thr n 0 =
      rasterizeTriangles g verts ((List.range n).map fun i => (3 * i, 3 * i + 1, 3 * i + 2)) areas thr := by
  have key : ∀ n i, rasterTris2 g verts areas thr n i =
      rasterTris g verts areas thr ((List.range n).map fun j => (3 * (i + j), 3 * (i + j) + 1,
        3 * (i + j) + 2)) i := by
    intro n
    induction n with
    | zero => intro i; rfl
    | succ n ih =>
      intro i
      rw [rasterTris2, List.range_succ_eq_map, List.map_cons, List.map_map, rasterTris, ih (i + 1)]
      simp only [Nat.add_zero, Nat.mul_comm i 3]
      congr 1; funext v0; congr 1; funext v1; congr 1; funext v2; congr 1; funext ar
      congr 1; funext ops
      congr 2
      apply List.map_congr_left
      intro j _
      simp only [Function.comp, Nat.succ_eq_add_one]
      rw [show i + 1 + j = i + (j + 1) by omega]
  unfold rasterizeTriangles
  rw [key n 0]
  simp only [Nat.zero_add]

/-- **C85** (what is not proved: the converse for the cells of the first row and column, refuted
below). Every solid height of a column comes from a triangle: it lies in a voxel range between the
heights of two points of one triangle near that cell, widened to whole voxels and to at least one
voxel; columns of cells outside the grid stay empty. -/
theorem rasterize_only_partial (g : Grid K) (hg : g.Ok) (verts : List (V3 K))
    (tris : List (Nat × Nat × Nat)) (areas : List Nat) (thr : Int)
    (hidx : ∀ t ∈ tris, t.1 < verts.length ∧ t.2.1 < verts.length ∧ t.2.2 < verts.length)
    (hareas : tris.length ≤ areas.length) :
    ∃ ops f h, rasterizeTriangles g verts tris areas thr = some ops ∧ runAdds f .empty ops = some h ∧
    ∀ cell, ∃ col, h.readCol f cell = some col ∧ ∀ hh, Solid col hh →
      ∃ i v0 v1 v2 area, TriAt verts tris areas i v0 v1 v2 area ∧
      ∃ x y : Nat, x < g.w ∧ y < g.h ∧ cell = x + y * g.w ∧
      ∃ lo hi : Nat, 2 * lo ≤ hh ∧ hh ≤ 2 * hi ∧ hi ≤ 65535 ∧
        (∃ p, InTri v0 v1 v2 p ∧ g.Near x y p ∧ (p.y - g.bmin.y) / g.ch < lo + 1) ∧
        (hi = lo + 1 ∨ (hi : K) < (g.bmax.y - g.bmin.y) / g.ch + 1 ∧
          ∃ p, InTri v0 v1 v2 p ∧ g.Near x y p ∧ (hi : K) < (p.y - g.bmin.y) / g.ch + 1) ∧
        (∃ p, InTri v0 v1 v2 p ∧ g.Near x y p ∧ (lo : K) ≤ (p.y - g.bmin.y) / g.ch) := by
  obtain ⟨ops, hops, hs, hcov⟩ := rasterTris_spec hg verts areas thr tris 0 hidx (by omega)
  have hv : ∀ op ∈ ops, op.span.Valid := by
    intro op hop
    obtain ⟨_, _, _, _, _, _, x, y, _, _, _, _, _, hv, _⟩ := hs op hop
    exact hv
  obtain ⟨h, hh, hcol⟩ := columns_cover ops hv (le_refl ops.length)
  refine ⟨ops, ops.length, h, hops, hh, ?_⟩
  intro cell
  obtain ⟨col, hread, hsol⟩ := hcol cell
  refine ⟨col, hread, fun y' hy' => ?_⟩
  obtain ⟨op, hop, hcell, h1, h2⟩ := (hsol y').1 hy'
  obtain ⟨i, v0, v1, v2, area, ⟨a, b, c, e, r1, r2, r3, r4⟩, x, y, hx, hy, ec, _, _, _, h65, hlo, hhi, hup, -⟩ :=
    hs op hop
  rw [Nat.zero_add] at r4
  exact ⟨i, v0, v1, v2, area, ⟨a, b, c, e, r1, r2, r3, r4⟩, x, y, hx, hy, by rw [← hcell, ec],
    op.span.smin, op.span.smax, h1, h2, h65, hlo, hhi, hup⟩

end

/-! ## Examples -/

/-- A grid of 4 by 4 cells of size 1 with voxels of height 1. -/
def exGrid : Grid ℚ := ⟨⟨0, 0, 0⟩, ⟨4, 10, 4⟩, 1, 1, 4, 4⟩

example : exGrid.Ok := by
  constructor <;> norm_num [exGrid]

/-- A sloped triangle over several cells is rasterised into spans. -/
example : (rasterizeTri exGrid ⟨1/2, 1, 1/2⟩ ⟨7/2, 4, 1/2⟩ ⟨1/2, 1, 7/2⟩ 63 1).map
    (fun o => o.map fun op => (op.cell, op.span.smin, op.span.smax)) =
    some [(0, 1, 2), (1, 1, 3), (2, 2, 4), (3, 3, 4), (4, 1, 2), (5, 1, 3), (6, 2, 4), (8, 1, 2),
      (9, 1, 3), (12, 1, 2)] := by
  decide +kernel

/-- A point of that triangle over the inside of cell `(1, 1)`. -/
example : InTri (⟨1/2, 1, 1/2⟩ : V3 ℚ) ⟨7/2, 4, 1/2⟩ ⟨1/2, 1, 7/2⟩ ⟨3/2, 2, 3/2⟩ ∧
    exGrid.Over 1 1 ⟨3/2, 2, 3/2⟩ ∧ exGrid.InBox ⟨3/2, 2, 3/2⟩ := by
  refine ⟨⟨1/3, 1/3, 1/3, by norm_num, by norm_num, by norm_num, by norm_num, ?_⟩, ?_, ?_⟩
  · norm_num
  · norm_num [exGrid, Grid.Over]
  · norm_num [exGrid, Grid.InBox]

/-- A mesh of two triangles sharing an edge meets the hypotheses of `rasterize_covers`. -/
example : (∀ t ∈ [((0 : Nat), (1 : Nat), (2 : Nat)), (0, 2, 3)], t.1 < 4 ∧ t.2.1 < 4 ∧ t.2.2 < 4) := by
  decide

/-- A convex quadrilateral (the unit square) in the sense of `Convex`, obtained by splitting a
triangle, is split again with at most one more point. -/
example : ((divide (fun q : Q2 ℚ => 1 - q.u) Q2.mix [⟨0, 0⟩, ⟨2, 0⟩, ⟨0, 2⟩]).1.length,
    (divide (fun q : Q2 ℚ => 1 - q.u) Q2.mix [⟨0, 0⟩, ⟨2, 0⟩, ⟨0, 2⟩]).2.length) = (4, 3) := by
  decide +kernel

/-- **C85** refuted for the border cells: only the part of a triangle over a cell should be
rasterised into it, but the first column also receives the part of the triangle left of the grid.
Here the triangle is below height 1 everywhere over the grid and yet the span of cell `(0, 0)`
reaches 9. -/
theorem rasterize_border_refuted :
    ∃ v0 v1 v2 : V3 ℚ, ∃ ops, rasterizeTri exGrid v0 v1 v2 63 1 = some ops ∧
      (∃ op ∈ ops, op.cell = 0 ∧ op.span.smin = 0 ∧ op.span.smax = 9) ∧
      ∀ p, InTri v0 v1 v2 p → 0 ≤ p.x → p.y < 1 := by
  refine ⟨⟨-8, 9, 1/4⟩, ⟨1/2, 0, 1/4⟩, ⟨1/2, 0, 3/4⟩, [⟨0, ⟨0, 9, 63⟩, 1⟩], ?_, ?_, ?_⟩
  · have key : (rasterizeTri exGrid ⟨-8, 9, 1/4⟩ ⟨1/2, 0, 1/4⟩ ⟨1/2, 0, 3/4⟩ 63 1).map
        (fun o => o.map fun op => (op.cell, op.span, op.thr)) = some [(0, ⟨0, 9, 63⟩, 1)] := by
      decide +kernel
    cases h : rasterizeTri exGrid ⟨-8, 9, 1/4⟩ ⟨1/2, 0, 1/4⟩ ⟨1/2, 0, 3/4⟩ 63 1 with
    | none => rw [h] at key; simp at key
    | some o =>
      rw [h] at key
      simp only [Option.map_some, Option.some.injEq] at key
      cases o with
      | nil => simp at key
      | cons op t =>
        obtain rfl : t = [] := by
          cases t with
          | nil => rfl
          | cons a b => simp at key
        simp only [List.map_cons, List.map_nil, List.cons.injEq, Prod.mk.injEq, and_true] at key
        obtain ⟨k1, k2, k3⟩ := key
        cases op
        simp only at k1 k2 k3
        rw [k1, k2, k3]
  · exact ⟨_, List.mem_singleton.2 rfl, rfl, rfl, rfl⟩
  · rintro p ⟨a, b, c, ha, hb, hc, hs, rfl⟩ hx
    simp only at hx ⊢
    linarith

end Verif.Recast
