/-
`NavMeshQuery.FindNearestPoly` (detour/query.go:1113-1131) with `queryPolygons4` (1193-1221), the search box of
`queryPolygonsInTile` (1224-1276), `findNearestPolyQuery.process` (detour/polyquery.go:40-73), `CalcTileLoc`
(detour/mesh.go:1649-1653) and the boxes of `createBVTree` (detour/navmeshcreate.go:260-291), in exact arithmetic.

Simplifications: `float32` is replaced by an arbitrary linearly ordered field with integer parts; `int32` tile
coordinates do not overflow. `at x y` is what `TilesAt` finds at a place (at most 32 tiles, see C04). Tiles have a tree,
as `CreateNavMeshData` makes them with detail meshes (see C34).
-/
import Verif.Detour.ClosestPoint
import Verif.Detour.BvTree
import Mathlib.Algebra.Order.Floor.Ring
import Mathlib.Algebra.Order.Floor.Semiring
import Mathlib.Data.Rat.Floor

set_option linter.unusedVariables false
set_option linter.unusedSimpArgs false
set_option linter.unusedSectionVars false

namespace Verif.Detour
open Verif

variable {K : Type} [Field K] [LinearOrder K] [IsStrictOrderedRing K] [FloorRing K]

/-! ## Model -/

/-- The bounds of a polygon: those of its detail vertices (detour/navmeshcreate.go:270-281). -/
def boundsOf (dv : List (V3 K)) : V3 K × V3 K :=
  match dv with
  | [] => (⟨0, 0, 0⟩, ⟨0, 0, 0⟩)
  | v :: l => (l.foldl V3.vmin v, l.foldl V3.vmax v)

/-- `uint16(int32Clamp(int32(v), 0, 0xffff))` (detour/navmeshcreate.go:284-290): the conversion to `int32` rounds towards zero. -/
def quantItem (v : K) : U16 := BitVec.ofNat 16 (min ⌊v⌋₊ 0xffff)

/-- The box of a tree leaf (detour/navmeshcreate.go:283-290). -/
def itemBox (bmin : V3 K) (qf : K) (lo hi : V3 K) : QBox :=
  ⟨quantItem ((lo.x - bmin.x) * qf), quantItem ((lo.y - bmin.y) * qf), quantItem ((lo.z - bmin.z) * qf),
   quantItem ((hi.x - bmin.x) * qf), quantItem ((hi.y - bmin.y) * qf), quantItem ((hi.z - bmin.z) * qf)⟩

/-- `f32.Clamp`. -/
def clampK (v lo hi : K) : K := if v < lo then lo else if hi < v then hi else v

/-- `uint16(v) & 0xfffe` (detour/query.go:1266-1268). -/
def quantLo (v : K) : U16 := BitVec.ofNat 16 ⌊v⌋₊ &&& 0xfffe#16

/-- `uint16(v + 1) | 1` (detour/query.go:1269-1271). -/
def quantHi (v : K) : U16 := BitVec.ofNat 16 ⌊v + 1⌋₊ ||| 1#16

/-- The quantized search box in a tile (detour/query.go:1250-1271). -/
def searchBox (bmin bmax : V3 K) (qf : K) (qmin qmax : V3 K) : QBox :=
  ⟨quantLo (qf * (clampK qmin.x bmin.x bmax.x - bmin.x)), quantLo (qf * (clampK qmin.y bmin.y bmax.y - bmin.y)),
   quantLo (qf * (clampK qmin.z bmin.z bmax.z - bmin.z)),
   quantHi (qf * (clampK qmax.x bmin.x bmax.x - bmin.x)), quantHi (qf * (clampK qmax.y bmin.y bmax.y - bmin.y)),
   quantHi (qf * (clampK qmax.z bmin.z bmax.z - bmin.z))⟩

/-- What the search reads of a polygon: its detail vertices (for the tree), its vertices and detail triangles. -/
structure PolyData (K : Type) where
  dv : List (V3 K)
  vs : List (V3 K)
  tris : List (V3 K × V3 K × V3 K)

/-- What the search reads of a tile: reference base, header and polygons (off-mesh connections not among them). -/
structure QTile (K : Type) where
  base : U32
  bmin : V3 K
  bmax : V3 K
  qf : K
  climb : K
  polys : List (PolyData K)

/-- The leaf boxes of a tile (detour/navmeshcreate.go:262-291). -/
def QTile.boxes (t : QTile K) : List QBox :=
  t.polys.map fun p => itemBox t.bmin t.qf (boundsOf p.dv).1 (boundsOf p.dv).2

/-- The state of the query: `nearestRef`, `nearestDistanceSqr`, `nearestPoint` (detour/polyquery.go:14-38). -/
structure Nearest (K : Type) where
  ref : U32
  d : K
  pt : V3 K

/-- The distance that counts (detour/polyquery.go:53-66). -/
def nearDist (climb : K) (pos : V3 K) (c : V3 K × Bool) : K :=
  if c.2 then
    let d := |pos.y - c.1.y| - climb
    if 0 < d then d * d else 0
  else spaceSq c.1 pos

/-- One polygon (detour/polyquery.go:42-72); `ref` is `base | p`. -/
def nearStep (eps : K) (pos : V3 K) (t : QTile K) (b : Nearest K) (p : Nat) : Nearest K :=
  match t.polys[p]? with
  | none => b
  | some g =>
    let c := closestOnPoly eps g.vs g.tris pos
    let d := nearDist t.climb pos c
    if d < b.d then ⟨t.base ||| BitVec.ofNat 32 p, d, c.1⟩ else b

/-- `q.nav.CalcTileLoc` (detour/mesh.go:1649-1653). -/
def tileLoc (orig : V3 K) (tw th : K) (pos : V3 K) : Int × Int := (⌊(pos.x - orig.x) / tw⌋, ⌊(pos.z - orig.z) / th⌋)

/-- `for i := lo; i <= hi; i++`. -/
def upTo (lo hi : Int) : List Int := (List.range (hi + 1 - lo).toNat).map fun (i : Nat) => lo + (i : Int)

/-- The places of the grid that are searched, in order (detour/query.go:1203-1213). -/
def searchCells (orig : V3 K) (tw th : K) (qmin qmax : V3 K) : List (Int × Int) :=
  (upTo (tileLoc orig tw th qmin).2 (tileLoc orig tw th qmax).2).flatMap fun y =>
    (upTo (tileLoc orig tw th qmin).1 (tileLoc orig tw th qmax).1).map fun x => (x, y)

/-- A mesh as the search sees it. -/
structure QMesh (K : Type) where
  orig : V3 K
  tw : K
  th : K
  tiles : Int → Int → List (QTile K)

/-- The tiles searched (detour/query.go:1211-1218). -/
def QMesh.searched (m : QMesh K) (qmin qmax : V3 K) : List (QTile K) :=
  (searchCells m.orig m.tw m.th qmin qmax).flatMap fun c => m.tiles c.1 c.2

/-- The polygons of a tile that are handed to the query, in order (detour/query.go:1224-1348): the walk of `queryBuilt`,
with the polygon numbers in place of the references `base | p`. The batches do not matter to `process`, which goes through
them one by one. `none` is an index out of range. -/
def tileHits (srt : Nat → List BvItem → List BvItem) (pass : U32 → Bool) (t : QTile K) (qmin qmax : V3 K) : Option (List Nat) :=
  (queryBuilt srt t.boxes (searchBox t.bmin t.bmax t.qf qmin qmax) 0#32 t.polys.length
    fun p => pass (t.base ||| BitVec.ofNat 32 p)).map fun bs => bs.flatten.map BitVec.toNat

/-- `queryPolygons4` with `findNearestPolyQuery` (detour/query.go:1193-1221). -/
def nearestTiles (srt : Nat → List BvItem → List BvItem) (eps : K) (pass : U32 → Bool) (pos qmin qmax : V3 K) :
    List (QTile K) → Nearest K → Option (Nearest K)
  | [], b => some b
  | t :: ts, b =>
    (tileHits srt pass t qmin qmax).bind fun ps =>
      nearestTiles srt eps pass pos qmin qmax ts (ps.foldl (nearStep eps pos t) b)

/-- `FindNearestPoly` (detour/query.go:1113-1131): `ref`, and `pt` if `ref` is not 0; `top` is `math.MaxFloat32`. -/
def findNearest (srt : Nat → List BvItem → List BvItem) (eps top : K) (pass : U32 → Bool) (m : QMesh K) (center ext : V3 K) :
    Option (U32 × Option (V3 K)) :=
  let qmin := center.sub ext
  let qmax : V3 K := ⟨center.x + ext.x, center.y + ext.y, center.z + ext.z⟩
  (nearestTiles srt eps pass center qmin qmax (m.searched qmin qmax) ⟨0#32, top, ⟨0, 0, 0⟩⟩).map fun b =>
    (b.ref, if b.ref ≠ 0#32 then some b.pt else none)

/-! ## Specification -/

/-- The point `p` lies in the bounds of the vertices: in each direction some vertex is below it and some above. -/
def InBounds (dv : List (V3 K)) (p : V3 K) : Prop :=
  ((∃ v ∈ dv, v.x ≤ p.x) ∧ ∃ v ∈ dv, p.x ≤ v.x) ∧ ((∃ v ∈ dv, v.y ≤ p.y) ∧ ∃ v ∈ dv, p.y ≤ v.y) ∧
    ((∃ v ∈ dv, v.z ≤ p.z) ∧ ∃ v ∈ dv, p.z ≤ v.z)

/-- The point `p` lies in the search box. -/
def InSearch (center ext p : V3 K) : Prop := |p.x - center.x| ≤ ext.x ∧ |p.y - center.y| ≤ ext.y ∧ |p.z - center.z| ≤ ext.z

/-- A tile as the mesh builder makes it: something is in it, its polygons lie in its box, and its box has less than
65535 cells in each direction. -/
structure QTile.Good (t : QTile K) : Prop where
  polys : t.polys ≠ []
  few : t.polys.length < 2 ^ 32
  qf : 0 < t.qf
  fitx : t.qf * (t.bmax.x - t.bmin.x) + 1 < 65536
  fity : t.qf * (t.bmax.y - t.bmin.y) + 1 < 65536
  fitz : t.qf * (t.bmax.z - t.bmin.z) + 1 < 65536
  full : ∀ g ∈ t.polys, g.dv ≠ []
  within : ∀ g ∈ t.polys, ∀ v ∈ g.dv, (t.bmin.x ≤ v.x ∧ v.x ≤ t.bmax.x) ∧ (t.bmin.y ≤ v.y ∧ v.y ≤ t.bmax.y) ∧
    (t.bmin.z ≤ v.z ∧ v.z ≤ t.bmax.z)

/-- The tile `t` of the mesh `m` lies at (`x`, `y`) of the grid, in its place. -/
structure QMesh.Holds (m : QMesh K) (x y : Int) (t : QTile K) : Prop where
  mem : t ∈ m.tiles x y
  left : m.orig.x + x * m.tw ≤ t.bmin.x
  right : t.bmax.x ≤ m.orig.x + (x + 1) * m.tw
  near : m.orig.z + y * m.th ≤ t.bmin.z
  far : t.bmax.z ≤ m.orig.z + (y + 1) * m.th

/-- `v` is less than `r` below `lo` or above `hi`. -/
def Around (r lo hi v w : K) : Prop := v < hi + r ∧ lo - r < w

/-! ## Quantized numbers -/

theorem toNat_quantItem (v : K) : (quantItem v).toNat = min ⌊v⌋₊ 65535 := by
  unfold quantItem
  rw [BitVec.toNat_ofNat, Nat.mod_eq_of_lt]
  omega

theorem quantItem_mono {v w : K} (h : v ≤ w) : (quantItem v).toNat ≤ (quantItem w).toNat := by
  rw [toNat_quantItem, toNat_quantItem]
  have := Nat.floor_mono h
  omega

theorem toNat_quantLo {v : K} (h : v < 65536) : (quantLo v).toNat ≤ ⌊v⌋₊ ∧ ⌊v⌋₊ ≤ (quantLo v).toNat + 1 := by
  have h1 : ⌊v⌋₊ < 65536 := by
    rcases lt_or_ge v 0 with hv | hv
    · rw [Nat.floor_of_nonpos hv.le]; omega
    · exact (Nat.floor_lt hv).2 (by exact_mod_cast h)
  unfold quantLo
  rw [BitVec.toNat_and, BitVec.toNat_ofNat, Nat.mod_eq_of_lt (by omega)]
  generalize ⌊v⌋₊ = n at *
  refine ⟨Nat.and_le_left, ?_⟩
  have h2 : (n &&& 65534) / 2 = n / 2 := by
    rw [Nat.and_div_two, show 65534 / 2 = 2 ^ 15 - 1 from rfl, Nat.and_two_pow_sub_one_eq_mod, Nat.mod_eq_of_lt (by omega)]
  have : (0xfffe#16).toNat = 65534 := rfl
  rw [this]
  omega

theorem toNat_quantHi {v : K} (h : v + 1 < 65536) : ⌊v + 1⌋₊ ≤ (quantHi v).toNat ∧ (quantHi v).toNat ≤ ⌊v + 1⌋₊ + 1 := by
  have h1 : ⌊v + 1⌋₊ < 65536 := by
    rcases lt_or_ge (v + 1) 0 with hv | hv
    · rw [Nat.floor_of_nonpos hv.le]; omega
    · exact (Nat.floor_lt hv).2 (by exact_mod_cast h)
  unfold quantHi
  rw [BitVec.toNat_or, BitVec.toNat_ofNat, Nat.mod_eq_of_lt (by omega)]
  generalize ⌊v + 1⌋₊ = n at *
  have : (1#16).toNat = 1 := rfl
  rw [this]
  refine ⟨Nat.left_le_or, ?_⟩
  have h2 : (n ||| 1) / 2 = n / 2 := by rw [Nat.or_div_two]; simp
  omega

/-! ## One direction -/

theorem clampK_le {v lo hi w : K} (h : lo ≤ hi) (hv : v ≤ w) (hl : lo ≤ w) : clampK v lo hi ≤ w := by
  unfold clampK
  split
  · exact hl
  · split
    · linarith
    · exact hv

theorem le_clampK {v lo hi w : K} (h : lo ≤ hi) (hv : w ≤ v) (hl : w ≤ hi) : w ≤ clampK v lo hi := by
  unfold clampK
  split
  · linarith
  · split
    · exact hl
    · exact hv

theorem clampK_mono {v w lo hi : K} (h : lo ≤ hi) (hv : v ≤ w) : clampK v lo hi ≤ clampK w lo hi := by
  unfold clampK
  split <;> split <;> (try split) <;> (try split) <;> linarith

/-- In one direction: what touches the search interval also does after quantization. -/
theorem axis_meets {b0 b1 qf lo hi q0 q1 : K} (hb : b0 ≤ b1) (hq : 0 < qf) (hfit : qf * (b1 - b0) + 1 < 65536)
    (h1 : q0 ≤ hi) (h2 : lo ≤ q1) (h3 : b0 ≤ hi) (h4 : lo ≤ b1) :
    (quantLo (qf * (clampK q0 b0 b1 - b0))).toNat ≤ (quantItem ((hi - b0) * qf)).toNat ∧
      (quantItem ((lo - b0) * qf)).toNat ≤ (quantHi (qf * (clampK q1 b0 b1 - b0))).toNat := by
  have c0 : qf * (clampK q0 b0 b1 - b0) ≤ qf * (b1 - b0) :=
    mul_le_mul_of_nonneg_left (by have := clampK_le (v := q0) (w := max q0 b1) hb (le_max_left _ _) (hb.trans (le_max_right _ _)); unfold clampK; split <;> (try split) <;> linarith) hq.le
  have c1 : qf * (clampK q1 b0 b1 - b0) ≤ qf * (b1 - b0) :=
    mul_le_mul_of_nonneg_left (by unfold clampK; split <;> (try split) <;> linarith) hq.le
  constructor
  · have e1 := (toNat_quantLo (v := qf * (clampK q0 b0 b1 - b0)) (by linarith)).1
    have e3 : ⌊qf * (clampK q0 b0 b1 - b0)⌋₊ ≤ ⌊(hi - b0) * qf⌋₊ := by
      refine Nat.floor_mono ?_
      rw [mul_comm]
      exact mul_le_mul_of_nonneg_right (by have := clampK_le hb h1 h3; linarith) hq.le
    have e4 := (quantLo (qf * (clampK q0 b0 b1 - b0))).isLt
    rw [toNat_quantItem]
    omega
  · have e1 := (toNat_quantHi (v := qf * (clampK q1 b0 b1 - b0)) (by linarith)).1
    have e3 : ⌊(lo - b0) * qf⌋₊ ≤ ⌊qf * (clampK q1 b0 b1 - b0) + 1⌋₊ := by
      refine Nat.floor_mono ?_
      have : (lo - b0) * qf ≤ qf * (clampK q1 b0 b1 - b0) := by
        rw [mul_comm]
        exact mul_le_mul_of_nonneg_left (by have := le_clampK hb h2 h4; linarith) hq.le
      linarith
    rw [toNat_quantItem]
    omega

/-- In one direction: what touches after quantization is less than three cells away from the search interval, cut to the
box of the tile. -/
theorem axis_near {b0 b1 qf lo hi q0 q1 : K} (hb : b0 ≤ b1) (hq : 0 < qf) (hfit : qf * (b1 - b0) + 1 < 65536)
    (hlo : lo ≤ b1) (hhi : b0 ≤ hi)
    (h1 : (quantLo (qf * (clampK q0 b0 b1 - b0))).toNat ≤ (quantItem ((hi - b0) * qf)).toNat)
    (h2 : (quantItem ((lo - b0) * qf)).toNat ≤ (quantHi (qf * (clampK q1 b0 b1 - b0))).toNat) :
    Around (3 / qf) (clampK q0 b0 b1) (clampK q1 b0 b1) lo hi := by
  have c0 : qf * (clampK q0 b0 b1 - b0) ≤ qf * (b1 - b0) :=
    mul_le_mul_of_nonneg_left (by unfold clampK; split <;> (try split) <;> linarith) hq.le
  have c1 : qf * (clampK q1 b0 b1 - b0) ≤ qf * (b1 - b0) :=
    mul_le_mul_of_nonneg_left (by unfold clampK; split <;> (try split) <;> linarith) hq.le
  have n0 : 0 ≤ qf * (clampK q0 b0 b1 - b0) :=
    mul_nonneg hq.le (by unfold clampK; split <;> (try split) <;> linarith)
  have n1 : 0 ≤ qf * (clampK q1 b0 b1 - b0) :=
    mul_nonneg hq.le (by unfold clampK; split <;> (try split) <;> linarith)
  have ql : (lo - b0) * qf ≤ qf * (b1 - b0) := by
    rw [mul_comm]; exact mul_le_mul_of_nonneg_left (by linarith) hq.le
  have qh : 0 ≤ (hi - b0) * qf := mul_nonneg (by linarith) hq.le
  rw [toNat_quantItem] at h1 h2
  have d3 : 3 / qf * qf = 3 := div_mul_cancel₀ _ hq.ne'
  constructor
  · have e1 := (toNat_quantHi (v := qf * (clampK q1 b0 b1 - b0)) (by linarith)).2
    rw [Nat.floor_add_one n1] at e1
    have e2 : ⌊(lo - b0) * qf⌋₊ < 65536 := by
      rcases lt_or_ge ((lo - b0) * qf) 0 with hv | hv
      · rw [Nat.floor_of_nonpos hv.le]; omega
      · exact (Nat.floor_lt hv).2 (by push_cast; linarith)
    have e3 : ⌊(lo - b0) * qf⌋₊ ≤ ⌊qf * (clampK q1 b0 b1 - b0)⌋₊ + 2 := by omega
    have e4 := Nat.lt_floor_add_one ((lo - b0) * qf)
    have e5 := Nat.floor_le n1
    have e6 : ((⌊(lo - b0) * qf⌋₊ : ℕ) : K) ≤ (⌊qf * (clampK q1 b0 b1 - b0)⌋₊ : K) + 2 := by exact_mod_cast e3
    have e7 : (lo - b0) * qf < (clampK q1 b0 b1 - b0 + 3 / qf) * qf := by
      rw [add_mul, d3, mul_comm (clampK q1 b0 b1 - b0)]
      linarith
    have := lt_of_mul_lt_mul_right e7 hq.le
    linarith
  · have e1 := (toNat_quantLo (v := qf * (clampK q0 b0 b1 - b0)) (by linarith)).2
    have e3 : ⌊qf * (clampK q0 b0 b1 - b0)⌋₊ ≤ ⌊(hi - b0) * qf⌋₊ + 1 := by omega
    have e4 := Nat.lt_floor_add_one (qf * (clampK q0 b0 b1 - b0))
    have e5 := Nat.floor_le qh
    have e6 : ((⌊qf * (clampK q0 b0 b1 - b0)⌋₊ : ℕ) : K) ≤ (⌊(hi - b0) * qf⌋₊ : K) + 1 := by exact_mod_cast e3
    have e7 : (clampK q0 b0 b1 - b0 - 3 / qf) * qf < (hi - b0) * qf := by
      rw [sub_mul, d3, mul_comm (clampK q0 b0 b1 - b0)]
      linarith
    have := lt_of_mul_lt_mul_right e7 hq.le
    linarith

/-! ## Bounds -/

theorem foldl_low {α : Type} (f : α → K) (g : α → α → α) (hg : ∀ a b, f (g a b) = min (f a) (f b)) (l : List α) :
    ∀ v, (∀ w ∈ v :: l, f (l.foldl g v) ≤ f w) ∧ ∃ w ∈ v :: l, f (l.foldl g v) = f w := by
  induction l with
  | nil => intro v; simp
  | cons u l ih =>
    intro v
    obtain ⟨h1, w, hw, h2⟩ := ih (g v u)
    rw [List.foldl_cons]
    have h0 := h1 _ List.mem_cons_self
    rw [hg] at h0
    refine ⟨?_, ?_⟩
    · intro w hw
      rcases List.mem_cons.1 hw with rfl | hw
      · exact h0.trans (min_le_left _ _)
      · rcases List.mem_cons.1 hw with rfl | hw
        · exact h0.trans (min_le_right _ _)
        · exact h1 _ (List.mem_cons_of_mem _ hw)
    · rcases List.mem_cons.1 hw with rfl | hw
      · rw [hg] at h2
        rcases min_choice (f v) (f u) with h | h
        · exact ⟨v, by simp, h2.trans h⟩
        · exact ⟨u, by simp, h2.trans h⟩
      · exact ⟨w, by simp [hw], h2⟩

theorem foldl_high {α : Type} (f : α → K) (g : α → α → α) (hg : ∀ a b, f (g a b) = max (f a) (f b)) (l : List α) (v : α) :
    (∀ w ∈ v :: l, f w ≤ f (l.foldl g v)) ∧ ∃ w ∈ v :: l, f (l.foldl g v) = f w := by
  obtain ⟨h1, w, hw, h2⟩ := foldl_low (fun a => - f a) g (fun a b => by
    rw [hg]
    rcases le_total (f a) (f b) with h | h
    · rw [max_eq_right h, min_eq_right (neg_le_neg h)]
    · rw [max_eq_left h, min_eq_left (neg_le_neg h)]) l v
  exact ⟨fun w hw => by have := h1 w hw; linarith, w, hw, by linarith⟩

/-- What the bounds of a polygon are. -/
theorem boundsOf_spec {dv : List (V3 K)} (h : dv ≠ []) :
    (∀ w ∈ dv, ((boundsOf dv).1.x ≤ w.x ∧ w.x ≤ (boundsOf dv).2.x) ∧ ((boundsOf dv).1.y ≤ w.y ∧ w.y ≤ (boundsOf dv).2.y) ∧
      ((boundsOf dv).1.z ≤ w.z ∧ w.z ≤ (boundsOf dv).2.z)) ∧
    ((∃ w ∈ dv, (boundsOf dv).1.x = w.x) ∧ ∃ w ∈ dv, (boundsOf dv).2.x = w.x) ∧
    ((∃ w ∈ dv, (boundsOf dv).1.y = w.y) ∧ ∃ w ∈ dv, (boundsOf dv).2.y = w.y) ∧
    ((∃ w ∈ dv, (boundsOf dv).1.z = w.z) ∧ ∃ w ∈ dv, (boundsOf dv).2.z = w.z) := by
  cases dv with
  | nil => exact absurd rfl h
  | cons v l =>
    have x1 := foldl_low V3.x V3.vmin (fun _ _ => rfl) l v
    have y1 := foldl_low V3.y V3.vmin (fun _ _ => rfl) l v
    have z1 := foldl_low V3.z V3.vmin (fun _ _ => rfl) l v
    have x2 := foldl_high V3.x V3.vmax (fun _ _ => rfl) l v
    have y2 := foldl_high V3.y V3.vmax (fun _ _ => rfl) l v
    have z2 := foldl_high V3.z V3.vmax (fun _ _ => rfl) l v
    exact ⟨fun w hw => ⟨⟨x1.1 w hw, x2.1 w hw⟩, ⟨y1.1 w hw, y2.1 w hw⟩, z1.1 w hw, z2.1 w hw⟩, ⟨x1.2, x2.2⟩, ⟨y1.2, y2.2⟩, z1.2, z2.2⟩

/-! ## One tile -/

theorem QTile.Good.box {t : QTile K} (ht : t.Good) {g : PolyData K} (hg : g ∈ t.polys) :
    t.bmin.x ≤ t.bmax.x ∧ t.bmin.y ≤ t.bmax.y ∧ t.bmin.z ≤ t.bmax.z ∧
    ((t.bmin.x ≤ (boundsOf g.dv).1.x ∧ (boundsOf g.dv).1.x ≤ (boundsOf g.dv).2.x ∧ (boundsOf g.dv).2.x ≤ t.bmax.x) ∧
     (t.bmin.y ≤ (boundsOf g.dv).1.y ∧ (boundsOf g.dv).1.y ≤ (boundsOf g.dv).2.y ∧ (boundsOf g.dv).2.y ≤ t.bmax.y) ∧
     (t.bmin.z ≤ (boundsOf g.dv).1.z ∧ (boundsOf g.dv).1.z ≤ (boundsOf g.dv).2.z ∧ (boundsOf g.dv).2.z ≤ t.bmax.z)) := by
  obtain ⟨h0, ⟨⟨a, ha, ea⟩, b, hb, eb⟩, ⟨⟨c, hc, ec⟩, d, hd, ed⟩, ⟨e, he, ee⟩, k, hk, ek⟩ := boundsOf_spec (ht.full g hg)
  have wa := ht.within g hg a ha
  have wb := ht.within g hg b hb
  have wc := ht.within g hg c hc
  have wd := ht.within g hg d hd
  have we := ht.within g hg e he
  have wk := ht.within g hg k hk
  have va := h0 a ha
  have vc := h0 c hc
  have ve := h0 e he
  refine ⟨by linarith, by linarith, by linarith, ⟨by linarith, by linarith, by linarith⟩, ⟨by linarith, by linarith, by linarith⟩, ⟨by linarith, by linarith, by linarith⟩⟩

/-- The polygons handed over in a good tile. -/
theorem tileHits_spec {srt : Nat → List BvItem → List BvItem} (hsrt : ∀ a l, (srt a l).Perm l) (pass : U32 → Bool) {t : QTile K} (ht : t.Good)
    {qmin qmax : V3 K} (hx : qmin.x ≤ qmax.x) (hy : qmin.y ≤ qmax.y) (hz : qmin.z ≤ qmax.z) :
    ∃ l, tileHits srt pass t qmin qmax = some l ∧
      (∀ p ∈ l, p < t.polys.length ∧ pass (t.base ||| BitVec.ofNat 32 p) = true) ∧
      (∀ p ∈ l, p = 0 ∨ overlapQuant (searchBox t.bmin t.bmax t.qf qmin qmax) (t.boxes.getD p ⟨0, 0, 0, 0, 0, 0⟩) = true) ∧
      (∀ p, p < t.polys.length → pass (t.base ||| BitVec.ofNat 32 p) = true →
        overlapQuant (searchBox t.bmin t.bmax t.qf qmin qmax) (t.boxes.getD p ⟨0, 0, 0, 0, 0, 0⟩) = true → p ∈ l) := by
  have hb : t.boxes ≠ [] := by
    unfold QTile.boxes
    intro c
    exact ht.polys (List.map_eq_nil_iff.1 c)
  have hlen : t.boxes.length = t.polys.length := by simp [QTile.boxes]
  have hv : ∀ b ∈ t.boxes, b.Valid := by
    intro b hb
    obtain ⟨g, hg, rfl⟩ := List.mem_map.1 hb
    obtain ⟨-, -, -, ⟨-, bx, -⟩, ⟨-, bv, -⟩, -, bz, -⟩ := ht.box hg
    refine ⟨quantItem_mono ?_, quantItem_mono ?_, quantItem_mono ?_⟩ <;>
      exact mul_le_mul_of_nonneg_right (by linarith) ht.qf.le
  obtain ⟨g0, hg0⟩ := List.exists_mem_of_ne_nil _ ht.polys
  obtain ⟨bx, bv, bz, -⟩ := ht.box hg0
  have axis : ∀ {b0 b1 q0 q1 : K}, b0 ≤ b1 → t.qf * (b1 - b0) + 1 < 65536 → q0 ≤ q1 →
      (quantLo (t.qf * (clampK q0 b0 b1 - b0))).toNat ≤ (quantHi (t.qf * (clampK q1 b0 b1 - b0))).toNat := by
    intro b0 b1 q0 q1 hb hfit hq
    have c0 : t.qf * (clampK q0 b0 b1 - b0) ≤ t.qf * (b1 - b0) :=
      mul_le_mul_of_nonneg_left (by unfold clampK; split <;> (try split) <;> linarith) ht.qf.le
    have c1 : t.qf * (clampK q1 b0 b1 - b0) ≤ t.qf * (b1 - b0) :=
      mul_le_mul_of_nonneg_left (by unfold clampK; split <;> (try split) <;> linarith) ht.qf.le
    have c2 : t.qf * (clampK q0 b0 b1 - b0) ≤ t.qf * (clampK q1 b0 b1 - b0) :=
      mul_le_mul_of_nonneg_left (by have := clampK_mono hb hq; linarith) ht.qf.le
    have e1 := (toNat_quantLo (v := t.qf * (clampK q0 b0 b1 - b0)) (by linarith)).1
    have e2 := (toNat_quantHi (v := t.qf * (clampK q1 b0 b1 - b0)) (by linarith)).1
    have e3 : ⌊t.qf * (clampK q0 b0 b1 - b0)⌋₊ ≤ ⌊t.qf * (clampK q1 b0 b1 - b0) + 1⌋₊ := Nat.floor_mono (by linarith)
    omega
  have hq : (searchBox t.bmin t.bmax t.qf qmin qmax).Valid :=
    ⟨axis bx ht.fitx hx, axis bv ht.fity hy, axis bz ht.fitz hz⟩
  obtain ⟨batches, ps, extra, e1, e2, e3, e4, e5⟩ := bv_query_partial hsrt hb hv hq (base := 0#32) (npolys := t.polys.length)
    (by rw [hlen]) (fun p => pass (t.base ||| BitVec.ofNat 32 p))
  have hps : ∀ p ∈ ps, p < t.polys.length := by
    intro p hp
    obtain ⟨-, b, hb, -⟩ := (e4 p).1 hp
    rw [← hlen]
    exact (List.getElem?_eq_some_iff.1 hb).1
  have h0 : 0 < t.polys.length := List.length_pos_of_ne_nil ht.polys
  have hall : ∀ p ∈ ps ++ extra, p < t.polys.length ∧ pass (t.base ||| BitVec.ofNat 32 p) = true := by
    intro p hp
    rcases List.mem_append.1 hp with hp | hp
    · exact ⟨hps p hp, ((e4 p).1 hp).1⟩
    · rcases e5 with ⟨-, k, rfl⟩ | ⟨-, rfl⟩
      · rw [List.mem_singleton.1 hp]; exact ⟨h0, k⟩
      · simp at hp
  refine ⟨ps ++ extra, ?_, hall, ?_, ?_⟩
  · unfold tileHits
    rw [e1, Option.map_some, e2.1, List.map_map]
    congr 1
    conv_rhs => rw [← List.map_id (ps ++ extra)]
    refine List.map_congr_left fun p hp => ?_
    have h1 := (hall p hp).1
    have h2 := ht.few
    simp only [Function.comp_apply, BitVec.zero_or, id_eq, BitVec.toNat_ofNat]
    exact Nat.mod_eq_of_lt (by omega)
  · intro p hp
    rcases List.mem_append.1 hp with hp | hp
    · right
      obtain ⟨-, b, hb, hm⟩ := (e4 p).1 hp
      rw [List.getD_eq_getElem?_getD, hb]
      exact (overlapQuant_exact hq (hv b (List.mem_of_getElem? hb))).2 hm
    · left
      rcases e5 with ⟨-, -, rfl⟩ | ⟨-, rfl⟩
      · exact List.mem_singleton.1 hp
      · simp at hp
  · intro p hp hpass ho
    refine List.mem_append_left _ ((e4 p).2 ⟨hpass, ?_⟩)
    have hb : t.boxes[p]? = some (t.boxes[p]'(by omega)) := List.getElem?_eq_getElem _
    rw [List.getD_eq_getElem?_getD, hb] at ho
    exact ⟨_, hb, (overlapQuant_exact hq (hv _ (List.mem_of_getElem? hb))).1 ho⟩

theorem QTile.boxes_get {t : QTile K} {p : Nat} {g : PolyData K} (h : t.polys[p]? = some g) :
    t.boxes.getD p ⟨0, 0, 0, 0, 0, 0⟩ = itemBox t.bmin t.qf (boundsOf g.dv).1 (boundsOf g.dv).2 := by
  rw [List.getD_eq_getElem?_getD, QTile.boxes, List.getElem?_map, h]
  rfl

/-! ## All tiles -/

theorem mem_upTo {lo hi i : Int} : i ∈ upTo lo hi ↔ lo ≤ i ∧ i ≤ hi := by
  unfold upTo
  simp only [List.mem_map, List.mem_range]
  constructor
  · rintro ⟨k, hk, rfl⟩; omega
  · rintro ⟨h1, h2⟩; exact ⟨(i - lo).toNat, by omega, by omega⟩

theorem mem_searchCells {orig : V3 K} {tw th : K} {qmin qmax : V3 K} {x y : Int} :
    (x, y) ∈ searchCells orig tw th qmin qmax ↔
      ((tileLoc orig tw th qmin).1 ≤ x ∧ x ≤ (tileLoc orig tw th qmax).1) ∧
      ((tileLoc orig tw th qmin).2 ≤ y ∧ y ≤ (tileLoc orig tw th qmax).2) := by
  unfold searchCells
  simp only [List.mem_flatMap, List.mem_map, mem_upTo, Prod.mk.injEq]
  constructor
  · rintro ⟨b, hb, a, ha, rfl, rfl⟩; exact ⟨ha, hb⟩
  · rintro ⟨ha, hb⟩; exact ⟨y, hb, x, ha, rfl, rfl⟩

/-- One direction of the grid. -/
theorem axis_cell {o w q0 q1 lo hi : K} {i : Int} (hw : 0 < w) (h0 : o + i * w ≤ lo) (h1 : lo ≤ q1) (h2 : q0 < o + (i + 1) * w) :
    ⌊(q0 - o) / w⌋ ≤ i ∧ i ≤ ⌊(q1 - o) / w⌋ := by
  constructor
  · rw [← Int.lt_add_one_iff, Int.floor_lt, div_lt_iff₀ hw]
    push_cast
    linarith
  · rw [Int.le_floor, le_div_iff₀ hw]
    linarith

theorem inBounds_box {dv : List (V3 K)} {p : V3 K} (h : InBounds dv p) :
    ((boundsOf dv).1.x ≤ p.x ∧ p.x ≤ (boundsOf dv).2.x) ∧ ((boundsOf dv).1.y ≤ p.y ∧ p.y ≤ (boundsOf dv).2.y) ∧
      ((boundsOf dv).1.z ≤ p.z ∧ p.z ≤ (boundsOf dv).2.z) := by
  obtain ⟨⟨⟨a, ha, ka⟩, b, hb, kb⟩, ⟨⟨c, hc, kc⟩, d, hd, kd⟩, ⟨e, he, ke⟩, k, hk, kk⟩ := h
  have h0 := (boundsOf_spec (List.ne_nil_of_mem ha)).1
  have wa := h0 a ha
  have wb := h0 b hb
  have wc := h0 c hc
  have wd := h0 d hd
  have we := h0 e he
  have wk := h0 k hk
  exact ⟨⟨by linarith, by linarith⟩, ⟨by linarith, by linarith⟩, by linarith, by linarith⟩

/-- The corners of the search box. -/
def searchMin (center ext : V3 K) : V3 K := center.sub ext
/-- The other corner. -/
def searchMax (center ext : V3 K) : V3 K := ⟨center.x + ext.x, center.y + ext.y, center.z + ext.z⟩

/-- **C141**: a polygon that passes the filter and whose bounds share a point with the search box is looked at: its tile is
searched, and the tile's tree hands it over. Missing: that this is so if the search box only touches the tile's
upper border, see `search_complete_refuted`. -/
theorem search_complete_partial {srt : Nat → List BvItem → List BvItem} (hsrt : ∀ a l, (srt a l).Perm l) {pass : U32 → Bool} {m : QMesh K}
    (htw : 0 < m.tw) (hth : 0 < m.th) {x y : Int} {t : QTile K} (hm : m.Holds x y t) (ht : t.Good) {p : Nat} {g : PolyData K}
    (hg : t.polys[p]? = some g) (hpass : pass (t.base ||| BitVec.ofNat 32 p) = true) {center ext pt : V3 K}
    (hb : InBounds g.dv pt) (hs : InSearch center ext pt)
    (hx : center.x - ext.x < m.orig.x + (x + 1) * m.tw) (hz : center.z - ext.z < m.orig.z + (y + 1) * m.th) :
    t ∈ m.searched (searchMin center ext) (searchMax center ext) ∧
      ∃ l, tileHits srt pass t (searchMin center ext) (searchMax center ext) = some l ∧ p ∈ l := by
  obtain ⟨sx, sy, sz⟩ := hs
  rw [abs_le] at sx sy sz
  have hgm : g ∈ t.polys := List.mem_of_getElem? hg
  obtain ⟨bx, bv, bz, ⟨x1, x2, x3⟩, ⟨y1, y2, y3⟩, z1, z2, z3⟩ := ht.box hgm
  obtain ⟨⟨px1, px2⟩, ⟨py1, py2⟩, pz1, pz2⟩ := inBounds_box hb
  have qx : (searchMin center ext).x = center.x - ext.x := rfl
  have qy : (searchMin center ext).y = center.y - ext.y := rfl
  have qz : (searchMin center ext).z = center.z - ext.z := rfl
  have rx : (searchMax center ext).x = center.x + ext.x := rfl
  have ry : (searchMax center ext).y = center.y + ext.y := rfl
  have rz : (searchMax center ext).z = center.z + ext.z := rfl
  constructor
  · refine List.mem_flatMap.2 ⟨(x, y), mem_searchCells.2 ⟨?_, ?_⟩, hm.mem⟩
    · exact axis_cell (lo := t.bmin.x) (hi := t.bmin.x) htw hm.left (by linarith) (by linarith)
    · exact axis_cell (lo := t.bmin.z) (hi := t.bmin.z) hth hm.near (by linarith) (by linarith)
  · obtain ⟨l, e, -, -, h⟩ := tileHits_spec hsrt pass ht (qmin := searchMin center ext) (qmax := searchMax center ext)
      (by linarith) (by linarith) (by linarith)
    refine ⟨l, e, h p (List.getElem?_eq_some_iff.1 hg).1 hpass ?_⟩
    rw [QTile.boxes_get hg, overlapQuant_iff]
    exact ⟨axis_meets bx ht.qf ht.fitx (by linarith) (by linarith) (by linarith) (by linarith),
      axis_meets bv ht.qf ht.fity (by linarith) (by linarith) (by linarith) (by linarith),
      axis_meets bz ht.qf ht.fitz (by linarith) (by linarith) (by linarith) (by linarith)⟩

/-- **C141**: what is handed over passes the filter and is, except for the tile's first polygon, less than three cells of the
tree away from the search box, cut to the tile's box. -/
theorem search_near {srt : Nat → List BvItem → List BvItem} (hsrt : ∀ a l, (srt a l).Perm l) {pass : U32 → Bool} {t : QTile K} (ht : t.Good)
    {qmin qmax : V3 K} (hx : qmin.x ≤ qmax.x) (hy : qmin.y ≤ qmax.y) (hz : qmin.z ≤ qmax.z) :
    ∃ l, tileHits srt pass t qmin qmax = some l ∧ ∀ p ∈ l, ∃ g, t.polys[p]? = some g ∧ pass (t.base ||| BitVec.ofNat 32 p) = true ∧
      (p = 0 ∨
        Around (3 / t.qf) (clampK qmin.x t.bmin.x t.bmax.x) (clampK qmax.x t.bmin.x t.bmax.x) (boundsOf g.dv).1.x (boundsOf g.dv).2.x ∧
        Around (3 / t.qf) (clampK qmin.y t.bmin.y t.bmax.y) (clampK qmax.y t.bmin.y t.bmax.y) (boundsOf g.dv).1.y (boundsOf g.dv).2.y ∧
        Around (3 / t.qf) (clampK qmin.z t.bmin.z t.bmax.z) (clampK qmax.z t.bmin.z t.bmax.z) (boundsOf g.dv).1.z (boundsOf g.dv).2.z) := by
  obtain ⟨l, e, h1, h2, -⟩ := tileHits_spec hsrt pass ht hx hy hz
  refine ⟨l, e, fun p hp => ?_⟩
  have hlt := (h1 p hp).1
  have hg : t.polys[p]? = some t.polys[p] := List.getElem?_eq_getElem _
  refine ⟨_, hg, (h1 p hp).2, ?_⟩
  rcases h2 p hp with h | h
  · exact Or.inl h
  · right
    rw [QTile.boxes_get hg, overlapQuant_iff] at h
    obtain ⟨⟨hx1, hx2⟩, ⟨hy1, hy2⟩, hz1, hz2⟩ := h
    obtain ⟨bx, bv, bz, ⟨x1, x2, x3⟩, ⟨y1, y2, y3⟩, z1, z2, z3⟩ := ht.box (List.mem_of_getElem? hg)
    exact ⟨axis_near bx ht.qf ht.fitx (by linarith) (by linarith) hx1 hx2,
      axis_near bv ht.qf ht.fity (by linarith) (by linarith) hy1 hy2,
      axis_near bz ht.qf ht.fitz (by linarith) (by linarith) hz1 hz2⟩

/-! ## The nearest polygon -/

/-- The distance of polygon `g` of tile `t`, as the search counts it. -/
def polyDist (eps : K) (pos : V3 K) (t : QTile K) (g : PolyData K) : K := nearDist t.climb pos (closestOnPoly eps g.vs g.tris pos)

/-- Spec: the result `b` is polygon `p` of a tile of `ts`, with its distance and closest point. -/
def IsPoly (eps : K) (pos : V3 K) (t : QTile K) (p : Nat) (b : Nearest K) : Prop :=
  ∃ g, t.polys[p]? = some g ∧ b = ⟨t.base ||| BitVec.ofNat 32 p, polyDist eps pos t g, (closestOnPoly eps g.vs g.tris pos).1⟩

theorem foldl_nearStep (eps : K) (pos : V3 K) (t : QTile K) (l : List Nat) : ∀ b,
    (l.foldl (nearStep eps pos t) b).d ≤ b.d ∧
    (∀ p ∈ l, ∀ g, t.polys[p]? = some g → (l.foldl (nearStep eps pos t) b).d ≤ polyDist eps pos t g) ∧
    ((l.foldl (nearStep eps pos t) b = b) ∨
      (l.foldl (nearStep eps pos t) b).d < b.d ∧ ∃ p ∈ l, IsPoly eps pos t p (l.foldl (nearStep eps pos t) b)) := by
  induction l with
  | nil => intro b; exact ⟨le_refl _, by simp, Or.inl rfl⟩
  | cons q l ih =>
    intro b
    obtain ⟨h1, h2, h3⟩ := ih (nearStep eps pos t b q)
    rw [List.foldl_cons]
    generalize hr : l.foldl (nearStep eps pos t) (nearStep eps pos t b q) = r at *
    unfold nearStep at h1 h3
    cases hq : t.polys[q]? with
    | none =>
      rw [hq] at h1 h3
      refine ⟨h1, ?_, ?_⟩
      · intro p hp g hg
        rcases List.mem_cons.1 hp with rfl | hp
        · rw [hq] at hg; simp at hg
        · exact h2 p hp g hg
      · rcases h3 with h3 | ⟨h3, p, hp, h4⟩
        · exact Or.inl h3
        · exact Or.inr ⟨h3, p, List.mem_cons_of_mem _ hp, h4⟩
    | some g =>
      rw [hq] at h1 h3
      dsimp only at h1 h3
      change r.d ≤ (if polyDist eps pos t g < b.d then _ else b).d at h1
      change r = (if polyDist eps pos t g < b.d then _ else b) ∨ r.d < (if polyDist eps pos t g < b.d then _ else b).d ∧ _ at h3
      split at h1
      · rename_i hlt
        rw [if_pos hlt] at h3
        dsimp only at h1
        refine ⟨h1.trans hlt.le, ?_, ?_⟩
        · intro p hp g' hg'
          rcases List.mem_cons.1 hp with rfl | hp
          · rw [hq, Option.some.injEq] at hg'; subst hg'; exact h1
          · exact h2 p hp g' hg'
        · right
          rcases h3 with h3 | ⟨h3, p, hp, h4⟩
          · rw [h3]; exact ⟨hlt, q, List.mem_cons_self, g, hq, rfl⟩
          · exact ⟨lt_of_lt_of_le h3 hlt.le, p, List.mem_cons_of_mem _ hp, h4⟩
      · rename_i hlt
        rw [if_neg hlt] at h3
        refine ⟨h1, ?_, ?_⟩
        · intro p hp g' hg'
          rcases List.mem_cons.1 hp with rfl | hp
          · rw [hq, Option.some.injEq] at hg'; subst hg'; linarith
          · exact h2 p hp g' hg'
        · rcases h3 with h3 | ⟨h3, p, hp, h4⟩
          · exact Or.inl h3
          · exact Or.inr ⟨h3, p, List.mem_cons_of_mem _ hp, h4⟩

theorem nearestTiles_spec {srt : Nat → List BvItem → List BvItem} {eps : K} {pass : U32 → Bool} {pos qmin qmax : V3 K} (ts : List (QTile K)) :
    ∀ b, (∀ t ∈ ts, ∃ l, tileHits srt pass t qmin qmax = some l) →
    ∃ r, nearestTiles srt eps pass pos qmin qmax ts b = some r ∧ r.d ≤ b.d ∧
      (∀ t ∈ ts, ∀ l, tileHits srt pass t qmin qmax = some l → ∀ p ∈ l, ∀ g, t.polys[p]? = some g → r.d ≤ polyDist eps pos t g) ∧
      (r = b ∨ r.d < b.d ∧ ∃ t ∈ ts, ∃ l, tileHits srt pass t qmin qmax = some l ∧ ∃ p ∈ l, IsPoly eps pos t p r) := by
  induction ts with
  | nil => intro b _; exact ⟨b, rfl, le_refl _, by simp, Or.inl rfl⟩
  | cons t ts ih =>
    intro b h
    obtain ⟨l, hl⟩ := h t List.mem_cons_self
    obtain ⟨f1, f2, f3⟩ := foldl_nearStep eps pos t l b
    obtain ⟨r, e, h1, h2, h3⟩ := ih (l.foldl (nearStep eps pos t) b) fun t' ht' => h t' (List.mem_cons_of_mem _ ht')
    refine ⟨r, by rw [nearestTiles, hl]; exact e, h1.trans f1, ?_, ?_⟩
    · intro t' ht' l' hl' p hp g hg
      rcases List.mem_cons.1 ht' with rfl | ht'
      · rw [hl, Option.some.injEq] at hl'
        subst hl'
        exact h1.trans (f2 p hp g hg)
      · exact h2 t' ht' l' hl' p hp g hg
    · rcases h3 with h3 | ⟨h3, t', ht', l', hl', p, hp, h4⟩
      · rw [h3]
        rcases f3 with f3 | ⟨f3, p, hp, f4⟩
        · exact Or.inl f3
        · exact Or.inr ⟨f3, t, List.mem_cons_self, l, hl, p, hp, f4⟩
      · exact Or.inr ⟨lt_of_lt_of_le h3 f1, t', List.mem_cons_of_mem _ ht', l', hl', p, hp, h4⟩

/-- A mesh whose tiles all are good, in their places, and have a reference base that is not 0 (see C01). -/
structure QMesh.Good (m : QMesh K) : Prop where
  tw : 0 < m.tw
  th : 0 < m.th
  tiles : ∀ x y, ∀ t ∈ m.tiles x y, m.Holds x y t ∧ t.Good ∧ t.base ≠ 0#32

theorem or_ne_zero {a : U32} (h : a ≠ 0#32) (b : U32) : a ||| b ≠ 0#32 := by
  intro c
  apply h
  have : a.toNat = 0 := by
    have h1 : (a ||| b).toNat = 0 := by rw [c]; rfl
    rw [BitVec.toNat_or] at h1
    have := Nat.left_le_or (n := a.toNat) (m := b.toNat)
    omega
  exact BitVec.eq_of_toNat_eq (by simpa using this)

/-- **C142**: FindNearestPoly always answers. The answer is reference 0 and no point, or a polygon of the mesh that passes the
filter with its closest point. Against every polygon that passes the filter and whose bounds share a point with the
search box (reaching into the tile), the answer is no further away; so it is not 0 if there is one (closer than `top`,
`math.MaxFloat32`). Missing: that the answer is 0 if the search box meets no polygon; see `findNearest_empty_refuted`. -/
theorem findNearest_partial {srt : Nat → List BvItem → List BvItem} (hsrt : ∀ a l, (srt a l).Perm l) {eps top : K} {pass : U32 → Bool} {m : QMesh K}
    (hm : m.Good) {center ext : V3 K} (hex : 0 ≤ ext.x) (hey : 0 ≤ ext.y) (hez : 0 ≤ ext.z) :
    ∃ ref pt d, findNearest srt eps top pass m center ext = some (ref, pt) ∧
      ((ref = 0#32 ∧ pt = none ∧ d = top) ∨
        d < top ∧ ref ≠ 0#32 ∧ ∃ x y, ∃ t ∈ m.tiles x y, ∃ p g, t.polys[p]? = some g ∧ ref = t.base ||| BitVec.ofNat 32 p ∧
          pass ref = true ∧ pt = some (closestOnPoly eps g.vs g.tris center).1 ∧ d = polyDist eps center t g) ∧
      (∀ x y, ∀ t ∈ m.tiles x y, ∀ p g, t.polys[p]? = some g → pass (t.base ||| BitVec.ofNat 32 p) = true →
        ∀ q, InBounds g.dv q → InSearch center ext q → center.x - ext.x < m.orig.x + (x + 1) * m.tw →
          center.z - ext.z < m.orig.z + (y + 1) * m.th → d ≤ polyDist eps center t g) := by
  have hmem : ∀ t ∈ m.searched (searchMin center ext) (searchMax center ext), ∃ x y, t ∈ m.tiles x y := by
    intro t ht
    obtain ⟨c, -, h⟩ := List.mem_flatMap.1 ht
    exact ⟨c.1, c.2, h⟩
  have hspec : ∀ t ∈ m.searched (searchMin center ext) (searchMax center ext), ∃ l, tileHits srt pass t (searchMin center ext) (searchMax center ext) = some l ∧
      ∀ p ∈ l, p < t.polys.length ∧ pass (t.base ||| BitVec.ofNat 32 p) = true := by
    intro t ht
    obtain ⟨x, y, h⟩ := hmem t ht
    obtain ⟨l, e, h1, -⟩ := tileHits_spec hsrt pass (hm.tiles x y t h).2.1 (qmin := searchMin center ext) (qmax := searchMax center ext)
      (by change center.x - ext.x ≤ center.x + ext.x; linarith) (by change center.y - ext.y ≤ center.y + ext.y; linarith)
      (by change center.z - ext.z ≤ center.z + ext.z; linarith)
    exact ⟨l, e, h1⟩
  obtain ⟨r, e, h1, h2, h3⟩ := nearestTiles_spec (eps := eps) (pos := center) (m.searched (searchMin center ext) (searchMax center ext))
    ⟨0#32, top, ⟨0, 0, 0⟩⟩ fun t ht => (hspec t ht).imp fun l h => h.1
  have e' : findNearest srt eps top pass m center ext = some (r.ref, if r.ref ≠ 0#32 then some r.pt else none) := by
    unfold findNearest
    change (nearestTiles srt eps pass center (searchMin center ext) (searchMax center ext) (m.searched (searchMin center ext) (searchMax center ext)) _).map _ = _
    rw [e]
    rfl
  refine ⟨_, _, r.d, e', ?_, ?_⟩
  · rcases h3 with h3 | ⟨h3, t, ht, l, hl, p, hp, g, hg, h4⟩
    · left
      rw [h3]
      exact ⟨rfl, rfl, rfl⟩
    · right
      obtain ⟨x, y, hxy⟩ := hmem t ht
      obtain ⟨l', hl', hpp⟩ := hspec t ht
      rw [hl, Option.some.injEq] at hl'
      subst hl'
      have hne := or_ne_zero (hm.tiles x y t hxy).2.2 (BitVec.ofNat 32 p)
      rw [h4] at h3 ⊢
      refine ⟨h3, hne, x, y, t, hxy, p, g, hg, rfl, (hpp p hp).2, ?_, rfl⟩
      rw [if_pos hne]
  · intro x y t ht p g hg hpass q hq hs hx hz
    obtain ⟨hh, hgood, -⟩ := hm.tiles x y t ht
    obtain ⟨hin, l, hl, hp⟩ := search_complete_partial hsrt hm.tw hm.th hh hgood hg hpass hq hs hx hz
    exact h2 t hin l hl p hp g hg

/-- **C142**: someone who stands on a polygon (strictly inside, no further above or below it than they can climb) within the
search box gets a polygon that they are over at such a height, or that their place is a point of. -/
theorem findNearest_standing {srt : Nat → List BvItem → List BvItem} (hsrt : ∀ a l, (srt a l).Perm l) {eps top : K} (htop : 0 < top)
    {pass : U32 → Bool} {m : QMesh K} (hm : m.Good) {center ext : V3 K} (hex : 0 ≤ ext.x) (hey : 0 ≤ ext.y) (hez : 0 ≤ ext.z)
    {x y : Int} {t : QTile K} (ht : t ∈ m.tiles x y) {p : Nat} {g : PolyData K} (hg : t.polys[p]? = some g)
    (hpass : pass (t.base ||| BitVec.ofNat 32 p) = true) (hc : ConvexPolygon g.vs) (hin : StrictlyIn g.vs center)
    (hclimb : |center.y - (closestOnPoly eps g.vs g.tris center).1.y| ≤ t.climb)
    {q : V3 K} (hq : InBounds g.dv q) (hs : InSearch center ext q) (hx : center.x - ext.x < m.orig.x + (x + 1) * m.tw)
    (hz : center.z - ext.z < m.orig.z + (y + 1) * m.th) :
    ∃ ref pt, findNearest srt eps top pass m center ext = some (ref, some pt) ∧ pass ref = true ∧
      ∃ x y, ∃ t ∈ m.tiles x y, ∃ p g, t.polys[p]? = some g ∧ ref = t.base ||| BitVec.ofNat 32 p ∧
        pt = (closestOnPoly eps g.vs g.tris center).1 ∧
        (pt = center ∨ (closestOnPoly eps g.vs g.tris center).2 = true ∧ |center.y - pt.y| ≤ t.climb) := by
  obtain ⟨ref, pt, d, e, h1, h2⟩ := findNearest_partial hsrt (eps := eps) (top := top) (pass := pass) hm hex hey hez (center := center)
  have h3 := h2 x y t ht p g hg hpass q hq hs hx hz
  have h4 : polyDist eps center t g = 0 := by
    unfold polyDist nearDist
    rw [if_pos ((closestOnPoly_over hc eps g.tris center).1 hin)]
    dsimp only
    rw [if_neg (by linarith)]
  rw [h4] at h3
  rcases h1 with ⟨-, -, rfl⟩ | ⟨-, -, x', y', t', ht', p', g', hg', hr, hp', rfl, hd⟩
  · linarith
  · refine ⟨ref, _, e, hp', x', y', t', ht', p', g', hg', hr, rfl, ?_⟩
    rw [hd] at h3
    unfold polyDist nearDist at h3
    split at h3
    · rename_i ho
      dsimp only at h3
      split at h3
      · rename_i hpos
        have := mul_pos hpos hpos
        linarith
      · exact Or.inr ⟨ho, by linarith⟩
    · left
      unfold spaceSq at h3
      generalize (closestOnPoly eps g'.vs g'.tris center).1 = c at *
      have e1 : center.x - c.x = 0 := by nlinarith [sq_nonneg (center.x - c.x), sq_nonneg (center.y - c.y), sq_nonneg (center.z - c.z)]
      have e2 : center.y - c.y = 0 := by nlinarith [sq_nonneg (center.x - c.x), sq_nonneg (center.y - c.y), sq_nonneg (center.z - c.z)]
      have e3 : center.z - c.z = 0 := by nlinarith [sq_nonneg (center.x - c.x), sq_nonneg (center.y - c.y), sq_nonneg (center.z - c.z)]
      obtain ⟨cx, cy, cz⟩ := c
      obtain ⟨px, py, pz⟩ := center
      simp only [V3.mk.injEq]
      dsimp only at e1 e2 e3
      exact ⟨by linarith, by linarith, by linarith⟩

/-! ## A mesh -/

/-- A mesh of one tile with one square. -/
def squareTile : QTile ℚ := ⟨0x4000#32, ⟨0, 0, 0⟩, ⟨4, 3 / 2, 4⟩, 1, 1, [⟨flatSquare, flatSquare, [(⟨0, 1, 0⟩, ⟨0, 1, 4⟩, ⟨4, 1, 4⟩), (⟨0, 1, 0⟩, ⟨4, 1, 4⟩, ⟨4, 1, 0⟩)]⟩]⟩
/-- Its mesh. -/
def squareMesh : QMesh ℚ := ⟨⟨0, 0, 0⟩, 4, 4, fun x y => if x = 0 ∧ y = 0 then [squareTile] else []⟩

theorem squareMesh_good : squareMesh.Good := by
  refine ⟨by decide +kernel, by decide +kernel, ?_⟩
  intro x y t ht
  unfold squareMesh at ht
  dsimp only at ht
  split at ht
  · rename_i hxy
    obtain ⟨rfl, rfl⟩ := hxy
    rw [List.mem_singleton] at ht
    subst ht
    refine ⟨⟨by simp [squareMesh], by norm_num [squareMesh, squareTile], by norm_num [squareMesh, squareTile], by norm_num [squareMesh, squareTile],
      by norm_num [squareMesh, squareTile]⟩, ⟨by simp [squareTile], by simp [squareTile], by simp [squareTile], by norm_num [squareTile],
      by norm_num [squareTile], by norm_num [squareTile], by simp [squareTile, flatSquare], ?_⟩, by simp [squareTile]⟩
    intro g hg v hv
    simp only [squareTile, List.mem_singleton] at hg
    subst hg
    simp only [flatSquare, List.mem_cons, List.not_mem_nil, or_false] at hv
    rcases hv with rfl | rfl | rfl | rfl <;> norm_num [squareTile]
  · simp at ht

/-- The square is found from above it, where the hypotheses of `findNearest_standing` hold. -/
example : findNearest (fun _ l => l) (1 / 10000) 1000000 (fun _ => true) squareMesh ⟨1, 3 / 2, 1⟩ ⟨1, 1, 1⟩ =
      some (0x4000#32, some ⟨1, 1, 1⟩) ∧
    InBounds flatSquare ⟨1, 1, 1⟩ ∧ InSearch (⟨1, 3 / 2, 1⟩ : V3 ℚ) ⟨1, 1, 1⟩ ⟨1, 1, 1⟩ ∧ (1 : ℚ) - 1 < 0 + (0 + 1) * 4 ∧
    StrictlyIn flatSquare ⟨1, 3 / 2, 1⟩ := by
  refine ⟨by decide +kernel, by unfold InBounds; decide +kernel, by unfold InSearch; decide +kernel, by norm_num, ?_⟩
  intro j a b h
  have h' := (mem_polyEdges _ _ _ _).2 h
  simp only [flatSquare, polyEdges, edgesFrom, List.getLast?_cons_cons, List.getLast?_singleton, List.mem_cons, List.not_mem_nil,
    or_false, Prod.mk.injEq] at h'
  rcases h' with ⟨-, rfl, rfl⟩ | ⟨-, rfl, rfl⟩ | ⟨-, rfl, rfl⟩ | ⟨-, rfl, rfl⟩ <;> norm_num [triArea]

/-- **C141** (refuted): a polygon that the search box touches along the upper border of the tile is not looked at. -/
theorem search_complete_refuted : ∃ (m : QMesh ℚ) (center ext q : V3 ℚ), m.Good ∧ (∃ x y, ∃ t ∈ m.tiles x y, ∃ g ∈ t.polys, InBounds g.dv q) ∧
    InSearch center ext q ∧ m.searched (searchMin center ext) (searchMax center ext) = [] ∧
    findNearest (fun _ l => l) (1 / 10000) 1000000 (fun _ => true) m center ext = some (0#32, none) :=
  ⟨squareMesh, ⟨5, 1, 1⟩, ⟨1, 1, 1⟩, ⟨4, 1, 1⟩, squareMesh_good,
    ⟨0, 0, squareTile, by simp [squareMesh], _, List.mem_singleton_self _, by unfold InBounds; decide +kernel⟩, by unfold InSearch; decide +kernel,
    List.length_eq_zero_iff.1 (by decide +kernel), by decide +kernel⟩

/-- **C142** (refuted): a search box 98 above the only polygon, which it is documented to find nothing in, gives that polygon: the
box is cut to the tile's box, and so becomes its ceiling. -/
theorem findNearest_empty_refuted : ∃ (m : QMesh ℚ) (center ext : V3 ℚ), m.Good ∧
    (∀ x y, ∀ t ∈ m.tiles x y, ∀ g ∈ t.polys, ∀ q, InBounds g.dv q → ¬ InSearch center ext q) ∧
    findNearest (fun _ l => l) (1 / 10000) 1000000 (fun _ => true) m center ext = some (0x4000#32, some ⟨1, 1, 1⟩) := by
  refine ⟨squareMesh, ⟨1, 100, 1⟩, ⟨1, 1, 1⟩, squareMesh_good, ?_, by decide +kernel⟩
  intro x y t ht g hg q hq hs
  have hgood := (squareMesh_good.tiles x y t ht).2.1
  obtain ⟨-, ⟨-, v, hv, hvq⟩, -⟩ := hq
  have hw := (hgood.within g hg v hv).2.1.2
  have htop : t.bmax.y = 3 / 2 := by
    unfold squareMesh at ht
    dsimp only at ht
    split at ht
    · rw [List.mem_singleton] at ht
      subst ht
      rfl
    · simp at ht
  have h2 := hs.2.1
  rw [abs_le] at h2
  dsimp only at h2
  linarith [h2.1]

end Verif.Detour
