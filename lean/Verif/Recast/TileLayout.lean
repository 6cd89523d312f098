/-
The layout of a tiled mesh over the bounds of the input: how many tiles are built, where they are, and which tile a position is
said to lie in.

Go: sample/tilemesh/builder.go:82-87, 123-143 (number of tiles, their boxes), 533-573, 575-592 (`BuildTile`, `TilePos`,
`RemoveTile`), detour/mesh.go:1649-1653 (`CalcTileLoc`).

Exact arithmetic over the rationals. `TileSize` is a float in the settings; it is taken to be a whole number, at least 1 (below 1 the
number of tiles is a division by zero). Numbers fit in an `int32`.
-/
import Verif.Recast.Inputs
import Verif.Recast.Rasterize
import Verif.Detour.NearestPoly

namespace Verif.Recast

/-- Number of tiles along one axis (sample/tilemesh/builder.go:84-87): `(gw + ts - 1) / ts`, the division of Go. -/
def tileCount (bmin bmax cs : ℚ) (ts : Nat) : Int := (gridSize bmin bmax cs + ts - 1).tdiv ts

/-- `TileSize * CellSize` (sample/tilemesh/builder.go:128, 571). -/
def tileSide (cs : ℚ) (ts : Nat) : ℚ := (ts : ℚ) * cs

/-- `TilePos` (sample/tilemesh/builder.go:568-573), also in `BuildTile` (537-539) and `RemoveTile` (579-581). -/
def tilePos (bmin : V3 ℚ) (cs : ℚ) (ts : Nat) (pos : V3 ℚ) : Int × Int :=
  (truncI ((pos.x - bmin.x) / tileSide cs ts), truncI ((pos.z - bmin.z) / tileSide cs ts))

/-- Spec: a position is over the square of a tile, the far sides not included; the bounds of a tile
(sample/tilemesh/builder.go:135-141). -/
def InTile (bmin : V3 ℚ) (cs : ℚ) (ts : Nat) (t : Int × Int) (pos : V3 ℚ) : Prop :=
  (bmin.x + t.1 * tileSide cs ts ≤ pos.x ∧ pos.x < bmin.x + (t.1 + 1) * tileSide cs ts) ∧
  bmin.z + t.2 * tileSide cs ts ≤ pos.z ∧ pos.z < bmin.z + (t.2 + 1) * tileSide cs ts

theorem axis_floor {b s p : ℚ} (hs : 0 < s) (t : Int) : (b + t * s ≤ p ∧ p < b + (t + 1) * s) ↔ ⌊(p - b) / s⌋ = t := by
  rw [Int.floor_eq_iff, le_div_iff₀ hs, div_lt_iff₀ hs]
  constructor
  · rintro ⟨h1, h2⟩
    exact ⟨by linarith, by linarith⟩
  · rintro ⟨h1, h2⟩
    exact ⟨by linarith, by linarith⟩

theorem tileSide_pos {cs : ℚ} {ts : Nat} (hc : 0 < cs) (ht : 1 ≤ ts) : 0 < tileSide cs ts :=
  mul_pos (by exact_mod_cast ht) hc

/-- The tile of a position for the mesh is the one it lies over. -/
theorem inTile_iff {bmin : V3 ℚ} {cs : ℚ} {ts : Nat} (hc : 0 < cs) (ht : 1 ≤ ts) (t : Int × Int) (pos : V3 ℚ) :
    InTile bmin cs ts t pos ↔ Detour.tileLoc bmin (tileSide cs ts) (tileSide cs ts) pos = t := by
  unfold InTile Detour.tileLoc
  rw [axis_floor (tileSide_pos hc ht), axis_floor (tileSide_pos hc ht), Prod.ext_iff]

theorem truncI_pos {x : ℚ} (h : 0 ≤ x) : truncI x = ⌊x⌋ := if_pos h

theorem truncI_neg {x : ℚ} (h : x < 0) : truncI x = ⌈x⌉ := if_neg (by linarith)

/-- Truncation and floor differ by one, exactly at the negative values that are not whole. -/
theorem truncI_floor (x : ℚ) : (truncI x = ⌊x⌋ ∧ (0 ≤ x ∨ ∃ n : Int, x = n)) ∨ (truncI x = ⌊x⌋ + 1 ∧ x < 0 ∧ ∀ n : Int, x ≠ n) := by
  rcases le_or_gt 0 x with h | h
  · exact Or.inl ⟨truncI_pos h, Or.inl h⟩
  · by_cases hn : ∃ n : Int, x = n
    · obtain ⟨n, rfl⟩ := hn
      left
      rw [truncI_neg h]
      exact ⟨by simp, Or.inr ⟨n, rfl⟩⟩
    · push Not at hn
      right
      rw [truncI_neg h]
      refine ⟨?_, h, hn⟩
      rw [Int.ceil_eq_iff]
      have h1 := Int.floor_le x
      have h2 := Int.lt_floor_add_one x
      refine ⟨?_, ?_⟩
      · push_cast
        have : ((⌊x⌋ : Int) : ℚ) ≠ x := fun e => hn _ e.symm
        have := lt_of_le_of_ne h1 this
        linarith
      · push_cast
        linarith

theorem tileCount_iff {bmin bmax cs : ℚ} {ts : Nat} (hb : bmin ≤ bmax) (hc : 0 < cs) (ht : 1 ≤ ts) {t : Int} (_h0 : 0 ≤ t) :
    t < tileCount bmin bmax cs ts ↔ t * ts < gridSize bmin bmax cs := by
  obtain ⟨g0, -, -⟩ := gridSize_near bmin bmax cs hb hc
  have hp : (0 : Int) < ts := by exact_mod_cast ht
  unfold tileCount
  rw [Int.tdiv_eq_ediv_of_nonneg (by omega)]
  rw [← Int.add_one_le_iff, Int.le_ediv_iff_mul_le hp, add_mul, one_mul]
  omega

/-- Along one axis: a position inside the bounds and not in the last half cell is over one of the tiles. -/
theorem axis_cover {bmin bmax cs : ℚ} {ts : Nat} (hb : bmin ≤ bmax) (hc : 0 < cs) (ht : 1 ≤ ts) {p : ℚ} (h1 : bmin ≤ p)
    (h2 : p ≤ bmax - cs / 2) : 0 ≤ truncI ((p - bmin) / tileSide cs ts) ∧
    truncI ((p - bmin) / tileSide cs ts) < tileCount bmin bmax cs ts ∧ truncI ((p - bmin) / tileSide cs ts) = ⌊(p - bmin) / tileSide cs ts⌋ := by
  have hs := tileSide_pos hc ht
  have hq : 0 ≤ (p - bmin) / tileSide cs ts := div_nonneg (by linarith) hs.le
  rw [truncI_pos hq]
  have h0 : 0 ≤ ⌊(p - bmin) / tileSide cs ts⌋ := Int.floor_nonneg.2 hq
  refine ⟨h0, (tileCount_iff hb hc ht h0).2 ?_, rfl⟩
  obtain ⟨-, g1, -⟩ := gridSize_near bmin bmax cs hb hc
  have hf := Int.floor_le ((p - bmin) / tileSide cs ts)
  rw [le_div_iff₀ hs] at hf
  unfold tileSide at hf ⊢
  have : ((⌊(p - bmin) / ((ts : ℚ) * cs)⌋ * (ts : Int) : Int) : ℚ) * cs < (gridSize bmin bmax cs : ℚ) * cs := by
    push_cast
    nlinarith
  exact_mod_cast lt_of_mul_lt_mul_right this hc.le

/-- **C155** The tiles that `Build` makes cover the bounds of the input: every position inside them, the last half cell along each
axis left out, is over exactly one of the tiles, the one `TilePos` names. And no tile is needless: each begins at least half a cell before
the end of the bounds. -/
theorem tiles_cover_partial {bmin bmax : V3 ℚ} {cs : ℚ} {ts : Nat} (hx : bmin.x ≤ bmax.x) (hz : bmin.z ≤ bmax.z) (hc : 0 < cs)
    (ht : 1 ≤ ts) :
    (∀ pos : V3 ℚ, bmin.x ≤ pos.x → pos.x ≤ bmax.x - cs / 2 → bmin.z ≤ pos.z → pos.z ≤ bmax.z - cs / 2 →
      ∃ t : Int × Int, tilePos bmin cs ts pos = t ∧ 0 ≤ t.1 ∧ t.1 < tileCount bmin.x bmax.x cs ts ∧ 0 ≤ t.2 ∧ t.2 < tileCount bmin.z bmax.z cs ts ∧
        InTile bmin cs ts t pos ∧ ∀ t', InTile bmin cs ts t' pos → t' = t) ∧
    (∀ t : Int, 0 ≤ t → t < tileCount bmin.x bmax.x cs ts → bmin.x + t * tileSide cs ts ≤ bmax.x - cs / 2) ∧
    ∀ t : Int, 0 ≤ t → t < tileCount bmin.z bmax.z cs ts → bmin.z + t * tileSide cs ts ≤ bmax.z - cs / 2 := by
  have hlast : ∀ {b e : ℚ}, b ≤ e → ∀ t : Int, 0 ≤ t → t < tileCount b e cs ts → b + t * tileSide cs ts ≤ e - cs / 2 := by
    intro b e hb t h0 h1
    obtain ⟨-, -, g⟩ := gridSize_near b e cs hb hc
    have h2 : t * (ts : Int) + 1 ≤ gridSize b e cs := (tileCount_iff hb hc ht h0).1 h1
    have h3 : ((t : ℚ) * ts + 1) ≤ gridSize b e cs := by exact_mod_cast h2
    have := mul_le_mul_of_nonneg_right h3 hc.le
    unfold tileSide
    nlinarith
  refine ⟨fun pos x1 x2 z1 z2 => ?_, hlast hx, hlast hz⟩
  obtain ⟨a1, a2, a3⟩ := axis_cover hx hc ht x1 x2
  obtain ⟨c1, c2, c3⟩ := axis_cover hz hc ht z1 z2
  refine ⟨_, rfl, a1, a2, c1, c2, (inTile_iff hc ht _ _).2 ?_, fun t' h' => ?_⟩
  · unfold Detour.tileLoc tilePos
    rw [a3, c3]
  · rw [← (inTile_iff hc ht _ _).1 h']
    unfold Detour.tileLoc tilePos
    rw [a3, c3]

/-- The claim in full: every position inside the bounds is over a tile that is built. -/
def TilesCover : Prop := ∀ (bmin bmax : V3 ℚ) (cs : ℚ) (ts : Nat), bmin.x ≤ bmax.x → bmin.z ≤ bmax.z → 0 < cs → 1 ≤ ts →
  ∀ pos : V3 ℚ, bmin.x ≤ pos.x → pos.x ≤ bmax.x → bmin.z ≤ pos.z → pos.z ≤ bmax.z →
    ∃ t : Int × Int, 0 ≤ t.1 ∧ t.1 < tileCount bmin.x bmax.x cs ts ∧ 0 ≤ t.2 ∧ t.2 < tileCount bmin.z bmax.z cs ts ∧ InTile bmin cs ts t pos

/-- **C155** (refuted in full). Bounds 8.4 cells wide and tiles of 8 cells: one tile is built, and the last 0.4 cells are over none. -/
theorem tiles_cover_refuted : ¬ TilesCover := by
  intro h
  obtain ⟨t, h0, h1, -, -, ⟨-, h2⟩, -⟩ := h ⟨0, 0, 0⟩ ⟨42 / 5, 0, 8⟩ 1 8 (by decide +kernel) (by decide +kernel) (by decide +kernel) (by decide) ⟨41 / 5, 0, 1⟩
    (by decide +kernel) (by decide +kernel) (by decide +kernel) (by decide +kernel)
  have e : tileCount (0 : ℚ) (42 / 5) 1 8 = 1 := by decide +kernel
  simp only at h1
  rw [e] at h1
  have : t.1 = 0 := by omega
  rw [this] at h2
  norm_num [tileSide] at h2

/-- 20 by 9 cells with tiles of 8: three by two tiles, and the last corner but half a cell is over tile (2, 1). -/
example : tileCount 0 20 1 8 = 3 ∧ tileCount 0 9 1 8 = 2 ∧ tilePos ⟨0, 0, 0⟩ 1 8 ⟨39 / 2, 0, 17 / 2⟩ = (2, 1) := by decide +kernel

/-- **C156** The tile that `TilePos`, `BuildTile` and `RemoveTile` work on is the one the position is over, and the one the mesh
takes it to be in (`CalcTileLoc`) - for positions that are not before the lower bounds. For others it is the mesh's tile, or the next one: the
next one exactly where the distance is not a whole number of tiles. -/
theorem tilePos_partial {bmin : V3 ℚ} {cs : ℚ} {ts : Nat} (hc : 0 < cs) (ht : 1 ≤ ts) (pos : V3 ℚ) :
    (bmin.x ≤ pos.x → bmin.z ≤ pos.z → tilePos bmin cs ts pos = Detour.tileLoc bmin (tileSide cs ts) (tileSide cs ts) pos ∧
      InTile bmin cs ts (tilePos bmin cs ts pos) pos) ∧
    (tilePos bmin cs ts pos = Detour.tileLoc bmin (tileSide cs ts) (tileSide cs ts) pos ↔
      (bmin.x ≤ pos.x ∨ ∃ n : Int, pos.x = bmin.x + n * tileSide cs ts) ∧ (bmin.z ≤ pos.z ∨ ∃ n : Int, pos.z = bmin.z + n * tileSide cs ts)) := by
  have hs := tileSide_pos hc ht
  have key : ∀ b p : ℚ, truncI ((p - b) / tileSide cs ts) = ⌊(p - b) / tileSide cs ts⌋ ↔
      (b ≤ p ∨ ∃ n : Int, p = b + n * tileSide cs ts) := by
    intro b p
    rcases truncI_floor ((p - b) / tileSide cs ts) with ⟨e, h⟩ | ⟨e, h, hn⟩
    · refine ⟨fun _ => ?_, fun _ => e⟩
      rcases h with h | ⟨n, h⟩
      · left
        have := (div_nonneg_iff.1 h)
        rcases this with ⟨a, -⟩ | ⟨-, a⟩
        · linarith
        · linarith
      · right
        refine ⟨n, ?_⟩
        rw [div_eq_iff hs.ne'] at h
        linarith
    · refine ⟨fun h' => ?_, fun h' => ?_⟩
      · omega
      · rcases h' with h' | ⟨n, h'⟩
        · have := div_nonneg (sub_nonneg.2 h') hs.le
          linarith
        · exact absurd (by rw [h', add_sub_cancel_left, mul_div_cancel_right₀ _ hs.ne']) (hn n)
  have hiff : tilePos bmin cs ts pos = Detour.tileLoc bmin (tileSide cs ts) (tileSide cs ts) pos ↔
      (bmin.x ≤ pos.x ∨ ∃ n : Int, pos.x = bmin.x + n * tileSide cs ts) ∧ (bmin.z ≤ pos.z ∨ ∃ n : Int, pos.z = bmin.z + n * tileSide cs ts) := by
    unfold tilePos Detour.tileLoc
    rw [Prod.ext_iff, ← key, ← key]
  refine ⟨fun h1 h2 => ?_, hiff⟩
  have e := hiff.2 ⟨Or.inl h1, Or.inl h2⟩
  exact ⟨e, (inTile_iff hc ht _ _).2 e.symm⟩

/-- The claim in full: `TilePos` names the tile a position is over. -/
def TilePosRight : Prop := ∀ (bmin : V3 ℚ) (cs : ℚ) (ts : Nat), 0 < cs → 1 ≤ ts → ∀ pos : V3 ℚ, InTile bmin cs ts (tilePos bmin cs ts pos) pos

/-- **C156** (refuted in full). A position one cell before the bounds is said to be in the first tile, which `RemoveTile` then
removes. -/
theorem tilePos_refuted : ¬ TilePosRight := by
  intro h
  have h := h ⟨0, 0, 0⟩ 1 8 (by decide +kernel) (by decide) ⟨-1, 0, 3⟩
  have e : tilePos ⟨0, 0, 0⟩ 1 8 ⟨-1, 0, 3⟩ = (0, 0) := by decide +kernel
  rw [e] at h
  have := h.1.1
  norm_num at this

/-- Two cells into the second tile along z. -/
example : tilePos ⟨5, 0, 5⟩ (1 / 2) 8 ⟨6, 0, 10⟩ = (0, 1) ∧ Detour.tileLoc (⟨5, 0, 5⟩ : V3 ℚ) 4 4 ⟨6, 0, 10⟩ = (0, 1) := by decide +kernel

end Verif.Recast
