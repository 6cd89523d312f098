/-
Neighbouring tiles of the tiled builder (sample/tilemesh/builder.go) look at the same ground: from the solid
heightfield of a tile to its eroded compact heightfield, what becomes of a column depends only on the columns
around it, so that tiles that share columns agree about the cells at their seam.

The heightfields of the tiles are given here; that rasterisation puts the same spans into the columns they share
(but for the first and last row and column) is proved in Recast/RasterShift.
-/
import Verif.Recast.Erode
import Mathlib.Algebra.Order.Group.Abs
import Mathlib.Tactic.Ring

namespace Verif.Recast
open Verif Verif.Detour

set_option linter.unusedSimpArgs false
set_option linter.unusedVariables false

/-! ## Model -/

/-- The filters of a tile, in their order (sample/tilemesh/builder.go:320-322). -/
def tileFilters (height climb : Int) (F : Field) : Field :=
  filterLowHeight height (filterLedge height climb (filterLowHanging climb F))

/-- What is seen of a span of the compact heightfield: `Y`, `H`, its area and its four connections
(recast/heightfield.go:194-227). -/
structure GSpan where
  y : Nat
  h : Nat
  area : Nat
  con : List U32
  deriving DecidableEq

/-- The spans of a cell, bottom up. -/
def Chf.view (c : Chf) (spans : Nat → CSpan) (x y : Nat) : List GSpan :=
  (List.range (c.cells (x + y * c.w)).count).map fun k =>
    let i := (c.cells (x + y * c.w)).index + k
    ⟨(spans i).y, (spans i).h, c.area i, [0, 1, 2, 3].map (getCon (c.con i))⟩

/-- The ground of a tile before its regions are made: filters, `BuildCompactHeightfield` and
`ErodeWalkableArea` (sample/tilemesh/builder.go:320-338). -/
def tileGround (height climb : Int) (radius : Nat) (F : Field) : Option (Nat → Nat → List GSpan) :=
  (buildCompact height climb (tileFilters height climb F)).map fun r =>
    (erode radius (mkChf (tileFilters height climb F) r.1 r.2)).view r.1.spans

/-- `BorderSize` (sample/tilemesh/builder.go:206). -/
def borderSize (radius : Nat) : Nat := radius + 3

/-- `Width` and `Height` of the heightfield of a tile (sample/tilemesh/builder.go:207-208). -/
def tileWidth (ts radius : Nat) : Nat := ts + 2 * borderSize radius

/-- The cell of the grid over all tiles on which cell 0 of tile `t` lies: the bounds of the tile, widened by the
border (sample/tilemesh/builder.go:133-139, 242-246). -/
def tileOrg (ts radius : Nat) (t : Int) : Int := t * ts - borderSize radius

/-! ## Specification -/

/-- The column at a place of the grid, `none` outside. -/
def Field.look (F : Field) (X Y : Int) : Option (List SpanV) :=
  if 0 ≤ X ∧ X < F.w ∧ 0 ≤ Y ∧ Y < F.h then some (F.col (X.toNat + Y.toNat * F.w)) else none

/-- The columns of `F` around `(x, y)` are those of `G` around `(x', y')`, up to `r` cells away. -/
def SameAround (F G : Field) (r : Nat) (x y x' y' : Nat) : Prop :=
  ∀ dx dy : Int, |dx| ≤ r → |dy| ≤ r → F.look (x + dx) (y + dy) = G.look (x' + dx) (y' + dy)

/-- The heightfield of tile `(tx, ty)` holds the columns of the world `W`, apart from its first
and last row and column. -/
def TileOf (W : Int → Int → List SpanV) (ts radius : Nat) (tx ty : Int) (F : Field) : Prop :=
  F.w = tileWidth ts radius ∧ F.h = tileWidth ts radius ∧ ∀ x y : Nat, 0 < x → x + 1 < F.w → 0 < y → y + 1 < F.h →
    F.col (x + y * F.w) = W (tileOrg ts radius tx + x) (tileOrg ts radius ty + y)

/-! ## Columns -/

theorem look_cell {F : Field} {x y : Nat} (hx : x < F.w) (hy : y < F.h) : F.look x y = some (F.col (x + y * F.w)) := by
  unfold Field.look
  rw [if_pos (by omega), Int.toNat_natCast, Int.toNat_natCast]

theorem look_some {F : Field} {X Y : Int} {l : List SpanV} (h : F.look X Y = some l) :
    ∃ x y : Nat, X = x ∧ Y = y ∧ x < F.w ∧ y < F.h ∧ l = F.col (x + y * F.w) := by
  unfold Field.look at h
  split at h
  · rename_i hc
    refine ⟨X.toNat, Y.toNat, by omega, by omega, by omega, by omega, ?_⟩
    simpa using h.symm
  · cases h

theorem look_none {F : Field} {X Y : Int} : F.look X Y = none ↔ ¬ (0 ≤ X ∧ X < F.w ∧ 0 ≤ Y ∧ Y < F.h) := by
  unfold Field.look
  split <;> simp_all

theorem look_lowHanging (climb : Int) (F : Field) (X Y : Int) :
    (filterLowHanging climb F).look X Y = (F.look X Y).map (lowHangingCol climb false nullArea 0) := by
  cases h : F.look X Y with
  | none => exact (look_none (F := filterLowHanging climb F)).2 ((look_none (F := F)).1 h)
  | some l =>
    obtain ⟨x, y, rfl, rfl, hx, hy, rfl⟩ := look_some h
    rw [look_cell (F := filterLowHanging climb F) hx hy]
    show some ((filterLowHanging climb F).col (x + y * F.w)) = _
    rw [filterLowHanging_col, if_pos (cell_lt hx hy)]
    rfl

theorem look_lowHeight (height : Int) (F : Field) (X Y : Int) :
    (filterLowHeight height F).look X Y = (F.look X Y).map (lowHeightCol height) := by
  cases h : F.look X Y with
  | none => exact (look_none (F := filterLowHeight height F)).2 ((look_none (F := F)).1 h)
  | some l =>
    obtain ⟨x, y, rfl, rfl, hx, hy, rfl⟩ := look_some h
    rw [look_cell (F := filterLowHeight height F) hx hy]
    show some ((filterLowHeight height F).col (x + y * F.w)) = _
    rw [filterLowHeight_col, if_pos (cell_lt hx hy)]
    rfl

/-- One direction of the ledge filter, from the neighbour column. -/
def ledgeSide (height climb bot top : Int) (nc : Option (List SpanV)) (a : LedgeAcc) : LedgeAcc :=
  match nc with
  | none => { a with minh := min a.minh (-climb - bot) }
  | some nc =>
    ledgeNeis height climb bot top nc
      (if min top (ceilAbove nc) - max bot (-climb) > height then { a with minh := min a.minh (-climb - bot) } else a)

theorem ledgeDir_look (height climb bot top : Int) (F : Field) (x y : Nat) (a : LedgeAcc) (dir : Nat) :
    ledgeDir height climb bot top F.w F.h F.col x y a dir =
      ledgeSide height climb bot top (F.look (x + dirX (BitVec.ofNat 32 dir)) (y + dirY (BitVec.ofNat 32 dir))) a := by
  unfold ledgeDir
  simp only
  generalize (x : Int) + dirX (BitVec.ofNat 32 dir) = X
  generalize (y : Int) + dirY (BitVec.ofNat 32 dir) = Y
  cases h : F.look X Y with
  | none =>
    rw [if_pos (by have := look_none.1 h; omega)]
    rfl
  | some l =>
    obtain ⟨nx, ny, rfl, rfl, h1, h2, rfl⟩ := look_some h
    rw [if_neg (by omega)]
    have ei : ((nx : Int) + (ny : Int) * (F.w : Int)).toNat = nx + ny * F.w := by
      have : ((nx : Int) + (ny : Int) * (F.w : Int)) = ((nx + ny * F.w : Nat) : Int) := by push_cast; rfl
      rw [this, Int.toNat_natCast]
    rw [ei]
    rfl

theorem ledgeCol_look (height climb : Int) (F G : Field) (x y x' y' : Nat)
    (hd : ∀ d < 4, F.look (x + dirX (BitVec.ofNat 32 d)) (y + dirY (BitVec.ofNat 32 d)) =
      G.look (x' + dirX (BitVec.ofNat 32 d)) (y' + dirY (BitVec.ofNat 32 d))) (l : List SpanV) :
    ledgeCol height climb F.w F.h F.col x y l = ledgeCol height climb G.w G.h G.col x' y' l := by
  have hl : ∀ bot top, isLedge height climb F.w F.h F.col x y bot top = isLedge height climb G.w G.h G.col x' y' bot top := by
    intro bot top
    unfold isLedge
    simp only [List.foldl_cons, List.foldl_nil, ledgeDir_look, hd 0 (by omega), hd 1 (by omega), hd 2 (by omega), hd 3 (by omega)]
  induction l with
  | nil => rfl
  | cons s l ih => simp only [ledgeCol, ih, hl]

theorem dir_small {d : Nat} (hd : d < 4) : |dirX (BitVec.ofNat 32 d)| ≤ 1 ∧ |dirY (BitVec.ofNat 32 d)| ≤ 1 := by
  rcases off_cases d hd with ⟨-, e1, e2⟩ | ⟨-, e1, e2⟩ | ⟨-, e1, e2⟩ | ⟨-, e1, e2⟩ <;> rw [e1, e2] <;> decide

theorem look_ledge (height climb : Int) (F G : Field) (X Y X' Y' : Int) (h0 : F.look X Y = G.look X' Y')
    (hd : ∀ d < 4, F.look (X + dirX (BitVec.ofNat 32 d)) (Y + dirY (BitVec.ofNat 32 d)) =
      G.look (X' + dirX (BitVec.ofNat 32 d)) (Y' + dirY (BitVec.ofNat 32 d))) :
    (filterLedge height climb F).look X Y = (filterLedge height climb G).look X' Y' := by
  cases h : F.look X Y with
  | none =>
    rw [h] at h0
    rw [(look_none (F := filterLedge height climb F)).2 ((look_none (F := F)).1 h),
      (look_none (F := filterLedge height climb G)).2 ((look_none (F := G)).1 h0.symm)]
  | some l =>
    rw [h] at h0
    obtain ⟨x, y, rfl, rfl, hx, hy, e⟩ := look_some h
    obtain ⟨x', y', rfl, rfl, hx', hy', e'⟩ := look_some h0.symm
    rw [look_cell (F := filterLedge height climb F) hx hy, look_cell (F := filterLedge height climb G) hx' hy']
    show some ((filterLedge height climb F).col (x + y * F.w)) = some ((filterLedge height climb G).col (x' + y' * G.w))
    have q : ∀ {w h x y : Nat}, x < w → y < h → (x + y * w) % w = x ∧ (x + y * w) / w = y := by
      intro w h x y hx hy
      obtain ⟨h1, h2, h3⟩ := cell_of_lt (cell_lt hx hy)
      exact cell_inj h1 hx h3
    rw [filterLedge_col, filterLedge_col, if_pos (cell_lt hx hy), if_pos (cell_lt hx' hy'), (q hx hy).1, (q hx hy).2,
      (q hx' hy').1, (q hx' hy').2, ← e, ← e', ledgeCol_look height climb F G x y x' y' hd]

/-- The filters look one column far. -/
theorem filters_local (height climb : Int) {F G : Field} {r x y x' y' : Nat} (h : SameAround F G (r + 1) x y x' y') :
    SameAround (tileFilters height climb F) (tileFilters height climb G) r x y x' y' := by
  intro dx dy h1 h2
  unfold tileFilters
  rw [look_lowHeight, look_lowHeight]
  congr 1
  have e : ∀ dx' dy' : Int, |dx'| ≤ r + 1 → |dy'| ≤ r + 1 →
      (filterLowHanging climb F).look (x + dx') (y + dy') = (filterLowHanging climb G).look (x' + dx') (y' + dy') := by
    intro dx' dy' g1 g2
    rw [look_lowHanging, look_lowHanging, h dx' dy' (by push_cast; omega) (by push_cast; omega)]
  refine look_ledge height climb _ _ _ _ _ _ (e _ _ (by omega) (by omega)) fun d hd => ?_
  obtain ⟨s1, s2⟩ := dir_small hd
  rw [abs_le] at s1 s2 h1 h2
  rw [add_assoc, add_assoc, add_assoc, add_assoc]
  exact e _ _ (abs_le.2 (by omega)) (abs_le.2 (by omega))

theorem tileFilters_len (height climb : Int) (F : Field) (i : Nat) :
    ((tileFilters height climb F).col i).length = (F.col i).length := by
  have h1 : ∀ l, (lowHeightCol height l).length = l.length := by
    intro l
    induction l with
    | nil => rfl
    | cons s l ih => simp [lowHeightCol, ih]
  have h2 : ∀ (w h : Nat) (col : Nat → List SpanV) (x y : Nat) l, (ledgeCol height climb w h col x y l).length = l.length := by
    intro w h col x y l
    induction l with
    | nil => rfl
    | cons s l ih => simp [ledgeCol, ih]
  unfold tileFilters
  rw [filterLowHeight_col]
  have h3 : ((filterLedge height climb (filterLowHanging climb F)).col i).length = (F.col i).length := by
    rw [filterLedge_col]
    have h4 : ((filterLowHanging climb F).col i).length = (F.col i).length := by
      rw [filterLowHanging_col]
      split
      · exact lowHangingCol_length _ _ _ _ _
      · rfl
    split
    · rw [h2, h4]
    · exact h4
  split
  · rw [h1, h3]
  · exact h3

theorem openSpans_len (l : List SpanV) : (openSpans l).length ≤ l.length := by
  induction l with
  | nil => exact le_rfl
  | cons s l ih =>
    simp only [openSpans]
    split
    · simp only [List.length_cons]; omega
    · simp only [List.length_cons]; omega

/-! ## Spans and connections -/

/-- The open spans of a cell, as the first pass stores them. -/
theorem cell_spans {F : Field} {f : Fill} (hf : Filled F (F.w * F.h) f) {i : Nat} (hi : i < F.w * F.h) :
    (f.cells i).count = (openSpans (F.col i)).length % 256 ∧
    ∀ k < (f.cells i).count, (openSpans (F.col i))[k]? = some (f.spans ((f.cells i).index + k)) := by
  have hc := hf.cells i
  rw [if_pos hi, cellSpec] at hc
  by_cases he : F.col i = []
  · rw [if_pos he] at hc
    rw [hc, he]
    exact ⟨rfl, fun k hk => by simp at hk⟩
  · rw [if_neg he] at hc
    rw [hc]
    refine ⟨rfl, fun k hk => ?_⟩
    simp only at hk ⊢
    have hlt : k < (openSpans (F.col i)).length := Nat.lt_of_lt_of_le hk (Nat.mod_le _ _)
    have := hf.spans i hi k _ (List.getElem?_eq_getElem hlt)
    rw [List.getElem?_eq_getElem hlt, this]

/-- Cells with the same column hold the same spans. -/
theorem same_spans {F G : Field} {f g : Fill} (hf : Filled F (F.w * F.h) f) (hg : Filled G (G.w * G.h) g) {i j : Nat}
    (hi : i < F.w * F.h) (hj : j < G.w * G.h) (he : F.col i = G.col j) :
    (f.cells i).count = (g.cells j).count ∧ ∀ k < (f.cells i).count,
      f.spans ((f.cells i).index + k) = g.spans ((g.cells j).index + k) := by
  obtain ⟨a1, a2⟩ := cell_spans hf hi
  obtain ⟨b1, b2⟩ := cell_spans hg hj
  rw [he] at a1 a2
  refine ⟨by rw [a1, b1], fun k hk => ?_⟩
  have h1 := a2 k hk
  have h2 := b2 k (by rw [b1, ← a1]; exact hk)
  rw [h1] at h2
  exact Option.some.inj h2

/-- The neighbour cells of cells with the same surroundings. -/
theorem neiCell_look {F G : Field} {x y x' y' d : Nat}
    (h : F.look (x + dirX (BitVec.ofNat 32 d)) (y + dirY (BitVec.ofNat 32 d)) =
      G.look (x' + dirX (BitVec.ofNat 32 d)) (y' + dirY (BitVec.ofNat 32 d))) {i : Nat} (hi : NeiCell F.w F.h x y d i) :
    ∃ j, NeiCell G.w G.h x' y' d j ∧ i < F.w * F.h ∧ j < G.w * G.h ∧ F.col i = G.col j := by
  obtain ⟨nx, ny, h1, h2, h3, h4, rfl⟩ := hi
  rw [← h3, ← h4, look_cell h1 h2] at h
  obtain ⟨a, b, e1, e2, q1, q2, q3⟩ := look_some h.symm
  exact ⟨a + b * G.w, ⟨a, b, q1, q2, e1.symm, e2.symm, rfl⟩, cell_lt h1 h2, cell_lt q1 q2, q3⟩

/-- The connections of a span depend on its own column and those next to it. -/
theorem con_local (height climb : Int) {F G : Field} {f g : Fill} (hf : Filled F (F.w * F.h) f)
    (hg : Filled G (G.w * G.h) g) {x y x' y' d : Nat}
    (hd : F.look (x + dirX (BitVec.ofNat 32 d)) (y + dirY (BitVec.ofNat 32 d)) =
      G.look (x' + dirX (BitVec.ofNat 32 d)) (y' + dirY (BitVec.ofNat 32 d))) {s : CSpan} {v u : U32}
    (hv : ConSpec height climb F.w F.h f x y s d v) (hu : ConSpec height climb G.w G.h g x' y' s d u) : v = u := by
  rcases hv with ⟨rfl, hv⟩ | ⟨i, hi, m, hm, hmc, rfl, hs, hl⟩
  · rcases hu with ⟨rfl, hu⟩ | ⟨j, hj, m, hm, hmc, rfl, hs, hl⟩
    · rfl
    · exfalso
      obtain ⟨i, q1, q2, q3, q4⟩ := neiCell_look hd.symm hj
      obtain ⟨c1, c2⟩ := same_spans hg hf q2 q3 q4
      refine hv i q1 m hm (by omega) ?_
      rw [← c2 m hmc]; exact hs
  · obtain ⟨j, q1, q2, q3, q4⟩ := neiCell_look hd hi
    obtain ⟨c1, c2⟩ := same_spans hf hg q2 q3 q4
    rcases hu with ⟨rfl, hu⟩ | ⟨j', hj, m', hm', hmc', rfl, hs', hl'⟩
    · exfalso
      refine hu j q1 m hm (by omega) ?_
      rw [← c2 m hmc]; exact hs
    · obtain rfl := neiCell_unique q1 hj
      congr 1
      rcases Nat.lt_trichotomy m m' with h | h | h
      · exact absurd (by rw [← c2 m hmc]; exact hs) (hl' m h)
      · exact h
      · exact absurd (by rw [c2 m' (by omega)]; exact hs') (hl m' h)

/-! ## Erosion -/

/-- The fields agree about counts and areas up to `m` cells around `(x, y)` and `(x', y')`. -/
def AreasAlike (c c' : Chf) (m x y x' y' : Nat) : Prop :=
  ∀ a b a' b' : Nat, a < c.w → b < c.h → a' < c'.w → b' < c'.h → (a : Int) - x = a' - x' → (b : Int) - y = b' - y' →
    |(a : Int) - x| ≤ m → |(b : Int) - y| ≤ m → (c.cells (a + b * c.w)).count = (c'.cells (a' + b' * c'.w)).count ∧
      ∀ k < (c.cells (a + b * c.w)).count,
        c.area ((c.cells (a + b * c.w)).index + k) = c'.area ((c'.cells (a' + b' * c'.w)).index + k)

/-- The fields agree about connections up to `m` cells around `(x, y)` and `(x', y')`. -/
def ConsAlike (c c' : Chf) (m x y x' y' : Nat) : Prop :=
  ∀ a b a' b' : Nat, a < c.w → b < c.h → a' < c'.w → b' < c'.h → (a : Int) - x = a' - x' → (b : Int) - y = b' - y' →
    |(a : Int) - x| ≤ m → |(b : Int) - y| ≤ m → ∀ k < (c.cells (a + b * c.w)).count, ∀ d < 4,
      getCon (c.con ((c.cells (a + b * c.w)).index + k)) d = getCon (c'.con ((c'.cells (a' + b' * c'.w)).index + k)) d

/-- Two spans, of the same number in their cells. -/
structure PairAt (c c' : Chf) (x y x' y' i j : Nat) : Prop where
  at1 : c.At x y i
  at2 : c'.At x' y' j
  num : (i : Int) - (c.cells (x + y * c.w)).index = (j : Int) - (c'.cells (x' + y' * c'.w)).index

theorem AreasAlike.sub {c c' : Chf} {m m' x y x' y' a b a' b' : Nat} (h : AreasAlike c c' m x y x' y')
    (h1 : (a : Int) - x = a' - x') (h2 : (b : Int) - y = b' - y') (h3 : |(a : Int) - x| + m' ≤ m) (h4 : |(b : Int) - y| + m' ≤ m) :
    AreasAlike c c' m' a b a' b' := by
  intro p q p' q' g1 g2 g3 g4 g5 g6 g7 g8
  simp only [Int.abs_eq_natAbs] at *
  exact h p q p' q' g1 g2 g3 g4 (by omega) (by omega) (by simp only [Int.abs_eq_natAbs]; omega) (by simp only [Int.abs_eq_natAbs]; omega)

theorem ConsAlike.sub {c c' : Chf} {m m' x y x' y' a b a' b' : Nat} (h : ConsAlike c c' m x y x' y')
    (h1 : (a : Int) - x = a' - x') (h2 : (b : Int) - y = b' - y') (h3 : |(a : Int) - x| + m' ≤ m) (h4 : |(b : Int) - y| + m' ≤ m) :
    ConsAlike c c' m' a b a' b' := by
  intro p q p' q' g1 g2 g3 g4 g5 g6 g7 g8
  simp only [Int.abs_eq_natAbs] at *
  exact h p q p' q' g1 g2 g3 g4 (by omega) (by omega) (by simp only [Int.abs_eq_natAbs]; omega) (by simp only [Int.abs_eq_natAbs]; omega)

theorem AreasAlike.symm {c c' : Chf} {m x y x' y' : Nat} (h : AreasAlike c c' m x y x' y') : AreasAlike c' c m x' y' x y := by
  intro a b a' b' g1 g2 g3 g4 g5 g6 g7 g8
  obtain ⟨q1, q2⟩ := h a' b' a b g3 g4 g1 g2 g5.symm g6.symm (by rw [← g5]; exact g7) (by rw [← g6]; exact g8)
  exact ⟨q1.symm, fun k hk => (q2 k (by omega)).symm⟩

theorem ConsAlike.symm {c c' : Chf} {m m' x y x' y' : Nat} (ha : AreasAlike c c' m' x y x' y') (hm : m ≤ m')
    (h : ConsAlike c c' m x y x' y') : ConsAlike c' c m x' y' x y := by
  intro a b a' b' g1 g2 g3 g4 g5 g6 g7 g8 k hk d hd
  obtain ⟨q1, -⟩ := ha a' b' a b g3 g4 g1 g2 g5.symm g6.symm (by rw [← g5]; omega) (by rw [← g6]; omega)
  exact (h a' b' a b g3 g4 g1 g2 g5.symm g6.symm (by rw [← g5]; exact g7) (by rw [← g6]; exact g8) k (by omega) d hd).symm

theorem PairAt.symm {c c' : Chf} {x y x' y' i j : Nat} (h : PairAt c c' x y x' y' i j) : PairAt c' c x' y' x y j i :=
  ⟨h.at2, h.at1, h.num.symm⟩

theorem PairAt.con {c c' : Chf} {x y x' y' i j : Nat} (h : PairAt c c' x y x' y' i j) (hk : ConsAlike c c' 0 x y x' y')
    {d : Nat} (hd : d < 4) : getCon (c.con i) d = getCon (c'.con j) d := by
  obtain ⟨⟨a1, a2, a3, a4⟩, ⟨b1, b2, b3, b4⟩, hn⟩ := h
  have := hk x y x' y' a1 a2 b1 b2 (by omega) (by omega) (by simp) (by simp) (i - (c.cells (x + y * c.w)).index) (by omega) d hd
  rwa [show (c.cells (x + y * c.w)).index + (i - (c.cells (x + y * c.w)).index) = i by omega,
    show (c'.cells (x' + y' * c'.w)).index + (i - (c.cells (x + y * c.w)).index) = j by omega] at this

theorem PairAt.area {c c' : Chf} {x y x' y' i j : Nat} (h : PairAt c c' x y x' y' i j) (hk : AreasAlike c c' 0 x y x' y') :
    c.area i = c'.area j := by
  obtain ⟨⟨a1, a2, a3, a4⟩, ⟨b1, b2, b3, b4⟩, hn⟩ := h
  have := (hk x y x' y' a1 a2 b1 b2 (by omega) (by omega) (by simp) (by simp)).2 (i - (c.cells (x + y * c.w)).index) (by omega)
  rwa [show (c.cells (x + y * c.w)).index + (i - (c.cells (x + y * c.w)).index) = i by omega,
    show (c'.cells (x' + y' * c'.w)).index + (i - (c.cells (x + y * c.w)).index) = j by omega] at this

/-- A step over a connection can be followed in the other field. -/
theorem PairAt.step {c c' : Chf} (hc : c.Wf) (hc' : c'.Wf) {x y x' y' i j d n : Nat} (h : PairAt c c' x y x' y' i j)
    (hk : ConsAlike c c' 0 x y x' y') (hd : d < 4) (hn : c.Nb i d n) :
    ∃ nx ny nx' ny' n' : Nat, c'.Nb j d n' ∧ PairAt c c' nx ny nx' ny' n n' ∧
      (nx : Int) = x + dirX (BitVec.ofNat 32 d) ∧ (ny : Int) = y + dirY (BitVec.ofNat 32 d) ∧
      (nx' : Int) = x' + dirX (BitVec.ofNat 32 d) ∧ (ny' : Int) = y' + dirY (BitVec.ofNat 32 d) := by
  obtain ⟨x0, y0, nx, ny, g1, g2, g3, g4, g5, g6⟩ := hn
  obtain ⟨rfl, rfl⟩ := hc.unique _ _ _ _ _ h.at1 g1
  have he := h.con hk hd
  obtain ⟨nx', ny', q1, q2, q3, q4, q5⟩ := hc'.con x' y' j h.at2 d hd (by rw [← he]; exact g5)
  have hat : c'.At nx' ny' ((c'.cells (nx' + ny' * c'.w)).index + (getCon (c'.con j) d).toNat) := ⟨q3, q4, by omega, by omega⟩
  refine ⟨nx, ny, nx', ny', _, ⟨x', y', nx', ny', h.at2, hat, q1, q2, by rw [← he]; exact g5, rfl⟩, ⟨g2, hat, ?_⟩, g3, g4, q1, q2⟩
  rw [g6, he]
  push_cast
  ring

theorem border_local {c c' : Chf} (hc : c.Wf) (hc' : c'.Wf) {x y x' y' i j : Nat} (h : PairAt c c' x y x' y' i j)
    (ha : AreasAlike c c' 1 x y x' y') (hk : ConsAlike c c' 0 x y x' y') (hb : Border c i) : Border c' j := by
  have ha0 : AreasAlike c c' 0 x y x' y' := ha.sub (by omega) (by omega) (by simp) (by simp)
  rcases hb with hb | ⟨d, hd, hb⟩
  · exact Or.inl (by rw [← h.area ha0]; exact hb)
  · refine Or.inr ⟨d, hd, fun n' hn' => ?_⟩
    obtain ⟨nx', ny', nx, ny, n, g1, g2, g3, g4, g5, g6⟩ := h.symm.step hc' hc (hk.symm ha0 le_rfl) hd hn'
    obtain ⟨s1, s2⟩ := dir_small hd
    rw [← g2.symm.area (ha.sub (by omega) (by omega) (by rw [g5]; simpa using s1) (by rw [g6]; simpa using s2))]
    exact hb n g1

theorem reach_local {c c' : Chf} (hc : c.Wf) (hc' : c'.Wf) (ds : List (Nat × Nat))
    (hds : ∀ ab ∈ ds, ab.1 < 4 ∧ ab.2 < 4 ∧ (ab.1 + ab.2) % 2 = 1) (base base' : Nat → Nat → Prop)
    (hbase : ∀ i j k x y x' y', PairAt c c' x y x' y' i j → AreasAlike c c' (k / 2 + 1) x y x' y' →
      ConsAlike c c' (k / 2) x y x' y' → base i k → base' j k) {i k : Nat} (h : Reach c ds base i k) :
    ∀ {j x y x' y' : Nat}, PairAt c c' x y x' y' i j → AreasAlike c c' (k / 2 + 1) x y x' y' →
      ConsAlike c c' (k / 2) x y x' y' → Reach c' ds base' j k := by
  induction h with
  | here hb => intro j x y x' y' h1 h2 h3; exact .here (hbase _ _ _ _ _ _ _ h1 h2 h3 hb)
  | @side i n k a b hab hn _ ih =>
    intro j x y x' y' h1 h2 h3
    obtain ⟨d1, d2, d3⟩ := hds _ hab
    simp only at d1
    obtain ⟨nx, ny, nx', ny', n', g1, g2, g3, g4, g5, g6⟩ := h1.step hc hc' (h3.sub (by omega) (by omega) (by simp; omega) (by simp; omega)) d1 hn
    obtain ⟨s1, s2⟩ := dir_small d1
    refine .side hab g1 (ih g2 (h2.sub (by omega) (by omega) ?_ ?_) (h3.sub (by omega) (by omega) ?_ ?_))
    · rw [g3]; simp only [add_sub_cancel_left]; omega
    · rw [g4]; simp only [add_sub_cancel_left]; omega
    · rw [g3]; simp only [add_sub_cancel_left]; omega
    · rw [g4]; simp only [add_sub_cancel_left]; omega
  | @diag i n l k a b hab hn hl _ ih =>
    intro j x y x' y' h1 h2 h3
    obtain ⟨d1, d2, d3⟩ := hds _ hab
    simp only at d1 d2 d3
    obtain ⟨nx, ny, nx', ny', n', g1, g2, g3, g4, g5, g6⟩ := h1.step hc hc' (h3.sub (by omega) (by omega) (by simp; omega) (by simp; omega)) d1 hn
    obtain ⟨s1, s2⟩ := dir_small d1
    obtain ⟨mx, my, mx', my', m', e1, e2, e3, e4, e5, e6⟩ := g2.step hc hc'
      (h3.sub (by omega) (by omega) (by rw [g3]; simp only [add_sub_cancel_left]; omega)
        (by rw [g4]; simp only [add_sub_cancel_left]; omega)) d2 hl
    have hp : |dirX (BitVec.ofNat 32 a) + dirX (BitVec.ofNat 32 b)| ≤ 1 ∧ |dirY (BitVec.ofNat 32 a) + dirY (BitVec.ofNat 32 b)| ≤ 1 := by
      rcases off_cases a d1 with ⟨r1, r2, r3⟩ | ⟨r1, r2, r3⟩ | ⟨r1, r2, r3⟩ | ⟨r1, r2, r3⟩ <;>
      rcases off_cases b d2 with ⟨t1, t2, t3⟩ | ⟨t1, t2, t3⟩ | ⟨t1, t2, t3⟩ | ⟨t1, t2, t3⟩ <;>
      first
        | (exfalso; omega)
        | (rw [r2, r3, t2, t3]; decide)
    have f1 : (mx : Int) - x = dirX (BitVec.ofNat 32 a) + dirX (BitVec.ofNat 32 b) := by omega
    have f2 : (my : Int) - y = dirY (BitVec.ofNat 32 a) + dirY (BitVec.ofNat 32 b) := by omega
    refine .diag hab g1 e1 (ih e2 (h2.sub (by omega) (by omega) ?_ ?_) (h3.sub (by omega) (by omega) ?_ ?_))
    · rw [f1]; omega
    · rw [f2]; omega
    · rw [f1]; omega
    · rw [f2]; omega

theorem erode_local_one {c c' : Chf} (hc : c.Wf) (hc' : c'.Wf) (hn : c.w ≤ 127 ∨ c.h ≤ 127) (hn' : c'.w ≤ 127 ∨ c'.h ≤ 127)
    {radius : Nat} (h1 : 1 ≤ radius) (h2 : radius ≤ 127) {x y x' y' i j : Nat} (h : PairAt c c' x y x' y' i j)
    (ha : AreasAlike c c' radius x y x' y') (hk : ConsAlike c c' (radius - 1) x y x' y')
    (he : (erode radius c).area i = 0) : (erode radius c').area j = 0 := by
  have ha0 : AreasAlike c c' 0 x y x' y' := ha.sub (by omega) (by omega) (by simp) (by simp)
  refine (erode_iff_partial hc' hn' h2 (hc'.lt _ _ _ h.at2)).2 ?_
  rcases (erode_iff_partial hc hn h2 (hc.lt _ _ _ h.at1)).1 he with h0 | ⟨k, hkr, hr⟩
  · exact Or.inl (by rw [← h.area ha0]; exact h0)
  · refine Or.inr ⟨k, hkr, ?_⟩
    refine reach_local hc hc' _ (by decide) _ _ ?_ hr h (ha.sub (by omega) (by omega) (by simp; omega) (by simp; omega))
      (hk.sub (by omega) (by omega) (by simp; omega) (by simp; omega))
    intro i j k x y x' y' g1 g2 g3 g4
    refine reach_local hc hc' _ (by decide) _ _ ?_ g4 g1 g2 g3
    rintro i j k x y x' y' g1 g2 g3 ⟨g4, rfl⟩
    exact ⟨border_local hc hc' g1 g2 g3 g4, rfl⟩

/-- Erosion looks as far as its radius. -/
theorem erode_local {c c' : Chf} (hc : c.Wf) (hc' : c'.Wf) (hn : c.w ≤ 127 ∨ c.h ≤ 127) (hn' : c'.w ≤ 127 ∨ c'.h ≤ 127)
    {radius : Nat} (h1 : 1 ≤ radius) (h2 : radius ≤ 127) {x y x' y' i j : Nat} (h : PairAt c c' x y x' y' i j)
    (ha : AreasAlike c c' radius x y x' y') (hk : ConsAlike c c' (radius - 1) x y x' y') :
    (erode radius c).area i = (erode radius c').area j := by
  have ha0 : AreasAlike c c' 0 x y x' y' := ha.sub (by omega) (by omega) (by simp) (by simp)
  have e := h.area ha0
  have f1 := erode_local_one hc hc' hn hn' h1 h2 h ha hk
  have f2 := erode_local_one hc' hc hn' hn h1 h2 h.symm ha.symm (hk.symm ha (by omega))
  rcases erode_only_clears_partial radius c i with g | g <;> rcases erode_only_clears_partial radius c' j with g' | g'
  · rw [g, g', e]
  · rw [g', f2 g']
  · rw [g, f1 g]
  · rw [g, g']

/-! ## The ground of a tile -/

/-- Compact heightfields with the same columns around are alike. -/
theorem compact_alike (height climb : Int) {F G : Field} {f g : Fill} {con con' : Nat → U32}
    (hf : buildCompact height climb F = some (f, con)) (hg : buildCompact height climb G = some (g, con'))
    {r x y x' y' : Nat} (h : SameAround F G r x y x' y') :
    (∀ a b a' b' : Nat, a < F.w → b < F.h → a' < G.w → b' < G.h → (a : Int) - x = a' - x' → (b : Int) - y = b' - y' →
      |(a : Int) - x| ≤ r → |(b : Int) - y| ≤ r → (f.cells (a + b * F.w)).count = (g.cells (a' + b' * G.w)).count ∧
        ∀ k < (f.cells (a + b * F.w)).count,
          f.spans ((f.cells (a + b * F.w)).index + k) = g.spans ((g.cells (a' + b' * G.w)).index + k)) ∧
    (1 ≤ r → ConsAlike (mkChf F f con) (mkChf G g con') (r - 1) x y x' y') := by
  obtain ⟨f0, con0, p0, p1, p2⟩ := connections_partial height climb F
  rw [hf] at p0
  simp only [Option.some.injEq, Prod.mk.injEq] at p0
  obtain ⟨rfl, rfl⟩ := p0
  obtain ⟨g0, con0', q0, q1, q2⟩ := connections_partial height climb G
  rw [hg] at q0
  simp only [Option.some.injEq, Prod.mk.injEq] at q0
  obtain ⟨rfl, rfl⟩ := q0
  obtain ⟨f0, p1', p3⟩ := fillField_spec F
  rw [p1] at p1'; cases p1'
  obtain ⟨g0, q1', q3⟩ := fillField_spec G
  rw [q1] at q1'; cases q1'
  have col : ∀ a b a' b' : Nat, a < F.w → b < F.h → a' < G.w → b' < G.h → (a : Int) - x = a' - x' → (b : Int) - y = b' - y' →
      |(a : Int) - x| ≤ r → |(b : Int) - y| ≤ r → F.col (a + b * F.w) = G.col (a' + b' * G.w) := by
    intro a b a' b' h1 h2 h3 h4 h5 h6 h7 h8
    have e := h ((a : Int) - x) ((b : Int) - y) h7 h8
    rw [show (x : Int) + (a - x) = a by ring, show (y : Int) + (b - y) = b by ring, h5, h6,
      show (x' : Int) + (a' - x') = a' by ring, show (y' : Int) + (b' - y') = b' by ring, look_cell h1 h2, look_cell h3 h4] at e
    exact Option.some.inj e
  have sp : ∀ a b a' b' : Nat, a < F.w → b < F.h → a' < G.w → b' < G.h → (a : Int) - x = a' - x' → (b : Int) - y = b' - y' →
      |(a : Int) - x| ≤ r → |(b : Int) - y| ≤ r → (f.cells (a + b * F.w)).count = (g.cells (a' + b' * G.w)).count ∧
        ∀ k < (f.cells (a + b * F.w)).count,
          f.spans ((f.cells (a + b * F.w)).index + k) = g.spans ((g.cells (a' + b' * G.w)).index + k) := by
    intro a b a' b' h1 h2 h3 h4 h5 h6 h7 h8
    exact same_spans p3 q3 (cell_lt h1 h2) (cell_lt h3 h4) (col a b a' b' h1 h2 h3 h4 h5 h6 h7 h8)
  refine ⟨sp, fun hr a b a' b' h1 h2 h3 h4 h5 h6 h7 h8 k hk d hd => ?_⟩
  have h7' : |(a : Int) - x| + 1 ≤ r := by omega
  have h8' : |(b : Int) - y| + 1 ≤ r := by omega
  obtain ⟨s1, s2⟩ := sp a b a' b' h1 h2 h3 h4 h5 h6 (by omega) (by omega)
  have v := p2 a h1 b h2 ((f.cells (a + b * F.w)).index + k) ⟨by omega, Nat.add_lt_add_left hk _⟩ d hd
  have u := q2 a' h3 b' h4 ((g.cells (a' + b' * G.w)).index + k) ⟨by omega, Nat.add_lt_add_left (by rw [← s1]; exact hk) _⟩ d hd
  rw [s2 k hk] at v
  refine con_local height climb p3 q3 ?_ v u
  obtain ⟨t1, t2⟩ := dir_small hd
  have e := h ((a : Int) - x + dirX (BitVec.ofNat 32 d)) ((b : Int) - y + dirY (BitVec.ofNat 32 d))
    ((abs_add_le _ _).trans (by omega)) ((abs_add_le _ _).trans (by omega))
  rw [show (x : Int) + (a - x + dirX (BitVec.ofNat 32 d)) = a + dirX (BitVec.ofNat 32 d) by ring,
    show (y : Int) + (b - y + dirY (BitVec.ofNat 32 d)) = b + dirY (BitVec.ofNat 32 d) by ring, h5, h6,
    show (x' : Int) + (a' - x' + dirX (BitVec.ofNat 32 d)) = a' + dirX (BitVec.ofNat 32 d) by ring,
    show (y' : Int) + (b' - y' + dirY (BitVec.ofNat 32 d)) = b' + dirY (BitVec.ofNat 32 d) by ring] at e
  exact e

/-- **C154** (partial). The ground of a tile - which spans can be walked on, their heights and connections, after
the filters and erosion - depends in every cell only on the columns up to `radius + 1` cells away. Missing: fields of
more than 127 rows and columns, where the distances of the erosion wrap (see `erode_local_refuted`), and columns of
more than 255 spans. -/
theorem ground_local_partial (height climb : Int) (radius : Nat) (h1 : 1 ≤ radius) (h2 : radius ≤ 127) (F G : Field)
    (hF : F.w ≤ 127 ∨ F.h ≤ 127) (hG : G.w ≤ 127 ∨ G.h ≤ 127) (cF : ∀ i, (F.col i).length ≤ 255)
    (cG : ∀ i, (G.col i).length ≤ 255) : ∃ v u, tileGround height climb radius F = some v ∧
      tileGround height climb radius G = some u ∧ ∀ x y x' y', x < F.w → y < F.h → x' < G.w → y' < G.h →
        SameAround F G (radius + 1) x y x' y' → v x y = u x' y' := by
  have len : ∀ H : Field, (∀ i, (H.col i).length ≤ 255) → ∀ i < (tileFilters height climb H).w * (tileFilters height climb H).h,
      (openSpans ((tileFilters height climb H).col i)).length ≤ 255 := by
    intro H hH i _
    refine (openSpans_len _).trans ?_
    rw [tileFilters_len]
    exact hH i
  obtain ⟨f, con, e1, w1⟩ := buildCompact_wf height climb (tileFilters height climb F) (len F cF)
  obtain ⟨g, con', e2, w2⟩ := buildCompact_wf height climb (tileFilters height climb G) (len G cG)
  refine ⟨(erode radius (mkChf (tileFilters height climb F) f con)).view f.spans,
    (erode radius (mkChf (tileFilters height climb G) g con')).view g.spans, by rw [tileGround, e1]; rfl, by rw [tileGround, e2]; rfl, ?_⟩
  intro x y x' y' hx hy hx' hy' hs
  obtain ⟨s1, s2⟩ := compact_alike height climb e1 e2 (filters_local height climb hs)
  have hx0 : x < (tileFilters height climb F).w := hx
  have hy0 : y < (tileFilters height climb F).h := hy
  have hx0' : x' < (tileFilters height climb G).w := hx'
  have hy0' : y' < (tileFilters height climb G).h := hy'
  have s2 := s2 h1
  have sa : AreasAlike (mkChf (tileFilters height climb F) f con) (mkChf (tileFilters height climb G) g con') radius x y x' y' := by
    intro a b a' b' h1 h2 h3 h4 h5 h6 h7 h8
    obtain ⟨t1, t2⟩ := s1 a b a' b' h1 h2 h3 h4 h5 h6 h7 h8
    exact ⟨t1, fun k hk => congrArg CSpan.area (t2 k hk)⟩
  obtain ⟨t1, t2⟩ := s1 x y x' y' hx0 hy0 hx0' hy0' (by omega) (by omega) (by simp) (by simp)
  unfold Chf.view
  show (List.range (f.cells (x + y * (tileFilters height climb F).w)).count).map _ =
    (List.range (g.cells (x' + y' * (tileFilters height climb G).w)).count).map _
  rw [← t1]
  refine List.map_congr_left fun k hk => ?_
  rw [List.mem_range] at hk
  have hp : PairAt (mkChf (tileFilters height climb F) f con) (mkChf (tileFilters height climb G) g con') x y x' y'
      ((f.cells (x + y * (tileFilters height climb F).w)).index + k) ((g.cells (x' + y' * (tileFilters height climb G).w)).index + k) := by
    refine ⟨⟨hx0, hy0, Nat.le_add_right _ _, Nat.add_lt_add_left hk _⟩, ⟨hx0', hy0', Nat.le_add_right _ _, Nat.add_lt_add_left (Nat.lt_of_lt_of_eq hk t1) _⟩, ?_⟩
    show (((f.cells (x + y * (tileFilters height climb F).w)).index + k : Nat) : Int) - (f.cells (x + y * (tileFilters height climb F).w)).index =
      (((g.cells (x' + y' * (tileFilters height climb G).w)).index + k : Nat) : Int) - (g.cells (x' + y' * (tileFilters height climb G).w)).index
    push_cast; ring
  have hcon : ∀ d < 4, _ := fun d hd => hp.con (s2.sub (m' := 0) (by omega) (by omega) (by simp) (by simp)) (d := d) hd
  have hare := erode_local w1 w2 hF hG h1 h2 hp sa s2
  have h3 := t2 k hk
  show GSpan.mk _ _ _ _ = GSpan.mk _ _ _ _
  refine GSpan.mk.injEq .. ▸ ⟨?_, ?_, hare, ?_⟩
  · exact congrArg CSpan.y h3
  · exact congrArg CSpan.h h3
  · refine List.map_congr_left fun d hd => ?_
    simp only [List.mem_cons, List.not_mem_nil, or_false] at hd
    exact hcon d (by omega)

/-- The cells of a tile (`t * ts` to `t * ts + ts - 1`) and those next to them. -/
def ShownBy (ts : Nat) (t X : Int) : Prop := t * ts - 1 ≤ X ∧ X ≤ t * ts + ts

theorem tile_look {W : Int → Int → List SpanV} {ts radius : Nat} {tx ty : Int} {F : Field} (hF : TileOf W ts radius tx ty F)
    {X Y : Int} (hX : ShownBy ts tx X) (hY : ShownBy ts ty Y) {dx dy : Int} (h1 : |dx| ≤ (radius + 1 : Nat)) (h2 : |dy| ≤ (radius + 1 : Nat)) :
    F.look (X - tileOrg ts radius tx + dx) (Y - tileOrg ts radius ty + dy) = some (W (X + dx) (Y + dy)) := by
  obtain ⟨e1, e2, e3⟩ := hF
  rw [abs_le] at h1 h2
  unfold ShownBy at hX hY
  have o1 : tileOrg ts radius tx = tx * ts - radius - 3 := by unfold tileOrg borderSize; push_cast; ring
  have o2 : tileOrg ts radius ty = ty * ts - radius - 3 := by unfold tileOrg borderSize; push_cast; ring
  have w1 : tileWidth ts radius = ts + 2 * radius + 6 := by unfold tileWidth borderSize; ring
  rw [w1] at e1 e2
  obtain ⟨x, hx⟩ := Int.eq_ofNat_of_zero_le (a := X - tileOrg ts radius tx + dx) (by omega)
  obtain ⟨y, hy⟩ := Int.eq_ofNat_of_zero_le (a := Y - tileOrg ts radius ty + dy) (by omega)
  rw [hx, hy, look_cell (by omega) (by omega), e3 x y (by omega) (by omega) (by omega) (by omega)]
  congr 2 <;> omega

/-- **C154** (partial). Two tiles built from the same world agree about the ground in all cells that belong to both or lie
next to them - so about the cells on both sides of a common edge or corner: the same spans can be walked on, with the same
heights and the same connections. The border of `radius + 3` cells is enough for that, even though the first and last row
and column of a heightfield may hold other spans. Missing: tiles of more than 127 cells with their border (see
`erode_local_refuted`) and columns of more than 255 spans. -/
theorem tiles_agree_partial (W : Int → Int → List SpanV) (height climb : Int) (radius ts : Nat) (h1 : 1 ≤ radius)
    (hts : ts + 2 * (radius + 3) ≤ 127) (tx ty ux uy : Int) (F G : Field) (hF : TileOf W ts radius tx ty F)
    (hG : TileOf W ts radius ux uy G) (cF : ∀ i, (F.col i).length ≤ 255) (cG : ∀ i, (G.col i).length ≤ 255) :
    ∃ v u, tileGround height climb radius F = some v ∧ tileGround height climb radius G = some u ∧
      ∀ X Y : Int, ShownBy ts tx X → ShownBy ts ty Y → ShownBy ts ux X → ShownBy ts uy Y →
        v (X - tileOrg ts radius tx).toNat (Y - tileOrg ts radius ty).toNat =
          u (X - tileOrg ts radius ux).toNat (Y - tileOrg ts radius uy).toNat := by
  have w1 : tileWidth ts radius = ts + 2 * radius + 6 := by unfold tileWidth borderSize; ring
  obtain ⟨v, u, e1, e2, h⟩ := ground_local_partial height climb radius h1 (by omega) F G
    (Or.inl (by rw [hF.1, w1]; omega)) (Or.inl (by rw [hG.1, w1]; omega)) cF cG
  refine ⟨v, u, e1, e2, fun X Y s1 s2 s3 s4 => ?_⟩
  have cell : ∀ t Z : Int, ShownBy ts t Z → ∃ n : Nat, Z - tileOrg ts radius t = n ∧ n < tileWidth ts radius := by
    intro t Z hZ
    unfold ShownBy at hZ
    have o1 : tileOrg ts radius t = t * ts - radius - 3 := by unfold tileOrg borderSize; push_cast; ring
    obtain ⟨x, hx⟩ := Int.eq_ofNat_of_zero_le (a := Z - tileOrg ts radius t) (by omega)
    exact ⟨x, hx, by omega⟩
  obtain ⟨x, hx, lx⟩ := cell tx X s1
  obtain ⟨y, hy, ly⟩ := cell ty Y s2
  obtain ⟨x', hx', lx'⟩ := cell ux X s3
  obtain ⟨y', hy', ly'⟩ := cell uy Y s4
  have hs : SameAround F G (radius + 1) x y x' y' := by
    intro dx dy g1 g2
    rw [← hx, ← hy, ← hx', ← hy', tile_look hF s1 s2 g1 g2, tile_look hG s3 s4 g1 g2]
  have := h x y x' y' (by rw [hF.1]; exact lx) (by rw [hF.2.1]; exact ly) (by rw [hG.1]; exact lx') (by rw [hG.2.1]; exact ly') hs
  rw [hx, hy, hx', hy', Int.toNat_natCast, Int.toNat_natCast, Int.toNat_natCast, Int.toNat_natCast]
  exact this

/-! ## Cases -/

/-- A world with a wall along `X = 7`. -/
def wallWorld (X _ : Int) : List SpanV := if X = 7 then [⟨0, 40, 0⟩] else [⟨0, 1, 63⟩]

/-- The heightfield of a tile of a world. -/
def cutTile (W : Int → Int → List SpanV) (ts radius : Nat) (tx ty : Int) : Field :=
  ⟨tileWidth ts radius, tileWidth ts radius, fun i => W (tileOrg ts radius tx + (i % tileWidth ts radius : Nat))
    (tileOrg ts radius ty + (i / tileWidth ts radius : Nat))⟩

theorem cutTile_of (W : Int → Int → List SpanV) (ts radius : Nat) (tx ty : Int) : TileOf W ts radius tx ty (cutTile W ts radius tx ty) := by
  refine ⟨rfl, rfl, fun x y _ hx _ hy => ?_⟩
  have hx : x < tileWidth ts radius := by simp only [cutTile] at hx; omega
  have hy : y < tileWidth ts radius := by simp only [cutTile] at hy; omega
  obtain ⟨h1, h2, h3⟩ := cell_of_lt (cell_lt hx hy)
  obtain ⟨q1, q2⟩ := cell_inj h1 hx h3
  show W (_ + ((x + y * tileWidth ts radius) % tileWidth ts radius : Nat)) (_ + ((x + y * tileWidth ts radius) / tileWidth ts radius : Nat)) = _
  rw [show (x + y * tileWidth ts radius) % tileWidth ts radius = x from q1, show (x + y * tileWidth ts radius) / tileWidth ts radius = y from q2]

/-- The hypotheses of `tiles_agree_partial` are met: tiles of 8 by 8 cells, agents of radius 1, a wall one cell before the
seam at `X = 8`. -/
example : ∃ v u, tileGround 3 1 1 (cutTile wallWorld 8 1 0 0) = some v ∧ tileGround 3 1 1 (cutTile wallWorld 8 1 1 0) = some u ∧
    ∀ X Y : Int, 7 ≤ X → X ≤ 8 → -1 ≤ Y → Y ≤ 8 → v (X + 4).toNat (Y + 4).toNat = u (X - 4).toNat (Y + 4).toNat := by
  have len : ∀ X Y, (wallWorld X Y).length ≤ 255 := fun X Y => by unfold wallWorld; split <;> decide
  obtain ⟨v, u, h1, h2, h3⟩ := tiles_agree_partial wallWorld 3 1 1 8 (by decide) (by decide) 0 0 1 0 _ _
    (cutTile_of wallWorld 8 1 0 0) (cutTile_of wallWorld 8 1 1 0) (fun _ => by simp only [cutTile]; exact len _ _) (fun _ => by simp only [cutTile]; exact len _ _)
  refine ⟨v, u, h1, h2, fun X Y a b c d => ?_⟩
  have := h3 X Y ⟨by omega, by omega⟩ ⟨by omega, by omega⟩ ⟨by omega, by omega⟩ ⟨by omega, by omega⟩
  simp only [tileOrg, borderSize] at this
  norm_num at this
  exact this

/-- **C154** (refuted in full). Erosion by radius 1 of two compact heightfields of the same flat ground: up to 50 cells around
the two cells all columns are the same, and yet the span in the field of 260 by 260 cells is cleared - the distances
there wrap - while that in the field of 127 by 127 cells is not. -/
theorem erode_local_refuted : ∃ F G f con g con', buildCompact 2 1 F = some (f, con) ∧ buildCompact 2 1 G = some (g, con') ∧
    ∃ x y x' y' i j : Nat, SameAround F G 50 x y x' y' ∧ PairAt (mkChf F f con) (mkChf G g con') x y x' y' i j ∧
      (erode 1 (mkChf F f con)).area i = 0 ∧ (erode 1 (mkChf G g con')).area j = 63 := by
  obtain ⟨f, con, h0, hc, hn, hat, ha, hnb⟩ := plain_facts 260
  obtain ⟨g, con', h0', hc', hn', hat', ha', hnb'⟩ := plain_facts 127
  have at1 : (mkChf (plain 260) f con).At 128 127 (128 + 127 * 260) := (hat _ _ _).2 ⟨by decide, by decide, rfl⟩
  have at2 : (mkChf (plain 127) g con').At 63 63 (63 + 63 * 127) := (hat' _ _ _).2 ⟨by decide, by decide, rfl⟩
  have key : ∀ {n x y i : Nat} {f : Fill} {con}, (∀ x y i, (mkChf (plain n) f con).At x y i ↔ x < n ∧ y < n ∧ i = x + y * n) →
      (mkChf (plain n) f con).At x y i → i = ((mkChf (plain n) f con).cells (x + y * n)).index := by
    intro n x y i f con hat h
    obtain ⟨a1, a2, a3, a4⟩ := id h
    obtain ⟨b1, b2, b3⟩ := (hat _ _ _).1 h
    have : (mkChf (plain n) f con).At x y ((mkChf (plain n) f con).cells (x + y * n)).index :=
      ⟨a1, a2, le_rfl, by
        change ((mkChf (plain n) f con).cells (x + y * n)).index ≤ i at a3
        change i < ((mkChf (plain n) f con).cells (x + y * n)).index + ((mkChf (plain n) f con).cells (x + y * n)).count at a4
        show ((mkChf (plain n) f con).cells (x + y * n)).index < ((mkChf (plain n) f con).cells (x + y * n)).index + ((mkChf (plain n) f con).cells (x + y * n)).count
        omega⟩
    have h2 := ((hat _ _ _).1 this).2.2
    omega
  refine ⟨plain 260, plain 127, f, con, g, con', h0, h0', 128, 127, 63, 63, 128 + 127 * 260, 63 + 63 * 127, ?_, ⟨at1, at2, ?_⟩, ?_, ?_⟩
  · intro dx dy h1 h2
    rw [abs_le] at h1 h2
    unfold Field.look
    rw [if_pos (by simp only [plain]; omega), if_pos (by simp only [plain]; omega)]
    rfl
  · have e1 := key hat at1
    have e2 := key hat' at2
    show ((128 + 127 * 260 : Nat) : Int) - ((mkChf (plain 260) f con).cells (128 + 127 * 260)).index =
      ((63 + 63 * 127 : Nat) : Int) - ((mkChf (plain 127) g con').cells (63 + 63 * 127)).index
    omega
  · have w := open_dist1 hc hat ha hnb _ 127 127 (by decide) (by decide) (Nat.lt_succ_self _)
    obtain ⟨e, h2, h3, h4⟩ := dist1_step hc at1
    have s1 : Src (mkChf (plain 260) f con) dirs1 (128 + 127 * 260) (127 + 127 * 260, 2) :=
      ⟨0, 3, by simp [dirs1], Or.inl ⟨_, hnb 128 127 0 127 127 (by decide) (by decide) (by decide) (by decide) (by decide) (by decide) (by decide), rfl⟩⟩
    obtain ⟨q1, q2⟩ := h4 _ s1
    have := relaxes_wrapped (128 + 127 * 260) _ e _ ((mem_srcs hc dirs1_lt at1 _).2 s1) q2
    rw [q1, w] at this
    rw [← h3] at this
    have h5 := dist2_le (mkChf (plain 260) f con) (128 + 127 * 260)
    have h6 : (openDist 127 127 + 2) % 256 = 0 := by decide
    simp only at this
    rw [h6] at this
    rw [erode_area, if_pos ⟨by rw [hn]; decide, by omega⟩]
  · rw [erode_keeps_far_partial hc' (Or.inl (show 127 ≤ 127 by decide)) (by decide) at2, ha' _ (by decide)]
    intro bx byy b hb h1 h2 hB
    obtain ⟨q1, q2, rfl⟩ := (hat' _ _ _).1 hb
    have := (plain_border hc' hat' ha' hnb' q1 q2).1 hB
    simp only [Int.abs_eq_natAbs] at h1 h2
    omega

end Verif.Recast
