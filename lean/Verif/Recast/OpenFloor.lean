/-
Open ground stays walkable: where the input has an even floor with enough room above and around it, the ground that the builders make
of it (filters, compaction, erosion; sample/solomesh/builder.go:150-175, sample/tilemesh/builder.go:314-338) has that floor, with the
area it had. This is the converse of Recast/Headroom.
-/
import Verif.Recast.Headroom

namespace Verif.Recast
open Verif Verif.Detour

/-! ## Specification -/

/-- The cells at most `r` away, on both axes. -/
def Within (r x y x' y' : Nat) : Prop := x ≤ x' + r ∧ x' ≤ x + r ∧ y ≤ y' + r ∧ y' ≤ y + r

/-- Around `(x, y)`, up to `r` cells away, the field has an open floor: in each cell a walkable span `s`, the `k`-th of its column, with
more than `height + climb` above it, and the tops of cells of at most two steps apart differ by at most `climb`. There may be
other layers above and below. -/
structure OpenFloor (F : Field) (height climb : Int) (k : Nat → Nat → Nat) (s : Nat → Nat → SpanV) (r x y : Nat) : Prop where
  left : r ≤ x
  right : x + r < F.w
  low : r ≤ y
  high : y + r < F.h
  span : ∀ a b, Within r x y a b → (F.col (a + b * F.w))[k a b]? = some (s a b)
  walk : ∀ a b, Within r x y a b → (s a b).area ≠ 0
  room : ∀ a b, Within r x y a b → height + climb < clearance (F.col (a + b * F.w)) (k a b) (s a b)
  even : ∀ a b a' b', Within r x y a b → Within r x y a' b' → |(a : Int) - a'| + |(b : Int) - b'| ≤ 2 →
    ((s a b).smax : Int) ≤ (s a' b').smax + climb

/-- A column as `AddSpan` leaves it, with at most 63 spans. -/
def GoodColumn (l : List SpanV) : Prop := Canon l ∧ (∀ s ∈ l, s.smax ≤ 65535) ∧ l.length ≤ 63

/-! ## Columns -/

theorem canon_of_geom {l l' : List SpanV} (h : geom l = geom l') (hc : Canon l) : Canon l' := by
  have key : ∀ m : List SpanV, Canon m ↔ (geom m).Pairwise (fun a b => a.2 < b.1) ∧ ∀ p ∈ geom m, p.1 ≤ p.2 := by
    intro m
    unfold Canon geom
    rw [List.pairwise_map]
    simp [SpanV.Valid]
  rw [key] at hc ⊢
  rwa [← h]

theorem good_of_geom {l l' : List SpanV} (h : geom l = geom l') (hc : GoodColumn l) : GoodColumn l' := by
  refine ⟨canon_of_geom h hc.1, fun s hs => ?_, ?_⟩
  · obtain ⟨k, hk⟩ := List.getElem?_of_mem hs
    obtain ⟨t, ht, -, e⟩ := geom_some h.symm hk
    rw [← e]
    exact hc.2.1 t (List.mem_of_getElem? ht)
  · have := congrArg List.length h
    simp only [geom, List.length_map] at this
    rw [← this]
    exact hc.2.2

theorem canon_lt {l : List SpanV} (hc : Canon l) {i j : Nat} {a b : SpanV} (ha : l[i]? = some a) (hb : l[j]? = some b) (h : i < j) :
    a.smax < b.smin := by
  obtain ⟨hi, rfl⟩ := List.getElem?_eq_some_iff.1 ha
  obtain ⟨hj, rfl⟩ := List.getElem?_eq_some_iff.1 hb
  exact List.pairwise_iff_getElem.1 hc.1 i j hi hj h

theorem canon_valid {l : List SpanV} (hc : Canon l) {i : Nat} {a : SpanV} (ha : l[i]? = some a) : a.smin ≤ a.smax :=
  hc.2 a (List.mem_of_getElem? ha)

theorem canon_le {l : List SpanV} (hc : Canon l) {i j : Nat} {a b : SpanV} (ha : l[i]? = some a) (hb : l[j]? = some b) (h : i ≤ j) :
    a.smin ≤ b.smin := by
  rcases Nat.lt_or_ge i j with h' | h'
  · have := canon_lt hc ha hb h'
    have := canon_valid hc ha
    omega
  · have : i = j := by omega
    subst this
    rw [ha] at hb
    cases hb
    exact le_refl _

/-- The open spaces of a column, seen from one of its spans. -/
theorem gap_cases {l : List SpanV} (hc : Canon l) {k : Nat} {s : SpanV} (hs : l[k]? = some s) {hgt : Int} (hr : hgt < clearance l k s)
    {f c : Int} (hg : Gap l f c) : c ≤ s.smin ∨ f = s.smax ∨ (s.smax : Int) + hgt < f := by
  obtain ⟨j, t, ht, rfl, hc'⟩ := hg
  rcases lt_trichotomy j k with h | h | h
  · left
    have hl := (List.getElem?_eq_some_iff.1 hs).1
    have hj : l[j + 1]? = some l[j + 1] := List.getElem?_eq_getElem (by omega)
    rw [hj] at hc'
    simp only at hc'
    have := canon_le hc hj hs (by omega)
    omega
  · right; left
    subst h
    rw [hs] at ht
    cases ht
    rfl
  · right; right
    have hl := (List.getElem?_eq_some_iff.1 ht).1
    have hj : l[k + 1]? = some l[k + 1] := List.getElem?_eq_getElem (by omega)
    rw [clearance, hj] at hr
    simp only at hr
    have := canon_le hc hj ht (by omega)
    have := canon_valid hc ht
    omega

theorem groundCeil_le {l : List SpanV} (hc : Canon l) {k : Nat} {s : SpanV} (hs : l[k]? = some s) : groundCeil l ≤ s.smin := by
  have hl := (List.getElem?_eq_some_iff.1 hs).1
  have h0 : l[0]? = some l[0] := List.getElem?_eq_getElem (by omega)
  unfold groundCeil
  rw [h0]
  have := canon_le hc h0 hs (by omega)
  simp only
  omega

/-- An open span of a column, with its place among the open spans; those before it end below it. -/
theorem open_get {l : List SpanV} (hc : Canon l) : ∀ {k : Nat} {s : SpanV}, l[k]? = some s → s.area ≠ 0 → ∃ m ≤ k,
    (openSpans l)[m]? = some ⟨min s.smax 65535, min (clearance l k s).toNat 255, s.area⟩ ∧
      ∀ m' < m, ∀ e, (openSpans l)[m']? = some e → e.y + e.h ≤ s.smin := by
  induction l with
  | nil => intro k s h; simp at h
  | cons a l ih =>
    have hc' : Canon l := ⟨(List.pairwise_cons.1 hc.1).2, fun s hs => hc.2 s (List.mem_cons_of_mem _ hs)⟩
    intro k s h ha
    rw [openSpans]
    cases k with
    | zero =>
      cases h
      rw [if_neg ha]
      exact ⟨0, le_refl _, by rw [clearance_eq]; rfl, by simp⟩
    | succ k =>
      obtain ⟨m, hm, h1, h2⟩ := ih hc' (k := k) h ha
      have e : clearance (a :: l) (k + 1) s = clearance l k s := rfl
      rw [e]
      by_cases h0 : a.area = 0
      · rw [if_pos h0]
        exact ⟨m, by omega, h1, h2⟩
      · rw [if_neg h0]
        refine ⟨m + 1, by omega, h1, fun m' hm' e he => ?_⟩
        cases m' with
        | zero =>
          cases he
          have h3 := groundCeil_le hc' (k := k) h
          have h4 : groundCeil l = ceilAbove l := by cases l <;> rfl
          have h5 := canon_lt hc (i := 0) (j := k + 1) rfl h (by omega)
          simp only
          omega
        | succ m' => exact h2 m' (by omega) e he

/-! ## Filters -/

theorem OpenFloor.cell {F : Field} {height climb : Int} {k : Nat → Nat → Nat} {s : Nat → Nat → SpanV} {r x y : Nat}
    (h : OpenFloor F height climb k s r x y) {a b : Nat} (hw : Within r x y a b) : a < F.w ∧ b < F.h := by
  have := h.right
  have := h.high
  unfold Within at hw
  omega

/-- A part of an open floor is one, in every field that has the same spans there. -/
theorem OpenFloor.part {F G : Field} {height climb : Int} {k : Nat → Nat → Nat} {s : Nat → Nat → SpanV} {r r' x y x' y' : Nat}
    (h : OpenFloor F height climb k s r x y) (hw : G.w = F.w) (hh : G.h = F.h) (hx : Within (r - r') x y x' y') (hr : r' ≤ r)
    (hg : ∀ i, geom (G.col i) = geom (F.col i))
    (hs : ∀ a b, Within r' x' y' a b → (G.col (a + b * G.w))[k a b]? = some (s a b)) : OpenFloor G height climb k s r' x' y' := by
  have sub : ∀ a b, Within r' x' y' a b → Within r x y a b := by
    intro a b hab
    unfold Within at *
    omega
  have h1 := h.left
  have h2 := h.right
  have h3 := h.low
  have h4 := h.high
  have hx' := hx
  unfold Within at hx'
  refine ⟨by omega, by omega, by omega, by omega, hs, fun a b hab => h.walk a b (sub a b hab), fun a b hab => ?_,
    fun a b a' b' q1 q2 => h.even a b a' b' (sub a b q1) (sub a' b' q2)⟩
  rw [clearance_geom (hg _) (k a b) (t := s a b) rfl, hw]
  exact h.room a b (sub a b hab)

theorem floor_lowHanging {F : Field} {height climb : Int} {k : Nat → Nat → Nat} {s : Nat → Nat → SpanV} {r x y : Nat}
    (h : OpenFloor F height climb k s r x y) : OpenFloor (filterLowHanging climb F) height climb k s r x y := by
  have hg : ∀ i, geom ((filterLowHanging climb F).col i) = geom (F.col i) := by
    intro i
    rw [filterLowHanging_col]
    split
    · exact lowHanging_geom climb _ _ _ _
    · rfl
  refine h.part rfl rfl (by unfold Within; omega) (le_refl _) hg fun a b hab => ?_
  obtain ⟨ha, hb⟩ := h.cell hab
  have hs := h.span a b hab
  obtain ⟨-, h0, h1⟩ := lowHanging_effect climb F (a + b * F.w) (cell_lt ha hb)
  show ((filterLowHanging climb F).col (a + b * F.w))[k a b]? = _
  cases hk : k a b with
  | zero => rw [hk] at hs; exact h0 _ hs
  | succ n =>
    rw [hk] at hs
    have hl : n < (F.col (a + b * F.w)).length := Nat.lt_of_succ_lt (List.getElem?_eq_some_iff.1 hs).1
    have hn : (F.col (a + b * F.w))[n]? = some (F.col (a + b * F.w))[n] := List.getElem?_eq_getElem hl
    rw [h1 n _ _ hn hs, if_neg (fun hc => h.walk a b hab hc.1)]

/-- The neighbour of a cell. -/
theorem nei_exists {w h x y d : Nat} (hd : d < 4) (hx : 1 ≤ x) (hx' : x + 1 < w) (hy : 1 ≤ y) (hy' : y + 1 < h) :
    ∃ a b : Nat, (a : Int) = x + dirX (BitVec.ofNat 32 d) ∧ (b : Int) = y + dirY (BitVec.ofNat 32 d) ∧ Within 1 x y a b ∧
      a < w ∧ b < h ∧ |(x : Int) - a| + |(y : Int) - b| = 1 := by
  rcases off_cases d hd with ⟨-, e1, e2⟩ | ⟨-, e1, e2⟩ | ⟨-, e1, e2⟩ | ⟨-, e1, e2⟩ <;> rw [e1, e2]
  · exact ⟨x - 1, y, by omega, by omega, by unfold Within; omega, by omega, by omega, by simp only [Int.abs_eq_natAbs]; omega⟩
  · exact ⟨x, y + 1, by omega, by omega, by unfold Within; omega, by omega, by omega, by simp only [Int.abs_eq_natAbs]; omega⟩
  · exact ⟨x + 1, y, by omega, by omega, by unfold Within; omega, by omega, by omega, by simp only [Int.abs_eq_natAbs]; omega⟩
  · exact ⟨x, y - 1, by omega, by omega, by unfold Within; omega, by omega, by omega, by simp only [Int.abs_eq_natAbs]; omega⟩

/-- In the middle of an open floor there is no ledge. -/
theorem floor_no_ledge {F : Field} (hF : ∀ i, Canon (F.col i)) {height climb : Int} (h0 : 0 ≤ climb) (h1 : climb < height)
    {k : Nat → Nat → Nat} {s : Nat → Nat → SpanV} {x y : Nat} (h : OpenFloor F height climb k s 1 x y) (top : Int) :
    ¬ Ledge height climb F x y (s x y).smax top := by
  have hme : Within 1 x y x y := by unfold Within; omega
  -- a floor beside, as it is met from here
  have side : ∀ d < 4, ∃ a b, NeiCell F.w F.h x y d (a + b * F.w) ∧ Within 1 x y a b ∧ |(x : Int) - a| + |(y : Int) - b| = 1 := by
    intro d hd
    obtain ⟨a, b, e1, e2, e3, e4, e5, e6⟩ := nei_exists (w := F.w) (h := F.h) hd h.left h.right h.low h.high
    exact ⟨a, b, ⟨a, b, e4, e5, e1, e2, rfl⟩, e3, e6⟩
  have met : ∀ d < 4, ∀ i, NeiCell F.w F.h x y d i → ∃ a b, Within 1 x y a b ∧ |(x : Int) - a| + |(y : Int) - b| = 1 ∧
      groundCeil (F.col i) ≤ (s a b).smax ∧ ∀ f c, Gap (F.col i) f c → c ≤ (s a b).smax ∨ f = (s a b).smax ∨
        ((s a b).smax : Int) + (height + climb) < f := by
    intro d hd i hi
    obtain ⟨a, b, n1, n2, n3⟩ := side d hd
    obtain rfl := neiCell_unique hi n1
    have hsp := h.span a b n2
    have hv := canon_valid (hF _) hsp
    refine ⟨a, b, n2, n3, ?_, fun f c hg => ?_⟩
    · have := groundCeil_le (hF _) hsp
      omega
    · rcases gap_cases (hF _) hsp (h.room a b n2) hg with g | g | g
      · left; omega
      · exact Or.inr (Or.inl g)
      · exact Or.inr (Or.inr g)
  have near : ∀ a b, Within 1 x y a b → |(x : Int) - a| + |(y : Int) - b| = 1 →
      ((s x y).smax : Int) ≤ (s a b).smax + climb ∧ ((s a b).smax : Int) ≤ (s x y).smax + climb := by
    intro a b hw hd
    refine ⟨h.even x y a b hme hw (by omega), h.even a b x y hw hme ?_⟩
    rw [abs_sub_comm (a : Int), abs_sub_comm (b : Int)]
    omega
  have steps : ∀ f, f = ((s x y).smax : Int) ∨ Steps height climb F x y (s x y).smax top f →
      ∃ a b, Within 1 x y a b ∧ |(x : Int) - a| + |(y : Int) - b| ≤ 1 ∧ f = (s a b).smax := by
    rintro f (rfl | ⟨d, hd, i, hi, c, hg, hf, hcl⟩)
    · exact ⟨x, y, hme, by simp, rfl⟩
    · obtain ⟨a, b, w1, w2, -, w3⟩ := met d hd i hi
      obtain ⟨q1, q2⟩ := near a b w1 w2
      unfold Fits at hf
      rcases w3 f c hg with g | g | g
      · omega
      · exact ⟨a, b, w1, by omega, g⟩
      · simp only [Int.abs_eq_natAbs] at hcl
        omega
  rintro (⟨-, d, hd, hn⟩ | ⟨-, d, hd, i, hi, hf⟩ | ⟨d, hd, i, hi, f, c, hg, hf, hlow⟩ | ⟨f, g, hf, hg, hlt⟩)
  · obtain ⟨a, b, n1, -⟩ := side d hd
    exact hn _ n1
  · obtain ⟨a, b, w1, w2, w3, -⟩ := met d hd i hi
    obtain ⟨q1, q2⟩ := near a b w1 w2
    unfold Fits at hf
    omega
  · obtain ⟨a, b, w1, w2, -, w3⟩ := met d hd i hi
    obtain ⟨q1, q2⟩ := near a b w1 w2
    unfold Fits at hf
    rcases w3 f c hg with g | g | g <;> omega
  · obtain ⟨a, b, w1, w2, rfl⟩ := steps f hf
    obtain ⟨a', b', v1, v2, rfl⟩ := steps g hg
    have := h.even a b a' b' w1 v1 (by
      simp only [Int.abs_eq_natAbs] at w2 v2 ⊢
      omega)
    omega

/-- The filters keep an open floor, but for its rim. -/
theorem floor_filters {F : Field} (hF : ∀ i, Canon (F.col i)) {height climb : Int} (h0 : 0 ≤ climb) (h1 : climb < height)
    {k : Nat → Nat → Nat} {s : Nat → Nat → SpanV} {r x y : Nat} (h : OpenFloor F height climb k s (r + 1) x y) :
    OpenFloor (tileFilters height climb F) height climb k s r x y := by
  refine h.part rfl rfl (by unfold Within; omega) (by omega) (filters_geom height climb F) fun a b hab => ?_
  have hG := floor_lowHanging h
  have hgG : ∀ i, geom ((filterLowHanging climb F).col i) = geom (F.col i) := by
    intro i
    rw [filterLowHanging_col]
    split
    · exact lowHanging_geom climb _ _ _ _
    · rfl
  have hcG : ∀ i, Canon ((filterLowHanging climb F).col i) := fun i => canon_of_geom (hgG i).symm (hF i)
  have hab' : Within (r + 1) x y a b := by unfold Within at *; omega
  obtain ⟨ha, hb⟩ := h.cell hab'
  have hi := cell_lt ha hb
  have hs := hG.span a b hab'
  have hone : OpenFloor (filterLowHanging climb F) height climb k s 1 a b :=
    hG.part rfl rfl (by unfold Within at *; omega) (by omega) (fun _ => rfl) fun a' b' h' => hG.span a' b' (by unfold Within at *; omega)
  -- the ledge filter
  have e2 := (ledge_effect height climb h0 (filterLowHanging climb F) (a + b * F.w) hi).2 (k a b) (s a b) hs
  have hmod : (a + b * F.w) % F.w = a ∧ (a + b * F.w) / F.w = b := by
    obtain ⟨q1, q2, q3⟩ := cell_of_lt hi
    exact cell_inj q1 ha q3
  have e3 : ((filterLedge height climb (filterLowHanging climb F)).col (a + b * F.w))[k a b]? = some (s a b) := by
    rw [e2, if_neg]
    show ¬ Ledge height climb (filterLowHanging climb F) ((a + b * F.w) % F.w) ((a + b * F.w) / F.w) _ _
    rw [hmod.1, hmod.2]
    exact floor_no_ledge hcG h0 h1 hone _
  -- the filter of low ceilings
  have e4 := (lowHeight_effect height (filterLedge height climb (filterLowHanging climb F)) (a + b * F.w) hi).2 (k a b) (s a b) e3
  show ((filterLowHeight height (filterLedge height climb (filterLowHanging climb F))).col (a + b * F.w))[k a b]? = _
  rw [e4, if_neg]
  have hgL : geom ((filterLedge height climb (filterLowHanging climb F)).col (a + b * F.w)) = geom (F.col (a + b * F.w)) := by
    rw [filterLedge_col, if_pos (show a + b * F.w < (filterLowHanging climb F).w * (filterLowHanging climb F).h from hi), ledgeCol_geom, hgG]
  rw [clearance_geom hgL (k a b) (t := s a b) rfl]
  have := h.room a b hab'
  omega

/-! ## Compaction and erosion -/

/-- The span of the compact field on an open floor, at a cell. -/
def FloorSpan (H : Field) (f : Fill) (hgt : Int) (s : Nat → Nat → SpanV) (a b i : Nat) : Prop :=
  ∃ m ≤ 62, m < (f.cells (a + b * H.w)).count ∧ i = (f.cells (a + b * H.w)).index + m ∧ (f.spans i).y = (s a b).smax ∧
    (f.spans i).area = (s a b).area ∧ hgt ≤ (f.spans i).h ∧
    ∀ m' < m, (f.spans ((f.cells (a + b * H.w)).index + m')).y + (f.spans ((f.cells (a + b * H.w)).index + m')).h ≤ (s a b).smax

theorem floor_span {H : Field} (hH : ∀ i, GoodColumn (H.col i)) {f : Fill} (hf : Filled H (H.w * H.h) f) {height climb : Int} (h2 : height + climb ≤ 255)
    {k : Nat → Nat → Nat} {s : Nat → Nat → SpanV} {r x y : Nat} (h : OpenFloor H height climb k s r x y) {a b : Nat}
    (hab : Within r x y a b) : ∃ i, FloorSpan H f (height + climb) s a b i := by
  obtain ⟨ha, hb⟩ := h.cell hab
  obtain ⟨hc, hmax, hlen⟩ := hH (a + b * H.w)
  have hs := h.span a b hab
  obtain ⟨m, hm, e1, e2⟩ := open_get hc hs (h.walk a b hab)
  obtain ⟨c1, c2⟩ := cell_spans hf (cell_lt ha hb)
  have ho := openSpans_len (H.col (a + b * H.w))
  have hk := (List.getElem?_eq_some_iff.1 hs).1
  have hml := (List.getElem?_eq_some_iff.1 e1).1
  rw [Nat.mod_eq_of_lt (by omega)] at c1
  have hcount : m < (f.cells (a + b * H.w)).count := by omega
  have e3 := c2 m hcount
  rw [e1, Option.some.injEq] at e3
  have hle := hmax _ (List.mem_of_getElem? hs)
  have hroom := h.room a b hab
  refine ⟨(f.cells (a + b * H.w)).index + m, m, by omega, hcount, rfl, ?_, ?_, ?_, fun m' hm' => ?_⟩
  · rw [← e3]
    exact Nat.min_eq_left hle
  · rw [← e3]
  · rw [← e3]
    simp only
    omega
  · have e4 := c2 m' (by omega)
    have := e2 m' hm' _ e4
    have := canon_valid hc hs
    omega

/-- Neighbours on an open floor are connected. -/
theorem floor_nb {H : Field} (hH : ∀ i, GoodColumn (H.col i)) {height climb : Int} {f : Fill} {con : Nat → U32}
    (e : buildCompact height climb H = some (f, con)) (h1 : climb < height) (h2 : height + climb ≤ 255)
    {k : Nat → Nat → Nat} {s : Nat → Nat → SpanV} {r x y : Nat} (h : OpenFloor H height climb k s r x y) {a b i a' b' d : Nat}
    (hab : Within r x y a b) (hab' : Within r x y a' b') (hd : d < 4) (ea : (a' : Int) = a + dirX (BitVec.ofNat 32 d))
    (eb : (b' : Int) = b + dirY (BitVec.ofNat 32 d)) (hi : FloorSpan H f (height + climb) s a b i) :
    ∃ j, FloorSpan H f (height + climb) s a' b' j ∧ (mkChf H f con).Nb i d j := by
  obtain ⟨f', con', e', e1', hcon⟩ := connections_partial height climb H
  rw [e] at e'
  obtain ⟨rfl, rfl⟩ : f = f' ∧ con = con' := by simpa using e'
  obtain ⟨f', e1, hf⟩ := fillField_spec H
  rw [e1'] at e1
  cases e1
  obtain ⟨ha, hb⟩ := h.cell hab
  obtain ⟨ha', hb'⟩ := h.cell hab'
  obtain ⟨j, hj⟩ := floor_span hH hf h2 h hab'
  refine ⟨j, hj, ?_⟩
  have hdist : |(a : Int) - a'| + |(b : Int) - b'| ≤ 1 := by
    simp only [Int.abs_eq_natAbs]
    rcases off_cases d hd with ⟨-, q1, q2⟩ | ⟨-, q1, q2⟩ | ⟨-, q1, q2⟩ | ⟨-, q1, q2⟩ <;> rw [q1] at ea <;> rw [q2] at eb <;> omega
  have v1 := h.even a b a' b' hab hab' (by omega)
  have v2 := h.even a' b' a b hab' hab (by rw [abs_sub_comm (a' : Int), abs_sub_comm (b' : Int)]; omega)
  obtain ⟨m, hm, hmc, rfl, hy, har, hroom, hlow⟩ := hi
  obtain ⟨n, hn, hnc, rfl, hy', har', hroom', hlow'⟩ := hj
  have hstep : StepOk height climb (f.spans ((f.cells (a + b * H.w)).index + m)) (f.spans ((f.cells (a' + b' * H.w)).index + n)) := by
    refine (canStep_iff _ _ _ _).1 ?_
    unfold canStep
    simp only [Bool.and_eq_true, decide_eq_true_eq]
    omega
  have hnei : NeiCell H.w H.h a b d (a' + b' * H.w) := ⟨a', b', ha', hb', ea, eb, rfl⟩
  have hin : InCell f (a + b * H.w) ((f.cells (a + b * H.w)).index + m) := ⟨Nat.le_add_right _ _, Nat.add_lt_add_left hmc _⟩
  refine ⟨a, b, a', b', ⟨ha, hb, hin⟩, ⟨ha', hb', Nat.le_add_right _ _, Nat.add_lt_add_left hnc _⟩, ea, eb, ?_⟩
  show getCon (con ((f.cells (a + b * H.w)).index + m)) d ≠ _ ∧ (f.cells (a' + b' * H.w)).index + n =
    (f.cells (a' + b' * H.w)).index + (getCon (con ((f.cells (a + b * H.w)).index + m)) d).toNat
  rcases hcon a ha b hb _ hin d hd with ⟨-, g⟩ | ⟨c, g1, q, hq, g2, g3, g4, g5⟩
  · exact absurd hstep (g _ hnei n hn hnc)
  · obtain rfl := neiCell_unique g1 hnei
    have hqn : q = n := by
      rcases lt_trichotomy q n with z | z | z
      · have hl := hlow' q z
        have hst := (canStep_iff _ _ _ _).2 g4
        unfold canStep at hst
        simp only [Bool.and_eq_true, decide_eq_true_eq] at hst
        omega
      · exact z
      · exact absurd hstep (g5 n z)
    subst hqn
    have hto : (BitVec.ofNat 32 q).toNat = q := by simp only [BitVec.toNat_ofNat]; omega
    rw [g3, hto]
    refine ⟨fun hq' => ?_, rfl⟩
    have := congrArg BitVec.toNat hq'
    rw [hto] at this
    have h63 : (notConnected : U32).toNat = 63 := by decide
    omega

/-- On an open floor no way that is short enough leads away from it. -/
theorem floor_reach {H : Field} (hH : ∀ i, GoodColumn (H.col i)) {height climb : Int} {f : Fill} {con : Nat → U32}
    (e : buildCompact height climb H = some (f, con)) (hwf : (mkChf H f con).Wf) (h1 : climb < height) (h2 : height + climb ≤ 255)
    {k : Nat → Nat → Nat} {s : Nat → Nat → SpanV} {r x y : Nat} (h : OpenFloor H height climb k s r x y)
    {ds : List (Nat × Nat)} (hds : ∀ p ∈ ds, p.1 < 4 ∧ p.2 < 4 ∧ (p.1 + p.2) % 2 = 1) {base : Nat → Nat → Prop} {i n : Nat}
    (hr : Reach (mkChf H f con) ds base i n) : ∀ {m a b : Nat}, Within m x y a b → FloorSpan H f (height + climb) s a b i → 2 * m + n < 2 * r →
      ∃ j m' a' b' n', base j n' ∧ Within m' x y a' b' ∧ FloorSpan H f (height + climb) s a' b' j ∧ 2 * m' + n' < 2 * r := by
  have hl := h.left
  have hri := h.right
  have hlo := h.low
  have hhi := h.high
  -- one step
  have step : ∀ {a b i j d : Nat}, d < 4 → Within r x y a b → FloorSpan H f (height + climb) s a b i → (mkChf H f con).Nb i d j →
      ∀ a' b' : Nat, Within r x y a' b' → (a' : Int) = a + dirX (BitVec.ofNat 32 d) → (b' : Int) = b + dirY (BitVec.ofNat 32 d) →
        FloorSpan H f (height + climb) s a' b' j := by
    intro a b i j d hd hab hi hn a' b' hab' ea eb
    obtain ⟨j', g1, g2⟩ := floor_nb hH e h1 h2 h hab hab' hd ea eb hi
    rw [Chf.Nb.unique hwf hd hn g2]
    exact g1
  induction hr with
  | here hb => intro m a b hab hi hlt; exact ⟨_, m, a, b, _, hb, hab, hi, hlt⟩
  | @side i j n d d' hdd hn _ ih =>
    intro m a b hab hi hlt
    obtain ⟨hd, -, -⟩ := hds _ hdd
    have hw := hab
    unfold Within at hw
    obtain ⟨a', b', ea, eb, hw', -⟩ := nei_exists (w := H.w) (h := H.h) hd (x := a) (y := b) (by omega) (by omega) (by omega) (by omega)
    unfold Within at hw'
    exact ih (m := m + 1) (a := a') (b := b') (by unfold Within; omega)
      (step hd (by unfold Within; omega) hi hn a' b' (by unfold Within; omega) ea eb) (by omega)
  | @diag i j l n d d' hdd hn hn' _ ih =>
    intro m a b hab hi hlt
    obtain ⟨hd, hd', hodd⟩ := hds _ hdd
    replace hd : d < 4 := hd
    replace hd' : d' < 4 := hd'
    have hw := hab
    unfold Within at hw
    obtain ⟨a', b', ea, eb, hw', -⟩ := nei_exists (w := H.w) (h := H.h) hd (x := a) (y := b) (by omega) (by omega) (by omega) (by omega)
    unfold Within at hw'
    have fj := step hd (by unfold Within; omega) hi hn a' b' (by unfold Within; omega) ea eb
    obtain ⟨a'', b'', h3, h4, hw''⟩ : ∃ a'' b'' : Nat, (a'' : Int) = a' + dirX (BitVec.ofNat 32 d') ∧
        (b'' : Int) = b' + dirY (BitVec.ofNat 32 d') ∧ Within (m + 1) x y a'' b'' := by
      simp only at hodd
      unfold Within
      rcases off_cases d hd with ⟨e0, e1, e2⟩ | ⟨e0, e1, e2⟩ | ⟨e0, e1, e2⟩ | ⟨e0, e1, e2⟩ <;>
      rcases off_cases d' hd' with ⟨g0, g1, g2⟩ | ⟨g0, g1, g2⟩ | ⟨g0, g1, g2⟩ | ⟨g0, g1, g2⟩ <;>
      first
      | omega
      | exact ⟨((a' : Int) + dirX (BitVec.ofNat 32 d')).toNat, ((b' : Int) + dirY (BitVec.ofNat 32 d')).toNat, by omega, by omega, by omega⟩
    have hw3 := hw''
    unfold Within at hw3
    exact ih (m := m + 1) hw'' (step hd' (by unfold Within; omega) fj hn' a'' b'' (by unfold Within; omega) h3 h4) (by omega)

/-- **C163** (partial). Open ground stays walkable: if the field has an open floor up to `radius + 1` cells around a cell, the ground has
that floor at the cell, with the area it had. Other layers, obstacles farther away and the rest of the field do not matter. Missing: fields of
more than 127 rows and columns (`erode_wraps_refuted`), agents of more than 255 voxels (see `open_floor_refuted`) or that can climb
their own height, and columns of more than 63 spans. -/
theorem open_floor_partial (F : Field) (hF : ∀ i, GoodColumn (F.col i)) (hsz : F.w ≤ 127 ∨ F.h ≤ 127) (height climb : Int)
    (h0 : 0 ≤ climb) (h1 : climb < height) (h2 : height + climb ≤ 255) (radius : Nat) (hrad : radius ≤ 127)
    (k : Nat → Nat → Nat) (s : Nat → Nat → SpanV) (x y : Nat) (h : OpenFloor F height climb k s (radius + 1) x y) :
    ∃ v, tileGround height climb radius F = some v ∧ ∃ e ∈ v x y, e.y = (s x y).smax ∧ e.area = (s x y).area := by
  have hH : ∀ i, GoodColumn ((tileFilters height climb F).col i) := fun i => good_of_geom (filters_geom height climb F i).symm (hF i)
  have hfl := floor_filters (fun i => (hF i).1) h0 h1 h
  obtain ⟨f, con, e, hwf⟩ := buildCompact_wf height climb (tileFilters height climb F) (fun i _ => by
    have := openSpans_len ((tileFilters height climb F).col i)
    have := (hH i).2.2
    omega)
  obtain ⟨f', e1, hf⟩ := fillField_spec (tileFilters height climb F)
  have e' := e
  rw [buildCompact, e1] at e'
  obtain ⟨rfl, -⟩ : f' = f ∧ _ := by simpa using e'
  refine ⟨_, by rw [tileGround, e]; rfl, ?_⟩
  have hme : ∀ r, Within r x y x y := by intro r; unfold Within; omega
  obtain ⟨i, hi⟩ := floor_span hH hf h2 hfl (hme radius)
  have hx : x < F.w := (hfl.cell (hme _)).1
  have hy : y < F.h := (hfl.cell (hme _)).2
  obtain ⟨m, hm, hmc, hidx, hy1, har, -, -⟩ := id hi
  have hmc : m < (f'.cells (x + y * F.w)).count := hmc
  have hidx : i = (f'.cells (x + y * F.w)).index + m := hidx
  have hat : (mkChf (tileFilters height climb F) f' con).At x y i :=
    ⟨hx, hy, by rw [hidx]; exact Nat.le_add_right _ _, by rw [hidx]; exact Nat.add_lt_add_left hmc _⟩
  have hlt := hwf.lt _ _ _ hat
  -- the area is kept
  have hkeep : (erode radius (mkChf (tileFilters height climb F) f' con)).area i = (s x y).area := by
    rcases erode_only_clears_partial radius (mkChf (tileFilters height climb F) f' con) i with q | q
    · rw [q]; exact har
    · exfalso
      rcases (erode_iff_partial hwf hsz hrad hlt).1 q with q | ⟨n, hn, hr⟩
      · have : (f'.spans i).area = 0 := q
        rw [har] at this
        exact h.walk x y (hme _) this
      · obtain ⟨j, m', a, b, n', g1, g2, g3, g4⟩ := floor_reach hH e hwf h1 h2 hfl (by decide) hr (hme 0) hi (by omega)
        obtain ⟨j, m', a, b, n', g1, g2, g3, g4⟩ := floor_reach hH e hwf h1 h2 hfl (by decide) g1 g2 g3 g4
        have hl := hfl.left
        have hri := hfl.right
        have hlo := hfl.low
        have hhi := hfl.high
        have hw := g2
        unfold Within at hw
        rcases g1.1 with hb | ⟨d, hd, hb⟩
        · obtain ⟨_, _, _, _, _, har', -, -⟩ := g3
          have : (f'.spans j).area = 0 := hb
          rw [har'] at this
          exact hfl.walk a b (by unfold Within; omega) this
        · obtain ⟨a', b', ea, eb, hw', -⟩ := nei_exists (w := (tileFilters height climb F).w) (h := (tileFilters height climb F).h) hd
            (x := a) (y := b) (by omega) (by omega) (by omega) (by omega)
          unfold Within at hw'
          have hab' : Within radius x y a' b' := by unfold Within; omega
          obtain ⟨l, q1, q2⟩ := floor_nb hH e h1 h2 hfl (by unfold Within; omega) hab' hd ea eb g3
          obtain ⟨_, _, _, _, _, har', -, -⟩ := q1
          have : (f'.spans l).area = 0 := hb l q2
          rw [har'] at this
          exact hfl.walk a' b' hab' this
  refine ⟨⟨(f'.spans i).y, (f'.spans i).h, (erode radius (mkChf (tileFilters height climb F) f' con)).area i, [0, 1, 2, 3].map (getCon (con i))⟩, ?_, hy1, hkeep⟩
  rw [hidx]
  exact List.mem_map.2 ⟨m, List.mem_range.2 hmc, rfl⟩

/-! ## Cases -/

/-- Steps of one voxel, with a roof above. -/
def stepped : Field := ⟨7, 7, fun i => [⟨0, 1 + i % 7 % 2, 63⟩, ⟨30, 31, 0⟩]⟩

/-- Over the steps, with a radius of 1, the cell in the middle stays walkable. -/
example : ∃ v, tileGround 3 1 1 stepped = some v ∧ ∃ e ∈ v 3 3, e.y = 2 ∧ e.area = 63 := by
  have hcell : ∀ a b, Within 2 3 3 a b → (a + b * 7) % 7 = a := by
    intro a b h
    unfold Within at h
    omega
  refine open_floor_partial stepped (fun i => ⟨⟨?_, ?_⟩, ?_, by simp [stepped]⟩) (Or.inl (by decide)) 3 1 (by decide) (by decide) (by decide) 1 (by decide)
    (fun _ _ => 0) (fun a _ => ⟨0, 1 + a % 2, 63⟩) 3 3 ⟨by decide, by decide, by decide, by decide, fun a b h => ?_, fun _ _ _ => (by decide : (63 : Nat) ≠ 0), fun a b h => ?_, fun a b a' b' _ _ _ => ?_⟩
  · simp only [stepped, List.pairwise_cons, List.mem_singleton, forall_eq, List.not_mem_nil, false_imp_iff, implies_true, and_true, List.Pairwise.nil]
    omega
  · simp [stepped, SpanV.Valid]
  · simp only [stepped, List.mem_cons, List.not_mem_nil, or_false, forall_eq_or_imp, forall_eq]
    omega
  · show some (SpanV.mk 0 (1 + (a + b * 7) % 7 % 2) 63) = _
    rw [hcell a b h]
  · show (3 : Int) + 1 < ((30 : Nat) : Int) - ((1 + a % 2 : Nat) : Int)
    omega
  · show ((1 + a % 2 : Nat) : Int) ≤ ((1 + a' % 2 : Nat) : Int) + 1
    omega

/-- **C163** (refuted in full). For agents of 256 voxels no two spans are connected, because the open height of a span is kept in 8
bits, and even an open plain is not walkable. -/
theorem open_floor_refuted : OpenFloor (plain 5) 256 1 (fun _ _ => 0) (fun _ _ => ⟨0, 1, 63⟩) 2 2 2 ∧
    ∃ v, tileGround 256 1 1 (plain 5) = some v ∧ ∀ e ∈ v 2 2, e.area = 0 := by
  refine ⟨⟨by decide, by decide, by decide, by decide, fun _ _ _ => rfl, fun _ _ _ => by decide,
    fun _ _ _ => (by decide : (256 : Int) + 1 < clearance [⟨0, 1, 63⟩] 0 ⟨0, 1, 63⟩), fun _ _ _ _ _ _ _ => by decide⟩, ?_⟩
  have e : (tileGround 256 1 1 (plain 5)).map (fun v => v 2 2) = some [⟨1, 255, 0, [63, 63, 63, 63]⟩] := by decide +kernel
  rw [Option.map_eq_some_iff] at e
  obtain ⟨v, e1, e2⟩ := e
  refine ⟨v, e1, ?_⟩
  rw [e2]
  decide

end Verif.Recast
