/-
From the triangles of the input to the walkable ground: an agent has room where the ground is walkable. This joins what was proved
about rasterisation, filters, compaction and erosion, in the order in which the builders call them
(sample/solomesh/builder.go:140-212, sample/tilemesh/builder.go:268-340).
-/
import Verif.Recast.RasterShift

namespace Verif.Recast
open Verif Verif.Detour

variable {K : Type} [_root_.Field K] [LinearOrder K] [IsStrictOrderedRing K] [FloorRing K]

/-! ## Specification -/

/-- The height of a point in voxels. -/
def Grid.level (g : Grid K) (p : V3 K) : K := (p.y - g.bmin.y) / g.ch

/-- Over the cell, nothing of the input is above the floor at `floor` up to `height` voxels higher. -/
def FreeAbove (g : Grid K) (verts : List (V3 K)) (tris : List (Nat × Nat × Nat)) (areas : List Nat) (x y : Nat) (floor : Nat) (height : Int) : Prop :=
  ∀ i v0 v1 v2 area, TriAt verts tris areas i v0 v1 v2 area → ∀ p, InTri v0 v1 v2 p → g.Over x y p → g.InBox p →
    g.level p ≤ floor ∨ ((floor + height : Int) : K) < g.level p

/-- The floor at `floor` is that of a triangle of the input: the triangle has a point near the cell at most a voxel above or below. -/
def TopOf (g : Grid K) (verts : List (V3 K)) (tris : List (Nat × Nat × Nat)) (areas : List Nat) (x y : Nat) (floor : Nat) : Prop :=
  ∃ i v0 v1 v2 area, TriAt verts tris areas i v0 v1 v2 area ∧
    ∃ p, InTri v0 v1 v2 p ∧ g.Near x y p ∧ (floor : K) - 1 ≤ g.level p ∧ g.level p ≤ floor + 1

/-- From a span one comes to another over a connection in direction `d`. -/
def GNext (v : Nat → Nat → List GSpan) (d : Nat) (a b : Nat × Nat × GSpan) : Prop :=
  (b.1 : Int) = a.1 + dirX (BitVec.ofNat 32 d) ∧ (b.2.1 : Int) = a.2.1 + dirY (BitVec.ofNat 32 d) ∧
  ∃ k < 63, a.2.2.con[d]? = some (BitVec.ofNat 32 k) ∧ (v b.1 b.2.1)[k]? = some b.2.2

/-- An agent can pass between two spans: floors at most `climb` apart, and a common opening of `height`. -/
def CanPass (height climb : Int) (a b : GSpan) : Prop :=
  |(a.y : Int) - b.y| ≤ climb ∧ max (a.y : Int) b.y + height ≤ min ((a.y : Int) + a.h) (b.y + b.h)

/-! ## Columns -/

theorem lowHanging_geom (climb : Int) (l : List SpanV) : ∀ pw pa pm, geom (lowHangingCol climb pw pa pm l) = geom l := by
  unfold geom
  induction l with
  | nil => intros; rfl
  | cons s l ih =>
    intro pw pa pm
    simp only [lowHangingCol, List.map_cons, ih]
    split
    · split <;> rfl
    · rfl

theorem geom_get {l l' : List SpanV} (h : geom l = geom l') (k : Nat) :
    (l[k]?).map (fun s => (s.smin, s.smax)) = (l'[k]?).map (fun s => (s.smin, s.smax)) := by
  have := congrArg (fun m => m[k]?) h
  simpa [geom] using this

theorem geom_some {l l' : List SpanV} (h : geom l = geom l') {k : Nat} {s : SpanV} (hs : l[k]? = some s) :
    ∃ t, l'[k]? = some t ∧ t.smin = s.smin ∧ t.smax = s.smax := by
  have e := geom_get h k
  rw [hs] at e
  cases ht : l'[k]? with
  | none => rw [ht] at e; cases e
  | some t =>
    rw [ht] at e
    simp only [Option.map_some, Option.some.injEq, Prod.mk.injEq] at e
    exact ⟨t, rfl, e.1.symm, e.2.symm⟩

theorem clearance_geom {l l' : List SpanV} (h : geom l = geom l') (k : Nat) {s t : SpanV} (e : t.smax = s.smax) :
    clearance l k s = clearance l' k t := by
  have e' := geom_get h (k + 1)
  unfold clearance
  cases h1 : l[k + 1]? <;> cases h2 : l'[k + 1]? <;> rw [h1, h2] at e' <;> simp_all

/-- The spans of a column as the filters leave them. -/
theorem filters_geom (height climb : Int) (F : Field) (i : Nat) : geom ((tileFilters height climb F).col i) = geom (F.col i) := by
  unfold tileFilters
  rw [filterLowHeight_col]
  have h1 : geom ((filterLedge height climb (filterLowHanging climb F)).col i) = geom (F.col i) := by
    rw [filterLedge_col, filterLowHanging_col]
    have h2 : geom (if i < F.w * F.h then lowHangingCol climb false nullArea 0 (F.col i) else F.col i) = geom (F.col i) := by
      split
      · exact lowHanging_geom climb _ _ _ _
      · rfl
    split
    · rw [ledgeCol_geom, h2]
    · exact h2
  split
  · exact (lowHeightCol_geom height _).trans h1
  · exact h1

theorem open_mem {l : List SpanV} : ∀ {e : CSpan}, e ∈ openSpans l → ∃ (k : Nat) (s : SpanV), l[k]? = some s ∧ s.area ≠ 0 ∧ e.y = min s.smax 65535 := by
  induction l with
  | nil => intro e h; cases h
  | cons a l ih =>
    intro e h
    rw [openSpans] at h
    split at h
    · obtain ⟨k, s, h1, h2⟩ := ih h
      exact ⟨k + 1, s, h1, h2⟩
    · rename_i ha
      rcases List.mem_cons.1 h with rfl | h
      · exact ⟨0, a, rfl, ha, rfl⟩
      · obtain ⟨k, s, h1, h2⟩ := ih h
        exact ⟨k + 1, s, h1, h2⟩

/-- What the filters leave walkable has more than `height` above it. -/
theorem filters_clear (height climb : Int) (F : Field) {i : Nat} (hi : i < F.w * F.h) {k : Nat} {s : SpanV}
    (hs : ((tileFilters height climb F).col i)[k]? = some s) (ha : s.area ≠ 0) :
    ∃ t, (F.col i)[k]? = some t ∧ t.smax = s.smax ∧ height < clearance (F.col i) k t := by
  have hg := filters_geom height climb F i
  obtain ⟨t, ht, -, t2⟩ := geom_some hg hs
  refine ⟨t, ht, t2, ?_⟩
  rw [← clearance_geom hg k t2]
  set G := filterLedge height climb (filterLowHanging climb F) with hG
  have hi' : i < G.w * G.h := hi
  obtain ⟨hl, he⟩ := lowHeight_effect height G i hi'
  change ((filterLowHeight height G).col i)[k]? = some s at hs
  have hk : k < (G.col i).length := by
    rw [← hl]
    exact (List.getElem?_eq_some_iff.1 hs).1
  have e := he k _ (List.getElem?_eq_getElem hk)
  rw [hs, Option.some.injEq] at e
  have hgl : geom ((filterLowHeight height G).col i) = geom (G.col i) := by
    rw [filterLowHeight_col, if_pos hi']
    exact lowHeightCol_geom height _
  change height < clearance ((filterLowHeight height G).col i) k s
  split at e
  · rw [e] at ha
    exact absurd rfl ha
  · rename_i hc
    rw [clearance_geom hgl k (s := s) (t := (G.col i)[k]) (by rw [e])]
    omega

/-- The spans added to a cell are in its column. -/
theorem columnOf_solid (ops : List AddOp) (hv : ∀ op ∈ ops, op.span.Valid) (i : Nat) : Canon (columnOf i ops) ∧
    ∀ y, Solid (columnOf i ops) y ↔ ∃ op ∈ ops, op.cell = i ∧ 2 * op.span.smin ≤ y ∧ y ≤ 2 * op.span.smax := by
  obtain ⟨h1, h2⟩ := foldl_canon (ops.filter fun op => op.cell = i) [] ⟨by simp, by simp⟩ fun op ho => hv op (List.mem_filter.1 ho).1
  refine ⟨h1, fun y => ?_⟩
  unfold columnOf
  rw [h2]
  simp [Solid, and_assoc]

/-- A span added to a cell lies within one span of its column. -/
theorem columnOf_within (ops : List AddOp) (hv : ∀ op ∈ ops, op.span.Valid) {op : AddOp} (ho : op ∈ ops) :
    ∃ s ∈ columnOf op.cell ops, s.smin ≤ op.span.smin ∧ op.span.smax ≤ s.smax := by
  obtain ⟨hc, hs⟩ := columnOf_solid ops hv op.cell
  have hval : op.span.smin ≤ op.span.smax := hv op ho
  obtain ⟨s, hm, h1, h2⟩ := (hs (2 * op.span.smin)).2 ⟨op, ho, rfl, le_refl _, by omega⟩
  refine ⟨s, hm, by omega, ?_⟩
  by_contra hlt
  push Not at hlt
  -- the half voxel above the span is solid
  obtain ⟨t, ht, t1, t2⟩ := (hs (2 * s.smax + 1)).2 ⟨op, ho, rfl, by omega, by omega⟩
  obtain ⟨a, ha, rfl⟩ := List.getElem_of_mem hm
  obtain ⟨b, hb, rfl⟩ := List.getElem_of_mem ht
  have hp := List.pairwise_iff_getElem.1 hc.1
  have va : (columnOf op.cell ops)[a].smin ≤ (columnOf op.cell ops)[a].smax := hc.2 _ hm
  have vb : (columnOf op.cell ops)[b].smin ≤ (columnOf op.cell ops)[b].smax := hc.2 _ ht
  rcases lt_trichotomy a b with h | h | h
  · have := hp a b ha hb h
    omega
  · subst h
    omega
  · have := hp b a hb ha h
    omega

/-- Every span of a column has the top of one of the spans added to the cell. -/
theorem columnOf_top (ops : List AddOp) (hv : ∀ op ∈ ops, op.span.Valid) {i : Nat} {s : SpanV} (hs : s ∈ columnOf i ops) :
    ∃ op ∈ ops, op.cell = i ∧ op.span.smax = s.smax := by
  obtain ⟨hc, hsol⟩ := columnOf_solid ops hv i
  have vs : s.smin ≤ s.smax := hc.2 s hs
  obtain ⟨op, ho, rfl, h1, h2⟩ := (hsol (2 * s.smax)).1 ⟨s, hs, by omega, by omega⟩
  refine ⟨op, ho, rfl, ?_⟩
  obtain ⟨t, ht, t1, t2⟩ := columnOf_within ops hv ho
  obtain ⟨a, ha, rfl⟩ := List.getElem_of_mem hs
  obtain ⟨b, hb, rfl⟩ := List.getElem_of_mem ht
  have hp := List.pairwise_iff_getElem.1 hc.1
  have vb : (columnOf op.cell ops)[b].smin ≤ (columnOf op.cell ops)[b].smax := hc.2 _ ht
  rcases lt_trichotomy a b with h | h | h
  · have := hp a b ha hb h
    omega
  · subst h
    omega
  · have := hp b a hb ha h
    omega

omit [FloorRing K] in
/-- Between two points of a triangle near a cell there is one at each height between theirs. -/
theorem near_between {g : Grid K} (hch : 0 < g.ch) {v0 v1 v2 p q : V3 K} {x y : Nat} (hp : InTri v0 v1 v2 p) (hq : InTri v0 v1 v2 q)
    (np : g.Near x y p) (nq : g.Near x y q) {t : K} (h1 : g.level p ≤ t) (h2 : t ≤ g.level q) :
    ∃ r, InTri v0 v1 v2 r ∧ g.Near x y r ∧ g.level r = t := by
  rcases eq_or_lt_of_le (h1.trans h2) with he | hlt
  · exact ⟨p, hp, np, le_antisymm h1 (by rw [he]; exact h2)⟩
  · have hpos : 0 < g.level q - g.level p := sub_pos.2 hlt
    obtain ⟨m, hm⟩ : ∃ m, (t - g.level p) / (g.level q - g.level p) = m := ⟨_, rfl⟩
    have hm' : m * (g.level q - g.level p) = t - g.level p := by rw [← hm]; exact div_mul_cancel₀ _ hpos.ne'
    have m0 : 0 ≤ m := by rw [← hm]; exact div_nonneg (by linarith) hpos.le
    have m1 : m ≤ 1 := by rw [← hm]; exact (div_le_one hpos).2 (by linarith)
    have n0 : 0 ≤ 1 - m := by linarith
    obtain ⟨a, b, c, ha, hb, hc, hs, rfl⟩ := hp
    obtain ⟨a', b', c', ha', hb', hc', hs', rfl⟩ := hq
    refine ⟨_, ⟨(1 - m) * a + m * a', (1 - m) * b + m * b', (1 - m) * c + m * c', by positivity, by positivity, by positivity,
      by linear_combination (1 - m) * hs + m * hs', rfl⟩, ?_, ?_⟩
    · obtain ⟨p1, p2, p3, p4⟩ := np
      obtain ⟨q1, q2, q3, q4⟩ := nq
      simp only at p1 p2 p3 p4 q1 q2 q3 q4
      refine ⟨?_, ?_, ?_, ?_⟩
      · rcases p1 with p1 | p1
        · rcases q1 with q1 | q1
          · left
            simp only
            nlinarith [mul_le_mul_of_nonneg_left p1 n0, mul_le_mul_of_nonneg_left q1 m0]
          · exact Or.inr q1
        · exact Or.inr p1
      · simp only
        nlinarith [mul_le_mul_of_nonneg_left p2 n0, mul_le_mul_of_nonneg_left q2 m0]
      · rcases p3 with p3 | p3
        · rcases q3 with q3 | q3
          · left
            simp only
            nlinarith [mul_le_mul_of_nonneg_left p3 n0, mul_le_mul_of_nonneg_left q3 m0]
          · exact Or.inr q3
        · exact Or.inr p3
      · simp only
        nlinarith [mul_le_mul_of_nonneg_left p4 n0, mul_le_mul_of_nonneg_left q4 m0]
    · unfold Grid.level at *
      simp only at *
      rw [div_sub_div_same, mul_div_assoc', div_eq_iff hch.ne'] at hm'
      rw [div_eq_iff hch.ne']
      have e : (t - (a * v0.y + b * v1.y + c * v2.y - g.bmin.y) / g.ch) * g.ch = t * g.ch - (a * v0.y + b * v1.y + c * v2.y - g.bmin.y) := by
        rw [sub_mul, div_mul_cancel₀ _ hch.ne']
      rw [e] at hm'
      linear_combination hm'

/-- The spans seen in a cell are open spans of its column. -/
theorem view_mem {height climb : Int} {radius : Nat} {F : Field} {v : Nat → Nat → List GSpan}
    (hv : tileGround height climb radius F = some v) {x y : Nat} (hx : x < F.w) (hy : y < F.h) {s : GSpan} (hs : s ∈ v x y) :
    ∃ e ∈ openSpans ((tileFilters height climb F).col (x + y * F.w)), e.y = s.y ∧ e.h = s.h := by
  obtain ⟨f, h1, h2⟩ := fillField_spec (tileFilters height climb F)
  rw [tileGround, buildCompact, h1] at hv
  cases hv
  have hi : x + y * F.w < (tileFilters height climb F).w * (tileFilters height climb F).h := cell_lt (w := F.w) (h := F.h) hx hy
  obtain ⟨-, hc⟩ := cell_spans h2 hi
  obtain ⟨k, hk, rfl⟩ := List.mem_map.1 hs
  have hk : k < (f.cells (x + y * F.w)).count := List.mem_range.1 hk
  exact ⟨_, List.mem_of_getElem? (hc k hk), rfl, rfl⟩

theorem tileGround_some (height climb : Int) (radius : Nat) (F : Field) : ∃ v, tileGround height climb radius F = some v := by
  obtain ⟨f, h1, -⟩ := fillField_spec (tileFilters height climb F)
  exact ⟨_, by rw [tileGround, buildCompact, h1]; rfl⟩

/-- **C160.** Whatever the input: building the ground succeeds; above each span of the ground nothing of the input is in the way up
to the height of the agent, and each span lies on the input. -/
theorem ground_headroom {g : Grid K} (hg : g.Ok) (verts : List (V3 K)) (tris : List (Nat × Nat × Nat)) (areas : List Nat) (thr : Int)
    (hidx : ∀ t ∈ tris, t.1 < verts.length ∧ t.2.1 < verts.length ∧ t.2.2 < verts.length) (hlen : tris.length ≤ areas.length)
    (height climb : Int) (radius : Nat) :
    ∃ ops v, rasterizeTriangles g verts tris areas thr = some ops ∧ tileGround height climb radius (fieldOf g ops) = some v ∧
      ∀ x < g.w, ∀ y < g.h, ∀ s ∈ v x y,
        FreeAbove g verts tris areas x y s.y height ∧ TopOf g verts tris areas x y s.y := by
  obtain ⟨ops, hops, hspan, hcov⟩ := rasterTris_spec hg verts areas thr tris 0 hidx (by omega)
  have hval : ∀ op ∈ ops, op.span.Valid := by
    intro op hop
    obtain ⟨_, _, _, _, _, _, x, y, _, _, _, _, _, hv, _⟩ := hspan op hop
    exact hv
  obtain ⟨v, hv⟩ := tileGround_some height climb radius (fieldOf g ops)
  refine ⟨ops, v, hops, hv, fun x hx y hy s hs => ?_⟩
  obtain ⟨e, he, e1, -⟩ := view_mem hv hx hy hs
  obtain ⟨k, t', ht', ha, e2⟩ := open_mem he
  obtain ⟨t, ht, e3, hclr⟩ := filters_clear height climb (fieldOf g ops) (i := x + y * g.w) (cell_lt (w := g.w) (h := g.h) hx hy) ht' ha
  change (columnOf (x + y * g.w) ops)[k]? = some t at ht
  change height < clearance (columnOf (x + y * g.w) ops) k t at hclr
  obtain ⟨op, ho, hcell, htop⟩ := columnOf_top ops hval (List.mem_of_getElem? ht)
  obtain ⟨n, v0, v1, v2, area, ⟨a, b, c, r0, r1, r2, r3, r4⟩, x', y', hx', hy', hc', -, -, hvo, h16, ⟨pl, l1, l2, l3⟩, hhi, ⟨ph, u1, u2, u3⟩, -⟩ := hspan op ho
  have hfl : s.y = t.smax := by omega
  obtain ⟨rfl, rfl⟩ : x = x' ∧ y = y' := cell_inj hx hx' (hcell.symm.trans hc')
  rw [hfl]
  refine ⟨?_, n, v0, v1, v2, area, ⟨a, b, c, r0, r1, r2, r3, by rw [Nat.zero_add] at r4; exact r4⟩, ?_⟩
  · intro i w0 w1 w2 area' ⟨a', b', c', q0, q1, q2, q3, q4⟩ p hp hov hb
    obtain ⟨op', ho', -, hcell', hmin, hmax⟩ := hcov i w0 w1 w2 area' ⟨a', b', c', q0, q1, q2, q3, by rw [Nat.zero_add]; exact q4⟩
      x y p hx hy hp hov hb
    obtain ⟨u, hu, w1, w2⟩ := columnOf_within ops hval ho'
    rw [hcell'] at hu
    obtain ⟨k', hk', rfl⟩ := List.getElem_of_mem hu
    obtain ⟨hk, rfl⟩ := List.getElem?_eq_some_iff.1 ht
    have hcan := (columnOf_solid ops hval (x + y * g.w)).1
    have hp := List.pairwise_iff_getElem.1 hcan.1
    rcases Nat.lt_or_ge k k' with hlt | hge
    · right
      have hk1 : k + 1 < (columnOf (x + y * g.w) ops).length := by omega
      rw [clearance, List.getElem?_eq_getElem hk1] at hclr
      simp only at hclr
      have hle : (columnOf (x + y * g.w) ops)[k + 1].smin ≤ (columnOf (x + y * g.w) ops)[k'].smin := by
        rcases Nat.lt_or_ge (k + 1) k' with h | h
        · have := hp (k + 1) k' hk1 hk' h
          have : (columnOf (x + y * g.w) ops)[k + 1].smin ≤ (columnOf (x + y * g.w) ops)[k + 1].smax := hcan.2 _ (List.getElem_mem hk1)
          omega
        · have : k' = k + 1 := by omega
          subst this
          exact le_refl _
      have hz : ((columnOf (x + y * g.w) ops)[k].smax : Int) + height < (op'.span.smin : Int) := by omega
      have : ((((columnOf (x + y * g.w) ops)[k].smax : Int) + height : Int) : K) < ((op'.span.smin : Int) : K) := Int.cast_lt.2 hz
      rw [Int.cast_natCast] at this
      exact lt_of_lt_of_le this hmin
    · left
      have hle : (columnOf (x + y * g.w) ops)[k'].smax ≤ (columnOf (x + y * g.w) ops)[k].smax := by
        rcases Nat.lt_or_ge k' k with h | h
        · have := hp k' k hk' hk h
          have : (columnOf (x + y * g.w) ops)[k].smin ≤ (columnOf (x + y * g.w) ops)[k].smax := hcan.2 _ (List.getElem_mem hk)
          omega
        · have : k' = k := by omega
          subst this
          exact le_refl _
      exact hmax.trans (Nat.cast_le.2 (w2.trans hle))
  · rw [← htop]
    have hvo : op.span.smin ≤ op.span.smax := hvo
    have hvo : (op.span.smin : K) ≤ op.span.smax := Nat.cast_le.2 hvo
    have hlo : g.level pl ≤ (op.span.smax : K) + 1 := l3.le.trans (by linarith)
    obtain ⟨q, q1, q2, q3⟩ : ∃ q, InTri v0 v1 v2 q ∧ g.Near x y q ∧ (op.span.smax : K) - 1 ≤ g.level q := by
      rcases hhi with h | ⟨-, q, q1, q2, q3⟩
      · refine ⟨ph, u1, u2, ?_⟩
        rw [h]
        push_cast
        linarith [show (op.span.smin : K) ≤ g.level ph from u3]
      · exact ⟨q, q1, q2, by linarith [show (op.span.smax : K) < g.level q + 1 from q3]⟩
    by_cases h : (op.span.smax : K) - 1 ≤ g.level pl
    · exact ⟨pl, l1, l2, h, hlo⟩
    · push Not at h
      obtain ⟨r, s1, s2, s3⟩ := near_between hg.ch l1 q1 l2 q2 h.le q3
      exact ⟨r, s1, s2, s3.ge, by rw [s3]; linarith⟩

/-! ## Room to the sides -/

theorem line_snoc {c : Chf} {d i m j k : Nat} (h : Line c d i m j) (hn : c.Nb j d k) : Line c d i (m + 1) k := by
  induction h with
  | zero i => exact .step hn (.zero k)
  | step h1 _ ih => exact .step h1 (ih hn)

/-- From a span that erosion leaves walkable, one comes `radius` steps far to walkable spans. -/
theorem line_kept {c : Chf} (hc : c.Wf) {radius : Nat} (h2 : radius ≤ 127) {i : Nat} (hi : i < c.n)
    (ha : (erode radius c).area i ≠ 0) {d : Nat} (hd : d < 4) : ∃ path : Nat → Nat, path 0 = i ∧
      ∀ m < radius, c.Nb (path m) d (path (m + 1)) := by
  have gen : ∀ n ≤ radius, ∃ path : Nat → Nat, path 0 = i ∧ (∀ m < n, c.Nb (path m) d (path (m + 1))) ∧ Line c d i n (path n) := by
    intro n
    induction n with
    | zero => intro _; exact ⟨fun _ => i, rfl, by simp, .zero i⟩
    | succ n ih =>
      intro hle
      obtain ⟨path, p0, p1, p2⟩ := ih (by omega)
      have hb : ¬ Border c (path n) := fun hb => ha (erode_clears_near_partial hc h2 hi hd p2 hb (by omega))
      unfold Border at hb
      push Not at hb
      obtain ⟨j, hj, -⟩ := hb.2 d hd
      refine ⟨fun m => if m ≤ n then path m else j, by simp [p0], fun m hm => ?_, ?_⟩
      · rcases Nat.lt_or_ge m n with h | h
        · simp only [if_pos (show m ≤ n by omega), if_pos (show m + 1 ≤ n by omega)]
          exact p1 m h
        · have : m = n := by omega
          subst this
          simp only [le_refl, if_true, if_neg (show ¬ m + 1 ≤ m by omega)]
          exact hj
      · simp only [if_neg (show ¬ n + 1 ≤ n by omega)]
        exact line_snoc p2 hj
  obtain ⟨path, p0, p1, -⟩ := gen radius (le_refl _)
  exact ⟨path, p0, p1⟩

theorem stepOk_pass {height climb : Int} {a b : CSpan} (h : StepOk height climb a b) :
    |(a.y : Int) - b.y| ≤ climb ∧ max (a.y : Int) b.y + height ≤ min ((a.y : Int) + a.h) (b.y + b.h) := by
  obtain ⟨bot, h1, h2, h3, h4⟩ := h.1 (height - 1) (by omega)
  exact ⟨h.2, by omega⟩

/-- **C161** (partial). A span of the ground that is walkable in the end has, in each of the four directions, as many steps to go as
the radius has cells, all within the field: each to a connected span, at most `climb` up or down, through an opening of at least
`height`. Missing: a radius of more than 127 cells (see `ground_corridor_refuted`), and columns of more than 255 spans. -/
theorem ground_corridor_partial (height climb : Int) (radius : Nat) (h2 : radius ≤ 127) (F : Field) (cF : ∀ i, (F.col i).length ≤ 255) : ∃ v, tileGround height climb radius F = some v ∧
      ∀ x < F.w, ∀ y < F.h, ∀ s ∈ v x y, s.area ≠ 0 → ∀ d < 4, ∃ path : Nat → Nat × Nat × GSpan, path 0 = (x, y, s) ∧
        ∀ m < radius, (path (m + 1)).1 < F.w ∧ (path (m + 1)).2.1 < F.h ∧ (path (m + 1)).2.2 ∈ v (path (m + 1)).1 (path (m + 1)).2.1 ∧
          GNext v d (path m) (path (m + 1)) ∧ CanPass height climb (path m).2.2 (path (m + 1)).2.2 := by
  obtain ⟨f, con, e1, w1⟩ := buildCompact_wf height climb (tileFilters height climb F) (by
    intro i _
    refine (openSpans_len _).trans ?_
    rw [tileFilters_len]
    exact cF i)
  obtain ⟨f', con', e1', -, hcon⟩ := connections_partial height climb (tileFilters height climb F)
  rw [e1] at e1'
  obtain ⟨rfl, rfl⟩ : f = f' ∧ con = con' := by simpa using e1'
  set c := mkChf (tileFilters height climb F) f con with hcdef
  refine ⟨(erode radius c).view f.spans, by rw [tileGround, e1]; rfl, ?_⟩
  -- a span of the compact field as it is seen
  let seen : Nat → GSpan := fun i => ⟨(f.spans i).y, (f.spans i).h, (erode radius c).area i, [0, 1, 2, 3].map (getCon (con i))⟩
  have view_get : ∀ x y i, c.At x y i → ((erode radius c).view f.spans x y)[i - (f.cells (x + y * F.w)).index]? = some (seen i) := by
    rintro x y i ⟨-, -, hl, hu⟩
    change (f.cells (x + y * F.w)).index ≤ i at hl
    change i < (f.cells (x + y * F.w)).index + (f.cells (x + y * F.w)).count at hu
    have hk : i - (f.cells (x + y * F.w)).index < (f.cells (x + y * F.w)).count := by omega
    change ((List.range (f.cells (x + y * F.w)).count).map fun k => seen ((f.cells (x + y * F.w)).index + k))[_]? = _
    rw [List.getElem?_map, List.getElem?_range hk, Option.map_some, show (f.cells (x + y * F.w)).index + (i - (f.cells (x + y * F.w)).index) = i by omega]
  intro x hx y hy s hs ha d hd
  obtain ⟨k, hk, rfl⟩ := List.mem_map.1 hs
  have hk : k < (f.cells (x + y * F.w)).count := List.mem_range.1 hk
  have hat : c.At x y ((f.cells (x + y * F.w)).index + k) := ⟨hx, hy, Nat.le_add_right _ _, Nat.add_lt_add_left hk _⟩
  obtain ⟨path, p0, p1⟩ := line_kept w1 h2 (w1.lt _ _ _ hat) ha hd
  -- the cells along the path
  have cells : ∀ m ≤ radius, ∃ q : Nat × Nat, c.At q.1 q.2 (path m) := by
    intro m hm
    cases m with
    | zero => exact ⟨(x, y), by rw [p0]; exact hat⟩
    | succ m =>
      obtain ⟨_, _, nx, ny, -, h, -⟩ := p1 m (by omega)
      exact ⟨(nx, ny), h⟩
  choose! q hq using cells
  have q0 : q 0 = (x, y) := by
    have h0 := hq 0 (by omega)
    rw [p0] at h0
    obtain ⟨a, b⟩ := w1.unique _ _ _ _ _ h0 hat
    exact Prod.ext a b
  refine ⟨fun m => ((q m).1, (q m).2, seen (path m)), ?_, fun m hm => ?_⟩
  · simp only [q0, p0]
    rfl
  obtain ⟨ax, ay, nx, ny, a1, a2, a3, a4, a5, a6⟩ := p1 m hm
  obtain ⟨rfl, rfl⟩ := w1.unique _ _ _ _ _ a1 (hq m (by omega))
  obtain ⟨rfl, rfl⟩ := w1.unique _ _ _ _ _ a2 (hq (m + 1) (by omega))
  have g1 := view_get _ _ _ a2
  refine ⟨a2.1, a2.2.1, List.mem_of_getElem? g1, ?_⟩
  have := hcon _ a1.1 _ a1.2.1 (path m) a1.2.2 d hd
  rcases this with ⟨e, -⟩ | ⟨i, ⟨bx, by_, b1, b2, b3, b4, rfl⟩, n, hn, hnc, hv, hst, -⟩
  · exact absurd e a5
  have ex : bx = (q (m + 1)).1 := by omega
  have ey : by_ = (q (m + 1)).2 := by omega
  subst ex ey
  have hto : (BitVec.ofNat 32 n).toNat = n := by simp only [BitVec.toNat_ofNat]; omega
  have a6' : path (m + 1) = (f.cells ((q (m + 1)).1 + (q (m + 1)).2 * F.w)).index + n := by
    rw [a6]
    show _ + (getCon (con (path m)) d).toNat = _
    rw [hv, hto]
    rfl
  refine ⟨⟨a3, a4, n, by omega, ?_, ?_⟩, ?_⟩
  · show ([0, 1, 2, 3].map (getCon (con (path m))))[d]? = _
    rw [← hv]
    have : d = 0 ∨ d = 1 ∨ d = 2 ∨ d = 3 := by omega
    rcases this with rfl | rfl | rfl | rfl <;> rfl
  · rw [← g1]
    congr 1
    omega
  · have hst' : StepOk height climb (f.spans (path m)) (f.spans (path (m + 1))) := by rw [a6']; exact hst
    exact stepOk_pass hst'

/-- **C161** (partial). The same from the triangles on: around a span that is walkable in the end, an agent of the radius finds room in
each of the four directions, and over each cell on the way nothing of the input is in the way up to its height. Missing as above. -/
theorem mesh_corridor_partial {g : Grid K} (hg : g.Ok) (verts : List (V3 K)) (tris : List (Nat × Nat × Nat)) (areas : List Nat) (thr : Int)
    (hidx : ∀ t ∈ tris, t.1 < verts.length ∧ t.2.1 < verts.length ∧ t.2.2 < verts.length) (hlen : tris.length ≤ areas.length)
    (height climb : Int) (radius : Nat) (h2 : radius ≤ 127) :
    ∃ ops v, rasterizeTriangles g verts tris areas thr = some ops ∧ tileGround height climb radius (fieldOf g ops) = some v ∧
      ((∀ i, (columnOf i ops).length ≤ 255) → ∀ x < g.w, ∀ y < g.h, ∀ s ∈ v x y, s.area ≠ 0 → ∀ d < 4,
        ∃ path : Nat → Nat × Nat × GSpan, path 0 = (x, y, s) ∧
          (∀ m ≤ radius, (path m).1 < g.w ∧ (path m).2.1 < g.h ∧ FreeAbove g verts tris areas (path m).1 (path m).2.1 (path m).2.2.y height) ∧
          ∀ m < radius, GNext v d (path m) (path (m + 1)) ∧ CanPass height climb (path m).2.2 (path (m + 1)).2.2) := by
  obtain ⟨ops, v, e1, e2, h⟩ := ground_headroom hg verts tris areas thr hidx hlen height climb radius
  refine ⟨ops, v, e1, e2, fun hc x hx y hy s hs ha d hd => ?_⟩
  obtain ⟨v', e3, h'⟩ := ground_corridor_partial height climb radius h2 (fieldOf g ops) hc
  rw [e2] at e3
  cases e3
  obtain ⟨path, p0, p1⟩ := h' x hx y hy s hs ha d hd
  refine ⟨path, p0, fun m hm => ?_, fun m hm => (p1 m hm).2.2.2⟩
  cases m with
  | zero =>
    rw [p0]
    exact ⟨hx, hy, (h x hx y hy s hs).1⟩
  | succ m =>
    obtain ⟨q1, q2, q3, -⟩ := p1 m (by omega)
    exact ⟨q1, q2, (h _ q1 _ q2 _ q3).1⟩

/-! ## Cases -/

/-- A room of 4 by 3 cells. -/
def roomGrid : Grid ℚ := ⟨⟨0, 0, 0⟩, ⟨4, 12, 3⟩, 1, 1, 4, 3⟩

/-- A floor and, two voxels above it, a shelf over the cell `(2, 1)`. -/
def roomVerts : List (V3 ℚ) := [⟨0, 1 / 2, 0⟩, ⟨16, 1 / 2, 0⟩, ⟨0, 1 / 2, 16⟩, ⟨9 / 4, 5 / 2, 5 / 4⟩, ⟨11 / 4, 5 / 2, 5 / 4⟩, ⟨11 / 4, 5 / 2, 7 / 4⟩]

/-- There is ground in the room, but not under the shelf; the hypotheses of `ground_headroom` hold. -/
example : roomGrid.Ok ∧ (∀ t ∈ [(0, 1, 2), (3, 4, 5)], t.1 < roomVerts.length ∧ t.2.1 < roomVerts.length ∧ t.2.2 < roomVerts.length) ∧
    ((rasterizeTriangles roomGrid roomVerts [(0, 1, 2), (3, 4, 5)] [63, 0] 1).bind fun ops =>
      (tileGround 3 1 0 (fieldOf roomGrid ops)).map fun v => ((v 1 1).map GSpan.y, (v 2 1).map GSpan.y)) = some ([1], []) :=
  ⟨⟨by decide +kernel, by decide +kernel, by decide, by decide, by decide +kernel, by decide +kernel⟩, by decide, by decide +kernel⟩

/-- On a plain of 5 by 5 cells one cell stays walkable with a radius of 1, and it has a step to go to the west. -/
example : ∃ v, tileGround 2 1 1 (plain 5) = some v ∧ v 2 2 = [⟨1, 255, 63, [0, 0, 0, 0]⟩] ∧ ∃ path : Nat → Nat × Nat × GSpan,
    path 0 = (2, 2, ⟨1, 255, 63, [0, 0, 0, 0]⟩) ∧ GNext v 0 (path 0) (path 1) ∧ CanPass 2 1 (path 0).2.2 (path 1).2.2 := by
  obtain ⟨v, e, h⟩ := ground_corridor_partial 2 1 1 (by decide) (plain 5) (fun i => by simp [plain])
  have e' : (tileGround 2 1 1 (plain 5)).map (fun v => v 2 2) = some [⟨1, 255, 63, [0, 0, 0, 0]⟩] := by decide +kernel
  rw [e] at e'
  have e' : v 2 2 = [⟨1, 255, 63, [0, 0, 0, 0]⟩] := by simpa using e'
  obtain ⟨path, p0, p1⟩ := h 2 (by decide) 2 (by decide) ⟨1, 255, 63, [0, 0, 0, 0]⟩ (by rw [e']; simp) (by decide) 0 (by decide)
  exact ⟨v, e, e', path, p0, (p1 0 (by decide)).2.2.2⟩

/-- **C161** (refuted in full). With a radius of 128 cells nothing is eroded: the only span of the ground is walkable, and there is
no step to go. -/
theorem ground_corridor_refuted : ∃ v, tileGround 2 1 128 (plain 3) = some v ∧ ∃ s ∈ v 1 1, s.area ≠ 0 ∧ ∀ d < 4, ∀ b, ¬ GNext v d (1, 1, s) b := by
  have e : (tileGround 2 1 128 (plain 3)).map (fun v => v 1 1) = some [⟨1, 255, 63, [63, 63, 63, 63]⟩] := by decide +kernel
  rw [Option.map_eq_some_iff] at e
  obtain ⟨v, e1, e2⟩ := e
  refine ⟨v, e1, _, by rw [e2]; exact List.mem_singleton.2 rfl, by decide, ?_⟩
  rintro d hd b ⟨-, -, k, hk, h, -⟩
  have h63 : (63#32 : U32) = BitVec.ofNat 32 k := by
    have : d = 0 ∨ d = 1 ∨ d = 2 ∨ d = 3 := by omega
    rcases this with rfl | rfl | rfl | rfl <;> simpa using h
  have := congrArg BitVec.toNat h63
  simp only [BitVec.toNat_ofNat] at this
  omega

end Verif.Recast
