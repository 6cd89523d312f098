/-
From the triangles of the input to the walkable ground: where an area comes from. The area of walkable ground is that of a triangle of
the input in the same cell, not above the ground; so there is walkable ground only where a triangle is not too steep
(sample/solomesh/builder.go:128-212, sample/tilemesh/builder.go:268-340).
-/
import Verif.Recast.Headroom
import Verif.Recast.Inputs

namespace Verif.Recast
open Verif Verif.Detour

variable {K : Type} [_root_.Field K] [LinearOrder K] [IsStrictOrderedRing K] [FloorRing K]

/-! ## Specification -/

/-- In the cell, the triangle has a point that is not above the floor (up to the size of a voxel). -/
def TriUnder (g : Grid K) (v0 v1 v2 : V3 K) (x y floor : Nat) : Prop :=
  ∃ p, InTri v0 v1 v2 p ∧ g.Near x y p ∧ g.level p < floor + 1

/-! ## Columns -/

/-- The area of a span is that of one of the spans added to the cell, whose top is not higher. -/
theorem columnOf_area (i : Nat) (ops : List AddOp) : ∀ s ∈ columnOf i ops,
    ∃ op ∈ ops, op.cell = i ∧ op.span.area = s.area ∧ op.span.smax ≤ s.smax := by
  have key : ∀ (todo : List AddOp) (l : List SpanV), (∀ op ∈ todo, op ∈ ops ∧ op.cell = i) →
      (∀ s ∈ l, ∃ op ∈ ops, op.cell = i ∧ op.span.area = s.area ∧ op.span.smax ≤ s.smax) →
      ∀ s ∈ todo.foldl (fun l op => insertSpan op.thr l op.span) l,
        ∃ op ∈ ops, op.cell = i ∧ op.span.area = s.area ∧ op.span.smax ≤ s.smax := by
    intro todo
    induction todo with
    | nil => intro l _ h; exact h
    | cons op todo ih =>
      intro l ht hl
      rw [List.foldl_cons]
      refine ih _ (fun o ho => ht o (List.mem_cons_of_mem _ ho)) fun s hs => ?_
      obtain ⟨pre, x, post, ab, e, hp, -, hx, -, har, hab⟩ := insert_area op.thr l op.span
      have hsub : ∀ c, c ∈ pre ++ ab ++ post → c ∈ l := fun c hc => hp.mem_iff.2 hc
      rw [e] at hs
      rcases List.mem_append.1 hs with hs | hs
      · exact hl s (hsub s (by simp [hs]))
      · rcases List.mem_cons.1 hs with rfl | hs
        · rcases har with har | ⟨c, hc, e1, -⟩
          · obtain ⟨q1, q2⟩ := ht op List.mem_cons_self
            exact ⟨op, q1, q2, har.symm, hx⟩
          · obtain ⟨o, q1, q2, q3, q4⟩ := hl c (hsub c (by simp [hc]))
            have := (hab c hc).2.1
            exact ⟨o, q1, q2, q3.trans e1, by omega⟩
        · exact hl s (hsub s (by simp [hs]))
  refine key _ [] (fun op ho => ?_) (by simp)
  rw [List.mem_filter] at ho
  exact ⟨ho.1, by simpa using ho.2⟩

theorem ledgeCol_mem (height climb : Int) (w h : Nat) (col : Nat → List SpanV) (x y : Nat) (l : List SpanV) :
    ∀ s ∈ ledgeCol height climb w h col x y l, s.area ≠ 0 → s ∈ l := by
  induction l with
  | nil => intro s hs; cases hs
  | cons a l ih =>
    intro s hs ha
    rw [ledgeCol] at hs
    rcases List.mem_cons.1 hs with e | hs
    · rw [e]
      split at e
      · rw [if_pos ‹_›]
        exact List.mem_cons_self
      · rw [if_neg ‹_›]
        split at e
        · rw [e] at ha
          exact absurd rfl ha
        · rw [if_neg ‹_›]
          exact List.mem_cons_self
    · exact List.mem_cons_of_mem _ (ih s hs ha)

theorem lowHeightCol_mem (height : Int) (l : List SpanV) : ∀ s ∈ lowHeightCol height l, s.area ≠ 0 → s ∈ l := by
  induction l with
  | nil => intro s hs; cases hs
  | cons a l ih =>
    intro s hs ha
    rw [lowHeightCol] at hs
    rcases List.mem_cons.1 hs with rfl | hs
    · split at ha
      · exact absurd rfl ha
      · rename_i hc
        rw [if_neg hc]
        exact List.mem_cons_self
    · exact List.mem_cons_of_mem _ (ih s hs ha)

theorem lowHangingCol_mem (climb : Int) (l : List SpanV) : ∀ (pw : Bool) (pa pm : Nat), (∀ s ∈ l, pm ≤ s.smax) →
    l.Pairwise (fun a b => a.smax ≤ b.smax) → ∀ s ∈ lowHangingCol climb pw pa pm l, s.area ≠ 0 →
    (∃ t ∈ l, t.area = s.area ∧ t.smax ≤ s.smax ∧ (t.smax = s.smax ∨ (s.smax : Int) ≤ t.smax + climb)) ∨
      pw = true ∧ s.area = pa ∧ pm ≤ s.smax ∧ (s.smax : Int) ≤ pm + climb := by
  induction l with
  | nil => intro pw pa pm _ _ s hs; cases hs
  | cons a l ih =>
    intro pw pa pm hpm hpw s hs ha
    rw [List.pairwise_cons] at hpw
    rw [lowHangingCol] at hs
    have ham := hpm a List.mem_cons_self
    rcases List.mem_cons.1 hs with rfl | hs
    · split
      · rename_i hc
        split
        · rename_i hd
          right
          simp only [Bool.and_eq_true] at hc
          exact ⟨hc.2, rfl, ham, by show (a.smax : Int) ≤ _; omega⟩
        · exact Or.inl ⟨a, List.mem_cons_self, rfl, le_refl _, Or.inl rfl⟩
      · exact Or.inl ⟨a, List.mem_cons_self, rfl, le_refl _, Or.inl rfl⟩
    · left
      rcases ih _ _ _ hpw.1 hpw.2 s hs ha with ⟨t, ht, h⟩ | ⟨hw, he, h1, h2⟩
      · exact ⟨t, List.mem_cons_of_mem _ ht, h⟩
      · refine ⟨a, List.mem_cons_self, ?_, h1, Or.inr h2⟩
        rw [hw] at he
        simpa using he.symm

/-- What the filters leave walkable has the area of a span of the column that is as high, or at most the climb height lower. -/
theorem filters_area (height climb : Int) (F : Field) (i : Nat) (hF : Canon (F.col i)) {s : SpanV}
    (hs : s ∈ (tileFilters height climb F).col i) (ha : s.area ≠ 0) :
    ∃ t ∈ F.col i, t.area = s.area ∧ t.smax ≤ s.smax ∧ (t.smax = s.smax ∨ (s.smax : Int) ≤ t.smax + climb) := by
  have h1 : s ∈ (filterLedge height climb (filterLowHanging climb F)).col i := by
    rw [tileFilters, filterLowHeight_col] at hs
    split at hs
    · exact lowHeightCol_mem height _ s hs ha
    · exact hs
  have h2 : s ∈ (filterLowHanging climb F).col i := by
    rw [filterLedge_col] at h1
    split at h1
    · exact ledgeCol_mem _ _ _ _ _ _ _ _ s h1 ha
    · exact h1
  rw [filterLowHanging_col] at h2
  split at h2
  · have hp : (F.col i).Pairwise (fun a b => a.smax ≤ b.smax) := by
      refine List.pairwise_iff_getElem.2 fun a b ha' hb hlt => ?_
      have := List.pairwise_iff_getElem.1 hF.1 a b ha' hb hlt
      have : (F.col i)[b].smin ≤ (F.col i)[b].smax := hF.2 _ (List.getElem_mem hb)
      omega
    rcases lowHangingCol_mem climb _ _ _ _ (fun _ _ => Nat.zero_le _) hp s h2 ha with h | ⟨h, -⟩
    · exact h
    · exact absurd h (by decide)
  · exact ⟨s, h2, rfl, le_refl _, Or.inl rfl⟩

/-! ## The ground -/

theorem open_area {l : List SpanV} : ∀ e ∈ openSpans l, ∃ s ∈ l, s.area = e.area ∧ e.area ≠ 0 ∧ e.y = min s.smax 65535 := by
  induction l with
  | nil => intro e h; cases h
  | cons a l ih =>
    intro e h
    rw [openSpans] at h
    split at h
    · obtain ⟨s, h1, h2⟩ := ih e h
      exact ⟨s, List.mem_cons_of_mem _ h1, h2⟩
    · rename_i ha
      rcases List.mem_cons.1 h with rfl | h
      · exact ⟨a, List.mem_cons_self, rfl, ha, rfl⟩
      · obtain ⟨s, h1, h2⟩ := ih e h
        exact ⟨s, List.mem_cons_of_mem _ h1, h2⟩

/-- Walkable ground has the area of an open span of its cell. -/
theorem view_area {height climb : Int} {radius : Nat} {F : Field} {v : Nat → Nat → List GSpan}
    (hv : tileGround height climb radius F = some v) {x y : Nat} (hx : x < F.w) (hy : y < F.h) {s : GSpan} (hs : s ∈ v x y)
    (ha : s.area ≠ 0) :
    ∃ e ∈ openSpans ((tileFilters height climb F).col (x + y * F.w)), e.y = s.y ∧ e.area = s.area := by
  obtain ⟨f, h1, h2⟩ := fillField_spec (tileFilters height climb F)
  rw [tileGround, buildCompact, h1] at hv
  cases hv
  have hi : x + y * F.w < (tileFilters height climb F).w * (tileFilters height climb F).h := cell_lt (w := F.w) (h := F.h) hx hy
  obtain ⟨-, hc⟩ := cell_spans h2 hi
  obtain ⟨k, hk, rfl⟩ := List.mem_map.1 hs
  have hk : k < (f.cells (x + y * F.w)).count := List.mem_range.1 hk
  refine ⟨_, List.mem_of_getElem? (hc k hk), rfl, ?_⟩
  rcases erode_only_clears_partial radius (mkChf (tileFilters height climb F) f _) ((f.cells (x + y * F.w)).index + k) with h | h
  · exact h.symm
  · exact absurd h ha

/-- **C162.** Whatever the input: where the ground is walkable, a triangle of the input has the area of the ground and a point in the
same cell that is not above the ground. -/
theorem ground_area {g : Grid K} (hg : g.Ok) (verts : List (V3 K)) (tris : List (Nat × Nat × Nat)) (areas : List Nat) (thr : Int)
    (hidx : ∀ t ∈ tris, t.1 < verts.length ∧ t.2.1 < verts.length ∧ t.2.2 < verts.length) (hlen : tris.length ≤ areas.length)
    (height climb : Int) (radius : Nat) :
    ∃ ops v, rasterizeTriangles g verts tris areas thr = some ops ∧ tileGround height climb radius (fieldOf g ops) = some v ∧
      ∀ x < g.w, ∀ y < g.h, ∀ s ∈ v x y, s.area ≠ 0 →
        ∃ i v0 v1 v2, TriAt verts tris areas i v0 v1 v2 s.area ∧ TriUnder g v0 v1 v2 x y s.y := by
  obtain ⟨ops, hops, hspan, -⟩ := rasterTris_spec hg verts areas thr tris 0 hidx (by omega)
  have hval : ∀ op ∈ ops, op.span.Valid := by
    intro op hop
    obtain ⟨_, _, _, _, _, _, x, y, _, _, _, _, _, hv, _⟩ := hspan op hop
    exact hv
  obtain ⟨v, hv⟩ := tileGround_some height climb radius (fieldOf g ops)
  refine ⟨ops, v, hops, hv, fun x hx y hy s hs hsa => ?_⟩
  obtain ⟨e, he, e1, e2⟩ := view_area hv hx hy hs hsa
  obtain ⟨u, hu, u1, u2, u3⟩ := open_area e he
  obtain ⟨t, ht, t1, t2, -⟩ := filters_area height climb (fieldOf g ops) (x + y * g.w) (columnOf_solid ops hval _).1 hu (u1 ▸ u2)
  obtain ⟨op, ho, hcell, o1, o2⟩ := columnOf_area (x + y * g.w) ops t ht
  obtain ⟨n, v0, v1, v2, area, ⟨a, b, c, r0, r1, r2, r3, r4⟩, x', y', hx', hy', hc', har, -, -, h16, ⟨p, p1, p2, p3⟩, -⟩ := hspan op ho
  obtain ⟨rfl, rfl⟩ : x = x' ∧ y = y' := cell_inj hx hx' (hcell.symm.trans hc')
  have hv' : op.span.smin ≤ op.span.smax := hval op ho
  have hle : op.span.smin ≤ s.y := by omega
  have ea : area = s.area := by omega
  subst ea
  refine ⟨n, v0, v1, v2, ⟨a, b, c, r0, r1, r2, r3, by rw [Nat.zero_add] at r4; exact r4⟩, p, p1, p2, lt_of_lt_of_le p3 ?_⟩
  have : (op.span.smin : K) ≤ s.y := Nat.cast_le.2 hle
  linarith

/-- **C162.** With the areas of `MarkWalkableTriangles`, which start out cleared: where the ground is walkable, a triangle of the input
that is not too steep has a point in the same cell that is not above the ground. -/
theorem ground_slope {g : Grid K} (hg : g.Ok) (nrm : V3 K → V3 K → V3 K → Option K) (limit : K) (verts : List (V3 K))
    (tris : List (Nat × Nat × Nat)) (thr : Int)
    (hidx : ∀ t ∈ tris, t.1 < verts.length ∧ t.2.1 < verts.length ∧ t.2.2 < verts.length) (height climb : Int) (radius : Nat) :
    ∃ areas ops v, markWalkable nrm limit verts tris tris.length (List.replicate tris.length 0) = some areas ∧
      rasterizeTriangles g verts tris areas thr = some ops ∧ tileGround height climb radius (fieldOf g ops) = some v ∧
      ∀ x < g.w, ∀ y < g.h, ∀ s ∈ v x y, s.area ≠ 0 → s.area = 63 ∧
        ∃ t ∈ tris, ∃ v0 v1 v2 n, verts[t.1]? = some v0 ∧ verts[t.2.1]? = some v1 ∧ verts[t.2.2]? = some v2 ∧
          nrm v0 v1 v2 = some n ∧ limit < n ∧ TriUnder g v0 v1 v2 x y s.y := by
  have ok : TrisOk verts tris tris.length (List.replicate tris.length 0) := ⟨le_refl _, by simp, hidx⟩
  obtain ⟨areas, m0, m1, -, m3, m4, m5⟩ := markWalkable_effect nrm limit verts tris tris.length _ ok
  rw [List.length_replicate] at m1
  obtain ⟨ops, v, h1, h2, h3⟩ := ground_area hg verts tris areas thr hidx (by omega) height climb radius
  refine ⟨areas, ops, v, m0, h1, h2, fun x hx y hy s hs ha => ?_⟩
  obtain ⟨i, v0, v1, v2, ⟨a, b, c, r0, r1, r2, r3, r4⟩, hu⟩ := h3 x hx y hy s hs ha
  have hi : i < tris.length := (List.getElem?_eq_some_iff.1 r0).1
  have h0 : (List.replicate tris.length 0)[i]? = some 0 := by simp [hi]
  have hn : NormalUp nrm verts tris i (nrm v0 v1 v2) := ⟨(a, b, c), v0, v1, v2, r0, r1, r2, r3, rfl⟩
  cases e : nrm v0 v1 v2 with
  | none =>
    rw [e] at hn
    rw [m5 i hi hn, h0, Option.some.injEq] at r4
    exact absurd r4.symm ha
  | some n =>
    rw [e] at hn
    rcases lt_or_ge limit n with h | h
    · rw [m3 i n hi hn h, Option.some.injEq] at r4
      exact ⟨r4.symm, (a, b, c), List.mem_of_getElem? r0, v0, v1, v2, n, r1, r2, r3, e, h, hu⟩
    · rw [m4 i n hi hn h, h0, Option.some.injEq] at r4
      exact absurd r4.symm ha

/-! ## Cases -/

/-- A floor that may be walked on and, a voxel above it, a steep slab that may not: the slab is low enough to be walked over with the
area of the floor, and the hypotheses of `ground_area` hold. -/
example : roomGrid.Ok ∧ (∀ t ∈ [(0, 1, 2), (3, 4, 5)], t.1 < roomVerts.length ∧ t.2.1 < roomVerts.length ∧ t.2.2 < roomVerts.length) ∧
    ((rasterizeTriangles roomGrid roomVerts [(0, 1, 2), (3, 4, 5)] [7, 0] 1).bind fun ops =>
      (tileGround 3 2 0 (fieldOf roomGrid ops)).map fun v => ((v 1 1).map fun s => (s.y, s.area), (v 2 1).map fun s => (s.y, s.area))) =
      some ([(1, 7)], [(3, 7)]) :=
  ⟨⟨by decide +kernel, by decide +kernel, by decide, by decide, by decide +kernel, by decide +kernel⟩, by decide, by decide +kernel⟩

/-- With a normal that is known for the floor only, the floor is walkable and its area is 63. -/
example : ((markWalkable (fun a _ _ => if a.x = 0 then some 1 else none) (1 / 2 : ℚ) roomVerts [(0, 1, 2), (3, 4, 5)] 2 [0, 0]).bind fun areas =>
    (rasterizeTriangles roomGrid roomVerts [(0, 1, 2), (3, 4, 5)] areas 1).bind fun ops =>
      (tileGround 3 2 0 (fieldOf roomGrid ops)).map fun v => ((v 1 1).map fun s => (s.y, s.area), (v 2 1).map fun s => (s.y, s.area))) =
      some ([(1, 63)], [(3, 63)]) := by decide +kernel

end Verif.Recast
