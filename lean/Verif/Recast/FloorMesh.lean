/-
From the triangles of the input to the walkable ground: a floor in the open stays walkable. This joins rasterisation with `OpenFloor`
(sample/solomesh/builder.go:128-175, sample/tilemesh/builder.go:268-340).
-/
import Verif.Recast.OpenFloor

namespace Verif.Recast
open Verif Verif.Detour

variable {K : Type} [_root_.Field K] [LinearOrder K] [IsStrictOrderedRing K] [FloorRing K]

/-! ## Specification -/

/-- Near the cell, all points of the triangle satisfy `P`. -/
def NearAll (g : Grid K) (v0 v1 v2 : V3 K) (x y : Nat) (P : K → Prop) : Prop := ∀ p, InTri v0 v1 v2 p → g.Near x y p → P (g.level p)

/-- Up to `r` cells around `(x, y)` the input is an open floor: at each cell, every triangle is part of the floor, between `lo` and `hi`
voxels and walkable, or more than one voxel below it, or above the room an agent needs; and some triangle of the floor is over the
cell. -/
structure OpenInput (g : Grid K) (verts : List (V3 K)) (tris : List (Nat × Nat × Nat)) (areas : List Nat) (height climb : Int) (lo hi : Nat)
    (r x y : Nat) : Prop where
  left : r ≤ x
  right : x + r < g.w
  low : r ≤ y
  high : y + r < g.h
  layers : ∀ a b, Within r x y a b → ∀ i v0 v1 v2 area, TriAt verts tris areas i v0 v1 v2 area →
    area ≠ 0 ∧ NearAll g v0 v1 v2 a b (fun l => lo ≤ l ∧ l ≤ hi) ∨ NearAll g v0 v1 v2 a b (fun l => l + 1 < lo) ∨
    NearAll g v0 v1 v2 a b (fun l => ((hi + height + climb + 2 : Int) : K) ≤ l)
  covered : ∀ a b, Within r x y a b → ∃ i v0 v1 v2 area p, TriAt verts tris areas i v0 v1 v2 area ∧ InTri v0 v1 v2 p ∧ g.Over a b p ∧
    g.InBox p ∧ lo ≤ g.level p ∧ g.level p ≤ hi

/-! ## Layers of a column -/

/-- A span of the floor. -/
def FloorLayer (lo hi : Nat) (s : SpanV) : Prop := lo ≤ s.smin ∧ s.smin < s.smax ∧ s.smax ≤ hi + 1 ∧ s.area ≠ 0

/-- A span below the floor, of the floor, or above it. -/
def Layered (lo hi : Nat) (top : Int) (s : SpanV) : Prop := s.Valid ∧ (s.smax < lo ∨ FloorLayer lo hi s ∨ top ≤ s.smin)

theorem insert_layered {lo hi : Nat} {top : Int} (ht : (hi : Int) + 1 < top) (hlo : lo ≤ hi) (thr : Int) (l : List SpanV) :
    ∀ s, Layered lo hi top s → (∀ t ∈ l, Layered lo hi top t) → ∀ t ∈ insertSpan thr l s, Layered lo hi top t := by
  induction l with
  | nil =>
    intro s hs _ t h
    rw [insertSpan, List.mem_singleton] at h
    rw [h]; exact hs
  | cons c l ih =>
    intro s hs hl t h
    have hc := hl c List.mem_cons_self
    have hl' : ∀ t ∈ l, Layered lo hi top t := fun t ht => hl t (List.mem_cons_of_mem _ ht)
    rw [insertSpan] at h
    split at h
    · rcases List.mem_cons.1 h with rfl | h
      · exact hs
      · exact hl t h
    · split at h
      · rcases List.mem_cons.1 h with rfl | h
        · exact hc
        · exact ih s hs hl' t h
      · refine ih (s.merge thr c) ?_ hl' t h
        have m1 := merge_smin thr s c
        have m2 := merge_smax thr s c
        have m3 := merge_area_ge thr s c
        obtain ⟨v1, h1⟩ := hs
        obtain ⟨v2, h2⟩ := hc
        unfold SpanV.Valid at *
        unfold Layered FloorLayer SpanV.Valid
        unfold FloorLayer at h1 h2
        rw [m1, m2]
        refine ⟨by omega, ?_⟩
        rcases h1 with h1 | h1 | h1 <;> rcases h2 with h2 | h2 | h2
        · left; omega
        · omega
        · omega
        · omega
        · right; left; omega
        · omega
        · omega
        · omega
        · right; right; omega

theorem columnOf_layered {lo hi : Nat} {top : Int} (ht : (hi : Int) + 1 < top) (hlo : lo ≤ hi) (i : Nat) (ops : List AddOp)
    (h : ∀ op ∈ ops, op.cell = i → Layered lo hi top op.span) : ∀ s ∈ columnOf i ops, Layered lo hi top s := by
  have key : ∀ (todo : List AddOp) (l : List SpanV), (∀ op ∈ todo, Layered lo hi top op.span) → (∀ s ∈ l, Layered lo hi top s) →
      ∀ s ∈ todo.foldl (fun l op => insertSpan op.thr l op.span) l, Layered lo hi top s := by
    intro todo
    induction todo with
    | nil => intro l _ h; exact h
    | cons op todo ih =>
      intro l h1 h2
      exact ih _ (fun o ho => h1 o (List.mem_cons_of_mem _ ho)) (insert_layered ht hlo op.thr l op.span (h1 op List.mem_cons_self) h2)
  refine key _ [] (fun op ho => ?_) (by simp)
  rw [List.mem_filter] at ho
  exact h op ho.1 (by simpa using ho.2)

/-- The last element with a property. -/
theorem exists_last {α : Type} (P : α → Prop) (l : List α) : (∃ s ∈ l, P s) →
    ∃ (k : Nat) (s : α), l[k]? = some s ∧ P s ∧ ∀ (j : Nat) (t : α), k < j → l[j]? = some t → ¬ P t := by
  classical
  induction l with
  | nil => rintro ⟨s, h, -⟩; cases h
  | cons a l ih =>
    rintro ⟨s, hs, hp⟩
    by_cases h : ∃ s ∈ l, P s
    · obtain ⟨k, t, h1, h2, h3⟩ := ih h
      refine ⟨k + 1, t, h1, h2, fun j u hj hu => ?_⟩
      cases j with
      | zero => omega
      | succ j => exact h3 j u (by omega) hu
    · rcases List.mem_cons.1 hs with rfl | hs
      · refine ⟨0, s, rfl, hp, fun j u hj hu hP => ?_⟩
        cases j with
        | zero => omega
        | succ j => exact h ⟨u, List.mem_of_getElem? hu, hP⟩
      · exact absurd ⟨s, hs, hp⟩ h

/-! ## The ground -/

/-- **C166** (partial). From the triangles on: if the input is an open floor up to `radius + 1` cells around a cell, the ground is walkable
there, at the height of the floor. The rest of the input does not matter. Missing as for C163: grids of more than 127 rows and columns,
agents of more than 255 voxels or that can climb their own height, and columns of more than 63 spans. -/
theorem floor_walkable_partial {g : Grid K} (hg : g.Ok) (verts : List (V3 K)) (tris : List (Nat × Nat × Nat)) (areas : List Nat) (thr : Int)
    (hidx : ∀ t ∈ tris, t.1 < verts.length ∧ t.2.1 < verts.length ∧ t.2.2 < verts.length) (hlen : tris.length ≤ areas.length)
    (hsz : g.w ≤ 127 ∨ g.h ≤ 127) (height climb : Int) (h0 : 0 ≤ climb) (h1 : climb < height) (h2 : height + climb ≤ 255)
    (radius : Nat) (hrad : radius ≤ 127) (lo hi : Nat) (hlo : lo ≤ hi) (hhi : (hi : Int) ≤ lo + climb) (htop : (hi : Int) + 1 + height + climb < 65535)
    (x y : Nat) (h : OpenInput g verts tris areas height climb lo hi (radius + 1) x y) :
    ∃ ops v, rasterizeTriangles g verts tris areas thr = some ops ∧ tileGround height climb radius (fieldOf g ops) = some v ∧
      ((∀ i, (columnOf i ops).length ≤ 63) → ∃ e ∈ v x y, lo < e.y ∧ e.y ≤ hi + 1 ∧ e.area ≠ 0) := by
  obtain ⟨ops, hops, hspan, hcov⟩ := rasterTris_spec hg verts areas thr tris 0 hidx (by omega)
  have hval : ∀ op ∈ ops, op.span.Valid := by
    intro op hop
    obtain ⟨_, _, _, _, _, _, x, y, _, _, _, _, _, hv, _⟩ := hspan op hop
    exact hv
  obtain ⟨v, hv⟩ := tileGround_some height climb radius (fieldOf g ops)
  refine ⟨ops, v, hops, hv, fun hcol => ?_⟩
  have hgood : ∀ i, GoodColumn (columnOf i ops) := by
    intro i
    refine ⟨(columnOf_solid ops hval i).1, fun s hs => ?_, hcol i⟩
    obtain ⟨op, ho, -, e⟩ := columnOf_top ops hval hs
    obtain ⟨_, _, _, _, _, _, _, _, _, _, _, _, _, _, h16, _⟩ := hspan op ho
    omega
  -- the spans added to the cells around
  have hops' : ∀ a b, Within (radius + 1) x y a b → ∀ op ∈ ops, op.cell = a + b * g.w →
      Layered lo hi ((hi : Int) + height + climb + 2) op.span := by
    intro a b hab op ho hcell
    obtain ⟨n, v0, v1, v2, area, ⟨ta, tb, tc, r0, r1, r2, r3, r4⟩, a', b', ha', hb', hc', har, -, hvo, h16, ⟨pl, l1, l2, l3⟩, hhi', ⟨ph, u1, u2, u3⟩, hne⟩ := hspan op ho
    have hvo' : op.span.smin ≤ op.span.smax := hvo
    have hl := h.left
    have hr := h.right
    have ha : a < g.w := by unfold Within at hab; omega
    obtain ⟨rfl, rfl⟩ : a = a' ∧ b = b' := cell_inj ha ha' (hcell.symm.trans hc')
    rw [Nat.zero_add] at r4
    refine ⟨hvo, ?_⟩
    rcases h.layers a b hab n v0 v1 v2 area ⟨ta, tb, tc, r0, r1, r2, r3, r4⟩ with ⟨hA, hN⟩ | hN | hN
    · right; left
      have q1 : lo ≤ op.span.smin := by
        have : (lo : K) < ((op.span.smin + 1 : Nat) : K) := by push_cast; exact lt_of_le_of_lt (hN pl l1 l2).1 l3
        have := Nat.cast_lt.1 this
        omega
      have q2 : op.span.smin ≤ hi := Nat.cast_le.1 (le_trans (show (op.span.smin : K) ≤ g.level ph from u3) (hN ph u1 u2).2)
      have q3 : op.span.smin < op.span.smax := hne (by omega)
      have q4 : op.span.smax ≤ hi + 1 := by
        rcases hhi' with hh | ⟨-, q, s1, s2, s3⟩
        · omega
        · have : (op.span.smax : K) < ((hi + 1 : Nat) : K) := by
            push_cast
            have := (hN q s1 s2).2
            linarith [show (op.span.smax : K) < g.level q + 1 from s3]
          have := Nat.cast_lt.1 this
          omega
      exact ⟨q1, q3, q4, by rw [har]; exact hA⟩
    · left
      rcases hhi' with hh | ⟨-, q, s1, s2, s3⟩
      · have : ((op.span.smin + 1 : Nat) : K) < (lo : K) := by
          push_cast
          have := hN ph u1 u2
          linarith [show (op.span.smin : K) ≤ g.level ph from u3]
        have := Nat.cast_lt.1 this
        omega
      · exact Nat.cast_lt.1 (lt_trans (show (op.span.smax : K) < g.level q + 1 from s3) (hN q s1 s2))
    · right; right
      have : (((hi : Int) + height + climb + 2 : Int) : K) < (((op.span.smin : Int) + 1 : Int) : K) := by
        have q := hN pl l1 l2
        have l3' : g.level pl < (op.span.smin : K) + 1 := l3
        push_cast at q ⊢
        linarith
      have := Int.cast_lt.1 this
      omega
  have hlay : ∀ a b, Within (radius + 1) x y a b → ∀ s ∈ columnOf (a + b * g.w) ops, Layered lo hi ((hi : Int) + height + climb + 2) s :=
    fun a b hab => columnOf_layered (by omega) hlo _ ops (hops' a b hab)
  have hin : ∀ a b, Within (radius + 1) x y a b → a < g.w ∧ b < g.h := by
    intro a b hab
    have := h.right
    have := h.high
    unfold Within at hab
    omega
  -- the top of the floor in each cell
  have hex : ∀ a b, ∃ (k : Nat) (s : SpanV), Within (radius + 1) x y a b → (columnOf (a + b * g.w) ops)[k]? = some s ∧ FloorLayer lo hi s ∧
      ∀ (j : Nat) (t : SpanV), k < j → (columnOf (a + b * g.w) ops)[j]? = some t → ¬ FloorLayer lo hi t := by
    intro a b
    by_cases hab : Within (radius + 1) x y a b
    · obtain ⟨i, v0, v1, v2, area, p, ⟨ta, tb, tc, r0, r1, r2, r3, r4⟩, hp, hov, hbox, p1, p2⟩ := h.covered a b hab
      obtain ⟨ha, hb⟩ := hin a b hab
      obtain ⟨op, ho, -, hcell, hmin, hmax⟩ := hcov i v0 v1 v2 area ⟨ta, tb, tc, r0, r1, r2, r3, by rw [Nat.zero_add]; exact r4⟩ a b p ha hb hp hov hbox
      have hle : lo ≤ op.span.smax := Nat.cast_le.1 (p1.trans (show g.level p ≤ (op.span.smax : K) from hmax))
      have hge : op.span.smin ≤ hi := Nat.cast_le.1 (le_trans (show (op.span.smin : K) ≤ g.level p from hmin) p2)
      obtain ⟨s, hs, s1, s2⟩ := columnOf_within ops hval ho
      rw [hcell] at hs
      have hfl : FloorLayer lo hi s := by
        rcases (hlay a b hab s hs).2 with q | q | q
        · omega
        · exact q
        · omega
      obtain ⟨k, t, q⟩ := exists_last (FloorLayer lo hi) _ ⟨s, hs, hfl⟩
      exact ⟨k, t, fun _ => q⟩
    · exact ⟨0, ⟨0, 0, 0⟩, fun q => absurd q hab⟩
  choose k s hks using hex
  have hopen : OpenFloor (fieldOf g ops) height climb k s (radius + 1) x y := by
    refine ⟨h.left, h.right, h.low, h.high, fun a b hab => (hks a b hab).1, fun a b hab => (hks a b hab).2.1.2.2.2, fun a b hab => ?_,
      fun a b a' b' hab hab' _ => ?_⟩
    · obtain ⟨q1, q2, q3⟩ := hks a b hab
      show height + climb < clearance (columnOf (a + b * g.w) ops) (k a b) (s a b)
      unfold FloorLayer at q2
      rw [clearance]
      split
      · rename_i t ht
        have hc := (hgood (a + b * g.w)).1
        have hlt := canon_lt hc q1 ht (Nat.lt_succ_self _)
        have hvt := canon_valid hc ht
        rcases (hlay a b hab t (List.mem_of_getElem? ht)).2 with w | w | w
        · omega
        · exact absurd w (q3 _ t (Nat.lt_succ_self _) ht)
        · omega
      · omega
    · have q := (hks a b hab).2.1
      have q' := (hks a' b' hab').2.1
      unfold FloorLayer at q q'
      omega
  obtain ⟨v', e1, e, he, e2, e3⟩ := open_floor_partial (fieldOf g ops) hgood hsz height climb h0 h1 h2 radius hrad k s x y hopen
  rw [hv] at e1
  cases e1
  have q := (hks x y (by unfold Within; omega)).2.1
  unfold FloorLayer at q
  exact ⟨e, he, by omega, by omega, by rw [e3]; exact q.2.2.2⟩

/-! ## Cases -/

/-- A field of 5 by 5 cells. -/
def hallGrid : Grid ℚ := ⟨⟨0, 0, 0⟩, ⟨5, 20, 5⟩, 1, 1, 5, 5⟩

/-- A floor at half a voxel, a roof at 10 voxels. -/
def hallVerts : List (V3 ℚ) := [⟨0, 1 / 2, 0⟩, ⟨16, 1 / 2, 0⟩, ⟨0, 1 / 2, 16⟩, ⟨0, 10, 0⟩, ⟨16, 10, 0⟩, ⟨0, 10, 16⟩]

/-- All points of a triangle with corners at one height are at that height. -/
theorem level_flat {g : Grid ℚ} {v0 v1 v2 p : V3 ℚ} (hp : InTri v0 v1 v2 p) {y : ℚ} (h0 : v0.y = y) (h1 : v1.y = y) (h2 : v2.y = y) :
    g.level p = (y - g.bmin.y) / g.ch := by
  obtain ⟨a, b, c, -, -, -, hs, rfl⟩ := hp
  unfold Grid.level
  simp only [h0, h1, h2]
  congr 1
  linear_combination y * hs

/-- The hall is an open floor with a roof that cannot be walked on, for an agent of 3 voxels that can climb one. -/
theorem hall_open : OpenInput hallGrid hallVerts [(0, 1, 2), (3, 4, 5)] [63, 0] 3 1 0 1 2 2 2 := by
  refine ⟨by decide, by decide, by decide, by decide, fun a b _ i v0 v1 v2 area hi => ?_, fun a b hab => ?_⟩
  · obtain ⟨ta, tb, tc, r0, r1, r2, r3, r4⟩ := hi
    rcases i with _ | _ | i
    · cases r0; cases r1; cases r2; cases r3; cases r4
      left
      refine ⟨by decide, fun p hp _ => ?_⟩
      rw [level_flat hp (y := 1 / 2) rfl rfl rfl]
      norm_num [hallGrid]
    · cases r0; cases r1; cases r2; cases r3; cases r4
      right; right
      intro p hp _
      rw [level_flat hp (y := 10) rfl rfl rfl]
      norm_num [hallGrid]
    · simp at r0
  · unfold Within at hab
    have ha : (a : ℚ) ≤ 4 := by exact_mod_cast (by omega : a ≤ 4)
    have hb : (b : ℚ) ≤ 4 := by exact_mod_cast (by omega : b ≤ 4)
    have ha0 : (0 : ℚ) ≤ a := Nat.cast_nonneg a
    have hb0 : (0 : ℚ) ≤ b := Nat.cast_nonneg b
    refine ⟨0, _, _, _, _, ⟨a + 1 / 2, 1 / 2, b + 1 / 2⟩, ⟨0, 1, 2, rfl, rfl, rfl, rfl, rfl⟩,
      ⟨1 - (a + 1 / 2) / 16 - (b + 1 / 2) / 16, (a + 1 / 2) / 16, (b + 1 / 2) / 16, by linarith, by positivity, by positivity, by ring, ?_⟩, ?_, ?_, ?_, ?_⟩
    · ext <;> simp only <;> ring
    · simp only [Grid.Over, hallGrid]
      exact ⟨by linarith, by linarith, by linarith, by linarith⟩
    · simp only [Grid.InBox, hallGrid]
      exact ⟨by linarith, by linarith, by norm_num, by norm_num, by linarith, by linarith⟩
    · norm_num [Grid.level, hallGrid]
    · norm_num [Grid.level, hallGrid]

/-- So in the middle of the hall the ground is walkable. -/
example : ∃ ops v, rasterizeTriangles hallGrid hallVerts [(0, 1, 2), (3, 4, 5)] [63, 0] 1 = some ops ∧
    tileGround 3 1 1 (fieldOf hallGrid ops) = some v ∧ ∃ e ∈ v 2 2, 0 < e.y ∧ e.y ≤ 2 ∧ e.area ≠ 0 := by
  obtain ⟨ops, v, e1, e2, h⟩ := floor_walkable_partial (g := hallGrid)
    ⟨by decide +kernel, by decide +kernel, by decide, by decide, by decide +kernel, by decide +kernel⟩ hallVerts [(0, 1, 2), (3, 4, 5)] [63, 0] 1
    (by decide) (by decide) (Or.inl (by decide)) 3 1 (by decide) (by decide) (by decide) 1 (by decide) 0 1 (by decide) (by decide) (by decide) 2 2 hall_open
  refine ⟨ops, v, e1, e2, h fun i => ?_⟩
  have e : (rasterizeTriangles hallGrid hallVerts [(0, 1, 2), (3, 4, 5)] [63, 0] 1).map List.length = some 50 := by decide +kernel
  rw [e1, Option.map_some, Option.some.injEq] at e
  have := columnOf_length i ops
  omega

end Verif.Recast
