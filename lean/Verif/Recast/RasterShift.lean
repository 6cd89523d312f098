/-
Rasterisation into the overlapping heightfields of two tiles (recast/rasterization.go as
sample/tilemesh/builder.go:268-312 uses it): grids shifted by whole cells put the same spans into the columns
they share, apart from their first and last row and column.

Exact arithmetic, as in Recast/Rasterize.
-/
import Verif.Recast.Rasterize
import Verif.Recast.TileAgree

namespace Verif.Recast

set_option linter.unusedSectionVars false
set_option linter.unusedSimpArgs false
set_option linter.unusedVariables false

section
variable {K : Type} [_root_.Field K] [LinearOrder K] [IsStrictOrderedRing K]

/-! ## Cutting twice -/

/-- `f` is affine along segments. -/
def AffOn (f : V3 K → K) : Prop := ∀ p q t, f (mix3 p q t) = f p + (f q - f p) * t

/-- What is known about the points before the current ones, in the polygon and in the polygon cut by an earlier
plane. -/
def CutInv (f g : V3 K → K) (p p' : V3 K) : Prop := (g p < 0 ∧ p' = p) ∨ (0 ≤ g p ∧ 0 < f p')

theorem mix3_left (p q : V3 K) (s t : K) : mix3 p (mix3 p q s) t = mix3 p q (s * t) := by
  simp only [mix3, V3.mk.injEq]
  refine ⟨by ring, by ring, by ring⟩

theorem mix3_right (p q : V3 K) (s t : K) : mix3 (mix3 p q s) q t = mix3 p q (s + (1 - s) * t) := by
  simp only [mix3, V3.mk.injEq]
  refine ⟨by ring, by ring, by ring⟩

/-- The points passed on by a cut, edge by edge. -/
theorem pass_in {f : V3 K → K} {p q : V3 K} (l : List (V3 K)) (hp : 0 ≤ f p) (hq : 0 < f q) :
    (divideLoop f mix3 p (q :: l)).2 = (divideLoop f mix3 q l).2 := by
  rw [divideLoop]
  simp only
  rw [if_neg (show ¬ decide (0 ≤ f p) ≠ decide (0 ≤ f q) by simp [hp, hq.le]), if_pos hq.le, if_pos hq.ne']

theorem pass_on {f : V3 K → K} {p q : V3 K} (l : List (V3 K)) (hp : 0 ≤ f p) (hq : f q = 0) :
    (divideLoop f mix3 p (q :: l)).2 = q :: (divideLoop f mix3 q l).2 := by
  rw [divideLoop]
  simp only
  rw [if_neg (show ¬ decide (0 ≤ f p) ≠ decide (0 ≤ f q) by simp [hp, hq]), if_pos hq.ge, if_neg (by simp [hq])]

theorem pass_out {f : V3 K → K} {p q : V3 K} (l : List (V3 K)) (hp : 0 ≤ f p) (hq : f q < 0) :
    (divideLoop f mix3 p (q :: l)).2 = mix3 p q (f p / (f p - f q)) :: q :: (divideLoop f mix3 q l).2 := by
  rw [divideLoop]
  simp only
  rw [if_pos (show decide (0 ≤ f p) ≠ decide (0 ≤ f q) by simp [hp, hq]), if_neg (by linarith), if_pos hq]

theorem pass_back {f : V3 K → K} {p q : V3 K} (l : List (V3 K)) (hp : f p < 0) (hq : 0 ≤ f q) :
    (divideLoop f mix3 p (q :: l)).2 = mix3 p q (f p / (f p - f q)) :: (divideLoop f mix3 q l).2 := by
  rw [divideLoop]
  simp only
  rw [if_pos (show decide (0 ≤ f p) ≠ decide (0 ≤ f q) by simp [hp, hq])]
  split
  · rfl
  · rw [if_neg (by linarith)]

theorem pass_far {f : V3 K → K} {p q : V3 K} (l : List (V3 K)) (hp : f p < 0) (hq : f q < 0) :
    (divideLoop f mix3 p (q :: l)).2 = q :: (divideLoop f mix3 q l).2 := by
  rw [divideLoop]
  simp only
  rw [if_neg (show ¬ decide (0 ≤ f p) ≠ decide (0 ≤ f q) by simp [hp.not_ge, hq.not_ge]), if_neg (by linarith)]

/-- A cut after an earlier one passes on the same points, in the same order. -/
theorem loop_two {f g : V3 K → K} (hf : AffOn f) (hg : AffOn g) {c : K} (hc : 0 < c) (hfg : ∀ p, f p = g p + c)
    (l : List (V3 K)) : ∀ p p', CutInv f g p p' →
    (divideLoop f mix3 p' (divideLoop g mix3 p l).2).2 = (divideLoop f mix3 p l).2 ∧
      CutInv f g (l.getLastD p) ((divideLoop g mix3 p l).2.getLastD p') := by
  induction l with
  | nil => intro p p' h; exact ⟨rfl, h⟩
  | cons q l ih =>
    intro p p' h
    have eq := hfg q
    have ep := hfg p
    have posq : 0 ≤ g q → 0 < f q := fun h => by rw [eq]; linarith
    have posp : 0 ≤ g p → 0 < f p := fun h => by rw [ep]; linarith
    rw [List.getLastD_cons]
    by_cases hgp : 0 ≤ g p
    · have hfp : 0 < f p := posp hgp
      have hp' : 0 < f p' := by
        rcases h with ⟨h, -⟩ | ⟨-, h⟩
        · linarith
        · exact h
      rcases lt_trichotomy (g q) 0 with hgq | hgq | hgq
      · set x := mix3 p q (g p / (g p - g q)) with hx
        have hd : g p - g q ≠ 0 := by intro h; linarith
        have gx : g x = 0 := by rw [hx, hg]; field_simp; ring
        have fx : 0 < f x := by rw [hfg, gx]; linarith
        obtain ⟨i1, i2⟩ := ih q q (Or.inl ⟨hgq, rfl⟩)
        rw [pass_out l hgp hgq, ← hx, pass_in _ hp'.le fx, List.getLastD_cons, List.getLastD_cons]
        refine ⟨?_, i2⟩
        rcases lt_trichotomy (f q) 0 with hfq | hfq | hfq
        · rw [pass_out _ fx.le hfq, pass_out _ hfp.le hfq, i1]
          congr 1
          have e1 : f x = c := by rw [hfg, gx, zero_add]
          have e2 : c - f q ≠ 0 := by intro h; linarith
          have e3 : f p - f q ≠ 0 := by intro h; linarith
          rw [e1, hx, mix3_right]
          congr 1
          rw [eq, ep] at e3 ⊢
          rw [eq] at e2
          have e6 : g p + c - (g q + c) = g p - g q := by ring
          have e7 : c - (g q + c) = -g q := by ring
          have e8 : g q ≠ 0 := hgq.ne
          rw [e6, e7]
          field_simp
          ring
        · rw [pass_on _ fx.le hfq, pass_on _ hfp.le hfq, i1]
        · rw [pass_in _ fx.le hfq, pass_in _ hfp.le hfq, i1]
      · have hfq : 0 < f q := posq hgq.ge
        obtain ⟨i1, i2⟩ := ih q q (Or.inr ⟨hgq.ge, hfq⟩)
        rw [pass_on l hgp hgq, pass_in _ hp'.le hfq, pass_in _ hfp.le hfq, List.getLastD_cons]
        exact ⟨i1, i2⟩
      · have hfq : 0 < f q := posq hgq.le
        rw [pass_in l hgp hgq, pass_in _ hfp.le hfq]
        exact ih q p' (Or.inr ⟨hgq.le, hp'⟩)
    · have hgp' : g p < 0 := not_le.1 hgp
      obtain rfl : p' = p := by
        rcases h with ⟨-, h⟩ | ⟨h, -⟩
        · exact h
        · exact absurd h hgp
      by_cases hgq : 0 ≤ g q
      · have hfq : 0 < f q := posq hgq
        have hd : g p' - g q ≠ 0 := by intro h; linarith
        set x := mix3 p' q (g p' / (g p' - g q)) with hx
        have gx : g x = 0 := by rw [hx, hg]; field_simp; ring
        have fx : 0 < f x := by rw [hfg, gx]; linarith
        obtain ⟨i1, i2⟩ := ih q x (Or.inr ⟨hgq, fx⟩)
        rw [pass_back l hgp' hgq, ← hx, List.getLastD_cons]
        refine ⟨?_, i2⟩
        rcases lt_or_ge (f p') 0 with hfp | hfp
        · rw [pass_back _ hfp fx.le, pass_back _ hfp hfq.le, i1]
          congr 1
          have e1 : f x = c := by rw [hfg, gx, zero_add]
          rw [e1, hx, mix3_left]
          congr 1
          rw [eq, ep]
          have e4 : g p' ≠ 0 := hgp'.ne
          have e5 : g p' + c - c = g p' := by ring
          have e6 : g p' + c - (g q + c) = g p' - g q := by ring
          rw [e5, e6]
          field_simp
        · rw [pass_in _ hfp fx, pass_in _ hfp hfq, i1]
      · have hgq' : g q < 0 := not_le.1 hgq
        obtain ⟨i1, i2⟩ := ih q q (Or.inl ⟨hgq', rfl⟩)
        rw [pass_far l hgp' hgq', List.getLastD_cons]
        refine ⟨?_, i2⟩
        rcases lt_or_ge (f p') 0 with hfp | hfp
        · rcases lt_or_ge (f q) 0 with hfq | hfq
          · rw [pass_far _ hfp hfq, pass_far _ hfp hfq, i1]
          · rw [pass_back _ hfp hfq, pass_back _ hfp hfq, i1]
        · rcases lt_trichotomy (f q) 0 with hfq | hfq | hfq
          · rw [pass_out _ hfp hfq, pass_out _ hfp hfq, i1]
          · rw [pass_on _ hfp hfq, pass_on _ hfp hfq, i1]
          · rw [pass_in _ hfp hfq, pass_in _ hfp hfq, i1]

/-- Cutting off what is before an earlier plane does not change what a later plane passes on. -/
theorem cut_twice {f g : V3 K → K} (hf : AffOn f) (hg : AffOn g) {c : K} (hc : 0 < c) (hfg : ∀ p, f p = g p + c)
    (l : List (V3 K)) : (divide f mix3 (divide g mix3 l).2).2 = (divide f mix3 l).2 := by
  cases h : l.getLast? with
  | none =>
    rw [List.getLast?_eq_none_iff] at h
    subst h
    rfl
  | some p =>
    rw [divide_eq g mix3 h, divide_eq f mix3 h]
    have hl : l.getLastD p = p := by
      rw [List.getLastD_eq_getLast?, h]; rfl
    have start : CutInv f g p p := by
      by_cases hp : g p < 0
      · exact Or.inl ⟨hp, rfl⟩
      · exact Or.inr ⟨not_lt.1 hp, by rw [hfg]; linarith [not_lt.1 hp]⟩
    obtain ⟨i1, i2⟩ := loop_two hf hg hc hfg l p p start
    rw [hl] at i2
    cases hm : (divideLoop g mix3 p l).2.getLast? with
    | none =>
      rw [List.getLast?_eq_none_iff] at hm
      rw [hm] at i1 ⊢
      exact i1
    | some p' =>
      rw [divide_eq f mix3 hm]
      rw [List.getLastD_eq_getLast?, hm] at i2
      exact (loop_two hf hg hc hfg l p p' i2).1

/-! ## The pieces of a sweep -/

/-- The piece of a polygon between two planes, when the sweep begins at plane `lo`. -/
def pieceAt (plane : Int → V3 K → K) (lo k : Int) (l : List (V3 K)) : List (V3 K) :=
  (divide (plane k) mix3 (if k = lo then l else (divide (plane (k - 1)) mix3 l).2)).1

theorem sweep_pieces {plane : Int → V3 K → K} (ha : ∀ k, AffOn (plane k)) {c : K} (hc : 0 < c)
    (hp : ∀ k p, plane (k + 1) p = plane k p + c) (lo hi : Int) (l : List (V3 K)) {ps : List (Int × List (V3 K))}
    (h : sweep plane (intRange lo hi) l = some ps) : ps = (intRange lo hi).map fun k => (k, pieceAt plane lo k l) := by
  have gen : ∀ n (k : Int) (ps : List (Int × List (V3 K))), (hi + 1 - k).toNat = n → lo ≤ k →
      sweep plane (intRange k hi) (if k = lo then l else (divide (plane (k - 1)) mix3 l).2) = some ps →
      ps = (intRange k hi).map fun k => (k, pieceAt plane lo k l) := by
    intro n
    induction n with
    | zero =>
      intro k ps hn hk h
      rw [intRange_step, if_neg (by omega)] at h ⊢
      rw [sweep] at h
      simpa using h.symm
    | succ n ih =>
      intro k ps hn hk h
      rw [intRange_step, if_pos (by omega)] at h ⊢
      rw [sweep, Option.bind_eq_some_iff] at h
      obtain ⟨r, h1, h2⟩ := h
      rw [Option.map_eq_some_iff] at h2
      obtain ⟨qs, h2, rfl⟩ := h2
      unfold splitBuf at h1
      simp only at h1
      rw [Option.ite_none_right_eq_some] at h1
      · obtain rfl := Option.some.inj h1.2
        have e : (divide (plane k) mix3 (if k = lo then l else (divide (plane (k - 1)) mix3 l).2)).2 =
            (divide (plane k) mix3 l).2 := by
          by_cases hkl : k = lo
          · rw [if_pos hkl]
          · rw [if_neg hkl]
            refine cut_twice (ha _) (ha _) hc (fun p => ?_) l
            have := hp (k - 1) p
            rwa [sub_add_cancel] at this
        rw [e] at h2
        have := ih (k + 1) qs (by omega) (by omega) (by rw [if_neg (by omega), add_sub_cancel_right]; exact h2)
        rw [this, List.map_cons]
        rfl
  exact gen _ lo ps rfl le_rfl (by rw [if_pos rfl]; exact h)

/-- The pieces lie within the bounds of the polygon. -/
theorem piece_bounds {plane : Int → V3 K → K} {co : V3 K → K} (hco : AffOn co) {lo k : Int} {l : List (V3 K)} {a b : K}
    (h : ∀ p ∈ l, a ≤ co p ∧ co p ≤ b) : ∀ p ∈ pieceAt plane lo k l, a ≤ co p ∧ co p ≤ b := by
  have hm : ∀ f : V3 K → K, ∀ p q, (a ≤ co p ∧ co p ≤ b) → (a ≤ co q ∧ co q ≤ b) → decide (0 ≤ f p) ≠ decide (0 ≤ f q) →
      a ≤ co (mix3 p q (f p / (f p - f q))) ∧ co (mix3 p q (f p / (f p - f q))) ≤ b := by
    intro f p q hp hq hd
    rw [hco]
    have ht : 0 ≤ f p / (f p - f q) ∧ f p / (f p - f q) ≤ 1 := by
      rcases lt_or_ge (f p) 0 with h1 | h1
      · have h2 : 0 ≤ f q := by
          by_contra hn
          exact hd (by simp [h1.not_ge, hn])
        have h3 : f p - f q < 0 := by linarith
        exact ⟨div_nonneg_of_nonpos h1.le h3.le, (div_le_one_of_neg h3).2 (by linarith)⟩
      · have h2 : f q < 0 := by
          by_contra hn
          exact hd (by simp [h1, not_lt.1 hn])
        have h3 : 0 < f p - f q := by linarith
        exact ⟨div_nonneg h1 h3.le, (div_le_one h3).2 (by linarith)⟩
    generalize f p / (f p - f q) = t at ht
    obtain ⟨t0, t1⟩ := ht
    constructor <;> nlinarith [mul_nonneg t0 (sub_nonneg.2 hq.1), mul_nonneg (sub_nonneg.2 t1) (sub_nonneg.2 hp.1),
      mul_nonneg t0 (sub_nonneg.2 hq.2), mul_nonneg (sub_nonneg.2 t1) (sub_nonneg.2 hp.2)]
  unfold pieceAt
  split
  · exact (forall_divide _ mix3 _ (hm _) l h).1
  · exact (forall_divide _ mix3 _ (hm _) _ (forall_divide _ mix3 _ (hm _) l h).2).1

theorem flatMap_one {β : Type} (ks : List Int) (hn : ks.Nodup) (F : Int → List β) (y : Int)
    (h : ∀ k ∈ ks, k ≠ y → F k = []) : ks.flatMap F = if y ∈ ks then F y else [] := by
  induction ks with
  | nil => rfl
  | cons k ks ih =>
    rw [List.nodup_cons] at hn
    rw [List.flatMap_cons, ih hn.2 fun j hj => h j (by simp [hj])]
    by_cases hk : k = y
    · subst hk
      rw [if_neg hn.1, if_pos (by simp), List.append_nil]
    · rw [h k (by simp) hk, List.nil_append]
      simp only [List.mem_cons, show y ≠ k from fun e => hk e.symm, false_or]

theorem intRange_nodup (lo hi : Int) : (intRange lo hi).Nodup := by
  unfold intRange
  exact List.Nodup.map (fun a b h => by simpa using h) List.nodup_range

variable [FloorRing K]

/-! ## One triangle -/

/-- Grid `g` lies on the grid `b` of the whole world, shifted by `(ox, oy)` cells. -/
structure Grid.OnWorld (g b : Grid K) (ox oy : Int) : Prop where
  cs : g.cs = b.cs
  ch : g.ch = b.ch
  x : g.bmin.x = b.bmin.x + ox * b.cs
  z : g.bmin.z = b.bmin.z + oy * b.cs
  y : g.bmin.y = b.bmin.y
  y' : g.bmax.y = b.bmax.y
  x' : g.bmax.x = g.bmin.x + g.w * b.cs
  z' : g.bmax.z = g.bmin.z + g.h * b.cs

/-- The world's planes between columns. -/
def Grid.planeX (b : Grid K) (k : Int) (p : V3 K) : K := b.bmin.x + (k : K) * b.cs + b.cs - p.x

/-- The world's planes between rows. -/
def Grid.planeZ (b : Grid K) (k : Int) (p : V3 K) : K := b.bmin.z + (k : K) * b.cs + b.cs - p.z

/-- The world's column of a coordinate. -/
def Grid.colOf (b : Grid K) (v : K) : Int := ⌊(v - b.bmin.x) * (1 / b.cs)⌋

/-- The world's row of a coordinate. -/
def Grid.rowOf (b : Grid K) (v : K) : Int := ⌊(v - b.bmin.z) * (1 / b.cs)⌋

/-- Spec: the part of a triangle in a row of the world. -/
def worldRow (b : Grid K) (v0 v1 v2 : V3 K) (Y : Int) : List (V3 K) :=
  if b.rowOf ((v0.vmin v1).vmin v2).z ≤ Y ∧ Y ≤ b.rowOf ((v0.vmax v1).vmax v2).z then
    pieceAt b.planeZ (b.rowOf ((v0.vmin v1).vmin v2).z) Y [v0, v1, v2] else []

/-- Spec: the part of a row in a cell of the world. -/
def worldCell (b : Grid K) (row : List (V3 K)) (X : Int) : List (V3 K) :=
  if 3 ≤ row.length ∧ b.colOf (polyMin V3.x row) ≤ X ∧ X ≤ b.colOf (polyMax V3.x row) then
    pieceAt b.planeX (b.colOf (polyMin V3.x row)) X row else []

/-- Spec: the span of a triangle in a cell of the world. -/
def worldSpan (b : Grid K) (v0 v1 v2 : V3 K) (X Y : Int) : Option (Nat × Nat) :=
  cellSpan b (worldCell b (worldRow b v0 v1 v2 Y) X)

theorem planeX_aff (b : Grid K) (k : Int) : AffOn (b.planeX k) := by
  intro p q t; simp only [Grid.planeX, mix3]; ring

theorem planeZ_aff (b : Grid K) (k : Int) : AffOn (b.planeZ k) := by
  intro p q t; simp only [Grid.planeZ, mix3]; ring

theorem x_aff : AffOn (V3.x : V3 K → K) := by intro p q t; simp only [mix3]
theorem y_aff : AffOn (V3.y : V3 K → K) := by intro p q t; simp only [mix3]

/-- Clamped truncation is the floor, away from the ends. -/
theorem clamp_floor {a : K} {n y : Nat} (hy : 0 < y) (hn : y + 1 < n) :
    (clampI (truncI a) 0 ((n : Int) - 1) ≤ y ↔ ⌊a⌋ ≤ y) ∧ ((y : Int) ≤ clampI (truncI a) 0 ((n : Int) - 1) ↔ (y : Int) ≤ ⌊a⌋) ∧
    ((y : Int) = clampI (truncI a) 0 ((n : Int) - 1) ↔ (y : Int) = ⌊a⌋) := by
  have h : truncI a = ⌊a⌋ ∨ (truncI a ≤ 0 ∧ ⌊a⌋ < 0) := by
    unfold truncI
    split
    · exact Or.inl rfl
    · rename_i ha
      have ha := not_le.1 ha
      exact Or.inr ⟨Int.ceil_le.2 (by push_cast; exact ha.le), Int.floor_lt.2 (by push_cast; exact ha)⟩
  unfold clampI
  split
  · omega
  · split <;> omega

/-- The spans of one row, without overruns. -/
def rowOps (g : Grid K) (area : Nat) (thr : Int) (y : Int) (row : List (V3 K)) : List AddOp :=
  if row.length < 3 then []
  else
    let x0 := clampI (truncI ((polyMin V3.x row - g.bmin.x) * (1 / g.cs))) 0 ((g.w : Int) - 1)
    let x1 := clampI (truncI ((polyMax V3.x row - g.bmin.x) * (1 / g.cs))) 0 ((g.w : Int) - 1)
    (intRange x0 x1).flatMap fun k => ((cellSpan g (pieceAt g.planeX x0 k row)).map fun s =>
      (⟨(k + y * (g.w : Int)).toNat, ⟨s.1, s.2, area⟩, thr⟩ : AddOp)).toList

theorem rasterRow_ops {g : Grid K} (hcs : 0 < g.cs) {area : Nat} {thr y : Int} {row : List (V3 K)} {ops : List AddOp}
    (h : rasterRow g area thr y row = some ops) : ops = rowOps g area thr y row := by
  unfold rasterRow at h
  unfold rowOps
  split
  · rename_i hl
    rw [if_pos hl] at h
    exact (Option.some.inj h).symm
  · rename_i hl
    rw [if_neg hl] at h
    simp only at h ⊢
    rw [Option.map_eq_some_iff] at h
    obtain ⟨ps, h1, rfl⟩ := h
    have := sweep_pieces (plane := g.planeX) (planeX_aff g) hcs (fun k p => by simp only [Grid.planeX]; push_cast; ring) _ _ _ h1
    rw [this, List.filterMap_map]
    generalize intRange _ _ = ks
    induction ks with
    | nil => rfl
    | cons k ks ih =>
      rw [List.filterMap_cons, List.flatMap_cons, ← ih]
      simp only [Function.comp_apply]
      cases cellSpan g (pieceAt g.planeX _ k row) <;> rfl

theorem rasterRows_ops {g : Grid K} (hcs : 0 < g.cs) {area : Nat} {thr : Int} (rs : List (Int × List (V3 K))) : ∀ {ops : List AddOp},
    rasterRows g area thr rs = some ops → ops = rs.flatMap fun r => rowOps g area thr r.1 r.2 := by
  induction rs with
  | nil => intro ops h; rw [rasterRows] at h; simpa using h.symm
  | cons r rs ih =>
    intro ops h
    rw [rasterRows, Option.bind_eq_some_iff] at h
    obtain ⟨a, h1, h2⟩ := h
    rw [Option.map_eq_some_iff] at h2
    obtain ⟨b, h2, rfl⟩ := h2
    rw [List.flatMap_cons, ← ih h2, rasterRow_ops hcs h1]

theorem planeX_shift {g b : Grid K} {ox oy : Int} (h : g.OnWorld b ox oy) (k : Int) : g.planeX k = b.planeX (ox + k) := by
  funext p; unfold Grid.planeX; rw [h.x, h.cs]; push_cast; ring

theorem planeZ_shift {g b : Grid K} {ox oy : Int} (h : g.OnWorld b ox oy) (k : Int) : g.planeZ k = b.planeZ (oy + k) := by
  funext p; unfold Grid.planeZ; rw [h.z, h.cs]; push_cast; ring

theorem colOf_shift {g b : Grid K} {ox oy : Int} (hb : 0 < b.cs) (h : g.OnWorld b ox oy) (v : K) : ⌊(v - g.bmin.x) * (1 / g.cs)⌋ = b.colOf v - ox := by
  unfold Grid.colOf
  rw [← Int.floor_sub_intCast, h.x, h.cs]
  congr 1
  field_simp
  ring

theorem rowOf_shift {g b : Grid K} {ox oy : Int} (hb : 0 < b.cs) (h : g.OnWorld b ox oy) (v : K) : ⌊(v - g.bmin.z) * (1 / g.cs)⌋ = b.rowOf v - oy := by
  unfold Grid.rowOf
  rw [← Int.floor_sub_intCast, h.z, h.cs]
  congr 1
  field_simp
  ring

theorem cellSpan_shift {g b : Grid K} {ox oy : Int} (h : g.OnWorld b ox oy) (l : List (V3 K)) : cellSpan g l = cellSpan b l := by
  unfold cellSpan
  rw [h.y, h.y', h.ch]

theorem piece_shift {p p' : Int → V3 K → K} {o lo lo' k : Int} {l : List (V3 K)} (hp : ∀ k, p k = p' (o + k))
    (hk : k = lo ↔ o + k = lo') : pieceAt p lo k l = pieceAt p' lo' (o + k) l := by
  unfold pieceAt
  rw [hp, hp, show o + (k - 1) = o + k - 1 by ring]
  by_cases h : k = lo
  · rw [if_pos h, if_pos (hk.1 h)]
  · rw [if_neg h, if_neg (fun e => h (hk.2 e))]

/-- The calls for one cell of a row. -/
theorem rowOps_cell {g b : Grid K} {ox oy : Int} (hb : 0 < b.cs) (h : g.OnWorld b ox oy) (area : Nat) (thr : Int) {x y : Nat}
    (row : List (V3 K)) (hx : 0 < x) (hw : x + 1 < g.w) :
    (rowOps g area thr y row).filter (fun op => op.cell = x + y * g.w) =
      ((cellSpan b (worldCell b row (ox + x))).map fun s => (⟨x + y * g.w, ⟨s.1, s.2, area⟩, thr⟩ : AddOp)).toList := by
  unfold rowOps worldCell
  by_cases hl : row.length < 3
  · rw [if_pos hl, if_neg (by omega)]
    rfl
  · rw [if_neg hl]
    simp only
    obtain ⟨c1, -, c3⟩ := clamp_floor (a := (polyMin V3.x row - g.bmin.x) * (1 / g.cs)) hx hw
    obtain ⟨-, d2, -⟩ := clamp_floor (a := (polyMax V3.x row - g.bmin.x) * (1 / g.cs)) hx hw
    rw [colOf_shift hb h] at c1 c3 d2
    have r0 := clampI_range (a := truncI ((polyMin V3.x row - g.bmin.x) * (1 / g.cs))) (lo := 0) (hi := (g.w : Int) - 1) (by omega)
    have r1 := clampI_range (a := truncI ((polyMax V3.x row - g.bmin.x) * (1 / g.cs))) (lo := 0) (hi := (g.w : Int) - 1) (by omega)
    generalize clampI (truncI ((polyMin V3.x row - g.bmin.x) * (1 / g.cs))) 0 ((g.w : Int) - 1) = x0 at *
    generalize clampI (truncI ((polyMax V3.x row - g.bmin.x) * (1 / g.cs))) 0 ((g.w : Int) - 1) = x1 at *
    rw [List.filter_flatMap, flatMap_one _ (intRange_nodup _ _) _ (x : Int)]
    · have e : ((x : Int) + (y : Int) * (g.w : Int)).toNat = x + y * g.w := by
        have : ((x : Int) + (y : Int) * (g.w : Int)) = ((x + y * g.w : Nat) : Int) := by push_cast; rfl
        rw [this, Int.toNat_natCast]
      by_cases hin : x0 ≤ x ∧ (x : Int) ≤ x1
      · rw [if_pos (mem_intRange.2 hin), if_pos ⟨by omega, by have := c1.1 hin.1; omega, by have := d2.1 hin.2; omega⟩, cellSpan_shift h,
          piece_shift (p' := b.planeX) (o := ox) (lo' := b.colOf (polyMin V3.x row)) (planeX_shift h)
            (by rw [c3]; omega)]
        cases cellSpan b _ with
        | none => rfl
        | some s => simp [e]
      · rw [if_neg (fun hm => hin (mem_intRange.1 hm)), if_neg (fun hc => hin ⟨c1.2 (by omega), d2.2 (by omega)⟩)]
        rfl
    · intro k hk hne
      rw [mem_intRange] at hk
      obtain ⟨n, rfl⟩ := Int.eq_ofNat_of_zero_le (a := k) (by omega)
      have e : ((n : Int) + (y : Int) * (g.w : Int)).toNat = n + y * g.w := by
        have : ((n : Int) + (y : Int) * (g.w : Int)) = ((n + y * g.w : Nat) : Int) := by push_cast; rfl
        rw [this, Int.toNat_natCast]
      cases cellSpan g _ with
      | none => rfl
      | some s =>
        have : n ≠ x := fun e => hne (by rw [e])
        simp [e, this]

/-- All calls of a row are for cells of that row. -/
theorem rowOps_other {g : Grid K} (area : Nat) (thr : Int) {x y n : Nat} (row : List (V3 K)) (hw : x < g.w) (hne : n ≠ y) :
    (rowOps g area thr n row).filter (fun op => op.cell = x + y * g.w) = [] := by
  rw [List.filter_eq_nil_iff]
  intro op hop
  unfold rowOps at hop
  split at hop
  · simp at hop
  · simp only [List.mem_flatMap, Option.mem_toList, Option.map_eq_some_iff] at hop
    obtain ⟨k, hk, s, -, rfl⟩ := hop
    rw [mem_intRange] at hk
    have r0 := clampI_range (a := truncI ((polyMin V3.x row - g.bmin.x) * (1 / g.cs))) (lo := 0) (hi := (g.w : Int) - 1) (by omega)
    have r1 := clampI_range (a := truncI ((polyMax V3.x row - g.bmin.x) * (1 / g.cs))) (lo := 0) (hi := (g.w : Int) - 1) (by omega)
    obtain ⟨m, rfl⟩ := Int.eq_ofNat_of_zero_le (a := k) (by omega)
    have e : ((m : Int) + (n : Int) * (g.w : Int)).toNat = m + n * g.w := by
      have : ((m : Int) + (n : Int) * (g.w : Int)) = ((m + n * g.w : Nat) : Int) := by push_cast; rfl
      rw [this, Int.toNat_natCast]
    simp only [e, decide_eq_true_eq]
    intro he
    exact hne (cell_inj (by omega) hw he).2

theorem colOf_mono {b : Grid K} (hb : 0 < b.cs) {v v' : K} (h : v ≤ v') : b.colOf v ≤ b.colOf v' :=
  Int.floor_mono (mul_le_mul_of_nonneg_right (by linarith) (one_div_nonneg.2 hb.le))

theorem rowOf_mono {b : Grid K} (hb : 0 < b.cs) {v v' : K} (h : v ≤ v') : b.rowOf v ≤ b.rowOf v' :=
  Int.floor_mono (mul_le_mul_of_nonneg_right (by linarith) (one_div_nonneg.2 hb.le))

/-- A triangle with a span in a cell has its bounds over that cell and not above or below the world. -/
theorem worldSpan_box {b : Grid K} (hb : 0 < b.cs) {v0 v1 v2 : V3 K} {X Y : Int} {s : Nat × Nat}
    (h : worldSpan b v0 v1 v2 X Y = some s) :
    b.colOf ((v0.vmin v1).vmin v2).x ≤ X ∧ X ≤ b.colOf ((v0.vmax v1).vmax v2).x ∧
    b.rowOf ((v0.vmin v1).vmin v2).z ≤ Y ∧ Y ≤ b.rowOf ((v0.vmax v1).vmax v2).z ∧
    ((v0.vmin v1).vmin v2).y ≤ b.bmax.y ∧ b.bmin.y ≤ ((v0.vmax v1).vmax v2).y := by
  have tri : ∀ co : V3 K → K, ∀ p ∈ [v0, v1, v2], min (min (co v0) (co v1)) (co v2) ≤ co p ∧ co p ≤ max (max (co v0) (co v1)) (co v2) := by
    intro co p hp
    have m1 := min3 (co v0) (co v1) (co v2)
    have m2 := max3 (co v0) (co v1) (co v2)
    simp only [List.mem_cons, List.not_mem_nil, or_false] at hp
    rcases hp with rfl | rfl | rfl
    · exact ⟨m1.1, m2.1⟩
    · exact ⟨m1.2.1, m2.2.1⟩
    · exact ⟨m1.2.2, m2.2.2⟩
  unfold worldSpan at h
  have rowB : ∀ co : V3 K → K, AffOn co → ∀ p ∈ worldRow b v0 v1 v2 Y, min (min (co v0) (co v1)) (co v2) ≤ co p ∧ co p ≤ max (max (co v0) (co v1)) (co v2) := by
    intro co hco p hp
    unfold worldRow at hp
    split at hp
    · exact piece_bounds hco (tri co) p hp
    · simp at hp
  have h3 : 3 ≤ (worldCell b (worldRow b v0 v1 v2 Y) X).length := by
    by_contra hn
    unfold cellSpan at h
    rw [if_pos (by omega)] at h
    cases h
  have hc : 3 ≤ (worldRow b v0 v1 v2 Y).length ∧ b.colOf (polyMin V3.x (worldRow b v0 v1 v2 Y)) ≤ X ∧ X ≤ b.colOf (polyMax V3.x (worldRow b v0 v1 v2 Y)) := by
    by_contra hn
    unfold worldCell at h3
    rw [if_neg hn] at h3
    simp at h3
  have hr : b.rowOf ((v0.vmin v1).vmin v2).z ≤ Y ∧ Y ≤ b.rowOf ((v0.vmax v1).vmax v2).z := by
    by_contra hn
    have := hc.1
    unfold worldRow at this
    rw [if_neg hn] at this
    simp at this
  have cellB : ∀ co : V3 K → K, AffOn co → ∀ p ∈ worldCell b (worldRow b v0 v1 v2 Y) X,
      min (min (co v0) (co v1)) (co v2) ≤ co p ∧ co p ≤ max (max (co v0) (co v1)) (co v2) := by
    intro co hco p hp
    unfold worldCell at hp
    rw [if_pos hc] at hp
    exact piece_bounds hco (rowB co hco) p hp
  have rne : worldRow b v0 v1 v2 Y ≠ [] := fun e => by rw [e] at hc; simp at hc
  have cne : worldCell b (worldRow b v0 v1 v2 Y) X ≠ [] := fun e => by rw [e] at h3; simp at h3
  obtain ⟨p1, hp1, e1⟩ := (polyMin_spec V3.x _ rne).2
  obtain ⟨p2, hp2, e2⟩ := (polyMax_spec V3.x _ rne).2
  obtain ⟨p3, hp3, e3⟩ := (polyMin_spec V3.y _ cne).2
  obtain ⟨p4, hp4, e4⟩ := (polyMax_spec V3.y _ cne).2
  refine ⟨(colOf_mono hb ?_).trans hc.2.1, hc.2.2.trans (colOf_mono hb ?_), hr.1, hr.2, ?_, ?_⟩
  · rw [← e1]; exact (rowB V3.x x_aff p1 hp1).1
  · rw [← e2]; exact (rowB V3.x x_aff p2 hp2).2
  · refine (cellB V3.y y_aff p3 hp3).1.trans ?_
    rw [e3]
    by_contra hn
    unfold cellSpan at h
    rw [if_neg (by omega)] at h
    simp only at h
    split at h
    · cases h
    · rw [if_pos (by linarith)] at h
      cases h
  · refine le_trans ?_ (cellB V3.y y_aff p4 hp4).2
    rw [e4]
    by_contra hn
    unfold cellSpan at h
    rw [if_neg (by omega)] at h
    simp only at h
    rw [if_pos (by linarith)] at h
    cases h

/-- Spec: the bounds of the triangle and of the grid overlap, seen from above. -/
def OverGrid (g : Grid K) (v0 v1 v2 : V3 K) : Prop :=
  ((v0.vmin v1).vmin v2).x ≤ g.bmax.x ∧ g.bmin.x ≤ ((v0.vmax v1).vmax v2).x ∧
  ((v0.vmin v1).vmin v2).z ≤ g.bmax.z ∧ g.bmin.z ≤ ((v0.vmax v1).vmax v2).z

theorem worldSpan_over {g b : Grid K} {ox oy : Int} (hb : 0 < b.cs) (h : g.OnWorld b ox oy) {v0 v1 v2 : V3 K} {x y : Nat}
    (hw : x < g.w) (hh : y < g.h) {s : Nat × Nat} (hs : worldSpan b v0 v1 v2 (ox + x) (oy + y) = some s) : OverGrid g v0 v1 v2 := by
  obtain ⟨b1, b2, b3, b4, -, -⟩ := worldSpan_box hb hs
  have i1 := colOf_shift hb h ((v0.vmin v1).vmin v2).x
  have i2 := colOf_shift hb h ((v0.vmax v1).vmax v2).x
  have i3 := rowOf_shift hb h ((v0.vmin v1).vmin v2).z
  have i4 := rowOf_shift hb h ((v0.vmax v1).vmax v2).z
  have c1 : ⌊(((v0.vmin v1).vmin v2).x - g.bmin.x) * (1 / g.cs)⌋ < (g.w : Int) := by omega
  have c2 : (0 : Int) ≤ ⌊(((v0.vmax v1).vmax v2).x - g.bmin.x) * (1 / g.cs)⌋ := by omega
  have c3 : ⌊(((v0.vmin v1).vmin v2).z - g.bmin.z) * (1 / g.cs)⌋ < (g.h : Int) := by omega
  have c4 : (0 : Int) ≤ ⌊(((v0.vmax v1).vmax v2).z - g.bmin.z) * (1 / g.cs)⌋ := by omega
  have hg : 0 < g.cs := by rw [h.cs]; exact hb
  have up : ∀ a : K, ∀ n : Nat, ⌊a * (1 / g.cs)⌋ < (n : Int) → a < n * g.cs := by
    intro a n hn
    have := Int.floor_lt.1 hn
    push_cast at this
    rwa [mul_one_div, div_lt_iff₀ hg] at this
  have dn : ∀ a : K, (0 : Int) ≤ ⌊a * (1 / g.cs)⌋ → 0 ≤ a := by
    intro a hn
    have := Int.le_floor.1 hn
    push_cast at this
    rwa [mul_one_div, le_div_iff₀ hg, zero_mul] at this
  have d1 := up _ _ c1
  have d2 := dn _ c2
  have d3 := up _ _ c3
  have d4 := dn _ c4
  rw [h.cs] at d1 d3
  refine ⟨?_, ?_, ?_, ?_⟩
  · rw [h.x']; linarith
  · linarith
  · rw [h.z']; linarith
  · linarith

/-- The calls of one triangle for a cell inside the grid are given by its place in the world. -/
theorem tri_cell {g b : Grid K} {ox oy : Int} (hb : 0 < b.cs) (h : g.OnWorld b ox oy) {v0 v1 v2 : V3 K} {area : Nat} {thr : Int} {ops : List AddOp}
    (hr : rasterizeTri g v0 v1 v2 area thr = some ops) {x y : Nat} (hx : 0 < x) (hw : x + 1 < g.w) (hy : 0 < y) (hh : y + 1 < g.h) :
    ops.filter (fun op => op.cell = x + y * g.w) =
      ((worldSpan b v0 v1 v2 (ox + x) (oy + y)).map fun s => (⟨x + y * g.w, ⟨s.1, s.2, area⟩, thr⟩ : AddOp)).toList := by
  have hg : 0 < g.cs := by rw [h.cs]; exact hb
  unfold rasterizeTri at hr
  simp only at hr
  split at hr
  · rename_i hov
    cases hr
    cases hs : worldSpan b v0 v1 v2 (ox + x) (oy + y) with
    | none => rfl
    | some s =>
      exfalso
      obtain ⟨o1, o2, o3, o4⟩ := worldSpan_over hb h (by omega) (by omega) hs
      obtain ⟨-, -, -, -, b5, b6⟩ := worldSpan_box hb hs
      rw [← h.y] at b6
      rw [← h.y'] at b5
      unfold boxesOverlap at hov
      rw [if_neg (fun hc => by rcases hc with hc | hc <;> linarith), if_neg (fun hc => by rcases hc with hc | hc <;> linarith),
        if_neg (fun hc => by rcases hc with hc | hc <;> linarith)] at hov
      cases hov
  · rw [Option.bind_eq_some_iff] at hr
    obtain ⟨rs, h1, h2⟩ := hr
    have := sweep_pieces (plane := g.planeZ) (planeZ_aff g) hg (fun k p => by simp only [Grid.planeZ]; push_cast; ring) _ _ _ h1
    rw [rasterRows_ops hg rs h2, this, List.filter_flatMap, List.flatMap_map]
    simp only
    obtain ⟨c1, -, c3⟩ := clamp_floor (a := (((v0.vmin v1).vmin v2).z - g.bmin.z) * (1 / g.cs)) hy hh
    obtain ⟨-, d2, -⟩ := clamp_floor (a := (((v0.vmax v1).vmax v2).z - g.bmin.z) * (1 / g.cs)) hy hh
    rw [rowOf_shift hb h] at c1 c3 d2
    have r0 := clampI_range (a := truncI ((((v0.vmin v1).vmin v2).z - g.bmin.z) * (1 / g.cs))) (lo := 0) (hi := (g.h : Int) - 1) (by omega)
    have r1 := clampI_range (a := truncI ((((v0.vmax v1).vmax v2).z - g.bmin.z) * (1 / g.cs))) (lo := 0) (hi := (g.h : Int) - 1) (by omega)
    clear this h1 h2
    generalize clampI (truncI ((((v0.vmin v1).vmin v2).z - g.bmin.z) * (1 / g.cs))) 0 ((g.h : Int) - 1) = y0 at *
    generalize clampI (truncI ((((v0.vmax v1).vmax v2).z - g.bmin.z) * (1 / g.cs))) 0 ((g.h : Int) - 1) = y1 at *
    rw [flatMap_one _ (intRange_nodup _ _) _ (y : Int)]
    · unfold worldSpan worldRow
      by_cases hin : y0 ≤ y ∧ (y : Int) ≤ y1
      · rw [if_pos (mem_intRange.2 hin), if_pos ⟨by have := c1.1 hin.1; omega, by have := d2.1 hin.2; omega⟩,
          rowOps_cell hb h area thr _ hx hw,
          piece_shift (p' := b.planeZ) (o := oy) (lo' := b.rowOf ((v0.vmin v1).vmin v2).z) (planeZ_shift h) (by rw [c3]; omega)]
      · rw [if_neg (fun hm => hin (mem_intRange.1 hm)), if_neg (fun hc => hin ⟨c1.2 (by omega), d2.2 (by omega)⟩)]
        unfold worldCell
        rw [if_neg (by simp)]
        unfold cellSpan
        rw [if_pos (by simp)]
        rfl
    · intro k hk hne
      rw [mem_intRange] at hk
      obtain ⟨n, rfl⟩ := Int.eq_ofNat_of_zero_le (a := k) (by omega)
      exact rowOps_other area thr _ (by omega) (fun e => hne (by rw [e]))

/-! ## Whole meshes -/

/-- A chunk of the mesh: its triangles and their areas. -/
abbrev MeshChunk := List (Nat × Nat × Nat) × List Nat

/-- The loop over the chunks of a tile (sample/tilemesh/builder.go:295-313): one call of `RasterizeTriangles` each. -/
def rasterPieces (g : Grid K) (verts : List (V3 K)) (thr : Int) : List MeshChunk → Option (List AddOp)
  | [] => some []
  | c :: cs => (rasterizeTriangles g verts c.1 c.2 thr).bind fun ops => (rasterPieces g verts thr cs).map fun rest => ops ++ rest

/-- Spec: the spans of the triangles of a chunk in a cell of the world, in order. -/
def pieceSpans (b : Grid K) (verts : List (V3 K)) (areas : List Nat) (X Y : Int) : List (Nat × Nat × Nat) → Nat → List SpanV
  | [], _ => []
  | (i, j, k) :: ts, n =>
    ((verts[i]?).bind fun v0 => (verts[j]?).bind fun v1 => (verts[k]?).bind fun v2 => (areas[n]?).bind fun area =>
      (worldSpan b v0 v1 v2 X Y).map fun s => (⟨s.1, s.2, area⟩ : SpanV)).toList ++ pieceSpans b verts areas X Y ts (n + 1)

/-- Spec: the column of a cell of the world. -/
def worldCol (b : Grid K) (verts : List (V3 K)) (thr : Int) (cs : List MeshChunk) (X Y : Int) : List SpanV :=
  (cs.flatMap fun c => pieceSpans b verts c.2 X Y c.1 0).foldl (insertSpan thr) []

/-- Spec: no triangle of the chunk is over the grid. -/
def MeshChunk.Misses (g : Grid K) (verts : List (V3 K)) (c : MeshChunk) : Prop :=
  ∀ i j k, (i, j, k) ∈ c.1 → ∀ v0 v1 v2, verts[i]? = some v0 → verts[j]? = some v1 → verts[k]? = some v2 → ¬ OverGrid g v0 v1 v2

/-- Spec: a selection of the chunks, in order, that leaves out only chunks without triangles over the grid - as
`ChunksOverlappingRect` makes it (`chunks_exact`, `chunks_find`) unless it fills the 512 places of its result. -/
inductive Chosen (g : Grid K) (verts : List (V3 K)) : List MeshChunk → List MeshChunk → Prop
  | nil : Chosen g verts [] []
  | keep (c : MeshChunk) {all sel : List MeshChunk} : Chosen g verts all sel → Chosen g verts (c :: all) (c :: sel)
  | skip {c : MeshChunk} {all sel : List MeshChunk} : c.Misses g verts → Chosen g verts all sel → Chosen g verts (c :: all) sel

theorem rasterTris_cell {g b : Grid K} {ox oy : Int} (hb : 0 < b.cs) (h : g.OnWorld b ox oy) {verts : List (V3 K)} {areas : List Nat} {thr : Int}
    {x y : Nat} (hx : 0 < x) (hw : x + 1 < g.w) (hy : 0 < y) (hh : y + 1 < g.h) (ts : List (Nat × Nat × Nat)) : ∀ {n : Nat} {ops : List AddOp},
    rasterTris g verts areas thr ts n = some ops →
    ops.filter (fun op => op.cell = x + y * g.w) = (pieceSpans b verts areas (ox + x) (oy + y) ts n).map fun s => ⟨x + y * g.w, s, thr⟩ := by
  induction ts with
  | nil => intro n ops hr; rw [rasterTris] at hr; cases hr; rfl
  | cons t ts ih =>
    intro n ops hr
    obtain ⟨i, j, k⟩ := t
    rw [rasterTris] at hr
    simp only [Option.bind_eq_some_iff, Option.map_eq_some_iff] at hr
    obtain ⟨v0, e0, v1, e1, v2, e2, area, ea, o, eo, rest, er, rfl⟩ := hr
    rw [List.filter_append, ih er, tri_cell hb h eo hx hw hy hh, pieceSpans, e0, e1, e2, ea, List.map_append]
    simp only [Option.bind_some]
    cases worldSpan b v0 v1 v2 (ox + x) (oy + y) <;> rfl

theorem missed {g b : Grid K} {ox oy : Int} (hb : 0 < b.cs) (h : g.OnWorld b ox oy) {verts : List (V3 K)} {areas : List Nat}
    {x y : Nat} (hw : x < g.w) (hh : y < g.h) (ts : List (Nat × Nat × Nat)) (as : List Nat) (hm : MeshChunk.Misses g verts (ts, as)) : ∀ n : Nat,
    pieceSpans b verts areas (ox + x) (oy + y) ts n = [] := by
  induction ts with
  | nil => intro n; rfl
  | cons t ts ih =>
    intro n
    obtain ⟨i, j, k⟩ := t
    rw [pieceSpans, ih (fun i j k ht => hm i j k (by simp [ht])), List.append_nil]
    rw [Option.toList_eq_nil_iff, Option.eq_none_iff_forall_not_mem]
    intro s hs
    rw [Option.mem_def] at hs
    simp only [Option.bind_eq_some_iff, Option.map_eq_some_iff] at hs
    obtain ⟨v0, e0, v1, e1, v2, e2, area, ea, o, eo, rfl⟩ := hs
    exact hm i j k (by simp) v0 v1 v2 e0 e1 e2 (worldSpan_over hb h hw hh eo)

theorem pieces_cell {g b : Grid K} {ox oy : Int} (hb : 0 < b.cs) (h : g.OnWorld b ox oy) {verts : List (V3 K)} {thr : Int}
    {x y : Nat} (hx : 0 < x) (hw : x + 1 < g.w) (hy : 0 < y) (hh : y + 1 < g.h) {all sel : List MeshChunk} (hc : Chosen g verts all sel) :
    ∀ {ops : List AddOp}, rasterPieces g verts thr sel = some ops →
    ops.filter (fun op => op.cell = x + y * g.w) =
      (all.flatMap fun c => pieceSpans b verts c.2 (ox + x) (oy + y) c.1 0).map fun s => ⟨x + y * g.w, s, thr⟩ := by
  induction hc with
  | nil => intro ops hr; rw [rasterPieces] at hr; cases hr; rfl
  | keep c _ ih =>
    intro ops hr
    rw [rasterPieces] at hr
    simp only [Option.bind_eq_some_iff, Option.map_eq_some_iff] at hr
    obtain ⟨o, eo, rest, er, rfl⟩ := hr
    rw [List.filter_append, ih er, List.flatMap_cons, List.map_append]
    rw [rasterTris_cell hb h hx hw hy hh c.1 (n := 0) eo]
  | skip hm _ ih =>
    intro ops hr
    rw [List.flatMap_cons, missed hb h (by omega) (by omega) _ _ hm, List.nil_append]
    exact ih hr

/-- The heightfield after a list of calls: `readCol` gives these columns (`addSpan_history`). -/
def fieldOf (g : Grid K) (ops : List AddOp) : Field := ⟨g.w, g.h, fun i => columnOf i ops⟩

/-- Rasterizing a selection of the chunks on a shifted grid gives the columns of the world, apart from the first and last
row and column. -/
theorem raster_world {g b : Grid K} {ox oy : Int} (hb : 0 < b.cs) (h : g.OnWorld b ox oy) {verts : List (V3 K)} {thr : Int}
    {all sel : List MeshChunk} (hc : Chosen g verts all sel) {ops : List AddOp} (hr : rasterPieces g verts thr sel = some ops)
    {x y : Nat} (hx : 0 < x) (hw : x + 1 < g.w) (hy : 0 < y) (hh : y + 1 < g.h) :
    (fieldOf g ops).col (x + y * g.w) = worldCol b verts thr all (ox + x) (oy + y) := by
  show columnOf (x + y * g.w) ops = _
  unfold columnOf worldCol
  rw [pieces_cell hb h hx hw hy hh hc hr, List.foldl_map]

/-- The grid of a tile (sample/tilemesh/builder.go:138-143, 222-262): `ts` by `ts` cells and a border, aligned with the cells of
the world. -/
def tileGrid (b : Grid K) (ts radius : Nat) (tx ty : Int) : Grid K where
  bmin := ⟨b.bmin.x + (tx : K) * ((ts : K) * b.cs) - (borderSize radius : K) * b.cs, b.bmin.y, b.bmin.z + (ty : K) * ((ts : K) * b.cs) - (borderSize radius : K) * b.cs⟩
  bmax := ⟨b.bmin.x + ((tx : K) + 1) * ((ts : K) * b.cs) + (borderSize radius : K) * b.cs, b.bmax.y, b.bmin.z + ((ty : K) + 1) * ((ts : K) * b.cs) + (borderSize radius : K) * b.cs⟩
  cs := b.cs
  ch := b.ch
  w := tileWidth ts radius
  h := tileWidth ts radius

theorem tileGrid_on (b : Grid K) (ts radius : Nat) (tx ty : Int) :
    (tileGrid b ts radius tx ty).OnWorld b (tileOrg ts radius tx) (tileOrg ts radius ty) where
  cs := rfl
  ch := rfl
  x := by simp only [tileGrid, tileOrg]; push_cast; ring
  z := by simp only [tileGrid, tileOrg]; push_cast; ring
  y := rfl
  y' := rfl
  x' := by simp only [tileGrid, tileWidth]; push_cast; ring
  z' := by simp only [tileGrid, tileWidth]; push_cast; ring

/-- **C154** (partial). The same from the triangles on: rasterizing for each tile the chunks of the mesh that overlap it,
filtering, compacting and eroding gives two tiles that agree about every cell shown by both. -/
theorem tiles_from_mesh_partial (b : Grid K) (hb : 0 < b.cs) (verts : List (V3 K)) (chunks selF selG : List MeshChunk) (thr height climb : Int)
    (radius ts : Nat) (h1 : 1 ≤ radius) (hts : ts + 2 * (radius + 3) ≤ 127) (tx ty ux uy : Int)
    (hF : Chosen (tileGrid b ts radius tx ty) verts chunks selF) (hG : Chosen (tileGrid b ts radius ux uy) verts chunks selG)
    (opsF opsG : List AddOp) (rF : rasterPieces (tileGrid b ts radius tx ty) verts thr selF = some opsF)
    (rG : rasterPieces (tileGrid b ts radius ux uy) verts thr selG = some opsG)
    (cF : ∀ i, (columnOf i opsF).length ≤ 255) (cG : ∀ i, (columnOf i opsG).length ≤ 255) :
    ∃ v u, tileGround height climb radius (fieldOf (tileGrid b ts radius tx ty) opsF) = some v ∧
      tileGround height climb radius (fieldOf (tileGrid b ts radius ux uy) opsG) = some u ∧
      ∀ X Y : Int, ShownBy ts tx X → ShownBy ts ty Y → ShownBy ts ux X → ShownBy ts uy Y →
        v (X - tileOrg ts radius tx).toNat (Y - tileOrg ts radius ty).toNat =
          u (X - tileOrg ts radius ux).toNat (Y - tileOrg ts radius uy).toNat :=
  tiles_agree_partial (worldCol b verts thr chunks) height climb radius ts h1 hts tx ty ux uy _ _
    ⟨rfl, rfl, fun _ _ a b' c d => raster_world hb (tileGrid_on b ts radius tx ty) hF rF a b' c d⟩
    ⟨rfl, rfl, fun _ _ a b' c d => raster_world hb (tileGrid_on b ts radius ux uy) hG rG a b' c d⟩ cF cG

end

/-! ## A case -/

theorem columnOf_length (i : Nat) (ops : List AddOp) : (columnOf i ops).length ≤ ops.length := by
  have key : ∀ (os : List AddOp) (l : List SpanV), (os.foldl (fun l op => insertSpan op.thr l op.span) l).length ≤ l.length + os.length := by
    intro os
    induction os with
    | nil => intro l; simp
    | cons o os ih =>
      intro l
      rw [List.foldl_cons]
      have := ih (insertSpan o.thr l o.span)
      have := insertSpan_length o.thr l o.span
      simp only [List.length_cons]
      omega
  have h1 := key (ops.filter fun op => op.cell = i) []
  have h2 := List.length_filter_le (fun op : AddOp => decide (op.cell = i)) ops
  unfold columnOf
  simp only [List.length_nil] at h1
  omega

/-- A world of 16 by 16 cells. -/
def seamGrid : Grid ℚ := ⟨⟨0, 0, 0⟩, ⟨16, 10, 16⟩, 1, 1, 16, 16⟩

/-- A triangle over the seam at `X = 8`, and one far from it. -/
def seamVerts : List (V3 ℚ) := [⟨13 / 2, 1, 5 / 2⟩, ⟨21 / 2, 2, 5 / 2⟩, ⟨8, 3, 6⟩, ⟨13, 1, 3⟩, ⟨15, 1, 3⟩, ⟨14, 1, 5⟩]

/-- The first tile takes only the first chunk, the second both; they agree about the cells at the seam, and there is something to
agree about. -/
example : ∃ opsF opsG v u, rasterPieces (tileGrid seamGrid 8 1 0 0) seamVerts 1 [([(0, 1, 2)], [63])] = some opsF ∧
    rasterPieces (tileGrid seamGrid 8 1 1 0) seamVerts 1 [([(0, 1, 2)], [63]), ([(3, 4, 5)], [63])] = some opsG ∧
    tileGround 3 1 1 (fieldOf (tileGrid seamGrid 8 1 0 0) opsF) = some v ∧ tileGround 3 1 1 (fieldOf (tileGrid seamGrid 8 1 1 0) opsG) = some u ∧
    (∀ X Y : Int, 7 ≤ X → X ≤ 8 → -1 ≤ Y → Y ≤ 8 → v (X + 4).toNat (Y + 4).toNat = u (X - 4).toNat (Y + 4).toNat) ∧
    (columnOf (12 + 7 * 16) opsF).length = 1 := by
  have l1 : (rasterPieces (tileGrid seamGrid 8 1 0 0) seamVerts 1 [([(0, 1, 2)], [63])]).map
      (fun ops => (ops.length, (columnOf (12 + 7 * 16) ops).length)) = some (15, 1) := by decide +kernel
  have l2 : (rasterPieces (tileGrid seamGrid 8 1 1 0) seamVerts 1 [([(0, 1, 2)], [63]), ([(3, 4, 5)], [63])]).map List.length = some 19 := by decide +kernel
  rw [Option.map_eq_some_iff] at l1 l2
  obtain ⟨opsF, e1, n1⟩ := l1
  obtain ⟨opsG, e2, n2⟩ := l2
  rw [Prod.mk.injEq] at n1
  obtain ⟨v, u, h1, h2, h3⟩ := tiles_from_mesh_partial seamGrid (by decide +kernel) seamVerts [([(0, 1, 2)], [63]), ([(3, 4, 5)], [63])]
    [([(0, 1, 2)], [63])] [([(0, 1, 2)], [63]), ([(3, 4, 5)], [63])] 1 3 1 1 8 (by decide) (by decide) 0 0 1 0
    (.keep _ (.skip (by
      intro i j k hm v0 v1 v2 q0 q1 q2 ho
      simp only [List.mem_cons, List.not_mem_nil, or_false, Prod.mk.injEq] at hm
      obtain ⟨rfl, rfl, rfl⟩ := hm
      cases q0; cases q1; cases q2
      have : (13 : ℚ) ≤ 12 := by
        have := ho.1
        have e : ((((⟨13, 1, 3⟩ : V3 ℚ).vmin ⟨15, 1, 3⟩).vmin ⟨14, 1, 5⟩).x) = 13 := by decide +kernel
        have e' : (tileGrid seamGrid 8 1 0 0).bmax.x = 12 := by decide +kernel
        rw [e'] at this
        exact e ▸ this
      norm_num at this) .nil))
    (.keep _ (.keep _ .nil)) opsF opsG e1 e2
    (fun i => (columnOf_length i opsF).trans (by omega)) (fun i => (columnOf_length i opsG).trans (by omega))
  refine ⟨opsF, opsG, v, u, e1, e2, h1, h2, fun X Y a b c d => ?_, n1.2⟩
  have := h3 X Y ⟨by omega, by omega⟩ ⟨by omega, by omega⟩ ⟨by omega, by omega⟩ ⟨by omega, by omega⟩
  simp only [tileOrg, borderSize] at this
  norm_num at this
  exact this

end Verif.Recast
