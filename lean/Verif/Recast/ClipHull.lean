/-
Splitting a convex polygon loses nothing: a point of the polygon on one side of the plane belongs
to the convex hull of that side's output (recast/rasterization.go:281-332, exact arithmetic).

The polygon lives in an abstract plane `Q2`; Recast/Rasterize maps it to the triangle in space.
-/
import Verif.Recast.Clip

namespace Verif.Recast

set_option linter.unusedSectionVars false

/-- A point of the plane of the triangle. -/
structure Q2 (K : Type) where
  /-- first coordinate -/
  u : K
  /-- second coordinate -/
  v : K

/-- An affine function of the plane. -/
structure Aff (K : Type) where
  /-- coefficient of the first coordinate -/
  a : K
  /-- coefficient of the second coordinate -/
  b : K
  /-- constant -/
  c : K

section
variable {K : Type} [Field K] [LinearOrder K] [IsStrictOrderedRing K]

/-- The value at a point. -/
def Aff.val (g : Aff K) (q : Q2 K) : K := g.a * q.u + g.b * q.v + g.c

/-- The value at a weighted sum of points of total weight `s`. -/
def Aff.cval (g : Aff K) (s x y : K) : K := g.a * x + g.b * y + g.c * s

/-- The point at parameter `t` from `p` to `q`. -/
def Q2.mix (p q : Q2 K) (t : K) : Q2 K := ⟨p.u + (q.u - p.u) * t, p.v + (q.v - p.v) * t⟩

theorem Aff.val_mix (g : Aff K) (p q : Q2 K) (t : K) :
    g.val (Q2.mix p q t) = g.val p + (g.val q - g.val p) * t := by
  simp only [Aff.val, Q2.mix]; ring

/-- Weighted sums of points of `L` with non-negative weights: total weight and coordinates. -/
inductive Cone (L : List (Q2 K)) : K → K → K → Prop
  | zero : Cone L 0 0 0
  | add {s x y : K} (q : Q2 K) (w : K) : q ∈ L → 0 ≤ w → Cone L s x y →
      Cone L (s + w) (x + w * q.u) (y + w * q.v)

/-- The convex hull. -/
def Hull (L : List (Q2 K)) (p : Q2 K) : Prop := Cone L 1 p.u p.v

theorem Cone.subset {L M : List (Q2 K)} (h : ∀ q ∈ L, q ∈ M) {s x y : K} (hc : Cone L s x y) :
    Cone M s x y := by
  induction hc with
  | zero => exact .zero
  | add q w hq hw _ ih => exact .add q w (h q hq) hw ih

theorem Cone.plus {L : List (Q2 K)} {s x y s' x' y' : K} (h : Cone L s x y)
    (h' : Cone L s' x' y') : Cone L (s + s') (x + x') (y + y') := by
  induction h' with
  | zero => simpa using h
  | @add s1 x1 y1 q w hq hw _ ih =>
    have := Cone.add q w hq hw ih
    have e1 : s + (s1 + w) = s + s1 + w := by ring
    have e2 : x + (x1 + w * q.u) = x + x1 + w * q.u := by ring
    have e3 : y + (y1 + w * q.v) = y + y1 + w * q.v := by ring
    rw [e1, e2, e3]; exact this

theorem Cone.scale {L : List (Q2 K)} {s x y k : K} (hk : 0 ≤ k) (h : Cone L s x y) :
    Cone L (k * s) (k * x) (k * y) := by
  induction h with
  | zero => simpa using Cone.zero
  | @add s1 x1 y1 q w hq hw _ ih =>
    have := Cone.add q (k * w) hq (mul_nonneg hk hw) ih
    have e1 : k * (s1 + w) = k * s1 + k * w := by ring
    have e2 : k * (x1 + w * q.u) = k * x1 + k * w * q.u := by ring
    have e3 : k * (y1 + w * q.v) = k * y1 + k * w * q.v := by ring
    rw [e1, e2, e3]; exact this

theorem Cone.one {L : List (Q2 K)} {q : Q2 K} (hq : q ∈ L) : Cone L 1 q.u q.v := by
  have := Cone.add q 1 hq zero_le_one (Cone.zero (L := L))
  simpa using this

theorem Cone.nonneg {L : List (Q2 K)} {s x y : K} (h : Cone L s x y) : 0 ≤ s := by
  induction h with
  | zero => exact le_rfl
  | add q w hq hw _ ih => exact add_nonneg ih hw

theorem Cone.of_zero {L : List (Q2 K)} {s x y : K} (h : Cone L s x y) (hs : s = 0) :
    x = 0 ∧ y = 0 := by
  induction h with
  | zero => exact ⟨rfl, rfl⟩
  | @add s1 x1 y1 q w hq hw hc ih =>
    have h1 := hc.nonneg
    have hw0 : w = 0 := by linarith
    have hs0 : s1 = 0 := by linarith
    obtain ⟨a, b⟩ := ih hs0
    rw [a, b, hw0]; simp

theorem Cone.val_nonneg {L : List (Q2 K)} (g : Aff K) (hg : ∀ q ∈ L, 0 ≤ g.val q) {s x y : K}
    (h : Cone L s x y) : 0 ≤ g.cval s x y := by
  induction h with
  | zero => simp [Aff.cval]
  | @add s1 x1 y1 q w hq hw hc ih =>
    have h1 := mul_nonneg hw (hg q hq)
    have e : g.cval (s1 + w) (x1 + w * q.u) (y1 + w * q.v) = g.cval s1 x1 y1 + w * g.val q := by
      simp only [Aff.cval, Aff.val]; ring
    rw [e]; linarith

/-- A strictly negative value at a weighted sum comes from some point. -/
theorem Cone.val_neg {L : List (Q2 K)} (g : Aff K) {s x y : K} (h : Cone L s x y)
    (hn : g.cval s x y < 0) : ∃ q ∈ L, g.val q < 0 := by
  by_contra hcon
  push Not at hcon
  exact absurd (h.val_nonneg g hcon) (not_le.2 hn)

/-- All values negative and a positive weight: negative value. -/
theorem Cone.neg_of {L : List (Q2 K)} (g : Aff K) (hg : ∀ q ∈ L, g.val q < 0) {s x y : K}
    (h : Cone L s x y) : g.cval s x y ≤ 0 ∧ (0 < s → g.cval s x y < 0) := by
  induction h with
  | zero => simp [Aff.cval]
  | @add s1 x1 y1 q w hq hw hc ih =>
    have e : g.cval (s1 + w) (x1 + w * q.u) (y1 + w * q.v) = g.cval s1 x1 y1 + w * g.val q := by
      simp only [Aff.cval, Aff.val]; ring
    have hq' := hg q hq
    have h1 : w * g.val q ≤ 0 := mul_nonpos_of_nonneg_of_nonpos hw hq'.le
    rw [e]
    refine ⟨by linarith [ih.1], fun hs => ?_⟩
    rcases lt_or_eq_of_le hw with hw' | hw'
    · have : w * g.val q < 0 := mul_neg_of_pos_of_neg hw' hq'
      linarith [ih.1]
    · have : 0 < s1 := by linarith
      linarith [ih.2 this]

theorem Cone.split {L : List (Q2 K)} (s : Q2 K → Bool) {t x y : K} (h : Cone L t x y) :
    ∃ t1 x1 y1 t2 x2 y2, Cone (L.filter s) t1 x1 y1 ∧ Cone (L.filter (fun q => !s q)) t2 x2 y2 ∧
      t = t1 + t2 ∧ x = x1 + x2 ∧ y = y1 + y2 := by
  induction h with
  | zero => exact ⟨0, 0, 0, 0, 0, 0, .zero, .zero, by simp, by simp, by simp⟩
  | @add t0 x0 y0 q w hq hw _ ih =>
    obtain ⟨t1, x1, y1, t2, x2, y2, c1, c2, rfl, rfl, rfl⟩ := ih
    cases hs : s q with
    | true =>
      refine ⟨_, _, _, _, _, _, Cone.add q w (List.mem_filter.2 ⟨hq, hs⟩) hw c1, c2, ?_, ?_, ?_⟩ <;>
        ring
    | false =>
      refine ⟨_, _, _, _, _, _, c1, Cone.add q w (List.mem_filter.2 ⟨hq, by simp [hs]⟩) hw c2,
        ?_, ?_, ?_⟩ <;> ring

/-! ## Crossing points -/

/-- The crossing points of the walk. -/
def crossLoop (g : Aff K) : Q2 K → List (Q2 K) → List (Q2 K)
  | _, [] => []
  | p, q :: l =>
    if decide (0 ≤ g.val p) ≠ decide (0 ≤ g.val q) then
      Q2.mix p q (g.val p / (g.val p - g.val q)) :: crossLoop g q l
    else crossLoop g q l

theorem cross_param (g : Aff K) (p q : Q2 K) (h : decide (0 ≤ g.val p) ≠ decide (0 ≤ g.val q)) :
    g.val p - g.val q ≠ 0 ∧ 0 ≤ g.val p / (g.val p - g.val q) ∧
    g.val p / (g.val p - g.val q) ≤ 1 := by
  rcases le_or_gt 0 (g.val p) with hp | hp
  · have hq : g.val q < 0 := by
      by_contra hq
      exact h (by simp [hp, not_lt.1 hq])
    have : 0 < g.val p - g.val q := by linarith
    exact ⟨this.ne', div_nonneg hp this.le, (div_le_one this).2 (by linarith)⟩
  · have hq : 0 ≤ g.val q := by
      by_contra hq
      exact h (by simp [hp, hq])
    have : g.val p - g.val q < 0 := by linarith
    exact ⟨this.ne, div_nonneg_of_nonpos hp.le this.le, (div_le_one_of_neg this).2 (by linarith)⟩

/-- The crossing point lies on the plane. -/
theorem cross_zero (g : Aff K) (p q : Q2 K) (h : decide (0 ≤ g.val p) ≠ decide (0 ≤ g.val q)) :
    g.val (Q2.mix p q (g.val p / (g.val p - g.val q))) = 0 := by
  obtain ⟨h0, -, -⟩ := cross_param g p q h
  rw [Aff.val_mix]
  field_simp
  ring

theorem mix_between (h : Aff K) (p q : Q2 K) {t : K} (h0 : 0 ≤ t) (h1 : t ≤ 1) :
    decide (0 ≤ h.val (Q2.mix p q t)) = decide (0 ≤ h.val p) ∨
    decide (0 ≤ h.val (Q2.mix p q t)) = decide (0 ≤ h.val q) := by
  rw [Aff.val_mix]
  have e : h.val p + (h.val q - h.val p) * t = h.val p * (1 - t) + h.val q * t := by ring
  rw [e]
  have t1 : 0 ≤ 1 - t := by linarith
  rcases le_or_gt 0 (h.val p) with hp | hp <;> rcases le_or_gt 0 (h.val q) with hq | hq
  · left
    have := add_nonneg (mul_nonneg hp t1) (mul_nonneg hq h0)
    simp [hp, this]
  · by_cases hz : 0 ≤ h.val p * (1 - t) + h.val q * t
    · left; simp [hp, hz]
    · right; rw [decide_eq_decide]; exact ⟨fun e => absurd e hz, fun e => absurd e (not_le.2 hq)⟩
  · by_cases hz : 0 ≤ h.val p * (1 - t) + h.val q * t
    · right; simp [hq, hz]
    · left; rw [decide_eq_decide]; exact ⟨fun e => absurd e hz, fun e => absurd e (not_le.2 hp)⟩
  · left
    have : h.val p * (1 - t) + h.val q * t < 0 := by
      rcases lt_or_eq_of_le h0 with h0' | h0'
      · have a := mul_neg_of_neg_of_pos hq h0'
        have b := mul_nonpos_of_nonpos_of_nonneg hp.le t1
        linarith
      · rw [← h0']; linarith
    rw [decide_eq_decide]
    exact ⟨fun e => absurd e (not_le.2 this), fun e => absurd e (not_le.2 hp)⟩

/-- The convexity invariant of a polygon. -/
def Convex (L : List (Q2 K)) : Prop := ∀ h : Aff K, ctr (L.map (fun q => decide (0 ≤ h.val q))) ≤ 2

/-- Any three points are convex. -/
theorem convex_three (p q r : Q2 K) : Convex [p, q, r] := by
  intro h
  simp only [List.map_cons, List.map_nil, ctr, List.getLast?_cons_cons, List.getLast?_singleton]
  generalize decide (0 ≤ h.val p) = a
  generalize decide (0 ≤ h.val q) = b
  generalize decide (0 ≤ h.val r) = c
  cases a <;> cases b <;> cases c <;> decide

/-- Splitting keeps convexity. -/
theorem Convex.divide {L : List (Q2 K)} (hL : Convex L) (g : Aff K) :
    Convex (divide g.val Q2.mix L).1 ∧ Convex (divide g.val Q2.mix L).2 := by
  have key : ∀ h : Aff K, _ := fun h =>
    divide_ctr g.val Q2.mix (fun q => decide (0 ≤ h.val q)) (fun p q hpq => by
      obtain ⟨-, h1, h2⟩ := cross_param g p q hpq
      exact mix_between h p q h1 h2) L
  exact ⟨fun h => (key h).1.trans (hL h), fun h => (key h).2.trans (hL h)⟩

/-- A crossing point separates the two sides in walking order. -/
theorem cross_between (g : Aff K) (w : Q2 K) (b : List (Q2 K)) : ∀ v,
    decide (0 ≤ g.val v) ≠ decide (0 ≤ g.val w) →
    ∃ x ∈ crossLoop g v (b ++ [w]), [x, w].Sublist (refineLoop g.val Q2.mix v (b ++ [w])) := by
  induction b with
  | nil =>
    intro v hvw
    refine ⟨Q2.mix v w (g.val v / (g.val v - g.val w)), ?_, ?_⟩
    · rw [List.nil_append, crossLoop, if_pos hvw]
      exact List.mem_cons_self
    · rw [List.nil_append, refineLoop, if_pos hvw]
      exact List.Sublist.refl _
  | cons q b ih =>
    intro v hvw
    by_cases hq : decide (0 ≤ g.val v) ≠ decide (0 ≤ g.val q)
    · refine ⟨Q2.mix v q (g.val v / (g.val v - g.val q)), ?_, ?_⟩
      · rw [List.cons_append, crossLoop, if_pos hq]; exact List.mem_cons_self
      · rw [List.cons_append, refineLoop, if_pos hq]
        refine List.Sublist.cons_cons _ (List.Sublist.cons _ ?_)
        rw [List.singleton_sublist]
        have : (refineLoop g.val Q2.mix q (b ++ [w])).getLast? = some w := by
          rw [refineLoop_getLast]; simp
        exact List.mem_of_getLast? this
    · have hq' : decide (0 ≤ g.val v) = decide (0 ≤ g.val q) := not_not.1 hq
      obtain ⟨x, hx, hs⟩ := ih q (by rw [← hq']; exact hvw)
      refine ⟨x, ?_, ?_⟩
      · rw [List.cons_append, crossLoop, if_neg hq]; exact hx
      · rw [List.cons_append, refineLoop, if_neg hq]; exact hs.cons _

theorem crossLoop_append (g : Aff K) (l : List (Q2 K)) : ∀ p v m,
    crossLoop g p (l ++ v :: m) = crossLoop g p (l ++ [v]) ++ crossLoop g v m := by
  induction l with
  | nil => intro p v m; simp only [List.nil_append, crossLoop]; split <;> simp
  | cons q l ih =>
    intro p v m
    simp only [List.cons_append, crossLoop, ih q v m]
    split <;> simp

/-- Two vertices on different sides with the crossing points alternating: four changes. -/
theorem four_changes (g h : Aff K) (L : List (Q2 K)) (p : Q2 K) (hp : L.getLast? = some p)
    (hL : Convex L) (hX : ∀ x ∈ crossLoop g p L, 0 ≤ h.val x)
    (v w : Q2 K) (a b c : List (Q2 K)) (hsplit : L = a ++ v :: (b ++ w :: c))
    (hvw : decide (0 ≤ g.val v) ≠ decide (0 ≤ g.val w)) (hv : h.val v < 0) (hw : h.val w < 0) :
    False := by
  have hR : ctr ((refineLoop g.val Q2.mix p L).map (fun q => decide (0 ≤ h.val q))) ≤ 2 := by
    have e : ctr ((refineLoop g.val Q2.mix p L).map (fun q => decide (0 ≤ h.val q)))
        = ctr (L.map (fun q => decide (0 ≤ h.val q))) := by
      unfold ctr
      simp only [List.getLast?_map, refineLoop_getLast, hp, Option.map_some]
      exact refineLoop_tr g.val Q2.mix (fun q => decide (0 ≤ h.val q)) (fun p q hpq => by
        obtain ⟨-, h1, h2⟩ := cross_param g p q hpq
        exact mix_between h p q h1 h2) L p
    rw [e]; exact hL h
  have eR : refineLoop g.val Q2.mix p L = refineLoop g.val Q2.mix p (a ++ [v]) ++
      (refineLoop g.val Q2.mix v (b ++ [w]) ++ refineLoop g.val Q2.mix w c) := by
    rw [hsplit, refineLoop_append g.val Q2.mix a p v, refineLoop_append g.val Q2.mix b v w]
  have eX : crossLoop g p L = crossLoop g p (a ++ [v]) ++
      (crossLoop g v (b ++ [w]) ++ crossLoop g w c) := by
    rw [hsplit, crossLoop_append g a p v, crossLoop_append g b v w]
  obtain ⟨x, hx, hxs⟩ := cross_between g w b v hvw
  have hx0 : 0 ≤ h.val x := hX x (by rw [eX]; simp [hx])
  have hvmem : [v].Sublist (refineLoop g.val Q2.mix p (a ++ [v])) := by
    rw [List.singleton_sublist]
    have : (refineLoop g.val Q2.mix p (a ++ [v])).getLast? = some v := by
      rw [refineLoop_getLast]; simp
    exact List.mem_of_getLast? this
  have nv : ¬ (0 ≤ h.val v) := not_le.2 hv
  have nw : ¬ (0 ≤ h.val w) := not_le.2 hw
  by_cases hpv : decide (0 ≤ g.val p) = decide (0 ≤ g.val w)
  · obtain ⟨x', hx', hxs'⟩ := cross_between g v a p (by rw [hpv]; exact fun e => hvw e.symm)
    have hx0' : 0 ≤ h.val x' := hX x' (by rw [eX]; simp [hx'])
    have hsub : [x', v, x, w].Sublist (refineLoop g.val Q2.mix p L) := by
      rw [eR]
      exact List.Sublist.append hxs' (hxs.trans (List.sublist_append_left _ _))
    have h4 := (ctr_sublist (hsub.map (fun q => decide (0 ≤ h.val q)))).trans hR
    have e4 : ctr ([x', v, x, w].map (fun q => decide (0 ≤ h.val q))) = 4 := by
      simp [ctr, tr, hx0, hx0', nv, nw]
    omega
  · rcases List.eq_nil_or_concat c with rfl | ⟨c', z, hc⟩
    · exfalso
      apply hpv
      have : L.getLast? = some w := by
        rw [hsplit]
        have : a ++ v :: (b ++ [w]) = (a ++ v :: b) ++ [w] := by simp
        rw [this, List.getLast?_concat]
      rw [hp] at this
      rw [Option.some.inj this]
    · rw [List.concat_eq_append] at hc
      have hz : z = p := by
        have e : a ++ v :: (b ++ w :: (c' ++ [z])) = (a ++ v :: (b ++ w :: c')) ++ [z] := by simp
        rw [hsplit, hc, e, List.getLast?_concat] at hp
        exact Option.some.inj hp
      subst hz
      obtain ⟨x', hx', hxs'⟩ := cross_between g z c' w (fun e => hpv e.symm)
      rw [← hc] at hx' hxs'
      have hx0' : 0 ≤ h.val x' := hX x' (by rw [eX]; simp [hx'])
      have hsub : [v, x, w, x'].Sublist (refineLoop g.val Q2.mix z L) := by
        rw [eR]
        refine List.Sublist.append hvmem (List.Sublist.append (l₁ := [x, w]) hxs ?_)
        exact (List.sublist_append_left [x'] [z]).trans hxs'
      have h4 := (ctr_sublist (hsub.map (fun q => decide (0 ≤ h.val q)))).trans hR
      have e4 : ctr ([v, x, w, x'].map (fun q => decide (0 ≤ h.val q))) = 4 := by
        simp [ctr, tr, hx0, hx0', nv, nw]
      omega

/-- No affine function that is non-negative at the crossing points is negative at vertices on both
sides. -/
theorem no_four (g h : Aff K) (L : List (Q2 K)) (p : Q2 K) (hp : L.getLast? = some p)
    (hL : Convex L) (hX : ∀ x ∈ crossLoop g p L, 0 ≤ h.val x) (v w : Q2 K) (hvL : v ∈ L)
    (hwL : w ∈ L) (hgv : 0 ≤ g.val v) (hgw : g.val w < 0) (hv : h.val v < 0) (hw : h.val w < 0) :
    False := by
  have hne : v ≠ w := by rintro rfl; exact absurd hgv (not_le.2 hgw)
  have d1 : decide (0 ≤ g.val v) ≠ decide (0 ≤ g.val w) := by simp [hgv, hgw]
  obtain ⟨a, r, har⟩ := List.append_of_mem hvL
  rw [har, List.mem_append, List.mem_cons] at hwL
  rcases hwL with hwa | rfl | hwr
  · obtain ⟨a1, a2, ha⟩ := List.append_of_mem hwa
    refine four_changes g h L p hp hL hX w v a1 a2 r ?_ (fun e => d1 e.symm) hw hv
    rw [har, ha]; simp
  · exact hne rfl
  · obtain ⟨b, c, hr⟩ := List.append_of_mem hwr
    exact four_changes g h L p hp hL hX v w a b c (by rw [har, hr]) d1 hv hw

/-- The crossing points and the vertices of a side are among its output. -/
theorem divideLoop_mem (g : Aff K) (l : List (Q2 K)) : ∀ p,
    (∀ x ∈ crossLoop g p l, x ∈ (divideLoop g.val Q2.mix p l).1 ∧
      x ∈ (divideLoop g.val Q2.mix p l).2) ∧
    (∀ q ∈ l, 0 ≤ g.val q → q ∈ (divideLoop g.val Q2.mix p l).1) ∧
    (∀ q ∈ l, g.val q < 0 → q ∈ (divideLoop g.val Q2.mix p l).2) := by
  induction l with
  | nil => intro p; simp [crossLoop]
  | cons q l ih =>
    intro p
    obtain ⟨h1, h2, h3⟩ := ih q
    rw [crossLoop, divideLoop]
    simp only
    split
    · rename_i hc
      have hx0 : g.val q = 0 → Q2.mix p q (g.val p / (g.val p - g.val q)) = q := by
        intro h0
        have hp : g.val p ≠ 0 := by
          intro e; exact hc (by rw [e, h0])
        rw [h0, sub_zero, div_self hp]
        cases p; cases q; simp [Q2.mix]
      split
      · rename_i hq
        refine ⟨?_, ?_, ?_⟩
        · intro x hx
          rw [List.mem_cons] at hx
          rcases hx with rfl | hx
          · simp
          · have := h1 x hx; simp [this]
        · intro r hr hg
          rw [List.mem_cons] at hr
          rcases hr with rfl | hr
          · simp
          · simp [h2 r hr hg]
        · intro r hr hg
          rw [List.mem_cons] at hr
          rcases hr with rfl | hr
          · exact absurd hg (not_lt.2 hq.le)
          · simp [h3 r hr hg]
      · split
        · rename_i hq
          refine ⟨?_, ?_, ?_⟩
          · intro x hx
            rw [List.mem_cons] at hx
            rcases hx with rfl | hx
            · simp
            · have := h1 x hx; simp [this]
          · intro r hr hg
            rw [List.mem_cons] at hr
            rcases hr with rfl | hr
            · exact absurd hq (not_lt.2 hg)
            · simp [h2 r hr hg]
          · intro r hr hg
            rw [List.mem_cons] at hr
            rcases hr with rfl | hr
            · simp
            · simp [h3 r hr hg]
        · rename_i hq1 hq2
          have hq0 : g.val q = 0 := le_antisymm (not_lt.1 hq1) (not_lt.1 hq2)
          refine ⟨?_, ?_, ?_⟩
          · intro x hx
            rw [List.mem_cons] at hx
            rcases hx with rfl | hx
            · simp
            · have := h1 x hx; simp [this]
          · intro r hr hg
            rw [List.mem_cons] at hr
            rcases hr with rfl | hr
            · rw [hx0 hq0]; simp
            · simp [h2 r hr hg]
          · intro r hr hg
            rw [List.mem_cons] at hr
            rcases hr with rfl | hr
            · exact absurd hg (by rw [hq0]; exact lt_irrefl _)
            · simp [h3 r hr hg]
    · split
      · rename_i hq
        split
        · refine ⟨?_, ?_, ?_⟩
          · intro x hx; have := h1 x hx; simp [this]
          · intro r hr hg
            rw [List.mem_cons] at hr
            rcases hr with rfl | hr
            · simp
            · simp [h2 r hr hg]
          · intro r hr hg
            rw [List.mem_cons] at hr
            rcases hr with rfl | hr
            · exact absurd hg (not_lt.2 hq)
            · exact h3 r hr hg
        · refine ⟨?_, ?_, ?_⟩
          · intro x hx; have := h1 x hx; simp [this]
          · intro r hr hg
            rw [List.mem_cons] at hr
            rcases hr with rfl | hr
            · simp
            · simp [h2 r hr hg]
          · intro r hr hg
            rw [List.mem_cons] at hr
            rcases hr with rfl | hr
            · exact absurd hg (not_lt.2 hq)
            · simp [h3 r hr hg]
      · rename_i hq
        refine ⟨?_, ?_, ?_⟩
        · intro x hx; have := h1 x hx; simp [this]
        · intro r hr hg
          rw [List.mem_cons] at hr
          rcases hr with rfl | hr
          · exact absurd hg hq
          · exact h2 r hr hg
        · intro r hr hg
          rw [List.mem_cons] at hr
          rcases hr with rfl | hr
          · simp
          · simp [h3 r hr hg]

/-! ## Points on the plane -/

theorem exists_min_of (τ : Q2 K → K) (x : Q2 K) (l : List (Q2 K)) :
    ∃ m ∈ x :: l, ∀ y ∈ x :: l, τ m ≤ τ y := by
  induction l generalizing x with
  | nil => exact ⟨x, List.mem_cons_self, fun y hy => by
      rw [List.mem_singleton] at hy; rw [hy]⟩
  | cons z l ih =>
    obtain ⟨m, hm, hmin⟩ := ih z
    rcases le_total (τ x) (τ m) with h | h
    · refine ⟨x, List.mem_cons_self, fun y hy => ?_⟩
      rw [List.mem_cons] at hy
      rcases hy with rfl | hy
      · exact le_rfl
      · exact h.trans (hmin y hy)
    · refine ⟨m, List.mem_cons_of_mem _ hm, fun y hy => ?_⟩
      rw [List.mem_cons] at hy
      rcases hy with rfl | hy
      · exact h
      · exact hmin y hy

/-- On the line `g = 0`, a weighted point that no affine function separates from a non-empty set of
points is a weighted sum of them. -/
theorem line_cone (g : Aff K) (hg : g.a ≠ 0 ∨ g.b ≠ 0) (X : List (Q2 K)) (hne : X ≠ [])
    (hX : ∀ x ∈ X, g.val x = 0) {s x y : K} (hs : 0 ≤ s) (h0 : g.cval s x y = 0)
    (hsep : ∀ h : Aff K, (∀ z ∈ X, 0 ≤ h.val z) → 0 ≤ h.cval s x y) : Cone X s x y := by
  have hn : 0 < g.a * g.a + g.b * g.b := by
    rcases hg with h | h
    · have := mul_self_pos.2 h
      have := mul_self_nonneg g.b
      linarith
    · have := mul_self_pos.2 h
      have := mul_self_nonneg g.a
      linarith
  obtain ⟨z, l, rfl⟩ : ∃ z l, X = z :: l := by
    cases X with
    | nil => exact absurd rfl hne
    | cons z l => exact ⟨z, l, rfl⟩
  let τ : Q2 K → K := fun q => -g.b * q.u + g.a * q.v
  obtain ⟨m, hm, hmin⟩ := exists_min_of τ z l
  obtain ⟨n, hn', hmax⟩ := exists_min_of (fun q => -τ q) z l
  have h1 := hsep ⟨-g.b, g.a, -τ m⟩ (fun q hq => by
    have := hmin q hq
    simp only [Aff.val]; simp only [τ] at this ⊢; linarith)
  have h2 := hsep ⟨g.b, -g.a, τ n⟩ (fun q hq => by
    have := hmax q hq
    simp only [Aff.val]; simp only [τ] at this ⊢; linarith)
  have hmn : τ m ≤ τ n := hmin n hn'
  -- weights
  obtain ⟨α, β, hα, hβ, hab, hT⟩ : ∃ α β : K, 0 ≤ α ∧ 0 ≤ β ∧ α + β = s ∧
      α * τ m + β * τ n = -g.b * x + g.a * y := by
    simp only [Aff.cval] at h1 h2
    rcases lt_or_eq_of_le hmn with hlt | heq
    · have hd : 0 < τ n - τ m := by linarith
      refine ⟨s - (-g.b * x + g.a * y - s * τ m) / (τ n - τ m),
        (-g.b * x + g.a * y - s * τ m) / (τ n - τ m), ?_, ?_, by ring, ?_⟩
      · rw [sub_nonneg, div_le_iff₀ hd]; linarith
      · exact div_nonneg (by linarith) hd.le
      · field_simp; ring
    · refine ⟨s, 0, hs, le_rfl, by ring, ?_⟩
      rw [← heq] at h2
      linarith
  have gm := hX m hm
  have gn := hX n hn'
  simp only [Aff.val] at gm gn
  simp only [Aff.cval] at h0
  simp only [τ] at hT
  have ex : x = α * m.u + β * n.u := by
    have : (g.a * g.a + g.b * g.b) * (x - (α * m.u + β * n.u)) = 0 := by
      linear_combination g.a * h0 - g.a * α * gm - g.a * β * gn + g.b * hT + g.a * g.c * hab
    have := (mul_eq_zero.1 this).resolve_left hn.ne'
    linarith
  have ey : y = α * m.v + β * n.v := by
    have : (g.a * g.a + g.b * g.b) * (y - (α * m.v + β * n.v)) = 0 := by
      linear_combination g.b * h0 - g.b * α * gm - g.b * β * gn - g.a * hT + g.b * g.c * hab
    have := (mul_eq_zero.1 this).resolve_left hn.ne'
    linarith
  have c1 := Cone.scale hα (Cone.one hm)
  have c2 := Cone.scale hβ (Cone.one hn')
  have := c1.plus c2
  rw [mul_one, mul_one, hab, ← ex, ← ey] at this
  exact this

theorem crossLoop_zero (g : Aff K) (l : List (Q2 K)) : ∀ p, ∀ x ∈ crossLoop g p l, g.val x = 0 := by
  induction l with
  | nil => intro p x hx; simp [crossLoop] at hx
  | cons q l ih =>
    intro p x hx
    rw [crossLoop] at hx
    split at hx
    · rename_i hc
      rw [List.mem_cons] at hx
      rcases hx with rfl | hx
      · exact cross_zero g p q hc
      · exact ih q x hx
    · exact ih q x hx

/-- The two parts of a weighted sum meet the plane inside the hull of the crossing points. -/
theorem parts_cross (g : Aff K) (L : List (Q2 K)) (p : Q2 K) (hp : L.getLast? = some p)
    (hL : Convex L) {t1 x1 y1 t2 x2 y2 : K}
    (c1 : Cone (L.filter (fun q => decide (0 ≤ g.val q))) t1 x1 y1)
    (c2 : Cone (L.filter (fun q => !decide (0 ≤ g.val q))) t2 x2 y2)
    (h1 : 0 < t1) (h2 : 0 < t2) :
    Cone (crossLoop g p L) (-g.cval t2 x2 y2 * t1 + g.cval t1 x1 y1 * t2)
      (-g.cval t2 x2 y2 * x1 + g.cval t1 x1 y1 * x2)
      (-g.cval t2 x2 y2 * y1 + g.cval t1 x1 y1 * y2) := by
  have hneg : ∀ q ∈ L.filter (fun q => !decide (0 ≤ g.val q)), g.val q < 0 := by
    intro q hq
    rw [List.mem_filter] at hq
    simpa using hq.2
  have hpos : ∀ q ∈ L.filter (fun q => decide (0 ≤ g.val q)), 0 ≤ g.val q := by
    intro q hq
    rw [List.mem_filter] at hq
    simpa using hq.2
  have g2 : g.cval t2 x2 y2 < 0 := (c2.neg_of g hneg).2 h2
  have g1 : 0 ≤ g.cval t1 x1 y1 := c1.val_nonneg g hpos
  -- a vertex on each side
  have ex1 : ∃ v ∈ L, 0 ≤ g.val v := by
    by_contra hcon
    push Not at hcon
    have hnil : L.filter (fun q => decide (0 ≤ g.val q)) = [] := by
      rw [List.filter_eq_nil_iff]
      intro q hq; simpa using hcon q hq
    rw [hnil] at c1
    have := c1.val_nonneg (⟨0, 0, -1⟩ : Aff K) (by simp)
    simp only [Aff.cval] at this
    linarith
  have ex2 : ∃ w ∈ L, g.val w < 0 := by
    obtain ⟨q, hq, hqn⟩ := c2.val_neg g g2
    exact ⟨q, (List.mem_filter.1 hq).1, hqn⟩
  obtain ⟨v, hv, hgv⟩ := ex1
  obtain ⟨w, hw, hgw⟩ := ex2
  refine line_cone g ?_ _ ?_ (crossLoop_zero g L p) ?_ ?_ ?_
  · by_contra hcon
    push Not at hcon
    simp only [Aff.val, hcon.1, hcon.2] at hgv hgw
    linarith
  · intro hnil
    exact no_four g ⟨0, 0, -1⟩ L p hp hL (by rw [hnil]; simp) v w hv hw hgv hgw
      (by simp [Aff.val]) (by simp [Aff.val])
  · have := mul_pos (neg_pos.2 g2) h1
    have := mul_nonneg g1 h2.le
    linarith
  · simp only [Aff.cval]; ring
  · intro h hh
    by_contra hcon
    have hcon := lt_of_not_ge hcon
    set γ1 := g.cval t1 x1 y1 with hγ1
    set γ2 := -g.cval t2 x2 y2 with hγ2
    have hγ2p : 0 < γ2 := by linarith
    have e : h.cval (γ2 * t1 + γ1 * t2) (γ2 * x1 + γ1 * x2) (γ2 * y1 + γ1 * y2)
        = γ2 * h.cval t1 x1 y1 + γ1 * h.cval t2 x2 y2 := by
      simp only [Aff.cval]; ring
    rw [e] at hcon
    set a := h.cval t1 x1 y1 with ha
    set b := h.cval t2 x2 y2 with hb
    let δ := -(γ2 * a + γ1 * b) / γ2
    have hδ : 0 < δ := div_pos (by linarith) hγ2p
    let μ := -b / γ2 - δ / (γ1 + 1)
    have hγ11 : 0 < γ1 + 1 := by linarith
    let h' : Aff K := ⟨h.a - μ * g.a, h.b - μ * g.b, h.c - μ * g.c⟩
    have ev : ∀ q, h'.val q = h.val q - μ * g.val q := by
      intro q; simp only [h', Aff.val]; ring
    have ec : ∀ s x y, h'.cval s x y = h.cval s x y - μ * g.cval s x y := by
      intro s x y; simp only [h', Aff.cval]; ring
    have n2 : h'.cval t2 x2 y2 < 0 := by
      rw [ec]
      have : g.cval t2 x2 y2 = -γ2 := by rw [hγ2]; ring
      rw [this, ← hb]
      have : b - μ * -γ2 = -(δ / (γ1 + 1) * γ2) := by
        simp only [μ]; field_simp; ring
      rw [this]
      have := mul_pos (div_pos hδ hγ11) hγ2p
      linarith
    have n1 : h'.cval t1 x1 y1 < 0 := by
      rw [ec, ← hγ1, ← ha]
      have : a - μ * γ1 = -(δ / (γ1 + 1)) := by
        simp only [μ, δ]; field_simp; ring
      rw [this]
      have := div_pos hδ hγ11
      linarith
    obtain ⟨v', hv', hvn⟩ := c1.val_neg h' n1
    obtain ⟨w', hw', hwn⟩ := c2.val_neg h' n2
    exact no_four g h' L p hp hL (fun x hx => by
      rw [ev, crossLoop_zero g L p x hx, mul_zero, sub_zero]; exact hh x hx) v' w'
      (List.mem_filter.1 hv').1 (List.mem_filter.1 hw').1 (hpos v' hv') (hneg w' hw') hvn hwn

/-- Nothing is lost by splitting: a point of the polygon on one side of the plane lies in the hull
of that side's output. -/
theorem divide_hull (g : Aff K) (L : List (Q2 K)) (hL : Convex L) (q : Q2 K) (hq : Hull L q) :
    (0 ≤ g.val q → Hull (divide g.val Q2.mix L).1 q) ∧
    (g.val q < 0 → Hull (divide g.val Q2.mix L).2 q) := by
  cases hp : L.getLast? with
  | none =>
    rw [List.getLast?_eq_none_iff] at hp
    subst hp
    have := Cone.val_nonneg (⟨0, 0, -1⟩ : Aff K) (by simp) hq
    simp only [Aff.cval] at this
    exfalso; linarith
  | some p =>
    rw [divide_eq g.val Q2.mix hp]
    obtain ⟨mx, mp, mn⟩ := divideLoop_mem g L p
    obtain ⟨t1, x1, y1, t2, x2, y2, c1, c2, et, ex, ey⟩ :=
      Cone.split (fun q => decide (0 ≤ g.val q)) hq
    have hneg : ∀ q ∈ L.filter (fun q => !decide (0 ≤ g.val q)), g.val q < 0 := by
      intro q hq
      rw [List.mem_filter] at hq
      simpa using hq.2
    have hpos : ∀ q ∈ L.filter (fun q => decide (0 ≤ g.val q)), 0 ≤ g.val q := by
      intro q hq
      rw [List.mem_filter] at hq
      simpa using hq.2
    have o1 : Cone (divideLoop g.val Q2.mix p L).1 t1 x1 y1 :=
      c1.subset (fun r hr => mp r (List.mem_filter.1 hr).1 (hpos r hr))
    have o2 : Cone (divideLoop g.val Q2.mix p L).2 t2 x2 y2 :=
      c2.subset (fun r hr => mn r (List.mem_filter.1 hr).1 (hneg r hr))
    have n1 := c1.nonneg
    have n2 := c2.nonneg
    have gsum : g.val q = g.cval t1 x1 y1 + g.cval t2 x2 y2 := by
      simp only [Aff.val, Aff.cval, ex, ey]
      linear_combination g.c * et
    constructor
    · intro hg
      rcases lt_or_eq_of_le n2 with h2 | h2
      · have g2 : g.cval t2 x2 y2 < 0 := (c2.neg_of g hneg).2 h2
        have g1 : 0 < g.cval t1 x1 y1 := by linarith
        have h1 : 0 < t1 := by
          rcases lt_or_eq_of_le n1 with h1 | h1
          · exact h1
          · obtain ⟨a, b⟩ := c1.of_zero h1.symm
            rw [← h1, a, b] at g1
            simp [Aff.cval] at g1
        have cx := (parts_cross g L p hp hL c1 c2 h1 h2).subset (fun x hx => (mx x hx).1)
        have s1 := Cone.scale (k := (g.cval t1 x1 y1 + g.cval t2 x2 y2) / g.cval t1 x1 y1)
          (div_nonneg (by linarith) g1.le) o1
        have s2 := Cone.scale (k := 1 / g.cval t1 x1 y1) (div_nonneg zero_le_one g1.le) cx
        have := s1.plus s2
        unfold Hull
        rw [et, ex, ey]
        have g1' := g1.ne'
        generalize g.cval t1 x1 y1 = γ1 at *
        generalize g.cval t2 x2 y2 = γ2 at *
        convert this using 1 <;> · field_simp; ring
      · obtain ⟨a, b⟩ := c2.of_zero h2.symm
        unfold Hull
        rw [et, ex, ey, a, b, ← h2]
        simpa using o1
    · intro hg
      have h2 : 0 < t2 := by
        rcases lt_or_eq_of_le n2 with h2 | h2
        · exact h2
        · obtain ⟨a, b⟩ := c2.of_zero h2.symm
          have := c1.val_nonneg g hpos
          rw [gsum, ← h2, a, b] at hg
          simp only [Aff.cval] at hg this
          linarith
      have g2 : g.cval t2 x2 y2 < 0 := (c2.neg_of g hneg).2 h2
      rcases lt_or_eq_of_le n1 with h1 | h1
      · have cx := (parts_cross g L p hp hL c1 c2 h1 h2).subset (fun x hx => (mx x hx).2)
        have s1 := Cone.scale (k := (g.cval t1 x1 y1 + g.cval t2 x2 y2) / g.cval t2 x2 y2)
          (div_nonneg_of_nonpos (by linarith) g2.le) o2
        have s2 := Cone.scale (k := -1 / g.cval t2 x2 y2)
          (div_nonneg_of_nonpos (by linarith) g2.le) cx
        have := s1.plus s2
        unfold Hull
        rw [et, ex, ey]
        have g2' := g2.ne
        generalize g.cval t1 x1 y1 = γ1 at *
        generalize g.cval t2 x2 y2 = γ2 at *
        convert this using 1 <;> · field_simp; ring
      · obtain ⟨a, b⟩ := c1.of_zero h1.symm
        unfold Hull
        rw [et, ex, ey, a, b, ← h1]
        simpa using o2

end
end Verif.Recast
