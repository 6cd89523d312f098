/-
The straight path of `FindStraightPath` (detour/query.go:415-657) in exact arithmetic: it stays in the corridor.

The model is that of `StraightPath.lean`, with points of the plane over an ordered field (the height takes no part in the
search for corners), exact areas, and `Approx` as equality. No crossings are asked for.
-/
import Verif.Detour.StraightCorners
import Mathlib.Tactic.Linarith
import Mathlib.Tactic.FieldSimp
import Mathlib.Tactic.LinearCombination
import Mathlib.Tactic.NormNum
import Mathlib.Algebra.Order.Ring.Unbundled.Rat
import Mathlib.Algebra.Field.Rat

namespace Verif.Detour

set_option linter.unusedSectionVars false

/-! ## Specification -/

section
variable {K : Type} [Field K] [LinearOrder K] [IsStrictOrderedRing K]

/-- Twice the area of a triangle: positive when `c` is to the right of the line from `a` to `b`. -/
def tri (a b c : K × K) : K := (c.1 - a.1) * (b.2 - a.2) - (b.1 - a.1) * (c.2 - a.2)

/-- The point at `t` between `p` and `q`. -/
def between (p q : K × K) (t : K) : K × K := (p.1 + t * (q.1 - p.1), p.2 + t * (q.2 - p.2))

/-- `x` is on the segment from `p` to `q`. -/
def OnSeg (x p q : K × K) : Prop := ∃ t, 0 ≤ t ∧ t ≤ 1 ∧ x = between p q t

/-- The segment from `A` to `C` passes through the portals `m`, …, `m' - 2`, one after the other. -/
def Passes (pl pr : Nat → K × K) (A C : K × K) (m m' : Nat) : Prop :=
  ∃ t : Nat → K, (∀ j, m ≤ j → j + 1 < m' → 0 ≤ t j ∧ t j ≤ 1 ∧ OnSeg (between A C (t j)) (pl j) (pr j)) ∧
    ∀ j k, m ≤ j → j ≤ k → k + 1 < m' → t j ≤ t k

/-- A corridor of `n` polygons with portals from `pl j` (left) to `pr j` (right). The portals in and out of a polygon are
different edges of a strictly convex polygon: each is in front of the one before, and behind the one after, up to a common end.
The start is in the first polygon, the end in the last. -/
structure ConvexCorridor (n : Nat) (pl pr : Nat → K × K) (S E : K × K) : Prop where
  proper : ∀ j, j + 1 < n → pl j ≠ pr j
  frontL : ∀ j, j + 2 < n → pl (j + 1) = pl j ∨ 0 < tri (pr j) (pl j) (pl (j + 1))
  frontR : ∀ j, j + 2 < n → pr (j + 1) = pr j ∨ 0 < tri (pr j) (pl j) (pr (j + 1))
  other : ∀ j, j + 2 < n → pl (j + 1) ≠ pl j ∨ pr (j + 1) ≠ pr j
  backL : ∀ j, j + 2 < n → pl (j + 1) = pl j ∨ tri (pr (j + 1)) (pl (j + 1)) (pl j) < 0
  backR : ∀ j, j + 2 < n → pr (j + 1) = pr j ∨ tri (pr (j + 1)) (pl (j + 1)) (pr j) < 0
  start : 1 < n → OnSeg S (pl 0) (pr 0) ∨ tri (pr 0) (pl 0) S < 0
  finish : ∀ j, j + 2 = n → 0 ≤ tri (pr j) (pl j) E

/-! ## Cones -/

theorem tri_self_left (a b : K × K) : tri a a b = 0 := by unfold tri; ring
theorem tri_self_right (a b : K × K) : tri a b b = 0 := by unfold tri; ring
theorem tri_self_outer (a b : K × K) : tri a b a = 0 := by unfold tri; ring
theorem tri_swap (a b c : K × K) : tri a b c = -tri a c b := by unfold tri; ring
theorem tri_rot (a b c : K × K) : tri a b c = tri b c a := by unfold tri; ring
theorem tri_split (A r l x : K × K) : tri r l x = tri A r l + tri A l x + tri A x r := by unfold tri; ring
theorem tri_coords (A L R x y : K × K) :
    tri A L R * tri A x y = -tri A R x * tri A L y - tri A L x * -tri A R y := by unfold tri; ring

/-- The portal from `l` to `r` goes across the cone at `A` between the directions of `L` and `R`, in front of `A`. -/
structure Across (A L R l r : K × K) : Prop where
  q1 : tri A L l ≤ 0
  q2 : 0 ≤ tri A R r
  q3 : 0 ≤ tri A L r
  q4 : tri A R l ≤ 0
  q5 : tri r l A ≤ 0

variable {A L R l r l' r' x : K × K}

theorem nonneg_of_mul {D y : K} (hD : 0 < D) (h : 0 ≤ D * y) : 0 ≤ y := by
  by_contra hc
  push Not at hc
  exact absurd h (not_le.2 (mul_neg_of_pos_of_neg hD hc))

theorem nonpos_of_mul {D y : K} (hD : 0 < D) (h : D * y ≤ 0) : y ≤ 0 := by
  by_contra hc
  push Not at hc
  exact absurd h (not_le.2 (mul_pos hD hc))

theorem Across.right (hD : 0 < tri A L R) (h : Across A L R l r) (h1 : tri A R x ≤ 0) (h2 : 0 < tri A L x) :
    Across A L x l r := by
  refine ⟨h.q1, nonneg_of_mul hD ?_, h.q3, nonpos_of_mul hD ?_, h.q5⟩
  · rw [tri_coords]
    have := mul_nonneg (neg_nonneg.2 h1) h.q3
    have := mul_nonneg h2.le h.q2
    linarith
  · rw [tri_coords]
    have := mul_nonneg (neg_nonneg.2 h1) (neg_nonneg.2 h.q1)
    have := mul_nonneg h2.le (neg_nonneg.2 h.q4)
    linarith

theorem Across.left (hD : 0 < tri A L R) (h : Across A L R l r) (h1 : 0 ≤ tri A L x) (h2 : tri A R x < 0) :
    Across A x R l r := by
  refine ⟨nonpos_of_mul hD ?_, h.q2, nonneg_of_mul hD ?_, h.q4, h.q5⟩
  · rw [tri_coords]
    have := mul_nonneg (neg_nonneg.2 h2.le) (neg_nonneg.2 h.q1)
    have := mul_nonneg h1 (neg_nonneg.2 h.q4)
    linarith
  · rw [tri_coords]
    have := mul_nonneg (neg_nonneg.2 h2.le) h.q3
    have := mul_nonneg h1 h.q2
    linarith

/-- The front of a portal in the coordinates of the cone. -/
theorem front_coords (A L R l r x : K × K) :
    tri A L R * tri r l x =
      (tri A L r - tri A L l) * -tri A R x + (tri A R r - tri A R l) * tri A L x + tri A L R * tri r l A := by
  unfold tri; ring

theorem eq_of_coords (hD : 0 < tri A L R) (h1 : tri A L l = tri A L r) (h2 : tri A R l = tri A R r) : l = r := by
  have e1 : tri A L R * l.1 = tri A L R * r.1 := by
    have : tri A L R * (l.1 - r.1) = (tri A L l - tri A L r) * (R.1 - A.1) - (tri A R l - tri A R r) * (L.1 - A.1) := by
      unfold tri; ring
    rw [h1, h2] at this
    linarith
  have e2 : tri A L R * l.2 = tri A L R * r.2 := by
    have : tri A L R * (l.2 - r.2) = (tri A L l - tri A L r) * (R.2 - A.2) - (tri A R l - tri A R r) * (L.2 - A.2) := by
      unfold tri; ring
    rw [h1, h2] at this
    linarith
  exact Prod.ext (mul_left_cancel₀ hD.ne' e1) (mul_left_cancel₀ hD.ne' e2)

/-- A point in front of a portal across the cone is not behind both sides of the cone. -/
theorem Across.front (hD : 0 < tri A L R) (h : Across A L R l r) (hne : l ≠ r) (hx : 0 ≤ tri r l x) :
    0 < tri A R x → 0 ≤ tri A L x := by
  intro ha
  by_contra hb
  push Not at hb
  have e := front_coords A L R l r x
  have h0 := mul_nonneg hD.le hx
  have h5 := mul_nonneg hD.le (neg_nonneg.2 h.q5)
  have hp : 0 ≤ tri A R r - tri A R l := by linarith [h.q2, h.q4]
  have hq : 0 ≤ tri A L r - tri A L l := by linarith [h.q1, h.q3]
  have m1 := mul_nonneg hq ha.le
  have m2 := mul_nonneg hp (neg_nonneg.2 hb.le)
  have z1 : (tri A L r - tri A L l) * tri A R x = 0 := by nlinarith
  have z2 : (tri A R r - tri A R l) * tri A L x = 0 := by nlinarith
  rcases mul_eq_zero.1 z1 with y1 | y1
  · rcases mul_eq_zero.1 z2 with y2 | y2
    · exact hne (eq_of_coords hD (by linarith) (by linarith))
    · linarith
  · linarith

/-- `A` is behind a portal across the cone when the one before is. -/
theorem Across.behind (hD : 0 < tri A L R) (h : Across A L R l' r') (q1 : tri A L l ≤ 0) (q2 : 0 ≤ tri A R r)
    (q3 : 0 ≤ tri A L r) (q4 : tri A R l ≤ 0) (hl : tri r l l' ≤ 0) (hr : tri r l r' ≤ 0) : tri r l A ≤ 0 := by
  have el := front_coords A L R l r l'
  have er := front_coords A L R l r r'
  have sl := mul_nonneg hD.le (neg_nonneg.2 hl)
  have sr := mul_nonneg hD.le (neg_nonneg.2 hr)
  have hp : 0 ≤ tri A R r - tri A R l := by linarith
  have hq : 0 ≤ tri A L r - tri A L l := by linarith
  have h5 := mul_nonneg hD.le (neg_nonneg.2 h.q5)
  have c' : -(tri A L R * tri r' l' A) = -tri A R l' * tri A L r' - tri A L l' * -tri A R r' := by
    unfold tri; ring
  refine nonpos_of_mul hD ?_
  rcases (sub_nonneg.2 (h.q1.trans h.q3)).eq_or_lt with hz | hz
  · have z1 : tri A L l' = 0 := by linarith [h.q1, h.q3]
    have := mul_nonneg hq (neg_nonneg.2 h.q4)
    rw [z1] at el
    linarith
  · have k1 := mul_nonneg h.q3 sl
    have k2 := mul_nonneg (neg_nonneg.2 h.q1) sr
    have k3 := mul_nonneg hq (h5.trans_eq (by rw [mul_neg, c']))
    refine nonpos_of_mul hz ?_
    have e1 : tri A L r' * (tri A L R * -tri r l l') = -(tri A L r' * (tri A L R * tri r l l')) := by ring
    have e2 : -tri A L l' * (tri A L R * -tri r l r') = tri A L l' * (tri A L R * tri r l r') := by ring
    rw [e1, el] at k1
    rw [e2, er] at k2
    nlinarith

/-! ## Crossing a portal -/

/-- Twice the area of the quadrilateral of `A`, `C` and the portal, as a product of diagonals: the speed at which one crosses
the portal from `A` to `C`. -/
def speed (A C l r : K × K) : K := tri A C r - tri A C l

theorem tri_between (A C l r : K × K) (t : K) : tri r l (between A C t) = tri r l A + t * speed A C l r := by
  unfold speed tri between; ring

theorem tri_far (A C l r : K × K) : tri r l C = tri r l A + speed A C l r := by
  unfold speed tri; ring

/-- When the portal is crossed. -/
def when (A C l r : K × K) : K := -tri r l A / speed A C l r

theorem between_zero (p q : K × K) : between p q 0 = p := by unfold between; simp

theorem between_one (p q : K × K) : between p q 1 = q := by unfold between; ext <;> simp

theorem OnSeg.front {x l r l' r' : K × K} (h : OnSeg x l r) (hl : 0 ≤ tri r' l' l) (hr : 0 ≤ tri r' l' r) :
    0 ≤ tri r' l' x := by
  obtain ⟨t, h0, h1, rfl⟩ := h
  have : tri r' l' (between l r t) = (1 - t) * tri r' l' l + t * tri r' l' r := by unfold tri between; ring
  rw [this]
  have := mul_nonneg (sub_nonneg.2 h1) hl
  have := mul_nonneg h0 hr
  linarith

theorem onSeg_left (l r : K × K) : OnSeg l l r := ⟨0, le_refl _, zero_le_one, (between_zero _ _).symm⟩
theorem onSeg_right (l r : K × K) : OnSeg r l r := ⟨1, zero_le_one, le_refl _, (between_one _ _).symm⟩

/-- Cramer's rule. -/
theorem coords_eq (A L R x : K × K) :
    tri A L R * (x.1 - A.1) = -tri A R x * (L.1 - A.1) + tri A L x * (R.1 - A.1) ∧
    tri A L R * (x.2 - A.2) = -tri A R x * (L.2 - A.2) + tri A L x * (R.2 - A.2) := by
  constructor <;> · unfold tri; ring

theorem onSeg_of_opposite {u : K × K} {D a c : K} (hD : 0 < D) (ha : 0 ≤ a) (hc : 0 ≤ c)
    (l1 : D * (l.1 - A.1) = a * u.1) (l2 : D * (l.2 - A.2) = a * u.2)
    (r1 : D * (r.1 - A.1) = -c * u.1) (r2 : D * (r.2 - A.2) = -c * u.2) : OnSeg A l r := by
  rcases ha.eq_or_lt with h0 | h0
  · rw [← h0, zero_mul] at l1 l2
    have e1 := (mul_eq_zero.1 l1).resolve_left hD.ne'
    have e2 := (mul_eq_zero.1 l2).resolve_left hD.ne'
    have : l = A := Prod.ext (by linarith) (by linarith)
    rw [this]
    exact onSeg_left _ _
  · have hs : 0 < a + c := by linarith
    refine ⟨a / (a + c), div_nonneg ha hs.le, (div_le_one₀ hs).2 (by linarith), ?_⟩
    have key : ∀ A1 l1 r1 u1 : K, D * (l1 - A1) = a * u1 → D * (r1 - A1) = -c * u1 → A1 = l1 + a / (a + c) * (r1 - l1) := by
      intro A1 l1 r1 u1 e1 e2
      have : D * ((a + c) * (l1 - A1) + a * (r1 - l1)) = 0 := by linear_combination c * e1 + a * e2
      have := (mul_eq_zero.1 this).resolve_left hD.ne'
      field_simp
      linarith
    exact Prod.ext (key _ _ _ _ l1 r1) (key _ _ _ _ l2 r2)

/-- A segment into the cone crosses every portal across the cone (`C` is not `A`). -/
theorem Across.cross {C : K × K} (hD : 0 < tri A L R) (h : Across A L R l r) (c1 : tri A R C ≤ 0) (c2 : 0 ≤ tri A L C)
    (hC : C ≠ A) : 0 ≤ speed A C l r ∧ 0 ≤ when A C l r ∧ OnSeg (between A C (when A C l r)) l r := by
  have b1 : tri A C l ≤ 0 := by
    refine nonpos_of_mul hD ?_
    rw [tri_coords]
    have := mul_nonneg (neg_nonneg.2 c1) (neg_nonneg.2 h.q1)
    have := mul_nonneg c2 (neg_nonneg.2 h.q4)
    linarith
  have b2 : 0 ≤ tri A C r := by
    refine nonneg_of_mul hD ?_
    rw [tri_coords]
    have := mul_nonneg (neg_nonneg.2 c1) h.q3
    have := mul_nonneg c2 h.q2
    linarith
  have hs : 0 ≤ speed A C l r := by unfold speed; linarith
  refine ⟨hs, div_nonneg (neg_nonneg.2 h.q5) hs, ?_⟩
  rcases hs.eq_or_lt with h0 | h0
  · unfold when
    rw [← h0, div_zero, between_zero]
    have z1 : tri A C l = 0 := by unfold speed at h0; linarith
    have z2 : tri A C r = 0 := by unfold speed at h0; linarith
    have d1 := tri_coords A L R C l
    have d2 := tri_coords A L R C r
    rw [z1, mul_zero] at d1
    rw [z2, mul_zero] at d2
    have m1 := mul_nonneg (neg_nonneg.2 c1) (neg_nonneg.2 h.q1)
    have m2 := mul_nonneg c2 (neg_nonneg.2 h.q4)
    have m3 := mul_nonneg (neg_nonneg.2 c1) h.q3
    have m4 := mul_nonneg c2 h.q2
    have y1 : tri A R C * tri A L l = 0 := by linarith
    have y2 : tri A L C * tri A R l = 0 := by linarith
    have y3 : tri A R C * tri A L r = 0 := by linarith
    have y4 : tri A L C * tri A R r = 0 := by linarith
    obtain ⟨l1, l2⟩ := coords_eq A L R l
    obtain ⟨r1, r2⟩ := coords_eq A L R r
    by_cases ha : tri A R C = 0
    · have hb : tri A L C ≠ 0 := by
        intro hb
        exact hC (eq_of_coords hD (by rw [hb, tri_self_outer]) (by rw [ha, tri_self_outer]))
      have x2 := (mul_eq_zero.1 y2).resolve_left hb
      have x4 := (mul_eq_zero.1 y4).resolve_left hb
      rw [x2] at l1 l2
      rw [x4] at r1 r2
      refine onSeg_of_opposite (u := (-(R.1 - A.1), -(R.2 - A.2))) hD (neg_nonneg.2 h.q1) h.q3 ?_ ?_ ?_ ?_
      · rw [l1]; ring
      · rw [l2]; ring
      · rw [r1]; ring
      · rw [r2]; ring
    · have x1 := (mul_eq_zero.1 y1).resolve_left ha
      have x3 := (mul_eq_zero.1 y3).resolve_left ha
      rw [x1] at l1 l2
      rw [x3] at r1 r2
      refine onSeg_of_opposite (u := ((L.1 - A.1), (L.2 - A.2))) hD (neg_nonneg.2 h.q4) h.q2 ?_ ?_ ?_ ?_
      · rw [l1]; ring
      · rw [l2]; ring
      · rw [r1]; ring
      · rw [r2]; ring
  · refine ⟨-tri A C l / speed A C l r, div_nonneg (neg_nonneg.2 b1) hs, (div_le_one₀ h0).2 (by unfold speed; linarith), ?_⟩
    unfold when between
    refine Prod.ext ?_ ?_
    · dsimp only
      field_simp
      unfold speed tri; ring
    · dsimp only
      field_simp
      unfold speed tri; ring

theorem when_le {C : K × K} {t : K} (hs : 0 ≤ speed A C l r) (ht : 0 ≤ t) (hx : 0 ≤ tri r l (between A C t)) :
    when A C l r ≤ t := by
  rw [tri_between] at hx
  unfold when
  rcases hs.eq_or_lt with h0 | h0
  · rw [← h0, div_zero]; exact ht
  · rw [div_le_iff₀ h0]; linarith

/-! ## Portals one after the other -/

variable {n : Nat} {pl pr : Nat → K × K} {S E : K × K}

theorem ConvexCorridor.frontL' (hc : ConvexCorridor n pl pr S E) {j : Nat} (hj : j + 2 < n) : 0 ≤ tri (pr j) (pl j) (pl (j + 1)) := by
  rcases hc.frontL j hj with h | h
  · rw [h, tri_self_right]
  · exact h.le

theorem ConvexCorridor.frontR' (hc : ConvexCorridor n pl pr S E) {j : Nat} (hj : j + 2 < n) : 0 ≤ tri (pr j) (pl j) (pr (j + 1)) := by
  rcases hc.frontR j hj with h | h
  · rw [h, tri_self_outer]
  · exact h.le

theorem ConvexCorridor.backL' (hc : ConvexCorridor n pl pr S E) {j : Nat} (hj : j + 2 < n) : tri (pr (j + 1)) (pl (j + 1)) (pl j) ≤ 0 := by
  rcases hc.backL j hj with h | h
  · rw [h, tri_self_right]
  · exact h.le

theorem ConvexCorridor.backR' (hc : ConvexCorridor n pl pr S E) {j : Nat} (hj : j + 2 < n) : tri (pr (j + 1)) (pl (j + 1)) (pr j) ≤ 0 := by
  rcases hc.backR j hj with h | h
  · rw [h, tri_self_outer]
  · exact h.le

/-- `A` is on the portals `m - 1`, …, `k - 1`. -/
def OnPortals (n : Nat) (pl pr : Nat → K × K) (A : K × K) (m k : Nat) : Prop :=
  ∀ j, m ≤ j + 1 → j < k → j + 1 < n → OnSeg A (pl j) (pr j)

theorem OnPortals.mono {m k k' : Nat} (h : OnPortals n pl pr A m k) (hk : k' ≤ k) : OnPortals n pl pr A m k' :=
  fun j h1 h2 h3 => h j h1 (by omega) h3

theorem OnPortals.passes {m m' k : Nat} {C : K × K} (h : OnPortals n pl pr A m k) (h1 : m' ≤ k + 1) (h2 : m' ≤ n) : Passes pl pr A C m m' := by
  refine ⟨fun _ => 0, fun j hm hj => ⟨le_refl _, zero_le_one, ?_⟩, fun _ _ _ _ _ => le_refl _⟩
  rw [between_zero]
  exact h j (by omega) (by omega) (by omega)

theorem Passes.extend {B : K × K} {m0 m m' k : Nat} (hp : Passes pl pr B A m0 m) (h : OnPortals n pl pr A m k) (h1 : m' ≤ k + 1)
    (h2 : m' ≤ n) : Passes pl pr B A m0 m' := by
  obtain ⟨t, ht, hm⟩ := hp
  refine ⟨fun j => if j + 1 < m then t j else 1, fun j hj hj' => ?_, fun j k hj hjk hk => ?_⟩
  · dsimp only
    split
    · rename_i h3
      exact ht j hj h3
    · rw [between_one]
      exact ⟨zero_le_one, le_refl _, h j (by omega) (by omega) (by omega)⟩
  · dsimp only
    split
    · rename_i h3
      split
      · rename_i h4
        exact hm j k hj hjk h4
      · exact (ht j hj h3).2.1
    · rename_i h3
      rw [if_neg (by omega)]

/-- Through the portals at `A`, then those across the cone. -/
theorem passes_cone (hc : ConvexCorridor n pl pr S E) {m k idx : Nat} {C : K × K} (hat : OnPortals n pl pr A m k) (hD : 0 < tri A L R)
    (hx : ∀ j, k ≤ j → j < idx → Across A L R (pl j) (pr j)) (c1 : tri A R C ≤ 0) (c2 : 0 ≤ tri A L C) (hC : C ≠ A)
    (hlast : ∀ j, j + 1 = idx → k ≤ j → 0 ≤ tri (pr j) (pl j) C) (hn : idx + 1 ≤ n) : Passes pl pr A C m (idx + 1) := by
  have hstep : ∀ j, k ≤ j → j + 1 < idx → when A C (pl j) (pr j) ≤ when A C (pl (j + 1)) (pr (j + 1)) := by
    intro j hj hj'
    obtain ⟨hs, _, _⟩ := (hx j hj (by omega)).cross hD c1 c2 hC
    obtain ⟨_, hw, hon⟩ := (hx (j + 1) (by omega) hj').cross hD c1 c2 hC
    exact when_le hs hw (hon.front (hc.frontL' (by omega)) (hc.frontR' (by omega)))
  have hmono : ∀ d j, k ≤ j → j + d < idx → when A C (pl j) (pr j) ≤ when A C (pl (j + d)) (pr (j + d)) := by
    intro d
    induction d with
    | zero => intro j _ _; exact le_refl _
    | succ d ih => intro j hj hd; exact (ih j hj (by omega)).trans (hstep (j + d) (by omega) (by omega))
  have hone : ∀ j, k ≤ j → j < idx → when A C (pl j) (pr j) ≤ 1 := by
    intro j hj hj'
    refine (hmono (idx - 1 - j) j hj (by omega)).trans ?_
    rw [show j + (idx - 1 - j) = idx - 1 by omega]
    obtain ⟨hs, _, _⟩ := (hx (idx - 1) (by omega) (by omega)).cross hD c1 c2 hC
    refine when_le hs zero_le_one ?_
    rw [between_one]
    exact hlast _ (by omega) (by omega)
  refine ⟨fun j => if j < k then 0 else when A C (pl j) (pr j), fun j hj hj' => ?_, fun j j' hj hjk hk => ?_⟩
  · dsimp only
    split
    · rw [between_zero]
      exact ⟨le_refl _, zero_le_one, hat j (by omega) (by omega) (by omega)⟩
    · obtain ⟨_, hw, hon⟩ := (hx j (by omega) (by omega)).cross hD c1 c2 hC
      exact ⟨hw, hone j (by omega) (by omega), hon⟩
  · dsimp only
    split
    · split
      · exact le_refl _
      · exact ((hx j' (by omega) (by omega)).cross hD c1 c2 hC).2.1
    · rw [if_neg (by omega)]
      have := hmono (j' - j) j (by omega) (by omega)
      rwa [show j + (j' - j) = j' by omega] at this

/-! ## The run -/

/-- The arithmetic is exact. -/
structure SGeo.Exact (g : SGeo (K × K) K) : Prop where
  approx : ∀ p q, g.approx p q = true ↔ p = q
  near : ∀ p l r, g.near p l r = true ↔ OnSeg p l r
  area : ∀ a b c, g.area a b c = tri a b c
  le0 : ∀ x, g.le0 x = true ↔ x ≤ 0
  ge0 : ∀ x, g.ge0 x = true ↔ 0 ≤ x
  lt0 : ∀ x, g.lt0 x = true ↔ x < 0
  gt0 : ∀ x, g.gt0 x = true ↔ 0 < x

theorem SGeo.Exact.plain {g : SGeo (K × K) K} (h : g.Exact) : g.Plain :=
  ⟨fun p => (h.approx p p).2 rfl, fun p q => by rw [h.le0, h.area, tri_self_left], fun p q => by rw [h.ge0, h.area, tri_self_left]⟩

/-- A straight path, last point first, with `m` polygons left behind: each point is one of the corridor (`Enters`), further on
than the one before, and the segment between them passes through the portals between them one after the other. The first
point is on the portals left behind at it. -/
inductive Walk (g : SGeo (K × K) K) (opts : U32) (startPos endPos : K × K) (path : List U32) (pl pr : Nat → K × K) :
    Nat → List (SPoint (K × K)) → Prop
  | one {m : Nat} {e : SPoint (K × K)} : Enters g opts startPos endPos path m e →
      (∀ j, j + 1 < m → OnSeg e.pos (pl j) (pr j)) → Walk g opts startPos endPos path pl pr m [e]
  | cons {m m' : Nat} {e e' : SPoint (K × K)} {rest : List (SPoint (K × K))} :
      Walk g opts startPos endPos path pl pr m (e :: rest) → m < m' → Enters g opts startPos endPos path m' e' →
      Passes pl pr e.pos e'.pos m m' → Walk g opts startPos endPos path pl pr m' (e' :: e :: rest)

variable {g : SGeo (K × K) K} {b : SBuf} {opts : U32} {startPos endPos : K × K} {path : List U32} {ce : K × K}

theorem Walk.merge {m m' k : Nat} {e e' : SPoint (K × K)} {rest : List (SPoint (K × K))}
    (h : Walk g opts startPos endPos path pl pr m (e :: rest)) (hat : OnPortals path.length pl pr e.pos m k) (h1 : m' ≤ k + 1)
    (h2 : m' ≤ path.length) (hm : m ≤ m') (he : Enters g opts startPos endPos path m' e') (hpos : e'.pos = e.pos) :
    Walk g opts startPos endPos path pl pr m' (e' :: rest) := by
  cases h with
  | one _ hon =>
    refine .one he fun j hj => ?_
    rw [hpos]
    by_cases hjm : j + 1 < m
    · exact hon j hjm
    · exact hat j (by omega) (by omega) (by omega)
  | cons hw hlt _ hp =>
    refine .cons hw (by omega) he ?_
    rw [hpos]
    exact hp.extend hat h1 h2

/-- Appending to a walk. -/
theorem Walk.append (hx : g.Exact) {m m' k : Nat} {e : SPoint (K × K)} {out out' : List (SPoint (K × K))} {st : Status}
    (h : Walk g opts startPos endPos path pl pr m out) (hA : ∃ l, out.head? = some l ∧ l.pos = A)
    (hv : appendVertex g b e out = some (out', st)) (hat : e.pos = A → OnPortals path.length pl pr A m k) (h1 : m' ≤ k + 1)
    (h2 : m' ≤ path.length) (hm : m ≤ m') (he : Enters g opts startPos endPos path m' e)
    (hp : e.pos ≠ A → m < m' ∧ Passes pl pr A e.pos m m') :
    Walk g opts startPos endPos path pl pr m' out' ∧ ∃ l, out'.head? = some l ∧ l.pos = e.pos := by
  cases out with
  | nil => obtain ⟨l, hl, _⟩ := hA; exact absurd hl (by simp)
  | cons last rest =>
    obtain ⟨l, hl, rfl⟩ := hA
    simp only [List.head?_cons, Option.some.injEq] at hl
    subst hl
    rw [appendVertex] at hv
    split at hv
    · rename_i ha
      rw [hx.approx] at ha
      split at hv
      · simp only [Option.some.injEq, Prod.mk.injEq] at hv
        obtain ⟨rfl, rfl⟩ := hv
        refine ⟨h.merge (hat ha) h1 h2 hm (by rw [← ha]; exact he) rfl, _, rfl, ha.symm⟩
      · exact absurd hv (by simp)
    · rename_i ha
      rw [hx.approx] at ha
      unfold appendNew at hv
      split at hv
      · simp only [Option.some.injEq, Prod.mk.injEq] at hv
        obtain ⟨rfl, rfl⟩ := hv
        obtain ⟨p1, p2⟩ := hp ha
        exact ⟨.cons h p1 he p2, _, rfl, rfl⟩
      · exact absurd hv (by simp)

/-- All portals are there. -/
def Joined (g : SGeo (K × K) K) (path : List U32) (pl pr : Nat → K × K) : Prop :=
  ∀ j, j + 1 < path.length → ∃ ty, g.portal (path[j]?.getD 0#32) (path[j + 1]?.getD 0#32) = some (pl j, pr j, ty)

theorem Joined.eq (hj : Joined g path pl pr) {k : Nat} {a c : U32} {l r : K × K} {ty : Byte} (ha : path[k]? = some a)
    (hc : path[k + 1]? = some c) (hp : g.portal a c = some (l, r, ty)) : l = pl k ∧ r = pr k ∧ k + 1 < path.length := by
  have hk := (List.getElem?_eq_some_iff.1 hc).1
  obtain ⟨ty', h⟩ := hj k hk
  rw [ha, hc] at h
  simp only [Option.getD_some] at h
  rw [hp] at h
  simp only [Option.some.injEq, Prod.mk.injEq] at h
  exact ⟨h.1, h.2.1, hk⟩

theorem EndOf.left_eq (hj : Joined g path pl pr) {k : Nat} {q : K × K} {ref : U32} {ty : Byte}
    (h : EndOf g path ce Prod.fst k q ref ty) : (k + 1 < path.length ∧ q = pl k) ∨ (k + 1 = path.length ∧ q = ce) := by
  rcases h with ⟨a, c, l, r, ha, hc, hp, rfl, rfl⟩ | ⟨hn, rfl, _⟩
  · obtain ⟨rfl, _, hk⟩ := hj.eq ha hc hp
    exact .inl ⟨hk, rfl⟩
  · exact .inr ⟨hn, rfl⟩

theorem EndOf.right_eq (hj : Joined g path pl pr) {k : Nat} {q : K × K} {ref : U32} {ty : Byte}
    (h : EndOf g path ce Prod.snd k q ref ty) : (k + 1 < path.length ∧ q = pr k) ∨ (k + 1 = path.length ∧ q = ce) := by
  rcases h with ⟨a, c, l, r, ha, hc, hp, rfl, rfl⟩ | ⟨hn, rfl, _⟩
  · obtain ⟨_, rfl, hk⟩ := hj.eq ha hc hp
    exact .inl ⟨hk, rfl⟩
  · exact .inr ⟨hn, rfl⟩

/-- The left side of the funnel. -/
def LeftAt (g : SGeo (K × K) K) (path : List U32) (ce : K × K) (s : SState (K × K)) : Prop :=
  EndOf g path ce Prod.fst s.li s.left s.lref s.ltype

/-- The right side of the funnel. -/
def RightAt (g : SGeo (K × K) K) (path : List U32) (ce : K × K) (s : SState (K × K)) : Prop :=
  EndOf g path ce Prod.snd s.ri s.right s.rref s.rtype

/-- `A` is behind the portal `i`, or at an end of it. -/
def Behind (pl pr : Nat → K × K) (A : K × K) (i : Nat) : Prop :=
  A = pl i ∨ A = pr i ∨ tri (pr i) (pl i) A < 0

/-- The funnel before a turn; `m` polygons are left behind at the apex. -/
inductive Phase (g : SGeo (K × K) K) (path : List U32) (pl pr : Nat → K × K) (cs ce : K × K) (m : Nat) (s : SState (K × K)) : Prop
  | first : s.i = 0 → m = 0 → s.left = s.apex → s.right = s.apex → s.apex = cs → 1 < path.length →
      Phase g path pl pr cs ce m s
  | fresh : 0 < s.i → s.i < path.length → m ≤ s.i → s.left = s.apex → s.right = s.apex →
      OnPortals path.length pl pr s.apex m s.i → (s.i + 1 < path.length → Behind pl pr s.apex s.i) → Phase g path pl pr cs ce m s
  | halfL {k : Nat} : s.i = k + 1 → k + 1 < path.length → m ≤ k → s.li = k → s.ri = k → s.left = s.apex → s.apex = pl k →
      s.right = pr k → LeftAt g path ce s → RightAt g path ce s → OnPortals path.length pl pr s.apex m (k + 1) →
      Phase g path pl pr cs ce m s
  | halfR {k : Nat} : s.i = k + 1 → k + 1 < path.length → m ≤ k → s.li = k → s.ri = k → s.right = s.apex → s.apex = pr k →
      s.left = pl k → LeftAt g path ce s → RightAt g path ce s → OnPortals path.length pl pr s.apex m (k + 1) →
      Phase g path pl pr cs ce m s
  | opened {k : Nat} : k < s.i → s.i < path.length → m ≤ k → k ≤ s.li → k ≤ s.ri → s.li < s.i → s.ri < s.i →
      LeftAt g path ce s → RightAt g path ce s → 0 < tri s.apex s.left s.right →
      (∀ j, k ≤ j → j < s.i → Across s.apex s.left s.right (pl j) (pr j)) → OnPortals path.length pl pr s.apex m k →
      Phase g path pl pr cs ce m s
  | ended : s.i = path.length → m ≤ path.length → (m = path.length → s.apex = ce) →
      OnPortals path.length pl pr s.apex m path.length → Phase g path pl pr cs ce m s

/-- The invariant of the loop. -/
def FInv (g : SGeo (K × K) K) (opts : U32) (startPos endPos : K × K) (path : List U32) (pl pr : Nat → K × K) (cs ce : K × K)
    (s : SState (K × K)) : Prop :=
  ∃ m, Walk g opts startPos endPos path pl pr m s.out ∧ (∃ l, s.out.head? = some l ∧ l.pos = s.apex) ∧
    Phase g path pl pr cs ce m s

/-- What a turn does. -/
def SNext.Inside (g : SGeo (K × K) K) (opts : U32) (startPos endPos : K × K) (path : List U32) (pl pr : Nat → K × K) (cs ce : K × K) :
    SNext (K × K) (SState (K × K)) → Prop
  | .go s => FInv g opts startPos endPos path pl pr cs ce s
  | .done out _ => ∃ m, Walk g opts startPos endPos path pl pr m out
  | .panic => True

variable {cs : K × K}

theorem corner_inside (hg : g.OK) (hx : g.Exact) (hc : ConvexCorridor path.length pl pr cs ce) (hj : Joined g path pl pr)
    (hopts : opts &&& 3#32 = 0#32) {re : U32} (hre : path.getLast? = some re) (hce : g.clamp re endPos = some ce)
    {pick : (K × K) × (K × K) → K × K} (hpick : ∀ x, pick x = x.1 ∨ pick x = x.2) {q : K × K} {idx m : Nat} {ref : U32} {ty : Byte}
    {s : SState (K × K)} (hw : Walk g opts startPos endPos path pl pr m s.out) (hA : ∃ l, s.out.head? = some l ∧ l.pos = s.apex)
    (hq : EndOf g path ce pick idx q ref ty) (hm : m ≤ idx) (hat : q = s.apex → OnPortals path.length pl pr s.apex m idx)
    (hp : q ≠ s.apex → Passes pl pr s.apex q m (idx + 1)) :
    SNext.Inside g opts startPos endPos path pl pr cs ce (corner g b path opts q idx ref ty s) := by
  have hle : idx + 1 ≤ path.length := by
    rcases hq with ⟨a, c, l, r, ha, hc', _⟩ | ⟨hn, _⟩
    · have := (List.getElem?_eq_some_iff.1 hc').1; omega
    · omega
  unfold corner appendPortals
  rw [if_pos hopts]
  dsimp only
  rw [if_neg (by simp)]
  split
  · trivial
  · rename_i out st hv
    obtain ⟨w1, w2⟩ := hw.append hx (k := idx) (m' := idx + 1) hA hv hat (by omega) hle (by omega)
      (hq.enters hg hpick hre hce (.inl rfl)) fun hne => ⟨by omega, hp hne⟩
    split
    · exact ⟨_, w1⟩
    · refine ⟨idx + 1, w1, w2, ?_⟩
      have hend : (idx + 1 < path.length ∧ (q = pl idx ∨ q = pr idx)) ∨ (idx + 1 = path.length ∧ q = ce) := by
        rcases hq with ⟨a, c, l, r, ha, hc', hpo, rfl, rfl⟩ | ⟨hn, rfl, _⟩
        · obtain ⟨rfl, rfl, hk⟩ := hj.eq ha hc' hpo
          exact .inl ⟨hk, hpick _⟩
        · exact .inr ⟨hn, rfl⟩
      rcases hend with ⟨hlt, hq'⟩ | ⟨hn, hq'⟩
      · refine .fresh (Nat.succ_pos _) hlt (le_refl _) rfl rfl ?_ ?_
        · intro j h1 h2 _
          have : j = idx := by dsimp only at h2; omega
          subst this
          dsimp only
          rcases hq' with rfl | rfl
          · exact onSeg_left _ _
          · exact onSeg_right _ _
        · intro h2
          dsimp only at h2 ⊢
          rcases hq' with rfl | rfl
          · rcases hc.backL idx h2 with h3 | h3
            · exact .inl h3.symm
            · exact .inr (.inr h3)
          · rcases hc.backR idx h2 with h3 | h3
            · exact .inr (.inl h3.symm)
            · exact .inr (.inr h3)
      · exact .ended hn (by omega) (fun _ => hq') fun j h1 h2 h3 => by omega

/-- What is known of the vertices of turn `i`. -/
def Vertices (path : List U32) (pl pr : Nat → K × K) (ce : K × K) (i : Nat) (l r : K × K) : Prop :=
  (i + 1 < path.length ∧ l = pl i ∧ r = pr i) ∨ (i + 1 = path.length ∧ l = ce ∧ r = ce)

theorem Vertices.front (hc : ConvexCorridor path.length pl pr cs ce) {i : Nat} {l r : K × K} (hv : Vertices path pl pr ce (i + 1) l r) :
    0 ≤ tri (pr i) (pl i) l ∧ 0 ≤ tri (pr i) (pl i) r := by
  rcases hv with ⟨h, rfl, rfl⟩ | ⟨h, rfl, rfl⟩
  · exact ⟨hc.frontL' h, hc.frontR' h⟩
  · exact ⟨hc.finish i h, hc.finish i h⟩

/-- The left vertex, when the funnel is open. -/
theorem left_opened (hg : g.OK) (hx : g.Exact) (hc : ConvexCorridor path.length pl pr cs ce) (hj : Joined g path pl pr)
    (hopts : opts &&& 3#32 = 0#32) {re : U32} (hre : path.getLast? = some re) (hce : g.clamp re endPos = some ce)
    {l r : K × K} {ty : Byte} {s : SState (K × K)} {m k : Nat} (hw : Walk g opts startPos endPos path pl pr m s.out)
    (hA : ∃ l, s.out.head? = some l ∧ l.pos = s.apex) (hki : k < s.i) (hi : s.i < path.length) (hmk : m ≤ k) (hkl : k ≤ s.li)
    (hkr : k ≤ s.ri) (hli : s.li < s.i) (hri : s.ri ≤ s.i) (hL : LeftAt g path ce s) (hR : RightAt g path ce s)
    (hD : 0 < tri s.apex s.left s.right) (hac : ∀ j, k ≤ j → j < s.i → Across s.apex s.left s.right (pl j) (pr j))
    (hat : OnPortals path.length pl pr s.apex m k) (hv : Vertices path pl pr ce s.i l r)
    (hl : EndOf g path ce Prod.fst s.i l (refAfter path s.i) ty)
    (r1 : 0 ≤ tri s.apex s.right r) (r2 : 0 ≤ tri s.apex s.left r) :
    SNext.Inside g opts startPos endPos path pl pr cs ce (leftVertex g b path opts l ty s) := by
  obtain ⟨i', hi'⟩ : ∃ i', s.i = i' + 1 := ⟨s.i - 1, by omega⟩
  have hfr := (hi' ▸ hv : Vertices path pl pr ce (i' + 1) l r).front hc
  have hprev := hac i' (by omega) (by omega)
  -- the cone of the next turn
  have hnext : ∀ L', s.i + 1 < path.length → 0 < tri s.apex L' s.right →
      (∀ j, k ≤ j → j < s.i → Across s.apex L' s.right (pl j) (pr j)) → tri s.apex L' l ≤ 0 → 0 ≤ tri s.apex L' r →
      tri s.apex s.right l ≤ 0 → ∀ j, k ≤ j → j < s.i + 1 → Across s.apex L' s.right (pl j) (pr j) := by
    intro L' hn hD' hac' a1 a2 a3 j h1 h2
    by_cases hji : j < s.i
    · exact hac' j h1 hji
    · have : j = s.i := by omega
      subst this
      rcases hv with ⟨_, rfl, rfl⟩ | ⟨h, _⟩
      · refine ⟨a1, r1, a2, a3, ?_⟩
        refine (hac' i' (by omega) (by omega)).behind hD' a1 r1 a2 a3 ?_ ?_
        · rw [hi']; exact hc.backL' (by omega)
        · rw [hi']; exact hc.backR' (by omega)
      · omega
  unfold leftVertex
  simp only [hx.area, hx.ge0, hx.lt0, Bool.or_eq_true, hx.approx]
  split
  · rename_i h1
    split
    · rename_i h2
      have h2 : tri s.apex s.right l < 0 := by
        rcases h2 with h2 | h2
        · rw [← h2, tri_self_left] at hD; exact absurd hD (lt_irrefl _)
        · exact h2
      have hn : s.i + 1 < path.length := by
        rcases hv with h3 | ⟨_, rfl, rfl⟩
        · exact h3.1
        · exact absurd h2 (not_lt.2 r1)
      have hD' : 0 < tri s.apex l s.right := by rw [tri_swap]; linarith
      refine ⟨m, hw, hA, .opened (k := k) (by dsimp only; omega) hn hmk (by dsimp only; omega) hkr (Nat.lt_succ_self _)
        (Nat.lt_succ_of_le hri) hl hR hD' ?_ hat⟩
      refine hnext l hn hD' (fun j h3 h4 => (hac j h3 h4).left hD h1 h2) (tri_self_right _ _).le ?_ h2.le
      refine nonneg_of_mul hD ?_
      rw [tri_coords]
      have := mul_nonneg (neg_nonneg.2 h2.le) r2
      have := mul_nonneg h1 r1
      linarith
    · have hne : s.right ≠ s.apex := by
        intro h; rw [h, tri_self_outer] at hD; exact absurd hD (lt_irrefl _)
      refine corner_inside hg hx hc hj hopts hre hce (fun _ => .inr rfl) hw hA hR (hmk.trans hkr) (fun h => absurd h hne) fun _ => ?_
      refine passes_cone hc hat hD (fun j h3 h4 => hac j h3 (by omega)) (tri_self_right _ _).le hD.le hne ?_ (by omega)
      intro j h3 h4
      have := hR.right_eq hj
      rw [← h3] at this
      rcases this with ⟨h5, h6⟩ | ⟨h5, h6⟩
      · rw [h6]; exact hc.frontR' h5
      · rw [h6]; exact hc.finish j h5
  · rename_i h1
    push Not at h1
    have hn : s.i + 1 < path.length := by
      rcases hv with h3 | ⟨_, rfl, rfl⟩
      · exact h3.1
      · exact absurd h1 (not_lt.2 r2)
    have h2 : tri s.apex s.right l ≤ 0 := by
      by_contra h3
      push Not at h3
      exact absurd h1 (not_lt.2 (hprev.front hD (hc.proper i' (by omega)) hfr.1 h3))
    refine ⟨m, hw, hA, .opened (k := k) (by dsimp only; omega) hn hmk hkl hkr (Nat.lt_succ_of_lt hli)
        (Nat.lt_succ_of_le hri) hL hR hD ?_ hat⟩
    exact hnext s.left hn hD hac h1.le r2 h2

theorem right_inside (hg : g.OK) (hx : g.Exact) (hc : ConvexCorridor path.length pl pr cs ce) (hj : Joined g path pl pr)
    (hopts : opts &&& 3#32 = 0#32) {re : U32} (hre : path.getLast? = some re) (hce : g.clamp re endPos = some ce)
    {l r : K × K} {ty : Byte} {s : SState (K × K)} {m : Nat} (hw : Walk g opts startPos endPos path pl pr m s.out)
    (hA : ∃ l, s.out.head? = some l ∧ l.pos = s.apex) (hi : s.i < path.length) (hph : Phase g path pl pr cs ce m s)
    (hnear : s.i = 0 → 1 < path.length → ¬ OnSeg s.apex (pl 0) (pr 0))
    (hv : Vertices path pl pr ce s.i l r) (hl : EndOf g path ce Prod.fst s.i l (refAfter path s.i) ty)
    (hr : EndOf g path ce Prod.snd s.i r (refAfter path s.i) ty) :
    SNext.Inside g opts startPos endPos path pl pr cs ce (rightVertex g b path opts l r ty s) := by
  -- both sides at the apex
  have hfresh : s.left = s.apex → s.right = s.apex → m ≤ s.i → OnPortals path.length pl pr s.apex m s.i →
      (s.i + 1 < path.length → Behind pl pr s.apex s.i) →
      SNext.Inside g opts startPos endPos path pl pr cs ce (rightVertex g b path opts l r ty s) := by
    intro hsl hsr hmi hat hbe
    unfold rightVertex leftVertex
    simp only [hx.area, hx.le0, hx.ge0, hsl, hsr, tri_self_left, le_refl, if_true, hx.plain.approx, Bool.true_or]
    refine ⟨m, hw, hA, ?_⟩
    rcases hv with ⟨h, rfl, rfl⟩ | ⟨h, rfl, rfl⟩
    · rcases hbe h with hb | hb | hb
      · refine .halfL (k := s.i) rfl h hmi rfl rfl hb.symm hb rfl hl hr ?_
        intro j h1 h2 h3
        by_cases h4 : j < s.i
        · exact hat j h1 h4 h3
        · have : j = s.i := by omega
          subst this
          dsimp only
          rw [hb]
          exact onSeg_left _ _
      · refine .halfR (k := s.i) rfl h hmi rfl rfl hb.symm hb rfl hl hr ?_
        intro j h1 h2 h3
        by_cases h4 : j < s.i
        · exact hat j h1 h4 h3
        · have : j = s.i := by omega
          subst this
          dsimp only
          rw [hb]
          exact onSeg_right _ _
      · have hD : 0 < tri s.apex (pl s.i) (pr s.i) := by
          have : tri s.apex (pl s.i) (pr s.i) = -tri (pr s.i) (pl s.i) s.apex := by unfold tri; ring
          linarith
        refine .opened (k := s.i) (Nat.lt_succ_self _) h hmi (le_refl _) (le_refl _) (Nat.lt_succ_self _) (Nat.lt_succ_self _) hl hr
          hD ?_ hat
        intro j h1 h2
        have : j = s.i := by dsimp only at h2; omega
        subst this
        refine ⟨(tri_self_right _ _).le, (tri_self_right _ _).ge, hD.le, ?_, hb.le⟩
        dsimp only
        rw [tri_swap]
        linarith
    · exact .ended h (by omega) (fun h2 => by omega) fun j h1 h2 h3 => hat j h1 (by omega) h3
  cases hph with
  | first h0 hm hsl hsr hcs hn =>
    refine hfresh hsl hsr (by omega) (fun j h1 h2 h3 => by omega) fun h2 => ?_
    rw [h0]
    rcases hc.start hn with h3 | h3
    · exact absurd (hcs ▸ h3) (hnear h0 hn)
    · exact .inr (.inr (hcs ▸ h3))
  | fresh h0 h1 hm hsl hsr hat hbe => exact hfresh hsl hsr hm hat hbe
  | @halfL k hik hk hm hli hri hsl hap hsr hL hR hat =>
    have hfr := (hik ▸ hv : Vertices path pl pr ce (k + 1) l r).front hc
    have h1 : tri s.apex s.right r ≤ 0 := by
      have : tri (pl k) (pr k) r = -tri (pr k) (pl k) r := by unfold tri; ring
      rw [hap, hsr, this]
      linarith
    unfold rightVertex
    simp only [hx.area, hx.le0, hx.gt0, Bool.or_eq_true, hx.approx]
    rw [if_pos h1, if_neg]
    · refine corner_inside hg hx hc hj hopts hre hce (fun _ => .inl rfl) hw hA hL (by omega) (fun _ => hat.mono (by omega)) fun h => absurd hsl h
    · rintro (h2 | h2)
      · rw [hap, hsr] at h2
        exact hc.proper k hk h2
      · rw [hsl, tri_self_left] at h2
        exact absurd h2 (lt_irrefl _)
  | @halfR k hik hk hm hli hri hsr hap hsl hL hR hat =>
    have hfr := (hik ▸ hv : Vertices path pl pr ce (k + 1) l r).front hc
    unfold rightVertex
    simp only [hx.area, hx.le0, hx.gt0, Bool.or_eq_true, hx.approx, hsr, tri_self_left, le_refl, if_true, true_or]
    unfold leftVertex
    simp only [hx.area, hx.ge0, hx.lt0, Bool.or_eq_true, hx.approx]
    rw [if_pos (by rw [hap, hsl]; exact hfr.1)]
    have hne : s.apex ≠ s.left := by
      rw [hap, hsl]; exact (hc.proper k hk).symm
    by_cases h2 : tri s.apex r l < 0
    · rw [if_pos (.inr h2)]
      rcases hv with ⟨h, rfl, rfl⟩ | ⟨h, rfl, rfl⟩
      · have hD : 0 < tri s.apex (pl s.i) (pr s.i) := by rw [tri_swap]; linarith
        refine ⟨m, hw, hA, .opened (k := s.i) (Nat.lt_succ_self _) h (by omega) (le_refl _) (le_refl _) (Nat.lt_succ_self _)
          (Nat.lt_succ_self _) hl hr hD ?_ (by rw [hik]; exact hat)⟩
        intro j h3 h4
        have : j = s.i := by dsimp only at h4; omega
        subst this
        refine ⟨(tri_self_right _ _).le, (tri_self_right _ _).ge, hD.le, h2.le, ?_⟩
        rw [← tri_rot]
        exact h2.le
      · rw [tri_self_right] at h2
        exact absurd h2 (lt_irrefl _)
    · rw [if_neg (by rintro (h3 | h3); exacts [hne h3, h2 h3])]
      refine corner_inside (s := { s with right := r, rref := refAfter path s.i, rtype := ty, ri := s.i }) hg hx hc hj hopts hre hce
        (fun _ => .inr rfl) hw hA hr (by omega) (fun _ => hat.mono (by omega)) fun _ => ?_
      exact hat.passes (by omega) (by omega)
  | @opened k hki _ hm hkl hkr hli hri hL hR hD hac hat =>
    obtain ⟨i', hi'⟩ : ∃ i', s.i = i' + 1 := ⟨s.i - 1, by omega⟩
    have hfr := (hi' ▸ hv : Vertices path pl pr ce (i' + 1) l r).front hc
    unfold rightVertex
    simp only [hx.area, hx.le0, hx.gt0, Bool.or_eq_true, hx.approx]
    split
    · rename_i h1
      split
      · rename_i h2
        have h2 : 0 < tri s.apex s.left r := by
          rcases h2 with h2 | h2
          · rw [← h2, tri_self_outer] at hD; exact absurd hD (lt_irrefl _)
          · exact h2
        exact left_opened (s := { s with right := r, rref := refAfter path s.i, rtype := ty, ri := s.i }) hg hx hc hj hopts hre hce
          hw hA hki hi hm hkl (by dsimp only; omega) hli (le_refl _) hL hr h2 (fun j h3 h4 => (hac j h3 h4).right hD h1 h2) hat hv hl
          (tri_self_right _ _).ge h2.le
      · have hne : s.left ≠ s.apex := by
          intro h; rw [h, tri_self_left] at hD; exact absurd hD (lt_irrefl _)
        refine corner_inside hg hx hc hj hopts hre hce (fun _ => .inl rfl) hw hA hL (hm.trans hkl) (fun h => absurd h hne) fun _ => ?_
        refine passes_cone hc hat hD (fun j h3 h4 => hac j h3 (by omega)) ?_ (tri_self_right _ _).ge hne ?_ (by omega)
        · rw [tri_swap]; linarith
        · intro j h3 h4
          have := hL.left_eq hj
          rw [← h3] at this
          rcases this with ⟨h5, h6⟩ | ⟨h5, h6⟩
          · rw [h6]; exact hc.frontL' h5
          · rw [h6]; exact hc.finish j h5
    · rename_i h1
      push Not at h1
      exact left_opened hg hx hc hj hopts hre hce hw hA hki hi hm hkl hkr hli hri.le hL hR hD hac hat hv hl h1.le
        ((hac i' (by omega) (by omega)).front hD (hc.proper i' (by omega)) hfr.2 h1)
  | ended h => omega

theorem turn_inside (hg : g.OK) (hx : g.Exact) (hc : ConvexCorridor path.length pl pr cs ce) (hj : Joined g path pl pr)
    (hopts : opts &&& 3#32 = 0#32) {re : U32} (hre : path.getLast? = some re) (hce : g.clamp re endPos = some ce)
    {s : SState (K × K)} (h : FInv g opts startPos endPos path pl pr cs ce s) (hi : s.i < path.length) :
    SNext.Inside g opts startPos endPos path pl pr cs ce (turn g b path opts endPos ce s) := by
  obtain ⟨m, hw, hA, hph⟩ := h
  have ha : path[s.i]? = some path[s.i] := List.getElem?_eq_getElem hi
  unfold turn
  split
  · rename_i hn
    have hc' : path[s.i + 1]? = some path[s.i + 1] := List.getElem?_eq_getElem hn
    obtain ⟨ty, hp⟩ := hj s.i hn
    rw [hp]
    dsimp only
    have hp' : g.portal path[s.i] path[s.i + 1] = some (pl s.i, pr s.i, ty) := by
      rw [ha, hc'] at hp; exact hp
    have hrf : refAfter path s.i = path[s.i + 1] := by unfold refAfter; rw [hc']; rfl
    split
    · rename_i hz
      obtain ⟨h0, hz⟩ := hz
      rw [hx.near, h0] at hz
      refine ⟨m, hw, hA, ?_⟩
      cases hph with
      | first _ hm hsl hsr hcs hn' =>
        refine .fresh Nat.one_pos hn' (by dsimp only; omega) hsl hsr ?_ ?_
        · intro j h1 h2 h3
          have : j = 0 := by dsimp only at h2; omega
          subst this
          exact hz
        · intro h2
          dsimp only at h2 ⊢
          obtain ⟨t, t0, t1, e⟩ := hz
          have hl := hc.backL' (j := 0) (by omega)
          have hr := hc.backR' (j := 0) (by omega)
          have e' : tri (pr 1) (pl 1) s.apex = (1 - t) * tri (pr 1) (pl 1) (pl 0) + t * tri (pr 1) (pl 1) (pr 0) := by
            rw [e]; unfold tri between; ring
          rcases t0.eq_or_lt with h3 | h3
          · have : s.apex = pl 0 := by rw [e, ← h3, between_zero]
            rcases hc.backL 0 (by omega) with h4 | h4
            · exact .inl (by rw [this, ← h4])
            · exact .inr (.inr (by rw [this]; exact h4))
          · rcases t1.eq_or_lt with h5 | h5
            · have : s.apex = pr 0 := by rw [e, h5, between_one]
              rcases hc.backR 0 (by omega) with h4 | h4
              · exact .inr (.inl (by rw [this, ← h4]))
              · exact .inr (.inr (by rw [this]; exact h4))
            · refine .inr (.inr ?_)
              rw [e']
              have k1 : 0 < 1 - t := by linarith
              rcases hc.backL 0 (by omega) with h4 | h4
              · rcases hc.backR 0 (by omega) with h6 | h6
                · rcases hc.other 0 (by omega) with h7 | h7
                  · exact absurd h4 h7
                  · exact absurd h6 h7
                · have := mul_neg_of_pos_of_neg h3 h6
                  have := mul_nonneg k1.le (neg_nonneg.2 hl)
                  rw [Nat.zero_add] at *
                  linarith
              · have := mul_neg_of_pos_of_neg k1 h4
                have := mul_nonneg h3.le (neg_nonneg.2 hr)
                rw [Nat.zero_add] at *
                linarith
      | fresh h1 => omega
      | halfL h1 => omega
      | halfR h1 => omega
      | opened h1 => omega
      | ended h1 => omega
    · rename_i hz
      refine right_inside hg hx hc hj hopts hre hce hw hA hi hph ?_ (.inl ⟨hn, rfl, rfl⟩) (.inl ⟨_, _, _, _, ha, hc', hp', rfl, hrf⟩)
        (.inl ⟨_, _, _, _, ha, hc', hp', rfl, hrf⟩)
      intro h0 _ hon
      refine hz ⟨h0, ?_⟩
      rw [hx.near, h0]
      exact hon
  · rename_i hn
    have hn : s.i + 1 = path.length := by omega
    have hrf : refAfter path s.i = 0#32 := by
      unfold refAfter; rw [List.getElem?_eq_none (by omega)]; rfl
    exact right_inside hg hx hc hj hopts hre hce hw hA hi hph (fun h0 h1 => by omega) (.inr ⟨hn, rfl, rfl⟩) (.inr ⟨hn, rfl, hrf⟩)
      (.inr ⟨hn, rfl, hrf⟩)

theorem straightLoop_inside (hg : g.OK) (hx : g.Exact) (hc : ConvexCorridor path.length pl pr cs ce) (hj : Joined g path pl pr)
    (hopts : opts &&& 3#32 = 0#32) {re : U32} (hre : path.getLast? = some re) (hce : g.clamp re endPos = some ce) (fuel : Nat)
    {s : SState (K × K)} (h : FInv g opts startPos endPos path pl pr cs ce s) {out : List (SPoint (K × K))} {st : Status}
    (he : straightLoop g b path opts endPos ce fuel s = .done out st) :
    ∃ m, Walk g opts startPos endPos path pl pr m out.reverse := by
  induction fuel generalizing s with
  | zero => exact absurd he (by simp [straightLoop])
  | succ fuel ih =>
    rw [straightLoop] at he
    split at he
    · rename_i hn
      obtain ⟨m, hw, hA, hph⟩ := h
      have hend : m ≤ path.length ∧ (m = path.length → s.apex = ce) ∧ OnPortals path.length pl pr s.apex m path.length := by
        cases hph with
        | first => omega
        | fresh => omega
        | halfL => omega
        | halfR => omega
        | opened => omega
        | ended _ h1 h2 h3 => exact ⟨h1, h2, h3⟩
      obtain ⟨h1, h2, h3⟩ := hend
      unfold afterLoop appendPortals at he
      rw [if_pos hopts] at he
      dsimp only at he
      rw [if_neg (by simp)] at he
      unfold endPath at he
      split at he
      · exact absurd he (by simp)
      · rename_i o st' hv
        simp only [SOut.done.injEq] at he
        rw [← he.1, List.reverse_reverse]
        refine ⟨_, (hw.append hx hA hv (fun _ => h3) (by omega) (le_refl _) h1 (.finish hre hce (.inl rfl)) fun hne => ?_).1⟩
        have : m ≠ path.length := fun h4 => hne (h2 h4).symm
        exact ⟨by omega, h3.passes (by omega) (le_refl _)⟩
    · rename_i hn
      have ht := turn_inside (b := b) hg hx hc hj hopts hre hce h (by omega)
      split at he
      · rename_i s' hs
        rw [hs] at ht
        exact ih ht he
      · rename_i o st' hs
        rw [hs] at ht
        simp only [SOut.done.injEq] at he
        rw [← he.1, List.reverse_reverse]
        exact ht
      · exact absurd he (by simp)

theorem findStraight_walk (hg : g.OK) (hx : g.Exact) {r0 re : U32} (hr0 : path.head? = some r0) (hre : path.getLast? = some re)
    (hcs : g.clamp r0 startPos = some cs) (hce : g.clamp re endPos = some ce) (hj : Joined g path pl pr)
    (hc : ConvexCorridor path.length pl pr cs ce) (hopts : opts &&& 3#32 = 0#32) {fuel : Nat} {out : List (SPoint (K × K))} {st : Status}
    (h : findStraight g b startPos endPos path opts fuel = .done out st) (hs : st.succeed = true) :
    ∃ m, Walk g opts startPos endPos path pl pr m out.reverse := by
  unfold findStraight at h
  split at h
  · simp only [SOut.done.injEq] at h
    rw [← h.2] at hs
    exact absurd hs (by decide)
  · split at h
    · exact absurd hr0 (by simp)
    · rename_i r0' rest
      simp only [List.head?_cons, Option.some.injEq] at hr0
      subst hr0
      have hre' : (r0' :: rest).getLast (by simp) = re := by
        rw [List.getLast?_eq_some_getLast (by simp)] at hre
        exact Option.some.inj hre
      rw [hre', hcs, hce] at h
      dsimp only at h
      have hst : Enters g opts startPos endPos (r0' :: rest) 0 ⟨cs, spStart, r0'⟩ := .start rfl hcs
      have hw : Walk g opts startPos endPos (r0' :: rest) pl pr 0 [⟨cs, spStart, r0'⟩] := .one hst fun j hj => by omega
      split at h
      · exact absurd h (by simp)
      · rename_i o st' hv
        have ho : o = [⟨cs, spStart, r0'⟩] := by
          simp only [appendVertex, appendNew] at hv
          split at hv
          · simp only [Option.some.injEq, Prod.mk.injEq] at hv
            exact hv.1.symm
          · exact absurd hv (by simp)
        subst ho
        split at h
        · simp only [SOut.done.injEq] at h
          rw [← h.1]
          exact ⟨0, hw⟩
        · split at h
          · rename_i hr
            subst hr
            unfold endPath at h
            split at h
            · exact absurd h (by simp)
            · rename_i o2 st2 hv2
              simp only [SOut.done.injEq] at h
              rw [← h.1, List.reverse_reverse]
              refine ⟨1, (hw.append (k := 0) hx ⟨_, rfl, rfl⟩ hv2 (fun _ j h1 h2 h3 => absurd h2 (by omega)) (Nat.le_refl 1) (Nat.le_refl 1)
                (Nat.zero_le 1) (.finish hre hce (.inl rfl)) fun hne => ⟨Nat.one_pos, ?_⟩).1⟩
              exact OnPortals.passes (n := 1) (k := 0) (fun j h1 h2 h3 => by omega) (Nat.le_refl 1) (Nat.le_refl 1)
          · rename_i hr
            refine straightLoop_inside (s := firstState r0' cs [⟨cs, spStart, r0'⟩]) hg hx hc hj hopts hre hce fuel ?_ h
            refine ⟨0, hw, ⟨_, rfl, rfl⟩, .first rfl rfl rfl rfl rfl ?_⟩
            have := List.length_pos_iff.2 hr
            simp only [List.length_cons]
            omega

/-! ## Theorems -/

/-- **C116** (`_partial`: no crossings, all portals there): in exact arithmetic the straight path stays in its corridor: between two points the segment passes through the
portals between them, one after the other. (The polygons are convex, so from portal to portal it is inside them.) Unless it is
cut by the buffer, it leaves all polygons behind. `cs` and `ce` are the start and end positions, clamped to the first and last
polygon. -/
theorem straight_inside_partial (hg : g.OK) (hx : g.Exact) {r0 re : U32} (hr0 : path.head? = some r0) (hre : path.getLast? = some re)
    (hcs : g.clamp r0 startPos = some cs) (hce : g.clamp re endPos = some ce) (hj : Joined g path pl pr)
    (hc : ConvexCorridor path.length pl pr cs ce) (hopts : opts &&& 3#32 = 0#32) {fuel : Nat} {out : List (SPoint (K × K))} {st : Status}
    (h : findStraight g b startPos endPos path opts fuel = .done out st) (hs : st.succeed = true) :
    ∃ m, Walk g opts startPos endPos path pl pr m out.reverse ∧ (st.detail Status.bufferTooSmall = false → m = path.length) := by
  obtain ⟨m, hw⟩ := findStraight_walk hg hx hr0 hre hcs hce hj hc hopts h hs
  refine ⟨m, hw, fun hb => ?_⟩
  have hp : st.detail Status.partialResult = false := by
    by_contra hp
    rw [Bool.not_eq_false] at hp
    obtain ⟨i, q, e, hi, _, hno, _⟩ := straight_cut hg h hp
    obtain ⟨ty, hy⟩ := hj i hi
    rw [hno] at hy
    exact absurd hy (by simp)
  obtain ⟨_, re', ce', e, _, _, hlast, hfl, hrf, _⟩ := straight_last hg h hs hb hp
  have hent : Enters g opts startPos endPos path m e := by
    rw [← List.head?_reverse] at hlast
    generalize out.reverse = o at hw hlast
    cases hw with
    | one he _ => simp only [List.head?_cons, Option.some.injEq] at hlast; rwa [hlast] at he
    | cons _ _ he _ => simp only [List.head?_cons, Option.some.injEq] at hlast; rwa [hlast] at he
  cases hent with
  | start => exact absurd hfl (show ¬ (spStart = spEnd) by decide)
  | @corner k a c l r q pos ty =>
    dsimp only at hfl
    split at hfl <;> exact absurd hfl (by decide)
  | crossing => exact absurd hfl (show ¬ (0#8 = spEnd) by decide)
  | cut => exact absurd hfl (show ¬ (0#8 = spEnd) by decide)
  | finish => rfl

end

/-- The plane over the rationals with exact arithmetic; the polygons are `refs`, all positions asked for lie in their polygon,
and `portals` lists the portals. -/
def exactGeo (refs : List U32) (portals : List ((U32 × U32) × ((ℚ × ℚ) × (ℚ × ℚ) × Byte))) : SGeo (ℚ × ℚ) ℚ where
  known r := refs.contains r
  clamp r p := if refs.contains r then some p else none
  portal a c := if refs.contains a && refs.contains c then portals.lookup (a, c) else none
  sameArea _ _ := false
  cross _ _ _ _ := none
  approx p q := decide (p = q)
  near p l r := decide (tri l r p = 0 ∧ 0 ≤ (p.1 - l.1) * (r.1 - p.1) + (p.2 - l.2) * (r.2 - p.2))
  area := tri
  le0 x := decide (x ≤ 0)
  ge0 x := decide (0 ≤ x)
  lt0 x := decide (x < 0)
  gt0 x := decide (0 < x)

theorem exactGeo_ok (refs : List U32) (portals : List ((U32 × U32) × ((ℚ × ℚ) × (ℚ × ℚ) × Byte))) (h : 0#32 ∉ refs) :
    (exactGeo refs portals).OK := by
  refine ⟨by simpa [exactGeo] using h, fun r p => ?_, fun a c x hx => ?_⟩
  · simp only [exactGeo]
    cases refs.contains r <;> rfl
  · simp only [exactGeo] at hx ⊢
    split at hx
    · rename_i hc
      simpa using hc
    · exact absurd hx (by simp)

theorem exactGeo_exact (refs : List U32) (portals : List ((U32 × U32) × ((ℚ × ℚ) × (ℚ × ℚ) × Byte))) :
    (exactGeo refs portals).Exact := by
  refine ⟨by simp [exactGeo], fun p l r => ?_, fun _ _ _ => rfl, by simp [exactGeo], by simp [exactGeo], by simp [exactGeo],
    by simp [exactGeo]⟩
  simp only [exactGeo, decide_eq_true_eq]
  constructor
  · rintro ⟨h1, h2⟩
    by_cases hlr : l = r
    · subst hlr
      have e1 : (p.1 - l.1) * (p.1 - l.1) + (p.2 - l.2) * (p.2 - l.2) ≤ 0 := by linarith
      have z1 : (p.1 - l.1) * (p.1 - l.1) = 0 := by
        have := mul_self_nonneg (p.1 - l.1); have := mul_self_nonneg (p.2 - l.2); linarith
      have z2 : (p.2 - l.2) * (p.2 - l.2) = 0 := by
        have := mul_self_nonneg (p.1 - l.1); have := mul_self_nonneg (p.2 - l.2); linarith
      have y1 := mul_self_eq_zero.1 z1
      have y2 := mul_self_eq_zero.1 z2
      have : p = l := Prod.ext (by linarith) (by linarith)
      rw [this]
      exact onSeg_left _ _
    · have hN : 0 < (r.1 - l.1) * (r.1 - l.1) + (r.2 - l.2) * (r.2 - l.2) := by
        rcases (add_nonneg (mul_self_nonneg (r.1 - l.1)) (mul_self_nonneg (r.2 - l.2))).eq_or_lt with h | h
        · exfalso
          have z1 : (r.1 - l.1) * (r.1 - l.1) = 0 := by
            have := mul_self_nonneg (r.1 - l.1); have := mul_self_nonneg (r.2 - l.2); linarith
          have z2 : (r.2 - l.2) * (r.2 - l.2) = 0 := by
            have := mul_self_nonneg (r.1 - l.1); have := mul_self_nonneg (r.2 - l.2); linarith
          have y1 := mul_self_eq_zero.1 z1
          have y2 := mul_self_eq_zero.1 z2
          exact hlr (Prod.ext (by linarith) (by linarith))
        · exact h
      generalize hNd : (r.1 - l.1) * (r.1 - l.1) + (r.2 - l.2) * (r.2 - l.2) = N at hN
      have hT : ∃ T, T = ((p.1 - l.1) * (r.1 - l.1) + (p.2 - l.2) * (r.2 - l.2)) / N := ⟨_, rfl⟩
      obtain ⟨T, hT⟩ := hT
      have hTN : T * N = (p.1 - l.1) * (r.1 - l.1) + (p.2 - l.2) * (r.2 - l.2) := by
        rw [hT]; field_simp
      have e1 : p.1 = l.1 + T * (r.1 - l.1) := by
        have : N * (p.1 - l.1 - T * (r.1 - l.1)) = 0 := by
          unfold tri at h1
          linear_combination (-(r.1 - l.1)) * hTN - (p.1 - l.1) * hNd + (r.2 - l.2) * h1
        have := (mul_eq_zero.1 this).resolve_left hN.ne'
        linarith
      have e2 : p.2 = l.2 + T * (r.2 - l.2) := by
        have : N * (p.2 - l.2 - T * (r.2 - l.2)) = 0 := by
          unfold tri at h1
          linear_combination (-(r.2 - l.2)) * hTN - (p.2 - l.2) * hNd - (r.1 - l.1) * h1
        have := (mul_eq_zero.1 this).resolve_left hN.ne'
        linarith
      have hTT : 0 ≤ T * (1 - T) * N := by
        have : (p.1 - l.1) * (r.1 - p.1) + (p.2 - l.2) * (r.2 - p.2) = T * (1 - T) * N := by
          rw [e1, e2, ← hNd]; ring
        rwa [this] at h2
      have hTT : 0 ≤ T * (1 - T) := nonneg_of_mul hN (by linarith)
      refine ⟨T, ?_, ?_, Prod.ext e1 e2⟩
      · by_contra h; push Not at h; nlinarith
      · by_contra h; push Not at h; nlinarith
  · rintro ⟨t, h0, h1, rfl⟩
    refine ⟨by unfold tri between; ring, ?_⟩
    have : ((between l r t).1 - l.1) * (r.1 - (between l r t).1) + ((between l r t).2 - l.2) * (r.2 - (between l r t).2) =
        t * (1 - t) * ((r.1 - l.1) * (r.1 - l.1) + (r.2 - l.2) * (r.2 - l.2)) := by unfold between; ring
    rw [this]
    exact mul_nonneg (mul_nonneg h0 (by linarith)) (add_nonneg (mul_self_nonneg _) (mul_self_nonneg _))

/-- Three squares in a row along z, then one to the side. -/
def bendPortals : List ((U32 × U32) × ((ℚ × ℚ) × (ℚ × ℚ) × Byte)) :=
  [((1, 2), ((0, 2), (2, 2), 0)), ((2, 3), ((0, 4), (2, 4), 0)), ((3, 4), ((2, 6), (2, 4), 0))]

/-- Its left ends. -/
def bendL (j : Nat) : ℚ × ℚ := if j = 0 then (0, 2) else if j = 1 then (0, 4) else (2, 6)

/-- Its right ends. -/
def bendR (j : Nat) : ℚ × ℚ := if j = 0 then (2, 2) else if j = 1 then (2, 4) else (2, 4)

theorem bend_joined (refs : List U32) (portals : List ((U32 × U32) × ((ℚ × ℚ) × (ℚ × ℚ) × Byte)))
    (h1 : (exactGeo refs portals).portal 1 2 = some ((0, 2), (2, 2), 0)) (h2 : (exactGeo refs portals).portal 2 3 = some ((0, 4), (2, 4), 0))
    (h3 : (exactGeo refs portals).portal 3 4 = some ((2, 6), (2, 4), 0)) : Joined (exactGeo refs portals) [1, 2, 3, 4] bendL bendR := by
  intro j hj
  simp only [List.length_cons, List.length_nil] at hj
  have : j = 0 ∨ j = 1 ∨ j = 2 := by omega
  rcases this with rfl | rfl | rfl
  · exact ⟨0, h1⟩
  · exact ⟨0, h2⟩
  · exact ⟨0, h3⟩

theorem bend_corridor : ConvexCorridor 4 bendL bendR (1, 1) (5, 5) := by
  have two : ∀ j, j + 2 < 4 → j = 0 ∨ j = 1 := by omega
  refine ⟨fun j hj => ?_, fun j hj => ?_, fun j hj => ?_, fun j hj => ?_, fun j hj => ?_, fun j hj => ?_, fun _ => ?_, fun j hj => ?_⟩
  · have : j = 0 ∨ j = 1 ∨ j = 2 := by omega
    rcases this with rfl | rfl | rfl <;> decide +kernel
  · rcases two j hj with rfl | rfl <;> decide +kernel
  · rcases two j hj with rfl | rfl <;> decide +kernel
  · rcases two j hj with rfl | rfl <;> decide +kernel
  · rcases two j hj with rfl | rfl <;> decide +kernel
  · rcases two j hj with rfl | rfl <;> decide +kernel
  · exact .inr (by decide +kernel)
  · have : j = 2 := by omega
    subst this
    decide +kernel

/-- A non-trivial case of `straight_inside_partial`: one corner, at (2, 4). -/
example : ∃ out, findStraight (exactGeo [1, 2, 3, 4] bendPortals) buf8 (1, 1) (5, 5) [1, 2, 3, 4] 0#32 100 = .done out Status.success ∧
    out.length = 3 ∧ Walk (exactGeo [1, 2, 3, 4] bendPortals) 0#32 (1, 1) (5, 5) [1, 2, 3, 4] bendL bendR 4 out.reverse := by
  have h : findStraight (exactGeo [1, 2, 3, 4] bendPortals) buf8 (1, 1) (5, 5) [1, 2, 3, 4] 0#32 100 =
      .done [⟨(1, 1), spStart, 1⟩, ⟨(2, 4), 0#8, 4⟩, ⟨(5, 5), spEnd, 0⟩] Status.success := by decide +kernel
  refine ⟨_, h, rfl, ?_⟩
  obtain ⟨m, hw, hm⟩ := straight_inside_partial (cs := (1, 1)) (ce := (5, 5)) (exactGeo_ok _ _ (by decide)) (exactGeo_exact _ _) rfl rfl
    (by decide +kernel) (by decide +kernel) (bend_joined _ _ (by decide +kernel) (by decide +kernel) (by decide +kernel)) bend_corridor
    (by decide) h (by decide)
  rw [hm (by decide)] at hw
  exact hw

/-- **C116**, refuted for a partial result: when the portal out of the last polygon reached is missing, the end position clamped
to that polygon is appended without a search for corners, and the last segment leaves the corridor. Here the portal from the
fourth polygon is missing, and the segment from (1, 1) to (5, 5) misses the portal from (0, 4) to (2, 4). -/
theorem straight_inside_refuted :
    ∃ (g : SGeo (ℚ × ℚ) ℚ) (out : List (SPoint (ℚ × ℚ))), g.OK ∧ g.Exact ∧ Joined g [1, 2, 3, 4] bendL bendR ∧
      ConvexCorridor 4 bendL bendR (1, 1) (5, 5) ∧
      findStraight g buf8 (1, 1) (5, 5) [1, 2, 3, 4, 5] 0#32 100 = .done out (Status.success ||| Status.partialResult) ∧
      out.map SPoint.pos = [(1, 1), (5, 5)] ∧ out.map SPoint.ref = [1, 4] ∧ ¬ Passes bendL bendR (1, 1) (5, 5) 0 4 := by
  refine ⟨exactGeo [1, 2, 3, 4, 5] bendPortals, [⟨(1, 1), spStart, 1⟩, ⟨(5, 5), 0#8, 4⟩], exactGeo_ok _ _ (by decide), exactGeo_exact _ _,
    bend_joined _ _ (by decide +kernel) (by decide +kernel) (by decide +kernel), bend_corridor, by decide +kernel, rfl, rfl, ?_⟩
  rintro ⟨t, ht, _⟩
  obtain ⟨_, _, v, v0, v1, e⟩ := ht 1 (by omega) (by omega)
  have e1 := congrArg Prod.fst e
  have e2 := congrArg Prod.snd e
  simp only [between, bendL, bendR] at e1 e2
  norm_num at e1 e2
  linarith

end Verif.Detour
