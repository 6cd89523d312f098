/-
Reading a height for a detail vertex: `getHeight` (recast/meshdetail.go:185-258), which walks outwards in a spiral when the
cell itself has no height.

Simplifications: the patch is a function from cell coordinates to heights together with its size; the two `floor`s are
given (`fx`, `fz` are the cell coordinates of the point before clamping); `dist h` is `abs(h*ch - fy)` with values in a
linear order and `top` is `MaxFloat32`; `int32` overflow of the iteration count is ignored.
-/
import Verif.Common.Chain
import Mathlib.Order.Basic
import Mathlib.Tactic.Ring
import Mathlib.Tactic.Linarith
import Mathlib.Order.Defs.LinearOrder

namespace Verif.Recast
open Verif

set_option linter.unusedSimpArgs false
set_option linter.unusedVariables false

/-- `unsetHeight` (recast/meshdetail.go:33). -/
def unsetHeight : Nat := 0xffff

/-- `HeightPatch` (recast/meshdetail.go:35-38). -/
structure Patch where
  data : Int → Int → Nat
  xmin : Int
  ymin : Int
  width : Int
  height : Int

/-- Spec: the height stored for a cell of the patch, if any. -/
def Patch.at (hp : Patch) (x z : Int) : Option Nat :=
  if 0 ≤ x ∧ 0 ≤ z ∧ x < hp.width ∧ z < hp.height ∧ hp.data x z ≠ unsetHeight then some (hp.data x z) else none

/-- The state of the search (recast/meshdetail.go:195-206). -/
structure Spiral (K : Type) where
  x : Int
  z : Int
  dx : Int
  dz : Int
  nextStart : Nat
  nextIters : Nat
  h : Nat
  dmin : K

/-- Looking at one cell (recast/meshdetail.go:208-220). -/
def Spiral.look {K : Type} [LinearOrder K] (hp : Patch) (dist : Nat → K) (ix iz : Int) (s : Spiral K) : Spiral K :=
  let nx := ix + s.x
  let nz := iz + s.z
  if nx ≥ 0 ∧ nz ≥ 0 ∧ nx < hp.width ∧ nz < hp.height then
    if hp.data nx nz ≠ unsetHeight then
      if dist (hp.data nx nz) < s.dmin then { s with h := hp.data nx nz, dmin := dist (hp.data nx nz) } else s
    else s
  else s

/-- The next cell (recast/meshdetail.go:249-255). -/
def Spiral.move {K : Type} (s : Spiral K) : Spiral K :=
  let s3 : Spiral K :=
    if s.x = s.z ∨ (s.x < 0 ∧ s.x = -s.z) ∨ (s.x > 0 ∧ s.x = 1 - s.z) then { s with dx := -s.dz, dz := s.dx } else s
  { s3 with x := s3.x + s3.dx, z := s3.z + s3.dz }

/-- The search loop (recast/meshdetail.go:207-256); the fuel counts the remaining iterations, `i` is the current one. -/
def spiral {K : Type} [LinearOrder K] (hp : Patch) (dist : Nat → K) (ix iz : Int) : Nat → Nat → Spiral K → Nat
  | 0, _, s => s.h
  | fuel + 1, i, s =>
    let s1 := s.look hp dist ix iz
    if i + 1 = s1.nextStart then
      if s1.h ≠ unsetHeight then s1.h
      else
        spiral hp dist ix iz fuel (i + 1)
          (Spiral.move { s1 with nextStart := s1.nextStart + s1.nextIters, nextIters := s1.nextIters + 8 })
    else spiral hp dist ix iz fuel (i + 1) s1.move

/-- `int32Clamp` (recast/rasterization.go:270-278). -/
def clampTo (v lo hi : Int) : Int := if v < lo then lo else if v > hi then hi else v

/-- `getHeight` (recast/meshdetail.go:185-258). -/
def getHeight {K : Type} [LinearOrder K] (hp : Patch) (dist : Nat → K) (top : K) (fx fz : Int) (radius : Nat) : Nat :=
  let ix := clampTo (fx - hp.xmin) 0 (hp.width - 1)
  let iz := clampTo (fz - hp.ymin) 0 (hp.height - 1)
  let h := hp.data ix iz
  if h = unsetHeight then
    let maxSize := radius * 2 + 1
    let maxIter := maxSize * maxSize - 1
    spiral hp dist ix iz maxIter 0 ⟨1, 0, 1, 0, 8, 16, h, top⟩
  else h

/-! ## Spec -/

/-- Spec: the ring of cells at distance `r` (in steps of a king in chess) from a centre. -/
def OnRing (r : Nat) (x z : Int) : Prop := max |x| |z| = r

/-- Spec: `h` is a height on ring `r`, and no height on that ring is nearer to the wanted one. -/
def BestOnRing {K : Type} [LinearOrder K] (hp : Patch) (dist : Nat → K) (ix iz : Int) (r : Nat) (h : Nat) : Prop :=
  (∃ x z, OnRing r x z ∧ hp.at (ix + x) (iz + z) = some h) ∧
  ∀ x z h', OnRing r x z → hp.at (ix + x) (iz + z) = some h' → dist h ≤ dist h'

/-- Spec: a ring without heights. -/
def EmptyRing (hp : Patch) (ix iz : Int) (r : Nat) : Prop := ∀ x z, OnRing r x z → hp.at (ix + x) (iz + z) = none

/-! ## The path of the spiral -/

/-- Cell `k` of ring `r`. -/
def ringPos (r k : Nat) : Int × Int :=
  if k < 2 * r then ((r : Int), -((r : Int) - 1) + k)
  else if k < 4 * r then ((r : Int) - (k - 2 * r + 1), (r : Int))
  else if k < 6 * r then (-(r : Int), (r : Int) - (k - 4 * r + 1))
  else (-(r : Int) + (k - 6 * r + 1), -(r : Int))

/-- The direction the spiral arrives from at cell `k` of ring `r`. -/
def ringDir (r k : Nat) : Int × Int :=
  if k = 0 then (1, 0) else if k < 2 * r then (0, 1) else if k < 4 * r then (-1, 0) else if k < 6 * r then (0, -1) else (1, 0)

/-- The number of cells up to ring `r`, without the centre. -/
def ringEnd : Nat → Nat
  | 0 => 0
  | r + 1 => ringEnd r + 8 * (r + 1)

theorem ringEnd_eq (r : Nat) : ringEnd r = (r * 2 + 1) * (r * 2 + 1) - 1 := by
  have h : ringEnd r + 1 = (r * 2 + 1) * (r * 2 + 1) := by
    induction r with
    | zero => rfl
    | succ r ih => rw [ringEnd]; nlinarith [ih]
  omega

theorem onRing_iff (r : Nat) (x z : Int) : OnRing r x z ↔
    (x = r ∧ -(r : Int) ≤ z ∧ z ≤ r) ∨ (x = -(r : Int) ∧ -(r : Int) ≤ z ∧ z ≤ r) ∨
    (z = r ∧ -(r : Int) ≤ x ∧ x ≤ r) ∨ (z = -(r : Int) ∧ -(r : Int) ≤ x ∧ x ≤ r) := by
  unfold OnRing
  rcases abs_cases x with ⟨e1, h1⟩ | ⟨e1, h1⟩ <;> rcases abs_cases z with ⟨e2, h2⟩ | ⟨e2, h2⟩ <;> rw [e1, e2] <;> omega

theorem ringPos_on {r k : Nat} (hr : 1 ≤ r) (hk : k < 8 * r) : OnRing r (ringPos r k).1 (ringPos r k).2 := by
  rw [onRing_iff]
  unfold ringPos
  split
  · dsimp only; omega
  · split
    · dsimp only; omega
    · split <;> dsimp only <;> omega

theorem ringPos_all {r : Nat} (hr : 1 ≤ r) {x z : Int} (h : OnRing r x z) : ∃ k, k < 8 * r ∧ ringPos r k = (x, z) := by
  rw [onRing_iff] at h
  by_cases h1 : x = r ∧ -(r : Int) < z
  · refine ⟨(z + r - 1).toNat, by omega, ?_⟩
    unfold ringPos
    rw [if_pos (by omega), Prod.mk.injEq]
    omega
  · by_cases h2 : z = r ∧ x < r
    · refine ⟨(2 * r + (r - x) - 1).toNat, by omega, ?_⟩
      unfold ringPos
      rw [if_neg (by omega), if_pos (by omega), Prod.mk.injEq]
      omega
    · by_cases h3 : x = -(r : Int) ∧ z < r
      · refine ⟨(4 * r + (r - z) - 1).toNat, by omega, ?_⟩
        unfold ringPos
        rw [if_neg (by omega), if_neg (by omega), if_pos (by omega), Prod.mk.injEq]
        omega
      · refine ⟨(6 * r + (x + r) - 1).toNat, by omega, ?_⟩
        unfold ringPos
        rw [if_neg (by omega), if_neg (by omega), if_neg (by omega), Prod.mk.injEq]
        omega

/-- One step of the spiral. -/
def turned (p d : Int × Int) : Int × Int :=
  if p.1 = p.2 ∨ (p.1 < 0 ∧ p.1 = -p.2) ∨ (p.1 > 0 ∧ p.1 = 1 - p.2) then (-d.2, d.1) else d

theorem spiral_inside {r k : Nat} (hr : 1 ≤ r) (hk : k + 1 < 8 * r) :
    turned (ringPos r k) (ringDir r k) = ringDir r (k + 1) ∧
    ((ringPos r k).1 + (ringDir r (k + 1)).1, (ringPos r k).2 + (ringDir r (k + 1)).2) = ringPos r (k + 1) := by
  unfold turned ringPos ringDir
  constructor
  · rw [if_neg (show ¬ k + 1 = 0 by omega)]
    by_cases a : k < 2 * r
    · simp only [if_pos a]
      by_cases b : k = 0
      · simp only [if_pos b]
        rw [if_pos (by omega), if_pos (by omega)]; rfl
      · simp only [if_neg b]
        by_cases c : k + 1 < 2 * r
        · rw [if_neg (by omega), if_pos c]
        · rw [if_pos (by omega), if_neg c, if_pos (by omega)]
    · simp only [if_neg a, if_neg (show ¬ k = 0 by omega), if_neg (show ¬ k + 1 < 2 * r by omega)]
      by_cases b : k < 4 * r
      · simp only [if_pos b]
        by_cases c : k + 1 < 4 * r
        · rw [if_neg (by omega), if_pos c]
        · rw [if_pos (by omega), if_neg c, if_pos (by omega)]; rfl
      · simp only [if_neg b, if_neg (show ¬ k + 1 < 4 * r by omega)]
        by_cases c : k < 6 * r
        · simp only [if_pos c]
          by_cases d : k + 1 < 6 * r
          · rw [if_neg (by omega), if_pos d]
          · rw [if_pos (by omega), if_neg d]; rfl
        · simp only [if_neg c, if_neg (show ¬ k + 1 < 6 * r by omega)]
          rw [if_neg (by omega)]
  · rw [if_neg (show ¬ k + 1 = 0 by omega)]
    by_cases a : k < 2 * r
    · by_cases c : k + 1 < 2 * r
      · simp only [if_pos a, if_pos c, Prod.mk.injEq]; omega
      · simp only [if_pos a, if_neg c, if_pos (show k + 1 < 4 * r by omega), Prod.mk.injEq]; omega
    · simp only [if_neg a, if_neg (show ¬ k + 1 < 2 * r by omega)]
      by_cases b : k < 4 * r
      · by_cases c : k + 1 < 4 * r
        · simp only [if_pos b, if_pos c, Prod.mk.injEq]; omega
        · simp only [if_pos b, if_neg c, if_pos (show k + 1 < 6 * r by omega), Prod.mk.injEq]; omega
      · simp only [if_neg b, if_neg (show ¬ k + 1 < 4 * r by omega)]
        by_cases c : k < 6 * r
        · by_cases d : k + 1 < 6 * r
          · simp only [if_pos c, if_pos d, Prod.mk.injEq]; omega
          · simp only [if_pos c, if_neg d, Prod.mk.injEq]; omega
        · simp only [if_neg c, if_neg (show ¬ k + 1 < 6 * r by omega), Prod.mk.injEq]; omega

theorem spiral_out {r k : Nat} (hr : 1 ≤ r) (hk : k + 1 = 8 * r) :
    turned (ringPos r k) (ringDir r k) = ringDir (r + 1) 0 ∧
    ((ringPos r k).1 + (ringDir (r + 1) 0).1, (ringPos r k).2 + (ringDir (r + 1) 0).2) = ringPos (r + 1) 0 := by
  have e1 : ringPos r k = ((r : Int), -(r : Int)) := by
    unfold ringPos
    rw [if_neg (by omega), if_neg (by omega), if_neg (by omega), Prod.mk.injEq]
    omega
  have e2 : ringDir r k = (1, 0) := by
    unfold ringDir
    rw [if_neg (by omega), if_neg (by omega), if_neg (by omega), if_neg (by omega)]
  have e3 : ringDir (r + 1) 0 = (1, 0) := rfl
  have e4 : ringPos (r + 1) 0 = ((r : Int) + 1, -(r : Int)) := by
    unfold ringPos
    rw [if_pos (by omega), Prod.mk.injEq]
    omega
  rw [e1, e2, e3, e4]
  unfold turned
  dsimp only
  rw [if_neg (by omega), Prod.mk.injEq]
  exact ⟨⟨rfl, rfl⟩, by rw [Prod.mk.injEq]; omega⟩

theorem move_eq {K : Type} {p d p' d' : Int × Int} (a b h : Nat) (m : K) (o1 : turned p d = d') (o2 : (p.1 + d'.1, p.2 + d'.2) = p') :
    (⟨p.1, p.2, d.1, d.2, a, b, h, m⟩ : Spiral K).move = ⟨p'.1, p'.2, d'.1, d'.2, a, b, h, m⟩ := by
  subst o2
  subst o1
  unfold Spiral.move turned
  dsimp only
  split <;> rfl

/-! ## The search -/

/-- What is known of `h` and `dmin` after the first `k` cells of ring `r`. -/
def Seen {K : Type} [LinearOrder K] (hp : Patch) (dist : Nat → K) (top : K) (ix iz : Int) (r k : Nat) (h : Nat) (dmin : K) : Prop :=
  (h = unsetHeight ∧ dmin = top ∧ ∀ j < k, hp.at (ix + (ringPos r j).1) (iz + (ringPos r j).2) = none) ∨
  (h ≠ unsetHeight ∧ dmin = dist h ∧ (∃ j < k, hp.at (ix + (ringPos r j).1) (iz + (ringPos r j).2) = some h) ∧
    ∀ j < k, ∀ h', hp.at (ix + (ringPos r j).1) (iz + (ringPos r j).2) = some h' → dist h ≤ dist h')

/-- The result of the search from ring `r` to ring `R`. -/
def Result {K : Type} [LinearOrder K] (hp : Patch) (dist : Nat → K) (ix iz : Int) (r R : Nat) (h : Nat) : Prop :=
  (h = unsetHeight ∧ ∀ q, r ≤ q → q ≤ R → EmptyRing hp ix iz q) ∨
  (h ≠ unsetHeight ∧ ∃ q, r ≤ q ∧ q ≤ R ∧ BestOnRing hp dist ix iz q h ∧ ∀ q', r ≤ q' → q' < q → EmptyRing hp ix iz q')

theorem look_spec {K : Type} [LinearOrder K] (hp : Patch) (dist : Nat → K) {top : K} (ht : ∀ h, dist h < top) (ix iz : Int) {r k h : Nat} {dmin : K}
    (dx dz : Int) (a b : Nat) (hs : Seen hp dist top ix iz r k h dmin) :
    ∃ h1 d1, (⟨(ringPos r k).1, (ringPos r k).2, dx, dz, a, b, h, dmin⟩ : Spiral K).look hp dist ix iz =
        ⟨(ringPos r k).1, (ringPos r k).2, dx, dz, a, b, h1, d1⟩ ∧
      Seen hp dist top ix iz r (k + 1) h1 d1 := by
  unfold Spiral.look
  dsimp only
  have hat : hp.at (ix + (ringPos r k).1) (iz + (ringPos r k).2) =
      if 0 ≤ ix + (ringPos r k).1 ∧ 0 ≤ iz + (ringPos r k).2 ∧ ix + (ringPos r k).1 < hp.width ∧
        iz + (ringPos r k).2 < hp.height ∧ hp.data (ix + (ringPos r k).1) (iz + (ringPos r k).2) ≠ unsetHeight then
        some (hp.data (ix + (ringPos r k).1) (iz + (ringPos r k).2)) else none := rfl
  have skip : hp.at (ix + (ringPos r k).1) (iz + (ringPos r k).2) = none → Seen hp dist top ix iz r (k + 1) h dmin := by
    intro hn
    rcases hs with ⟨a1, a2, a3⟩ | ⟨a1, a2, ⟨j, hj, a3⟩, a4⟩
    · refine .inl ⟨a1, a2, ?_⟩
      intro j hj
      rcases Nat.lt_succ_iff_lt_or_eq.1 hj with hj | rfl
      · exact a3 j hj
      · exact hn
    · refine .inr ⟨a1, a2, ⟨j, by omega, a3⟩, ?_⟩
      intro j hj h' hh
      rcases Nat.lt_succ_iff_lt_or_eq.1 hj with hj | rfl
      · exact a4 j hj h' hh
      · rw [hn] at hh; cases hh
  generalize hp.data (ix + (ringPos r k).1) (iz + (ringPos r k).2) = nh at hat ⊢
  by_cases hin : ix + (ringPos r k).1 ≥ 0 ∧ iz + (ringPos r k).2 ≥ 0 ∧ ix + (ringPos r k).1 < hp.width ∧
        iz + (ringPos r k).2 < hp.height
  · rw [if_pos hin]
    by_cases hu : nh ≠ unsetHeight
    · rw [if_pos hu]
      rw [if_pos ⟨hin.1, hin.2.1, hin.2.2.1, hin.2.2.2, hu⟩] at hat
      by_cases hd : dist nh < dmin
      · rw [if_pos hd]
        refine ⟨nh, dist nh, rfl, .inr ⟨hu, rfl, ⟨k, by omega, hat⟩, ?_⟩⟩
        intro j hj h' hh
        rcases Nat.lt_succ_iff_lt_or_eq.1 hj with hj | rfl
        · rcases hs with ⟨a1, a2, a3⟩ | ⟨a1, a2, a3, a4⟩
          · rw [a3 j hj] at hh; cases hh
          · rw [a2] at hd
            exact le_trans (le_of_lt hd) (a4 j hj h' hh)
        · rw [hat] at hh; cases hh; exact le_refl _
      · rw [if_neg hd]
        refine ⟨h, dmin, rfl, ?_⟩
        rcases hs with ⟨a1, a2, a3⟩ | ⟨a1, a2, ⟨j, hj, a3⟩, a4⟩
        · rw [a2] at hd; exact absurd (ht nh) hd
        · refine .inr ⟨a1, a2, ⟨j, by omega, a3⟩, ?_⟩
          intro j hj h' hh
          rcases Nat.lt_succ_iff_lt_or_eq.1 hj with hj | rfl
          · exact a4 j hj h' hh
          · rw [hat] at hh; cases hh
            rw [a2] at hd
            exact not_lt.1 hd
    · rw [if_neg hu]
      exact ⟨h, dmin, rfl, skip (by rw [hat, if_neg]; intro hc; exact hu hc.2.2.2.2)⟩
  · rw [if_neg hin]
    exact ⟨h, dmin, rfl, skip (by rw [hat, if_neg]; intro hc; exact hin ⟨hc.1, hc.2.1, hc.2.2.1, hc.2.2.2.1⟩)⟩

theorem spiral_spec {K : Type} [LinearOrder K] (hp : Patch) (dist : Nat → K) {top : K} (ht : ∀ h, dist h < top) (ix iz : Int) (R : Nat) :
    ∀ (fuel r k : Nat) (h : Nat) (dmin : K), 1 ≤ r → r ≤ R → k < 8 * r → ringEnd (r - 1) + k + fuel = ringEnd R →
      Seen hp dist top ix iz r k h dmin →
      Result hp dist ix iz r R (spiral hp dist ix iz fuel (ringEnd (r - 1) + k)
        ⟨(ringPos r k).1, (ringPos r k).2, (ringDir r k).1, (ringDir r k).2, ringEnd r, 8 * (r + 1), h, dmin⟩) := by
  intro fuel
  induction fuel with
  | zero =>
    intro r k h dmin hr hR hk hf
    exfalso
    have mono : ∀ m, ringEnd r ≤ ringEnd (r + m) := by
      intro m
      induction m with
      | zero => exact Nat.le_refl _
      | succ m ih => rw [← Nat.add_assoc, ringEnd]; omega
    have := mono (R - r)
    rw [Nat.add_sub_cancel' hR] at this
    obtain ⟨q, rfl⟩ : ∃ q, r = q + 1 := ⟨r - 1, by omega⟩
    rw [ringEnd] at this
    rw [Nat.add_sub_cancel] at hf
    omega
  | succ fuel ih =>
    intro r k h dmin hr hR hk hf hs
    obtain ⟨q, rfl⟩ : ∃ q, r = q + 1 := ⟨r - 1, by omega⟩
    rw [Nat.add_sub_cancel] at hf ⊢
    rw [spiral]
    obtain ⟨h1, d1, hst, hs1⟩ := look_spec hp dist ht ix iz (ringDir (q + 1) k).1 (ringDir (q + 1) k).2 (ringEnd (q + 1)) (8 * (q + 1 + 1)) hs
    rw [hst]
    dsimp only
    have hre : ringEnd (q + 1) = ringEnd q + 8 * (q + 1) := rfl
    by_cases hlast : k + 1 = 8 * (q + 1)
    · have hi : ringEnd q + k + 1 = ringEnd (q + 1) := by omega
      rw [if_pos hi]
      rcases hs1 with ⟨a1, a2, a3⟩ | ⟨a1, a2, ⟨j, hj, a3⟩, a4⟩
      · rw [if_neg (by rintro hc; exact hc a1)]
        have hempty : EmptyRing hp ix iz (q + 1) := by
          intro x z hx
          obtain ⟨j, hj, he⟩ := ringPos_all (by omega) hx
          have := a3 j (by omega)
          rw [he] at this
          exact this
        obtain ⟨o1, o2⟩ := spiral_out (r := q + 1) (by omega) hlast
        rw [move_eq (ringEnd (q + 1) + 8 * (q + 1 + 1)) (8 * (q + 1 + 1) + 8) h1 d1 o1 o2, hi]
        by_cases hR' : q + 1 = R
        · have hf0 : fuel = 0 := by subst hR'; omega
          subst hf0
          rw [spiral]
          refine .inl ⟨a1, ?_⟩
          intro p hp1 hp2
          have : p = q + 1 := by omega
          subst this
          exact hempty
        · have hnext := ih (q + 1 + 1) 0 h1 d1 (by omega) (by omega) (by omega) (by rw [Nat.add_sub_cancel]; omega) (.inl ⟨a1, a2, by simp⟩)
          rw [Nat.add_sub_cancel, Nat.add_zero] at hnext
          have e4 : 8 * (q + 1 + 1) + 8 = 8 * (q + 1 + 1 + 1) := by omega
          have e5 : ringEnd (q + 1) + 8 * (q + 1 + 1) = ringEnd (q + 1 + 1) := rfl
          rw [e4, e5]
          rcases hnext with ⟨b1, b2⟩ | ⟨b1, p, b2, b3, b4, b5⟩
          · refine .inl ⟨b1, ?_⟩
            intro p hp1 hp2
            rcases Nat.lt_or_ge p (q + 2) with hlt | hge
            · have : p = q + 1 := by omega
              subst this; exact hempty
            · exact b2 p hge hp2
          · refine .inr ⟨b1, p, by omega, b3, b4, ?_⟩
            intro p' hp1 hp2
            rcases Nat.lt_or_ge p' (q + 2) with hlt | hge
            · have : p' = q + 1 := by omega
              subst this; exact hempty
            · exact b5 p' hge hp2
      · rw [if_pos a1]
        refine .inr ⟨a1, q + 1, by omega, hR, ⟨?_, ?_⟩, by intro p h1 h2; omega⟩
        · exact ⟨_, _, ringPos_on (by omega) (by omega), a3⟩
        · intro x z h' hx hh
          obtain ⟨j, hj, he⟩ := ringPos_all (by omega) hx
          refine a4 j (by omega) h' ?_
          rw [he]; exact hh
    · have hi : ringEnd q + k + 1 ≠ ringEnd (q + 1) := by omega
      rw [if_neg hi]
      obtain ⟨o1, o2⟩ := spiral_inside (r := q + 1) (k := k) (by omega) (by omega)
      rw [move_eq (ringEnd (q + 1)) (8 * (q + 1 + 1)) h1 d1 o1 o2]
      have hnext := ih (q + 1) (k + 1) h1 d1 (by omega) hR (by omega) (by rw [Nat.add_sub_cancel]; omega) hs1
      rw [Nat.add_sub_cancel] at hnext
      exact hnext

/-- Spec: the cell a point is looked up in, the nearest cell of the patch to its own. -/
def Patch.cellOf (hp : Patch) (fx fz x z : Int) : Prop :=
  0 ≤ x ∧ x < hp.width ∧ 0 ≤ z ∧ z < hp.height ∧
  (∀ x', 0 ≤ x' → x' < hp.width → |fx - hp.xmin - x| ≤ |fx - hp.xmin - x'|) ∧
  ∀ z', 0 ≤ z' → z' < hp.height → |fz - hp.ymin - z| ≤ |fz - hp.ymin - z'|

theorem clampTo_spec {v n : Int} (hn : 0 < n) : 0 ≤ clampTo v 0 (n - 1) ∧ clampTo v 0 (n - 1) < n ∧
    ∀ x', 0 ≤ x' → x' < n → |v - clampTo v 0 (n - 1)| ≤ |v - x'| := by
  unfold clampTo
  refine ⟨by split <;> [skip; split] <;> omega, by split <;> [skip; split] <;> omega, ?_⟩
  intro x' h1 h2
  have key : ∀ a b : Int, (a ≤ b ∧ -b ≤ a) → |a| ≤ b := fun a b h => abs_le.2 ⟨h.2, h.1⟩
  have h3 := le_abs_self (v - x')
  have h4 := neg_abs_le (v - x')
  have h5 := abs_nonneg (v - x')
  apply key
  split
  · omega
  · split <;> omega

/-- **C103**: a point is looked up in the cell of the patch nearest to its own. If that cell has a height, it is the
answer. Otherwise the answer comes from the nearest ring of cells (up to `radius`) that has any height, and on that ring it
is one nearest to the wanted height; if there is none, it stays unset. (Assumed: the distances are below `MaxFloat32`.) -/
theorem getHeight_spec {K : Type} [LinearOrder K] (hp : Patch) (dist : Nat → K) {top : K} (ht : ∀ h, dist h < top) (fx fz : Int) (radius : Nat)
    (hw : 0 < hp.width) (hh : 0 < hp.height) :
    ∃ x z, hp.cellOf fx fz x z ∧
      ((∃ h, hp.at x z = some h ∧ getHeight hp dist top fx fz radius = h) ∨
       (hp.at x z = none ∧ Result hp dist x z 1 radius (getHeight hp dist top fx fz radius))) := by
  obtain ⟨x1, x2, x3⟩ := clampTo_spec (v := fx - hp.xmin) hw
  obtain ⟨z1, z2, z3⟩ := clampTo_spec (v := fz - hp.ymin) hh
  refine ⟨_, _, ⟨x1, x2, z1, z2, x3, z3⟩, ?_⟩
  unfold getHeight
  dsimp only
  generalize clampTo (fx - hp.xmin) 0 (hp.width - 1) = x at *
  generalize clampTo (fz - hp.ymin) 0 (hp.height - 1) = z at *
  by_cases hu : hp.data x z = unsetHeight
  · right
    rw [if_pos hu]
    refine ⟨by unfold Patch.at; rw [if_neg]; rintro ⟨-, -, -, -, h⟩; exact h hu, ?_⟩
    rw [← ringEnd_eq, hu]
    cases radius with
    | zero => exact .inl ⟨rfl, by intro q h1 h2; omega⟩
    | succ R =>
      exact spiral_spec hp dist ht x z (R + 1) (ringEnd (R + 1)) 1 0 unsetHeight top (by omega) (by omega) (by omega)
        (by simp [ringEnd]) (.inl ⟨rfl, rfl, by simp⟩)
  · left
    rw [if_neg hu]
    exact ⟨_, by unfold Patch.at; rw [if_pos ⟨x1, z1, x2, z2, hu⟩], rfl⟩

/-- A patch of 5 by 5 cells with heights in three cells only. -/
def somePatch : Patch where
  data x z := if x = 4 ∧ z = 4 then 7 else if x = 0 ∧ z = 2 then 30 else if x = 3 ∧ z = 3 then 9 else unsetHeight
  xmin := 10
  ymin := 20
  width := 5
  height := 5

example : getHeight somePatch (fun h => h) 100000 12 22 2 = 9 := by decide +kernel
example : getHeight somePatch (fun h => h) 100000 12 20 1 = unsetHeight := by decide +kernel
example : getHeight somePatch (fun h => h) 100000 12 20 2 = 30 := by decide +kernel
example : getHeight somePatch (fun h => h) 100000 3 50 9 = 30 := by decide +kernel
example : ∀ h : Nat, h < 65536 → (h : Nat) < 100000 := by omega

end Verif.Recast
