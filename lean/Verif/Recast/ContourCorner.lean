/-
Corners of contours: the height that `cornerHeight` computes and the border vertices it marks (recast/contour.go:9-71).
-/
import Mathlib.Data.Nat.Bitwise
import Verif.Recast.ContourLimits

namespace Verif.Recast
open Verif Verif.Detour

set_option linter.unusedSimpArgs false
set_option linter.unusedVariables false

/-! ## Heights -/

/-- Spec: span `j` is `i` or is connected to `i` round the corner between directions `d` and `d + 1`, by at most two
connections. -/
inductive RoundCorner (c : Chf) (i d : Nat) : Nat → Prop
  | self : RoundCorner c i d i
  | side {j} : c.Nb i d j → RoundCorner c i d j
  | side' {j} : c.Nb i ((d + 1) % 4) j → RoundCorner c i d j
  | diag {k j} : c.Nb i d k → c.Nb k ((d + 1) % 4) j → RoundCorner c i d j
  | diag' {k j} : c.Nb i ((d + 1) % 4) k → c.Nb k d j → RoundCorner c i d j

theorem nb_cases {c : Chf} (hc : c.Wf) {v : (Nat × Nat) × Nat} (hv : c.At v.1.1 v.1.2 v.2) {d : Nat} (hd : d < 4) :
    (c.nb v.1.1 v.1.2 v.2 d = none ∧ ∀ j, ¬ c.Nb v.2 d j) ∨
    ∃ w, c.nb v.1.1 v.1.2 v.2 d = some w ∧ c.At w.1.1 w.1.2 w.2 ∧ c.Nb v.2 d w.2 ∧ ∀ j, c.Nb v.2 d j → j = w.2 := by
  cases h : c.nb v.1.1 v.1.2 v.2 d with
  | none =>
    refine Or.inl ⟨rfl, fun j hj => ?_⟩
    obtain ⟨p, hp⟩ := (hc.nb_iff hv hd j).1 hj
    rw [h] at hp; cases hp
  | some w =>
    obtain ⟨h1, _, _, h2⟩ := hc.nb_some hv hd h
    exact Or.inr ⟨w, rfl, h1, h2, fun j hj => Chf.Nb.unique hc hd hj h2⟩

/-- **C120**. The height of a contour vertex is the greatest floor height of the spans connected round the corner. -/
theorem corner_height (c : Chf) (hc : c.Wf) (reg ys : Nat → Nat) (e : SpanEdge) (he : c.At e.1.1.1 e.1.1.2 e.1.2) (hd : e.2 < 4) :
    (∃ j, RoundCorner c e.1.2 e.2 j ∧ (cornerHeight c reg ys e).1 = ys j) ∧
    ∀ j, RoundCorner c e.1.2 e.2 j → ys j ≤ (cornerHeight c reg ys e).1 := by
  have hdp : (e.2 + 1) % 4 < 4 := Nat.mod_lt _ (by omega)
  have pick : ∀ (P : Nat → Prop) (a b : Nat), (∃ j, P j ∧ a = ys j) → (∃ j, P j ∧ b = ys j) → ∃ j, P j ∧ max a b = ys j := by
    intro P a b ha hb
    rcases le_total a b with h | h
    · rw [max_eq_right h]; exact hb
    · rw [max_eq_left h]; exact ha
  have hself : ∃ j, RoundCorner c e.1.2 e.2 j ∧ ys e.1.2 = ys j := ⟨_, .self, rfl⟩
  rcases nb_cases hc he hd with ⟨a1, a2⟩ | ⟨w1, a1, a2, a3, a4⟩
  · rcases nb_cases hc he hdp with ⟨b1, b2⟩ | ⟨w3, b1, b2, b3, b4⟩
    · have : (cornerHeight c reg ys e).1 = ys e.1.2 := by simp only [cornerHeight, a1, b1, Option.bind_none]
      rw [this]
      refine ⟨hself, ?_⟩
      intro j hj
      cases hj with
      | self => exact le_rfl
      | side h => exact absurd h (a2 _)
      | side' h => exact absurd h (b2 _)
      | diag h _ => exact absurd h (a2 _)
      | diag' h _ => exact absurd h (b2 _)
    · rcases nb_cases hc b2 hd with ⟨d1, d2⟩ | ⟨w4, d1, d2, d3, d4⟩
      · have : (cornerHeight c reg ys e).1 = max (ys e.1.2) (ys w3.2) := by simp only [cornerHeight, a1, b1, d1, Option.bind_none, Option.bind_some]
        rw [this]
        refine ⟨pick _ _ _ hself ⟨_, .side' b3, rfl⟩, ?_⟩
        intro j hj
        cases hj with
        | self => exact le_max_left _ _
        | side h => exact absurd h (a2 _)
        | side' h => rw [b4 _ h]; exact le_max_right _ _
        | diag h _ => exact absurd h (a2 _)
        | diag' h h' => rw [b4 _ h] at h'; exact absurd h' (d2 _)
      · have : (cornerHeight c reg ys e).1 = max (max (ys e.1.2) (ys w3.2)) (ys w4.2) := by simp only [cornerHeight, a1, b1, d1, Option.bind_none, Option.bind_some]
        rw [this]
        refine ⟨pick _ _ _ (pick _ _ _ hself ⟨_, .side' b3, rfl⟩) ⟨_, .diag' b3 d3, rfl⟩, ?_⟩
        intro j hj
        cases hj with
        | self => exact le_trans (le_max_left _ _) (le_max_left _ _)
        | side h => exact absurd h (a2 _)
        | side' h => rw [b4 _ h]; exact le_trans (le_max_right _ _) (le_max_left _ _)
        | diag h _ => exact absurd h (a2 _)
        | diag' h h' => rw [b4 _ h] at h'; rw [d4 _ h']; exact le_max_right _ _
  · rcases nb_cases hc a2 hdp with ⟨x1, x2⟩ | ⟨w2, x1, x2, x3, x4⟩ <;> rcases nb_cases hc he hdp with ⟨b1, b2⟩ | ⟨w3, b1, b2, b3, b4⟩
    · have : (cornerHeight c reg ys e).1 = max (ys e.1.2) (ys w1.2) := by simp only [cornerHeight, a1, b1, x1, Option.bind_none, Option.bind_some]
      rw [this]
      refine ⟨pick _ _ _ hself ⟨_, .side a3, rfl⟩, ?_⟩
      intro j hj
      cases hj with
      | self => exact le_max_left _ _
      | side h => rw [a4 _ h]; exact le_max_right _ _
      | side' h => exact absurd h (b2 _)
      | diag h h' => rw [a4 _ h] at h'; exact absurd h' (x2 _)
      | diag' h _ => exact absurd h (b2 _)
    · rcases nb_cases hc b2 hd with ⟨d1, d2⟩ | ⟨w4, d1, d2, d3, d4⟩
      · have : (cornerHeight c reg ys e).1 = max (max (ys e.1.2) (ys w1.2)) (ys w3.2) := by
          simp only [cornerHeight, a1, b1, d1, x1, Option.bind_none, Option.bind_some]
        rw [this]
        refine ⟨pick _ _ _ (pick _ _ _ hself ⟨_, .side a3, rfl⟩) ⟨_, .side' b3, rfl⟩, ?_⟩
        intro j hj
        cases hj with
        | self => omega
        | side h => rw [a4 _ h]; omega
        | side' h => rw [b4 _ h]; omega
        | diag h h' => rw [a4 _ h] at h'; exact absurd h' (x2 _)
        | diag' h h' => rw [b4 _ h] at h'; exact absurd h' (d2 _)
      · have : (cornerHeight c reg ys e).1 = max (max (max (ys e.1.2) (ys w1.2)) (ys w3.2)) (ys w4.2) := by
          simp only [cornerHeight, a1, b1, d1, x1, Option.bind_none, Option.bind_some]
        rw [this]
        refine ⟨pick _ _ _ (pick _ _ _ (pick _ _ _ hself ⟨_, .side a3, rfl⟩) ⟨_, .side' b3, rfl⟩) ⟨_, .diag' b3 d3, rfl⟩, ?_⟩
        intro j hj
        cases hj with
        | self => omega
        | side h => rw [a4 _ h]; omega
        | side' h => rw [b4 _ h]; omega
        | diag h h' => rw [a4 _ h] at h'; exact absurd h' (x2 _)
        | diag' h h' => rw [b4 _ h] at h'; rw [d4 _ h']; omega
    · have : (cornerHeight c reg ys e).1 = max (max (ys e.1.2) (ys w1.2)) (ys w2.2) := by
        simp only [cornerHeight, a1, b1, x1, Option.bind_none, Option.bind_some]
      rw [this]
      refine ⟨pick _ _ _ (pick _ _ _ hself ⟨_, .side a3, rfl⟩) ⟨_, .diag a3 x3, rfl⟩, ?_⟩
      intro j hj
      cases hj with
      | self => omega
      | side h => rw [a4 _ h]; omega
      | side' h => exact absurd h (b2 _)
      | diag h h' => rw [a4 _ h] at h'; rw [x4 _ h']; omega
      | diag' h _ => exact absurd h (b2 _)
    · rcases nb_cases hc b2 hd with ⟨d1, d2⟩ | ⟨w4, d1, d2, d3, d4⟩
      · have : (cornerHeight c reg ys e).1 = max (max (max (ys e.1.2) (ys w1.2)) (ys w2.2)) (ys w3.2) := by
          simp only [cornerHeight, a1, b1, d1, x1, Option.bind_none, Option.bind_some]
        rw [this]
        refine ⟨pick _ _ _ (pick _ _ _ (pick _ _ _ hself ⟨_, .side a3, rfl⟩) ⟨_, .diag a3 x3, rfl⟩) ⟨_, .side' b3, rfl⟩, ?_⟩
        intro j hj
        cases hj with
        | self => omega
        | side h => rw [a4 _ h]; omega
        | side' h => rw [b4 _ h]; omega
        | diag h h' => rw [a4 _ h] at h'; rw [x4 _ h']; omega
        | diag' h h' => rw [b4 _ h] at h'; exact absurd h' (d2 _)
      · have : (cornerHeight c reg ys e).1 = max (max (max (max (ys e.1.2) (ys w1.2)) (ys w2.2)) (ys w3.2)) (ys w4.2) := by
          simp only [cornerHeight, a1, b1, d1, x1, Option.bind_none, Option.bind_some]
        rw [this]
        refine ⟨pick _ _ _ (pick _ _ _ (pick _ _ _ (pick _ _ _ hself ⟨_, .side a3, rfl⟩) ⟨_, .diag a3 x3, rfl⟩) ⟨_, .side' b3, rfl⟩)
          ⟨_, .diag' b3 d3, rfl⟩, ?_⟩
        intro j hj
        cases hj with
        | self => omega
        | side h => rw [a4 _ h]; omega
        | side' h => rw [b4 _ h]; omega
        | diag h h' => rw [a4 _ h] at h'; rw [x4 _ h']; omega
        | diag' h h' => rw [b4 _ h] at h'; rw [d4 _ h']; omega

/-- Spec: going round the corner after edge `d` of span `i` either way leads to the same span, if it leads anywhere. -/
def SquareCloses (c : Chf) (i d : Nat) : Prop :=
  ∀ p, (∃ j, c.Nb i d j ∧ c.Nb j ((d + 1) % 4) p) ↔ ∃ q, c.Nb i ((d + 1) % 4) q ∧ c.Nb q d p

/-- **C121** (partial). Two connected spans of different regions give the corner at the end of their common edge the same height, if
the four spans round the corner are connected in a square. Missing: corners where they are not, see `shared_height_refuted`. -/
theorem shared_height_partial (c : Chf) (hc : c.Wf) (hm : c.Mutual) (reg ys : Nat → Nat) (e f : SpanEdge)
    (he : c.At e.1.1.1 e.1.1.2 e.1.2) (hf : c.At f.1.1.1 f.1.1.2 f.1.2) (hd : e.2 < 4) (hfd : f.2 = (e.2 + 1) % 4)
    (hn : c.Nb e.1.2 e.2 f.1.2) (hs : SquareCloses c e.1.2 e.2) :
    cornerB e = cornerB f ∧ (cornerHeight c reg ys e).1 = (cornerHeight c reg ys f).1 := by
  have hfd4 : f.2 < 4 := by omega
  have hback := hm _ _ _ hd hn
  have e2 : (f.2 + 1) % 4 = (e.2 + 2) % 4 := by omega
  constructor
  · have := cornerA_cross hc (d := (e.2 + 2) % 4) (v := f.1) (w := e.1) (Nat.mod_lt _ (by omega)) hf he hback
    unfold cornerB
    rw [e2, ← this]
    rw [show ((e.2 + 2) % 4 + 3) % 4 = (e.2 + 1) % 4 by omega]
  · obtain ⟨⟨j1, r1, h1⟩, m1⟩ := corner_height c hc reg ys e he hd
    obtain ⟨⟨j2, r2, h2⟩, m2⟩ := corner_height c hc reg ys f hf hfd4
    have hsame : ∀ j, RoundCorner c e.1.2 e.2 j ↔ RoundCorner c f.1.2 f.2 j := by
      intro j
      constructor
      · intro h
        cases h with
        | self => exact .side' (by rw [e2]; exact hback)
        | side h => rw [Chf.Nb.unique hc hd h hn]; exact .self
        | side' h => exact .diag' (by rw [e2]; exact hback) (by rw [hfd]; exact h)
        | diag h h' => rw [Chf.Nb.unique hc hd h hn] at h'; exact .side (by rw [hfd]; exact h')
        | diag' h h' =>
          obtain ⟨k, g1, g2⟩ := (hs j).2 ⟨_, h, h'⟩
          rw [Chf.Nb.unique hc hd g1 hn] at g2
          exact .side (by rw [hfd]; exact g2)
      · intro h
        cases h with
        | self => exact .side hn
        | side h => exact .diag hn (by rw [← hfd]; exact h)
        | side' h =>
          rw [e2] at h
          rw [Chf.Nb.unique hc (Nat.mod_lt _ (by omega)) h hback]; exact .self
        | diag h h' =>
          rw [e2] at h'
          rw [hfd] at h
          obtain ⟨q, g1, g2⟩ := (hs _).1 ⟨_, hn, h⟩
          have g3 := hm _ _ _ hd g2
          rw [Chf.Nb.unique hc (Nat.mod_lt _ (by omega)) h' g3]
          exact .side' g1
        | diag' h h' =>
          rw [e2] at h
          rw [Chf.Nb.unique hc (Nat.mod_lt _ (by omega)) h hback, hfd] at h'
          exact .side' h'
    refine le_antisymm ?_ ?_
    · rw [h1]; exact m2 _ ((hsame _).1 r1)
    · rw [h2]; exact m1 _ ((hsame _).2 r2)

/-- Two rows of three cells. The first two of the lower row are not connected to the cells above them. -/
def cliffChf : Chf where
  w := 3
  h := 2
  n := 6
  cells i := ⟨i, 1⟩
  con i := match i with
    | 0 => flatCon true true false true
    | 1 => flatCon false true false true
    | 2 => flatCon false false true true
    | 3 => flatCon true true false true
    | 4 => flatCon false true false true
    | _ => flatCon false true true false
  area _ := 63

theorem cliff_at {x y i : Nat} : cliffChf.At x y i ↔ x < 3 ∧ y < 2 ∧ i = x + y * 3 := by
  simp only [Chf.At, cliffChf]
  omega

theorem cliff_wf : cliffChf.Wf := by
  have hcon : ∀ i : Nat, i < 6 → ∀ d : Nat, d < 4 → getCon (cliffChf.con i) d ≠ notConnected → ∃ nx : Nat, nx < 3 ∧ ∃ ny : Nat, ny < 2 ∧ (nx : Int) = ((i % 3 : Nat) : Int) + dirX (BitVec.ofNat 32 d) ∧
      (ny : Int) = ((i / 3 : Nat) : Int) + dirY (BitVec.ofNat 32 d) ∧ (getCon (cliffChf.con i) d).toNat < 1 := by decide +kernel
  refine ⟨?_, ?_, ?_, ?_⟩
  · intro x y i h
    obtain ⟨h1, h2, h3⟩ := cliff_at.1 h
    show i < 6
    omega
  · intro i hi
    have hi' : i < 6 := hi
    exact ⟨i % 3, i / 3, cliff_at.2 ⟨by omega, by omega, by omega⟩⟩
  · intro x y x' y' i h1 h2
    obtain ⟨_, _, _⟩ := cliff_at.1 h1
    obtain ⟨_, _, _⟩ := cliff_at.1 h2
    omega
  · intro x y i h d hd hne
    obtain ⟨h1, h2, h3⟩ := cliff_at.1 h
    obtain ⟨nx, g1, ny, g2, g3, g4, g5⟩ := hcon i (by omega) d hd hne
    rw [show i % 3 = x by omega] at g3
    rw [show i / 3 = y by omega] at g4
    exact ⟨nx, ny, g3, g4, g1, g2, g5⟩

/-- The floor heights of the cliff. -/
def cliffY (i : Nat) : Nat := [0, 0, 5, 10, 10, 5].getD i 0

theorem cliff_nb : ∀ i : Nat, i < 6 → ∀ d : Nat, d < 4 → ∀ w ∈ cliffChf.nb (i % 3) (i / 3) i d,
    cliffChf.nb w.1.1 w.1.2 w.2 ((d + 2) % 4) = some ((i % 3, i / 3), i) ∧ cliffY i ≤ cliffY w.2 + 9 := by decide +kernel

theorem cliff_of_nb {i d j : Nat} (hd : d < 4) (h : cliffChf.Nb i d j) : cliffChf.Nb j ((d + 2) % 4) i ∧ cliffY i ≤ cliffY j + 9 := by
  obtain ⟨x, y, -, -, hat, -⟩ := id h
  obtain ⟨h1, h2, h3⟩ := cliff_at.1 hat
  obtain ⟨p, hp⟩ := (cliff_wf.nb_iff hat hd j).1 h
  have hw := cliff_wf.nb_some hat hd hp
  have e1 : i % 3 = x := by omega
  have e2 : i / 3 = y := by omega
  have := cliff_nb i (by omega) d hd (p, j) (by rw [e1, e2]; exact hp)
  rw [e1, e2] at this
  exact ⟨(cliff_wf.nb_iff hw.1 (Nat.mod_lt _ (by omega)) i).2 ⟨_, this.1⟩, this.2⟩

/-- **C121** (refuted in full). Where the spans are not connected in a square, the two contours that meet at a corner give it different
heights. A climb of 9 cuts only connections from height 0 to height 10: the contour of the spans at height 0 has its vertex (2, 1) at
height 5, the contour of the other spans has it at height 10. -/
theorem shared_height_refuted : ∃ (c : Chf) (reg ys : Nat → Nat) (i j : Nat) (a b : List Pt) (p q : Pt), c.Wf ∧ c.Mutual ∧ c.Nb i 0 j ∧
    (∀ k l d, d < 4 → c.Nb k d l → ys k ≤ ys l + 9) ∧
    (traceAll c reg ys).map (fun t => (t.1.2, t.2)) = [(j - 1, a), (i, b)] ∧ reg j ≠ reg i ∧ p ∈ a ∧ q ∈ b ∧
    (p.x, p.z) = (2, 1) ∧ (q.x, q.z) = (2, 1) ∧ p.y = 5 ∧ q.y = 10 := by
  have hn : cliffChf.nb 2 0 2 0 = some ((1, 0), 1) := by decide +kernel
  exact ⟨cliffChf, fun i => if i < 2 then 1 else 2, cliffY, 2, 1,
    [⟨0, 0, 1, 0⟩, ⟨1, 0, 1, 0⟩, ⟨2, 5, 1, 0⟩, ⟨2, 5, 0, 2⟩, ⟨1, 0, 0, 0⟩, ⟨0, 0, 0, 0⟩],
    [⟨2, 10, 1, 1⟩, ⟨1, 10, 1, 0⟩, ⟨0, 10, 1, 0⟩, ⟨0, 10, 2, 0⟩, ⟨1, 10, 2, 0⟩, ⟨2, 10, 2, 0⟩, ⟨3, 5, 2, 0⟩, ⟨3, 5, 1, 0⟩, ⟨3, 5, 0, 0⟩, ⟨2, 5, 0, 0⟩],
    ⟨2, 5, 1, 0⟩, ⟨2, 10, 1, 1⟩, cliff_wf, fun i d j hd h => (cliff_of_nb hd h).1,
    (cliff_wf.nb_iff (x := 2) (y := 0) (cliff_at.2 (by decide)) (by decide) 1).2 ⟨_, hn⟩, fun k l d hd h => (cliff_of_nb hd h).2,
    by decide +kernel, by decide, by decide, by decide, rfl, rfl, rfl, rfl⟩

/-- In a flat field the square closes: both contours give the corner (1, 1) the height of the highest of the four spans. -/
example : (cornerHeight (flatChf 2 2 fun _ => 63) (fun i => i + 1) (fun i => [3, 4, 9, 5].getD i 0) (((1, 0), 1), 0)).1 = 9 ∧
    (cornerHeight (flatChf 2 2 fun _ => 63) (fun i => i + 1) (fun i => [3, 4, 9, 5].getD i 0) (((0, 0), 0), 1)).1 = 9 := by decide +kernel

/-! ## Border vertices -/

/-- Spec: of four regions in a circle, the first two are one border region and the other two are proper regions. -/
def TwoAndTwo (a b c d : Nat) : Prop :=
  a = b ∧ isBorder a = true ∧ c ≠ 0 ∧ d ≠ 0 ∧ isBorder c = false ∧ isBorder d = false

/-- Spec: the four spans round the corner after edge `d` of `i`. -/
def FourRound (c : Chf) (i d s1 s2 s3 : Nat) : Prop :=
  c.Nb i d s1 ∧ c.Nb i ((d + 1) % 4) s3 ∧ (c.Nb s3 d s2 ∨ (∀ k, ¬ c.Nb s3 d k) ∧ c.Nb s1 ((d + 1) % 4) s2)

/-- Spec: a vertex that can be removed from the edge of a tile, as far as regions go. -/
def BorderCorner (c : Chf) (reg : Nat → Nat) (i d : Nat) : Prop :=
  ∃ s1 s2 s3, FourRound c i d s1 s2 s3 ∧
    (TwoAndTwo (reg i) (reg s1) (reg s2) (reg s3) ∨ TwoAndTwo (reg s1) (reg s2) (reg s3) (reg i) ∨
      TwoAndTwo (reg s2) (reg s3) (reg i) (reg s1) ∨ TwoAndTwo (reg s3) (reg i) (reg s1) (reg s2))

theorem cornerCode_eq (c : Chf) (reg : Nat → Nat) (i : Nat) (h : reg i < 65536) : cornerCode c reg i = reg i := by
  unfold cornerCode
  rw [show (65536 : Nat) = 2 ^ 16 by norm_num, Nat.or_mod_two_pow, Nat.shiftLeft_eq, Nat.mul_mod_left, Nat.or_zero]
  exact Nat.mod_eq_of_lt h

theorem border_bit {a : Nat} (h : a < 65536) : a &&& 0x8000 ≠ 0 ↔ 0x8000 ≤ a := by
  rw [show (0x8000 : Nat) = 2 ^ 15 by norm_num, Nat.and_two_pow, Nat.testBit_eq_decide_div_mod_eq]
  by_cases hb : a / 2 ^ 15 % 2 = 1
  · simp only [hb, decide_true, Bool.toNat_true]
    norm_num
    omega
  · simp only [hb, decide_false, Bool.toNat_false]
    norm_num
    omega

theorem borderTest_iff {a b c d : Nat} (ha : a < 65536) (hc : c < 65536) (hd : d < 65536) : borderTest a b c d = true ↔ TwoAndTwo a b c d := by
  have hc' : c >>> 16 = 0 := by rw [Nat.shiftRight_eq_div_pow]; exact Nat.div_eq_of_lt hc
  have hd' : d >>> 16 = 0 := by rw [Nat.shiftRight_eq_div_pow]; exact Nat.div_eq_of_lt hd
  have hc2 : c &&& 0x8000 = 0 ↔ ¬ 0x8000 ≤ c := by rw [← border_bit hc, not_not]
  have hd2 : d &&& 0x8000 = 0 ↔ ¬ 0x8000 ≤ d := by rw [← border_bit hd, not_not]
  unfold borderTest TwoAndTwo isBorder
  simp only [Bool.and_eq_true, decide_eq_true_eq, hc', hd', and_true, Nat.and_or_distrib_right, Nat.or_eq_zero_iff, decide_eq_false_iff_not, hc2, hd2]
  constructor
  · rintro ⟨⟨⟨h1, rfl⟩, h3, h4⟩, ⟨⟨h5, h6⟩, h7⟩, h8⟩
    rw [Nat.and_self, border_bit ha] at h1
    exact ⟨rfl, h1, h7, h8, h3, h4⟩
  · rintro ⟨rfl, h1, h7, h8, h3, h4⟩
    have h0 : a ≠ 0 := by rintro rfl; simp at h1
    rw [Nat.and_self, border_bit ha]
    exact ⟨⟨⟨h1, rfl⟩, h3, h4⟩, ⟨⟨h0, h0⟩, h7⟩, h8⟩

theorem not_twoAndTwo_zero {a b c d : Nat} (h : a = 0 ∨ b = 0 ∨ c = 0 ∨ d = 0) : ¬ TwoAndTwo a b c d := by
  rintro ⟨rfl, h1, h2, h3, _, _⟩
  have h0 : a ≠ 0 := by rintro rfl; simp [isBorder] at h1
  omega

/-- **C122** (partial). A contour vertex is flagged for removal if and only if the four spans round it exist and are, in a circle, two of one
border region and two of proper regions. Missing: the areas of the two proper spans are not compared, see `border_areas_refuted`. -/
theorem border_vertex_partial (c : Chf) (hc : c.Wf) (reg ys : Nat → Nat) (hr : ∀ i, reg i < 65536) (e : SpanEdge)
    (he : c.At e.1.1.1 e.1.1.2 e.1.2) (hd : e.2 < 4) : (cornerHeight c reg ys e).2 = true ↔ BorderCorner c reg e.1.2 e.2 := by
  have hdp : (e.2 + 1) % 4 < 4 := Nat.mod_lt _ (by omega)
  have hcc : ∀ i, cornerCode c reg i = reg i := fun i => cornerCode_eq c reg i (hr i)
  have z : (0 : Nat) < 65536 := by norm_num
  have fin : ∀ r0 r1 r2 r3 : Nat, r0 < 65536 → r1 < 65536 → r2 < 65536 → r3 < 65536 →
      ((borderTest r0 r1 r2 r3 || borderTest r1 r2 r3 r0 || borderTest r2 r3 r0 r1 || borderTest r3 r0 r1 r2) = true ↔
        (TwoAndTwo r0 r1 r2 r3 ∨ TwoAndTwo r1 r2 r3 r0 ∨ TwoAndTwo r2 r3 r0 r1 ∨ TwoAndTwo r3 r0 r1 r2)) := by
    intro r0 r1 r2 r3 h0 h1 h2 h3
    rw [Bool.or_eq_true, Bool.or_eq_true, Bool.or_eq_true, borderTest_iff h0 h2 h3, borderTest_iff h1 h3 h0, borderTest_iff h2 h0 h1, borderTest_iff h3 h1 h2,
      or_assoc, or_assoc]
  have zero : ∀ r0 r1 r2 r3 : Nat, r0 = 0 ∨ r1 = 0 ∨ r2 = 0 ∨ r3 = 0 →
      ¬ (TwoAndTwo r0 r1 r2 r3 ∨ TwoAndTwo r1 r2 r3 r0 ∨ TwoAndTwo r2 r3 r0 r1 ∨ TwoAndTwo r3 r0 r1 r2) := by
    intro r0 r1 r2 r3 h
    rintro (h' | h' | h' | h') <;> exact not_twoAndTwo_zero (by omega) h'
  rcases nb_cases hc he hd with ⟨a1, a2⟩ | ⟨w1, a1, a2, a3, a4⟩
  · have hno : ¬ BorderCorner c reg e.1.2 e.2 := by
      rintro ⟨s1, s2, s3, ⟨h, _⟩, _⟩
      exact a2 _ h
    refine iff_of_false ?_ hno
    simp only [cornerHeight, a1, hcc, Option.bind_none]
    rw [fin _ _ _ _ (hr _) z]
    · exact zero _ _ _ _ (Or.inr (Or.inl rfl))
    · split <;> first | exact hr _ | exact z
    · split <;> first | exact hr _ | exact z
  · rcases nb_cases hc he hdp with ⟨b1, b2⟩ | ⟨w3, b1, b2, b3, b4⟩
    · have hno : ¬ BorderCorner c reg e.1.2 e.2 := by
        rintro ⟨s1, s2, s3, ⟨_, h, _⟩, _⟩
        exact b2 _ h
      refine iff_of_false ?_ hno
      simp only [cornerHeight, a1, b1, hcc, Option.bind_none, Option.bind_some]
      rw [fin _ _ _ _ (hr _) (hr _) _ z]
      · exact zero _ _ _ _ (Or.inr (Or.inr (Or.inr rfl)))
      · split <;> first | exact hr _ | exact z
    · rcases nb_cases hc b2 hd with ⟨d1, d2⟩ | ⟨w4, d1, d2, d3, d4⟩
      · rcases nb_cases hc a2 hdp with ⟨x1, x2⟩ | ⟨w2, x1, x2, x3, x4⟩
        · have hno : ¬ BorderCorner c reg e.1.2 e.2 := by
            rintro ⟨s1, s2, s3, ⟨h1, h3, h⟩, _⟩
            rcases h with h | ⟨_, h⟩
            · rw [b4 _ h3] at h; exact d2 _ h
            · rw [a4 _ h1] at h; exact x2 _ h
          refine iff_of_false ?_ hno
          simp only [cornerHeight, a1, b1, d1, x1, hcc, Option.bind_none, Option.bind_some]
          rw [fin _ _ _ _ (hr _) (hr _) z (hr _)]
          exact zero _ _ _ _ (Or.inr (Or.inr (Or.inl rfl)))
        · simp only [cornerHeight, a1, b1, d1, x1, hcc, Option.bind_none, Option.bind_some]
          rw [fin _ _ _ _ (hr _) (hr _) (hr _) (hr _)]
          constructor
          · intro h
            exact ⟨w1.2, w2.2, w3.2, ⟨a3, b3, Or.inr ⟨d2, x3⟩⟩, h⟩
          · rintro ⟨s1, s2, s3, ⟨h1, h3, h2⟩, h⟩
            rw [a4 _ h1, b4 _ h3] at h2
            rcases h2 with h2 | ⟨_, h2⟩
            · exact absurd h2 (d2 _)
            · rw [a4 _ h1, b4 _ h3, x4 _ h2] at h; exact h
      · simp only [cornerHeight, a1, b1, d1, hcc, Option.bind_none, Option.bind_some]
        rw [fin _ _ _ _ (hr _) (hr _) (hr _) (hr _)]
        constructor
        · intro h
          exact ⟨w1.2, w4.2, w3.2, ⟨a3, b3, Or.inl d3⟩, h⟩
        · rintro ⟨s1, s2, s3, ⟨h1, h3, h2⟩, h⟩
          rw [a4 _ h1, b4 _ h3] at h2
          rcases h2 with h2 | ⟨h2, _⟩
          · rw [a4 _ h1, b4 _ h3, d4 _ h2] at h; exact h
          · exact absurd d3 (h2 _)

/-- Regions 1 and 2 next to a border: the corner between them is flagged. -/
example : BorderCorner (flatChf 2 2 fun _ => 63) (fun i => [0x8001, 0x8001, 1, 2].getD i 0) 2 2 ∧
    (cornerHeight (flatChf 2 2 fun _ => 63) (fun i => [0x8001, 0x8001, 1, 2].getD i 0) (fun _ => 0) (((0, 1), 2), 2)).2 = true := by
  have h : (cornerHeight (flatChf 2 2 fun _ => 63) (fun i => [0x8001, 0x8001, 1, 2].getD i 0) (fun _ => 0) (((0, 1), 2), 2)).2 = true := by
    decide +kernel
  refine ⟨?_, h⟩
  refine (border_vertex_partial _ (flat_wf 2 2 _) _ (fun _ => 0) ?_ (((0, 1), 2), 2) (flat_at.2 (by decide)) (by decide)).1 h
  intro i
  rcases i with _ | _ | _ | _ | i <;> simp

/-- **C122** (refuted in full). A vertex between two areas on the border of a tile is flagged for removal, although the code combines area and
region to prevent it: the combined code is cut to 16 bits. -/
theorem border_areas_refuted : ∃ (c : Chf) (reg ys : Nat → Nat) (a b : List Pt) (p q : Pt), c.Wf ∧ c.Mutual ∧
    c.Nb 5 2 6 ∧ c.area 5 ≠ c.area 6 ∧ (traceAll c reg ys).map (fun t => (t.1.2, t.2)) = [(4, a), (6, b)] ∧ reg 5 = reg 4 ∧ reg 5 ≠ reg 6 ∧
    p ∈ a ∧ q ∈ b ∧ (p.x, p.z) = (2, 1) ∧ (q.x, q.z) = (2, 1) ∧ p.r.toNat &&& 0x10000 ≠ 0 ∧ q.r.toNat &&& 0x10000 ≠ 0 := by
  have hn : (flatChf 4 2 fun i => if i % 4 < 2 then 1 else 2).nb 1 1 5 2 = some ((2, 1), 6) := by decide +kernel
  exact ⟨flatChf 4 2 fun i => if i % 4 < 2 then 1 else 2, fun i => [0x8001, 0x8001, 0x8001, 0x8001, 1, 1, 2, 2].getD i 0, fun _ => 0,
    [⟨0, 0, 2, 0⟩, ⟨1, 0, 2, 0⟩, ⟨2, 0, 2, 0⟩, ⟨2, 0, 1, 0x30002⟩, ⟨1, 0, 1, 0x18001⟩, ⟨0, 0, 1, 0x8001⟩],
    [⟨2, 0, 2, 0x20001⟩, ⟨3, 0, 2, 0⟩, ⟨4, 0, 2, 0⟩, ⟨4, 0, 1, 0⟩, ⟨3, 0, 1, 0x18001⟩, ⟨2, 0, 1, 0x18001⟩],
    ⟨2, 0, 1, 0x30002⟩, ⟨2, 0, 1, 0x18001⟩, flat_wf _ _ _, flat_mutual _ _ _,
    ((flat_wf _ _ _).nb_iff (x := 1) (y := 1) (flat_at.2 (by decide)) (by decide) 6).2 ⟨_, hn⟩, by decide, by decide +kernel, by decide, by decide,
    by decide, by decide, rfl, rfl, by decide, by decide⟩

end Verif.Recast
