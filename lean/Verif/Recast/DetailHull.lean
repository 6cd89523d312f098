/-
Triangulating the outline of a detail mesh: `triangulateHull` (recast/meshdetail.go:740-793).

Simplifications: the distances are values of any type with a zero and a comparison of which nothing is assumed (so
`float32` with NaN is covered); the choice between moving left and moving right is an arbitrary function of the two
positions. Triangles are triples of positions in `hull`; the code stores the vertices `hull[i]`.
-/
import Verif.Recast.Triangulate
import Mathlib.Algebra.BigOperators.Group.List.Basic
import Mathlib.Data.List.Rotate
import Mathlib.Algebra.Group.Basic
import Mathlib.Tactic.Abel

namespace Verif.Recast
open Verif Verif.Detour

set_option linter.unusedSimpArgs false
set_option linter.unusedVariables false

/-- The search for the first ear (recast/meshdetail.go:745-762): `d i` is the perimeter of the ear at `i`, and `dmin`
starts at 0. -/
def startEar {K : Type} [Zero K] [LT K] [DecidableLT K] (d : Nat → K) (n : Nat) : Nat :=
  ((List.range n).foldl (fun (m : K × Nat) i => if d i < m.1 then (d i, i) else m) (0, 0)).2

/-- The loop (recast/meshdetail.go:774-792), `sel left right` being `dleft < dright`. -/
def hullLoop (sel : Nat → Nat → Bool) (n : Nat) : Nat → Nat → Nat → List Tri3 → Option (List Tri3)
  | fuel, l, r, out =>
    if next l n = r then some out
    else
      match fuel with
      | 0 => none
      | fuel + 1 =>
        if sel l r then hullLoop sel n fuel (next l n) r (out ++ [(l, next l n, r)])
        else hullLoop sel n fuel l (prev r n) (out ++ [(l, prev r n, r)])

/-- `triangulateHull` (recast/meshdetail.go:740-793): `none` is a panic (`hull[-1]` when `nhull` is 0) or a loop without
end. -/
def triangulateHull {K : Type} [Zero K] [LT K] [DecidableLT K] (d : Nat → K) (sel : Nat → Nat → Bool) (n : Nat) : Option (List Tri3) :=
  if n = 0 then none
  else
    let s := startEar d n
    hullLoop sel n n (next s n) (prev s n) [(s, next s n, prev s n)]

/-! ## Spec -/

/-- Spec: three positions of a closed polygon in its order, up to where one starts. -/
def InOrder (i j k : Nat) : Prop := (i < j ∧ j < k) ∨ (j < k ∧ k < i) ∨ (k < i ∧ i < j)

/-- Spec: a sum over the edges of the closed polygon of `n` positions. -/
def cycSum {A : Type} [AddCommGroup A] (f : Nat → Nat → A) (n : Nat) : A := ((List.range n).map fun k => f k ((k + 1) % n)).sum

/-- Spec: a sum over the edges of all triangles. -/
def trisSum {A : Type} [AddCommGroup A] (f : Nat → Nat → A) (ts : List Tri3) : A :=
  (ts.map fun t => f t.1 t.2.1 + f t.2.1 t.2.2 + f t.2.2 t.1).sum

/-- The position `p` steps after `s`. -/
def turn (s n p : Nat) : Nat := (s + p) % n

theorem turn_lt {s n p : Nat} (h : 0 < n) : turn s n p < n := Nat.mod_lt _ h

theorem turn_next {s n p : Nat} (hs : s < n) : next (turn s n p) n = turn s n (p + 1) := by
  unfold next turn
  have hn : 0 < n := by omega
  have h := Nat.mod_lt (s + p) hn
  have h2 : (s + (p + 1)) % n = ((s + p) % n + 1) % n := by rw [Nat.mod_add_mod]; rfl
  rw [h2]
  split
  case isTrue hlt => rw [Nat.mod_eq_of_lt hlt]
  case isFalse hge =>
    have : (s + p) % n + 1 = n := by omega
    rw [this, Nat.mod_self]

theorem turn_prev {s n p : Nat} (hs : s < n) (hp : 0 < p) : prev (turn s n p) n = turn s n (p - 1) := by
  obtain ⟨q, rfl⟩ : ∃ q, p = q + 1 := ⟨p - 1, by omega⟩
  rw [← turn_next hs, Nat.add_sub_cancel]
  have h : turn s n q < n := turn_lt (by omega)
  unfold prev next
  split
  · rw [if_pos (by omega)]; omega
  · rw [if_neg (by omega)]; omega

theorem turn_inj {s n p q : Nat} (hs : s < n) (hp : p < n) (hq : q < n) (h : turn s n p = turn s n q) : p = q := by
  unfold turn at h
  have e : ∀ x, x < n → (s + x) % n = if s + x < n then s + x else s + x - n := by
    intro x hx
    split
    · exact Nat.mod_eq_of_lt (by assumption)
    · rw [Nat.mod_eq_sub_mod (by omega), Nat.mod_eq_of_lt (by omega)]
  rw [e p hp, e q hq] at h
  split at h <;> split at h <;> omega

theorem turn_order {s n a b c : Nat} (hs : s < n) (hab : a < b) (hbc : b < c) (hc : c < n) :
    InOrder (turn s n a) (turn s n b) (turn s n c) := by
  have e : ∀ x, x < n → turn s n x = if s + x < n then s + x else s + x - n := by
    intro x hx
    unfold turn
    split
    · exact Nat.mod_eq_of_lt (by assumption)
    · rw [Nat.mod_eq_sub_mod (by omega), Nat.mod_eq_of_lt (by omega)]
  unfold InOrder
  rw [e a (by omega), e b (by omega), e c hc]
  split <;> split <;> split <;> omega

theorem startEar_lt {K : Type} [Zero K] [LT K] [DecidableLT K] (d : Nat → K) {n : Nat} (hn : 0 < n) : startEar d n < n := by
  unfold startEar
  have key : ∀ (l : List Nat) (m : K × Nat), (∀ i ∈ l, i < n) → m.2 < n →
      (l.foldl (fun (m : K × Nat) i => if d i < m.1 then (d i, i) else m) m).2 < n := by
    intro l
    induction l with
    | nil => intro m _ h; exact h
    | cons i l ih =>
      intro m hl hm
      rw [List.foldl_cons]
      apply ih _ fun j hj => hl j (List.mem_cons_of_mem _ hj)
      split
      · exact hl i (List.mem_cons_self ..)
      · exact hm
  exact key _ _ (fun i hi => List.mem_range.1 hi) hn

/-- The sum over the edges from position `a` to position `b` after `s`. -/
def pathSum {A : Type} [AddCommGroup A] (f : Nat → Nat → A) (s n a : Nat) : Nat → A
  | 0 => 0
  | m + 1 => f (turn s n a) (turn s n (a + 1)) + pathSum f s n (a + 1) m

theorem pathSum_succ {A : Type} [AddCommGroup A] (f : Nat → Nat → A) (s n a m : Nat) :
    pathSum f s n a (m + 1) = f (turn s n a) (turn s n (a + 1)) + pathSum f s n (a + 1) m := rfl

theorem pathSum_last {A : Type} [AddCommGroup A] (f : Nat → Nat → A) (s n a m : Nat) :
    pathSum f s n a (m + 1) = pathSum f s n a m + f (turn s n (a + m)) (turn s n (a + m + 1)) := by
  induction m generalizing a with
  | zero => simp [pathSum]
  | succ m ih =>
    have e : a + 1 + m = a + (m + 1) := by omega
    rw [pathSum_succ, ih, e, pathSum_succ f s n a m]
    exact (add_assoc _ _ _).symm

/-- What the loop does, in positions after the first ear. -/
theorem hullLoop_spec {A : Type} [AddCommGroup A] {f : Nat → Nat → A} (hf : ∀ i j, f i j = -f j i) (sel : Nat → Nat → Bool)
    {s n : Nat} (hs : s < n) : ∀ (fuel a m : Nat) (out : List Tri3), a + m + 1 < n → m ≤ fuel →
    ∃ ts, hullLoop sel n fuel (turn s n a) (turn s n (a + m + 1)) out = some (out ++ ts) ∧ ts.length = m ∧
      (∀ t ∈ ts, t.1 < n ∧ t.2.1 < n ∧ t.2.2 < n ∧ InOrder t.1 t.2.1 t.2.2) ∧
      trisSum f ts = pathSum f s n a (m + 1) + f (turn s n (a + m + 1)) (turn s n a) := by
  intro fuel
  induction fuel with
  | zero =>
    intro a m out hn hm
    have : m = 0 := by omega
    subst this
    refine ⟨[], ?_, rfl, by simp, ?_⟩
    · rw [hullLoop, turn_next hs, if_pos rfl, List.append_nil]
    · simp only [trisSum, List.map_nil, List.sum_nil, pathSum, add_zero]
      rw [hf (turn s n (a + 1)) (turn s n a)]
      simp
  | succ fuel ih =>
    intro a m out hn hm
    rw [hullLoop, turn_next hs]
    cases m with
    | zero =>
      refine ⟨[], ?_, rfl, by simp, ?_⟩
      · rw [if_pos rfl, List.append_nil]
      · simp only [trisSum, List.map_nil, List.sum_nil, pathSum, add_zero]
        rw [hf (turn s n (a + 1)) (turn s n a)]
        simp
    | succ m =>
      rw [if_neg (fun h => by have := turn_inj hs (by omega) (by omega) h; omega)]
      have hlt : ∀ p, turn s n p < n := fun p => turn_lt (by omega)
      cases sel (turn s n a) (turn s n (a + (m + 1) + 1)) with
      | true =>
        rw [if_pos rfl]
        have e : a + (m + 1) + 1 = (a + 1) + m + 1 := by omega
        rw [e]
        obtain ⟨ts, h1, h2, h3, h4⟩ := ih (a + 1) m (out ++ [(turn s n a, turn s n (a + 1), turn s n ((a + 1) + m + 1))]) (by omega) (by omega)
        refine ⟨(turn s n a, turn s n (a + 1), turn s n ((a + 1) + m + 1)) :: ts, ?_, by simp [h2], ?_, ?_⟩
        · rw [h1, List.append_assoc]; rfl
        · intro t ht
          rcases List.mem_cons.1 ht with rfl | ht
          · exact ⟨hlt _, hlt _, hlt _, turn_order hs (by omega) (by omega) (by omega)⟩
          · exact h3 t ht
        · rw [trisSum, List.map_cons, List.sum_cons]
          rw [trisSum] at h4
          rw [h4, pathSum_succ f s n a (m + 1)]
          dsimp only
          rw [hf (turn s n ((a + 1) + m + 1)) (turn s n (a + 1))]
          abel
      | false =>
        rw [if_neg (by simp), turn_prev hs (by omega)]
        have e : a + (m + 1) + 1 - 1 = a + m + 1 := by omega
        rw [e]
        obtain ⟨ts, h1, h2, h3, h4⟩ := ih a m (out ++ [(turn s n a, turn s n (a + m + 1), turn s n (a + (m + 1) + 1))]) (by omega) (by omega)
        refine ⟨(turn s n a, turn s n (a + m + 1), turn s n (a + (m + 1) + 1)) :: ts, ?_, by simp [h2], ?_, ?_⟩
        · rw [h1, List.append_assoc]; rfl
        · intro t ht
          rcases List.mem_cons.1 ht with rfl | ht
          · exact ⟨hlt _, hlt _, hlt _, turn_order hs (by omega) (by omega) (by omega)⟩
          · exact h3 t ht
        · rw [trisSum, List.map_cons, List.sum_cons]
          rw [trisSum] at h4
          rw [h4, pathSum_last f s n a (m + 1)]
          dsimp only
          rw [hf (turn s n (a + m + 1)) (turn s n a)]
          have e2 : a + (m + 1) = a + m + 1 := rfl
          rw [e2]
          abel

/-- A closed polygon may be walked from any position. -/
theorem cycSum_turn {A : Type} [AddCommGroup A] (f : Nat → Nat → A) {s n : Nat} (hs : s < n) :
    cycSum f n = pathSum f s n 0 n := by
  have h1 : ∀ m a, pathSum f s n a m = ((List.range' a m).map fun k => f (turn s n k) (turn s n (k + 1))).sum := by
    intro m
    induction m with
    | zero => intro a; rfl
    | succ m ih => intro a; rw [pathSum, ih, List.range'_succ, List.map_cons, List.sum_cons]
  rw [h1, ← List.range_eq_range']
  have h2 : (List.range n).map (turn s n) = (List.range n).rotate s := by
    apply List.ext_getElem
    · simp
    · intro k hk1 hk2
      simp only [List.length_map, List.length_range] at hk1
      simp only [List.getElem_map, List.getElem_range, List.getElem_rotate, List.length_range]
      unfold turn
      rw [Nat.add_comm]
  have h3 : ((List.range n).map fun k => f (turn s n k) (turn s n (k + 1))) =
      ((List.range n).map (turn s n)).map fun k => f k ((k + 1) % n) := by
    rw [List.map_map]
    apply List.map_congr_left
    intro k hk
    dsimp only [Function.comp]
    have : (turn s n k + 1) % n = turn s n (k + 1) := by
      unfold turn
      rw [Nat.mod_add_mod]; rfl
    rw [this]
  rw [h3, h2, cycSum]
  exact ((List.rotate_perm _ _).map _).sum_eq.symm

/-- **C64**: a hull of `n ≥ 3` points gives exactly `n - 2` triangles (so the loop ends); their corners are positions of
the hull, in the hull's order; and every edge of a triangle is an edge of the hull or is met once more, backwards: for
every antisymmetric `f` the sums over triangles and hull agree. -/
theorem hull_spec {K A : Type} [Zero K] [LT K] [DecidableLT K] [AddCommGroup A] (d : Nat → K) (sel : Nat → Nat → Bool) {n : Nat} (hn : 3 ≤ n)
    {f : Nat → Nat → A} (hf : ∀ i j, f i j = -f j i) :
    ∃ ts, triangulateHull d sel n = some ts ∧ ts.length = n - 2 ∧
      (∀ t ∈ ts, t.1 < n ∧ t.2.1 < n ∧ t.2.2 < n ∧ InOrder t.1 t.2.1 t.2.2) ∧ trisSum f ts = cycSum f n := by
  unfold triangulateHull
  rw [if_neg (by omega)]
  have hs := startEar_lt d (n := n) (by omega)
  generalize startEar d n = s at hs ⊢
  have e0 : turn s n 0 = s := Nat.mod_eq_of_lt hs
  have e1 : next s n = turn s n 1 := by rw [← turn_next hs, e0]
  have en : prev s n = turn s n (n - 1) := by
    have h : turn s n n = s := by unfold turn; rw [Nat.add_mod_right, Nat.mod_eq_of_lt hs]
    have := turn_prev hs (p := n) (by omega)
    rw [h] at this
    exact this
  obtain ⟨ts, h1, h2, h3, h4⟩ := hullLoop_spec hf sel hs n 1 (n - 3) [(s, next s n, prev s n)] (by omega) (by omega)
  have e : 1 + (n - 3) + 1 = n - 1 := by omega
  rw [e, ← e1, ← en] at h1
  refine ⟨(s, next s n, prev s n) :: ts, h1, by simp [h2]; omega, ?_, ?_⟩
  · intro t ht
    rcases List.mem_cons.1 ht with rfl | ht
    · refine ⟨hs, by rw [e1]; exact turn_lt (by omega), by rw [en]; exact turn_lt (by omega), ?_⟩
      dsimp only
      rw [e1, en]
      have := turn_order hs (a := 0) (b := 1) (c := n - 1) (by omega) (by omega) (by omega)
      rw [e0] at this
      exact this
    · exact h3 t ht
  · rw [trisSum, List.map_cons, List.sum_cons]
    rw [trisSum] at h4
    rw [h4, cycSum_turn f hs]
    obtain ⟨m, rfl⟩ : ∃ m, n = m + 3 := ⟨n - 3, by omega⟩
    rw [show pathSum f s (m + 3) 0 (m + 3) = f (turn s (m + 3) 0) (turn s (m + 3) (0 + 1)) + pathSum f s (m + 3) (0 + 1) (m + 1 + 1) from rfl,
      pathSum_last f s (m + 3) (0 + 1) (m + 1)]
    dsimp only
    rw [e0, e1, en]
    have e5 : m + 3 - 3 + 1 = m + 1 := by omega
    have e6 : 1 + (m + 3 - 3) + 1 = m + 2 := by omega
    have e7 : 0 + 1 + (m + 1) = m + 2 := by omega
    have e8 : m + 3 - 1 = m + 2 := by omega
    have e9 : turn s (m + 3) (0 + 1 + (m + 1) + 1) = s := by
      have : 0 + 1 + (m + 1) + 1 = m + 3 := by omega
      rw [this]; unfold turn; rw [Nat.add_mod_right, Nat.mod_eq_of_lt hs]
    rw [e9, e5, e6, e7, e8]
    rw [hf (turn s (m + 3) (m + 2)) (turn s (m + 3) 1)]
    abel

/-- Spec: twice the signed area of a triangle on the xz-plane, up to sign `vcross2` (recast/meshdetail.go:59-65). -/
def cross2 {K : Type} [CommRing K] (a b c : K × K) : K := (b.1 - a.1) * (c.2 - a.2) - (b.2 - a.2) * (c.1 - a.1)

/-- **C64**: in exact arithmetic, the signed areas of the triangles add up to that of the hull (the shoelace sum). -/
theorem hull_area {K F : Type} [Zero K] [LT K] [DecidableLT K] [CommRing F] (d : Nat → K) (sel : Nat → Nat → Bool) {n : Nat} (hn : 3 ≤ n)
    (P : Nat → F × F) {ts : List Tri3} (h : triangulateHull d sel n = some ts) :
    (ts.map fun t => cross2 (P t.1) (P t.2.1) (P t.2.2)).sum =
      ((List.range n).map fun k => (P k).1 * (P ((k + 1) % n)).2 - (P k).2 * (P ((k + 1) % n)).1).sum := by
  obtain ⟨ts', h1, -, -, h2⟩ := hull_spec d sel hn (f := fun i j => (P i).1 * (P j).2 - (P i).2 * (P j).1) (by intro i j; ring)
  rw [h] at h1
  cases h1
  rw [trisSum, cycSum] at h2
  rw [← h2]
  congr 1
  apply List.map_congr_left
  intro t _
  unfold cross2
  ring

/-- **C64**: on a strictly convex hull every triangle has positive area. -/
theorem hull_convex {K F : Type} [Zero K] [LT K] [DecidableLT K] [CommRing F] [LinearOrder F] (d : Nat → K) (sel : Nat → Nat → Bool) {n : Nat}
    (hn : 3 ≤ n) (P : Nat → F × F) (hc : ∀ i j k, i < j → j < k → k < n → 0 < cross2 (P i) (P j) (P k))
    {ts : List Tri3} (h : triangulateHull d sel n = some ts) : ∀ t ∈ ts, 0 < cross2 (P t.1) (P t.2.1) (P t.2.2) := by
  obtain ⟨ts', h1, -, h2, -⟩ := hull_spec (A := Int) d sel hn (f := fun i j => 0) (by simp)
  rw [h] at h1
  cases h1
  intro t ht
  obtain ⟨b1, b2, b3, ho⟩ := h2 t ht
  have rot : ∀ a b c : F × F, cross2 a b c = cross2 b c a := by intro a b c; unfold cross2; ring
  rcases ho with ⟨o1, o2⟩ | ⟨o1, o2⟩ | ⟨o1, o2⟩
  · exact hc _ _ _ o1 o2 b3
  · rw [rot]; exact hc _ _ _ o1 o2 b1
  · rw [rot, rot]; exact hc _ _ _ o1 o2 b2

/-- **C64** (the exception): an empty hull panics. -/
theorem hull_empty {K : Type} [Zero K] [LT K] [DecidableLT K] (d : Nat → K) (sel : Nat → Nat → Bool) : triangulateHull d sel 0 = none := rfl

example : triangulateHull (fun i => [7, 5, 6, 4, 8].getD i 0) (fun l r => decide (l + r = 5)) 5 = some [(0, 1, 4), (1, 2, 4), (2, 3, 4)] := by
  decide +kernel

/-- **C99**: the first triangle is the ear at the first hull point whenever no perimeter is below zero. -/
theorem hull_start_partial {K : Type} [Zero K] [LT K] [DecidableLT K] (d : Nat → K) (n : Nat) (hd : ∀ i < n, ¬ d i < 0) : startEar d n = 0 := by
  unfold startEar
  have key : ∀ (l : List Nat), (∀ i ∈ l, i < n) →
      l.foldl (fun (m : K × Nat) i => if d i < m.1 then (d i, i) else m) (0, 0) = (0, 0) := by
    intro l
    induction l with
    | nil => intro _; rfl
    | cons i l ih =>
      intro hl
      rw [List.foldl_cons, if_neg (hd i (hl i (List.mem_cons_self ..)))]
      exact ih fun j hj => hl j (List.mem_cons_of_mem _ hj)
  rw [key _ fun i hi => List.mem_range.1 hi]

/-- **C99** (refuted): the search for the ear of shortest perimeter starts from `dmin = 0`, so it finds nothing: here the
ear at 2 is shorter than the one the triangulation starts with. -/
theorem hull_start_refuted : ∃ d : Nat → Nat, d 2 < d 0 ∧ startEar d 4 = 0 ∧
    (triangulateHull d (fun _ _ => true) 4).map (·.head?) = some (some (0, 1, 3)) :=
  ⟨fun i => [9, 9, 3, 9].getD i 0, by decide, by decide, by decide⟩

end Verif.Recast
