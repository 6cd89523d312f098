/-
Bounding-volume trees stored in an array in depth-first order with escape offsets, and the loop that
walks them. Shared by the BV tree of a tile (detour/query.go:1278-1308, detour/mesh.go:944-968) and
the chunky triangle mesh (recast/chunkytrimesh.go:211-231).
-/
import Mathlib.Data.List.Basic
import Mathlib.Data.List.Nodup
import Mathlib.Data.List.Perm.Basic

namespace Verif

/-- The walk over the array: `for i < cnt { node := nodes[i]; overlap := ...; leaf := node.I >= 0;
if leaf && overlap { report i }; if overlap || leaf { i++ } else { i += -node.I } }`.
The result is the list of reported positions; `none` means the loop did not end within the fuel. -/
def treeWalk (ov : Nat → Bool) (idx : Nat → Int) (cnt : Nat) : Nat → Nat → Option (List Nat)
  | 0, i => if i < cnt then none else some []
  | f + 1, i =>
    if i < cnt then
      if 0 ≤ idx i then
        if ov i then (treeWalk ov idx cnt f (i + 1)).map (i :: ·)
        else treeWalk ov idx cnt f (i + 1)
      else if ov i then treeWalk ov idx cnt f (i + 1)
      else treeWalk ov idx cnt f ((i : Int) + -idx i).toNat
    else some []

/-- Shape of a binary tree. -/
inductive Shape where
  | leaf
  | node (l r : Shape)

namespace Shape

/-- Number of array entries. -/
def size : Shape → Nat
  | leaf => 1
  | node l r => 1 + l.size + r.size

/-- Number of leaves. -/
def nleaves : Shape → Nat
  | leaf => 1
  | node l r => l.nleaves + r.nleaves

/-- Array positions of the leaves of a tree stored from position `o` on. -/
def leaves : Shape → Nat → List Nat
  | leaf, o => [o]
  | node l r, o => l.leaves (o + 1) ++ r.leaves (o + 1 + l.size)

/-- The tree is stored from position `o` on: leaves are non-negative, inner nodes hold minus the size
of their subtree. -/
def Lay (idx : Nat → Int) : Shape → Nat → Prop
  | leaf, o => 0 ≤ idx o
  | node l r, o => idx o = -((1 + l.size + r.size : Nat) : Int) ∧ Lay idx l (o + 1) ∧
      Lay idx r (o + 1 + l.size)

/-- An inner node overlaps whenever one of the leaves below it does. -/
def Mono (ov : Nat → Bool) : Shape → Nat → Prop
  | leaf, _ => True
  | node l r, o => (∀ j ∈ (node l r).leaves o, ov j = true → ov o = true) ∧ Mono ov l (o + 1) ∧
      Mono ov r (o + 1 + l.size)

/-- What the walk reports. -/
def hits (ov : Nat → Bool) : Shape → Nat → List Nat
  | leaf, o => if ov o then [o] else []
  | node l r, o => if ov o then l.hits ov (o + 1) ++ r.hits ov (o + 1 + l.size) else []

theorem size_eq (s : Shape) : s.size + 1 = 2 * s.nleaves := by
  induction s with
  | leaf => rfl
  | node l r hl hr => simp only [size, nleaves]; omega

theorem nleaves_pos (s : Shape) : 0 < s.nleaves := by
  induction s with
  | leaf => simp [nleaves]
  | node l r hl hr => simp only [nleaves]; omega

theorem size_pos (s : Shape) : 0 < s.size := by have := s.size_eq; have := s.nleaves_pos; omega

theorem leaves_range (s : Shape) : ∀ o, ∀ j ∈ s.leaves o, o ≤ j ∧ j < o + s.size := by
  induction s with
  | leaf => intro o j hj; simp only [leaves, List.mem_singleton] at hj; simp only [size]; omega
  | node l r hl hr =>
    intro o j hj
    simp only [leaves, List.mem_append] at hj
    simp only [size]
    rcases hj with hj | hj
    · have := hl _ j hj; omega
    · have := hr _ j hj; omega

theorem length_leaves (s : Shape) : ∀ o, (s.leaves o).length = s.nleaves := by
  induction s with
  | leaf => intro o; rfl
  | node l r hl hr => intro o; simp only [leaves, List.length_append, hl, hr, nleaves]

/-- Leaves are stored in increasing order. -/
theorem leaves_sorted (s : Shape) : ∀ o, (s.leaves o).Pairwise (· < ·) := by
  induction s with
  | leaf => intro o; simp [leaves]
  | node l r hl hr =>
    intro o
    simp only [leaves, List.pairwise_append]
    refine ⟨hl _, hr _, fun a ha b hb => ?_⟩
    have := l.leaves_range _ a ha
    have := r.leaves_range _ b hb
    omega

/-- `Lay` only looks at the entries of the tree. -/
theorem Lay.congr {idx idx' : Nat → Int} (s : Shape) : ∀ o, s.Lay idx o →
    (∀ j, o ≤ j → j < o + s.size → idx' j = idx j) → s.Lay idx' o := by
  induction s with
  | leaf => intro o h he; simp only [Lay] at *; rw [he o (by omega) (by simp [size])]; exact h
  | node l r hl hr =>
    intro o ⟨h1, h2, h3⟩ he
    simp only [size] at he
    refine ⟨by rw [he o (by omega) (by omega)]; exact h1, hl _ h2 fun j h4 h5 => he j ?_ ?_,
      hr _ h3 fun j h4 h5 => he j ?_ ?_⟩ <;> omega

/-- `Mono` only looks at the entries of the tree. -/
theorem Mono.congr {ov ov' : Nat → Bool} (s : Shape) : ∀ o, s.Mono ov o →
    (∀ j, o ≤ j → j < o + s.size → ov' j = ov j) → s.Mono ov' o := by
  induction s with
  | leaf => intro o _ _; trivial
  | node l r hl hr =>
    intro o ⟨h1, h2, h3⟩ he
    refine ⟨fun j hj => ?_, ?_, ?_⟩
    · have hrg := (node l r).leaves_range o j hj
      rw [he j hrg.1 hrg.2, he o (by omega) (by have := (node l r).size_pos; omega)]
      exact h1 j hj
    · simp only [size] at he
      exact hl _ h2 fun j h4 h5 => he j (by omega) (by omega)
    · simp only [size] at he
      exact hr _ h3 fun j h4 h5 => he j (by omega) (by omega)

/-- Positions that hold a non-negative index are exactly the leaves. -/
theorem Lay.leaf_iff {idx : Nat → Int} (s : Shape) : ∀ o, s.Lay idx o →
    ∀ j, o ≤ j → j < o + s.size → (0 ≤ idx j ↔ j ∈ s.leaves o) := by
  induction s with
  | leaf =>
    intro o h j h1 h2
    simp only [size] at h2
    obtain rfl : j = o := by omega
    simp only [Lay] at h
    simp [leaves, h]
  | node l r hl hr =>
    intro o ⟨h1, h2, h3⟩ j hj1 hj2
    simp only [size] at hj2
    simp only [leaves, List.mem_append]
    by_cases hjo : j = o
    · subst hjo
      constructor
      · intro h; omega
      · rintro (h | h)
        · have := l.leaves_range _ j h; omega
        · have := r.leaves_range _ j h; omega
    · by_cases hjl : j < o + 1 + l.size
      · rw [hl _ h2 j (by omega) (by omega)]
        constructor
        · exact Or.inl
        · rintro (h | h)
          · exact h
          · have := r.leaves_range _ j h; omega
      · rw [hr _ h3 j (by omega) (by omega)]
        constructor
        · exact Or.inr
        · rintro (h | h)
          · have := l.leaves_range _ j h; omega
          · exact h

theorem hits_eq {ov : Nat → Bool} (s : Shape) : ∀ o, s.Mono ov o → s.hits ov o = (s.leaves o).filter ov := by
  induction s with
  | leaf =>
    intro o _
    simp only [hits, leaves, List.filter_cons, List.filter_nil]
  | node l r hl hr =>
    intro o ⟨h1, h2, h3⟩
    simp only [hits]
    split
    · rw [hl _ h2, hr _ h3, leaves, List.filter_append]
    · rename_i ho
      symm
      rw [List.filter_eq_nil_iff]
      intro j hj hov
      exact ho (h1 j hj hov)

/-- The walk over a stored tree, followed by whatever comes behind it. -/
theorem walk_lay {ov : Nat → Bool} {idx : Nat → Int} {cnt : Nat} (s : Shape) :
    ∀ o f r, s.Lay idx o → o + s.size ≤ cnt →
      (∀ f', f ≤ f' → treeWalk ov idx cnt f' (o + s.size) = some r) →
      ∀ f', f + s.size ≤ f' → treeWalk ov idx cnt f' o = some (s.hits ov o ++ r) := by
  induction s with
  | leaf =>
    intro o f r h hc hr f' hf
    simp only [size] at hc hr hf
    obtain ⟨f', rfl⟩ : ∃ k, f' = k + 1 := ⟨f' - 1, by omega⟩
    simp only [Lay] at h
    rw [treeWalk, if_pos (by omega), if_pos h, hr f' (by omega)]
    simp only [hits]
    split <;> rfl
  | node l r hl hr =>
    intro o f res h hc hres f' hf
    obtain ⟨h1, h2, h3⟩ := h
    simp only [size] at hc hres hf
    obtain ⟨f', rfl⟩ : ∃ k, f' = k + 1 := ⟨f' - 1, by omega⟩
    rw [treeWalk, if_pos (by omega), if_neg (by rw [h1]; omega)]
    simp only [hits]
    split
    · have hR := hr (o + 1 + l.size) f res h3 (by omega)
        (by rw [show o + 1 + l.size + r.size = o + (1 + l.size + r.size) by omega]; exact hres)
      have hL := hl (o + 1) (f + r.size) _ h2 (by omega) hR f' (by omega)
      rw [hL, List.append_assoc]
    · rw [show ((o : Int) + -idx o).toNat = o + (1 + l.size + r.size) by rw [h1]; omega]
      rw [hres f' (by omega)]
      rfl

/-- The walk over an array that holds exactly one tree. -/
theorem walk_tree {ov : Nat → Bool} {idx : Nat → Int} (s : Shape) (h : s.Lay idx 0) :
    ∀ f, s.size ≤ f → treeWalk ov idx s.size f 0 = some (s.hits ov 0) := by
  intro f hf
  have := walk_lay (ov := ov) (cnt := s.size) s 0 0 [] h (by omega) (fun f' _ => by
    cases f' <;> simp [treeWalk]) f (by omega)
  rwa [List.append_nil] at this

end Shape

end Verif
