/-
The compact heightfield as the passes after `BuildCompactHeightfield` see it
(recast/heightfield.go:194-227): cells, span connections, areas.

Simplifications: `Con` words, areas and cells are arrays of their own; indices are unbounded. A
connection out of the grid makes the code panic or read a foreign cell; `Chf.Wf` excludes it, and
`buildCompact_wf` shows that `BuildCompactHeightfield` makes well-formed fields.
-/
import Verif.Recast.CompactField

namespace Verif.Recast
open Verif Verif.Detour

set_option linter.unusedSimpArgs false

/-- `CompactHeightfield` (recast/heightfield.go:208-227): `Width`, `Height`, `SpanCount`, `Cells`, the
`Con` words of `Spans`, and `Areas`. -/
structure Chf where
  w : Nat
  h : Nat
  n : Nat
  cells : Nat → CCell
  con : Nat → U32
  area : Nat → Nat

/-- The neighbour of span `i` of cell `(x, y)` in direction `d`, with its cell, or `none` when
`GetCon` says `notConnected` (the lines `ax := x + GetDirOffsetX(dir)` to `ai := ...` that every pass
repeats, e.g. recast/area.go:50-54). -/
def Chf.nb (c : Chf) (x y i d : Nat) : Option ((Nat × Nat) × Nat) :=
  if getCon (c.con i) d = notConnected then none
  else
    let nx := ((x : Int) + dirX (BitVec.ofNat 32 d)).toNat
    let ny := ((y : Int) + dirY (BitVec.ofNat 32 d)).toNat
    some ((nx, ny), (c.cells (nx + ny * c.w)).index + (getCon (c.con i) d).toNat)

/-- The spans of the cells `ps` in the order of the loops over cells and spans of a cell
(e.g. recast/area.go:35-40). -/
def Chf.spansOf (c : Chf) (ps : List (Nat × Nat)) : List ((Nat × Nat) × Nat) :=
  ps.flatMap fun p => (List.range (c.cells (p.1 + p.2 * c.w)).count).map
    fun k => (p, (c.cells (p.1 + p.2 * c.w)).index + k)

/-- Span `i` belongs to cell `(x, y)`. -/
def Chf.At (c : Chf) (x y i : Nat) : Prop :=
  x < c.w ∧ y < c.h ∧ (c.cells (x + y * c.w)).index ≤ i ∧
    i < (c.cells (x + y * c.w)).index + (c.cells (x + y * c.w)).count

/-- A well-formed compact heightfield: the cells partition the spans, and a connection leads to a span of
the neighbour cell. -/
structure Chf.Wf (c : Chf) : Prop where
  lt : ∀ x y i, c.At x y i → i < c.n
  cell : ∀ i < c.n, ∃ x y, c.At x y i
  unique : ∀ x y x' y' i, c.At x y i → c.At x' y' i → x = x' ∧ y = y'
  con : ∀ x y i, c.At x y i → ∀ d < 4, getCon (c.con i) d ≠ notConnected →
    ∃ nx ny : Nat, (nx : Int) = x + dirX (BitVec.ofNat 32 d) ∧ (ny : Int) = y + dirY (BitVec.ofNat 32 d) ∧
      nx < c.w ∧ ny < c.h ∧ (getCon (c.con i) d).toNat < (c.cells (nx + ny * c.w)).count

/-- Spec: span `i` is connected to span `j` in direction `d`. -/
def Chf.Nb (c : Chf) (i d j : Nat) : Prop :=
  ∃ x y nx ny : Nat, c.At x y i ∧ c.At nx ny j ∧ (nx : Int) = x + dirX (BitVec.ofNat 32 d) ∧
    (ny : Int) = y + dirY (BitVec.ofNat 32 d) ∧ getCon (c.con i) d ≠ notConnected ∧
    j = (c.cells (nx + ny * c.w)).index + (getCon (c.con i) d).toNat

theorem Chf.Wf.nb_some {c : Chf} (hc : c.Wf) {x y i d : Nat} (hi : c.At x y i) (hd : d < 4) {p : Nat × Nat} {j : Nat}
    (h : c.nb x y i d = some (p, j)) : c.At p.1 p.2 j ∧ (p.1 : Int) = x + dirX (BitVec.ofNat 32 d) ∧
      (p.2 : Int) = y + dirY (BitVec.ofNat 32 d) ∧ c.Nb i d j := by
  unfold Chf.nb at h
  by_cases hg : getCon (c.con i) d = notConnected
  · simp [hg] at h
  · obtain ⟨nx, ny, h1, h2, h3, h4, h5⟩ := hc.con x y i hi d hd hg
    rw [if_neg hg] at h
    simp only [← h1, ← h2, Int.toNat_natCast, Option.some.injEq, Prod.mk.injEq] at h
    obtain ⟨rfl, rfl⟩ := h
    have hat : c.At nx ny ((c.cells (nx + ny * c.w)).index + (getCon (c.con i) d).toNat) :=
      ⟨h3, h4, by omega, by omega⟩
    exact ⟨hat, h1, h2, x, y, nx, ny, hi, hat, h1, h2, hg, rfl⟩

theorem Chf.Wf.nb_iff {c : Chf} (hc : c.Wf) {x y i d : Nat} (hi : c.At x y i) (hd : d < 4) (j : Nat) :
    c.Nb i d j ↔ ∃ p, c.nb x y i d = some (p, j) := by
  constructor
  · rintro ⟨x', y', nx, ny, h1, h2, h3, h4, h5, h6⟩
    obtain ⟨rfl, rfl⟩ := hc.unique _ _ _ _ _ hi h1
    refine ⟨(nx, ny), ?_⟩
    unfold Chf.nb
    rw [if_neg h5]
    simp only [← h3, ← h4, Int.toNat_natCast, h6]
  · rintro ⟨p, h⟩
    exact (hc.nb_some hi hd h).2.2.2

theorem Chf.Nb.unique {c : Chf} (hc : c.Wf) {i d j k : Nat} (hd : d < 4) (h1 : c.Nb i d j) (h2 : c.Nb i d k) : j = k := by
  obtain ⟨x, y, -, -, hat, -⟩ := id h1
  obtain ⟨p, hp⟩ := (hc.nb_iff hat hd j).1 h1
  obtain ⟨q, hq⟩ := (hc.nb_iff hat hd k).1 h2
  rw [hp] at hq
  simp only [Option.some.injEq, Prod.mk.injEq] at hq
  exact hq.2

theorem Chf.mem_spansOf (c : Chf) (ps : List (Nat × Nat)) (v : (Nat × Nat) × Nat) (hps : ∀ p ∈ ps, p.1 < c.w ∧ p.2 < c.h) :
    v ∈ c.spansOf ps ↔ v.1 ∈ ps ∧ c.At v.1.1 v.1.2 v.2 := by
  obtain ⟨p, i⟩ := v
  simp only [Chf.spansOf, List.mem_flatMap, List.mem_map, List.mem_range, Chf.At, Prod.mk.injEq]
  constructor
  · rintro ⟨q, hq, k, hk, rfl, rfl⟩
    exact ⟨hq, (hps q hq).1, (hps q hq).2, by omega, by omega⟩
  · rintro ⟨hp, -, -, h1, h2⟩
    exact ⟨p, hp, i - (c.cells (p.1 + p.2 * c.w)).index, by omega, rfl, by omega⟩

/-- The spans of the cells `ps`, as numbers, come without repetition, and in the order of their cells. -/
theorem Chf.spansOf_pairwise {c : Chf} (hc : c.Wf) (ps : List (Nat × Nat)) (R : Nat × Nat → Nat × Nat → Prop)
    (hps : ∀ p ∈ ps, p.1 < c.w ∧ p.2 < c.h) (hR : ps.Pairwise R) (hirr : ∀ p, ¬ R p p) :
    (c.spansOf ps).Pairwise fun u v => u.2 ≠ v.2 ∧ (u.1 = v.1 ∨ R u.1 v.1) := by
  unfold Chf.spansOf
  rw [List.pairwise_flatMap]
  constructor
  · intro p _
    rw [List.pairwise_map]
    refine List.Pairwise.imp ?_ List.pairwise_lt_range
    intro a b hab
    simp only [true_or, and_true]
    omega
  · refine List.Pairwise.imp_of_mem ?_ hR
    intro p q hp hq hpq u hu v hv
    simp only [List.mem_map, List.mem_range] at hu hv
    obtain ⟨k, hk, rfl⟩ := hu
    obtain ⟨l, hl, rfl⟩ := hv
    refine ⟨?_, Or.inr hpq⟩
    intro he
    simp only at he
    have h1 : c.At p.1 p.2 ((c.cells (p.1 + p.2 * c.w)).index + k) := ⟨(hps p hp).1, (hps p hp).2, by omega, by omega⟩
    have h2 : c.At q.1 q.2 ((c.cells (q.1 + q.2 * c.w)).index + l) := ⟨(hps q hq).1, (hps q hq).2, by omega, by omega⟩
    rw [he] at h1
    obtain ⟨e1, e2⟩ := hc.unique _ _ _ _ _ h1 h2
    have : p = q := Prod.ext e1 e2
    subst this
    exact hirr _ hpq

/-! ## `BuildCompactHeightfield` makes well-formed fields -/

/-- The result of `BuildCompactHeightfield` as a `Chf`. -/
def mkChf (F : Field) (f : Fill) (con : Nat → U32) : Chf :=
  ⟨F.w, F.h, spanCount F, f.cells, con, fun i => (f.spans i).area⟩

theorem buildCompact_wf (height climb : Int) (F : Field)
    (hF : ∀ i < F.w * F.h, (openSpans (F.col i)).length ≤ 255) :
    ∃ f con, buildCompact height climb F = some (f, con) ∧ (mkChf F f con).Wf := by
  obtain ⟨f, con, h0, h1, h3⟩ := connections_partial height climb F
  obtain ⟨f', h1', h2⟩ := compact_cells_partition_partial F hF
  rw [h1] at h1'; cases h1'
  have ofNat_lt : ∀ m ≤ 62, (BitVec.ofNat 32 m).toNat = m := by
    intro m hm
    simp only [BitVec.toNat_ofNat]
    omega
  refine ⟨f, con, h0, ?_, ?_, ?_, ?_⟩
  · rintro x y i ⟨hx, hy, ha, hb⟩
    refine (h2 i).2 ⟨x + y * F.w, cell_lt hx hy, ⟨ha, hb⟩, fun i' hi' hj => ?_⟩
    have hi : i < spanCount F := by
      obtain ⟨f'', g1, g2⟩ := fillField_spec F
      rw [h1] at g1; cases g1
      have := (inCell_bounds g2 (i := x + y * F.w) (j := i) ⟨ha, hb⟩)
      rw [spanCount_eq]
      have h4 := before_mono F (m := x + y * F.w + 1) (n := F.w * F.h) this.1
      omega
    obtain ⟨a, -, -, h5⟩ := (h2 i).1 hi
    rw [h5 i' hi' hj, h5 _ (cell_lt hx hy) ⟨ha, hb⟩]
  · intro i hi
    obtain ⟨a, ha, h4, -⟩ := (h2 i).1 hi
    obtain ⟨e1, e2, e3⟩ := cell_of_lt ha
    refine ⟨a % F.w, a / F.w, e1, e2, ?_⟩
    show (f.cells (a % F.w + a / F.w * F.w)).index ≤ i ∧ _
    simp only [mkChf]
    rw [e3]; exact h4
  · rintro x y x' y' i ⟨hx, hy, ha, hb⟩ ⟨hx', hy', ha', hb'⟩
    obtain ⟨f'', g1, g2⟩ := fillField_spec F
    rw [h1] at g1; cases g1
    have := inCell_unique g2 (i := x + y * F.w) (i' := x' + y' * F.w) (j := i) ⟨ha, hb⟩ ⟨ha', hb'⟩
    exact cell_inj hx hx' this
  · rintro x y i ⟨hx, hy, ha, hb⟩ d hd hne
    rcases h3 x hx y hy i ⟨ha, hb⟩ d hd with ⟨e, -⟩ | ⟨a, ⟨nx, ny, g1, g2, g3, g4, rfl⟩, m, hm, hmc, hv, -, -⟩
    · exact absurd e hne
    · refine ⟨nx, ny, g3, g4, g1, g2, ?_⟩
      show (getCon (con i) d).toNat < _
      rw [hv, ofNat_lt m hm]
      exact hmc

end Verif.Recast
