/-
Eroding the walkable area by the agent radius (`ErodeWalkableArea`, recast/area.go:24-195).

`dist` holds uint8 values. `iMin(int32(dist[ai]+2), 255)` is computed as in the code: the sum is a uint8
and wraps around before it is widened, so the minimum does nothing.
-/
import Verif.Recast.Compact

namespace Verif.Recast
open Verif Verif.Detour

set_option linter.unusedSimpArgs false

/-! ## Model -/

/-- Marking one span (recast/area.go:41-63): `nc` counts the walkable neighbours. -/
def markBorder (c : Chf) (dist : Nat → Nat) (v : (Nat × Nat) × Nat) : Nat → Nat :=
  if c.area v.2 = nullArea then upd dist v.2 0
  else
    let nc := (List.range 4).foldl (fun (nc d : Nat) => match c.nb v.1.1 v.1.2 v.2 d with
      | none => nc
      | some (_, j) => if c.area j ≠ nullArea then nc + 1 else nc) 0
    if nc ≠ 4 then upd dist v.2 0 else dist

/-- `nd = uint8(iMin(int32(dist[ai]+k), 255)); if nd < dist[i] { dist[i] = nd }`
(recast/area.go:83-86 and seven more times). -/
def relax (i : Nat) (dist : Nat → Nat) (m : Nat × Nat) : Nat → Nat :=
  let nd := min ((dist m.1 + m.2) % 256) 255
  if nd < dist i then upd dist i nd else dist

/-- The two sources that direction `a` gives: the neighbour, with 2, and the neighbour's neighbour in
direction `b`, with 3 (e.g. recast/area.go:77-99 with `a = 0`, `b = 3`). -/
def sources (c : Chf) (v : (Nat × Nat) × Nat) (ab : Nat × Nat) : List (Nat × Nat) :=
  match c.nb v.1.1 v.1.2 v.2 ab.1 with
  | none => []
  | some (p, j) => (j, 2) :: match c.nb p.1 p.2 j ab.2 with
    | none => []
    | some (_, k) => [(k, 3)]

/-- One span in a pass: its relaxations in order (recast/area.go:75-125, 133-183). -/
def visit (c : Chf) (ds : List (Nat × Nat)) (dist : Nat → Nat) (v : (Nat × Nat) × Nat) : Nat → Nat :=
  (ds.flatMap (sources c v)).foldl (relax v.2) dist

/-- The directions of pass 1 (recast/area.go:77-124). -/
def dirs1 : List (Nat × Nat) := [(0, 3), (3, 2)]

/-- The directions of pass 2 (recast/area.go:136-182). -/
def dirs2 : List (Nat × Nat) := [(2, 1), (1, 0)]

/-- `dist` before the passes (recast/area.go:29-67). -/
def dist0 (c : Chf) : Nat → Nat :=
  (c.spansOf (cellOrder c.w c.h)).foldl (markBorder c) (fun _ => 0xff)

/-- `dist` after pass 1 (recast/area.go:71-127). -/
def dist1 (c : Chf) : Nat → Nat :=
  (c.spansOf (cellOrder c.w c.h)).foldl (visit c dirs1) (dist0 c)

/-- `dist` after pass 2, over the cells in reverse order (recast/area.go:130-185). -/
def dist2 (c : Chf) : Nat → Nat :=
  (c.spansOf (cellOrder c.w c.h).reverse).foldl (visit c dirs2) (dist1 c)

/-- The last loop (recast/area.go:187-192). -/
def clearBelow (dist : Nat → Nat) (thr n : Nat) (area : Nat → Nat) : Nat → Nat :=
  (List.range n).foldl (fun a i => if dist i < thr then upd a i nullArea else a) area

/-- `ErodeWalkableArea` (recast/area.go:24-195); `thr := uint8(radius * 2)`. -/
def erode (radius : Nat) (c : Chf) : Chf :=
  { c with area := clearBelow (dist2 c) (radius * 2 % 256) c.n c.area }

/-! ## Specification -/

/-- A span that is not walkable, or has a side without walkable neighbour. -/
def Border (c : Chf) (i : Nat) : Prop :=
  c.area i = 0 ∨ ∃ d < 4, ∀ j, c.Nb i d j → c.area j = 0

/-- `Reach ds base i k`: from span `i` one comes to a span where `base` holds by steps over connections: side steps
in direction `a`, of cost 2, and diagonal steps in directions `a` then `b`, of cost 3, for `(a, b)` in
`ds`; `k` is the cost, plus that at the end. -/
inductive Reach (c : Chf) (ds : List (Nat × Nat)) (base : Nat → Nat → Prop) : Nat → Nat → Prop
  | here {i k} : base i k → Reach c ds base i k
  | side {i j k a b} : (a, b) ∈ ds → c.Nb i a j → Reach c ds base j k → Reach c ds base i (k + 2)
  | diag {i j l k a b} : (a, b) ∈ ds → c.Nb i a j → c.Nb j b l → Reach c ds base l k → Reach c ds base i (k + 3)

/-- A border span, at cost 0. -/
def AtBorder (c : Chf) (i k : Nat) : Prop := Border c i ∧ k = 0

/-! ## The loops -/

theorem foldl_other {α : Type} (f : (Nat → Nat) → α → (Nat → Nat)) (key : α → Nat)
    (hf : ∀ d a j, j ≠ key a → f d a j = d j) (l : List α) : ∀ (d : Nat → Nat) (j : Nat), (∀ a ∈ l, key a ≠ j) →
    l.foldl f d j = d j := by
  induction l with
  | nil => intro d j _; rfl
  | cons a l ih =>
    intro d j h
    rw [List.foldl_cons, ih _ _ (fun b hb => h b (by simp [hb])), hf _ _ _ (fun e => h a (by simp) e.symm)]

theorem relax_other (i : Nat) (d : Nat → Nat) (m : Nat × Nat) (j : Nat) (h : j ≠ i) : relax i d m j = d j := by
  unfold relax
  split
  · rw [upd_ne _ _ h]
  · rfl

theorem relax_le (i : Nat) (d : Nat → Nat) (m : Nat × Nat) (j : Nat) : relax i d m j ≤ d j := by
  unfold relax
  by_cases h : j = i
  · subst h
    split
    · rw [upd_same]; omega
    · exact Nat.le_refl _
  · split
    · rw [upd_ne _ _ h]
    · exact Nat.le_refl _

theorem relaxes_other (i : Nat) (l : List (Nat × Nat)) (d : Nat → Nat) (j : Nat) (h : j ≠ i) :
    l.foldl (relax i) d j = d j := by
  induction l generalizing d with
  | nil => rfl
  | cons m l ih => rw [List.foldl_cons, ih, relax_other _ _ _ _ h]

theorem relaxes_le (i : Nat) (l : List (Nat × Nat)) (d : Nat → Nat) (j : Nat) : l.foldl (relax i) d j ≤ d j := by
  induction l generalizing d with
  | nil => exact Nat.le_refl _
  | cons m l ih => rw [List.foldl_cons]; exact Nat.le_trans (ih _) (relax_le _ _ _ _)

/-- A source that does not wrap bounds the result. -/
theorem relaxes_source (i : Nat) (l : List (Nat × Nat)) : ∀ (d : Nat → Nat) (m : Nat × Nat), m ∈ l → m.1 ≠ i →
    d m.1 + m.2 ≤ 255 → l.foldl (relax i) d i ≤ d m.1 + m.2 := by
  induction l with
  | nil => intro d m hm; simp at hm
  | cons m' l ih =>
    intro d m hm hne hw
    rw [List.foldl_cons]
    rcases List.mem_cons.1 hm with rfl | hm
    · refine Nat.le_trans (relaxes_le _ _ _ _) ?_
      unfold relax
      rw [Nat.mod_eq_of_lt (by omega), Nat.min_eq_left hw]
      split
      · rw [upd_same]
      · omega
    · have := ih (relax i d m') m hm hne (by rw [relax_other _ _ _ _ hne]; exact hw)
      rwa [relax_other _ _ _ _ hne] at this

/-- Every value comes from the start or from a source, if no source wraps. -/
theorem relaxes_from (i : Nat) (l : List (Nat × Nat)) : ∀ (d : Nat → Nat), (∀ m ∈ l, m.1 ≠ i ∧ d m.1 + m.2 ≤ 255) →
    l.foldl (relax i) d i = d i ∨ ∃ m ∈ l, l.foldl (relax i) d i = d m.1 + m.2 := by
  induction l with
  | nil => intro d _; exact Or.inl rfl
  | cons m' l ih =>
    intro d h
    rw [List.foldl_cons]
    have h1 := h m' (by simp)
    rcases ih (relax i d m') (fun m hm => by
      rw [relax_other _ _ _ _ (h m (by simp [hm])).1]; exact h m (by simp [hm])) with e | ⟨m, hm, e⟩
    · rw [e]
      unfold relax
      rw [Nat.mod_eq_of_lt (by omega), Nat.min_eq_left h1.2]
      split
      · rw [upd_same]; exact Or.inr ⟨m', by simp, rfl⟩
      · exact Or.inl rfl
    · rw [e, relax_other _ _ _ _ (h m (by simp [hm])).1]
      exact Or.inr ⟨m, by simp [hm], rfl⟩

theorem visit_other (c : Chf) (ds : List (Nat × Nat)) (d : Nat → Nat) (v : (Nat × Nat) × Nat) (j : Nat) (h : j ≠ v.2) :
    visit c ds d v j = d j := relaxes_other _ _ _ _ h

theorem visit_le (c : Chf) (ds : List (Nat × Nat)) (d : Nat → Nat) (v : (Nat × Nat) × Nat) (j : Nat) :
    visit c ds d v j ≤ d j := relaxes_le _ _ _ _

theorem pass_le (c : Chf) (ds : List (Nat × Nat)) (l : List ((Nat × Nat) × Nat)) (d : Nat → Nat) (j : Nat) :
    l.foldl (visit c ds) d j ≤ d j := by
  induction l generalizing d with
  | nil => exact Nat.le_refl _
  | cons m l ih => rw [List.foldl_cons]; exact Nat.le_trans (ih _) (visit_le _ _ _ _ _)

/-- The state of a pass just before it visits `v`: where `v`'s turn is over the values are final, and
`v` itself still has its start value. -/
theorem pass_split (c : Chf) (ds : List (Nat × Nat)) (l : List ((Nat × Nat) × Nat)) (d : Nat → Nat)
    (hl : l.Pairwise fun u v => u.2 ≠ v.2) (v : (Nat × Nat) × Nat) (hv : v ∈ l) :
    ∃ pre post e, l = pre ++ v :: post ∧ e v.2 = d v.2 ∧ l.foldl (visit c ds) d v.2 = visit c ds e v v.2 ∧
      (∀ u ∈ pre, l.foldl (visit c ds) d u.2 = e u.2) := by
  obtain ⟨pre, post, rfl⟩ := List.append_of_mem hv
  rw [List.pairwise_append, List.pairwise_cons] at hl
  obtain ⟨-, ⟨h1, -⟩, h2⟩ := hl
  refine ⟨pre, post, pre.foldl (visit c ds) d, rfl, ?_, ?_, fun u hu => ?_⟩
  · exact foldl_other _ (fun v => v.2) (fun d a j h => visit_other _ _ _ _ _ h) _ _ _ (fun u hu => h2 u hu v (by simp))
  · rw [List.foldl_append, List.foldl_cons]
    exact foldl_other _ (fun v => v.2) (fun d a j h => visit_other _ _ _ _ _ h) _ _ _ (fun u hu => (h1 u hu).symm)
  · rw [List.foldl_append, List.foldl_cons]
    rw [foldl_other _ (fun v => v.2) (fun d a j h => visit_other _ _ _ _ _ h) _ _ _
      (fun w hw => (h2 u hu w (by simp [hw])).symm), visit_other _ _ _ _ _ (h2 u hu v (by simp))]

/-! ## Sources -/

theorem mem_sources {c : Chf} (hc : c.Wf) {x y i : Nat} (hi : c.At x y i) {a b : Nat} (ha : a < 4) (hb : b < 4) (m : Nat × Nat) :
    m ∈ sources c ((x, y), i) (a, b) ↔
      (∃ j, c.Nb i a j ∧ m = (j, 2)) ∨ ∃ j l, c.Nb i a j ∧ c.Nb j b l ∧ m = (l, 3) := by
  unfold sources
  simp only
  cases h : c.nb x y i a with
  | none =>
    have : ∀ j, ¬ c.Nb i a j := fun j hj => by
      obtain ⟨p, hp⟩ := (hc.nb_iff hi ha j).1 hj
      rw [h] at hp; exact absurd hp (by simp)
    simp [this]
  | some r =>
    obtain ⟨p, j⟩ := r
    obtain ⟨h1, -, -, h2⟩ := hc.nb_some hi ha h
    have hu : ∀ k, c.Nb i a k ↔ k = j := fun k => ⟨fun hk => Chf.Nb.unique hc ha hk h2, fun e => e ▸ h2⟩
    simp only [List.mem_cons]
    cases h' : c.nb p.1 p.2 j b with
    | none =>
      have : ∀ k, ¬ c.Nb j b k := fun k hk => by
        obtain ⟨q, hq⟩ := (hc.nb_iff h1 hb k).1 hk
        rw [h'] at hq; exact absurd hq (by simp)
      simp only [hu, exists_eq_left, List.not_mem_nil, or_false]
      constructor
      · exact fun e => Or.inl e
      · rintro (e | ⟨j', l, rfl, g, -⟩)
        · exact e
        · exact absurd g (this l)
    | some r' =>
      obtain ⟨q, k⟩ := r'
      obtain ⟨-, -, -, h3⟩ := hc.nb_some h1 hb h'
      have hu' : ∀ l, c.Nb j b l ↔ l = k := fun l => ⟨fun hk => Chf.Nb.unique hc hb hk h3, fun e => e ▸ h3⟩
      simp only [hu, exists_eq_left, List.mem_singleton]
      constructor
      · rintro (e | e)
        · exact Or.inl e
        · exact Or.inr ⟨j, k, rfl, h3, e⟩
      · rintro (e | ⟨j', l, rfl, g, rfl⟩)
        · exact Or.inl e
        · rw [(hu' l).1 g]; exact Or.inr rfl

/-- The cell number. -/
def cnum (c : Chf) (p : Nat × Nat) : Nat := p.1 + p.2 * c.w

theorem order1_pairwise {c : Chf} (hc : c.Wf) :
    (c.spansOf (cellOrder c.w c.h)).Pairwise fun u v => u.2 ≠ v.2 ∧ (u.1 = v.1 ∨ cnum c u.1 < cnum c v.1) :=
  c.spansOf_pairwise hc _ (fun p q => cnum c p < cnum c q) (fun p hp => (mem_cellOrder _ _ p).1 hp)
    (cellOrder_pairwise c.w c.h) (fun _ => Nat.lt_irrefl _)

theorem order2_pairwise {c : Chf} (hc : c.Wf) :
    (c.spansOf (cellOrder c.w c.h).reverse).Pairwise fun u v => u.2 ≠ v.2 ∧ (u.1 = v.1 ∨ cnum c v.1 < cnum c u.1) :=
  c.spansOf_pairwise hc _ (fun p q => cnum c q < cnum c p)
    (fun p hp => (mem_cellOrder _ _ p).1 (List.mem_reverse.1 hp))
    (List.pairwise_reverse.2 (cellOrder_pairwise c.w c.h)) (fun _ => Nat.lt_irrefl _)

theorem mem_order1 (c : Chf) (v : (Nat × Nat) × Nat) :
    v ∈ c.spansOf (cellOrder c.w c.h) ↔ c.At v.1.1 v.1.2 v.2 := by
  rw [c.mem_spansOf _ _ (fun p hp => (mem_cellOrder _ _ p).1 hp), mem_cellOrder]
  exact ⟨fun h => h.2, fun h => ⟨⟨h.1, h.2.1⟩, h⟩⟩

theorem mem_order2 (c : Chf) (v : (Nat × Nat) × Nat) :
    v ∈ c.spansOf (cellOrder c.w c.h).reverse ↔ c.At v.1.1 v.1.2 v.2 := by
  rw [c.mem_spansOf _ _ (fun p hp => (mem_cellOrder _ _ p).1 (List.mem_reverse.1 hp)), List.mem_reverse, mem_cellOrder]
  exact ⟨fun h => h.2, fun h => ⟨⟨h.1, h.2.1⟩, h⟩⟩

theorem off_cases (d : Nat) (hd : d < 4) :
    (d = 0 ∧ dirX (BitVec.ofNat 32 d) = -1 ∧ dirY (BitVec.ofNat 32 d) = 0) ∨
    (d = 1 ∧ dirX (BitVec.ofNat 32 d) = 0 ∧ dirY (BitVec.ofNat 32 d) = 1) ∨
    (d = 2 ∧ dirX (BitVec.ofNat 32 d) = 1 ∧ dirY (BitVec.ofNat 32 d) = 0) ∨
    (d = 3 ∧ dirX (BitVec.ofNat 32 d) = 0 ∧ dirY (BitVec.ofNat 32 d) = -1) := by
  have : d = 0 ∨ d = 1 ∨ d = 2 ∨ d = 3 := by omega
  rcases this with rfl | rfl | rfl | rfl <;> decide

/-- What `Nb` says about the cells. -/
theorem nb_cells {c : Chf} (hc : c.Wf) {x y i d j : Nat} (hi : c.At x y i) (h : c.Nb i d j) :
    ∃ nx ny : Nat, c.At nx ny j ∧ (nx : Int) = x + dirX (BitVec.ofNat 32 d) ∧ (ny : Int) = y + dirY (BitVec.ofNat 32 d) := by
  obtain ⟨x', y', nx, ny, h1, h2, h3, h4, -, -⟩ := h
  obtain ⟨rfl, rfl⟩ := hc.unique _ _ _ _ _ hi h1
  exact ⟨nx, ny, h2, h3, h4⟩

/-- The step relation of one source. -/
def Src (c : Chf) (ds : List (Nat × Nat)) (i : Nat) (m : Nat × Nat) : Prop :=
  ∃ a b, (a, b) ∈ ds ∧ ((∃ j, c.Nb i a j ∧ m = (j, 2)) ∨ ∃ j l, c.Nb i a j ∧ c.Nb j b l ∧ m = (l, 3))

theorem mem_srcs {c : Chf} (hc : c.Wf) {ds : List (Nat × Nat)} (hds : ∀ ab ∈ ds, ab.1 < 4 ∧ ab.2 < 4) {x y i : Nat}
    (hi : c.At x y i) (m : Nat × Nat) : m ∈ ds.flatMap (sources c ((x, y), i)) ↔ Src c ds i m := by
  rw [List.mem_flatMap]
  constructor
  · rintro ⟨⟨a, b⟩, h1, h2⟩
    exact ⟨a, b, h1, (mem_sources hc hi (hds _ h1).1 (hds _ h1).2 m).1 h2⟩
  · rintro ⟨a, b, h1, h2⟩
    exact ⟨(a, b), h1, (mem_sources hc hi (hds _ h1).1 (hds _ h1).2 m).2 h2⟩

theorem dirs1_lt : ∀ ab ∈ dirs1, ab.1 < 4 ∧ ab.2 < 4 := by decide
theorem dirs2_lt : ∀ ab ∈ dirs2, ab.1 < 4 ∧ ab.2 < 4 := by decide

/-- The sources of pass 1 lie in earlier cells. -/
theorem src1_before {c : Chf} (hc : c.Wf) {x y i : Nat} (hi : c.At x y i) {m : Nat × Nat} (h : Src c dirs1 i m) :
    ∃ p : Nat × Nat, c.At p.1 p.2 m.1 ∧ cnum c p < cnum c (x, y) := by
  obtain ⟨a, b, hab, h⟩ := h
  have hx := hi.1
  simp only [dirs1, List.mem_cons, Prod.mk.injEq, List.not_mem_nil, or_false] at hab
  unfold cnum
  rcases h with ⟨j, h1, rfl⟩ | ⟨j, l, h1, h2, rfl⟩
  · obtain ⟨nx, ny, g1, g2, g3⟩ := nb_cells hc hi h1
    refine ⟨(nx, ny), g1, ?_⟩
    have hnx := g1.1
    rcases hab with ⟨rfl, rfl⟩ | ⟨rfl, rfl⟩
    · rw [show dirX (BitVec.ofNat 32 0) = -1 by decide] at g2
      rw [show dirY (BitVec.ofNat 32 0) = 0 by decide] at g3
      have : ny = y := by omega
      subst this
      simp only
      omega
    · rw [show dirX (BitVec.ofNat 32 3) = 0 by decide] at g2
      rw [show dirY (BitVec.ofNat 32 3) = -1 by decide] at g3
      have : y = ny + 1 := by omega
      subst this
      simp only [Nat.add_mul, Nat.one_mul]
      omega
  · obtain ⟨nx, ny, g1, g2, g3⟩ := nb_cells hc hi h1
    obtain ⟨mx, my, g4, g5, g6⟩ := nb_cells hc g1 h2
    refine ⟨(mx, my), g4, ?_⟩
    have hnx := g4.1
    rcases hab with ⟨rfl, rfl⟩ | ⟨rfl, rfl⟩
    · rw [show dirY (BitVec.ofNat 32 0) = 0 by decide] at g3
      rw [show dirY (BitVec.ofNat 32 3) = -1 by decide] at g6
      have : y = my + 1 := by omega
      subst this
      simp only [Nat.add_mul, Nat.one_mul]
      omega
    · rw [show dirY (BitVec.ofNat 32 3) = -1 by decide] at g3
      rw [show dirY (BitVec.ofNat 32 2) = 0 by decide] at g6
      have : y = my + 1 := by omega
      subst this
      simp only [Nat.add_mul, Nat.one_mul]
      omega

/-- The sources of pass 2 lie in later cells. -/
theorem src2_after {c : Chf} (hc : c.Wf) {x y i : Nat} (hi : c.At x y i) {m : Nat × Nat} (h : Src c dirs2 i m) :
    ∃ p : Nat × Nat, c.At p.1 p.2 m.1 ∧ cnum c (x, y) < cnum c p := by
  obtain ⟨a, b, hab, h⟩ := h
  have hx := hi.1
  simp only [dirs2, List.mem_cons, Prod.mk.injEq, List.not_mem_nil, or_false] at hab
  unfold cnum
  rcases h with ⟨j, h1, rfl⟩ | ⟨j, l, h1, h2, rfl⟩
  · obtain ⟨nx, ny, g1, g2, g3⟩ := nb_cells hc hi h1
    refine ⟨(nx, ny), g1, ?_⟩
    have hnx := g1.1
    rcases hab with ⟨rfl, rfl⟩ | ⟨rfl, rfl⟩
    · rw [show dirX (BitVec.ofNat 32 2) = 1 by decide] at g2
      rw [show dirY (BitVec.ofNat 32 2) = 0 by decide] at g3
      have : ny = y := by omega
      subst this
      simp only
      omega
    · rw [show dirX (BitVec.ofNat 32 1) = 0 by decide] at g2
      rw [show dirY (BitVec.ofNat 32 1) = 1 by decide] at g3
      have : ny = y + 1 := by omega
      subst this
      simp only [Nat.add_mul, Nat.one_mul]
      omega
  · obtain ⟨nx, ny, g1, g2, g3⟩ := nb_cells hc hi h1
    obtain ⟨mx, my, g4, g5, g6⟩ := nb_cells hc g1 h2
    refine ⟨(mx, my), g4, ?_⟩
    have hnx := g4.1
    rcases hab with ⟨rfl, rfl⟩ | ⟨rfl, rfl⟩
    · rw [show dirY (BitVec.ofNat 32 2) = 0 by decide] at g3
      rw [show dirY (BitVec.ofNat 32 1) = 1 by decide] at g6
      have : my = y + 1 := by omega
      subst this
      simp only [Nat.add_mul, Nat.one_mul]
      omega
    · rw [show dirY (BitVec.ofNat 32 1) = 1 by decide] at g3
      rw [show dirY (BitVec.ofNat 32 0) = 0 by decide] at g6
      have : my = y + 1 := by omega
      subst this
      simp only [Nat.add_mul, Nat.one_mul]
      omega

/-- What pass 1 does at a span, in final values. -/
theorem dist1_step {c : Chf} (hc : c.Wf) {x y i : Nat} (hi : c.At x y i) :
    ∃ e : Nat → Nat, e i = dist0 c i ∧ dist1 c i = (dirs1.flatMap (sources c ((x, y), i))).foldl (relax i) e i ∧
      ∀ m, Src c dirs1 i m → e m.1 = dist1 c m.1 ∧ m.1 ≠ i := by
  have hp := order1_pairwise hc
  have hv : ((x, y), i) ∈ c.spansOf (cellOrder c.w c.h) := (mem_order1 c _).2 hi
  obtain ⟨pre, post, e, h1, h2, h3, h4⟩ := pass_split c dirs1 _ (dist0 c) (hp.imp fun h => h.1) _ hv
  refine ⟨e, h2, h3, fun m hm => ?_⟩
  obtain ⟨p, g1, g2⟩ := src1_before hc hi hm
  have hne : m.1 ≠ i := by
    intro he
    rw [he] at g1
    obtain ⟨e1, e2⟩ := hc.unique _ _ _ _ _ hi g1
    rw [show p = (x, y) from Prod.ext e1.symm e2.symm] at g2
    exact Nat.lt_irrefl _ g2
  refine ⟨?_, hne⟩
  have hm' : (p, m.1) ∈ c.spansOf (cellOrder c.w c.h) := (mem_order1 c _).2 g1
  rw [h1, List.mem_append, List.mem_cons] at hm'
  rcases hm' with hm' | hm' | hm'
  · exact (h4 _ hm').symm
  · exact absurd (congrArg Prod.snd hm') hne
  · rw [h1, List.pairwise_append, List.pairwise_cons] at hp
    have := (hp.2.1.1 _ hm').2
    simp only at this
    rcases this with h | h
    · rw [← h] at g2; omega
    · omega

/-- What pass 2 does at a span, in final values. -/
theorem dist2_step {c : Chf} (hc : c.Wf) {x y i : Nat} (hi : c.At x y i) :
    ∃ e : Nat → Nat, e i = dist1 c i ∧ dist2 c i = (dirs2.flatMap (sources c ((x, y), i))).foldl (relax i) e i ∧
      ∀ m, Src c dirs2 i m → e m.1 = dist2 c m.1 ∧ m.1 ≠ i := by
  have hp := order2_pairwise hc
  have hv : ((x, y), i) ∈ c.spansOf (cellOrder c.w c.h).reverse := (mem_order2 c _).2 hi
  obtain ⟨pre, post, e, h1, h2, h3, h4⟩ := pass_split c dirs2 _ (dist1 c) (hp.imp fun h => h.1) _ hv
  refine ⟨e, h2, h3, fun m hm => ?_⟩
  obtain ⟨p, g1, g2⟩ := src2_after hc hi hm
  have hne : m.1 ≠ i := by
    intro he
    rw [he] at g1
    obtain ⟨e1, e2⟩ := hc.unique _ _ _ _ _ hi g1
    rw [show p = (x, y) from Prod.ext e1.symm e2.symm] at g2
    exact Nat.lt_irrefl _ g2
  refine ⟨?_, hne⟩
  have hm' : (p, m.1) ∈ c.spansOf (cellOrder c.w c.h).reverse := (mem_order2 c _).2 g1
  rw [h1, List.mem_append, List.mem_cons] at hm'
  rcases hm' with hm' | hm' | hm'
  · exact (h4 _ hm').symm
  · exact absurd (congrArg Prod.snd hm') hne
  · rw [h1, List.pairwise_append, List.pairwise_cons] at hp
    have := (hp.2.1.1 _ hm').2
    simp only at this
    rcases this with h | h
    · rw [← h] at g2; omega
    · omega

/-! ## The border -/

theorem markBorder_other (c : Chf) (d : Nat → Nat) (v : (Nat × Nat) × Nat) (j : Nat) (h : j ≠ v.2) :
    markBorder c d v j = d j := by
  unfold markBorder
  simp only
  split
  · rw [upd_ne _ _ h]
  · split
    · rw [upd_ne _ _ h]
    · rfl

theorem border_of_nb {c : Chf} (hc : c.Wf) {x y i : Nat} (hi : c.At x y i) :
    Border c i ↔ c.area i = 0 ∨ ∃ d < 4, ∀ r, c.nb x y i d = some r → c.area r.2 = 0 := by
  unfold Border
  constructor
  · rintro (h | ⟨d, hd, h⟩)
    · exact Or.inl h
    · exact Or.inr ⟨d, hd, fun r hr => h _ ((hc.nb_iff hi hd r.2).2 ⟨r.1, hr⟩)⟩
  · rintro (h | ⟨d, hd, h⟩)
    · exact Or.inl h
    · refine Or.inr ⟨d, hd, fun j hj => ?_⟩
      obtain ⟨p, hp⟩ := (hc.nb_iff hi hd j).1 hj
      exact h _ hp

theorem markBorder_self {c : Chf} (hc : c.Wf) {x y i : Nat} (hi : c.At x y i) (d : Nat → Nat) :
    (Border c i → markBorder c d ((x, y), i) i = 0) ∧ (¬ Border c i → markBorder c d ((x, y), i) i = d i) := by
  rw [border_of_nb hc hi]
  by_cases ha : c.area i = 0
  · have : markBorder c d ((x, y), i) = upd d i 0 := by
      unfold markBorder
      exact if_pos ha
    rw [this, upd_same]
    exact ⟨fun _ => rfl, fun h => absurd (Or.inl ha) h⟩
  · have hm : markBorder c d ((x, y), i) = if (List.range 4).foldl (fun (nc d : Nat) => match c.nb x y i d with
      | none => nc
      | some (_, j) => if c.area j ≠ 0 then nc + 1 else nc) 0 ≠ 4 then upd d i 0 else d := by
      unfold markBorder
      exact if_neg ha
    rw [hm]
    have key : (List.range 4).foldl (fun (nc d : Nat) => match c.nb x y i d with
      | none => nc
      | some (_, j) => if c.area j ≠ 0 then nc + 1 else nc) 0 = 4 ↔
        ¬ ∃ d < 4, ∀ r, c.nb x y i d = some r → c.area r.2 = 0 := by
      obtain ⟨g, hg⟩ : ∃ g : Nat → Nat, ∀ d, (∀ n, (match c.nb x y i d with
        | none => n
        | some (_, j) => if c.area j ≠ 0 then n + 1 else n) = n + g d) ∧ g d ≤ 1 ∧
          (g d = 0 ↔ ∀ r, c.nb x y i d = some r → c.area r.2 = 0) := by
        refine ⟨fun d => match c.nb x y i d with
          | none => 0
          | some (_, j) => if c.area j ≠ 0 then 1 else 0, fun d => ?_⟩
        cases h : c.nb x y i d with
        | none => simp [h]
        | some r =>
          obtain ⟨p, j⟩ := r
          by_cases hj : c.area j = 0 <;> simp [h, hj]
      simp only [fun d => (hg d).1, show List.range 4 = [0, 1, 2, 3] from rfl, List.foldl_cons, List.foldl_nil]
      have b0 := (hg 0).2
      have b1 := (hg 1).2
      have b2 := (hg 2).2
      have b3 := (hg 3).2
      constructor
      · rintro h ⟨d, hd, hr⟩
        have h0 := (hg d).2.2.2 hr
        have : d = 0 ∨ d = 1 ∨ d = 2 ∨ d = 3 := by omega
        rcases this with rfl | rfl | rfl | rfl <;> omega
      · intro h
        have hn : ∀ d < 4, g d ≠ 0 := fun d hd h0 => h ⟨d, hd, (hg d).2.2.1 h0⟩
        have := hn 0 (by omega)
        have := hn 1 (by omega)
        have := hn 2 (by omega)
        have := hn 3 (by omega)
        omega
    constructor
    · rintro (h | h)
      · exact absurd h ha
      · rw [if_pos (fun e => key.1 e h), upd_same]
    · intro h
      rw [if_neg]
      exact fun e => e (key.2 fun g => h (Or.inr g))

theorem dist0_spec {c : Chf} (hc : c.Wf) {x y i : Nat} (hi : c.At x y i) :
    (Border c i → dist0 c i = 0) ∧ (¬ Border c i → dist0 c i = 255) := by
  have hp := (order1_pairwise hc).imp fun h => h.1
  have hv : ((x, y), i) ∈ c.spansOf (cellOrder c.w c.h) := (mem_order1 c _).2 hi
  unfold dist0
  obtain ⟨pre, post, h1⟩ := List.append_of_mem hv
  rw [h1] at hp ⊢
  rw [List.pairwise_append, List.pairwise_cons] at hp
  rw [List.foldl_append, List.foldl_cons,
    foldl_other _ (fun v => v.2) (fun d a j h => markBorder_other _ _ _ _ h) _ _ _ (fun u hu => (hp.2.1.1 u hu).symm)]
  obtain ⟨g1, g2⟩ := markBorder_self hc hi (pre.foldl (markBorder c) fun _ => 255)
  rw [foldl_other _ (fun v => v.2) (fun d a j h => markBorder_other _ _ _ _ h) _ _ _
    (fun u hu => hp.2.2 u hu ((x, y), i) (by simp))] at g2
  exact ⟨g1, g2⟩

/-! ## No wrap-around in narrow fields -/

/-- A span that is not on the border has walkable neighbours on all sides. -/
theorem inner_nb {c : Chf} {i : Nat} (h : ¬ Border c i) (d : Nat) (hd : d < 4) : ∃ j, c.Nb i d j := by
  by_contra hn
  push Not at hn
  exact h (Or.inr ⟨d, hd, fun j hj => absurd hj (hn j)⟩)

/-- One source of pass 1. -/
theorem dist1_le_src {c : Chf} (hc : c.Wf) {x y i : Nat} (hi : c.At x y i) {m : Nat × Nat} (hm : Src c dirs1 i m)
    (hw : dist1 c m.1 + m.2 ≤ 255) : dist1 c i ≤ dist1 c m.1 + m.2 := by
  obtain ⟨e, -, h2, h3⟩ := dist1_step hc hi
  obtain ⟨h4, h5⟩ := h3 m hm
  rw [h2, ← h4]
  rw [← h4] at hw
  exact relaxes_source i _ e m ((mem_srcs hc dirs1_lt hi m).2 hm) h5 hw

theorem dist2_le_src {c : Chf} (hc : c.Wf) {x y i : Nat} (hi : c.At x y i) {m : Nat × Nat} (hm : Src c dirs2 i m)
    (hw : dist2 c m.1 + m.2 ≤ 255) : dist2 c i ≤ dist2 c m.1 + m.2 := by
  obtain ⟨e, -, h2, h3⟩ := dist2_step hc hi
  obtain ⟨h4, h5⟩ := h3 m hm
  rw [h2, ← h4]
  rw [← h4] at hw
  exact relaxes_source i _ e m ((mem_srcs hc dirs2_lt hi m).2 hm) h5 hw

theorem dist1_le (c : Chf) (i : Nat) : dist1 c i ≤ dist0 c i := pass_le _ _ _ _ _
theorem dist2_le (c : Chf) (i : Nat) : dist2 c i ≤ dist1 c i := pass_le _ _ _ _ _

theorem dist1_le_x {c : Chf} (hc : c.Wf) (hw : c.w ≤ 127) : ∀ x y i, c.At x y i → dist1 c i ≤ 2 * x := by
  intro x
  induction x with
  | zero =>
    intro y i hi
    by_cases hb : Border c i
    · have := (dist0_spec hc hi).1 hb
      have := dist1_le c i
      omega
    · exfalso
      obtain ⟨j, hj⟩ := inner_nb hb 0 (by omega)
      obtain ⟨nx, ny, -, g2, -⟩ := nb_cells hc hi hj
      rw [show dirX (BitVec.ofNat 32 0) = -1 by decide] at g2
      omega
  | succ x ih =>
    intro y i hi
    by_cases hb : Border c i
    · have := (dist0_spec hc hi).1 hb
      have := dist1_le c i
      omega
    · obtain ⟨j, hj⟩ := inner_nb hb 0 (by omega)
      obtain ⟨nx, ny, g1, g2, -⟩ := nb_cells hc hi hj
      rw [show dirX (BitVec.ofNat 32 0) = -1 by decide] at g2
      have hnx : nx = x := by omega
      subst hnx
      have h1 := ih ny j g1
      have h2 := hi.1
      have := dist1_le_src hc hi (m := (j, 2)) ⟨0, 3, by simp [dirs1], Or.inl ⟨j, hj, rfl⟩⟩ (by simp only; omega)
      simp only at this
      omega

theorem dist1_le_y {c : Chf} (hc : c.Wf) (hh : c.h ≤ 127) : ∀ y x i, c.At x y i → dist1 c i ≤ 2 * y := by
  intro y
  induction y with
  | zero =>
    intro x i hi
    by_cases hb : Border c i
    · have := (dist0_spec hc hi).1 hb
      have := dist1_le c i
      omega
    · exfalso
      obtain ⟨j, hj⟩ := inner_nb hb 3 (by omega)
      obtain ⟨nx, ny, -, -, g2⟩ := nb_cells hc hi hj
      rw [show dirY (BitVec.ofNat 32 3) = -1 by decide] at g2
      omega
  | succ y ih =>
    intro x i hi
    by_cases hb : Border c i
    · have := (dist0_spec hc hi).1 hb
      have := dist1_le c i
      omega
    · obtain ⟨j, hj⟩ := inner_nb hb 3 (by omega)
      obtain ⟨nx, ny, g1, -, g2⟩ := nb_cells hc hi hj
      rw [show dirY (BitVec.ofNat 32 3) = -1 by decide] at g2
      have hny : ny = y := by omega
      subst hny
      have h1 := ih nx j g1
      have h2 := hi.2.1
      have := dist1_le_src hc hi (m := (j, 2)) ⟨3, 2, by simp [dirs1], Or.inl ⟨j, hj, rfl⟩⟩ (by simp only; omega)
      simp only at this
      omega

/-- Fields of at most 127 rows or columns: no distance is above 252. -/
theorem dist1_le_252 {c : Chf} (hc : c.Wf) (hn : c.w ≤ 127 ∨ c.h ≤ 127) {x y i : Nat} (hi : c.At x y i) : dist1 c i ≤ 252 := by
  rcases hn with h | h
  · have := dist1_le_x hc h x y i hi
    have := hi.1
    omega
  · have := dist1_le_y hc h y x i hi
    have := hi.2.1
    omega

theorem src_at {c : Chf} {ds : List (Nat × Nat)} {i : Nat} {m : Nat × Nat} (h : Src c ds i m) :
    (∃ x y, c.At x y m.1) ∧ m.2 ≤ 3 := by
  obtain ⟨a, b, -, ⟨j, h, rfl⟩ | ⟨j, l, -, h, rfl⟩⟩ := h <;>
  · obtain ⟨-, -, nx, ny, -, h2, -⟩ := h
    exact ⟨⟨nx, ny, h2⟩, by simp⟩

/-! ## Upper bounds: near the border -/

theorem reach1_le {c : Chf} (hc : c.Wf) {i k : Nat} (h : Reach c dirs1 (AtBorder c) i k) (hk : k ≤ 255)
    {x y : Nat} (hi : c.At x y i) : dist1 c i ≤ k := by
  induction h generalizing x y with
  | @here i k hb =>
    have := (dist0_spec hc hi).1 hb.1
    have := dist1_le c i
    have := hb.2
    omega
  | @side i j k a b hab h1 _ ih =>
    obtain ⟨nx, ny, g1, -⟩ := nb_cells hc hi h1
    have := ih (by omega) g1
    have := dist1_le_src hc hi (m := (j, 2)) ⟨a, b, hab, Or.inl ⟨j, h1, rfl⟩⟩ (by simp only; omega)
    simp only at this
    omega
  | @diag i j l k a b hab h1 h2 _ ih =>
    obtain ⟨nx, ny, g1, -⟩ := nb_cells hc hi h1
    obtain ⟨mx, my, g2, -⟩ := nb_cells hc g1 h2
    have := ih (by omega) g2
    have := dist1_le_src hc hi (m := (l, 3)) ⟨a, b, hab, Or.inr ⟨j, l, h1, h2, rfl⟩⟩ (by simp only; omega)
    simp only at this
    omega

theorem reach2_le {c : Chf} (hc : c.Wf) {i k : Nat}
    (h : Reach c dirs2 (Reach c dirs1 (AtBorder c)) i k) (hk : k ≤ 255) {x y : Nat} (hi : c.At x y i) : dist2 c i ≤ k := by
  induction h generalizing x y with
  | here hb => exact Nat.le_trans (dist2_le _ _) (reach1_le hc hb hk hi)
  | @side i j k a b hab h1 _ ih =>
    obtain ⟨nx, ny, g1, -⟩ := nb_cells hc hi h1
    have := ih (by omega) g1
    have := dist2_le_src hc hi (m := (j, 2)) ⟨a, b, hab, Or.inl ⟨j, h1, rfl⟩⟩ (by simp only; omega)
    simp only at this
    omega
  | @diag i j l k a b hab h1 h2 _ ih =>
    obtain ⟨nx, ny, g1, -⟩ := nb_cells hc hi h1
    obtain ⟨mx, my, g2, -⟩ := nb_cells hc g1 h2
    have := ih (by omega) g2
    have := dist2_le_src hc hi (m := (l, 3)) ⟨a, b, hab, Or.inr ⟨j, l, h1, h2, rfl⟩⟩ (by simp only; omega)
    simp only at this
    omega

/-! ## Lower bounds: every distance is the cost of a way to the border -/

theorem dist1_reach {c : Chf} (hc : c.Wf) (hn : c.w ≤ 127 ∨ c.h ≤ 127) : ∀ N x y i, c.At x y i → cnum c (x, y) < N →
    Reach c dirs1 (AtBorder c) i (dist1 c i) := by
  intro N
  induction N with
  | zero => intro x y i _ h; omega
  | succ N ih =>
    intro x y i hi hN
    by_cases hb : Border c i
    · have h1 := (dist0_spec hc hi).1 hb
      have h2 := dist1_le c i
      rw [show dist1 c i = 0 by omega]
      exact .here ⟨hb, rfl⟩
    · have h1 := (dist0_spec hc hi).2 hb
      obtain ⟨e, h2, h3, h4⟩ := dist1_step hc hi
      have h5 := dist1_le_252 hc hn hi
      rcases relaxes_from i (dirs1.flatMap (sources c ((x, y), i))) e (fun m hm => by
        have hm' := (mem_srcs hc dirs1_lt hi m).1 hm
        obtain ⟨q1, q2⟩ := h4 m hm'
        obtain ⟨⟨mx, my, q3⟩, q4⟩ := src_at hm'
        have := dist1_le_252 hc hn q3
        exact ⟨q2, by omega⟩) with q | ⟨m, hm, q⟩
      · omega
      · have hm' := (mem_srcs hc dirs1_lt hi m).1 hm
        rw [h3, q, (h4 m hm').1]
        obtain ⟨p, q1, q2⟩ := src1_before hc hi hm'
        have hr := ih p.1 p.2 m.1 q1 (by have : cnum c (p.1, p.2) = cnum c p := rfl; omega)
        obtain ⟨a, b, hab, ⟨j, g1, rfl⟩ | ⟨j, l, g1, g2, rfl⟩⟩ := hm'
        · exact .side hab g1 hr
        · exact .diag hab g1 g2 hr

theorem dist2_reach {c : Chf} (hc : c.Wf) (hn : c.w ≤ 127 ∨ c.h ≤ 127) : ∀ N x y i, c.At x y i →
    c.w * c.h ≤ cnum c (x, y) + N → Reach c dirs2 (Reach c dirs1 (AtBorder c)) i (dist2 c i) := by
  intro N
  induction N with
  | zero =>
    intro x y i hi h
    have := cell_lt hi.1 hi.2.1
    unfold cnum at h
    simp only at h
    omega
  | succ N ih =>
    intro x y i hi hN
    obtain ⟨e, h2, h3, h4⟩ := dist2_step hc hi
    rcases relaxes_from i (dirs2.flatMap (sources c ((x, y), i))) e (fun m hm => by
      have hm' := (mem_srcs hc dirs2_lt hi m).1 hm
      obtain ⟨q1, q2⟩ := h4 m hm'
      obtain ⟨⟨mx, my, q3⟩, q4⟩ := src_at hm'
      have := dist1_le_252 hc hn q3
      have := dist2_le c m.1
      exact ⟨q2, by omega⟩) with q | ⟨m, hm, q⟩
    · rw [h3, q, h2]
      exact .here (dist1_reach hc hn _ x y i hi (Nat.lt_succ_self _))
    · have hm' := (mem_srcs hc dirs2_lt hi m).1 hm
      rw [h3, q, (h4 m hm').1]
      obtain ⟨p, q1, q2⟩ := src2_after hc hi hm'
      have hr := ih p.1 p.2 m.1 q1 (by have : cnum c (p.1, p.2) = cnum c p := rfl; omega)
      obtain ⟨a, b, hab, ⟨j, g1, rfl⟩ | ⟨j, l, g1, g2, rfl⟩⟩ := hm'
      · exact .side hab g1 hr
      · exact .diag hab g1 g2 hr

/-! ## The claims -/

theorem clearBelow_spec (dist : Nat → Nat) (thr n : Nat) (area : Nat → Nat) (i : Nat) :
    clearBelow dist thr n area i = if i < n ∧ dist i < thr then 0 else area i := by
  unfold clearBelow
  induction n with
  | zero => simp
  | succ n ih =>
    rw [List.range_succ, List.foldl_append, List.foldl_cons, List.foldl_nil]
    by_cases hi : i = n
    · subst hi
      by_cases h : dist i < thr
      · rw [if_pos h, upd_same, if_pos ⟨by omega, h⟩]; rfl
      · rw [if_neg h, ih, if_neg (by omega), if_neg (by omega)]
    · have e : (i < n + 1 ∧ dist i < thr) ↔ (i < n ∧ dist i < thr) := by
        constructor <;> rintro ⟨a, b⟩ <;> exact ⟨by omega, b⟩
      simp only [e]
      split
      · rw [upd_ne _ _ hi, ih]
      · rw [ih]

theorem erode_area {c : Chf} (radius i : Nat) :
    (erode radius c).area i = if i < c.n ∧ dist2 c i < radius * 2 % 256 then 0 else c.area i :=
  clearBelow_spec _ _ _ _ _

/-- A way of cost `k` leads to a border span less than `k / 2` cells away on either axis. -/
theorem reach_cells {c : Chf} (hc : c.Wf) (ds : List (Nat × Nat)) (hds : ∀ ab ∈ ds, ab.1 < 4 ∧ ab.2 < 4 ∧ (ab.1 + ab.2) % 2 = 1)
    (base : Nat → Nat → Prop) (B : Nat → Prop)
    (hbase : ∀ i k x y, base i k → c.At x y i → ∃ b, B b ∧ ∃ bx byy : Nat, c.At bx byy b ∧
      2 * |(bx : Int) - x| ≤ k ∧ 2 * |(byy : Int) - y| ≤ k ∧ 3 * (|(bx : Int) - x| + |(byy : Int) - y|) ≤ 2 * k)
    {i k : Nat} (h : Reach c ds base i k) {x y : Nat} (hi : c.At x y i) : ∃ b, B b ∧ ∃ bx byy : Nat, c.At bx byy b ∧
      2 * |(bx : Int) - x| ≤ k ∧ 2 * |(byy : Int) - y| ≤ k ∧ 3 * (|(bx : Int) - x| + |(byy : Int) - y|) ≤ 2 * k := by
  induction h generalizing x y with
  | here hb => exact hbase _ _ x y hb hi
  | @side i j k a b hab h1 _ ih =>
    obtain ⟨nx, ny, g1, g2, g3⟩ := nb_cells hc hi h1
    obtain ⟨b', hB, bx, byy, q1, q2, q3, q4⟩ := ih g1
    refine ⟨b', hB, bx, byy, q1, ?_⟩
    simp only [Int.abs_eq_natAbs] at q2 q3 q4 ⊢
    rcases off_cases a (hds _ hab).1 with ⟨-, e1, e2⟩ | ⟨-, e1, e2⟩ | ⟨-, e1, e2⟩ | ⟨-, e1, e2⟩ <;> rw [e1] at g2 <;>
      rw [e2] at g3 <;> omega
  | @diag i j l k a b hab h1 h2 _ ih =>
    obtain ⟨nx, ny, g1, g2, g3⟩ := nb_cells hc hi h1
    obtain ⟨mx, my, g4, g5, g6⟩ := nb_cells hc g1 h2
    obtain ⟨b', hB, bx, byy, q1, q2, q3, q4⟩ := ih g4
    refine ⟨b', hB, bx, byy, q1, ?_⟩
    simp only [Int.abs_eq_natAbs] at q2 q3 q4 ⊢
    have hodd := (hds _ hab).2.2
    simp only at hodd
    rcases off_cases a (hds _ hab).1 with ⟨d1, e1, e2⟩ | ⟨d1, e1, e2⟩ | ⟨d1, e1, e2⟩ | ⟨d1, e1, e2⟩ <;>
      rcases off_cases b (hds _ hab).2.1 with ⟨d3, e3, e4⟩ | ⟨d3, e3, e4⟩ | ⟨d3, e3, e4⟩ | ⟨d3, e3, e4⟩ <;>
      rw [e1] at g2 <;> rw [e2] at g3 <;> rw [e3] at g5 <;> rw [e4] at g6 <;> omega

/-- `m` steps in direction `d` over connections. -/
inductive Line (c : Chf) (d : Nat) : Nat → Nat → Nat → Prop
  | zero (i) : Line c d i 0 i
  | step {i j m k} : c.Nb i d j → Line c d j m k → Line c d i (m + 1) k

theorem line_reach {c : Chf} {ds : List (Nat × Nat)} {base : Nat → Nat → Prop} {d b : Nat} (hd : (d, b) ∈ ds) {i m j : Nat}
    (h : Line c d i m j) (hb : base j 0) : Reach c ds base i (2 * m) := by
  induction h with
  | zero i => exact .here hb
  | step h1 _ ih => exact .side hd h1 (ih hb)

/-- **C48** (partial). Erosion never makes a span walkable or changes one area into another. -/
theorem erode_only_clears_partial (radius : Nat) (c : Chf) (i : Nat) :
    (erode radius c).area i = c.area i ∨ (erode radius c).area i = 0 := by
  rw [erode_area]
  split
  · exact Or.inr rfl
  · exact Or.inl rfl

/-- **C48** (partial). For every radius from 1 to 127, every border span is cleared, whatever the size of
the field. -/
theorem erode_clears_border_partial {c : Chf} (hc : c.Wf) {radius : Nat} (h1 : 1 ≤ radius) (h2 : radius ≤ 127)
    {i : Nat} (hi : i < c.n) (hb : Border c i) : (erode radius c).area i = 0 := by
  obtain ⟨x, y, hat⟩ := hc.cell i hi
  have h3 := (dist0_spec hc hat).1 hb
  have h4 := dist1_le c i
  have h5 := dist2_le c i
  rw [erode_area, if_pos ⟨hi, by omega⟩]

/-- **C48** (partial). In fields of at most 127 rows or columns, a span is cleared exactly when it was
not walkable, or has a way to a border span - side steps cost 2, diagonal steps 3, first (at the border) steps
to the west and north, then steps to the east and south - of cost below `2 * radius`. -/
theorem erode_iff_partial {c : Chf} (hc : c.Wf) (hn : c.w ≤ 127 ∨ c.h ≤ 127) {radius : Nat} (h2 : radius ≤ 127)
    {i : Nat} (hi : i < c.n) :
    (erode radius c).area i = 0 ↔
      c.area i = 0 ∨ ∃ k < 2 * radius, Reach c [(2, 1), (1, 0)] (Reach c [(0, 3), (3, 2)] (AtBorder c)) i k := by
  obtain ⟨x, y, hat⟩ := hc.cell i hi
  rw [erode_area, Nat.mod_eq_of_lt (by omega)]
  constructor
  · intro h
    split at h
    · rename_i hd
      exact Or.inr ⟨dist2 c i, by omega, dist2_reach hc hn _ x y i hat (Nat.le_add_left _ _)⟩
    · exact Or.inl h
  · rintro (h | ⟨k, hk, hr⟩)
    · split
      · rfl
      · exact h
    · have := reach2_le hc hr (by omega) hat
      rw [if_pos ⟨hi, by omega⟩]

/-- **C48** (partial). In fields of at most 127 rows or columns, a span is kept as it was if no border
span lies less than `radius` cells away (on both axes), on any layer. -/
theorem erode_keeps_far_partial {c : Chf} (hc : c.Wf) (hn : c.w ≤ 127 ∨ c.h ≤ 127) {radius : Nat} (h2 : radius ≤ 127)
    {x y i : Nat} (hi : c.At x y i) (hfar : ∀ bx byy b : Nat, c.At bx byy b → |(bx : Int) - x| < radius →
      |(byy : Int) - y| < radius → ¬ Border c b) : (erode radius c).area i = c.area i := by
  by_cases h0 : c.area i = 0
  · rcases erode_only_clears_partial radius c i with h | h <;> omega
  · rcases erode_only_clears_partial radius c i with h | h
    · exact h
    · exfalso
      rcases (erode_iff_partial hc hn h2 (hc.lt x y i hi)).1 h with h | ⟨k, hk, hr⟩
      · exact h0 h
      · obtain ⟨b, hB, bx, byy, q1, q2, q3, -⟩ := reach_cells hc _ (by decide) _ (Border c)
          (fun i k x y h hi => reach_cells hc _ (by decide) _ (Border c)
            (fun i k x y h hi => ⟨i, h.1, x, y, hi, by simp [h.2]⟩) h hi) hr hi
        exact hfar bx byy b q1 (by omega) (by omega) hB

/-- **C48** (partial). In fields of any size, a span is cleared if it has such a way to a border span: the distances
may wrap far from the border, but never near it. -/
theorem erode_clears_reach_partial {c : Chf} (hc : c.Wf) {radius : Nat} (h2 : radius ≤ 127) {i : Nat} (hi : i < c.n) {k : Nat}
    (hk : k < 2 * radius) (hr : Reach c [(2, 1), (1, 0)] (Reach c [(0, 3), (3, 2)] (AtBorder c)) i k) :
    (erode radius c).area i = 0 := by
  obtain ⟨x, y, hat⟩ := hc.cell i hi
  have := reach2_le hc hr (by omega) hat
  rw [erode_area, Nat.mod_eq_of_lt (by omega), if_pos ⟨hi, by omega⟩]

/-- **C48** (partial). In fields of any size, a span is cleared if fewer than `radius` steps in one of the four
directions lead to a border span. -/
theorem erode_clears_near_partial {c : Chf} (hc : c.Wf) {radius : Nat} (h2 : radius ≤ 127)
    {i : Nat} (hi : i < c.n) {d m j : Nat} (hd : d < 4) (hl : Line c d i m j) (hj : Border c j) (hm : m < radius) :
    (erode radius c).area i = 0 := by
  refine erode_clears_reach_partial hc h2 hi (k := 2 * m) (by omega) ?_
  have : d = 0 ∨ d = 1 ∨ d = 2 ∨ d = 3 := by omega
  rcases this with rfl | rfl | rfl | rfl
  · exact .here (line_reach (b := 3) (by simp) hl ⟨hj, rfl⟩)
  · exact line_reach (b := 0) (by simp) hl (.here ⟨hj, rfl⟩)
  · exact line_reach (b := 1) (by simp) hl (.here ⟨hj, rfl⟩)
  · exact .here (line_reach (b := 2) (by simp) hl ⟨hj, rfl⟩)

/-! ## A flat field -/

/-- A flat square field of `n` by `n` columns. -/
def plain (n : Nat) : Field := ⟨n, n, fun _ => [⟨0, 1, 63⟩]⟩

theorem plain_facts (n : Nat) : ∃ f con, buildCompact 2 1 (plain n) = some (f, con) ∧ (mkChf (plain n) f con).Wf ∧
    (mkChf (plain n) f con).n = n * n ∧
    (∀ x y i, (mkChf (plain n) f con).At x y i ↔ x < n ∧ y < n ∧ i = x + y * n) ∧
    (∀ i < n * n, (mkChf (plain n) f con).area i = 63) ∧
    (∀ x y d nx ny : Nat, x < n → y < n → nx < n → ny < n → d < 4 → (nx : Int) = x + dirX (BitVec.ofNat 32 d) →
      (ny : Int) = y + dirY (BitVec.ofNat 32 d) → (mkChf (plain n) f con).Nb (x + y * n) d (nx + ny * n)) := by
  have ho : ∀ i, openSpans ((plain n).col i) = [⟨1, 255, 63⟩] := by
    intro i
    show openSpans [⟨0, 1, 63⟩] = _
    decide
  obtain ⟨f, con, h0, hwf⟩ := buildCompact_wf 2 1 (plain n) (fun i _ => by rw [ho]; simp)
  obtain ⟨f', con', h0', h1, h3⟩ := connections_partial 2 1 (plain n)
  rw [h0] at h0'
  simp only [Option.some.injEq, Prod.mk.injEq] at h0'
  obtain ⟨rfl, rfl⟩ := h0'
  obtain ⟨f', h1', h2⟩ := fillField_spec (plain n)
  rw [h1] at h1'; cases h1'
  have hbef : ∀ i, before (plain n) i = i := by
    intro i
    unfold before
    simp [ho]
  have hcell : ∀ i < n * n, f.cells i = ⟨i, 1⟩ := by
    intro i hi
    rw [h2.cells, if_pos (show i < (plain n).w * (plain n).h from hi), cellSpec, if_neg (by simp [plain]), ho, hbef]
    rfl
  have hspan : ∀ i < n * n, f.spans i = ⟨1, 255, 63⟩ := by
    intro i hi
    have := h2.spans i hi 0 ⟨1, 255, 63⟩ (by rw [ho]; rfl)
    rwa [hbef] at this
  have hat : ∀ x y i, (mkChf (plain n) f con).At x y i ↔ x < n ∧ y < n ∧ i = x + y * n := by
    intro x y i
    unfold Chf.At
    constructor
    · rintro ⟨a, b, c, d⟩
      have hh := hcell (x + y * n) (cell_lt a b)
      change (f.cells (x + y * n)).index ≤ i at c
      change i < (f.cells (x + y * n)).index + (f.cells (x + y * n)).count at d
      rw [hh] at c d
      simp only at c d
      exact ⟨a, b, by omega⟩
    · rintro ⟨a, b, rfl⟩
      have hh := hcell (x + y * n) (cell_lt a b)
      refine ⟨a, b, ?_, ?_⟩
      · change (f.cells (x + y * n)).index ≤ _
        rw [hh]
      · change _ < (f.cells (x + y * n)).index + (f.cells (x + y * n)).count
        rw [hh]
        simp only
        omega
  refine ⟨f, con, h0, hwf, ?_, hat, fun i hi => by show (f.spans i).area = 63; rw [hspan i hi], ?_⟩
  · show spanCount (plain n) = n * n
    rw [spanCount_eq, hbef]; rfl
  · intro x y d nx ny hx hy hnx hny hd e1 e2
    refine ⟨x, y, nx, ny, (hat _ _ _).2 ⟨hx, hy, rfl⟩, (hat _ _ _).2 ⟨hnx, hny, rfl⟩, e1, e2, ?_⟩
    have hcl := hcell _ (cell_lt hx hy)
    have hcn := hcell _ (cell_lt hnx hny)
    show getCon (con (x + y * n)) d ≠ _ ∧ nx + ny * n = (f.cells (nx + ny * n)).index + (getCon (con (x + y * n)) d).toNat
    have hstep : StepOk 2 1 (f.spans (x + y * n)) (f.spans (nx + ny * n)) := by
      rw [hspan _ (cell_lt hx hy), hspan _ (cell_lt hnx hny)]
      exact (canStep_iff _ _ _ _).1 (by decide)
    have hin : InCell f (x + y * n) (x + y * n) := by
      show (f.cells (x + y * n)).index ≤ x + y * n ∧ x + y * n < (f.cells (x + y * n)).index + (f.cells (x + y * n)).count
      rw [hcl]; simp
    have hnei : NeiCell (plain n).w (plain n).h x y d (nx + ny * n) := ⟨nx, ny, hnx, hny, e1, e2, rfl⟩
    rcases h3 x hx y hy (x + y * n) hin d hd with ⟨-, g⟩ | ⟨a, g1, m, -, g2, g3, -, -⟩
    · refine absurd ?_ (g _ hnei 0 (by omega) (by rw [hcn]; simp))
      rw [hcn]; exact hstep
    · have := neiCell_unique g1 hnei
      subst this
      rw [hcn] at g2
      have : m = 0 := by simp only at g2; omega
      subst this
      rw [g3, hcn]
      exact ⟨by decide, rfl⟩

theorem plain_border {n : Nat} {c : Chf} (hc : c.Wf) (hat : ∀ x y i, c.At x y i ↔ x < n ∧ y < n ∧ i = x + y * n)
    (ha : ∀ i < n * n, c.area i = 63)
    (hnb : ∀ x y d nx ny : Nat, x < n → y < n → nx < n → ny < n → d < 4 → (nx : Int) = x + dirX (BitVec.ofNat 32 d) →
      (ny : Int) = y + dirY (BitVec.ofNat 32 d) → c.Nb (x + y * n) d (nx + ny * n))
    {x y : Nat} (hx : x < n) (hy : y < n) : Border c (x + y * n) ↔ x = 0 ∨ y = 0 ∨ x + 1 = n ∨ y + 1 = n := by
  have hi : c.At x y (x + y * n) := (hat _ _ _).2 ⟨hx, hy, rfl⟩
  have hcells : ∀ j d, c.Nb (x + y * n) d j → c.area j = 63 ∧
      ∃ nx ny : Nat, nx < n ∧ ny < n ∧ (nx : Int) = x + dirX (BitVec.ofNat 32 d) ∧ (ny : Int) = y + dirY (BitVec.ofNat 32 d) := by
    intro j d hj
    obtain ⟨nx, ny, g1, g2, g3⟩ := nb_cells hc hi hj
    obtain ⟨q1, q2, rfl⟩ := (hat _ _ _).1 g1
    exact ⟨ha _ (cell_lt q1 q2), nx, ny, q1, q2, g2, g3⟩
  constructor
  · rintro (h | ⟨d, hd, h⟩)
    · rw [ha _ (cell_lt hx hy)] at h; omega
    · by_contra hno
      push Not at hno
      obtain ⟨nx, ny, e1, e2, e3, e4⟩ : ∃ nx ny : Nat, nx < n ∧ ny < n ∧ (nx : Int) = x + dirX (BitVec.ofNat 32 d) ∧
          (ny : Int) = y + dirY (BitVec.ofNat 32 d) := by
        rcases off_cases d hd with ⟨-, e1, e2⟩ | ⟨-, e1, e2⟩ | ⟨-, e1, e2⟩ | ⟨-, e1, e2⟩ <;> rw [e1, e2]
        · exact ⟨x - 1, y, by omega, by omega, by omega, by omega⟩
        · exact ⟨x, y + 1, by omega, by omega, by omega, by omega⟩
        · exact ⟨x + 1, y, by omega, by omega, by omega, by omega⟩
        · exact ⟨x, y - 1, by omega, by omega, by omega, by omega⟩
      have := h _ (hnb x y d nx ny hx hy e1 e2 hd e3 e4)
      rw [ha _ (cell_lt e1 e2)] at this
      omega
  · intro h
    have key : ∀ d < 4, (∀ nx ny : Nat, nx < n → ny < n → (nx : Int) = x + dirX (BitVec.ofNat 32 d) →
        (ny : Int) = y + dirY (BitVec.ofNat 32 d) → False) → Border c (x + y * n) := by
      intro d hd hf
      refine Or.inr ⟨d, hd, fun j hj => ?_⟩
      obtain ⟨-, nx, ny, q1, q2, q3, q4⟩ := hcells j d hj
      exact (hf nx ny q1 q2 q3 q4).elim
    rcases h with h | h | h | h
    · refine key 0 (by omega) fun nx ny _ _ e _ => ?_
      rw [show dirX (BitVec.ofNat 32 0) = -1 by decide] at e; omega
    · refine key 3 (by omega) fun nx ny _ _ _ e => ?_
      rw [show dirY (BitVec.ofNat 32 3) = -1 by decide] at e; omega
    · refine key 2 (by omega) fun nx ny _ _ e _ => ?_
      rw [show dirX (BitVec.ofNat 32 2) = 1 by decide] at e; omega
    · refine key 1 (by omega) fun nx ny _ _ _ e => ?_
      rw [show dirY (BitVec.ofNat 32 1) = 1 by decide] at e; omega

/-- The hypotheses of the C48 theorems are met: the flat 7 by 7 field, radius 3. The middle span is kept,
its diagonal neighbours are cleared. -/
example : ∃ f con, buildCompact 2 1 (plain 7) = some (f, con) ∧ (mkChf (plain 7) f con).Wf ∧
    (erode 3 (mkChf (plain 7) f con)).area (3 + 3 * 7) = 63 ∧
    (erode 3 (mkChf (plain 7) f con)).area (2 + 2 * 7) = 0 := by
  obtain ⟨f, con, h0, hc, hn, hat, ha, hnb⟩ := plain_facts 7
  have hbo := fun x y => @plain_border 7 _ hc hat ha hnb x y
  refine ⟨f, con, h0, hc, ?_, ?_⟩
  · rw [erode_keeps_far_partial hc (Or.inl (show 7 ≤ 127 by decide)) (by decide) ((hat 3 3 _).2 ⟨by decide, by decide, rfl⟩), ha _ (by decide)]
    intro bx byy b hb h1 h2 hB
    obtain ⟨q1, q2, rfl⟩ := (hat _ _ _).1 hb
    have := (hbo bx byy q1 q2).1 hB
    simp only [Int.abs_eq_natAbs] at h1 h2
    omega
  · refine erode_clears_near_partial hc (by decide) (by rw [hn]; decide) (d := 0) (m := 2) (j := 0 + 2 * 7)
      (by decide) (.step (hnb 2 2 0 1 2 (by decide) (by decide) (by decide) (by decide) (by decide) (by decide) (by decide))
        (.step (hnb 1 2 0 0 2 (by decide) (by decide) (by decide) (by decide) (by decide) (by decide) (by decide)) (.zero _)))
      ((hbo 0 2 (by decide) (by decide)).2 (Or.inl rfl)) (by decide)

/-! ## Wrap-around -/

/-- Every source bounds the result by its wrapped value. -/
theorem relaxes_wrapped (i : Nat) (l : List (Nat × Nat)) : ∀ (d : Nat → Nat) (m : Nat × Nat), m ∈ l → m.1 ≠ i →
    l.foldl (relax i) d i ≤ (d m.1 + m.2) % 256 := by
  induction l with
  | nil => intro d m hm; simp at hm
  | cons m' l ih =>
    intro d m hm hne
    rw [List.foldl_cons]
    rcases List.mem_cons.1 hm with rfl | hm
    · refine Nat.le_trans (relaxes_le _ _ _ _) ?_
      unfold relax
      split
      · rw [upd_same]; omega
      · omega
    · have := ih (relax i d m') m hm hne
      rwa [relax_other _ _ _ _ hne] at this

/-- Distances after pass 1 in the 260 by 260 field, above row 127 and in its first half. -/
def openDist (x y : Nat) : Nat := min (min (2 * x) (2 * y)) (3 * (259 - x))

set_option maxRecDepth 4000 in
theorem open_dist1 {c : Chf} (hc : c.Wf) (hat : ∀ x y i, c.At x y i ↔ x < 260 ∧ y < 260 ∧ i = x + y * 260)
    (ha : ∀ i < 260 * 260, c.area i = 63)
    (hnb : ∀ x y d nx ny : Nat, x < 260 → y < 260 → nx < 260 → ny < 260 → d < 4 → (nx : Int) = x + dirX (BitVec.ofNat 32 d) →
      (ny : Int) = y + dirY (BitVec.ofNat 32 d) → c.Nb (x + y * 260) d (nx + ny * 260)) :
    ∀ N x y, x < 260 → (y ≤ 126 ∨ y = 127 ∧ x ≤ 127) → x + y * 260 < N → dist1 c (x + y * 260) = openDist x y := by
  intro N
  induction N with
  | zero => intro x y _ _ h; omega
  | succ N ih =>
    intro x y hx hy hN
    have hi : c.At x y (x + y * 260) := (hat _ _ _).2 ⟨hx, by omega, rfl⟩
    by_cases hb : Border c (x + y * 260)
    · have h1 := (dist0_spec hc hi).1 hb
      have h2 := dist1_le c (x + y * 260)
      have h3 := (plain_border hc hat ha hnb hx (by omega)).1 hb
      unfold openDist
      omega
    · have h1 := (dist0_spec hc hi).2 hb
      have h3 := (not_congr (plain_border hc hat ha hnb hx (y := y) (by omega))).1 hb
      push Not at h3
      obtain ⟨n1, n2, n3, n4⟩ := h3
      -- the four sources
      have w1 := ih (x - 1) y (by omega) (by omega) (by omega)
      have w2 := ih (x - 1) (y - 1) (by omega) (by omega) (by omega)
      have w3 := ih x (y - 1) (by omega) (by omega) (by omega)
      have w4 := ih (x + 1) (y - 1) (by omega) (by omega) (by omega)
      have nbW : ∀ j, c.Nb (x + y * 260) 0 j ↔ j = (x - 1) + y * 260 := by
        intro j
        have := hnb x y 0 (x - 1) y hx (by omega) (by omega) (by omega) (by omega)
          (by rw [show dirX (BitVec.ofNat 32 0) = -1 by decide]; omega) (by rw [show dirY (BitVec.ofNat 32 0) = 0 by decide]; omega)
        exact ⟨fun h => Chf.Nb.unique hc (by omega) h this, fun e => by rw [e]; exact this⟩
      have nbN : ∀ j, c.Nb (x + y * 260) 3 j ↔ j = x + (y - 1) * 260 := by
        intro j
        have := hnb x y 3 x (y - 1) hx (by omega) (by omega) (by omega) (by omega)
          (by rw [show dirX (BitVec.ofNat 32 3) = 0 by decide]; omega) (by rw [show dirY (BitVec.ofNat 32 3) = -1 by decide]; omega)
        exact ⟨fun h => Chf.Nb.unique hc (by omega) h this, fun e => by rw [e]; exact this⟩
      have nbNW : ∀ j, c.Nb ((x - 1) + y * 260) 3 j ↔ j = (x - 1) + (y - 1) * 260 := by
        intro j
        have := hnb (x - 1) y 3 (x - 1) (y - 1) (by omega) (by omega) (by omega) (by omega) (by omega)
          (by rw [show dirX (BitVec.ofNat 32 3) = 0 by decide]; omega) (by rw [show dirY (BitVec.ofNat 32 3) = -1 by decide]; omega)
        exact ⟨fun h => Chf.Nb.unique hc (by omega) h this, fun e => by rw [e]; exact this⟩
      have nbNE : ∀ j, c.Nb (x + (y - 1) * 260) 2 j ↔ j = (x + 1) + (y - 1) * 260 := by
        intro j
        have := hnb x (y - 1) 2 (x + 1) (y - 1) (by omega) (by omega) (by omega) (by omega) (by omega)
          (by rw [show dirX (BitVec.ofNat 32 2) = 1 by decide]; omega) (by rw [show dirY (BitVec.ofNat 32 2) = 0 by decide]; omega)
        exact ⟨fun h => Chf.Nb.unique hc (by omega) h this, fun e => by rw [e]; exact this⟩
      have hsrc : ∀ m, Src c dirs1 (x + y * 260) m → m = ((x - 1) + y * 260, 2) ∨ m = ((x - 1) + (y - 1) * 260, 3) ∨
          m = (x + (y - 1) * 260, 2) ∨ m = ((x + 1) + (y - 1) * 260, 3) := by
        rintro m ⟨a, b, hab, h⟩
        simp only [dirs1, List.mem_cons, Prod.mk.injEq, List.not_mem_nil, or_false] at hab
        rcases hab with ⟨rfl, rfl⟩ | ⟨rfl, rfl⟩
        · rcases h with ⟨j, g1, rfl⟩ | ⟨j, l, g1, g2, rfl⟩
          · rw [(nbW j).1 g1]; exact Or.inl rfl
          · rw [(nbW j).1 g1] at g2
            rw [(nbNW l).1 g2]; exact Or.inr (Or.inl rfl)
        · rcases h with ⟨j, g1, rfl⟩ | ⟨j, l, g1, g2, rfl⟩
          · rw [(nbN j).1 g1]; exact Or.inr (Or.inr (Or.inl rfl))
          · rw [(nbN j).1 g1] at g2
            rw [(nbNE l).1 g2]; exact Or.inr (Or.inr (Or.inr rfl))
      have s1 : Src c dirs1 (x + y * 260) ((x - 1) + y * 260, 2) :=
        ⟨0, 3, by simp [dirs1], Or.inl ⟨_, (nbW _).2 rfl, rfl⟩⟩
      have s3 : Src c dirs1 (x + y * 260) (x + (y - 1) * 260, 2) :=
        ⟨3, 2, by simp [dirs1], Or.inl ⟨_, (nbN _).2 rfl, rfl⟩⟩
      have s4 : Src c dirs1 (x + y * 260) ((x + 1) + (y - 1) * 260, 3) :=
        ⟨3, 2, by simp [dirs1], Or.inr ⟨_, _, (nbN _).2 rfl, (nbNE _).2 rfl, rfl⟩⟩
      have b1 : openDist (x - 1) y ≤ 252 := by unfold openDist; omega
      have b2 : openDist (x - 1) (y - 1) ≤ 252 := by unfold openDist; omega
      have b3 : openDist x (y - 1) ≤ 252 := by unfold openDist; omega
      have b4 : openDist (x + 1) (y - 1) ≤ 252 := by unfold openDist; omega
      have u1 := dist1_le_src hc hi s1 (by rw [w1]; simp only; omega)
      have u3 := dist1_le_src hc hi s3 (by rw [w3]; simp only; omega)
      have u4 := dist1_le_src hc hi s4 (by rw [w4]; simp only; omega)
      rw [w1] at u1
      rw [w3] at u3
      rw [w4] at u4
      obtain ⟨e, h2, h3, h4⟩ := dist1_step hc hi
      have low : openDist x y ≤ dist1 c (x + y * 260) := by
        rcases relaxes_from (x + y * 260) (dirs1.flatMap (sources c ((x, y), x + y * 260))) e (fun m hm => by
          have hm' := (mem_srcs hc dirs1_lt hi m).1 hm
          obtain ⟨q1, q2⟩ := h4 m hm'
          refine ⟨q2, ?_⟩
          rw [q1]
          rcases hsrc m hm' with rfl | rfl | rfl | rfl
          · rw [w1]; simp only; omega
          · rw [w2]; simp only; omega
          · rw [w3]; simp only; omega
          · rw [w4]; simp only; omega) with q | ⟨m, hm, q⟩
        · rw [h3, q, h2, h1]
          unfold openDist
          omega
        · have hm' := (mem_srcs hc dirs1_lt hi m).1 hm
          rw [h3, q, (h4 m hm').1]
          rcases hsrc m hm' with rfl | rfl | rfl | rfl
          · rw [w1]; unfold openDist; simp only; omega
          · rw [w2]; unfold openDist; simp only; omega
          · rw [w3]; unfold openDist; simp only; omega
          · rw [w4]; unfold openDist; simp only; omega
      refine Nat.le_antisymm ?_ low
      unfold openDist at u1 u3 u4 ⊢
      simp only at u1 u3 u4
      omega

/-- **C48** (refuted in full). In a flat open field of 260 by 260 cells, erosion by radius 1 clears a span
in the middle that is over 100 cells away from every border span: the uint8 distance wraps to 0. -/
theorem erode_wraps_refuted : ∃ F f con, buildCompact 2 1 F = some (f, con) ∧ (mkChf F f con).Wf ∧
    ∃ x y i, (mkChf F f con).At x y i ∧
      (∀ bx byy b, (mkChf F f con).At bx byy b → Border (mkChf F f con) b → 100 < |(bx : Int) - x| ∨ 100 < |(byy : Int) - y|) ∧
      (mkChf F f con).area i = 63 ∧ (erode 1 (mkChf F f con)).area i = 0 := by
  obtain ⟨f, con, h0, hc, hn, hat, ha, hnb⟩ := plain_facts 260
  refine ⟨plain 260, f, con, h0, hc, 128, 127, 128 + 127 * 260, (hat _ _ _).2 ⟨by decide, by decide, rfl⟩, ?_, ha _ (by decide), ?_⟩
  · intro bx byy b hb hB
    obtain ⟨q1, q2, rfl⟩ := (hat _ _ _).1 hb
    have := (plain_border hc hat ha hnb q1 q2).1 hB
    simp only [Int.abs_eq_natAbs]
    omega
  · have hi : (mkChf (plain 260) f con).At 128 127 (128 + 127 * 260) := (hat _ _ _).2 ⟨by decide, by decide, rfl⟩
    have w := open_dist1 hc hat ha hnb _ 127 127 (by decide) (by decide) (Nat.lt_succ_self _)
    obtain ⟨e, h2, h3, h4⟩ := dist1_step hc hi
    have s1 : Src (mkChf (plain 260) f con) dirs1 (128 + 127 * 260) (127 + 127 * 260, 2) :=
      ⟨0, 3, by simp [dirs1], Or.inl ⟨_, hnb 128 127 0 127 127 (by decide) (by decide) (by decide) (by decide) (by decide) (by decide) (by decide), rfl⟩⟩
    obtain ⟨q1, q2⟩ := h4 _ s1
    have := relaxes_wrapped (128 + 127 * 260) _ e _ ((mem_srcs hc dirs1_lt hi _).2 s1) q2
    rw [q1, w] at this
    rw [← h3] at this
    have h5 := dist2_le (mkChf (plain 260) f con) (128 + 127 * 260)
    have h6 : (openDist 127 127 + 2) % 256 = 0 := by decide
    simp only at this
    rw [h6] at this
    rw [erode_area, if_pos ⟨by rw [hn]; decide, by omega⟩]

/-- **C48** (refuted in full). Radius 128 is within the documented limit (below 255) and clears nothing,
not even the border: the threshold is a uint8 and wraps to 0. -/
theorem erode_radius_refuted : (∀ c, (erode 128 c).area = c.area) ∧
    ∃ F f con, buildCompact 2 1 F = some (f, con) ∧ ∃ i < (mkChf F f con).n, Border (mkChf F f con) i ∧
      (erode 128 (mkChf F f con)).area i = 63 := by
  have h : ∀ c, (erode 128 c).area = c.area := by
    intro c
    funext i
    rw [erode_area, if_neg (by omega)]
  obtain ⟨f, con, h0, hc, hn, hat, ha, hnb⟩ := plain_facts 3
  refine ⟨h, plain 3, f, con, h0, 0 + 0 * 3, by rw [hn]; decide, ?_, ?_⟩
  · exact (plain_border hc hat ha hnb (by decide) (by decide)).2 (Or.inl rfl)
  · rw [h]; exact ha _ (by decide)

end Verif.Recast
