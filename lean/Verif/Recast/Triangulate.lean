/-
Triangulation of a contour by clipping ears: `triangulate` and its geometric tests
(recast/contour.go:785-849, recast/mesh.go:134-350).

Simplifications: an entry of `indices` is a pair of the vertex index (the low 28 bits) and the flag
0x80000000 ("this vertex can be removed"); coordinates are unbounded integers (the code's `int32` products
overflow from coordinate differences of about 2^15 on); `tris` is the list of triangles written.
-/
import Verif.Recast.Contour
import Mathlib.Tactic.Linarith

namespace Verif.Recast
open Verif Verif.Detour

set_option linter.unusedSimpArgs false

/-- `area2` (recast/contour.go:785-787). -/
def area2 (a b c : Pt) : Int := (b.x - a.x) * (c.z - a.z) - (c.x - a.x) * (b.z - a.z)

/-- `left` (recast/contour.go:799-801). -/
def left (a b c : Pt) : Bool := decide (area2 a b c < 0)

/-- `leftOn` (recast/contour.go:803-805). -/
def leftOn (a b c : Pt) : Bool := decide (area2 a b c ≤ 0)

/-- `collinear` (recast/contour.go:807-809). -/
def collinear (a b c : Pt) : Bool := decide (area2 a b c = 0)

/-- `intersectProp` (recast/contour.go:814-822). -/
def intersectProp (a b c d : Pt) : Bool :=
  if collinear a b c || collinear a b d || collinear c d a || collinear c d b then false
  else (left a b c != left a b d) && (left c d a != left c d b)

/-- `between` (recast/contour.go:826-835). -/
def between (a b c : Pt) : Bool :=
  if !collinear a b c then false
  else if a.x ≠ b.x then
    (decide (a.x ≤ c.x) && decide (c.x ≤ b.x)) || (decide (c.x ≤ a.x) && decide (b.x ≤ c.x))
  else
    (decide (a.z ≤ c.z) && decide (c.z ≤ b.z)) || (decide (c.z ≤ a.z) && decide (b.z ≤ c.z))

/-- `intersect` (recast/contour.go:838-845). -/
def intersect (a b c d : Pt) : Bool :=
  if intersectProp a b c d then true
  else if between a b c || between a b d || between c d a || between c d b then true
  else false

/-- The vertices in the order of `indices` (`verts[(indices[i]&0x0fffffff)*4:]`). -/
def pt (P : List Pt) (i : Nat) : Pt := P.getD i default

/-- `inCone5` (recast/mesh.go:136-149). -/
def inCone (P : List Pt) (i j : Nat) : Bool :=
  let pi := pt P i
  let pj := pt P j
  let pi1 := pt P (next i P.length)
  let pin1 := pt P (prev i P.length)
  if leftOn pin1 pi pi1 then left pi pj pin1 && left pj pi pi1
  else !(leftOn pi pj pi1 && leftOn pj pi pin1)

/-- `inConeLoose` (recast/mesh.go:181-194). -/
def inConeLoose (P : List Pt) (i j : Nat) : Bool :=
  let pi := pt P i
  let pj := pt P j
  let pi1 := pt P (next i P.length)
  let pin1 := pt P (prev i P.length)
  if leftOn pin1 pi pi1 then leftOn pi pj pin1 && leftOn pj pi pi1
  else !(leftOn pi pj pi1 && leftOn pj pi pin1)

/-- One edge of the loop in `diagonalie` and `diagonalieLoose` (recast/mesh.go:161-176, 333-348); `cross` is the
test for a crossing. -/
def edgeFree (cross : Pt → Pt → Pt → Pt → Bool) (P : List Pt) (i j k : Nat) : Bool :=
  let k1 := next k P.length
  if k = i ∨ k1 = i ∨ k = j ∨ k1 = j then true
  else
    let d0 := pt P i
    let d1 := pt P j
    let p0 := pt P k
    let p1 := pt P k1
    if vequal d0 p0 || vequal d1 p0 || vequal d0 p1 || vequal d1 p1 then true
    else !cross d0 d1 p0 p1

/-- `diagonalie` (recast/mesh.go:328-350). -/
def diagonalie (P : List Pt) (i j : Nat) : Bool := (List.range P.length).all (edgeFree intersect P i j)

/-- `diagonalieLoose` (recast/mesh.go:157-179). -/
def diagonalieLoose (P : List Pt) (i j : Nat) : Bool := (List.range P.length).all (edgeFree intersectProp P i j)

/-- `diagonal` (recast/mesh.go:153-155). -/
def diagonal (P : List Pt) (i j : Nat) : Bool := inCone P i j && diagonalie P i j

/-- `diagonalLoose` (recast/mesh.go:196-198). -/
def diagonalLoose (P : List Pt) (i j : Nat) : Bool := inConeLoose P i j && diagonalieLoose P i j

/-- `indices[0..n)`. -/
abbrev Ring := List (Nat × Bool)

/-- The vertices of the ring. -/
def Ring.pts (verts : Nat → Pt) (l : Ring) : List Pt := l.map fun e => verts e.1

/-- `indices[i] & 0x0fffffff`. -/
def Ring.idx (l : Ring) (i : Nat) : Nat := (l.getD i (0, false)).1

/-- `indices[i] & 0x80000000 != 0`. -/
def Ring.flag (l : Ring) (i : Nat) : Bool := (l.getD i (0, false)).2

/-- `indices[i] |= 0x80000000` or `indices[i] &= 0x0fffffff`. -/
def Ring.setFlag (l : Ring) (i : Nat) (b : Bool) : Ring := l.set i (l.idx i, b)

/-- The first loop (recast/mesh.go:205-211). -/
def markEars (verts : Nat → Pt) (l : Ring) : Ring :=
  (List.range l.length).foldl (fun l i =>
    let i1 := next i l.length
    let i2 := next i1 l.length
    if diagonal (l.pts verts) i i2 then l.setFlag i1 true else l) l

/-- The squared distance on the xz-plane (e.g. recast/mesh.go:222-224). -/
def distXZ (a b : Pt) : Int := (b.x - a.x) * (b.x - a.x) + (b.z - a.z) * (b.z - a.z)

/-- A search for the shortest cut (recast/mesh.go:214-231, 242-261): the candidates are the `i` that pass
`ok`, the length is that from `i` to `far i`. -/
def shortest (P : List Pt) (ok : Nat → Bool) (far : Nat → Nat) : Option Nat :=
  ((List.range P.length).foldl (fun (m : Int × Option Nat) i =>
    if ok i then
      let len := distXZ (pt P i) (pt P (far i))
      if m.1 < 0 ∨ len < m.1 then (len, some i) else m
    else m) (-1, none)).2

/-- The choice of the ear (recast/mesh.go:214-267): among the flagged ones, else among the loose diagonals. -/
def pickEar (verts : Nat → Pt) (l : Ring) : Option Nat :=
  let P := l.pts verts
  let n := l.length
  match shortest P (fun i => l.flag (next i n)) (fun i => next (next i n) n) with
  | some i => some i
  | none => shortest P (fun i => diagonalLoose P i (next (next i n) n)) (fun i => next (next (next i n) n) n)

/-- The ear at `i` is cut off and the flags beside it renewed (recast/mesh.go:279-300). -/
def clipEar (verts : Nat → Pt) (l : Ring) (i : Nat) : Ring :=
  let i1 := next i l.length
  let l := l.eraseIdx i1
  let n := l.length
  let i1 := if n ≤ i1 then 0 else i1
  let i := prev i1 n
  let l : Ring := Ring.setFlag l i (diagonal (Ring.pts verts l) (prev i n) i1)
  l.setFlag i1 (diagonal (l.pts verts) i (next i1 n))

/-- A triangle: three vertex indices. -/
abbrev Tri3 := Nat × Nat × Nat

/-- The triangle at the ear (recast/mesh.go:270-276, 304-307). -/
def earTri (l : Ring) (i : Nat) : Tri3 :=
  (l.idx i, l.idx (next i l.length), l.idx (next (next i l.length) l.length))

/-- The second loop and the last triangle (recast/mesh.go:213-309): whether it ran to its end, and the
triangles. With fewer than three entries the code reads past them; `none`. -/
def triLoop (verts : Nat → Pt) : Nat → Ring → List Tri3 → Option (Bool × List Tri3)
  | fuel, l, out =>
    if 3 < l.length then
      match fuel with
      | 0 => none
      | fuel + 1 =>
        match pickEar verts l with
        | none => some (false, out)
        | some i => triLoop verts fuel (clipEar verts l i) (out ++ [earTri l i])
    else if l.length < 3 then none
    else some (true, out ++ [earTri l 0])

/-- `triangulate` (recast/mesh.go:200-310) on the indices of `l`: `(true, ts)` is the result `ntris = ts.length`,
`(false, ts)` is `-ts.length`. -/
def triangulate (verts : Nat → Pt) (l : List Nat) : Option (Bool × List Tri3) :=
  triLoop verts l.length (markEars verts (l.map fun i => (i, false))) []

/-! ## Spec: what the triangles add up to -/

/-- The sum of `f` over the edges of the path `j, l`. -/
def edgeSum {α : Type} (f : α → α → Int) (j : α) : List α → Int
  | [] => 0
  | i :: l => f j i + edgeSum f i l

/-- The sum of `f` over the edges of the closed polygon `l`. -/
def loopSum {α : Type} (f : α → α → Int) : List α → Int
  | [] => 0
  | a :: l => edgeSum f a (l ++ [a])

/-- The sum of `f` over the edges of all triangles. -/
def triSum (f : Nat → Nat → Int) : List Tri3 → Int
  | [] => 0
  | t :: ts => (f t.1 t.2.1 + f t.2.1 t.2.2 + f t.2.2 t.1) + triSum f ts

theorem edgeSum_append {α : Type} (f : α → α → Int) (j : α) (A B : List α) :
    edgeSum f j (A ++ B) = edgeSum f j A + edgeSum f (A.getLastD j) B := by
  induction A generalizing j with
  | nil => simp [edgeSum]
  | cons a A ih =>
    rw [List.cons_append, edgeSum, edgeSum, ih]
    have : (a :: A).getLastD j = A.getLastD a := by cases A <;> simp [List.getLastD]
    rw [this, add_assoc]

theorem triSum_append (f : Nat → Nat → Int) (a b : List Tri3) : triSum f (a ++ b) = triSum f a + triSum f b := by
  induction a with
  | nil => simp [triSum]
  | cons t a ih => rw [List.cons_append, triSum, triSum, ih]; ring

theorem getLastD_concat {α : Type} (A : List α) (a j : α) : (A ++ [a]).getLastD j = a := by
  rw [List.getLastD_eq_getLast?]; simp

/-- Cutting off the vertex at place `k` changes the sum by the edges of the triangle. -/
theorem loopSum_erase {α : Type} [Inhabited α] (f : α → α → Int) (hf : ∀ a b, f a b = -f b a) (l : List α) (i : Nat)
    (hn : 3 < l.length) (hi : i < l.length) (d : α) :
    loopSum f l = loopSum f (l.eraseIdx (next i l.length)) +
      (f (l.getD i d) (l.getD (next i l.length) d) +
        f (l.getD (next i l.length) d) (l.getD (next (next i l.length) l.length) d) +
        f (l.getD (next (next i l.length) l.length) d) (l.getD i d)) := by
  by_cases h1 : i + 1 < l.length
  · by_cases h2 : i + 2 < l.length
    · -- in the middle
      have e1 : next i l.length = i + 1 := by simp [next, h1]
      have e2 : next (i + 1) l.length = i + 2 := by simp [next, h2]
      rw [e1, e2]
      have hl : l = l.take i ++ l.getD i d :: l.getD (i + 1) d :: l.getD (i + 2) d :: l.drop (i + 3) := by
        conv_lhs => rw [← List.take_append_drop i l]
        rw [List.drop_eq_getElem_cons hi, List.drop_eq_getElem_cons h1, List.drop_eq_getElem_cons h2]
        simp [List.getD_eq_getElem?_getD, hi, h1, h2]
      have he : l.eraseIdx (i + 1) = l.take i ++ l.getD i d :: l.getD (i + 2) d :: l.drop (i + 3) := by
        conv_lhs => rw [hl]
        rw [List.eraseIdx_append_of_length_le (by rw [List.length_take]; omega)]
        have : i + 1 - (l.take i).length = 1 := by rw [List.length_take]; omega
        rw [this]
        rfl
      generalize l.getD i d = a at hl he ⊢
      generalize l.getD (i + 1) d = b at hl he ⊢
      generalize l.getD (i + 2) d = c at hl he ⊢
      generalize l.take i = A at hl he
      generalize l.drop (i + 3) = C at hl he
      rw [he, hl]
      cases A with
      | nil =>
        simp only [List.nil_append, loopSum, List.cons_append, edgeSum, edgeSum_append]
        rw [hf c a]; ring
      | cons x A =>
        simp only [List.cons_append, loopSum, List.append_assoc, edgeSum, edgeSum_append]
        rw [hf c a]; ring
    · -- the last vertex goes
      have e0 : l.length = i + 2 := by omega
      have e1 : next i l.length = i + 1 := by simp [next, h1]
      have e2 : next (i + 1) l.length = 0 := by simp [next, e0]
      rw [e1, e2]
      obtain ⟨x, l', rfl⟩ : ∃ x l', l = x :: l' := by
        cases l with
        | nil => simp at hn
        | cons x l' => exact ⟨x, l', rfl⟩
      obtain ⟨i, rfl⟩ : ∃ k, i = k + 1 := ⟨i - 1, by simp only [List.length_cons] at e0 hn; omega⟩
      simp only [List.length_cons] at e0 hn h1 hi
      have hl : l' = l'.take i ++ [l'.getD i d, l'.getD (i + 1) d] := by
        conv_lhs => rw [← List.take_append_drop i l']
        rw [List.drop_eq_getElem_cons (by omega), List.drop_eq_getElem_cons (by omega), List.drop_eq_nil_of_le (by omega)]
        have : i < l'.length := by omega
        have h' : i + 1 < l'.length := by omega
        simp [List.getD_eq_getElem?_getD, this, h']
      have he : l'.eraseIdx (i + 1) = l'.take i ++ [l'.getD i d] := by
        conv_lhs => rw [hl]
        rw [List.eraseIdx_append_of_length_le (by rw [List.length_take]; omega)]
        have : i + 1 - (l'.take i).length = 1 := by rw [List.length_take]; omega
        rw [this]
        rfl
      simp only [List.eraseIdx_cons_succ, List.getD_cons_succ, List.getD_cons_zero]
      generalize l'.getD i d = a at hl he ⊢
      generalize l'.getD (i + 1) d = b at hl he ⊢
      generalize l'.take i = A at hl he
      rw [he, hl]
      simp only [List.cons_append, loopSum, List.append_assoc, edgeSum, edgeSum_append, List.nil_append]
      rw [hf x a]; ring
  · -- the first vertex goes
    have e0 : l.length = i + 1 := by omega
    have e1 : next i l.length = 0 := by simp [next, e0]
    have e2 : next 0 l.length = 1 := by simp [next]; omega
    rw [e1, e2]
    obtain ⟨x, y, l', rfl⟩ : ∃ x y l', l = x :: y :: l' := by
      match l with
      | [] => simp at hn
      | [_] => simp at hn
      | x :: y :: l' => exact ⟨x, y, l', rfl⟩
    simp only [List.length_cons] at e0 hn
    obtain ⟨i, rfl⟩ : ∃ k, i = k + 2 := ⟨i - 2, by omega⟩
    have hl : l' = l'.take i ++ [l'.getD i d] := by
      conv_lhs => rw [← List.take_append_drop i l']
      rw [List.drop_eq_getElem_cons (by omega), List.drop_eq_nil_of_le (by omega)]
      have : i < l'.length := by omega
      simp [List.getD_eq_getElem?_getD, this]
    simp only [List.eraseIdx_cons_zero, List.getD_cons_succ, List.getD_cons_zero]
    generalize l'.getD i d = a at hl ⊢
    generalize l'.take i = A at hl
    rw [hl]
    simp only [List.cons_append, loopSum, List.append_assoc, edgeSum, edgeSum_append, List.nil_append]
    rw [hf a y]; ring

/-! ## The loop -/

theorem shortest_lt {P : List Pt} {ok : Nat → Bool} {far : Nat → Nat} {i : Nat} (h : shortest P ok far = some i) :
    i < P.length ∧ ok i = true := by
  have key : ∀ (ks : List Nat) (m : Int × Option Nat),
      (∀ i, m.2 = some i → i < P.length ∧ ok i = true) → (∀ k ∈ ks, k < P.length) →
      ∀ i, (ks.foldl (fun (m : Int × Option Nat) i =>
        if ok i then
          let len := distXZ (pt P i) (pt P (far i))
          if m.1 < 0 ∨ len < m.1 then (len, some i) else m
        else m) m).2 = some i → i < P.length ∧ ok i = true := by
    intro ks
    induction ks with
    | nil => intro m hm _ i hi; exact hm i hi
    | cons k ks ih =>
      intro m hm hk i hi
      rw [List.foldl_cons] at hi
      refine ih _ ?_ (fun k' hk' => hk k' (List.mem_cons_of_mem _ hk')) i hi
      intro j hj
      by_cases ho : ok k = true
      · rw [if_pos ho] at hj
        dsimp only at hj
        split at hj
        · simp only [Option.some.injEq] at hj
          subst hj
          exact ⟨hk k (List.mem_cons_self ..), ho⟩
        · exact hm j hj
      · rw [if_neg ho] at hj
        exact hm j hj
  exact key _ _ (by simp) (fun k hk => List.mem_range.1 hk) i h

theorem pickEar_lt {verts : Nat → Pt} {l : Ring} {i : Nat} (h : pickEar verts l = some i) : i < l.length := by
  have hl : (l.pts verts).length = l.length := by simp [Ring.pts]
  unfold pickEar at h
  dsimp only at h
  split at h
  · rename_i j hj
    simp only [Option.some.injEq] at h
    subst h
    have := (shortest_lt hj).1
    omega
  · have := (shortest_lt h).1
    omega

/-- The indices of a ring, without the flags. -/
def Ring.ids (l : Ring) : List Nat := l.map Prod.fst

theorem setFlag_ids (l : Ring) (i : Nat) (b : Bool) : (l.setFlag i b).ids = l.ids := by
  unfold Ring.setFlag Ring.ids Ring.idx
  by_cases h : i < l.length
  · apply List.ext_getElem (by simp)
    intro k h1 h2
    simp only [List.getElem_map, List.getElem_set]
    split
    · rename_i e; subst e; simp [List.getD_eq_getElem?_getD, h]
    · rfl
  · rw [List.set_eq_of_length_le (by omega)]

theorem idx_ids (l : Ring) (i : Nat) : l.idx i = l.ids.getD i 0 := by
  unfold Ring.idx Ring.ids
  by_cases h : i < l.length
  · simp [List.getD_eq_getElem?_getD, h]
  · simp [List.getD_eq_getElem?_getD, h]

theorem length_ids (l : Ring) : l.ids.length = l.length := by simp [Ring.ids]

theorem clipEar_ids (verts : Nat → Pt) (l : Ring) (i : Nat) : (clipEar verts l i).ids = l.ids.eraseIdx (next i l.length) := by
  unfold clipEar
  dsimp only
  rw [setFlag_ids, setFlag_ids]
  unfold Ring.ids
  rw [List.eraseIdx_map]

theorem markEars_ids (verts : Nat → Pt) (l : Ring) : (markEars verts l).ids = l.ids := by
  unfold markEars
  have key : ∀ (ks : List Nat) (l : Ring), (ks.foldl (fun (l : Ring) i =>
    let i1 := next i l.length
    let i2 := next i1 l.length
    if diagonal (l.pts verts) i i2 then l.setFlag i1 true else l) l).ids = l.ids := by
    intro ks
    induction ks with
    | nil => intro l; rfl
    | cons k ks ih =>
      intro l
      rw [List.foldl_cons, ih]
      dsimp only
      split
      · exact setFlag_ids ..
      · rfl
  exact key _ _

/-- What the loop adds to the triangles. -/
structure Clipped (ids : List Nat) (done : Bool) (ts : List Tri3) : Prop where
  own : ∀ t ∈ ts, t.1 ∈ ids ∧ t.2.1 ∈ ids ∧ t.2.2 ∈ ids
  full : done = true → ts.length + 2 = ids.length ∧ ∀ f : Nat → Nat → Int, (∀ a b, f a b = -f b a) → triSum f ts = loopSum f ids
  stuck : done = false → ts.length + 3 < ids.length ∧ ∃ rest : List Nat, rest.Sublist ids ∧ rest.length + ts.length = ids.length ∧
    ∀ f : Nat → Nat → Int, (∀ a b, f a b = -f b a) → triSum f ts + loopSum f rest = loopSum f ids

theorem earTri_own {l : Ring} (hn : 0 < l.length) {i : Nat} (hi : i < l.length) :
    (earTri l i).1 ∈ l.ids ∧ (earTri l i).2.1 ∈ l.ids ∧ (earTri l i).2.2 ∈ l.ids := by
  have mem : ∀ k, k < l.length → l.idx k ∈ l.ids := by
    intro k hk
    rw [idx_ids, List.getD_eq_getElem?_getD, List.getElem?_eq_getElem (by rw [length_ids]; exact hk)]
    exact List.getElem_mem _
  have hnx : ∀ k, k < l.length → next k l.length < l.length := by intro k hk; unfold next; split <;> omega
  exact ⟨mem _ hi, mem _ (hnx _ hi), mem _ (hnx _ (hnx _ hi))⟩

theorem triLoop_spec (verts : Nat → Pt) (fuel : Nat) : ∀ (l : Ring) (out : List Tri3), 3 ≤ l.length → l.length ≤ fuel + 3 →
    ∃ done ts, triLoop verts fuel l out = some (done, out ++ ts) ∧ Clipped l.ids done ts := by
  induction fuel with
  | zero =>
    intro l out h3 hf
    have e : l.length = 3 := by omega
    refine ⟨true, [earTri l 0], ?_, ?_, ?_, by simp⟩
    · rw [triLoop, if_neg (by omega), if_neg (by omega)]
    · intro t ht
      rw [List.mem_singleton.1 ht]
      exact earTri_own (by omega) (by omega)
    · intro _
      refine ⟨by rw [length_ids, e]; rfl, ?_⟩
      intro f hf'
      match l, e with
      | [a, b, c], _ => simp [triSum, loopSum, edgeSum, earTri, Ring.idx, Ring.ids, next]; ring
  | succ fuel ih =>
    intro l out h3 hf
    by_cases h4 : 3 < l.length
    · rw [triLoop, if_pos h4]
      cases hp : pickEar verts l with
      | none =>
        refine ⟨false, [], by simp, by simp, by simp, ?_⟩
        intro _
        rw [length_ids]
        exact ⟨by simpa using h4, l.ids, List.Sublist.refl _, by rw [length_ids]; simp, by intro f _; simp [triSum]⟩
      | some i =>
        dsimp only
        have hi := pickEar_lt hp
        have hids := clipEar_ids verts l i
        have hnx : next i l.length < l.length := by unfold next; split <;> omega
        have hlen : (clipEar verts l i).length = l.length - 1 := by
          rw [← length_ids, hids, List.length_eraseIdx, length_ids, if_pos hnx]
        obtain ⟨done, ts, he, hc⟩ := ih (clipEar verts l i) (out ++ [earTri l i]) (by omega) (by omega)
        have hsum : ∀ f : Nat → Nat → Int, (∀ a b, f a b = -f b a) →
            loopSum f l.ids = loopSum f (clipEar verts l i).ids + triSum f [earTri l i] := by
          intro f hf'
          have := loopSum_erase f hf' l.ids i (by rw [length_ids]; exact h4) (by rw [length_ids]; exact hi) 0
          rw [length_ids] at this
          rw [this, hids]
          simp only [triSum, earTri, idx_ids, add_zero]
        refine ⟨done, earTri l i :: ts, by rw [he]; simp, ?_, ?_, ?_⟩
        · intro t ht
          rcases List.mem_cons.1 ht with rfl | ht
          · exact earTri_own (by omega) hi
          · obtain ⟨a, b, c⟩ := hc.own t ht
            rw [hids] at a b c
            exact ⟨List.mem_of_mem_eraseIdx a, List.mem_of_mem_eraseIdx b, List.mem_of_mem_eraseIdx c⟩
        · intro hd
          obtain ⟨h1, h2⟩ := hc.full hd
          rw [length_ids, hlen] at h1
          refine ⟨by rw [length_ids, List.length_cons]; omega, ?_⟩
          intro f hf'
          rw [hsum f hf', ← h2 f hf']
          simp only [triSum]; ring
        · intro hd
          obtain ⟨h1, rest, h2, h3', h4'⟩ := hc.stuck hd
          rw [length_ids, hlen] at h1 h3'
          refine ⟨by rw [length_ids, List.length_cons]; omega, rest, ?_, by rw [length_ids, List.length_cons]; omega, ?_⟩
          · rw [hids] at h2; exact h2.trans (List.eraseIdx_sublist ..)
          · intro f hf'
            rw [hsum f hf', ← h4' f hf']
            simp only [triSum]; ring
    · have e : l.length = 3 := by omega
      refine ⟨true, [earTri l 0], ?_, ?_, ?_, by simp⟩
      · rw [triLoop, if_neg (by omega), if_neg (by omega)]
      · intro t ht
        rw [List.mem_singleton.1 ht]
        exact earTri_own (by omega) (by omega)
      · intro _
        refine ⟨by rw [length_ids, e]; rfl, ?_⟩
        intro f hf'
        match l, e with
        | [a, b, c], _ => simp [triSum, loopSum, edgeSum, earTri, Ring.idx, Ring.ids, next]; ring

theorem triangulate_clipped (verts : Nat → Pt) (l : List Nat) (h : 3 ≤ l.length) :
    ∃ done ts, triangulate verts l = some (done, ts) ∧ Clipped l done ts := by
  have hids : (markEars verts (l.map fun i => (i, false))).ids = l := by
    rw [markEars_ids]
    simp [Ring.ids, Function.comp_def]
  have hlen : (markEars verts (l.map fun i => (i, false))).length = l.length := by rw [← length_ids, hids]
  obtain ⟨done, ts, he, hc⟩ := triLoop_spec verts l.length (markEars verts (l.map fun i => (i, false))) [] (by omega) (by omega)
  rw [hids] at hc
  exact ⟨done, ts, he, hc⟩

/-- Twice the signed area of a triangle, as a closed contour of three vertices. -/
def triArea (verts : Nat → Pt) (t : Tri3) : Int := area2D [verts t.1, verts t.2.1, verts t.2.2]

/-- The term of the area sum. -/
def crossTerm (j i : Pt) : Int := i.x * j.z - j.x * i.z

theorem crossSum_eq (j : Pt) (l : List Pt) : crossSum j l = edgeSum crossTerm j l := by
  induction l generalizing j with
  | nil => rfl
  | cons i l ih => rw [crossSum, edgeSum, ih]; rfl

theorem area2D_eq (l : List Pt) : area2D l = loopSum crossTerm l := by
  unfold area2D
  rw [crossSum_eq]
  cases l with
  | nil => rfl
  | cons a l =>
    rw [loopSum, edgeSum_append, edgeSum, edgeSum, edgeSum]
    have : (a :: l).getLastD default = l.getLastD a := by cases l <;> simp [List.getLastD]
    rw [this]; ring

theorem edgeSum_map {α β : Type} (g : α → β) (f : β → β → Int) (j : α) (l : List α) :
    edgeSum f (g j) (l.map g) = edgeSum (fun a b => f (g a) (g b)) j l := by
  induction l generalizing j with
  | nil => rfl
  | cons i l ih => rw [List.map_cons, edgeSum, edgeSum, ih]

theorem loopSum_map {α β : Type} (g : α → β) (f : β → β → Int) (l : List α) :
    loopSum f (l.map g) = loopSum (fun a b => f (g a) (g b)) l := by
  cases l with
  | nil => rfl
  | cons a l => rw [List.map_cons, loopSum, loopSum, ← edgeSum_map g f a (l ++ [a])]; simp

theorem triSum_area (verts : Nat → Pt) (ts : List Tri3) :
    triSum (fun a b => crossTerm (verts a) (verts b)) ts = (ts.map (triArea verts)).sum := by
  induction ts with
  | nil => rfl
  | cons t ts ih =>
    rw [triSum, ih, List.map_cons, List.sum_cons, triArea, area2D_eq]
    simp [loopSum, edgeSum]; ring

/-- **C57**: `triangulate` on a polygon of three or more vertices either finishes, then it yields `n - 2`
triangles, or it gets stuck, then it yields fewer. In both cases the triangles use the polygon's own
vertices. It never fails otherwise. -/
theorem triangulate_count (verts : Nat → Pt) (l : List Nat) (h : 3 ≤ l.length) :
    ∃ done ts, triangulate verts l = some (done, ts) ∧ (∀ t ∈ ts, t.1 ∈ l ∧ t.2.1 ∈ l ∧ t.2.2 ∈ l) ∧
      (done = true → ts.length = l.length - 2) ∧ (done = false → ts.length < l.length - 2) := by
  obtain ⟨done, ts, he, hc⟩ := triangulate_clipped verts l h
  refine ⟨done, ts, he, hc.own, fun hd => ?_, fun hd => ?_⟩
  · have := (hc.full hd).1; omega
  · have := (hc.stuck hd).1; omega

/-- **C57**: if it finishes, the triangles' signed areas add up to the polygon's signed area. -/
theorem triangulate_area (verts : Nat → Pt) (l : List Nat) (h : 3 ≤ l.length) (ts : List Tri3)
    (ht : triangulate verts l = some (true, ts)) :
    (ts.map (triArea verts)).sum = area2D (l.map verts) := by
  obtain ⟨done, ts', he, hc⟩ := triangulate_clipped verts l h
  rw [ht] at he
  simp only [Option.some.injEq, Prod.mk.injEq] at he
  obtain ⟨rfl, rfl⟩ := he
  have := (hc.full rfl).2 (fun a b => crossTerm (verts a) (verts b)) (by intro a b; simp [crossTerm])
  rw [triSum_area] at this
  rw [this, area2D_eq, loopSum_map]

/-- **C57**: the triangles fit together: every directed edge between two vertices is used by the triangles as
often as its reverse, but for the edges of the polygon. (In the form: a quantity that changes sign when an
edge is reversed has the same sum over the edges of the triangles as over the edges of the polygon.) -/
theorem triangulate_boundary (verts : Nat → Pt) (l : List Nat) (h : 3 ≤ l.length) (ts : List Tri3)
    (ht : triangulate verts l = some (true, ts)) (f : Nat → Nat → Int) (hf : ∀ a b, f a b = -f b a) :
    triSum f ts = loopSum f l := by
  obtain ⟨done, ts', he, hc⟩ := triangulate_clipped verts l h
  rw [ht] at he
  simp only [Option.some.injEq, Prod.mk.injEq] at he
  obtain ⟨rfl, rfl⟩ := he
  exact (hc.full rfl).2 f hf

/-! ## Convex polygons -/

/-- Spec: a strictly convex polygon, in the orientation of the contours. -/
def ConvexPoly (P : List Pt) : Prop :=
  ∀ i j k, i < j → j < k → k < P.length → area2 (pt P i) (pt P j) (pt P k) < 0

theorem area2_rot (a b c : Pt) : area2 a b c = area2 b c a := by unfold area2; ring

theorem area2_swap (a b c : Pt) : area2 a b c = -area2 b a c := by unfold area2; ring

theorem ConvexPoly.cyc {P : List Pt} (h : ConvexPoly P) {a b c : Nat} (ha : a < P.length) (hb : b < P.length) (hc : c < P.length)
    (ho : (a < b ∧ b < c) ∨ (b < c ∧ c < a) ∨ (c < a ∧ a < b)) : area2 (pt P a) (pt P b) (pt P c) < 0 := by
  rcases ho with ⟨h1, h2⟩ | ⟨h1, h2⟩ | ⟨h1, h2⟩
  · exact h a b c h1 h2 hc
  · rw [area2_rot]; exact h b c a h1 h2 ha
  · rw [area2_rot, area2_rot]; exact h c a b h1 h2 hb

theorem diagonal_convex {P : List Pt} (h : ConvexPoly P) (hn : 3 < P.length) {i : Nat} (hi : i < P.length) :
    diagonal P i (next (next i P.length) P.length) = true := by
  have hcyc : ∀ {a b c : Nat}, a < P.length → b < P.length → c < P.length →
    ((a < b ∧ b < c) ∨ (b < c ∧ c < a) ∨ (c < a ∧ a < b)) → area2 (pt P a) (pt P b) (pt P c) < 0 := fun ha hb hc ho => h.cyc ha hb hc ho
  have h1 : next i P.length < P.length ∧ (next i P.length = i + 1 ∧ i + 1 < P.length ∨ next i P.length = 0 ∧ i + 1 = P.length) := by
    unfold next; split <;> omega
  generalize e1 : next i P.length = i1 at h1
  have h2 : next i1 P.length < P.length ∧ (next i1 P.length = i1 + 1 ∧ i1 + 1 < P.length ∨ next i1 P.length = 0 ∧ i1 + 1 = P.length) := by
    unfold next; split <;> omega
  generalize next i1 P.length = i2 at h2
  have h0 : prev i P.length < P.length ∧ (prev i P.length + 1 = i ∨ prev i P.length + 1 = P.length ∧ i = 0) := by
    unfold prev; split <;> omega
  unfold diagonal
  rw [Bool.and_eq_true]
  constructor
  · unfold inCone
    rw [e1]
    generalize prev i P.length = im at h0
    dsimp only
    rw [if_pos (by simp only [leftOn, decide_eq_true_eq]; exact le_of_lt (hcyc (by omega) hi (by omega) (by omega)))]
    rw [Bool.and_eq_true]
    simp only [left, decide_eq_true_eq]
    exact ⟨hcyc hi (by omega) (by omega) (by omega), hcyc (by omega) hi (by omega) (by omega)⟩
  · unfold diagonalie
    rw [List.all_eq_true]
    intro k hk
    rw [List.mem_range] at hk
    unfold edgeFree
    dsimp only
    have h3 : next k P.length < P.length ∧ (next k P.length = k + 1 ∧ k + 1 < P.length ∨ next k P.length = 0 ∧ k + 1 = P.length) := by
      unfold next; split <;> omega
    generalize next k P.length = k1 at h3
    split
    · rfl
    · rename_i hne
      split
      · rfl
      · have a1 : area2 (pt P i) (pt P i2) (pt P k) < 0 := hcyc hi (by omega) hk (by omega)
        have a2 : area2 (pt P i) (pt P i2) (pt P k1) < 0 := hcyc hi (by omega) (by omega) (by omega)
        have a3 : area2 (pt P k) (pt P k1) (pt P i) < 0 := hcyc hk (by omega) hi (by omega)
        have a4 : area2 (pt P k) (pt P k1) (pt P i2) < 0 := hcyc hk (by omega) (by omega) (by omega)
        have n1 : collinear (pt P i) (pt P i2) (pt P k) = false := by simp only [collinear, decide_eq_false_iff_not]; omega
        have n2 : collinear (pt P i) (pt P i2) (pt P k1) = false := by simp only [collinear, decide_eq_false_iff_not]; omega
        have n3 : collinear (pt P k) (pt P k1) (pt P i) = false := by simp only [collinear, decide_eq_false_iff_not]; omega
        have n4 : collinear (pt P k) (pt P k1) (pt P i2) = false := by simp only [collinear, decide_eq_false_iff_not]; omega
        have l1 : left (pt P i) (pt P i2) (pt P k) = true := by simpa [left] using a1
        have l2 : left (pt P i) (pt P i2) (pt P k1) = true := by simpa [left] using a2
        simp [intersect, intersectProp, between, n1, n2, n3, n4, l1, l2]

theorem shortest_some {P : List Pt} {ok : Nat → Bool} {far : Nat → Nat} (h : ∃ i < P.length, ok i = true) :
    ∃ i, shortest P ok far = some i := by
  have key : ∀ (ks : List Nat) (m : Int × Option Nat), (m.1 < 0 ∨ m.2.isSome = true) →
      ((∃ i ∈ ks, ok i = true) ∨ m.2.isSome = true) →
      (ks.foldl (fun (m : Int × Option Nat) i =>
        if ok i then
          let len := distXZ (pt P i) (pt P (far i))
          if m.1 < 0 ∨ len < m.1 then (len, some i) else m
        else m) m).2.isSome = true := by
    intro ks
    induction ks with
    | nil => intro m _ h; simpa using h
    | cons k ks ih =>
      intro m hm hk
      rw [List.foldl_cons]
      by_cases ho : ok k = true
      · rw [if_pos ho]
        dsimp only
        split
        · exact ih _ (Or.inr rfl) (Or.inr rfl)
        · rename_i hc
          have : m.2.isSome = true := by
            rcases hm with hm | hm
            · exact absurd (Or.inl hm) hc
            · exact hm
          exact ih _ (Or.inr this) (Or.inr this)
      · rw [if_neg ho]
        refine ih _ hm ?_
        rcases hk with ⟨i, hi, hi'⟩ | hk
        · rcases List.mem_cons.1 hi with rfl | hi
          · exact absurd hi' ho
          · exact Or.inl ⟨i, hi, hi'⟩
        · exact Or.inr hk
  obtain ⟨i, hi, ho⟩ := h
  have := key (List.range P.length) (-1, none) (Or.inl (by decide)) (Or.inl ⟨i, List.mem_range.2 hi, ho⟩)
  exact Option.isSome_iff_exists.1 this

theorem pts_ids (verts : Nat → Pt) (l : Ring) : l.pts verts = l.ids.map verts := by
  simp [Ring.pts, Ring.ids, Function.comp_def]

theorem pt_erase (P : List Pt) (m k : Nat) : pt (P.eraseIdx m) k = if k < m then pt P k else pt P (k + 1) := by
  unfold pt
  exact getD_eraseIdx P m k

theorem ConvexPoly.erase {P : List Pt} (h : ConvexPoly P) (m : Nat) : ConvexPoly (P.eraseIdx m) := by
  intro i j k hij hjk hk
  rw [List.length_eraseIdx] at hk
  rw [pt_erase, pt_erase, pt_erase]
  split at hk
  · split <;> split <;> split <;> first | omega | exact h _ _ _ (by omega) (by omega) (by omega)
  · rw [if_pos (by omega), if_pos (by omega), if_pos (by omega)]
    exact h _ _ _ hij hjk hk

/-- All flags set. -/
def Ring.AllEars (l : Ring) : Prop := ∀ e ∈ l, e.2 = true

theorem setFlag_true {l : Ring} (h : l.AllEars) (i : Nat) : (l.setFlag i true).AllEars := by
  intro e he
  unfold Ring.setFlag at he
  rcases List.mem_or_eq_of_mem_set he with he | rfl
  · exact h e he
  · rfl

theorem setFlag_pts (verts : Nat → Pt) (l : Ring) (i : Nat) (b : Bool) : (l.setFlag i b).pts verts = l.pts verts := by
  rw [pts_ids, pts_ids, setFlag_ids]

theorem setFlag_length (l : Ring) (i : Nat) (b : Bool) : (l.setFlag i b).length = l.length := by
  simp [Ring.setFlag]

theorem length_pts (verts : Nat → Pt) (l : Ring) : (l.pts verts).length = l.length := by simp [Ring.pts]

theorem next_prev {i n : Nat} (h : i < n) : next (prev i n) n = i := by
  unfold next prev
  split <;> split <;> omega

theorem clipEar_ears {verts : Nat → Pt} {l : Ring} (hc : ConvexPoly (l.pts verts)) (he : l.AllEars) (hn : 4 < l.length)
    {i : Nat} (hi : i < l.length) : (clipEar verts l i).AllEars := by
  unfold clipEar
  dsimp only
  have hnx : next i l.length < l.length := by unfold next; split <;> omega
  generalize hm : next i l.length = m at hnx
  have hlen : (l.eraseIdx m).length = l.length - 1 := by rw [List.length_eraseIdx, if_pos hnx]
  have hc' : ConvexPoly (Ring.pts verts (l.eraseIdx m)) := by
    have : Ring.pts verts (l.eraseIdx m) = (l.pts verts).eraseIdx m := by
      unfold Ring.pts; rw [List.eraseIdx_map]
    rw [this]; exact hc.erase m
  have he' : Ring.AllEars (l.eraseIdx m) := fun e h => he e (List.mem_of_mem_eraseIdx h)
  have hi1 : (if (l.eraseIdx m).length ≤ m then 0 else m) < (l.eraseIdx m).length := by split <;> omega
  generalize (if (l.eraseIdx m).length ≤ m then 0 else m) = i1 at hi1
  generalize hr : l.eraseIdx m = r at hlen hc' he' hi1 ⊢
  have hp := length_pts verts r
  have hpr : ∀ k, k < r.length → prev k r.length < r.length := by intro k hk; unfold prev; split <;> omega
  have d1 : diagonal (Ring.pts verts r) (prev (prev i1 r.length) r.length) i1 = true := by
    have := diagonal_convex hc' (by omega) (i := prev (prev i1 r.length) r.length) (by rw [hp]; exact hpr _ (hpr _ hi1))
    rw [hp, next_prev (hpr _ hi1), next_prev hi1] at this
    exact this
  have d2 : diagonal (Ring.pts verts r) (prev i1 r.length) (next i1 r.length) = true := by
    have := diagonal_convex hc' (by omega) (i := prev i1 r.length) (by rw [hp]; exact hpr _ hi1)
    rw [hp, next_prev hi1] at this
    exact this
  rw [setFlag_pts, d1, d2]
  exact setFlag_true (setFlag_true he' _) _

theorem pt_pts (verts : Nat → Pt) (l : Ring) {i : Nat} (hi : i < l.length) : verts (l.idx i) = pt (l.pts verts) i := by
  unfold Ring.idx pt Ring.pts
  simp [List.getD_eq_getElem?_getD, hi]

theorem earTri_convex {verts : Nat → Pt} {l : Ring} (hc : ConvexPoly (l.pts verts)) (hn : 3 ≤ l.length) {i : Nat} (hi : i < l.length) :
    area2 (verts (earTri l i).1) (verts (earTri l i).2.1) (verts (earTri l i).2.2) < 0 := by
  have hp := length_pts verts l
  have h1 : next i l.length < l.length ∧ (next i l.length = i + 1 ∧ i + 1 < l.length ∨ next i l.length = 0 ∧ i + 1 = l.length) := by
    unfold next; split <;> omega
  unfold earTri
  dsimp only
  generalize next i l.length = i1 at h1
  have h2 : next i1 l.length < l.length ∧ (next i1 l.length = i1 + 1 ∧ i1 + 1 < l.length ∨ next i1 l.length = 0 ∧ i1 + 1 = l.length) := by
    unfold next; split <;> omega
  generalize next i1 l.length = i2 at h2
  rw [pt_pts verts l hi, pt_pts verts l h1.1, pt_pts verts l h2.1]
  exact hc.cyc (by omega) (by omega) (by omega) (by omega)

theorem triLoop_convex (verts : Nat → Pt) (fuel : Nat) : ∀ (l : Ring) (out : List Tri3), 3 ≤ l.length → l.length ≤ fuel + 3 →
    ConvexPoly (l.pts verts) → (3 < l.length → l.AllEars) →
    ∃ ts, triLoop verts fuel l out = some (true, out ++ ts) ∧
      ∀ t ∈ ts, area2 (verts t.1) (verts t.2.1) (verts t.2.2) < 0 := by
  induction fuel with
  | zero =>
    intro l out h3 hf hc _
    refine ⟨[earTri l 0], ?_, ?_⟩
    · rw [triLoop, if_neg (by omega), if_neg (by omega)]
    · intro t ht
      rw [List.mem_singleton.1 ht]
      exact earTri_convex hc h3 (by omega)
  | succ fuel ih =>
    intro l out h3 hf hc he
    by_cases h4 : 3 < l.length
    · rw [triLoop, if_pos h4]
      have hpick : ∃ i, pickEar verts l = some i := by
        obtain ⟨i, hi⟩ := shortest_some (P := l.pts verts) (ok := fun i => l.flag (next i l.length))
          (far := fun i => next (next i l.length) l.length)
          ⟨0, by rw [length_pts]; omega, by
            have h1 : next 0 l.length < l.length := by unfold next; split <;> omega
            have := he h4 _ (List.getElem_mem h1)
            simp only [Ring.flag, List.getD_eq_getElem?_getD, List.getElem?_eq_getElem h1, Option.getD_some]
            exact this⟩
        refine ⟨i, ?_⟩
        unfold pickEar
        dsimp only
        rw [hi]
      obtain ⟨i, hp⟩ := hpick
      have hi := pickEar_lt hp
      have hnx : next i l.length < l.length := by unfold next; split <;> omega
      have hids := clipEar_ids verts l i
      have hlen : (clipEar verts l i).length = l.length - 1 := by
        rw [← length_ids, hids, List.length_eraseIdx, length_ids, if_pos hnx]
      have hc' : ConvexPoly ((clipEar verts l i).pts verts) := by
        rw [pts_ids, hids, ← List.eraseIdx_map, ← pts_ids]
        exact hc.erase _
      rw [hp]
      dsimp only
      obtain ⟨ts, h1, h2⟩ := ih (clipEar verts l i) (out ++ [earTri l i]) (by omega) (by omega) hc'
        (fun h5 => clipEar_ears hc (he h4) (by omega) hi)
      refine ⟨earTri l i :: ts, by rw [h1]; simp, ?_⟩
      intro t ht
      rcases List.mem_cons.1 ht with rfl | ht
      · exact earTri_convex hc h3 hi
      · exact h2 t ht
    · refine ⟨[earTri l 0], ?_, ?_⟩
      · rw [triLoop, if_neg (by omega), if_neg (by omega)]
      · intro t ht
        rw [List.mem_singleton.1 ht]
        exact earTri_convex hc h3 (by omega)

theorem markEars_convex {verts : Nat → Pt} {l : Ring} (hc : ConvexPoly (l.pts verts)) (hn : 3 < l.length) :
    (markEars verts l).AllEars := by
  have key : ∀ k, k ≤ l.length → ∀ r : Ring, r = ((List.range k).foldl (fun (l : Ring) i =>
      let i1 := next i l.length
      let i2 := next i1 l.length
      if diagonal (l.pts verts) i i2 then l.setFlag i1 true else l) l) →
      r.ids = l.ids ∧ ∀ i < k, r.flag (next i l.length) = true := by
    intro k
    induction k with
    | zero => intro _ r hr; exact ⟨by rw [hr]; rfl, by intro i hi; omega⟩
    | succ k ih =>
      intro hk r hr
      rw [List.range_succ, List.foldl_append, List.foldl_cons, List.foldl_nil] at hr
      obtain ⟨h1, h2⟩ := ih (by omega) _ rfl
      generalize ((List.range k).foldl (fun (l : Ring) i =>
        let i1 := next i l.length
        let i2 := next i1 l.length
        if diagonal (l.pts verts) i i2 then l.setFlag i1 true else l) l) = q at hr h1 h2
      have hlen : q.length = l.length := by rw [← length_ids, h1, length_ids]
      have hpts : q.pts verts = l.pts verts := by rw [pts_ids, pts_ids, h1]
      have hd := diagonal_convex hc (by rw [length_pts]; exact hn) (i := k) (by rw [length_pts]; omega)
      rw [length_pts] at hd
      dsimp only at hr
      rw [hpts, hlen, hd, if_pos rfl] at hr
      refine ⟨by rw [hr, setFlag_ids, h1], ?_⟩
      intro i hi
      have hnx : next k l.length < q.length := by rw [hlen]; unfold next; split <;> omega
      rw [hr]
      unfold Ring.flag Ring.setFlag
      rw [List.getD_eq_getElem?_getD, List.getElem?_set]
      by_cases e : next k l.length = next i l.length
      · rw [if_pos e, if_pos hnx]; rfl
      · rw [if_neg e]
        have : i ≠ k := by intro c; exact e (by rw [c])
        have := h2 i (by omega)
        unfold Ring.flag at this
        rw [List.getD_eq_getElem?_getD] at this
        exact this
  obtain ⟨h1, h2⟩ := key l.length le_rfl _ rfl
  have hlen : (markEars verts l).length = l.length := by rw [← length_ids, markEars_ids, length_ids]
  intro e he
  obtain ⟨k, hk, rfl⟩ := List.getElem_of_mem he
  rw [hlen] at hk
  have := h2 (prev k l.length) (by unfold prev; split <;> omega)
  rw [next_prev hk] at this
  have hk' : k < (markEars verts l).length := by omega
  change (markEars verts l).flag k = true at this
  unfold Ring.flag at this
  rw [List.getD_eq_getElem?_getD, List.getElem?_eq_getElem hk'] at this
  exact this

/-- **C57**: a strictly convex polygon is always triangulated to the end, and every triangle has the
polygon's orientation. -/
theorem triangulate_convex (verts : Nat → Pt) (l : List Nat) (h : 3 ≤ l.length) (hc : ConvexPoly (l.map verts)) :
    ∃ ts, triangulate verts l = some (true, ts) ∧ ts.length = l.length - 2 ∧
      ∀ t ∈ ts, area2 (verts t.1) (verts t.2.1) (verts t.2.2) < 0 := by
  have hids : (markEars verts (l.map fun i => (i, false))).ids = l := by
    rw [markEars_ids]
    simp [Ring.ids, Function.comp_def]
  have hlen : (markEars verts (l.map fun i => (i, false))).length = l.length := by rw [← length_ids, hids]
  have hp0 : Ring.pts verts (l.map fun i => (i, false)) = l.map verts := by simp [Ring.pts, Function.comp_def]
  obtain ⟨ts, h1, h2⟩ := triLoop_convex verts l.length (markEars verts (l.map fun i => (i, false))) [] (by omega) (by omega)
    (by rw [pts_ids, hids]; exact hc)
    (fun h4 => markEars_convex (by rw [hp0]; exact hc) (by rw [List.length_map]; omega))
  refine ⟨ts, h1, ?_, h2⟩
  obtain ⟨done, ts', he, hcl⟩ := triangulate_clipped verts l h
  have he' : triangulate verts l = some (true, ts) := h1
  rw [he] at he'
  simp only [Option.some.injEq, Prod.mk.injEq] at he'
  obtain ⟨rfl, rfl⟩ := he'
  have := (hcl.full rfl).1
  omega

/-- A sample: an L-shaped contour. -/
def ell : List Pt := [⟨0, 0, 0, 0⟩, ⟨0, 0, 4, 0⟩, ⟨2, 0, 4, 0⟩, ⟨2, 0, 2, 0⟩, ⟨4, 0, 2, 0⟩, ⟨4, 0, 0, 0⟩]

example : triangulate (fun i => ell.getD i default) [0, 1, 2, 3, 4, 5] =
    some (true, [(1, 2, 3), (0, 1, 3), (3, 4, 5), (0, 3, 5)]) := by decide +kernel

example : area2D ell = 24 := by decide

/-- A contour on which the triangulation gets stuck at once: a square wound backwards, as a hole is. -/
example : triangulate (fun i => (rect 0 0 4 4).getD i default) [3, 2, 1, 0] = some (false, []) := by decide +kernel

example : ConvexPoly [⟨0, 0, 0, 0⟩, ⟨0, 0, 4, 0⟩, ⟨4, 0, 4, 0⟩, ⟨4, 0, 0, 0⟩] := by
  intro i j k h1 h2 h3
  simp only [List.length_cons, List.length_nil] at h3
  have : (i = 0 ∧ j = 1 ∧ k = 2) ∨ (i = 0 ∧ j = 1 ∧ k = 3) ∨ (i = 0 ∧ j = 2 ∧ k = 3) ∨ (i = 1 ∧ j = 2 ∧ k = 3) := by omega
  rcases this with ⟨rfl, rfl, rfl⟩ | ⟨rfl, rfl, rfl⟩ | ⟨rfl, rfl, rfl⟩ | ⟨rfl, rfl, rfl⟩ <;> decide

end Verif.Recast
