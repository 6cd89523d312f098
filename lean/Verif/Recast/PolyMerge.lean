/-
Merging the triangles of a contour into polygons: `countPolyVerts`, `uleft`, `getPolyMergeValue`,
`mergePolyVerts` (recast/mesh.go:312-326, 352-440) and the loop around them
(recast/polymesh.go:181-221, and again recast/mesh.go:732-787).

Simplifications: a polygon is the list of its `nvp` entries, 0xffff being "no vertex"; the vertex array is a
function from offsets to coordinates; the `int32` result of `getPolyMergeValue` does not overflow (an edge
shorter than 46341 cells).
-/
import Verif.Recast.Triangulate
import Mathlib.Data.List.Rotate
import Mathlib.Algebra.BigOperators.Group.List.Basic

namespace Verif.Recast
open Verif Verif.Detour

set_option linter.unusedSimpArgs false
set_option linter.unusedVariables false

/-- `meshNullIdx` (recast/constants.go). -/
def meshNull : Nat := 0xffff

/-- The entries of a polygon before the first `meshNullIdx`. -/
def polyVerts (nvp : Nat) (p : List Nat) : List Nat := (p.take nvp).takeWhile fun v => decide (v ≠ meshNull)

/-- `countPolyVerts` (recast/mesh.go:312-319). -/
def countPolyVerts (nvp : Nat) (p : List Nat) : Nat := (polyVerts nvp p).length

/-- `va*3` for a `uint16` `va`. -/
def off16 (v : Nat) : Nat := (v * 3) % 65536

/-- `uleft(verts[va*3:], verts[vb*3:], verts[vc*3:])` (recast/mesh.go:321-324). -/
def uleft (verts : Nat → Nat) (va vb vc : Nat) : Bool :=
  let x := fun v => (verts (off16 v) : Int)
  let z := fun v => (verts (off16 v + 2) : Int)
  decide ((x vb - x va) * (z vc - z va) - (x vc - x va) * (z vb - z va) < 0)

/-- The unordered pair of an edge (recast/mesh.go:370-374). -/
def ordPair (a b : Nat) : Nat × Nat := if b < a then (b, a) else (a, b)

/-- The edge of `pb` that is the edge `i` of `pa` (recast/mesh.go:375-385). -/
def findEdge (A B : List Nat) (i : Nat) : Option Nat :=
  (List.range B.length).find? fun j =>
    decide (ordPair (A.getD i 0) (A.getD ((i + 1) % A.length) 0) = ordPair (B.getD j 0) (B.getD ((j + 1) % B.length) 0))

/-- The search for a shared edge (recast/mesh.go:365-386): the last edge of `pa` with a partner. -/
def sharedEdge (A B : List Nat) : Option (Nat × Nat) :=
  (List.range A.length).foldl (fun (r : Option (Nat × Nat)) i =>
    match findEdge A B i with
    | some j => some (i, j)
    | none => r) none

/-- `getPolyMergeValue` (recast/mesh.go:352-416): the value with `ea` and `eb`, or `none` for -1. -/
def mergeValue (verts : Nat → Nat) (nvp : Nat) (pa pb : List Nat) : Option (Int × Nat × Nat) :=
  let A := polyVerts nvp pa
  let B := polyVerts nvp pb
  let na := A.length
  let nb := B.length
  if nvp + 2 < na + nb then none
  else
    match sharedEdge A B with
    | none => none
    | some (ea, eb) =>
      if uleft verts (A.getD ((ea + na - 1) % na) 0) (A.getD ea 0) (B.getD ((eb + 2) % nb) 0) = false then none
      else if uleft verts (B.getD ((eb + nb - 1) % nb) 0) (B.getD eb 0) (A.getD ((ea + 2) % na) 0) = false then none
      else
        let va := A.getD ea 0
        let vb := A.getD ((ea + 1) % na) 0
        let dx := (verts ((va * 3 + 0) % 65536) : Int) - verts ((vb * 3 + 0) % 65536)
        let dy := (verts ((va * 3 + 2) % 65536) : Int) - verts ((vb * 3 + 2) % 65536)
        some (dx * dx + dy * dy, ea, eb)

/-- The vertices that `mergePolyVerts` takes from one polygon (recast/mesh.go:429-431, 434-436). -/
def tailOf (A : List Nat) (ea : Nat) : List Nat :=
  (List.range (A.length - 1)).map fun i => A.getD ((ea + 1 + i) % A.length) 0

/-- `mergePolyVerts` (recast/mesh.go:418-440): the new entries of `pa`; `none` if `tmp` is too short. -/
def mergePoly (nvp : Nat) (pa pb : List Nat) (ea eb : Nat) : Option (List Nat) :=
  let M := tailOf (polyVerts nvp pa) ea ++ tailOf (polyVerts nvp pb) eb
  if nvp < M.length then none else some (M ++ List.replicate (nvp - M.length) meshNull)

/-- The best pair so far: `bestMergeVal`, `bestPa`, `bestPb`, `bestEa`, `bestEb` (recast/polymesh.go:184-187). -/
abbrev Best := Int × Nat × Nat × Nat × Nat

/-- One pair of the search (recast/polymesh.go:190-201). -/
def bestPair (verts : Nat → Nat) (nvp : Nat) (polys : List (List Nat)) (b : Best) (jk : Nat × Nat) : Best :=
  match mergeValue verts nvp (polys.getD jk.1 []) (polys.getD jk.2 []) with
  | none => b
  | some (v, ea, eb) => if b.1 < v then (v, jk.1, jk.2, ea, eb) else b

/-- The pairs `j < k` in the order of the loops (recast/polymesh.go:189-191). -/
def polyPairs (n : Nat) : List (Nat × Nat) :=
  (List.range (n - 1)).flatMap fun j => (List.range' (j + 1) (n - (j + 1))).map fun k => (j, k)

/-- The best pair of all (recast/polymesh.go:183-203). -/
def bestOf (verts : Nat → Nat) (nvp : Nat) (polys : List (List Nat)) : Best :=
  (polyPairs polys.length).foldl (bestPair verts nvp polys) (0, 0, 0, 0, 0)

/-- The merge of the best pair: the last polygon takes the place of the second (recast/polymesh.go:207-215). -/
def mergeBest (nvp : Nat) (polys : List (List Nat)) (b : Best) : Option (List (List Nat)) :=
  (mergePoly nvp (polys.getD b.2.1 []) (polys.getD b.2.2.1 []) b.2.2.2.1 b.2.2.2.2).map fun m =>
    let polys := polys.set b.2.1 m
    (polys.set b.2.2.1 (polys.getD (polys.length - 1) [])).dropLast

/-- The loop (recast/polymesh.go:182-220); `none` if a write is out of bounds or `fuel` runs out. -/
def mergePolys (verts : Nat → Nat) (nvp : Nat) : Nat → List (List Nat) → Option (List (List Nat))
  | fuel, polys =>
    let b := bestOf verts nvp polys
    if 0 < b.1 then
      match fuel with
      | 0 => none
      | fuel + 1 => (mergeBest nvp polys b).bind (mergePolys verts nvp fuel)
    else some polys

/-! ## Spec -/

/-- The entries of a polygon slot: the vertices, then 0xffff. -/
structure Slot (nvp : Nat) (p A : List Nat) : Prop where
  eq : p = A ++ List.replicate (nvp - A.length) meshNull
  le : A.length ≤ nvp
  ok : ∀ v ∈ A, v ≠ meshNull

theorem Slot.verts {nvp : Nat} {p A : List Nat} (h : Slot nvp p A) : polyVerts nvp p = A := by
  unfold polyVerts
  have hlen : p.length = nvp := by rw [h.eq, List.length_append, List.length_replicate]; have := h.le; omega
  rw [List.take_of_length_le (by omega), h.eq]
  have ht : (List.replicate (nvp - A.length) meshNull).takeWhile (fun v => decide (v ≠ meshNull)) = [] := by
    cases nvp - A.length with
    | zero => rfl
    | succ k => rw [List.replicate_succ, List.takeWhile_cons]; simp
  rw [List.takeWhile_append_of_pos (by intro v hv; simpa using h.ok v hv), ht, List.append_nil]

theorem tailOf_eq (A : List Nat) (ea : Nat) (h : ea < A.length) :
    tailOf A ea = (A.rotate (ea + 1)).take (A.length - 1) := by
  apply List.ext_getElem
  · simp [tailOf]
  · intro k h1 h2
    simp only [tailOf, List.length_map, List.length_range] at h1
    have : (ea + 1 + k) % A.length < A.length := Nat.mod_lt _ (by omega)
    simp only [tailOf, List.getElem_map, List.getElem_range, List.getElem_take, List.getElem_rotate,
      List.getD_eq_getElem?_getD]
    rw [List.getElem?_eq_getElem this, Option.getD_some]
    simp only [Nat.add_comm k]

/-- A rotation that starts after edge `ea`: `a, U..., b` where `b → a` is the edge. -/
theorem rotate_edge (A : List Nat) (ea : Nat) (h : ea < A.length) (h3 : 3 ≤ A.length) :
    ∃ u U w, A.rotate (ea + 1) = A.getD ((ea + 1) % A.length) 0 :: u :: U ++ [A.getD ea 0] ∧
      u = A.getD ((ea + 2) % A.length) 0 ∧ (u :: U).getLastD 0 = A.getD ((ea + A.length - 1) % A.length) 0 ∧ w = U.length := by
  have hlen : (A.rotate (ea + 1)).length = A.length := List.length_rotate ..
  have hg : ∀ k, k < A.length → (A.rotate (ea + 1)).getD k 0 = A.getD ((k + (ea + 1)) % A.length) 0 := by
    intro k hk
    have hm : (k + (ea + 1)) % A.length < A.length := Nat.mod_lt _ (by omega)
    rw [List.getD_eq_getElem?_getD, List.getElem?_eq_getElem (by omega), List.getElem_rotate,
      List.getD_eq_getElem?_getD, List.getElem?_eq_getElem hm]
  match hr : A.rotate (ea + 1), hlen with
  | [], hl => simp at hl; omega
  | [_], hl => simp at hl; omega
  | a :: u :: T, hl =>
    simp only [List.length_cons] at hl
    rw [hr] at hg
    have h0 := hg 0 (by omega)
    have h1 := hg 1 (by omega)
    have hz := hg (A.length - 1) (by omega)
    have hy := hg (A.length - 2) (by omega)
    obtain ⟨U, b, rfl⟩ : ∃ U b, T = U ++ [b] := by
      rcases List.eq_nil_or_concat T with rfl | ⟨U, b, rfl⟩
      · simp at hl; omega
      · exact ⟨U, b, by simp⟩
    simp only [List.length_append, List.length_cons, List.length_nil] at hl
    refine ⟨u, U, U.length, ?_, ?_, ?_, rfl⟩
    · have e1 : (0 + (ea + 1)) % A.length = (ea + 1) % A.length := by rw [Nat.zero_add]
      have e2 : (A.length - 1 + (ea + 1)) % A.length = ea := by
        have : A.length - 1 + (ea + 1) = ea + A.length := by omega
        rw [this, Nat.add_mod_right, Nat.mod_eq_of_lt h]
      rw [e1] at h0
      rw [e2] at hz
      have hz' : (a :: u :: (U ++ [b])).getD (A.length - 1) 0 = b := by
        have : A.length - 1 = U.length + 2 := by omega
        rw [this]; simp
      rw [hz'] at hz
      simp only [List.getD_cons_zero] at h0
      rw [← h0, ← hz]
      simp
    · have e1 : (1 + (ea + 1)) = ea + 2 := by omega
      rw [e1] at h1
      simpa using h1
    · have e1 : (A.length - 2 + (ea + 1)) = ea + A.length - 1 := by omega
      rw [e1] at hy
      rw [← hy]
      have : A.length - 2 = U.length + 1 := by omega
      rw [this, List.getLastD_eq_getLast?, List.getLast?_eq_getElem?]
      simp only [List.getD_eq_getElem?_getD, List.length_cons, Nat.add_sub_cancel]
      rw [List.getElem?_cons_succ]
      cases U with
      | nil => simp
      | cons x U =>
        have hx : U.length < (x :: U).length := by simp
        have : (x :: U ++ [b])[(x :: U).length - 1]? = (x :: U)[(x :: U).length - 1]? :=
          List.getElem?_append_left (by simp)
        simp only [List.length_cons, Nat.add_sub_cancel] at this ⊢
        rw [List.getElem?_cons_succ, List.getElem?_cons_succ, this]

theorem loopSum_rotate_one {α : Type} (f : α → α → Int) (a : α) (l : List α) : loopSum f (l ++ [a]) = loopSum f (a :: l) := by
  cases l with
  | nil => rfl
  | cons b l =>
    simp only [List.cons_append, loopSum, edgeSum_append, edgeSum, List.append_assoc, getLastD_concat, List.getLastD_nil]
    ring

theorem loopSum_rotate {α : Type} (f : α → α → Int) (l : List α) (k : Nat) : loopSum f (l.rotate k) = loopSum f l := by
  induction k generalizing l with
  | zero => simp
  | succ k ih =>
    cases l with
    | nil => simp
    | cons a l => rw [List.rotate_cons_succ, ih, loopSum_rotate_one]

/-- The triples of consecutive entries. -/
def triples {α : Type} : List α → List (α × α × α)
  | a :: b :: c :: l => (a, b, c) :: triples (b :: c :: l)
  | _ => []

/-- Spec: the triples of consecutive vertices of a closed polygon, also over its end. -/
def cornersOf {α : Type} (l : List α) : List (α × α × α) := triples (l ++ l.take 2)

theorem triples_append {α : Type} (l : List α) (x y : α) (r : List α) :
    triples (l ++ x :: y :: r) = triples (l ++ [x, y]) ++ triples (x :: y :: r) := by
  induction l with
  | nil => simp [triples]
  | cons a l ih =>
    cases l with
    | nil => simp [triples]
    | cons b l =>
      cases l with
      | nil => simp [triples]
      | cons c l =>
        simp only [List.cons_append] at ih ⊢
        rw [triples, triples, ih]
        simp

theorem cornersOf_rotate_one {α : Type} (a : α) (l : List α) (h : 2 ≤ l.length) (t : α × α × α) :
    t ∈ cornersOf (l ++ [a]) ↔ t ∈ cornersOf (a :: l) := by
  match l, h with
  | [], h => simp at h
  | [_], h => simp at h
  | b :: c :: l, _ =>
    have h1 : cornersOf (b :: c :: l ++ [a]) = triples (b :: c :: l ++ [a, b]) ++ triples [a, b, c] := by
      have := triples_append (b :: c :: l) a b [c]
      simp only [cornersOf, List.cons_append, List.append_assoc, List.take_succ_cons, List.take_zero, List.nil_append] at this ⊢
      exact this
    have h2 : cornersOf (a :: b :: c :: l) = (a, b, c) :: triples (b :: c :: l ++ [a, b]) := by
      simp [cornersOf, triples]
    rw [h1, h2]
    simp only [triples, List.mem_append, List.mem_cons, List.not_mem_nil, or_false]
    exact or_comm

theorem cornersOf_rotate {α : Type} (l : List α) (k : Nat) (h : 3 ≤ l.length) (t : α × α × α) :
    t ∈ cornersOf (l.rotate k) ↔ t ∈ cornersOf l := by
  induction k generalizing l with
  | zero => simp
  | succ k ih =>
    cases l with
    | nil => simp
    | cons a l =>
      simp only [List.length_cons] at h
      rw [List.rotate_cons_succ, ih _ (by simp; omega), cornersOf_rotate_one a l (by omega)]

/-- The directed edges of the path `j, l`. -/
def pathEdges (j : Nat) : List Nat → List (Nat × Nat)
  | [] => []
  | i :: l => (j, i) :: pathEdges i l

/-- Spec: the directed edges of a closed polygon. -/
def edgesOf : List Nat → List (Nat × Nat)
  | [] => []
  | a :: l => pathEdges a (l ++ [a])

theorem pathEdges_append (j : Nat) (A B : List Nat) : pathEdges j (A ++ B) = pathEdges j A ++ pathEdges (A.getLastD j) B := by
  induction A generalizing j with
  | nil => simp [pathEdges]
  | cons a A ih =>
    rw [List.cons_append, pathEdges, pathEdges, ih, List.getLastD_cons, List.cons_append]

theorem edgesOf_rotate_one (a : Nat) (l : List Nat) : (edgesOf (l ++ [a])).Perm (edgesOf (a :: l)) := by
  cases l with
  | nil => exact List.Perm.refl _
  | cons b l =>
    simp only [List.cons_append, edgesOf, pathEdges_append, pathEdges, List.append_assoc, getLastD_concat, List.getLastD_nil]
    rw [List.perm_iff_count]
    intro t
    simp only [List.count_cons, List.count_append, List.count_nil]
    omega

theorem edgesOf_rotate (l : List Nat) (k : Nat) : (edgesOf (l.rotate k)).Perm (edgesOf l) := by
  induction k generalizing l with
  | zero => simp
  | succ k ih =>
    cases l with
    | nil => simp
    | cons a l => rw [List.rotate_cons_succ]; exact (ih _).trans (edgesOf_rotate_one a l)

theorem mem_pathEdges (j : Nat) (l : List Nat) (k : Nat) (hk : k < l.length) :
    ((j :: l).getD k 0, l.getD k 0) ∈ pathEdges j l := by
  induction l generalizing j k with
  | nil => simp at hk
  | cons i l ih =>
    rw [pathEdges]
    cases k with
    | zero => simp
    | succ k =>
      simp only [List.length_cons] at hk
      exact List.mem_cons_of_mem _ (by simpa using ih i k (by omega))

theorem mem_edgesOf (l : List Nat) (k : Nat) (hk : k < l.length) : (l.getD k 0, l.getD ((k + 1) % l.length) 0) ∈ edgesOf l := by
  cases l with
  | nil => simp at hk
  | cons a l =>
    have h := mem_pathEdges a (l ++ [a]) k (by simpa using hk)
    rw [edgesOf]
    have e1 : (a :: (l ++ [a])).getD k 0 = (a :: l).getD k 0 := by
      rw [← List.cons_append, List.getD_eq_getElem?_getD, List.getElem?_append_left hk, ← List.getD_eq_getElem?_getD]
    have e2 : (l ++ [a]).getD k 0 = (a :: l).getD ((k + 1) % (a :: l).length) 0 := by
      simp only [List.length_cons] at hk ⊢
      by_cases e : k + 1 < l.length + 1
      · rw [Nat.mod_eq_of_lt e, List.getD_eq_getElem?_getD, List.getElem?_append_left (by omega), ← List.getD_eq_getElem?_getD]
        simp
      · have : k = l.length := by omega
        subst this
        rw [Nat.mod_self]
        simp
    rw [e1, e2] at h
    exact h

/-! ## Merging two polygons -/

/-- Two polygons, each from the vertex after the shared edge on, and the merged one. -/
theorem merged_shape {A B : List Nat} {ea eb : Nat} (hea : ea < A.length) (heb : eb < B.length) (ha : 3 ≤ A.length) (hb : 3 ≤ B.length)
    (h1 : A.getD ea 0 = B.getD ((eb + 1) % B.length) 0) (h2 : A.getD ((ea + 1) % A.length) 0 = B.getD eb 0) :
    ∃ a b u U v V, A.rotate (ea + 1) = a :: u :: U ++ [b] ∧ B.rotate (eb + 1) = b :: v :: V ++ [a] ∧
      tailOf A ea ++ tailOf B eb = a :: u :: U ++ b :: v :: V ∧
      a = B.getD eb 0 ∧ b = A.getD ea 0 ∧
      u = A.getD ((ea + 2) % A.length) 0 ∧ (u :: U).getLastD 0 = A.getD ((ea + A.length - 1) % A.length) 0 ∧
      v = B.getD ((eb + 2) % B.length) 0 ∧ (v :: V).getLastD 0 = B.getD ((eb + B.length - 1) % B.length) 0 := by
  obtain ⟨u, U, w, e1, e2, e3, -⟩ := rotate_edge A ea hea ha
  obtain ⟨v, V, w', f1, f2, f3, -⟩ := rotate_edge B eb heb hb
  rw [h2] at e1
  rw [← h1] at f1
  refine ⟨B.getD eb 0, A.getD ea 0, u, U, v, V, e1, f1, ?_, rfl, rfl, e2, e3, f2, f3⟩
  rw [tailOf_eq A ea hea, tailOf_eq B eb heb, e1, f1]
  have l1 : A.length - 1 = (B.getD eb 0 :: u :: U).length := by
    have := congrArg List.length e1
    rw [List.length_rotate] at this
    simp only [List.length_append, List.length_cons, List.length_nil] at this ⊢
    omega
  have l2 : B.length - 1 = (A.getD ea 0 :: v :: V).length := by
    have := congrArg List.length f1
    rw [List.length_rotate] at this
    simp only [List.length_append, List.length_cons, List.length_nil] at this ⊢
    omega
  rw [l1, l2, List.take_left', List.take_left'] <;> rfl

theorem merged_sum {A B : List Nat} {ea eb : Nat} (hea : ea < A.length) (heb : eb < B.length) (ha : 3 ≤ A.length) (hb : 3 ≤ B.length)
    (h1 : A.getD ea 0 = B.getD ((eb + 1) % B.length) 0) (h2 : A.getD ((ea + 1) % A.length) 0 = B.getD eb 0)
    (f : Nat → Nat → Int) (hf : ∀ a b, f a b = -f b a) :
    loopSum f (tailOf A ea ++ tailOf B eb) = loopSum f A + loopSum f B := by
  obtain ⟨a, b, u, U, v, V, e1, f1, hm, -⟩ := merged_shape hea heb ha hb h1 h2
  rw [← loopSum_rotate f A (ea + 1), ← loopSum_rotate f B (eb + 1), e1, f1, hm]
  simp only [List.cons_append, loopSum, edgeSum, edgeSum_append, List.append_assoc, List.nil_append]
  rw [hf b a]
  ring

theorem merged_edges {A B : List Nat} {ea eb : Nat} (hea : ea < A.length) (heb : eb < B.length) (ha : 3 ≤ A.length) (hb : 3 ≤ B.length)
    (h1 : A.getD ea 0 = B.getD ((eb + 1) % B.length) 0) (h2 : A.getD ((ea + 1) % A.length) 0 = B.getD eb 0) :
    (edgesOf A ++ edgesOf B).Perm ((A.getD ea 0, B.getD eb 0) :: (B.getD eb 0, A.getD ea 0) :: edgesOf (tailOf A ea ++ tailOf B eb)) := by
  obtain ⟨a, b, u, U, v, V, e1, f1, hm, ea', eb', -⟩ := merged_shape hea heb ha hb h1 h2
  rw [← ea', ← eb']
  have p := ((edgesOf_rotate A (ea + 1)).symm.append (edgesOf_rotate B (eb + 1)).symm)
  rw [e1, f1] at p
  rw [hm]
  refine p.trans ?_
  simp only [List.cons_append, edgesOf, pathEdges, pathEdges_append, List.append_assoc, List.nil_append, getLastD_concat,
    List.getLastD_cons, List.getLastD_nil]
  rw [List.perm_iff_count]
  intro t
  simp only [List.count_cons, List.count_append, List.count_nil]
  omega

theorem merged_corners {A B : List Nat} {ea eb : Nat} (hea : ea < A.length) (heb : eb < B.length) (ha : 3 ≤ A.length) (hb : 3 ≤ B.length)
    (h1 : A.getD ea 0 = B.getD ((eb + 1) % B.length) 0) (h2 : A.getD ((ea + 1) % A.length) 0 = B.getD eb 0)
    (t : Nat × Nat × Nat) (ht : t ∈ cornersOf (tailOf A ea ++ tailOf B eb)) :
    t ∈ cornersOf A ∨ t ∈ cornersOf B ∨
      t = (A.getD ((ea + A.length - 1) % A.length) 0, A.getD ea 0, B.getD ((eb + 2) % B.length) 0) ∨
      t = (B.getD ((eb + B.length - 1) % B.length) 0, B.getD eb 0, A.getD ((ea + 2) % A.length) 0) := by
  obtain ⟨a, b, u, U, v, V, e1, f1, hm, ea', eb', e3, e4, f3, f4⟩ := merged_shape hea heb ha hb h1 h2
  rw [← cornersOf_rotate A (ea + 1) ha, ← cornersOf_rotate B (eb + 1) hb, e1, f1]
  rw [← ea', ← eb', ← e3, ← e4, ← f3, ← f4]
  rw [hm] at ht
  -- split both lists before their last vertices
  obtain ⟨U', x, hU⟩ : ∃ U' x, u :: U = U' ++ [x] := by
    rcases List.eq_nil_or_concat (u :: U) with h | ⟨U', x, h⟩
    · simp at h
    · exact ⟨U', x, by simpa using h⟩
  obtain ⟨V', y, hV⟩ : ∃ V' y, v :: V = V' ++ [y] := by
    rcases List.eq_nil_or_concat (v :: V) with h | ⟨V', y, h⟩
    · simp at h
    · exact ⟨V', y, by simpa using h⟩
  have hx : (u :: U).getLastD 0 = x := by rw [hU, getLastD_concat]
  have hy : (v :: V).getLastD 0 = y := by rw [hV, getLastD_concat]
  rw [hx, hy]
  have cM : cornersOf (a :: u :: U ++ b :: v :: V) =
      triples (a :: U' ++ [x, b]) ++ (x, b, v) :: (triples (b :: V' ++ [y, a]) ++ [(y, a, u)]) := by
    have s1 : (a :: u :: U ++ b :: v :: V) ++ (a :: u :: U ++ b :: v :: V).take 2 =
        (a :: U') ++ x :: b :: (v :: V ++ [a, u]) := by
      have : a :: u :: U ++ b :: v :: V = a :: ((u :: U) ++ b :: v :: V) := rfl
      rw [show (a :: u :: U ++ b :: v :: V).take 2 = [a, u] from rfl, this, hU]
      simp
    have s2 : x :: b :: (v :: V ++ [a, u]) = x :: b :: v :: (V ++ [a, u]) := rfl
    have s3 : b :: v :: (V ++ [a, u]) = (b :: V') ++ y :: a :: [u] := by
      have : b :: v :: (V ++ [a, u]) = b :: ((v :: V) ++ [a, u]) := rfl
      rw [this, hV]; simp
    rw [cornersOf, s1, triples_append, s2, triples, s3, triples_append (b :: V') y a [u]]
    simp [triples]
  have cA : cornersOf (a :: u :: U ++ [b]) = triples (a :: U' ++ [x, b]) ++ triples [x, b, a, u] := by
    have s1 : (a :: u :: U ++ [b]) ++ (a :: u :: U ++ [b]).take 2 = (a :: U') ++ x :: b :: [a, u] := by
      have : a :: u :: U ++ [b] = a :: ((u :: U) ++ [b]) := rfl
      rw [show (a :: u :: U ++ [b]).take 2 = [a, u] from rfl, this, hU]
      simp
    rw [cornersOf, s1, triples_append]
  have cB : cornersOf (b :: v :: V ++ [a]) = triples (b :: V' ++ [y, a]) ++ triples [y, a, b, v] := by
    have s1 : (b :: v :: V ++ [a]) ++ (b :: v :: V ++ [a]).take 2 = (b :: V') ++ y :: a :: [b, v] := by
      have : b :: v :: V ++ [a] = b :: ((v :: V) ++ [a]) := rfl
      rw [show (b :: v :: V ++ [a]).take 2 = [b, v] from rfl, this, hV]
      simp
    rw [cornersOf, s1, triples_append]
  rw [cM] at ht
  rw [cA, cB]
  simp only [List.mem_append, List.mem_cons, List.not_mem_nil, or_false] at ht ⊢
  rcases ht with h | h | h | h
  · exact Or.inl (Or.inl h)
  · exact Or.inr (Or.inr (Or.inl h))
  · exact Or.inr (Or.inl (Or.inl h))
  · exact Or.inr (Or.inr (Or.inr h))

theorem ordPair_eq {a b c d : Nat} (h : ordPair a b = ordPair c d) : (a = c ∧ b = d) ∨ (a = d ∧ b = c) := by
  unfold ordPair at h
  split at h <;> split at h <;> simp only [Prod.mk.injEq] at h <;> omega

theorem findEdge_spec {A B : List Nat} {i j : Nat} (h : findEdge A B i = some j) : j < B.length ∧
    ordPair (A.getD i 0) (A.getD ((i + 1) % A.length) 0) = ordPair (B.getD j 0) (B.getD ((j + 1) % B.length) 0) := by
  unfold findEdge at h
  exact ⟨List.mem_range.1 (List.mem_of_find?_eq_some h), by simpa using List.find?_some h⟩

theorem sharedEdge_spec {A B : List Nat} {ea eb : Nat} (h : sharedEdge A B = some (ea, eb)) : ea < A.length ∧ eb < B.length ∧
    ordPair (A.getD ea 0) (A.getD ((ea + 1) % A.length) 0) = ordPair (B.getD eb 0) (B.getD ((eb + 1) % B.length) 0) := by
  have key : ∀ (ks : List Nat) (r : Option (Nat × Nat)), (∀ k ∈ ks, k < A.length) →
      (∀ i j, r = some (i, j) → i < A.length ∧ findEdge A B i = some j) → ∀ i j, ks.foldl (fun (r : Option (Nat × Nat)) i =>
        match findEdge A B i with
        | some j => some (i, j)
        | none => r) r = some (i, j) → i < A.length ∧ findEdge A B i = some j := by
    intro ks
    induction ks with
    | nil => intro r _ hr i j hi; exact hr i j hi
    | cons k ks ih =>
      intro r hk hr i j hi
      rw [List.foldl_cons] at hi
      refine ih _ (fun k' hk' => hk k' (List.mem_cons_of_mem _ hk')) ?_ i j hi
      intro i' j' he
      cases hfe : findEdge A B k with
      | none => rw [hfe] at he; exact hr i' j' he
      | some m =>
        rw [hfe] at he
        simp only [Option.some.injEq, Prod.mk.injEq] at he
        obtain ⟨rfl, rfl⟩ := he
        exact ⟨hk k (List.mem_cons_self ..), hfe⟩
  obtain ⟨h1, h2⟩ := key _ none (fun k hk => List.mem_range.1 hk) (by simp) ea eb h
  exact ⟨h1, (findEdge_spec h2).1, (findEdge_spec h2).2⟩

/-- Spec: the turn at `b` on the way from `a` over `b` to `c` is to the side on which the interior of the
contours lies; the coordinates are those of the vertices' own numbers. -/
def TurnsIn (verts : Nat → Nat) (a b c : Nat) : Prop :=
  ((verts (3 * b) : Int) - verts (3 * a)) * ((verts (3 * c + 2) : Int) - verts (3 * a + 2)) -
    ((verts (3 * c) : Int) - verts (3 * a)) * ((verts (3 * b + 2) : Int) - verts (3 * a + 2)) < 0

/-- Spec: the polygon turns in at every corner. -/
def AllTurnIn (verts : Nat → Nat) (A : List Nat) : Prop := ∀ t ∈ cornersOf A, TurnsIn verts t.1 t.2.1 t.2.2

theorem off16_small {v : Nat} (h : v < 21845) : off16 v = 3 * v := by unfold off16; omega

theorem uleft_iff {verts : Nat → Nat} {a b c : Nat} (ha : a < 21845) (hb : b < 21845) (hc : c < 21845) :
    uleft verts a b c = true ↔ TurnsIn verts a b c := by
  unfold uleft TurnsIn
  dsimp only
  rw [decide_eq_true_iff, off16_small ha, off16_small hb, off16_small hc]

/-! ## Convex polygons -/

/-- Spec: the vertices are distinct, and every edge has all other vertices strictly on its inner side. -/
structure Bulges (verts : Nat → Nat) (A : List Nat) : Prop where
  nodup : A.Nodup
  inside : ∀ e ∈ edgesOf A, ∀ p ∈ A, p ≠ e.1 → p ≠ e.2 → TurnsIn verts e.1 e.2 p

/-- How far `p` is on the inner side of the line from `a` to `b` (times the length of the edge). -/
def sideOf (ax az bx bz px pz : Int) : Int := (px - ax) * (bz - az) - (bx - ax) * (pz - az)

theorem turnsIn_iff (verts : Nat → Nat) (a b c : Nat) :
    TurnsIn verts a b c ↔ 0 < sideOf (verts (3 * a)) (verts (3 * a + 2)) (verts (3 * b)) (verts (3 * b + 2)) (verts (3 * c)) (verts (3 * c + 2)) := by
  unfold TurnsIn sideOf
  constructor <;> intro h <;> linarith

/-- A point `q` beyond the edge `a b` of a polygon, in the cone of a polygon on the other side that makes an
inner turn with the edge `x b`: it is on the inner side of `x b`. -/
theorem inner_near {ax az bx bz xx xz vx vz qx qz : Int} (h1 : 0 < sideOf xx xz bx bz ax az) (h2 : 0 < sideOf xx xz bx bz vx vz)
    (h3 : 0 < sideOf ax az bx bz vx vz) (h4 : 0 < sideOf ax az bx bz qx qz) (h5 : 0 ≤ sideOf bx bz vx vz qx qz) :
    0 < sideOf xx xz bx bz qx qz := by
  have key : sideOf ax az bx bz vx vz * sideOf xx xz bx bz qx qz =
      sideOf ax az bx bz qx qz * sideOf xx xz bx bz vx vz + sideOf bx bz vx vz qx qz * sideOf xx xz bx bz ax az := by
    unfold sideOf; ring
  have : 0 < sideOf ax az bx bz vx vz * sideOf xx xz bx bz qx qz := by
    rw [key]
    have := mul_pos h4 h2
    have := mul_nonneg h5 h1.le
    omega
  exact pos_of_mul_pos_right this h3.le

/-- The other end of the shared edge: `q` is on the inner side of `a u`. -/
theorem inner_near' {ax az bx bz ux uz yx yz qx qz : Int} (h1 : 0 < sideOf ax az ux uz bx bz) (h2 : 0 < sideOf yx yz ax az ux uz)
    (h3 : 0 < sideOf ax az bx bz yx yz) (h4 : 0 < sideOf ax az bx bz qx qz) (h5 : 0 ≤ sideOf yx yz ax az qx qz) :
    0 < sideOf ax az ux uz qx qz := by
  have key : sideOf ax az bx bz yx yz * sideOf ax az ux uz qx qz =
      sideOf ax az bx bz qx qz * sideOf yx yz ax az ux uz + sideOf yx yz ax az qx qz * sideOf ax az ux uz bx bz := by
    unfold sideOf; ring
  have : 0 < sideOf ax az bx bz yx yz * sideOf ax az ux uz qx qz := by
    rw [key]
    have := mul_pos h4 h2
    have := mul_nonneg h5 h1.le
    omega
  exact pos_of_mul_pos_right this h3.le

/-- An edge `s t` of the polygon that touches neither `a` nor `b`: the point `q` beyond `b a` is on its inner
side too, if it is on the inner sides of the edges before and after. -/
theorem inner_far {ax az bx bz xx xz ux uz sx sz tx tz qx qz : Int}
    (ha : 0 < sideOf sx sz tx tz ax az) (hb : 0 < sideOf sx sz tx tz bx bz)
    (hxa : 0 < sideOf xx xz bx bz ax az) (hub : 0 < sideOf ax az ux uz bx bz)
    (hs1 : 0 < sideOf bx bz ax az sx sz) (hs2 : 0 ≤ sideOf xx xz bx bz sx sz) (hs3 : 0 ≤ sideOf ax az ux uz sx sz)
    (hq : 0 < sideOf ax az bx bz qx qz) (hqx : 0 < sideOf xx xz bx bz qx qz) (hqu : 0 < sideOf ax az ux uz qx qz) :
    0 < sideOf sx sz tx tz qx qz := by
  by_cases hle : sideOf sx sz tx tz bx bz ≤ sideOf sx sz tx tz ax az
  · -- the line falls no further towards `b` than towards `x`
    have hx : sideOf sx sz tx tz xx xz ≤ sideOf sx sz tx tz bx bz := by
      by_contra hc
      push Not at hc
      have key : sideOf xx xz bx bz ax az * (sideOf sx sz tx tz sx sz - sideOf sx sz tx tz bx bz) =
          sideOf xx xz bx bz sx sz * (sideOf sx sz tx tz ax az - sideOf sx sz tx tz bx bz) +
          sideOf bx bz ax az sx sz * (sideOf sx sz tx tz xx xz - sideOf sx sz tx tz bx bz) := by
        unfold sideOf; ring
      have z : sideOf sx sz tx tz sx sz = 0 := by unfold sideOf; ring
      rw [z] at key
      have g1 := mul_nonneg hs2 (sub_nonneg.2 hle)
      have g2 := mul_pos hs1 (sub_pos.2 hc)
      have g3 := mul_pos hxa hb
      have : sideOf xx xz bx bz ax az * (0 - sideOf sx sz tx tz bx bz) = -(sideOf xx xz bx bz ax az * sideOf sx sz tx tz bx bz) := by ring
      omega
    have key : sideOf xx xz bx bz ax az * sideOf sx sz tx tz qx qz =
        sideOf xx xz bx bz ax az * sideOf sx sz tx tz bx bz + sideOf xx xz bx bz qx qz * (sideOf sx sz tx tz ax az - sideOf sx sz tx tz bx bz) +
        sideOf ax az bx bz qx qz * (sideOf sx sz tx tz bx bz - sideOf sx sz tx tz xx xz) := by
      unfold sideOf; ring
    have g1 := mul_pos hxa hb
    have g2 := mul_nonneg hqx.le (sub_nonneg.2 hle)
    have g3 := mul_nonneg hq.le (sub_nonneg.2 hx)
    exact pos_of_mul_pos_right (by rw [key]; omega : 0 < sideOf xx xz bx bz ax az * sideOf sx sz tx tz qx qz) hxa.le
  · push Not at hle
    have hx : sideOf sx sz tx tz ux uz ≤ sideOf sx sz tx tz ax az := by
      by_contra hc
      push Not at hc
      have key : sideOf ax az ux uz bx bz * (sideOf sx sz tx tz sx sz - sideOf sx sz tx tz ax az) =
          sideOf ax az ux uz sx sz * (sideOf sx sz tx tz bx bz - sideOf sx sz tx tz ax az) +
          sideOf bx bz ax az sx sz * (sideOf sx sz tx tz ux uz - sideOf sx sz tx tz ax az) := by
        unfold sideOf; ring
      have z : sideOf sx sz tx tz sx sz = 0 := by unfold sideOf; ring
      rw [z] at key
      have g1 := mul_nonneg hs3 (sub_nonneg.2 hle.le)
      have g2 := mul_pos hs1 (sub_pos.2 hc)
      have g3 := mul_pos hub ha
      have : sideOf ax az ux uz bx bz * (0 - sideOf sx sz tx tz ax az) = -(sideOf ax az ux uz bx bz * sideOf sx sz tx tz ax az) := by ring
      omega
    have key : sideOf ax az ux uz bx bz * sideOf sx sz tx tz qx qz =
        sideOf ax az ux uz bx bz * sideOf sx sz tx tz ax az + sideOf ax az ux uz qx qz * (sideOf sx sz tx tz bx bz - sideOf sx sz tx tz ax az) +
        sideOf ax az bx bz qx qz * (sideOf sx sz tx tz ax az - sideOf sx sz tx tz ux uz) := by
      unfold sideOf; ring
    have g1 := mul_pos hub ha
    have g2 := mul_nonneg hqu.le (sub_nonneg.2 hle.le)
    have g3 := mul_nonneg hq.le (sub_nonneg.2 hx)
    exact pos_of_mul_pos_right (by rw [key]; omega : 0 < sideOf ax az ux uz bx bz * sideOf sx sz tx tz qx qz) hub.le

/-- The edges of a path: the first, the last, or one between sideOf vertices. -/
theorem pathEdges_cases {a b : Nat} {W : List Nat} {e : Nat × Nat} (hW : W ≠ []) (h : e ∈ pathEdges a (W ++ [b])) :
    e = (a, W.headD 0) ∨ e = (W.getLastD 0, b) ∨ e.1 ∈ W ∧ e.2 ∈ W := by
  induction W generalizing a with
  | nil => exact absurd rfl hW
  | cons w W ih =>
    rw [List.cons_append, pathEdges] at h
    rcases List.mem_cons.1 h with rfl | h
    · exact Or.inl rfl
    · by_cases hn : W = []
      · subst hn
        rw [List.nil_append, pathEdges, pathEdges] at h
        rw [List.mem_singleton.1 h]
        exact Or.inr (Or.inl rfl)
      · rcases ih hn h with rfl | rfl | ⟨h1, h2⟩
        · refine Or.inr (Or.inr ⟨List.mem_cons_self .., List.mem_cons_of_mem _ ?_⟩)
          cases W with
          | nil => exact absurd rfl hn
          | cons x W => exact List.mem_cons_self ..
        · refine Or.inr (Or.inl ?_)
          cases W with
          | nil => exact absurd rfl hn
          | cons x W => rfl
        · exact Or.inr (Or.inr ⟨List.mem_cons_of_mem _ h1, List.mem_cons_of_mem _ h2⟩)

theorem Bulges.rotate {verts : Nat → Nat} {A : List Nat} (k : Nat) : Bulges verts (A.rotate k) ↔ Bulges verts A := by
  constructor
  · intro h
    exact ⟨List.nodup_rotate.1 h.nodup, fun e he p hp => h.inside e ((edgesOf_rotate A k).mem_iff.2 he) p (List.mem_rotate.2 hp)⟩
  · intro h
    exact ⟨List.nodup_rotate.2 h.nodup, fun e he p hp => h.inside e ((edgesOf_rotate A k).mem_iff.1 he) p (List.mem_rotate.1 hp)⟩

/-- A convex polygon, from the vertex after one edge on. -/
theorem Bulges.open {verts : Nat → Nat} {a b : Nat} {W : List Nat} (hW : W ≠ []) (h : Bulges verts (a :: W ++ [b])) :
    a ≠ b ∧ a ∉ W ∧ b ∉ W ∧
    (∀ p ∈ W, TurnsIn verts b a p) ∧
    (∀ p ∈ a :: W ++ [b], p ≠ a → p ≠ W.headD 0 → TurnsIn verts a (W.headD 0) p) ∧
    (∀ p ∈ a :: W ++ [b], p ≠ W.getLastD 0 → p ≠ b → TurnsIn verts (W.getLastD 0) b p) ∧
    (∀ e ∈ pathEdges a (W ++ [b]), ∀ p ∈ a :: W ++ [b], p ≠ e.1 → p ≠ e.2 → TurnsIn verts e.1 e.2 p) := by
  have hn := h.nodup
  rw [List.cons_append, List.nodup_cons, List.nodup_append] at hn
  obtain ⟨h1, h2, h3, h4⟩ := hn
  have hab : a ≠ b := fun c => h1 (List.mem_append_right _ (by simp [c]))
  have haW : a ∉ W := fun c => h1 (List.mem_append_left _ c)
  have hbW : b ∉ W := fun c => h4 b c b (by simp) rfl
  have hed : edgesOf (a :: W ++ [b]) = pathEdges a (W ++ [b]) ++ [(b, a)] := by
    rw [List.cons_append, edgesOf, pathEdges_append]
    simp [pathEdges]
  have hin : ∀ e ∈ pathEdges a (W ++ [b]), ∀ p ∈ a :: W ++ [b], p ≠ e.1 → p ≠ e.2 → TurnsIn verts e.1 e.2 p :=
    fun e he => h.inside e (by rw [hed]; exact List.mem_append_left _ he)
  refine ⟨hab, haW, hbW, ?_, ?_, ?_, hin⟩
  · intro p hp
    exact h.inside (b, a) (by rw [hed]; simp) p (by simp [hp]) (fun (c : p = b) => hbW (c ▸ hp)) (fun (c : p = a) => haW (c ▸ hp))
  · intro p hp n1 n2
    cases W with
    | nil => exact absurd rfl hW
    | cons w W => exact hin (a, w) (by rw [List.cons_append, pathEdges]; exact List.mem_cons_self ..) p hp n1 n2
  · intro p hp n1 n2
    refine hin (W.getLastD 0, b) ?_ p hp n1 n2
    rw [pathEdges_append]
    refine List.mem_append_right _ ?_
    cases W with
    | nil => exact absurd rfl hW
    | cons w W => rw [List.getLastD_cons, List.getLastD_cons, pathEdges, pathEdges]; exact List.mem_singleton_self _

/-- One half of the merge: the edges of the one polygon have the vertices of the other on their inner side. -/
theorem merged_half {verts : Nat → Nat} {a b : Nat} {W Z : List Nat} (hW : W ≠ []) (hZ : Z ≠ [])
    (hA : Bulges verts (a :: W ++ [b])) (hB : Bulges verts (b :: Z ++ [a]))
    (t1 : TurnsIn verts (W.getLastD 0) b (Z.headD 0)) (t2 : TurnsIn verts (Z.getLastD 0) a (W.headD 0)) :
    ∀ e ∈ pathEdges a (W ++ [b]), ∀ q ∈ Z, TurnsIn verts e.1 e.2 q := by
  obtain ⟨hab, haW, hbW, w1, w2, w3, w4⟩ := hA.open hW
  obtain ⟨-, hbZ, haZ, z1, z2, z3, z4⟩ := hB.open hZ
  have hh : W.headD 0 ∈ W := by cases W with | nil => exact absurd rfl hW | cons w W => exact List.mem_cons_self ..
  have hl : W.getLastD 0 ∈ W := by
    rcases List.eq_nil_or_concat W with h | ⟨W', x, h⟩
    · exact absurd h hW
    · rw [h, List.concat_eq_append, getLastD_concat]; simp
  have kh : Z.headD 0 ∈ Z := by cases Z with | nil => exact absurd rfl hZ | cons w Z => exact List.mem_cons_self ..
  have kl : Z.getLastD 0 ∈ Z := by
    rcases List.eq_nil_or_concat Z with h | ⟨Z', x, h⟩
    · exact absurd h hZ
    · rw [h, List.concat_eq_append, getLastD_concat]; simp
  generalize hu : W.headD 0 = u at *
  generalize hx : W.getLastD 0 = x at *
  generalize hv : Z.headD 0 = v at *
  generalize hy : Z.getLastD 0 = y at *
  simp only [turnsIn_iff] at *
  have zz : ∀ a b c d : Int, sideOf a b c d a b = 0 ∧ sideOf a b c d c d = 0 := by intro a b c d; unfold sideOf; constructor <;> ring
  -- the new vertices lie on the inner side of the edges at the seam
  have near : ∀ q ∈ Z, 0 < sideOf (verts (3 * x)) (verts (3 * x + 2)) (verts (3 * b)) (verts (3 * b + 2)) (verts (3 * q)) (verts (3 * q + 2)) := by
    intro q hq
    refine inner_near (w3 a (by simp) (fun c => haW (c ▸ hl)) hab) t1 (z1 v kh) (z1 q hq) ?_
    by_cases e : q = v
    · subst e; rw [(zz _ _ _ _).2]
    · exact (z2 q (by simp [hq]) (fun c => hbZ (c ▸ hq)) e).le
  have near' : ∀ q ∈ Z, 0 < sideOf (verts (3 * a)) (verts (3 * a + 2)) (verts (3 * u)) (verts (3 * u + 2)) (verts (3 * q)) (verts (3 * q + 2)) := by
    intro q hq
    refine inner_near' (w2 b (by simp) (Ne.symm hab) (fun c => hbW (c ▸ hh))) t2 (z1 y kl) (z1 q hq) ?_
    by_cases e : q = y
    · subst e; rw [(zz _ _ _ _).1]
    · exact (z3 q (by simp [hq]) e (fun c => haZ (c ▸ hq))).le
  intro e he q hq
  rcases pathEdges_cases hW he with rfl | rfl | ⟨h1, h2⟩
  · rw [hu]; exact near' q hq
  · rw [hx]; exact near q hq
  · refine inner_far (w4 e he a (by simp) (fun c => haW (c ▸ h1)) (fun c => haW (c ▸ h2)))
      (w4 e he b (by simp) (fun c => hbW (c ▸ h1)) (fun c => hbW (c ▸ h2)))
      (w3 a (by simp) (fun c => haW (c ▸ hl)) hab) (w2 b (by simp) (Ne.symm hab) (fun c => hbW (c ▸ hh))) (w1 _ h1) ?_ ?_
      (z1 q hq) (near q hq) (near' q hq)
    · by_cases c : e.1 = x
      · rw [c, (zz _ _ _ _).1]
      · exact (w3 _ (by simp [h1]) c (fun c => hbW (c ▸ h1))).le
    · by_cases c : e.1 = u
      · rw [c, (zz _ _ _ _).2]
      · exact (w2 _ (by simp [h1]) (fun c => haW (c ▸ h1)) c).le

/-- Two convex polygons on both sides of an edge, with inner turns at both its ends, make a convex polygon. -/
theorem Bulges.merge {verts : Nat → Nat} {a b : Nat} {W Z : List Nat} (hW : W ≠ []) (hZ : Z ≠ [])
    (hA : Bulges verts (a :: W ++ [b])) (hB : Bulges verts (b :: Z ++ [a]))
    (t1 : TurnsIn verts (W.getLastD 0) b (Z.headD 0)) (t2 : TurnsIn verts (Z.getLastD 0) a (W.headD 0)) :
    Bulges verts (a :: W ++ b :: Z) := by
  have m1 := merged_half hW hZ hA hB t1 t2
  have m2 := merged_half hZ hW hB hA t2 t1
  obtain ⟨hab, haW, hbW, w1, -, -, w4⟩ := hA.open hW
  obtain ⟨-, hbZ, haZ, z1, -, -, z4⟩ := hB.open hZ
  have nW : W.Nodup := by
    have := hA.nodup
    rw [List.cons_append, List.nodup_cons, List.nodup_append] at this
    exact this.2.1
  have nZ : Z.Nodup := by
    have := hB.nodup
    rw [List.cons_append, List.nodup_cons, List.nodup_append] at this
    exact this.2.1
  refine ⟨?_, ?_⟩
  · rw [List.cons_append, List.nodup_cons, List.nodup_append, List.nodup_cons]
    refine ⟨?_, nW, ⟨hbZ, nZ⟩, ?_⟩
    · simp only [List.mem_append, List.mem_cons, not_or]
      exact ⟨haW, hab, haZ⟩
    · intro p hp q hq c
      subst c
      rcases List.mem_cons.1 hq with rfl | hq
      · exact hbW hp
      · have g1 := w1 p hp
        have g2 := z1 p hq
        unfold TurnsIn at g1 g2
        linarith
  · intro e he p hp n1 n2
    have hed : edgesOf (a :: W ++ b :: Z) = pathEdges a (W ++ [b]) ++ pathEdges b (Z ++ [a]) := by
      rw [List.cons_append, edgesOf, List.append_assoc, List.cons_append, pathEdges_append, pathEdges, pathEdges_append a W [b],
        pathEdges, pathEdges]
      simp
    rw [hed] at he
    have hp' : p = a ∨ p ∈ W ∨ p = b ∨ p ∈ Z := by simpa using hp
    rcases List.mem_append.1 he with he | he
    · rcases hp' with h | h | h | h
      · exact w4 e he p (by simp [h]) n1 n2
      · exact w4 e he p (by simp [h]) n1 n2
      · exact w4 e he p (by simp [h]) n1 n2
      · exact m1 e he p h
    · rcases hp' with h | h | h | h
      · exact z4 e he p (by simp [h]) n1 n2
      · exact m2 e he p h
      · exact z4 e he p (by simp [h]) n1 n2
      · exact z4 e he p (by simp [h]) n1 n2

theorem mergeValue_spec {verts : Nat → Nat} {nvp : Nat} {pa pb : List Nat} {v : Int} {ea eb : Nat}
    (h : mergeValue verts nvp pa pb = some (v, ea, eb)) :
    (polyVerts nvp pa).length + (polyVerts nvp pb).length ≤ nvp + 2 ∧
    sharedEdge (polyVerts nvp pa) (polyVerts nvp pb) = some (ea, eb) ∧
    uleft verts ((polyVerts nvp pa).getD ((ea + (polyVerts nvp pa).length - 1) % (polyVerts nvp pa).length) 0)
      ((polyVerts nvp pa).getD ea 0) ((polyVerts nvp pb).getD ((eb + 2) % (polyVerts nvp pb).length) 0) = true ∧
    uleft verts ((polyVerts nvp pb).getD ((eb + (polyVerts nvp pb).length - 1) % (polyVerts nvp pb).length) 0)
      ((polyVerts nvp pb).getD eb 0) ((polyVerts nvp pa).getD ((ea + 2) % (polyVerts nvp pa).length) 0) = true := by
  unfold mergeValue at h
  dsimp only at h
  split at h
  · simp at h
  · rename_i hle
    split at h
    · simp at h
    · rename_i ea' eb' hs
      split at h
      · simp at h
      · rename_i u1
        split at h
        · simp at h
        · rename_i u2
          simp only [Option.some.injEq, Prod.mk.injEq] at h
          obtain ⟨-, rfl, rfl⟩ := h
          exact ⟨by omega, hs, by simpa using u1, by simpa using u2⟩

/-- What the loop keeps: slots well filled with at least three vertices, and no directed edge used twice. -/
structure Mesh (nvp : Nat) (polys : List (List Nat)) : Prop where
  slot : ∀ p ∈ polys, Slot nvp p (polyVerts nvp p)
  three : ∀ p ∈ polys, 3 ≤ (polyVerts nvp p).length
  once : (polys.flatMap fun p => edgesOf (polyVerts nvp p)).Nodup

/-- The vertices of two merged polygons, with all that is known. -/
theorem merge_two {verts : Nat → Nat} {nvp : Nat} {pa pb : List Nat} {v : Int} {ea eb : Nat}
    (ha : Slot nvp pa (polyVerts nvp pa)) (hb : Slot nvp pb (polyVerts nvp pb))
    (ha3 : 3 ≤ (polyVerts nvp pa).length) (hb3 : 3 ≤ (polyVerts nvp pb).length)
    (hd : (edgesOf (polyVerts nvp pa)).Disjoint (edgesOf (polyVerts nvp pb)))
    (h : mergeValue verts nvp pa pb = some (v, ea, eb)) :
    ∃ m M, mergePoly nvp pa pb ea eb = some m ∧ Slot nvp m M ∧ polyVerts nvp m = M ∧
      M.length = (polyVerts nvp pa).length + (polyVerts nvp pb).length - 2 ∧
      (∀ x, x ∈ M ↔ x ∈ polyVerts nvp pa ∨ x ∈ polyVerts nvp pb) ∧
      (∀ f : Nat → Nat → Int, (∀ a b, f a b = -f b a) → loopSum f M = loopSum f (polyVerts nvp pa) + loopSum f (polyVerts nvp pb)) ∧
      (∃ x y, (edgesOf (polyVerts nvp pa) ++ edgesOf (polyVerts nvp pb)).Perm ((x, y) :: (y, x) :: edgesOf M)) ∧
      ((∀ x ∈ polyVerts nvp pa ++ polyVerts nvp pb, x < 21845) → AllTurnIn verts (polyVerts nvp pa) →
        AllTurnIn verts (polyVerts nvp pb) → AllTurnIn verts M) ∧
      ((∀ x ∈ polyVerts nvp pa ++ polyVerts nvp pb, x < 21845) → Bulges verts (polyVerts nvp pa) →
        Bulges verts (polyVerts nvp pb) → Bulges verts M) := by
  obtain ⟨hle, hs, u1, u2⟩ := mergeValue_spec h
  generalize hA : polyVerts nvp pa = A at *
  generalize hB : polyVerts nvp pb = B at *
  obtain ⟨hea, heb, hord⟩ := sharedEdge_spec hs
  have hopp : A.getD ea 0 = B.getD ((eb + 1) % B.length) 0 ∧ A.getD ((ea + 1) % A.length) 0 = B.getD eb 0 := by
    rcases ordPair_eq hord with ⟨e1, e2⟩ | h
    · exfalso
      have m1 := mem_edgesOf A ea hea
      have m2 := mem_edgesOf B eb heb
      rw [e1, e2] at m1
      exact hd m1 m2
    · exact h
  obtain ⟨h1, h2⟩ := hopp
  have hlen : (tailOf A ea ++ tailOf B eb).length = A.length + B.length - 2 := by
    simp only [tailOf, List.length_append, List.length_map, List.length_range]; omega
  have hmem : ∀ x, x ∈ tailOf A ea ++ tailOf B eb ↔ x ∈ A ∨ x ∈ B := by
    intro x
    obtain ⟨a, b, u, U, w, V, e1, f1, hm, -⟩ := merged_shape hea heb ha3 hb3 h1 h2
    rw [hm, ← List.mem_rotate (l := A) (n := ea + 1), ← List.mem_rotate (l := B) (n := eb + 1), e1, f1]
    simp only [List.mem_append, List.mem_cons, List.not_mem_nil, or_false]
    tauto
  have hslot : Slot nvp (tailOf A ea ++ tailOf B eb ++ List.replicate (nvp - (tailOf A ea ++ tailOf B eb).length) meshNull)
      (tailOf A ea ++ tailOf B eb) :=
    ⟨rfl, by rw [hlen]; omega, by
      intro x hx
      rcases (hmem x).1 hx with hx | hx
      · exact ha.ok x hx
      · exact hb.ok x hx⟩
  refine ⟨_, tailOf A ea ++ tailOf B eb, ?_, hslot, hslot.verts, hlen, hmem, fun f hf => merged_sum hea heb ha3 hb3 h1 h2 f hf,
    ⟨_, _, merged_edges hea heb ha3 hb3 h1 h2⟩, ?_, ?_⟩
  · unfold mergePoly
    dsimp only
    rw [hA, hB, if_neg (by rw [hlen]; omega)]
  · intro hsm tA tB t ht
    have gm : ∀ (L : List Nat) k, k < L.length → L.getD k 0 ∈ L := by
      intro L k hk
      rw [List.getD_eq_getElem?_getD, List.getElem?_eq_getElem hk]
      exact List.getElem_mem _
    have sA : ∀ k, k < A.length → A.getD k 0 < 21845 := fun k hk => hsm _ (List.mem_append_left _ (gm A k hk))
    have sB : ∀ k, k < B.length → B.getD k 0 < 21845 := fun k hk => hsm _ (List.mem_append_right _ (gm B k hk))
    have mA : ∀ k, k % A.length < A.length := fun k => Nat.mod_lt _ (by omega)
    have mB : ∀ k, k % B.length < B.length := fun k => Nat.mod_lt _ (by omega)
    rcases merged_corners hea heb ha3 hb3 h1 h2 t ht with h | h | h | h
    · exact tA t h
    · exact tB t h
    · rw [h]
      exact (uleft_iff (sA _ (mA _)) (sA _ hea) (sB _ (mB _))).1 u1
    · rw [h]
      exact (uleft_iff (sB _ (mB _)) (sB _ heb) (sA _ (mA _))).1 u2
  · intro hsm cA cB
    have gm : ∀ (L : List Nat) k, k < L.length → L.getD k 0 ∈ L := by
      intro L k hk
      rw [List.getD_eq_getElem?_getD, List.getElem?_eq_getElem hk]
      exact List.getElem_mem _
    have sA : ∀ k, k < A.length → A.getD k 0 < 21845 := fun k hk => hsm _ (List.mem_append_left _ (gm A k hk))
    have sB : ∀ k, k < B.length → B.getD k 0 < 21845 := fun k hk => hsm _ (List.mem_append_right _ (gm B k hk))
    have mA : ∀ k, k % A.length < A.length := fun k => Nat.mod_lt _ (by omega)
    have mB : ∀ k, k % B.length < B.length := fun k => Nat.mod_lt _ (by omega)
    have t1 := (uleft_iff (sA _ (mA _)) (sA _ hea) (sB _ (mB _))).1 u1
    have t2 := (uleft_iff (sB _ (mB _)) (sB _ heb) (sA _ (mA _))).1 u2
    obtain ⟨a, b, u, U, w, V, e1, f1, hm, ea', eb', e3, e4, f3, f4⟩ := merged_shape hea heb ha3 hb3 h1 h2
    rw [← e4, ← eb', ← f3] at t1
    rw [← f4, ← ea', ← e3] at t2
    rw [← Bulges.rotate (ea + 1), e1] at cA
    rw [← Bulges.rotate (eb + 1), f1] at cB
    rw [hm]
    exact Bulges.merge (W := u :: U) (Z := w :: V) (by simp) (by simp) cA cB t1 t2

/-! ## The loop -/

theorem mem_pairs {n j k : Nat} : (j, k) ∈ polyPairs n ↔ j < k ∧ k < n := by
  simp only [polyPairs, List.mem_flatMap, List.mem_range, List.mem_map, List.mem_range'_1, Prod.mk.injEq]
  constructor
  · rintro ⟨a, ha, b, hb, rfl, rfl⟩; omega
  · intro h; exact ⟨j, by omega, k, by omega, rfl, rfl⟩

theorem bestOf_spec (verts : Nat → Nat) (nvp : Nat) (polys : List (List Nat)) :
    (0 < (bestOf verts nvp polys).1 → (bestOf verts nvp polys).2.1 < (bestOf verts nvp polys).2.2.1 ∧
      (bestOf verts nvp polys).2.2.1 < polys.length ∧
      mergeValue verts nvp (polys.getD (bestOf verts nvp polys).2.1 []) (polys.getD (bestOf verts nvp polys).2.2.1 []) =
        some ((bestOf verts nvp polys).1, (bestOf verts nvp polys).2.2.2.1, (bestOf verts nvp polys).2.2.2.2)) ∧
    ∀ j k, j < k → k < polys.length → ∀ v ea eb, mergeValue verts nvp (polys.getD j []) (polys.getD k []) = some (v, ea, eb) →
      v ≤ (bestOf verts nvp polys).1 := by
  have key : ∀ (ps : List (Nat × Nat)) (b : Best), (∀ p ∈ ps, p.1 < p.2 ∧ p.2 < polys.length) →
      (0 < b.1 → b.2.1 < b.2.2.1 ∧ b.2.2.1 < polys.length ∧
        mergeValue verts nvp (polys.getD b.2.1 []) (polys.getD b.2.2.1 []) = some (b.1, b.2.2.2.1, b.2.2.2.2)) → 0 ≤ b.1 →
      ∀ r, ps.foldl (bestPair verts nvp polys) b = r →
        (0 < r.1 → r.2.1 < r.2.2.1 ∧ r.2.2.1 < polys.length ∧
          mergeValue verts nvp (polys.getD r.2.1 []) (polys.getD r.2.2.1 []) = some (r.1, r.2.2.2.1, r.2.2.2.2)) ∧ b.1 ≤ r.1 ∧
        ∀ p ∈ ps, ∀ v ea eb, mergeValue verts nvp (polys.getD p.1 []) (polys.getD p.2 []) = some (v, ea, eb) → v ≤ r.1 := by
    intro ps
    induction ps with
    | nil => intro b _ hb _ r hr; subst hr; exact ⟨hb, le_rfl, by simp⟩
    | cons p ps ih =>
      intro b hp hb h0 r hr
      rw [List.foldl_cons] at hr
      have hstep : (0 < (bestPair verts nvp polys b p).1 → (bestPair verts nvp polys b p).2.1 < (bestPair verts nvp polys b p).2.2.1 ∧
          (bestPair verts nvp polys b p).2.2.1 < polys.length ∧
          mergeValue verts nvp (polys.getD (bestPair verts nvp polys b p).2.1 []) (polys.getD (bestPair verts nvp polys b p).2.2.1 []) =
            some ((bestPair verts nvp polys b p).1, (bestPair verts nvp polys b p).2.2.2.1, (bestPair verts nvp polys b p).2.2.2.2)) ∧
          b.1 ≤ (bestPair verts nvp polys b p).1 ∧
          ∀ v ea eb, mergeValue verts nvp (polys.getD p.1 []) (polys.getD p.2 []) = some (v, ea, eb) → v ≤ (bestPair verts nvp polys b p).1 := by
        unfold bestPair
        cases hm : mergeValue verts nvp (polys.getD p.1 []) (polys.getD p.2 []) with
        | none => exact ⟨hb, le_rfl, by simp⟩
        | some x =>
          obtain ⟨v, ea, eb⟩ := x
          dsimp only
          by_cases hv : b.1 < v
          · rw [if_pos hv]
            exact ⟨fun _ => ⟨(hp p (List.mem_cons_self ..)).1, (hp p (List.mem_cons_self ..)).2, hm⟩, le_of_lt hv,
              by rintro v' ea' eb' he; simp only [Option.some.injEq, Prod.mk.injEq] at he; dsimp only; omega⟩
          · rw [if_neg hv]
            exact ⟨hb, le_rfl, by rintro v' ea' eb' he; simp only [Option.some.injEq, Prod.mk.injEq] at he; omega⟩
      obtain ⟨g1, g2, g3⟩ := hstep
      obtain ⟨k1, k2, k3⟩ := ih _ (fun q hq => hp q (List.mem_cons_of_mem _ hq)) g1 (by omega) r hr
      refine ⟨k1, by omega, ?_⟩
      intro q hq v ea eb hm
      rcases List.mem_cons.1 hq with rfl | hq
      · have := g3 v ea eb hm; omega
      · exact k3 q hq v ea eb hm
  obtain ⟨h1, -, h3⟩ := key (polyPairs polys.length) (0, 0, 0, 0, 0) (by rintro ⟨j, k⟩ hp; exact mem_pairs.1 hp) (by simp) le_rfl _ rfl
  exact ⟨h1, fun j k hjk hk v ea eb hm => h3 (j, k) (mem_pairs.2 ⟨hjk, hk⟩) v ea eb hm⟩

theorem swapRemove_perm {α : Type} (l : List α) (j : Nat) (d : α) (h : j < l.length) :
    ((l.set j (l.getD (l.length - 1) d)).dropLast).Perm (l.eraseIdx j) := by
  rcases List.eq_nil_or_concat l with rfl | ⟨t, x, rfl⟩
  · simp at h
  · simp only [List.concat_eq_append] at h ⊢
    have hx : (t ++ [x]).getD ((t ++ [x]).length - 1) d = x := by simp
    rw [hx]
    simp only [List.length_append, List.length_cons, List.length_nil] at h
    by_cases e : j < t.length
    · rw [List.set_append_left _ _ e, List.dropLast_concat, List.eraseIdx_append_of_lt_length e]
      exact (List.set_perm_cons_eraseIdx e x).trans (List.perm_append_singleton _ _).symm
    · have : j = t.length := by omega
      subst this
      rw [List.eraseIdx_append_of_length_le le_rfl]
      simp

theorem mergeBest_perm {α : Type} (l : List α) (i j : Nat) (m d : α) (hij : i < j) (hj : j < l.length) :
    ∃ rest, l.Perm (l.getD i d :: l.getD j d :: rest) ∧
      (((l.set i m).set j ((l.set i m).getD ((l.set i m).length - 1) d)).dropLast).Perm (m :: rest) := by
  have hi : i < l.length := by omega
  have hie : i < (l.eraseIdx j).length := by rw [List.length_eraseIdx, if_pos hj]; omega
  refine ⟨(l.eraseIdx j).eraseIdx i, ?_, ?_⟩
  · have p1 := (List.getElem_cons_eraseIdx_perm hj).symm
    have p2 := (List.getElem_cons_eraseIdx_perm hie).symm
    have e1 : l.getD j d = l[j] := by simp [List.getD_eq_getElem?_getD, hj]
    have e2 : l.getD i d = (l.eraseIdx j)[i] := by
      rw [List.getElem_eraseIdx_of_lt hie hij]; simp [List.getD_eq_getElem?_getD, hi]
    rw [e1, e2]
    exact (p1.trans (p2.cons _)).trans (List.Perm.swap _ _ _)
  · refine (swapRemove_perm (l.set i m) j d (by simpa using hj)).trans ?_
    have : (l.set i m).eraseIdx j = (l.eraseIdx j).set i m := by
      rw [List.eraseIdx_set_gt]
      omega
    rw [this]
    exact List.set_perm_cons_eraseIdx hie m

/-- The sum of `f` over the edges of all polygons. -/
def polySum (nvp : Nat) (f : Nat → Nat → Int) (polys : List (List Nat)) : Int :=
  (polys.map fun p => loopSum f (polyVerts nvp p)).sum

/-- What one merge keeps. -/
structure Kept (verts : Nat → Nat) (nvp : Nat) (polys res : List (List Nat)) : Prop where
  mesh : Mesh nvp res
  len : res.length ≤ polys.length
  sum : ∀ f : Nat → Nat → Int, (∀ a b, f a b = -f b a) → polySum nvp f res = polySum nvp f polys
  same : ∀ x, (∃ p ∈ res, x ∈ polyVerts nvp p) ↔ ∃ p ∈ polys, x ∈ polyVerts nvp p
  edges : (res.flatMap fun p => edgesOf (polyVerts nvp p)).Subperm (polys.flatMap fun p => edgesOf (polyVerts nvp p))
  turn : (∀ p ∈ polys, (∀ x ∈ polyVerts nvp p, x < 21845) ∧ AllTurnIn verts (polyVerts nvp p)) →
    ∀ p ∈ res, AllTurnIn verts (polyVerts nvp p)
  bulge : (∀ p ∈ polys, (∀ x ∈ polyVerts nvp p, x < 21845) ∧ Bulges verts (polyVerts nvp p)) →
    ∀ p ∈ res, Bulges verts (polyVerts nvp p)

theorem Kept.trans {verts : Nat → Nat} {nvp : Nat} {a b c : List (List Nat)} (h : Kept verts nvp a b) (h' : Kept verts nvp b c) :
    Kept verts nvp a c := by
  refine ⟨h'.mesh, h'.len.trans h.len, fun f hf => (h'.sum f hf).trans (h.sum f hf), fun x => (h'.same x).trans (h.same x),
    h'.edges.trans h.edges, fun ht => h'.turn fun p hp => ⟨fun x hx => ?_, h.turn ht p hp⟩,
    fun ht => h'.bulge fun p hp => ⟨fun x hx => ?_, h.bulge ht p hp⟩⟩
  · obtain ⟨q, hq, hxq⟩ := (h.same x).1 ⟨p, hp, hx⟩
    exact (ht q hq).1 x hxq
  · obtain ⟨q, hq, hxq⟩ := (h.same x).1 ⟨p, hp, hx⟩
    exact (ht q hq).1 x hxq

theorem mergeBest_kept {verts : Nat → Nat} {nvp : Nat} {polys : List (List Nat)} (hm : Mesh nvp polys)
    (hb : 0 < (bestOf verts nvp polys).1) :
    ∃ res, mergeBest nvp polys (bestOf verts nvp polys) = some res ∧ res.length + 1 = polys.length ∧ Kept verts nvp polys res := by
  obtain ⟨hij, hj, hv⟩ := (bestOf_spec verts nvp polys).1 hb
  generalize bestOf verts nvp polys = b at *
  obtain ⟨v, i, j, ea, eb⟩ := b
  dsimp only at *
  have gm : ∀ k, k < polys.length → polys.getD k [] ∈ polys := by
    intro k hk
    rw [List.getD_eq_getElem?_getD, List.getElem?_eq_getElem hk]
    exact List.getElem_mem _
  have ma := gm i (by omega)
  have mb := gm j hj
  obtain ⟨rest, p1, -⟩ := mergeBest_perm polys i j ([] : List Nat) [] hij hj
  have hnd : ((polys.getD i [] :: polys.getD j [] :: rest).flatMap fun p => edgesOf (polyVerts nvp p)).Nodup :=
    ((p1.flatMap_right _).nodup_iff).1 hm.once
  simp only [List.flatMap_cons] at hnd
  have hdis : (edgesOf (polyVerts nvp (polys.getD i []))).Disjoint (edgesOf (polyVerts nvp (polys.getD j []))) := by
    intro t h1 h2
    exact (List.nodup_append'.1 hnd).2.2 h1 (List.mem_append_left _ h2)
  obtain ⟨m, M, e1, e2, e3, e4, e5, e6, ⟨x, y, e7⟩, e8, e9⟩ := merge_two (hm.slot _ ma) (hm.slot _ mb) (hm.three _ ma) (hm.three _ mb) hdis hv
  obtain ⟨rest, p1, p2⟩ := mergeBest_perm polys i j m [] hij hj
  have hres : mergeBest nvp polys (v, i, j, ea, eb) =
      some (((polys.set i m).set j ((polys.set i m).getD ((polys.set i m).length - 1) [])).dropLast) := by
    unfold mergeBest
    dsimp only
    rw [e1]
    rfl
  generalize ((polys.set i m).set j ((polys.set i m).getD ((polys.set i m).length - 1) [])).dropLast = res at p2 hres
  have la : 3 ≤ (polyVerts nvp (polys.getD i [])).length := hm.three _ ma
  have lb : 3 ≤ (polyVerts nvp (polys.getD j [])).length := hm.three _ mb
  have hed : (res.flatMap fun p => edgesOf (polyVerts nvp p)).Subperm (polys.flatMap fun p => edgesOf (polyVerts nvp p)) := by
    have q1 := p2.flatMap_right (fun p => edgesOf (polyVerts nvp p))
    have q2 := p1.flatMap_right (fun p => edgesOf (polyVerts nvp p))
    simp only [List.flatMap_cons, e3] at q1 q2
    rw [← List.append_assoc] at q2
    have q3 := q2.trans (e7.append_right _)
    refine (q1.subperm_right).2 ?_ |> fun h => h
    refine (q3.subperm_left).2 ?_
    exact (List.Sublist.cons _ (List.Sublist.cons _ (List.Sublist.refl _))).subperm
  refine ⟨res, hres, ?_, ?_, ?_, ?_, ?_, hed, ?_, ?_⟩
  · have := p2.length_eq
    have := p1.length_eq
    simp only [List.length_cons] at *
    omega
  · constructor
    · intro p hp
      rcases List.mem_cons.1 (p2.mem_iff.1 hp) with rfl | hp
      · rw [e3]; exact e2
      · exact hm.slot p (p1.mem_iff.2 (List.mem_cons_of_mem _ (List.mem_cons_of_mem _ hp)))
    · intro p hp
      rcases List.mem_cons.1 (p2.mem_iff.1 hp) with rfl | hp
      · rw [e3, e4]; omega
      · exact hm.three p (p1.mem_iff.2 (List.mem_cons_of_mem _ (List.mem_cons_of_mem _ hp)))
    · obtain ⟨l, hl1, hl2⟩ := hed
      exact hl1.nodup_iff.1 (hm.once.sublist hl2)
  · have := p2.length_eq
    have := p1.length_eq
    simp only [List.length_cons] at *
    omega
  · intro f hf
    unfold polySum
    rw [(p2.map _).sum_eq, (p1.map _).sum_eq]
    simp only [List.map_cons, List.sum_cons]
    rw [e3, e6 f hf]
    ring
  · intro z
    constructor
    · rintro ⟨p, hp, hz⟩
      rcases List.mem_cons.1 (p2.mem_iff.1 hp) with rfl | hp
      · rw [e3, e5] at hz
        rcases hz with hz | hz
        · exact ⟨_, ma, hz⟩
        · exact ⟨_, mb, hz⟩
      · exact ⟨p, p1.mem_iff.2 (List.mem_cons_of_mem _ (List.mem_cons_of_mem _ hp)), hz⟩
    · rintro ⟨p, hp, hz⟩
      have hin : ∀ q, q ∈ m :: rest → q ∈ res := fun q hq => p2.mem_iff.2 hq
      rcases List.mem_cons.1 (p1.mem_iff.1 hp) with rfl | hp
      · exact ⟨m, hin _ (List.mem_cons_self ..), by rw [e3, e5]; exact Or.inl hz⟩
      · rcases List.mem_cons.1 hp with rfl | hp
        · exact ⟨m, hin _ (List.mem_cons_self ..), by rw [e3, e5]; exact Or.inr hz⟩
        · exact ⟨p, hin _ (List.mem_cons_of_mem _ hp), hz⟩
  · intro ht p hp
    rcases List.mem_cons.1 (p2.mem_iff.1 hp) with rfl | hp
    · rw [e3]
      refine e8 ?_ (ht _ ma).2 (ht _ mb).2
      intro z hz
      rcases List.mem_append.1 hz with hz | hz
      · exact (ht _ ma).1 z hz
      · exact (ht _ mb).1 z hz
    · exact (ht p (p1.mem_iff.2 (List.mem_cons_of_mem _ (List.mem_cons_of_mem _ hp)))).2
  · intro ht p hp
    rcases List.mem_cons.1 (p2.mem_iff.1 hp) with rfl | hp
    · rw [e3]
      refine e9 ?_ (ht _ ma).2 (ht _ mb).2
      intro z hz
      rcases List.mem_append.1 hz with hz | hz
      · exact (ht _ ma).1 z hz
      · exact (ht _ mb).1 z hz
    · exact (ht p (p1.mem_iff.2 (List.mem_cons_of_mem _ (List.mem_cons_of_mem _ hp)))).2

theorem mergePolys_kept (verts : Nat → Nat) (nvp : Nat) (fuel : Nat) : ∀ (polys : List (List Nat)), Mesh nvp polys →
    polys.length ≤ fuel → ∃ res, mergePolys verts nvp fuel polys = some res ∧ Kept verts nvp polys res ∧
      (bestOf verts nvp res).1 ≤ 0 := by
  have refl : ∀ polys, Mesh nvp polys → Kept verts nvp polys polys := fun polys hm =>
    ⟨hm, le_rfl, fun _ _ => rfl, fun _ => Iff.rfl, List.Subperm.refl _, fun ht p hp => (ht p hp).2, fun ht p hp => (ht p hp).2⟩
  induction fuel with
  | zero =>
    intro polys hm hf
    have : polys = [] := List.length_eq_zero_iff.1 (by omega)
    subst this
    have hb : (bestOf verts nvp []).1 = 0 := by simp [bestOf, polyPairs]
    refine ⟨[], ?_, refl _ hm, by rw [hb]⟩
    rw [mergePolys]
    rw [hb, if_neg (by omega)]
  | succ fuel ih =>
    intro polys hm hf
    rw [mergePolys]
    by_cases hb : 0 < (bestOf verts nvp polys).1
    · rw [if_pos hb]
      obtain ⟨res, e1, e2, e3⟩ := mergeBest_kept hm hb
      obtain ⟨res', f1, f2, f3⟩ := ih res e3.mesh (by omega)
      refine ⟨res', ?_, e3.trans f2, f3⟩
      rw [e1]
      exact f1
    · rw [if_neg hb]
      exact ⟨polys, rfl, refl _ hm, by omega⟩

/-- **C58**: merging two polygons that share no directed edge along the edge that `getPolyMergeValue` found:
the result fits the slot and has `na + nb - 2 <= nvp` vertices, exactly those of the two. -/
theorem merge_budget {verts : Nat → Nat} {nvp : Nat} {pa pb A B : List Nat} {v : Int} {ea eb : Nat} (ha : Slot nvp pa A) (hb : Slot nvp pb B)
    (ha3 : 3 ≤ A.length) (hb3 : 3 ≤ B.length) (hd : (edgesOf A).Disjoint (edgesOf B))
    (h : mergeValue verts nvp pa pb = some (v, ea, eb)) :
    ∃ m M, mergePoly nvp pa pb ea eb = some m ∧ Slot nvp m M ∧ M.length = A.length + B.length - 2 ∧ M.length ≤ nvp ∧
      ∀ x, x ∈ M ↔ x ∈ A ∨ x ∈ B := by
  have eA := ha.verts
  have eB := hb.verts
  obtain ⟨m, M, e1, e2, e3, e4, e5, -⟩ := merge_two (eA ▸ ha) (eB ▸ hb) (eA ▸ ha3) (eB ▸ hb3) (by rw [eA, eB]; exact hd) h
  rw [eA, eB] at e4
  simp only [eA, eB] at e5
  exact ⟨m, M, e1, e2, e4, e2.le, e5⟩

/-- The area term on the vertices' coordinates. -/
def areaTerm (verts : Nat → Nat) (a b : Nat) : Int :=
  (verts (3 * b) : Int) * verts (3 * a + 2) - (verts (3 * a) : Int) * verts (3 * b + 2)

/-- Spec: twice the signed area of a polygon of vertex numbers. -/
def polyArea (verts : Nat → Nat) (A : List Nat) : Int := loopSum (areaTerm verts) A

/-- **C58**: the signed area of the merged polygon is the sum of the two, and if both turn in at every corner,
so does it (vertex numbers below 21845, see `merge_index_refuted`). -/
theorem polyMerge_area {verts : Nat → Nat} {nvp : Nat} {pa pb A B : List Nat} {v : Int} {ea eb : Nat} (ha : Slot nvp pa A) (hb : Slot nvp pb B)
    (ha3 : 3 ≤ A.length) (hb3 : 3 ≤ B.length) (hd : (edgesOf A).Disjoint (edgesOf B))
    (h : mergeValue verts nvp pa pb = some (v, ea, eb)) :
    ∃ m M, mergePoly nvp pa pb ea eb = some m ∧ Slot nvp m M ∧ polyArea verts M = polyArea verts A + polyArea verts B ∧
      ((∀ x ∈ A ++ B, x < 21845) → AllTurnIn verts A → AllTurnIn verts B → AllTurnIn verts M) := by
  have eA := ha.verts
  have eB := hb.verts
  obtain ⟨m, M, e1, e2, e3, e4, e5, e6, -, e8, -⟩ := merge_two (eA ▸ ha) (eB ▸ hb) (eA ▸ ha3) (eB ▸ hb3) (by rw [eA, eB]; exact hd) h
  rw [eA, eB] at e8
  simp only [eA, eB] at e6
  exact ⟨m, M, e1, e2, e6 _ (by intro a b; simp [areaTerm]), e8⟩

/-- **C58**: the whole loop. From polygons in which no directed edge is used twice it always ends, without a
write out of bounds, with polygons of three to `nvp` vertices, not more of them, with the same vertices and
the same sum of signed areas; if all turned in at every corner, all still do; and no pair is left that could
be merged along an edge of positive length. -/
theorem mergePolys_spec (verts : Nat → Nat) (nvp : Nat) (polys : List (List Nat)) (hm : Mesh nvp polys) :
    ∃ res, mergePolys verts nvp polys.length polys = some res ∧ res.length ≤ polys.length ∧
      (∀ p ∈ res, Slot nvp p (polyVerts nvp p) ∧ 3 ≤ (polyVerts nvp p).length ∧ (polyVerts nvp p).length ≤ nvp) ∧
      (∀ x, (∃ p ∈ res, x ∈ polyVerts nvp p) ↔ ∃ p ∈ polys, x ∈ polyVerts nvp p) ∧
      (res.map fun p => polyArea verts (polyVerts nvp p)).sum = (polys.map fun p => polyArea verts (polyVerts nvp p)).sum ∧
      ((∀ p ∈ polys, (∀ x ∈ polyVerts nvp p, x < 21845) ∧ AllTurnIn verts (polyVerts nvp p)) →
        ∀ p ∈ res, AllTurnIn verts (polyVerts nvp p)) ∧
      (∀ j k, j < k → k < res.length → ∀ v ea eb, mergeValue verts nvp (res.getD j []) (res.getD k []) = some (v, ea, eb) → v ≤ 0) := by
  obtain ⟨res, e1, e2, e3⟩ := mergePolys_kept verts nvp polys.length polys hm le_rfl
  refine ⟨res, e1, e2.len, fun p hp => ⟨e2.mesh.slot p hp, e2.mesh.three p hp, (e2.mesh.slot p hp).le⟩, e2.same, ?_, e2.turn, ?_⟩
  · exact e2.sum (areaTerm verts) (by intro a b; simp [areaTerm])
  · intro j k hjk hk v ea eb hv
    exact ((bestOf_spec verts nvp res).2 j k hjk hk v ea eb hv).trans e3

/-- **C132**: the merge loop keeps convexity: if every polygon has distinct vertices and every edge of it has all
its other vertices strictly on the inner side, the same holds for the polygons after the merges. -/
theorem mergePolys_convex (verts : Nat → Nat) (nvp : Nat) (polys : List (List Nat)) (hm : Mesh nvp polys)
    (h : ∀ p ∈ polys, (∀ x ∈ polyVerts nvp p, x < 21845) ∧ Bulges verts (polyVerts nvp p)) :
    ∃ res, mergePolys verts nvp polys.length polys = some res ∧ ∀ p ∈ res, Bulges verts (polyVerts nvp p) := by
  obtain ⟨res, e1, e2, -⟩ := mergePolys_kept verts nvp polys.length polys hm le_rfl
  exact ⟨res, e1, e2.bulge h⟩

/-- A sample vertex array: the corners of a square of 4 cells. -/
def squareVerts (o : Nat) : Nat := [0, 0, 0, 0, 0, 4, 4, 0, 4, 4, 0, 0].getD o 0

theorem sample_mesh : Mesh 6 [[0, 1, 2, 65535, 65535, 65535], [0, 2, 3, 65535, 65535, 65535]] := by
  refine ⟨?_, ?_, ?_⟩
  · intro p hp
    simp only [List.mem_cons, List.not_mem_nil, or_false] at hp
    rcases hp with rfl | rfl
    · exact ⟨by decide, by decide, by decide⟩
    · exact ⟨by decide, by decide, by decide⟩
  · decide
  · decide

/-- The two triangles of a square become one polygon. -/
example : mergePolys squareVerts 6 2 [[0, 1, 2, 65535, 65535, 65535], [0, 2, 3, 65535, 65535, 65535]] =
    some [[0, 1, 2, 3, 65535, 65535]] := by decide +kernel

/-- The hypotheses of `mergePolys_convex` hold for them. -/
example : ∀ p ∈ [[0, 1, 2, 65535, 65535, 65535], [0, 2, 3, 65535, 65535, 65535]],
    (∀ x ∈ polyVerts 6 p, x < 21845) ∧ Bulges squareVerts (polyVerts 6 p) := by
  intro p hp
  simp only [List.mem_cons, List.not_mem_nil, or_false] at hp
  rcases hp with rfl | rfl
  · exact ⟨by decide, by decide, by unfold TurnsIn; decide⟩
  · exact ⟨by decide, by decide, by unfold TurnsIn; decide⟩

/-- A vertex array with more than 21845 vertices, of which four matter: 0, 1, 2 and 30000; the vertex whose
place the code reads instead of that of vertex 30000 is `30000*3 - 65536 = 24464`. -/
def manyVerts (o : Nat) : Nat :=
  if o = 3 + 2 then 4 else if o = 6 then 4 else if o = 6 + 2 then 4
  else if o = 90000 then 8 else if o = 90002 then 6 else if o = 24464 then 4 else 0

/-- **C58** (refuted for large meshes): vertex numbers are multiplied by 3 as `uint16`, so from vertex 21846 on
`getPolyMergeValue` looks at the wrong coordinates, and here accepts a merge that leaves a corner turning out.
`BuildPolyMesh` allows up to 65533 vertices. -/
theorem merge_index_refuted : ∃ (verts : Nat → Nat) (nvp : Nat) (pa pb A B M : List Nat) (v : Int) (ea eb : Nat) (m : List Nat),
    (∀ x ∈ A ++ B, x < 0xfffd) ∧ Slot nvp pa A ∧ Slot nvp pb B ∧ AllTurnIn verts A ∧ AllTurnIn verts B ∧
    (edgesOf A).Disjoint (edgesOf B) ∧
    mergeValue verts nvp pa pb = some (v, ea, eb) ∧ 0 < v ∧ mergePoly nvp pa pb ea eb = some m ∧ Slot nvp m M ∧
    ¬ AllTurnIn verts M := by
  refine ⟨manyVerts, 6, [0, 1, 2, 65535, 65535, 65535], [0, 2, 30000, 65535, 65535, 65535], [0, 1, 2], [0, 2, 30000], [0, 1, 2, 30000],
    32, 2, 0, [0, 1, 2, 30000, 65535, 65535], by decide, ⟨by decide, by decide, by decide⟩, ⟨by decide, by decide, by decide⟩,
    ?_, ?_, List.disjoint_left.2 (by decide), by decide +kernel, by decide, by decide +kernel, ⟨by decide, by decide, by decide⟩, ?_⟩
  · intro t ht
    simp only [cornersOf, triples, List.cons_append, List.nil_append, List.take_succ_cons, List.take_zero, List.mem_cons,
      List.not_mem_nil, or_false] at ht
    rcases ht with rfl | rfl | rfl <;> simp [TurnsIn, manyVerts]
  · intro t ht
    simp only [cornersOf, triples, List.cons_append, List.nil_append, List.take_succ_cons, List.take_zero, List.mem_cons,
      List.not_mem_nil, or_false] at ht
    rcases ht with rfl | rfl | rfl <;> simp [TurnsIn, manyVerts]
  · intro h
    have := h (1, 2, 30000) (by decide)
    simp [TurnsIn, manyVerts] at this

end Verif.Recast
