/-
From contours to polygons: the first half of `BuildPolyMesh` (recast/polymesh.go:55-238).

Simplifications: the arrays `indices`, `tris`, `polys`, `mesh.Polys`, `mesh.Regs` and `mesh.Areas` are lists
(a polygon with its region and area is one entry); the neighbour half of a polygon's slot is left out here,
see `Adjacency`; `nvp` is at least 3, as the documentation asks. The coordinates of contours are `int32`s that
are cut down to `uint16`s when vertices are added.
-/
import Verif.Recast.PolyMerge
import Verif.Recast.AddVertex
import Verif.Recast.ContourTrace
import Verif.Recast.Adjacency

namespace Verif.Recast
open Verif Verif.Detour

set_option linter.unusedSimpArgs false
set_option linter.unusedVariables false

/-- `uint16(v[0]), uint16(v[1]), uint16(v[2])` (recast/polymesh.go:152). -/
def toMV (p : Pt) : MV := ⟨BitVec.ofInt 16 p.x, BitVec.ofInt 16 p.y, BitVec.ofInt 16 p.z⟩

/-- `mesh.Verts[o]`: the entries of the vertices one after the other. -/
def coordAt (l : List MV) (o : Nat) : Nat :=
  match o % 3 with
  | 0 => (l.getD (o / 3) default).x.toNat
  | 1 => (l.getD (o / 3) default).y.toNat
  | _ => (l.getD (o / 3) default).z.toNat

/-- `t[0] != t[1] && t[0] != t[2] && t[1] != t[2]` (recast/polymesh.go:169). -/
def distinctTri (t : Tri3) : Bool := decide (t.1 ≠ t.2.1 ∧ t.1 ≠ t.2.2 ∧ t.2.1 ≠ t.2.2)

/-- The slot of a triangle (recast/polymesh.go:163-172); `idx` are the numbers of the contour's vertices. -/
def triSlot (nvp : Nat) (idx : List Nat) (t : Tri3) : List Nat :=
  [idx.getD t.1 0, idx.getD t.2.1 0, idx.getD t.2.2 0] ++ List.replicate (nvp - 3) meshNull

/-- The polygons of a contour (recast/polymesh.go:127-221): the vertex table, the numbers of the contour's
vertices and the polygons; `none` is an index out of range. -/
def contourPolys (nvp : Nat) (s : Weld) (verts : List Pt) : Option (Weld × List Nat × List (List Nat)) :=
  match triangulate (fun j => verts.getD j default) (List.range verts.length) with
  | none => none
  | some (_, ts) =>
    let r := addVertices s (verts.map toMV)
    let p0 := (ts.filter distinctTri).map (triSlot nvp r.1)
    (if 3 < nvp then mergePolys (coordAt r.2.list) nvp p0.length p0 else some p0).map fun p => (r.2, r.1, p)

/-- A polygon of the mesh: its slot in `mesh.Polys`, `mesh.Regs[i]`, `mesh.Areas[i]`. -/
structure MPoly where
  vs : List Nat
  reg : Nat
  area : Nat
deriving DecidableEq, Repr

instance : Inhabited MPoly := ⟨⟨[], 0, 0⟩⟩

/-- The mesh while contours are added: `mesh.Verts` with its hash table, `vflags`, the polygons. -/
structure Growing where
  weld : Weld
  vflags : Nat → Bool
  polys : List MPoly

/-- `(v[3] & borderVertex) != 0` (recast/polymesh.go:154). -/
def isBorderPt (p : Pt) : Bool := decide (p.r.toNat &&& 0x10000 ≠ 0)

/-- `vflags[indices[j]] = 1` (recast/polymesh.go:150-158). -/
def flagBorder (fl : Nat → Bool) (ps : List (Pt × Nat)) : Nat → Bool :=
  ps.foldl (fun fl q => if isBorderPt q.1 then upd fl q.2 true else fl) fl

/-- Storing the polygons (recast/polymesh.go:223-237); `none` if the arrays of `maxTris` entries are full. -/
def storePolys (maxTris reg area : Nat) : List MPoly → List (List Nat) → Option (List MPoly)
  | acc, [] => some acc
  | acc, q :: qs => if maxTris ≤ acc.length then none else storePolys maxTris reg area (acc ++ [⟨q, reg, area⟩]) qs

/-- One contour (recast/polymesh.go:119-238). -/
def addContour (nvp maxTris : Nat) (st : Growing) (c : Cont) : Option Growing :=
  if c.verts.length < 3 then some st
  else
    match contourPolys nvp st.weld c.verts with
    | none => none
    | some (w, idx, ps) =>
      (storePolys maxTris c.reg c.area st.polys ps).map fun polys =>
        ⟨w, flagBorder st.vflags (c.verts.zip idx), polys⟩

/-- `maxVertices` (recast/polymesh.go:68-76). -/
def maxVertices (conts : List Cont) : Nat :=
  (conts.map fun c => if c.verts.length < 3 then 0 else c.verts.length).sum

/-- `maxTris` (recast/polymesh.go:68-76). -/
def maxTriangles (conts : List Cont) : Nat :=
  (conts.map fun c => if c.verts.length < 3 then 0 else c.verts.length - 2).sum

/-- All contours (recast/polymesh.go:119-238). -/
def polysOfContours (nvp : Nat) (conts : List Cont) : Option Growing :=
  conts.foldlM (addContour nvp (maxTriangles conts)) ⟨Weld.empty, fun _ => false, []⟩

/-! ## The triangles of a contour use no directed edge twice -/

/-- Spec: the directed edges of triangles. -/
def triEdges (ts : List Tri3) : List (Nat × Nat) := ts.flatMap fun t => [(t.1, t.2.1), (t.2.1, t.2.2), (t.2.2, t.1)]

/-- The ring from the ear on: the ear's three vertices, and the ring without the middle one. -/
theorem ear_rotated (l : List Nat) (i : Nat) (hn : 3 < l.length) (hi : i < l.length) :
    ∃ a b c R, R ≠ [] ∧ l.IsRotated (a :: b :: c :: R) ∧ (l.eraseIdx (next i l.length)).IsRotated (a :: c :: R) ∧
      l.getD i 0 = a ∧ l.getD (next i l.length) 0 = b ∧ l.getD (next (next i l.length) l.length) 0 = c := by
  have cut : ∀ A B : List Nat, (A ++ B).IsRotated (B ++ A) := fun A B => ⟨A.length, by rw [List.rotate_append_length_eq]⟩
  by_cases h1 : i + 1 < l.length
  · by_cases h2 : i + 2 < l.length
    · have e1 : next i l.length = i + 1 := by simp [next, h1]
      have e2 : next (i + 1) l.length = i + 2 := by simp [next, h2]
      rw [e1, e2]
      have hl : l = l.take i ++ l.getD i 0 :: l.getD (i + 1) 0 :: l.getD (i + 2) 0 :: l.drop (i + 3) := by
        conv_lhs => rw [← List.take_append_drop i l]
        rw [List.drop_eq_getElem_cons hi, List.drop_eq_getElem_cons h1, List.drop_eq_getElem_cons h2]
        simp [List.getD_eq_getElem?_getD, hi, h1, h2]
      have he : l.eraseIdx (i + 1) = l.take i ++ l.getD i 0 :: l.getD (i + 2) 0 :: l.drop (i + 3) := by
        conv_lhs => rw [hl]
        rw [List.eraseIdx_append_of_length_le (by rw [List.length_take]; omega)]
        have : i + 1 - (l.take i).length = 1 := by rw [List.length_take]; omega
        rw [this]
        rfl
      refine ⟨l.getD i 0, l.getD (i + 1) 0, l.getD (i + 2) 0, l.drop (i + 3) ++ l.take i, ?_, ?_, ?_, rfl, rfl, rfl⟩
      · intro c
        have := congrArg List.length c
        simp only [List.length_append, List.length_drop, List.length_take, List.length_nil] at this
        omega
      · conv_lhs => rw [hl]
        exact cut _ _
      · rw [he]; exact cut _ _
    · have e0 : l.length = i + 2 := by omega
      have e1 : next i l.length = i + 1 := by simp [next, h1]
      have e2 : next (i + 1) l.length = 0 := by simp [next, e0]
      rw [e1, e2]
      obtain ⟨x, l', rfl⟩ : ∃ x l', l = x :: l' := by
        cases l with
        | nil => simp at hn
        | cons x l' => exact ⟨x, l', rfl⟩
      obtain ⟨i, rfl⟩ : ∃ k, i = k + 1 := ⟨i - 1, by simp only [List.length_cons] at e0 hn; omega⟩
      simp only [List.length_cons] at e0 hn h1 hi
      have hl : l' = l'.take i ++ [l'.getD i 0, l'.getD (i + 1) 0] := by
        conv_lhs => rw [← List.take_append_drop i l']
        rw [List.drop_eq_getElem_cons (by omega), List.drop_eq_getElem_cons (by omega), List.drop_eq_nil_of_le (by omega)]
        have : i < l'.length := by omega
        have h' : i + 1 < l'.length := by omega
        simp [List.getD_eq_getElem?_getD, this, h']
      have he : l'.eraseIdx (i + 1) = l'.take i ++ [l'.getD i 0] := by
        conv_lhs => rw [hl]
        rw [List.eraseIdx_append_of_length_le (by rw [List.length_take]; omega)]
        have : i + 1 - (l'.take i).length = 1 := by rw [List.length_take]; omega
        rw [this]
        rfl
      simp only [List.eraseIdx_cons_succ, List.getD_cons_succ, List.getD_cons_zero]
      refine ⟨l'.getD i 0, l'.getD (i + 1) 0, x, l'.take i, ?_, ?_, ?_, rfl, rfl, rfl⟩
      · intro c
        have := congrArg List.length c
        simp only [List.length_take, List.length_nil] at this
        omega
      · conv_lhs => rw [hl]
        exact cut (x :: l'.take i) [l'.getD i 0, l'.getD (i + 1) 0]
      · rw [he]; exact cut (x :: l'.take i) [l'.getD i 0]
  · have e0 : l.length = i + 1 := by omega
    have e1 : next i l.length = 0 := by simp [next, e0]
    have e2 : next 0 l.length = 1 := by simp [next]; omega
    rw [e1, e2]
    obtain ⟨x, y, l', rfl⟩ : ∃ x y l', l = x :: y :: l' := by
      match l with
      | [] => simp at hn
      | [_] => simp at hn
      | x :: y :: l' => exact ⟨x, y, l', rfl⟩
    simp only [List.length_cons] at e0 hn
    obtain ⟨i, rfl⟩ : ∃ k, i = k + 2 := ⟨i - 2, by omega⟩
    have hl : l' = l'.take i ++ [l'.getD i 0] := by
      conv_lhs => rw [← List.take_append_drop i l']
      rw [List.drop_eq_getElem_cons (by omega), List.drop_eq_nil_of_le (by omega)]
      have : i < l'.length := by omega
      simp [List.getD_eq_getElem?_getD, this]
    simp only [List.eraseIdx_cons_zero, List.getD_cons_succ, List.getD_cons_zero]
    refine ⟨l'.getD i 0, x, y, l'.take i, ?_, ?_, ?_, rfl, rfl, rfl⟩
    · intro c
      have := congrArg List.length c
      simp only [List.length_take, List.length_nil] at this
      omega
    · conv_lhs => rw [hl]
      exact cut (x :: y :: l'.take i) [l'.getD i 0]
    · conv_lhs => rw [hl]
      exact cut (y :: l'.take i) [l'.getD i 0]

theorem edgesOf_isRotated {l l' : List Nat} (h : l.IsRotated l') : (edgesOf l).Perm (edgesOf l') := by
  obtain ⟨k, rfl⟩ := h
  exact (edgesOf_rotate l k).symm

theorem pathEdges_ends {a : Nat} {l : List Nat} {e : Nat × Nat} (h : e ∈ pathEdges a l) : e.1 ∈ a :: l.dropLast ∧ e.2 ∈ l := by
  induction l generalizing a with
  | nil => simp [pathEdges] at h
  | cons b l ih =>
    rw [pathEdges] at h
    rcases List.mem_cons.1 h with rfl | h
    · exact ⟨List.mem_cons_self .., List.mem_cons_self ..⟩
    · obtain ⟨h1, h2⟩ := ih h
      refine ⟨?_, List.mem_cons_of_mem _ h2⟩
      cases l with
      | nil => simp [pathEdges] at h
      | cons c l =>
        rw [List.dropLast_cons_cons]
        exact List.mem_cons_of_mem _ h1

/-- What the ear loop keeps: no directed edge twice, and no edge of the polygon backwards. -/
structure OnceEach (ids : List Nat) (ts : List Tri3) : Prop where
  own : ∀ e ∈ triEdges ts, e.1 ∈ ids ∧ e.2 ∈ ids
  once : (triEdges ts).Nodup
  back : ∀ e ∈ edgesOf ids, (e.2, e.1) ∉ triEdges ts
  tri : ∀ t ∈ ts, distinctTri t = true

theorem onceEach_nil (ids : List Nat) : OnceEach ids [] := ⟨by simp [triEdges], by simp [triEdges], by simp [triEdges], by simp⟩

theorem onceEach_one {a b c : Nat} (h : [a, b, c].Nodup) : OnceEach [a, b, c] [(a, b, c)] := by
  simp only [List.nodup_cons, List.mem_cons, List.not_mem_nil, or_false, not_or, List.nodup_nil, and_true, not_false_eq_true] at h
  obtain ⟨⟨h1, h2⟩, h3⟩ := h
  refine ⟨?_, ?_, ?_, by simp [distinctTri, h1, h2, h3]⟩
  · simp [triEdges]
  · simp only [triEdges, List.flatMap_cons, List.flatMap_nil, List.append_nil, List.nodup_cons, List.mem_cons, List.not_mem_nil, or_false,
      Prod.mk.injEq, List.nodup_nil]
    refine ⟨?_, ?_, by simp, trivial⟩
    · rintro (⟨g1, -⟩ | ⟨g1, -⟩)
      · exact h1 g1
      · exact h2 g1
    · rintro ⟨g1, -⟩
      exact h3 g1
  · simp only [edgesOf, pathEdges, List.cons_append, List.nil_append, triEdges, List.flatMap_cons, List.flatMap_nil, List.append_nil,
      List.mem_cons, List.not_mem_nil, or_false, Prod.mk.injEq]
    rintro e (rfl | rfl | rfl) <;> dsimp only <;> rintro (⟨g1, g2⟩ | ⟨g1, g2⟩ | ⟨g1, g2⟩) <;> omega

theorem OnceEach.ear {l l' : List Nat} {ts : List Tri3} {a b c : Nat} {R : List Nat} (hd : l.Nodup) (hR : R ≠ [])
    (h1 : l.IsRotated (a :: b :: c :: R)) (h2 : l'.IsRotated (a :: c :: R)) (h : OnceEach l' ts) : OnceEach l ((a, b, c) :: ts) := by
  have hd' : (a :: b :: c :: R).Nodup := h1.nodup_iff.1 hd
  have hm : ∀ x, x ∈ l ↔ x ∈ a :: b :: c :: R := fun x => h1.mem_iff
  have hm' : ∀ x, x ∈ l' ↔ x ∈ a :: c :: R := fun x => h2.mem_iff
  have he : ∀ e, e ∈ edgesOf l ↔ e = (a, b) ∨ e = (b, c) ∨ e ∈ pathEdges c (R ++ [a]) := by
    intro e
    rw [(edgesOf_isRotated h1).mem_iff]
    simp only [edgesOf, List.cons_append, pathEdges, List.mem_cons]
  have he' : ∀ e, e ∈ edgesOf l' ↔ e = (a, c) ∨ e ∈ pathEdges c (R ++ [a]) := by
    intro e
    rw [(edgesOf_isRotated h2).mem_iff]
    simp only [edgesOf, List.cons_append, pathEdges, List.mem_cons]
  simp only [List.nodup_cons, List.mem_cons, not_or] at hd'
  obtain ⟨⟨n1, n2, n3⟩, ⟨n4, n5⟩, n6, -⟩ := hd'
  have hb : b ∉ l' := by
    rw [hm']
    simp only [List.mem_cons, not_or]
    exact ⟨fun c => n1 c.symm, n4, n5⟩
  have fresh1 : ∀ x, (x, b) ∉ triEdges ts := fun x c => hb (h.own _ c).2
  have fresh2 : ∀ x, (b, x) ∉ triEdges ts := fun x c => hb (h.own _ c).1
  have fresh3 : (c, a) ∉ triEdges ts := h.back (a, c) ((he' _).2 (Or.inl rfl))
  have hsplit : triEdges ((a, b, c) :: ts) = (a, b) :: (b, c) :: (c, a) :: triEdges ts := rfl
  refine ⟨?_, ?_, ?_, ?_⟩
  · intro e hmem
    rw [hsplit] at hmem
    simp only [List.mem_cons] at hmem
    rw [hm, hm]
    rcases hmem with rfl | rfl | rfl | hmem
    · simp
    · simp
    · simp
    · obtain ⟨g1, g2⟩ := h.own e hmem
      rw [hm'] at g1 g2
      simp only [List.mem_cons] at g1 g2 ⊢
      exact ⟨g1.imp_right Or.inr, g2.imp_right Or.inr⟩
  · rw [hsplit]
    simp only [List.nodup_cons, List.mem_cons, Prod.mk.injEq, not_or]
    refine ⟨⟨fun g => n1 g.1, fun g => n2 g.1, fresh1 a⟩, ⟨fun g => n4 g.1, fresh2 c⟩, fresh3, h.once⟩
  · intro e hmem
    rw [hsplit]
    simp only [List.mem_cons, Prod.mk.injEq, not_or]
    rcases (he e).1 hmem with rfl | rfl | hp
    · exact ⟨fun g => n1 g.2, fun g => n2 g.2, fun g => n4 g.1, fresh2 a⟩
    · exact ⟨fun g => n2 g.1.symm, fun g => n4 g.1.symm, fun g => n1 g.2.symm, fresh1 c⟩
    · obtain ⟨g1, g2⟩ := pathEdges_ends hp
      rw [List.dropLast_concat] at g1
      have g2' : e.2 ∈ a :: R := by
        rcases List.mem_append.1 g2 with g | g
        · exact List.mem_cons_of_mem _ g
        · rw [List.mem_singleton.1 g]; exact List.mem_cons_self ..
      refine ⟨fun g => ?_, fun g => ?_, fun g => ?_, h.back e ((he' e).2 (Or.inr hp))⟩
      · rw [g.2] at g1
        rcases List.mem_cons.1 g1 with g1 | g1
        · exact n4 g1
        · exact n5 g1
      · rw [g.1] at g2'
        rcases List.mem_cons.1 g2' with g2' | g2'
        · exact n1 g2'.symm
        · exact n5 g2'
      · rw [g.2] at g1
        rcases List.mem_cons.1 g1 with g1 | g1
        · exact n2 g1
        · exact n3 g1
  · intro t ht
    rcases List.mem_cons.1 ht with rfl | ht
    · simp [distinctTri, n1, n2, n4]
    · exact h.tri t ht

theorem earTri_three {l : Ring} (h : l.length = 3) (hd : l.ids.Nodup) : OnceEach l.ids [earTri l 0] := by
  match l, h with
  | [a, b, c], _ => exact onceEach_one hd

theorem triLoop_once (verts : Nat → Pt) (fuel : Nat) : ∀ (l : Ring) (out : List Tri3) (r : Bool × List Tri3), l.ids.Nodup →
    triLoop verts fuel l out = some r → ∃ ts, r.2 = out ++ ts ∧ OnceEach l.ids ts := by
  induction fuel with
  | zero =>
    intro l out r hd hr
    rw [triLoop] at hr
    split at hr
    · simp at hr
    · split at hr
      · simp at hr
      · simp only [Option.some.injEq] at hr
        subst hr
        exact ⟨_, rfl, earTri_three (by omega) hd⟩
  | succ fuel ih =>
    intro l out r hd hr
    rw [triLoop] at hr
    split at hr
    · rename_i h4
      cases hp : pickEar verts l with
      | none =>
        rw [hp] at hr
        simp only [Option.some.injEq] at hr
        subst hr
        exact ⟨[], by simp, onceEach_nil _⟩
      | some i =>
        rw [hp] at hr
        dsimp only at hr
        have hi := pickEar_lt hp
        have hids := clipEar_ids verts l i
        obtain ⟨a, b, c, R, hR, g1, g2, g3, g4, g5⟩ := ear_rotated l.ids i (by rw [length_ids]; exact h4) (by rw [length_ids]; exact hi)
        rw [length_ids] at g2 g4 g5
        have hd' : (clipEar verts l i).ids.Nodup := by rw [hids]; exact hd.sublist (List.eraseIdx_sublist ..)
        obtain ⟨ts, e1, e2⟩ := ih _ _ r hd' hr
        have ht : earTri l i = (a, b, c) := by
          simp only [earTri, idx_ids]
          rw [g3, g4, g5]
        rw [ht] at e1
        rw [hids] at e2
        exact ⟨(a, b, c) :: ts, by rw [e1]; simp, e2.ear hd hR g1 g2⟩
    · split at hr
      · simp at hr
      · simp only [Option.some.injEq] at hr
        subst hr
        exact ⟨_, rfl, earTri_three (by omega) hd⟩

/-- The triangles of a polygon of distinct vertices use no directed edge twice. -/
theorem triangulate_once (verts : Nat → Pt) (l : List Nat) (hd : l.Nodup) (r : Bool × List Tri3) (h : triangulate verts l = some r) :
    OnceEach l r.2 := by
  have hids : (markEars verts (l.map fun i => (i, false))).ids = l := by
    rw [markEars_ids]
    simp [Ring.ids, Function.comp_def]
  obtain ⟨ts, h1, h2⟩ := triLoop_once verts _ _ _ r (by rw [hids]; exact hd) h
  rw [h1, List.nil_append]
  rw [hids] at h2
  exact h2

/-! ## The merge loop never fails, whatever the polygons -/

/-- A well-filled slot of at least three vertices. -/
def GoodSlot (nvp : Nat) (p : List Nat) : Prop := Slot nvp p (polyVerts nvp p) ∧ 3 ≤ (polyVerts nvp p).length

/-- How many triangles the polygons stand for. -/
def triCount (nvp : Nat) (polys : List (List Nat)) : Nat := (polys.map fun p => (polyVerts nvp p).length - 2).sum

theorem mem_tailOf {A : List Nat} {ea x : Nat} (h : x ∈ tailOf A ea) : x ∈ A := by
  unfold tailOf at h
  obtain ⟨i, hi, rfl⟩ := List.mem_map.1 h
  have hi := List.mem_range.1 hi
  have hm : (ea + 1 + i) % A.length < A.length := Nat.mod_lt _ (by omega)
  rw [List.getD_eq_getElem?_getD, List.getElem?_eq_getElem hm]
  exact List.getElem_mem _

theorem merge_any {verts : Nat → Nat} {nvp : Nat} {pa pb : List Nat} {v : Int} {ea eb : Nat}
    (ha : GoodSlot nvp pa) (hb : GoodSlot nvp pb) (h : mergeValue verts nvp pa pb = some (v, ea, eb)) :
    ∃ m, mergePoly nvp pa pb ea eb = some m ∧ GoodSlot nvp m ∧
      (polyVerts nvp m).length - 2 = ((polyVerts nvp pa).length - 2) + ((polyVerts nvp pb).length - 2) ∧
      ∀ x ∈ polyVerts nvp m, x ∈ polyVerts nvp pa ∨ x ∈ polyVerts nvp pb := by
  obtain ⟨ha, ha3⟩ := ha
  obtain ⟨hb, hb3⟩ := hb
  obtain ⟨hle, -, -, -⟩ := mergeValue_spec h
  have hlen : (tailOf (polyVerts nvp pa) ea ++ tailOf (polyVerts nvp pb) eb).length =
      (polyVerts nvp pa).length + (polyVerts nvp pb).length - 2 := by
    simp only [tailOf, List.length_append, List.length_map, List.length_range]; omega
  have hmem : ∀ x ∈ tailOf (polyVerts nvp pa) ea ++ tailOf (polyVerts nvp pb) eb, x ∈ polyVerts nvp pa ∨ x ∈ polyVerts nvp pb := by
    intro x hx
    rcases List.mem_append.1 hx with hx | hx
    · exact Or.inl (mem_tailOf hx)
    · exact Or.inr (mem_tailOf hx)
  have hslot : Slot nvp ((tailOf (polyVerts nvp pa) ea ++ tailOf (polyVerts nvp pb) eb) ++
      List.replicate (nvp - (tailOf (polyVerts nvp pa) ea ++ tailOf (polyVerts nvp pb) eb).length) meshNull)
      (tailOf (polyVerts nvp pa) ea ++ tailOf (polyVerts nvp pb) eb) :=
    ⟨rfl, by rw [hlen]; omega, fun x hx => (hmem x hx).elim (ha.ok x) (hb.ok x)⟩
  refine ⟨_, ?_, ⟨by rw [hslot.verts]; exact hslot, by rw [hslot.verts, hlen]; omega⟩, by rw [hslot.verts, hlen]; omega,
    by rw [hslot.verts]; exact hmem⟩
  unfold mergePoly
  dsimp only
  rw [if_neg (by rw [hlen]; omega)]

/-- What the merge loop keeps, whatever the polygons. -/
structure Sound (nvp : Nat) (polys res : List (List Nat)) : Prop where
  good : ∀ p ∈ res, GoodSlot nvp p
  count : triCount nvp res = triCount nvp polys
  own : ∀ p ∈ res, ∀ x ∈ polyVerts nvp p, ∃ q ∈ polys, x ∈ polyVerts nvp q

theorem mergePolys_sound (verts : Nat → Nat) (nvp : Nat) (fuel : Nat) : ∀ (polys : List (List Nat)), (∀ p ∈ polys, GoodSlot nvp p) →
    polys.length ≤ fuel → ∃ res, mergePolys verts nvp fuel polys = some res ∧ Sound nvp polys res := by
  induction fuel with
  | zero =>
    intro polys hg hf
    have : polys = [] := List.length_eq_zero_iff.1 (by omega)
    subst this
    refine ⟨[], ?_, hg, rfl, by simp⟩
    have hb : (bestOf verts nvp []).1 = 0 := by simp [bestOf, polyPairs]
    rw [mergePolys, hb, if_neg (by omega)]
  | succ fuel ih =>
    intro polys hg hf
    rw [mergePolys]
    by_cases hb : 0 < (bestOf verts nvp polys).1
    · rw [if_pos hb]
      obtain ⟨hij, hj, hv⟩ := (bestOf_spec verts nvp polys).1 hb
      generalize bestOf verts nvp polys = b at *
      obtain ⟨v, i, j, ea, eb⟩ := b
      dsimp only at *
      have gm : ∀ k, k < polys.length → polys.getD k [] ∈ polys := by
        intro k hk
        rw [List.getD_eq_getElem?_getD, List.getElem?_eq_getElem hk]
        exact List.getElem_mem _
      have ma := gm i (by omega)
      have mb := gm j hj
      obtain ⟨m, e1, e2, e3, e4⟩ := merge_any (hg _ ma) (hg _ mb) hv
      obtain ⟨rest, p1, p2⟩ := mergeBest_perm polys i j m [] hij hj
      have hres : mergeBest nvp polys (v, i, j, ea, eb) =
          some (((polys.set i m).set j ((polys.set i m).getD ((polys.set i m).length - 1) [])).dropLast) := by
        unfold mergeBest
        dsimp only
        rw [e1]
        rfl
      rw [hres]
      generalize ((polys.set i m).set j ((polys.set i m).getD ((polys.set i m).length - 1) [])).dropLast = res at p2
      have l1 := p1.length_eq
      have l2 := p2.length_eq
      simp only [List.length_cons] at l1 l2
      have inrest : ∀ q ∈ rest, q ∈ polys := fun q hq => p1.mem_iff.2 (List.mem_cons_of_mem _ (List.mem_cons_of_mem _ hq))
      obtain ⟨res', f1, f2⟩ := ih res (by
        intro p hp
        rcases List.mem_cons.1 (p2.mem_iff.1 hp) with rfl | hp
        · exact e2
        · exact hg p (inrest p hp)) (by omega)
      refine ⟨res', f1, f2.good, ?_, ?_⟩
      · rw [f2.count]
        unfold triCount
        rw [(p2.map _).sum_eq, (p1.map _).sum_eq]
        simp only [List.map_cons, List.sum_cons]
        omega
      · intro p hp x hx
        obtain ⟨q, hq, hxq⟩ := f2.own p hp x hx
        rcases List.mem_cons.1 (p2.mem_iff.1 hq) with rfl | hq
        · rcases e4 x hxq with h | h
          · exact ⟨_, ma, h⟩
          · exact ⟨_, mb, h⟩
        · exact ⟨q, inrest q hq, hxq⟩
    · rw [if_neg hb]
      exact ⟨polys, rfl, hg, rfl, fun p hp x hx => ⟨p, hp, hx⟩⟩

/-! ## One contour -/

theorem triSlot_slot {nvp : Nat} (h3 : 3 ≤ nvp) {idx : List Nat} {t : Tri3} (h : ∀ k, idx.getD k 0 ≠ meshNull) :
    Slot nvp (triSlot nvp idx t) [idx.getD t.1 0, idx.getD t.2.1 0, idx.getD t.2.2 0] :=
  ⟨rfl, h3, by
    intro v hv
    simp only [List.mem_cons, List.not_mem_nil, or_false] at hv
    rcases hv with rfl | rfl | rfl <;> exact h _⟩

theorem triCount_triSlots {nvp : Nat} (h3 : 3 ≤ nvp) {idx : List Nat} (h : ∀ k, idx.getD k 0 ≠ meshNull) (ts : List Tri3) :
    triCount nvp (ts.map (triSlot nvp idx)) = ts.length := by
  unfold triCount
  induction ts with
  | nil => rfl
  | cons t ts ih =>
    simp only [List.map_cons, List.sum_cons, List.length_cons]
    rw [ih, (triSlot_slot h3 h).verts]
    simp only [List.length_cons, List.length_nil]
    omega

/-- The numbers of a contour's vertices. -/
theorem addVertices_valid {s : Weld} (h : s.Ok) (l : List MV) (hn : s.nv + l.length < 0xffff) (hl : l ≠ []) (k : Nat) :
    (addVertices s l).1.getD k 0 < (addVertices s l).2.nv := by
  obtain ⟨-, h1, -, -, h2⟩ := addVertices_length l h (by omega)
  have hpos : 0 < (addVertices s l).2.nv := by
    cases l with
    | nil => exact absurd rfl hl
    | cons w l =>
      obtain ⟨i, v, -, g2, -⟩ := h2 0 w rfl
      have := (List.getElem?_eq_some_iff.1 g2).1
      rw [wlist_length] at this
      omega
  by_cases hk : k < l.length
  · obtain ⟨i, v, g1, g2, -⟩ := h2 k l[k] (List.getElem?_eq_getElem hk)
    rw [List.getD_eq_getElem?_getD, g1]
    have := (List.getElem?_eq_some_iff.1 g2).1
    rw [wlist_length] at this
    simpa using this
  · rw [List.getD_eq_getElem?_getD, List.getElem?_eq_none (by omega)]
    simpa using hpos

/-- One contour of at least three vertices never fails: its polygons are well filled, stand for at most `n - 2`
triangles, and use only the contour's vertices. -/
theorem contourPolys_sound {nvp : Nat} (h3 : 3 ≤ nvp) {s : Weld} (hs : s.Ok) (verts : List Pt) (hv : 3 ≤ verts.length)
    (hn : s.nv + verts.length < 0xffff) :
    ∃ w idx ps, contourPolys nvp s verts = some (w, idx, ps) ∧ (idx, w) = addVertices s (verts.map toMV) ∧
      (∀ p ∈ ps, GoodSlot nvp p) ∧ triCount nvp ps ≤ verts.length - 2 ∧
      ∀ p ∈ ps, ∀ x ∈ polyVerts nvp p, x ∈ idx := by
  have hln : (List.range verts.length).length = verts.length := List.length_range
  obtain ⟨done, ts, ht, hown, hc1, hc2⟩ := triangulate_count (fun j => verts.getD j default) (List.range verts.length) (by omega)
  have hlm : (verts.map toMV).length = verts.length := List.length_map ..
  have hne : verts.map toMV ≠ [] := by
    cases verts with
    | nil => simp at hv
    | cons p verts => simp
  have hval := addVertices_valid hs (verts.map toMV) (by rw [hlm]; exact hn) hne
  obtain ⟨-, g1, -, g2, -⟩ := addVertices_length (verts.map toMV) hs (by rw [hlm]; omega)
  rw [hlm] at g1 g2
  have hidx : ∀ k, (addVertices s (verts.map toMV)).1.getD k 0 ≠ meshNull := by
    intro k
    have := hval k
    unfold meshNull
    omega
  have hgood : ∀ p ∈ (ts.filter distinctTri).map (triSlot nvp (addVertices s (verts.map toMV)).1), GoodSlot nvp p := by
    intro p hp
    obtain ⟨t, -, rfl⟩ := List.mem_map.1 hp
    have := triSlot_slot (t := t) h3 hidx
    exact ⟨by rw [this.verts]; exact this, by rw [this.verts]; simp⟩
  have hcount : triCount nvp ((ts.filter distinctTri).map (triSlot nvp (addVertices s (verts.map toMV)).1)) ≤ verts.length - 2 := by
    rw [triCount_triSlots h3 hidx]
    have := List.length_filter_le distinctTri ts
    cases done with
    | true => have := hc1 rfl; omega
    | false => have := hc2 rfl; omega
  have hin : ∀ p ∈ (ts.filter distinctTri).map (triSlot nvp (addVertices s (verts.map toMV)).1), ∀ x ∈ polyVerts nvp p,
      x ∈ (addVertices s (verts.map toMV)).1 := by
    intro p hp x hx
    obtain ⟨t, htm, rfl⟩ := List.mem_map.1 hp
    rw [(triSlot_slot h3 hidx).verts] at hx
    obtain ⟨o1, o2, o3⟩ := hown t (List.mem_filter.1 htm).1
    rw [List.mem_range] at o1 o2 o3
    have gm : ∀ k, k < verts.length → (addVertices s (verts.map toMV)).1.getD k 0 ∈ (addVertices s (verts.map toMV)).1 := by
      intro k hk
      rw [List.getD_eq_getElem?_getD, List.getElem?_eq_getElem (by omega)]
      exact List.getElem_mem _
    simp only [List.mem_cons, List.not_mem_nil, or_false] at hx
    rcases hx with rfl | rfl | rfl
    · exact gm _ o1
    · exact gm _ o2
    · exact gm _ o3
  unfold contourPolys
  rw [ht]
  dsimp only
  generalize (ts.filter distinctTri).map (triSlot nvp (addVertices s (verts.map toMV)).1) = p0 at *
  by_cases h4 : 3 < nvp
  · rw [if_pos h4]
    obtain ⟨res, e1, e2⟩ := mergePolys_sound (coordAt (addVertices s (verts.map toMV)).2.list) nvp p0.length p0 hgood le_rfl
    rw [e1]
    refine ⟨_, _, res, rfl, rfl, e2.good, by rw [e2.count]; exact hcount, ?_⟩
    intro p hp x hx
    obtain ⟨q, hq, hxq⟩ := e2.own p hp x hx
    exact hin q hq x hxq
  · rw [if_neg h4]
    exact ⟨_, _, p0, rfl, rfl, hgood, hcount, hin⟩

/-! ## The polygons of a contour cover it -/

theorem coordAt_x (l : List MV) (i : Nat) : coordAt l (3 * i) = (l.getD i default).x.toNat := by
  unfold coordAt
  have h1 : 3 * i % 3 = 0 := by omega
  have h2 : 3 * i / 3 = i := by omega
  rw [h1, h2]
  rfl

theorem coordAt_z (l : List MV) (i : Nat) : coordAt l (3 * i + 2) = (l.getD i default).z.toNat := by
  unfold coordAt
  have h1 : (3 * i + 2) % 3 = 2 := by omega
  have h2 : (3 * i + 2) / 3 = i := by omega
  rw [h1, h2]
  rfl

theorem ofInt_toNat {x : Int} (h0 : 0 ≤ x) (h1 : x < 65536) : ((BitVec.ofInt 16 x).toNat : Int) = x := by
  rw [BitVec.toNat_ofInt]
  have : (x % ((2 ^ 16 : Nat) : Int)) = x := Int.emod_eq_of_lt h0 (by norm_num; exact h1)
  rw [this]
  exact Int.toNat_of_nonneg h0

/-- Spec: the contour's coordinates fit the mesh's. -/
def InRange (verts : List Pt) : Prop := ∀ p ∈ verts, 0 ≤ p.x ∧ p.x < 65536 ∧ 0 ≤ p.z ∧ p.z < 65536

/-- Spec: no two vertices of the contour are at the same place. -/
def Apart (verts : List Pt) : Prop := verts.Pairwise fun p q => ¬ Same p q

/-- The mesh's vertex with the number of a contour's vertex is at its place. -/
theorem contour_place {s : Weld} (hs : s.Ok) {verts : List Pt} (hn : s.nv + verts.length < 0xffff) (hr : InRange verts) {k : Nat}
    (hk : k < verts.length) :
    (coordAt (addVertices s (verts.map toMV)).2.list (3 * (addVertices s (verts.map toMV)).1.getD k 0) : Int) = (verts.getD k default).x ∧
    (coordAt (addVertices s (verts.map toMV)).2.list (3 * (addVertices s (verts.map toMV)).1.getD k 0 + 2) : Int) = (verts.getD k default).z := by
  obtain ⟨-, -, -, -, h⟩ := addVertices_length (verts.map toMV) hs (by rw [List.length_map]; omega)
  obtain ⟨i, v, h1, h2, h3⟩ := h k (toMV verts[k]) (by rw [List.getElem?_map, List.getElem?_eq_getElem hk]; rfl)
  have e1 : (addVertices s (verts.map toMV)).1.getD k 0 = i := by rw [List.getD_eq_getElem?_getD, h1]; rfl
  have e2 : (addVertices s (verts.map toMV)).2.list.getD i default = v := by rw [List.getD_eq_getElem?_getD, h2]; rfl
  have e3 : verts.getD k default = verts[k] := by rw [List.getD_eq_getElem?_getD, List.getElem?_eq_getElem hk]; rfl
  rw [e1, coordAt_x, coordAt_z, e2, e3]
  obtain ⟨r1, r2, r3, r4⟩ := hr _ (List.getElem_mem hk)
  obtain ⟨g1, g2, -⟩ := h3
  rw [g1, g2]
  exact ⟨ofInt_toNat r1 r2, ofInt_toNat r3 r4⟩

theorem edgesOf_three (a b c : Nat) : edgesOf [a, b, c] = [(a, b), (b, c), (c, a)] := rfl

/-- The triangles of a contour whose vertices are apart, as polygons: no directed edge twice. -/
theorem contour_mesh {nvp : Nat} (h3 : 3 ≤ nvp) {s : Weld} (hs : s.Ok) {verts : List Pt} (hv : 3 ≤ verts.length)
    (hn : s.nv + verts.length < 0xffff) (hr : InRange verts) (ha : Apart verts) {done : Bool} {ts : List Tri3}
    (ht : triangulate (fun j => verts.getD j default) (List.range verts.length) = some (done, ts)) :
    ts.filter distinctTri = ts ∧ Mesh nvp (ts.map (triSlot nvp (addVertices s (verts.map toMV)).1)) ∧
    (∀ t ∈ ts, t.1 < verts.length ∧ t.2.1 < verts.length ∧ t.2.2 < verts.length) ∧
    (∀ t ∈ ts, polyVerts nvp (triSlot nvp (addVertices s (verts.map toMV)).1 t) = [(addVertices s (verts.map toMV)).1.getD t.1 0,
      (addVertices s (verts.map toMV)).1.getD t.2.1 0, (addVertices s (verts.map toMV)).1.getD t.2.2 0]) ∧
    (∀ j k, j < verts.length → k < verts.length → (addVertices s (verts.map toMV)).1.getD j 0 = (addVertices s (verts.map toMV)).1.getD k 0 → j = k) := by
  have honce := triangulate_once _ _ List.nodup_range _ ht
  dsimp only at honce
  have hlm : (verts.map toMV).length = verts.length := List.length_map ..
  have hne : verts.map toMV ≠ [] := by
    cases verts with
    | nil => simp at hv
    | cons p verts => simp
  have hval := addVertices_valid hs (verts.map toMV) (by rw [hlm]; exact hn) hne
  obtain ⟨-, g1, -, g2, -⟩ := addVertices_length (verts.map toMV) hs (by rw [hlm]; omega)
  rw [hlm] at g1 g2
  have hplace := fun {k} (hk : k < verts.length) => contour_place hs hn hr hk
  generalize addVertices s (verts.map toMV) = r at *
  have hidx : ∀ k, r.1.getD k 0 ≠ meshNull := by
    intro k
    have := hval k
    unfold meshNull
    omega
  have hinj : ∀ j k, j < verts.length → k < verts.length → r.1.getD j 0 = r.1.getD k 0 → j = k := by
    intro j k hj hk he
    by_contra hne'
    have p1 := hplace hj
    have p2 := hplace hk
    rw [he] at p1
    have hsame : Same (verts.getD j default) (verts.getD k default) := ⟨p1.1.symm.trans p2.1, p1.2.symm.trans p2.2⟩
    have gj : verts.getD j default = verts[j] := by rw [List.getD_eq_getElem?_getD, List.getElem?_eq_getElem hj]; rfl
    have gk : verts.getD k default = verts[k] := by rw [List.getD_eq_getElem?_getD, List.getElem?_eq_getElem hk]; rfl
    rw [gj, gk] at hsame
    rcases Nat.lt_or_gt_of_ne hne' with h | h
    · exact List.pairwise_iff_getElem.1 ha j k hj hk h hsame
    · exact List.pairwise_iff_getElem.1 ha k j hk hj h hsame.symm
  have hlt : ∀ t ∈ ts, t.1 < verts.length ∧ t.2.1 < verts.length ∧ t.2.2 < verts.length := by
    intro t htm
    have m1 : (t.1, t.2.1) ∈ triEdges ts := List.mem_flatMap.2 ⟨t, htm, by simp⟩
    have m2 : (t.2.2, t.1) ∈ triEdges ts := List.mem_flatMap.2 ⟨t, htm, by simp⟩
    have o1 := honce.own _ m1
    have o2 := honce.own _ m2
    simp only [List.mem_range] at o1 o2
    exact ⟨o1.1, o1.2, o2.1⟩
  have hpv : ∀ t ∈ ts, polyVerts nvp (triSlot nvp r.1 t) = [r.1.getD t.1 0, r.1.getD t.2.1 0, r.1.getD t.2.2 0] :=
    fun t _ => (triSlot_slot h3 hidx).verts
  refine ⟨List.filter_eq_self.2 honce.tri, ⟨?_, ?_, ?_⟩, hlt, hpv, hinj⟩
  · intro p hp
    obtain ⟨t, htm, rfl⟩ := List.mem_map.1 hp
    rw [hpv t htm]
    exact triSlot_slot h3 hidx
  · intro p hp
    obtain ⟨t, htm, rfl⟩ := List.mem_map.1 hp
    rw [hpv t htm]
    simp
  · have e : ((ts.map (triSlot nvp r.1)).flatMap fun p => edgesOf (polyVerts nvp p)) =
        (triEdges ts).map fun e => (r.1.getD e.1 0, r.1.getD e.2 0) := by
      rw [List.flatMap_map, triEdges, List.map_flatMap]
      refine List.flatMap_congr fun t htm => ?_
      rw [hpv t htm, edgesOf_three]
      rfl
    rw [e]
    refine List.Nodup.map_on ?_ honce.once
    intro x hx y hy hxy
    simp only [Prod.mk.injEq] at hxy
    have ox := honce.own x hx
    have oy := honce.own y hy
    simp only [List.mem_range] at ox oy
    exact Prod.ext (hinj _ _ ox.1 oy.1 hxy.1) (hinj _ _ ox.2 oy.2 hxy.2)

theorem polySum_areas (nvp : Nat) (v : Nat → Nat) (ps : List (List Nat)) :
    polySum nvp (areaTerm v) ps = (ps.map fun p => polyArea v (polyVerts nvp p)).sum := rfl

/-- **C133**: the polygons that a contour is cut into cover it exactly, in this sense: if no two vertices of the
contour are at the same place and the triangulation finishes, the signed areas of the polygons, measured at the
mesh's own vertices, add up to the contour's, and no directed edge is used twice, so no polygon is there twice. -/
theorem contour_area {nvp : Nat} (h3 : 3 ≤ nvp) {s : Weld} (hs : s.Ok) {verts : List Pt} (hv : 3 ≤ verts.length)
    (hn : s.nv + verts.length < 0xffff) (hr : InRange verts) (ha : Apart verts) {ts : List Tri3}
    (ht : triangulate (fun j => verts.getD j default) (List.range verts.length) = some (true, ts))
    {w : Weld} {idx : List Nat} {ps : List (List Nat)} (h : contourPolys nvp s verts = some (w, idx, ps)) :
    (ps.map fun p => polyArea (coordAt w.list) (polyVerts nvp p)).sum = area2D verts ∧
    (ps.flatMap fun p => edgesOf (polyVerts nvp p)).Nodup := by
  obtain ⟨c1, c2, c3, c4, c5⟩ := contour_mesh h3 hs hv hn hr ha ht
  have hplace := fun {k} (hk : k < verts.length) => contour_place hs hn hr hk
  unfold contourPolys at h
  rw [ht] at h
  dsimp only at h
  rw [c1] at h
  generalize addVertices s (verts.map toMV) = r at *
  have hmain : ∃ res, (if 3 < nvp then mergePolys (coordAt r.2.list) nvp (ts.map (triSlot nvp r.1)).length (ts.map (triSlot nvp r.1))
      else some (ts.map (triSlot nvp r.1))) = some res ∧
      polySum nvp (areaTerm (coordAt r.2.list)) res = polySum nvp (areaTerm (coordAt r.2.list)) (ts.map (triSlot nvp r.1)) ∧ Mesh nvp res := by
    by_cases h4 : 3 < nvp
    · rw [if_pos h4]
      obtain ⟨res, e1, e2, -⟩ := mergePolys_kept (coordAt r.2.list) nvp _ _ c2 le_rfl
      exact ⟨res, e1, e2.sum _ (by intro a b; simp [areaTerm]), e2.mesh⟩
    · rw [if_neg h4]
      exact ⟨_, rfl, rfl, c2⟩
  obtain ⟨res, e1, e2, e3⟩ := hmain
  rw [e1] at h
  simp only [Option.map_some, Option.some.injEq, Prod.mk.injEq] at h
  obtain ⟨rfl, rfl, rfl⟩ := h
  refine ⟨?_, e3.once⟩
  rw [← polySum_areas, e2, polySum_areas, List.map_map]
  have harea := triangulate_area (fun j => verts.getD j default) (List.range verts.length) (by rw [List.length_range]; exact hv) ts ht
  have hmap : (List.range verts.length).map (fun j => verts.getD j default) = verts := by
    apply List.ext_getElem (by simp)
    intro k h1 h2
    simp [List.getD_eq_getElem?_getD, h2]
  rw [hmap] at harea
  rw [← harea]
  congr 1
  apply List.map_congr_left
  intro t htm
  obtain ⟨l1, l2, l3⟩ := c3 t htm
  obtain ⟨x1, z1⟩ := hplace l1
  obtain ⟨x2, z2⟩ := hplace l2
  obtain ⟨x3, z3⟩ := hplace l3
  simp only [Function.comp]
  rw [c4 t htm]
  simp only [polyArea, loopSum, edgeSum, areaTerm, List.cons_append, List.nil_append, triArea, area2D_eq, crossTerm]
  rw [x1, z1, x2, z2, x3, z3]

/-- A triangle that turns in is convex. -/
theorem bulges_three {v : Nat → Nat} {a b c : Nat} (h : TurnsIn v a b c) : Bulges v [a, b, c] := by
  have h1 : TurnsIn v b c a := by unfold TurnsIn at *; linarith
  have h2 : TurnsIn v c a b := by unfold TurnsIn at *; linarith
  have nab : a ≠ b := by rintro rfl; unfold TurnsIn at h; linarith
  have nbc : b ≠ c := by rintro rfl; unfold TurnsIn at h; linarith
  have nac : a ≠ c := by rintro rfl; unfold TurnsIn at h; linarith
  refine ⟨by simp [nab, nbc, nac], ?_⟩
  intro e he p hp n1 n2
  rw [edgesOf_three] at he
  simp only [List.mem_cons, List.not_mem_nil, or_false] at he hp
  rcases he with rfl | rfl | rfl <;> rcases hp with rfl | rfl | rfl <;> first | exact absurd rfl n1 | exact absurd rfl n2 | assumption

/-- **C132**: the polygons that a contour is cut into are convex, in the strong sense that the vertices are
distinct and every edge has all other vertices strictly on its inner side, if all the triangles are properly
oriented and the mesh has no more than 21845 vertices. Missing: that the ear clipping of any simple contour yields
properly oriented triangles only (for convex ones it is proved, see `contour_convex_convex`); with more vertices the
merge reads wrong coordinates (`merge_index_refuted`). -/
theorem contour_convex_partial {nvp : Nat} (h3 : 3 ≤ nvp) {s : Weld} (hs : s.Ok) {verts : List Pt} (hv : 3 ≤ verts.length)
    (hn : s.nv + verts.length < 0xffff) (hr : InRange verts) (ha : Apart verts) {done : Bool} {ts : List Tri3}
    (ht : triangulate (fun j => verts.getD j default) (List.range verts.length) = some (done, ts))
    (hts : ∀ t ∈ ts, area2 (verts.getD t.1 default) (verts.getD t.2.1 default) (verts.getD t.2.2 default) < 0)
    {w : Weld} {idx : List Nat} {ps : List (List Nat)} (h : contourPolys nvp s verts = some (w, idx, ps)) (hw : w.nv ≤ 21845) :
    ∀ p ∈ ps, Bulges (coordAt w.list) (polyVerts nvp p) := by
  obtain ⟨c1, c2, c3, c4, c5⟩ := contour_mesh h3 hs hv hn hr ha ht
  have hplace := fun {k} (hk : k < verts.length) => contour_place hs hn hr hk
  have hne : verts.map toMV ≠ [] := by
    cases verts with
    | nil => simp at hv
    | cons p verts => simp
  have hval := addVertices_valid hs (verts.map toMV) (by rw [List.length_map]; exact hn) hne
  unfold contourPolys at h
  rw [ht] at h
  dsimp only at h
  rw [c1] at h
  generalize addVertices s (verts.map toMV) = r at *
  have hwr : w = r.2 := by
    cases hm : (if 3 < nvp then mergePolys (coordAt r.2.list) nvp (ts.map (triSlot nvp r.1)).length (ts.map (triSlot nvp r.1))
      else some (ts.map (triSlot nvp r.1))) with
    | none => rw [hm] at h; simp at h
    | some p =>
      rw [hm] at h
      simp only [Option.map_some, Option.some.injEq, Prod.mk.injEq] at h
      exact h.1.symm
  subst hwr
  have htri : ∀ p ∈ ts.map (triSlot nvp r.1), (∀ x ∈ polyVerts nvp p, x < 21845) ∧ Bulges (coordAt r.2.list) (polyVerts nvp p) := by
    intro p hp
    obtain ⟨t, htm, rfl⟩ := List.mem_map.1 hp
    rw [c4 t htm]
    refine ⟨?_, bulges_three ?_⟩
    · intro x hx
      simp only [List.mem_cons, List.not_mem_nil, or_false] at hx
      rcases hx with rfl | rfl | rfl
      · have := hval t.1; omega
      · have := hval t.2.1; omega
      · have := hval t.2.2; omega
    · obtain ⟨l1, l2, l3⟩ := c3 t htm
      obtain ⟨x1, z1⟩ := hplace l1
      obtain ⟨x2, z2⟩ := hplace l2
      obtain ⟨x3, z3⟩ := hplace l3
      unfold TurnsIn
      rw [x1, z1, x2, z2, x3, z3]
      exact hts t htm
  by_cases h4 : 3 < nvp
  · rw [if_pos h4] at h
    obtain ⟨res, e1, e2, -⟩ := mergePolys_kept (coordAt r.2.list) nvp _ _ c2 le_rfl
    rw [e1] at h
    simp only [Option.map_some, Option.some.injEq, Prod.mk.injEq] at h
    obtain ⟨-, -, rfl⟩ := h
    exact e2.bulge htri
  · rw [if_neg h4] at h
    simp only [Option.map_some, Option.some.injEq, Prod.mk.injEq] at h
    obtain ⟨-, -, rfl⟩ := h
    exact fun p hp => (htri p hp).2

/-- **C132**: the polygons of a strictly convex contour are convex. -/
theorem contour_convex_convex {nvp : Nat} (h3 : 3 ≤ nvp) {s : Weld} (hs : s.Ok) {verts : List Pt} (hv : 3 ≤ verts.length)
    (hn : s.nv + verts.length < 0xffff) (hr : InRange verts) (hc : ConvexPoly verts)
    {w : Weld} {idx : List Nat} {ps : List (List Nat)} (h : contourPolys nvp s verts = some (w, idx, ps)) (hw : w.nv ≤ 21845) :
    (∀ p ∈ ps, Bulges (coordAt w.list) (polyVerts nvp p)) ∧
    (ps.map fun p => polyArea (coordAt w.list) (polyVerts nvp p)).sum = area2D verts := by
  have hmap : (List.range verts.length).map (fun j => verts.getD j default) = verts := by
    apply List.ext_getElem (by simp)
    intro k h1 h2
    simp [List.getD_eq_getElem?_getD, h2]
  obtain ⟨ts, t1, -, t3⟩ := triangulate_convex (fun j => verts.getD j default) (List.range verts.length) (by rw [List.length_range]; exact hv)
    (by rw [hmap]; exact hc)
  have ha : Apart verts := by
    refine List.pairwise_iff_getElem.2 fun i j hi hj hij hsame => ?_
    have gi : pt verts i = verts[i] := by unfold pt; rw [List.getD_eq_getElem?_getD, List.getElem?_eq_getElem hi]; rfl
    have gj : pt verts j = verts[j] := by unfold pt; rw [List.getD_eq_getElem?_getD, List.getElem?_eq_getElem hj]; rfl
    -- a third vertex
    rcases Nat.lt_or_ge (j + 1) verts.length with h1 | h1
    · have := hc i j (j + 1) hij (by omega) h1
      rw [gi, gj] at this
      unfold area2 at this
      rw [hsame.1, hsame.2] at this
      linarith
    · rcases Nat.eq_zero_or_pos i with h0 | h0
      · have := hc i 1 j (by omega) (by omega) hj
        rw [gi, gj] at this
        unfold area2 at this
        rw [hsame.1, hsame.2] at this
        linarith
      · have := hc 0 i j h0 hij hj
        rw [gi, gj] at this
        unfold area2 at this
        rw [hsame.1, hsame.2] at this
        linarith
  exact ⟨contour_convex_partial h3 hs hv hn hr ha t1 t3 h hw, (contour_area h3 hs hv hn hr ha t1 h).1⟩

/-! ## All contours -/

/-- How many triangles the polygons of the mesh stand for. -/
def meshTris (nvp : Nat) (polys : List MPoly) : Nat := triCount nvp (polys.map MPoly.vs)

/-- The place of a contour's vertex, in the mesh's 16-bit coordinates. -/
def placeOf (p : Pt) : BitVec 16 × BitVec 16 := (BitVec.ofInt 16 p.x, BitVec.ofInt 16 p.z)

/-- Spec: a polygon of the mesh is well filled with three to `nvp` vertices of the mesh, and there is a contour
whose region and area it has and that has a vertex at the place of each of its vertices. -/
structure FromContours (nvp : Nat) (conts : List Cont) (vs : List MV) (p : MPoly) : Prop where
  slot : Slot nvp p.vs (polyVerts nvp p.vs)
  three : 3 ≤ (polyVerts nvp p.vs).length
  valid : ∀ x ∈ polyVerts nvp p.vs, x < vs.length
  source : ∃ c ∈ conts, p.reg = c.reg ∧ p.area = c.area ∧ ∀ x ∈ polyVerts nvp p.vs, ∃ q ∈ c.verts,
    ((vs.getD x default).x, (vs.getD x default).z) = placeOf q

theorem storePolys_spec {maxTris reg area : Nat} (qs : List (List Nat)) : ∀ (acc : List MPoly), acc.length + qs.length ≤ maxTris →
    storePolys maxTris reg area acc qs = some (acc ++ qs.map fun q => ⟨q, reg, area⟩) := by
  induction qs with
  | nil => intro acc _; rw [storePolys]; simp
  | cons q qs ih =>
    intro acc h
    simp only [List.length_cons] at h
    rw [storePolys, if_neg (by omega), ih _ (by simp; omega)]
    simp

theorem triCount_length {nvp : Nat} {ps : List (List Nat)} (h : ∀ p ∈ ps, GoodSlot nvp p) : ps.length ≤ triCount nvp ps := by
  induction ps with
  | nil => simp [triCount]
  | cons p ps ih =>
    have := ih fun q hq => h q (List.mem_cons_of_mem _ hq)
    have := (h p (List.mem_cons_self ..)).2
    simp only [triCount, List.map_cons, List.sum_cons, List.length_cons] at *
    omega

theorem triCount_append (nvp : Nat) (a b : List (List Nat)) : triCount nvp (a ++ b) = triCount nvp a + triCount nvp b := by
  simp [triCount]

theorem flagBorder_iff (ps : List (Pt × Nat)) : ∀ (fl : Nat → Bool) (i : Nat),
    flagBorder fl ps i = true ↔ fl i = true ∨ ∃ q ∈ ps, isBorderPt q.1 = true ∧ q.2 = i := by
  induction ps with
  | nil => intro fl i; simp [flagBorder]
  | cons q ps ih =>
    intro fl i
    have : flagBorder fl (q :: ps) = flagBorder (if isBorderPt q.1 then upd fl q.2 true else fl) ps := rfl
    rw [this, ih]
    simp only [List.mem_cons, exists_eq_or_imp]
    by_cases hb : isBorderPt q.1 = true
    · rw [if_pos hb]
      by_cases he : q.2 = i
      · subst he
        simp [upd_same, hb]
      · rw [upd_ne _ _ (Ne.symm he)]
        simp [hb, he]
    · rw [if_neg hb]
      simp [hb]

/-- Spec: the flags mark vertices at the places of the contours' border vertices, and at each such place there
is a marked vertex. -/
structure Flagged (conts : List Cont) (vs : List MV) (fl : Nat → Bool) : Prop where
  only : ∀ i, fl i = true → i < vs.length ∧ ∃ c ∈ conts, ∃ q ∈ c.verts, isBorderPt q = true ∧
    ((vs.getD i default).x, (vs.getD i default).z) = placeOf q
  all : ∀ c ∈ conts, 3 ≤ c.verts.length → ∀ q ∈ c.verts, isBorderPt q = true → ∃ i < vs.length, fl i = true ∧
    ((vs.getD i default).x, (vs.getD i default).z) = placeOf q

/-- What holds after the contours `did`, which are some of `conts`. -/
structure Grown (nvp : Nat) (conts did : List Cont) (maxV maxT : Nat) (st : Growing) : Prop where
  flags : Flagged did st.weld.list st.vflags
  ok : st.weld.Ok
  nv : st.weld.nv ≤ maxV
  tris : meshTris nvp st.polys ≤ maxT
  polys : ∀ p ∈ st.polys, FromContours nvp conts st.weld.list p

theorem FromContours.grow {nvp : Nat} {conts : List Cont} {vs vs' : List MV} {p : MPoly} (h : FromContours nvp conts vs p)
    (hp : vs <+: vs') : FromContours nvp conts vs' p := by
  obtain ⟨t, rfl⟩ := hp
  refine ⟨h.slot, h.three, fun x hx => ?_, ?_⟩
  · have := h.valid x hx
    rw [List.length_append]; omega
  · obtain ⟨c, hc, h1, h2, h3⟩ := h.source
    refine ⟨c, hc, h1, h2, fun x hx => ?_⟩
    rw [getD_append_lt (h.valid x hx)]
    exact h3 x hx

theorem addContour_grown {nvp : Nat} (h3 : 3 ≤ nvp) {conts : List Cont} {maxV maxT : Nat} {st : Growing} {did : List Cont} (hg : Grown nvp conts did maxV maxT st)
    {c : Cont} (hc : c ∈ conts) {total : Nat} (hv : maxV + (if c.verts.length < 3 then 0 else c.verts.length) < 0xffff)
    (ht : maxT + (if c.verts.length < 3 then 0 else c.verts.length - 2) ≤ total) :
    ∃ st', addContour nvp total st c = some st' ∧
      Grown nvp conts (did ++ [c]) (maxV + (if c.verts.length < 3 then 0 else c.verts.length)) (maxT + (if c.verts.length < 3 then 0 else c.verts.length - 2)) st' := by
  unfold addContour
  by_cases h : c.verts.length < 3
  · rw [if_pos h]
    simp only [if_pos h, Nat.add_zero]
    refine ⟨st, rfl, ⟨?_, ?_⟩, hg.ok, hg.nv, hg.tris, hg.polys⟩
    · intro i hi
      obtain ⟨h1, d, hd, h2⟩ := hg.flags.only i hi
      exact ⟨h1, d, List.mem_append_left _ hd, h2⟩
    · intro d hd h3'
      rcases List.mem_append.1 hd with hd | hd
      · exact hg.flags.all d hd h3'
      · rw [List.mem_singleton.1 hd] at h3'; omega
  · rw [if_neg h]
    simp only [if_neg h] at hv ht ⊢
    have hnv := hg.nv
    obtain ⟨w, idx, ps, e1, e2, e3, e4, e5⟩ := contourPolys_sound h3 hg.ok c.verts (by omega) (by omega)
    rw [e1]
    dsimp only
    obtain ⟨a1, a2, a3, a4, a5⟩ := addVertices_length (c.verts.map toMV) hg.ok (by rw [List.length_map]; omega)
    rw [← e2] at a1 a2 a3 a4 a5
    dsimp only at a1 a2 a3 a4 a5
    rw [List.length_map] at a2 a4
    have hlen : st.polys.length + ps.length ≤ total := by
      have l1 := triCount_length e3
      have l2 : st.polys.length ≤ meshTris nvp st.polys := by
        have := triCount_length (nvp := nvp) (ps := st.polys.map MPoly.vs) (by
          intro p hp
          obtain ⟨q, hq, rfl⟩ := List.mem_map.1 hp
          exact ⟨(hg.polys q hq).slot, (hg.polys q hq).three⟩)
        rw [List.length_map] at this
        exact this
      have := hg.tris
      omega
    rw [storePolys_spec ps st.polys hlen]
    have hat : ∀ k (hk : k < c.verts.length), ∃ i v, idx[k]? = some i ∧ w.list[i]? = some v ∧ (v.x, v.z) = placeOf c.verts[k] := by
      intro k hk
      obtain ⟨i, v, b1, b2, b3⟩ := a5 k (toMV c.verts[k]) (by rw [List.getElem?_map, List.getElem?_eq_getElem hk]; rfl)
      exact ⟨i, v, b1, b2, by rw [b3.1, b3.2.1]; rfl⟩
    have hzip : ∀ (q : Pt × Nat), q ∈ c.verts.zip idx → q.1 ∈ c.verts ∧ ∃ v, w.list[q.2]? = some v ∧ (v.x, v.z) = placeOf q.1 := by
      intro q hq
      obtain ⟨k, hk, rfl⟩ := List.getElem_of_mem hq
      rw [List.length_zip] at hk
      obtain ⟨i, v, b1, b2, b3⟩ := hat k (by omega)
      rw [List.getElem?_eq_getElem (by omega)] at b1
      simp only [Option.some.injEq] at b1
      rw [List.getElem_zip]
      exact ⟨List.getElem_mem _, v, by dsimp only; rw [b1]; exact b2, b3⟩
    have hgrow : ∀ i, i < st.weld.list.length → i < w.list.length ∧ w.list.getD i default = st.weld.list.getD i default := by
      intro i hi
      obtain ⟨t, ht⟩ := a3
      rw [← ht, getD_append_lt hi, List.length_append]
      exact ⟨by omega, rfl⟩
    refine ⟨_, rfl, ⟨?_, ?_⟩, a1, by dsimp only; omega, ?_, ?_⟩
    · dsimp only
      intro i hi
      rcases (flagBorder_iff _ _ _).1 hi with hi | ⟨q, hq, hb, rfl⟩
      · obtain ⟨h1, d, hd, h2⟩ := hg.flags.only i hi
        obtain ⟨k1, k2⟩ := hgrow i h1
        rw [k2]
        exact ⟨k1, d, List.mem_append_left _ hd, h2⟩
      · obtain ⟨b1, v, b2, b3⟩ := hzip q hq
        refine ⟨(List.getElem?_eq_some_iff.1 b2).1, c, by simp, q.1, b1, hb, ?_⟩
        rw [List.getD_eq_getElem?_getD, b2]
        exact b3
    · dsimp only
      intro d hd h3' q hq hb
      rcases List.mem_append.1 hd with hd | hd
      · obtain ⟨i, h1, h2, h4⟩ := hg.flags.all d hd h3' q hq hb
        obtain ⟨k1, k2⟩ := hgrow i h1
        exact ⟨i, k1, (flagBorder_iff _ _ _).2 (Or.inl h2), by rw [k2]; exact h4⟩
      · rw [List.mem_singleton.1 hd] at hq
        obtain ⟨k, hk, rfl⟩ := List.getElem_of_mem hq
        obtain ⟨i, v, b1, b2, b3⟩ := hat k hk
        have hki : k < idx.length := by omega
        rw [List.getElem?_eq_getElem hki] at b1
        simp only [Option.some.injEq] at b1
        refine ⟨i, (List.getElem?_eq_some_iff.1 b2).1, (flagBorder_iff _ _ _).2 (Or.inr ⟨(c.verts[k], idx[k]), ?_, hb, b1⟩), ?_⟩
        · rw [List.mem_iff_getElem]
          exact ⟨k, by rw [List.length_zip]; omega, by rw [List.getElem_zip]⟩
        · rw [List.getD_eq_getElem?_getD, b2]
          exact b3
    · dsimp only
      unfold meshTris
      rw [List.map_append, triCount_append, List.map_map]
      have : ps.map (MPoly.vs ∘ fun q => ⟨q, c.reg, c.area⟩) = ps := by simp [Function.comp_def]
      rw [this]
      have := hg.tris
      unfold meshTris at this
      omega
    · dsimp only
      intro p hp
      rcases List.mem_append.1 hp with hp | hp
      · exact (hg.polys p hp).grow a3
      · obtain ⟨q, hq, rfl⟩ := List.mem_map.1 hp
        have hx : ∀ x ∈ polyVerts nvp q, ∃ r ∈ c.verts, ∃ v, w.list[x]? = some v ∧ (v.x, v.z) = placeOf r := by
          intro x hx
          obtain ⟨k, hk, hkx⟩ := List.getElem_of_mem (e5 q hq x hx)
          have hk' : k < c.verts.length := by omega
          obtain ⟨i, v, b1, b2, b3⟩ := a5 k (toMV c.verts[k]) (by rw [List.getElem?_map, List.getElem?_eq_getElem hk']; rfl)
          rw [List.getElem?_eq_getElem hk, hkx] at b1
          simp only [Option.some.injEq] at b1
          subst b1
          refine ⟨c.verts[k], List.getElem_mem _, v, b2, ?_⟩
          rw [b3.1, b3.2.1]
          rfl
        refine ⟨(e3 q hq).1, (e3 q hq).2, ?_, c, hc, rfl, rfl, ?_⟩
        · intro x hxm
          obtain ⟨r, -, v, b2, -⟩ := hx x hxm
          exact (List.getElem?_eq_some_iff.1 b2).1
        · intro x hxm
          obtain ⟨r, hr, v, b2, b3⟩ := hx x hxm
          refine ⟨r, hr, ?_⟩
          rw [List.getD_eq_getElem?_getD, b2]
          exact b3

theorem polysOfContours_grown {nvp : Nat} (h3 : 3 ≤ nvp) (conts : List Cont) (total : Nat) : ∀ (l did : List Cont) (st : Growing) (maxV maxT : Nat),
    (∀ c ∈ l, c ∈ conts) → Grown nvp conts did maxV maxT st → maxV + maxVertices l < 0xffff → maxT + maxTriangles l ≤ total →
    ∃ st', l.foldlM (addContour nvp total) st = some st' ∧ Grown nvp conts (did ++ l) (maxV + maxVertices l) (maxT + maxTriangles l) st' := by
  intro l
  induction l with
  | nil => intro did st maxV maxT _ hg _ _; exact ⟨st, rfl, by simpa [maxVertices, maxTriangles] using hg⟩
  | cons c l ih =>
    intro did st maxV maxT hl hg hv ht
    simp only [maxVertices, maxTriangles, List.map_cons, List.sum_cons] at hv ht
    obtain ⟨st1, e1, g1⟩ := addContour_grown h3 hg (hl c (List.mem_cons_self ..)) (total := total) (by omega) (by omega)
    obtain ⟨st2, e2, g2⟩ := ih _ st1 _ _ (fun c hc => hl c (List.mem_cons_of_mem _ hc)) g1
      (by simp only [maxVertices]; omega) (by simp only [maxTriangles]; omega)
    refine ⟨st2, ?_, ?_⟩
    · rw [List.foldlM_cons, e1]
      exact e2
    · simp only [maxVertices, maxTriangles, List.map_cons, List.sum_cons] at g2 ⊢
      rw [Nat.add_assoc, Nat.add_assoc, List.append_assoc] at g2
      exact g2

/-- **C134**: for any contours with fewer than 0xfffe vertices in all, however they lie, and any limit of at least
three vertices per polygon, the mesh is filled without an index out of range: the arrays allocated for the vertices and for
`maxTris` polygons suffice, also counting the triangles that the polygons stand for. Every polygon has three
to `nvp` valid vertices, and the region and area of a contour that has vertices at the places of all of them. The
vertices marked for removal are at the places of the contours' border vertices, and at each such place one is marked. -/
theorem polysOfContours_fits {nvp : Nat} (h3 : 3 ≤ nvp) (conts : List Cont) (hv : maxVertices conts < 0xfffe) :
    ∃ st, polysOfContours nvp conts = some st ∧ st.weld.nv ≤ maxVertices conts ∧ st.polys.length ≤ maxTriangles conts ∧
      (st.polys.map fun p => (polyVerts nvp p.vs).length - 2).sum ≤ maxTriangles conts ∧
      (∀ p ∈ st.polys, FromContours nvp conts st.weld.list p ∧ (polyVerts nvp p.vs).length ≤ nvp) ∧
      Flagged conts st.weld.list st.vflags := by
  obtain ⟨st, e, g⟩ := polysOfContours_grown h3 conts (maxTriangles conts) conts [] ⟨Weld.empty, fun _ => false, []⟩ 0 0 (fun c hc => hc)
    ⟨⟨by simp, by simp⟩, Weld.empty_ok, le_rfl, le_rfl, by simp⟩ (by omega) (by omega)
  rw [Nat.zero_add, Nat.zero_add] at g
  refine ⟨st, e, g.nv, ?_, ?_, fun p hp => ⟨g.polys p hp, (g.polys p hp).slot.le⟩, g.flags⟩
  · have := triCount_length (nvp := nvp) (ps := st.polys.map MPoly.vs) (by
      intro p hp
      obtain ⟨q, hq, rfl⟩ := List.mem_map.1 hp
      exact ⟨(g.polys q hq).slot, (g.polys q hq).three⟩)
    rw [List.length_map] at this
    exact this.trans g.tris
  · have := g.tris
    unfold meshTris triCount at this
    rw [List.map_map] at this
    exact this

/-- Two neighbouring contours: a square of region 1 and an L-shape of region 2. -/
def twoConts : List Cont :=
  [⟨rect 0 0 4 4, [], 1, 63⟩, ⟨ell.map fun p => { p with x := p.x + 4 }, [], 2, 5⟩]

example : maxVertices twoConts = 10 ∧ maxTriangles twoConts = 6 ∧
    (polysOfContours 6 twoConts).map (fun st => (st.weld.nv, st.polys)) =
      some (8, [⟨[0, 1, 2, 3, 65535, 65535], 1, 63⟩, ⟨[2, 4, 5, 3, 65535, 65535], 2, 5⟩, ⟨[7, 3, 5, 6, 65535, 65535], 2, 5⟩]) := by
  decide +kernel

/-- The hypotheses of `contour_area` and `contour_convex_partial` hold for the L-shape. -/
example : InRange ell ∧ Apart ell ∧ ∃ ts, triangulate (fun j => ell.getD j default) (List.range 6) = some (true, ts) ∧
    ∀ t ∈ ts, area2 (ell.getD t.1 default) (ell.getD t.2.1 default) (ell.getD t.2.2 default) < 0 := by
  refine ⟨by unfold InRange; decide, by unfold Apart; decide, [(1, 2, 3), (0, 1, 3), (3, 4, 5), (0, 3, 5)], by decide +kernel, by decide⟩

end Verif.Recast
