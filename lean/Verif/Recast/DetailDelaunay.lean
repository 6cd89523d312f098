/-
Triangulating a detail polygon with interior points: `delaunayHull` and `completeFacet` (recast/meshdetail.go:264-299, 519-714).

Simplifications: coordinates are exact, elements of an ordered field, and distances are compared by their squares. Points are pairs
(x, z). The edge table is a list of at most `maxEdges` entries; face numbers are natural numbers beside the two markers.
-/
import Verif.Recast.DetailHull
import Mathlib.Algebra.Order.Field.Basic
import Mathlib.Algebra.Order.Ring.Rat
import Mathlib.Tactic.LinearCombination

namespace Verif.Recast
open Verif Verif.Detour

set_option linter.unusedSimpArgs false
set_option linter.unusedVariables false
set_option linter.unusedSectionVars false

/-- The entries 2 and 3 of an edge: `EV_UNDEF`, `EV_HULL` or a face (recast/meshdetail.go:264-268). -/
inductive FaceRef where
  | undef
  | hull
  | face (f : Nat)
deriving DecidableEq

/-- An entry of the edge table: from `s` to `t` with the faces to its left and right. -/
structure DEdge where
  s : Nat
  t : Nat
  l : FaceRef
  r : FaceRef
deriving DecidableEq

/-- `findEdge` (recast/meshdetail.go:270-278). -/
def dFind (E : List DEdge) (s t : Nat) : Option Nat := E.findIdx? fun e => (e.s == s && e.t == t) || (e.s == t && e.t == s)

/-- `addEdge` (recast/meshdetail.go:280-299). -/
def dAdd (mx : Nat) (E : List DEdge) (s t : Nat) (l r : FaceRef) : List DEdge :=
  if mx ≤ E.length then E else if (dFind E s t).isNone then E ++ [⟨s, t, l, r⟩] else E

/-- `updateLeftFace` (recast/meshdetail.go:519-525). -/
def setLeft (s t : Nat) (f : FaceRef) (e : DEdge) : DEdge :=
  if e.s = s ∧ e.t = t ∧ e.l = .undef then { e with l := f }
  else if e.t = s ∧ e.s = t ∧ e.r = .undef then { e with r := f }
  else e

section
variable {K : Type} [_root_.Field K] [LinearOrder K]

/-- `circumCircle` (recast/meshdetail.go:65-88): centre and squared radius. -/
def circumCircle (a b c : K × K) : (K × K) × K :=
  let b' : K × K := (b.1 - a.1, b.2 - a.2)
  let c' : K × K := (c.1 - a.1, c.2 - a.2)
  let cp := cross2 (0, 0) b' c'
  if 1 / 1000000 < |cp| then
    let b2 := b'.1 * b'.1 + b'.2 * b'.2
    let c2 := c'.1 * c'.1 + c'.2 * c'.2
    let x := (b2 * c'.2 - c2 * b'.2) / (2 * cp)
    let z := (c2 * b'.1 - b2 * c'.1) / (2 * cp)
    ((x + a.1, z + a.2), x * x + z * z)
  else (a, 0)

/-- `overlapSegSeg2d` (recast/meshdetail.go:527-538). -/
def overlapSeg (a b c d : K × K) : Bool :=
  let a1 := cross2 a b d
  let a2 := cross2 a b c
  let a3 := cross2 c d a
  decide (a1 * a2 < 0 ∧ a3 * (a3 + a2 - a1) < 0)

/-- `overlapEdges` (recast/meshdetail.go:540-553). -/
def overlapAny (pts : Nat → K × K) (E : List DEdge) (s t : Nat) : Bool :=
  E.any fun e => !(e.s == s || e.s == t || e.t == s || e.t == t) && overlapSeg (pts e.s) (pts e.t) (pts s) (pts t)

/-- One point of the search (recast/meshdetail.go:577-609): the best point so far with its circle. -/
def tryPoint (pts : Nat → K × K) (E : List DEdge) (s t : Nat) (best : Option (Nat × (K × K) × K)) (u : Nat) : Option (Nat × (K × K) × K) :=
  if u = s ∨ u = t then best
  else if 1 / 100000 < cross2 (pts s) (pts t) (pts u) then
    match best with
    | none => some (u, circumCircle (pts s) (pts t) (pts u))
    | some (pt, c, r) =>
      let d := (c.1 - (pts u).1) * (c.1 - (pts u).1) + (c.2 - (pts u).2) * (c.2 - (pts u).2)
      if r * ((1 + 1 / 1000) * (1 + 1 / 1000)) < d then best
      else if d < r * ((1 - 1 / 1000) * (1 - 1 / 1000)) then some (u, circumCircle (pts s) (pts t) (pts u))
      else if overlapAny pts E s u || overlapAny pts E t u then best
      else some (u, circumCircle (pts s) (pts t) (pts u))
  else best

/-- The search for the best point on the left of an edge (recast/meshdetail.go:573-610). -/
def bestPoint (pts : Nat → K × K) (n : Nat) (E : List DEdge) (s t : Nat) : Option Nat :=
  ((List.range n).foldl (tryPoint pts E s t) none).map (·.1)

/-- A new edge, or the new face of an old one (recast/meshdetail.go:617-631). -/
def joinEdge (mx nf : Nat) (E : List DEdge) (s t : Nat) : List DEdge :=
  match dFind E s t with
  | none => dAdd mx E s t (.face nf) .undef
  | some k => E.modify k (setLeft s t (.face nf))

/-- `completeFacet` once the edge and its direction are known (recast/meshdetail.go:573-637). -/
def facetAt (pts : Nat → K × K) (n mx : Nat) (T : List DEdge × Nat) (e s t : Nat) : List DEdge × Nat :=
  match bestPoint pts n T.1 s t with
  | none => (T.1.modify e (setLeft s t .hull), T.2)
  | some pt => (joinEdge mx T.2 (joinEdge mx T.2 (T.1.modify e (setLeft s t (.face T.2))) pt s) t pt, T.2 + 1)

/-- `completeFacet` (recast/meshdetail.go:555-638): edge table and number of faces. -/
def completeFacet (pts : Nat → K × K) (n mx : Nat) (T : List DEdge × Nat) (e : Nat) : List DEdge × Nat :=
  match T.1[e]? with
  | none => T
  | some ed =>
    if ed.l = .undef then facetAt pts n mx T e ed.s ed.t
    else if ed.r = .undef then facetAt pts n mx T e ed.t ed.s
    else T

/-- One round of the loop (recast/meshdetail.go:657-662). -/
def facetRound (pts : Nat → K × K) (n mx : Nat) (T : List DEdge × Nat) (e : Nat) : List DEdge × Nat :=
  let T := if (T.1[e]?.map (·.l)) = some .undef then completeFacet pts n mx T e else T
  if (T.1[e]?.map (·.r)) = some .undef then completeFacet pts n mx T e else T

/-- The loop over the growing table (recast/meshdetail.go:655-664), with a bound on the rounds. -/
def facetLoop (pts : Nat → K × K) (n mx : Nat) : Nat → Nat → List DEdge × Nat → Option (List DEdge × Nat)
  | 0, e, T => if e < T.1.length then none else some T
  | fuel + 1, e, T => if e < T.1.length then facetLoop pts n mx fuel (e + 1) (facetRound pts n mx T e) else some T

/-- The edges of the outline (recast/meshdetail.go:649-653); `p` is the vertex before. -/
def hullEdges (mx : Nat) : Nat → List Nat → List DEdge → List DEdge
  | _, [], E => E
  | p, v :: vs, E => hullEdges mx v vs (dAdd mx E p v .hull .undef)

/-- The edge table when all facets are complete (recast/meshdetail.go:640-664). -/
def delaunayTable (pts : Nat → K × K) (n : Nat) (hull : List Nat) : Option (List DEdge × Nat) :=
  facetLoop pts n (n * 10) (n * 10 + 1) 0 (hullEdges (n * 10) (hull.getLastD 0) hull [], 0)

end

/-- A triangle under construction, -1 being `none`. -/
abbrev TriSlots := Option Nat × Option Nat × Option Nat

/-- A side of a triangle is entered (recast/meshdetail.go:674-697): `mark e.s e.t` for the right face, `mark e.t e.s` for the left. -/
def mark (a b : Nat) (t : TriSlots) : TriSlots :=
  if t.1 = none then (some a, some b, t.2.2)
  else if t.1 = some b then (t.1, t.2.1, some a)
  else if t.2.1 = some a then (t.1, t.2.1, some b)
  else t

/-- The side of a face (recast/meshdetail.go:674-697). -/
def markFace (a b : Nat) (f : FaceRef) (ts : List TriSlots) : List TriSlots :=
  match f with
  | .face f => ts.modify f (mark a b)
  | _ => ts

/-- The two sides of an edge (recast/meshdetail.go:672-698). -/
def markEdge (ts : List TriSlots) (e : DEdge) : List TriSlots := markFace e.t e.s e.l (markFace e.s e.t e.r ts)

/-- A finished triangle. -/
def whole : TriSlots → Option Tri3
  | (some a, some b, some c) => some (a, b, c)
  | _ => none

/-- The triangles of an edge table (recast/meshdetail.go:666-713); `none` is the panic at a dangling face. -/
def facesOf (T : List DEdge × Nat) : Option (List Tri3) :=
  let ts := T.1.foldl markEdge (List.replicate T.2 (none, none, none))
  if ts.all fun t => (whole t).isSome then some (ts.filterMap whole) else none

/-- `delaunayHull` (recast/meshdetail.go:640-714); `none` is a panic. -/
def delaunayHull {K : Type} [_root_.Field K] [LinearOrder K] (pts : Nat → K × K) (n : Nat) (hull : List Nat) : Option (List Tri3) :=
  (delaunayTable pts n hull).bind facesOf

/-! ## Faces -/

/-- `x → y` is a side of the triangle, in its order. -/
def Dir (F : Tri3) (x y : Nat) : Prop := (x, y) = (F.1, F.2.1) ∨ (x, y) = (F.2.1, F.2.2) ∨ (x, y) = (F.2.2, F.1)

/-- `(x, y, z)` is the triangle, read from some corner on. -/
def Rot (F : Tri3) (x y z : Nat) : Prop := F = (x, y, z) ∨ F = (y, z, x) ∨ F = (z, x, y)

/-- The faces known to a side of an edge. -/
def Known (faces : List Tri3) (f : FaceRef) (x y : Nat) : Prop := ∀ k, f = .face k → ∃ F, faces[k]? = some F ∧ Dir F x y

theorem Known.more {faces : List Tri3} {f : FaceRef} {x y : Nat} (h : Known faces f x y) (F : Tri3) : Known (faces ++ [F]) f x y := by
  intro k hk
  obtain ⟨G, g1, g2⟩ := h k hk
  exact ⟨G, by rw [List.getElem?_append_left (List.getElem?_eq_some_iff.1 g1).1]; exact g1, g2⟩

/-- What holds of the table: every face beside an edge has that edge as a side. -/
structure TInv (n : Nat) (faces : List Tri3) (E : List DEdge) : Prop where
  ends : ∀ e ∈ E, e.s < n ∧ e.t < n
  left : ∀ e ∈ E, Known faces e.l e.s e.t
  right : ∀ e ∈ E, Known faces e.r e.t e.s

theorem TInv.more {n : Nat} {faces : List Tri3} {E : List DEdge} (h : TInv n faces E) (F : Tri3) : TInv n (faces ++ [F]) E :=
  ⟨h.ends, fun e he => (h.left e he).more F, fun e he => (h.right e he).more F⟩

theorem mem_modify {α : Type} {l : List α} {k : Nat} {f : α → α} {x : α} (h : x ∈ l.modify k f) : x ∈ l ∨ ∃ y ∈ l, x = f y := by
  obtain ⟨i, hi⟩ := List.mem_iff_getElem?.1 h
  rw [List.getElem?_modify] at hi
  split at hi
  · obtain ⟨y, hy, rfl⟩ := Option.map_eq_some_iff.1 hi
    exact .inr ⟨y, List.mem_of_getElem? hy, rfl⟩
  · exact .inl (List.mem_of_getElem? (by simpa using hi))

theorem setLeft_ends (s t : Nat) (f : FaceRef) (e : DEdge) : (setLeft s t f e).s = e.s ∧ (setLeft s t f e).t = e.t := by
  unfold setLeft
  split
  · exact ⟨rfl, rfl⟩
  split <;> exact ⟨rfl, rfl⟩

theorem TInv.set {n : Nat} {faces : List Tri3} {E : List DEdge} (h : TInv n faces E) {s t : Nat} {f : FaceRef} (hf : Known faces f s t) (k : Nat) :
    TInv n faces (E.modify k (setLeft s t f)) := by
  have hset : ∀ e, Known faces e.l e.s e.t → Known faces e.r e.t e.s →
      Known faces (setLeft s t f e).l e.s e.t ∧ Known faces (setLeft s t f e).r e.t e.s := by
    intro e h1 h2
    unfold setLeft
    split
    · rename_i hc
      obtain ⟨rfl, rfl, _⟩ := hc
      exact ⟨hf, h2⟩
    split
    · rename_i hc
      obtain ⟨rfl, rfl, _⟩ := hc
      exact ⟨h1, hf⟩
    · exact ⟨h1, h2⟩
  refine ⟨?_, ?_, ?_⟩
  · intro e he
    rcases mem_modify he with he | ⟨y, hy, rfl⟩
    · exact h.ends e he
    · rw [(setLeft_ends s t f y).1, (setLeft_ends s t f y).2]
      exact h.ends y hy
  · intro e he
    rcases mem_modify he with he | ⟨y, hy, rfl⟩
    · exact h.left e he
    · rw [(setLeft_ends s t f y).1, (setLeft_ends s t f y).2]
      exact (hset y (h.left y hy) (h.right y hy)).1
  · intro e he
    rcases mem_modify he with he | ⟨y, hy, rfl⟩
    · exact h.right e he
    · rw [(setLeft_ends s t f y).1, (setLeft_ends s t f y).2]
      exact (hset y (h.left y hy) (h.right y hy)).2

theorem TInv.add {n : Nat} {faces : List Tri3} {E : List DEdge} (h : TInv n faces E) {s t mx : Nat} {l r : FaceRef} (hs : s < n) (ht : t < n)
    (hl : Known faces l s t) (hr : Known faces r t s) : TInv n faces (dAdd mx E s t l r) := by
  unfold dAdd
  split
  · exact h
  split
  · refine ⟨?_, ?_, ?_⟩ <;> intro e he <;> rcases List.mem_append.1 he with he | he
    · exact h.ends e he
    · rw [List.mem_singleton.1 he]; exact ⟨hs, ht⟩
    · exact h.left e he
    · rw [List.mem_singleton.1 he]; exact hl
    · exact h.right e he
    · rw [List.mem_singleton.1 he]; exact hr
  · exact h

theorem TInv.join {n : Nat} {faces : List Tri3} {E : List DEdge} (h : TInv n faces E) {s t mx nf : Nat} (hs : s < n) (ht : t < n)
    (hf : Known faces (.face nf) s t) : TInv n faces (joinEdge mx nf E s t) := by
  unfold joinEdge
  split
  · exact h.add hs ht hf (by intro k hk; cases hk)
  · exact h.set hf _

section
variable {K : Type} [_root_.Field K] [LinearOrder K] [IsStrictOrderedRing K]

/-- Spec: the corners are points of the set, and the triangle is counterclockwise by more than the tolerance. -/
def Good (pts : Nat → K × K) (n : Nat) (F : Tri3) : Prop :=
  F.1 < n ∧ F.2.1 < n ∧ F.2.2 < n ∧ 1 / 100000 < cross2 (pts F.1) (pts F.2.1) (pts F.2.2)

theorem bestPoint_spec (pts : Nat → K × K) (n : Nat) (E : List DEdge) (s t : Nat) {u : Nat} (h : bestPoint pts n E s t = some u) :
    u < n ∧ 1 / 100000 < cross2 (pts s) (pts t) (pts u) := by
  unfold bestPoint at h
  obtain ⟨x, hx, rfl⟩ := Option.map_eq_some_iff.1 h
  have key : ∀ (l : List Nat) (b : Option (Nat × (K × K) × K)), (∀ u ∈ l, u < n) →
      (∀ x, b = some x → x.1 < n ∧ 1 / 100000 < cross2 (pts s) (pts t) (pts x.1)) →
      ∀ x, l.foldl (tryPoint pts E s t) b = some x → x.1 < n ∧ 1 / 100000 < cross2 (pts s) (pts t) (pts x.1) := by
    intro l
    induction l with
    | nil => intro b _ hb; exact hb
    | cons u l ih =>
      intro b hl hb
      refine ih _ (fun v hv => hl v (by simp [hv])) ?_
      intro x hx
      have hu := hl u (by simp)
      unfold tryPoint at hx
      split at hx
      · exact hb x hx
      split at hx
      · rename_i hc
        split at hx
        · cases hx
          exact ⟨hu, hc⟩
        · simp only at hx
          split at hx
          · exact hb x hx
          split at hx
          · cases hx
            exact ⟨hu, hc⟩
          split at hx
          · exact hb x hx
          · cases hx
            exact ⟨hu, hc⟩
      · exact hb x hx
  exact key _ none (fun u hu => List.mem_range.1 hu) (by intro x hx; cases hx) x hx

/-- Twice the signed area between the origin and a segment. -/
def wedge (pts : Nat → K × K) (a b : Nat) : K := (pts a).1 * (pts b).2 - (pts a).2 * (pts b).1

/-- The directed sides at which faces are entered. -/
def faceSides (E : List DEdge) : List (Nat × Nat) :=
  E.flatMap fun e => (match e.l with | .face _ => [(e.s, e.t)] | _ => []) ++ (match e.r with | .face _ => [(e.t, e.s)] | _ => [])

/-- The directed sides that are outside. -/
def hullSides (E : List DEdge) : List (Nat × Nat) :=
  E.flatMap fun e => (match e.l with | .hull => [(e.s, e.t)] | _ => []) ++ (match e.r with | .hull => [(e.t, e.s)] | _ => [])

/-- The sum over directed sides. -/
def sideSum (pts : Nat → K × K) (l : List (Nat × Nat)) : K := (l.map fun q => wedge pts q.1 q.2).sum

/-- Spec: the signed sum of twice the areas of triangles. -/
def areaSum (pts : Nat → K × K) (ts : List Tri3) : K := (ts.map fun t => cross2 (pts t.1) (pts t.2.1) (pts t.2.2)).sum

/-- One more side, or no change. -/
def Grows (pts : Nat → K × K) (E E' : List DEdge) (s t : Nat) : Prop :=
  ((faceSides E').length = (faceSides E).length + 1 ∧ sideSum pts (faceSides E') = sideSum pts (faceSides E) + wedge pts s t) ∨
  ((faceSides E').length = (faceSides E).length ∧ sideSum pts (faceSides E') = sideSum pts (faceSides E))

theorem sideSum_append (pts : Nat → K × K) (a b : List (Nat × Nat)) : sideSum pts (a ++ b) = sideSum pts a + sideSum pts b := by
  unfold sideSum; rw [List.map_append, List.sum_append]

theorem faceSides_cons (e : DEdge) (E : List DEdge) : faceSides (e :: E) = faceSides [e] ++ faceSides E := by
  unfold faceSides; simp

theorem faceSides_append (E E' : List DEdge) : faceSides (E ++ E') = faceSides E ++ faceSides E' := by
  unfold faceSides; simp

theorem setLeft_grows (pts : Nat → K × K) (s t k : Nat) (e : DEdge) : Grows pts [e] [setLeft s t (.face k) e] s t := by
  unfold setLeft
  split
  · rename_i h
    obtain ⟨rfl, rfl, h3⟩ := h
    left
    unfold faceSides sideSum
    simp [h3, add_comm]
  split
  · rename_i h
    obtain ⟨rfl, rfl, h3⟩ := h
    left
    unfold faceSides sideSum
    simp [h3, add_comm]
  · exact .inr ⟨rfl, rfl⟩

theorem modify_grows (pts : Nat → K × K) (s t k j : Nat) (E : List DEdge) : Grows pts E (E.modify j (setLeft s t (.face k))) s t := by
  induction E generalizing j with
  | nil => cases j <;> exact .inr ⟨rfl, rfl⟩
  | cons e E ih =>
    cases j with
    | zero =>
      rw [List.modify_zero_cons]
      unfold Grows
      rw [faceSides_cons, faceSides_cons e E, sideSum_append, sideSum_append, List.length_append, List.length_append]
      rcases setLeft_grows pts s t k e with ⟨h1, h2⟩ | ⟨h1, h2⟩
      · left; exact ⟨by rw [h1]; omega, by rw [h2]; ring⟩
      · right; exact ⟨by rw [h1], by rw [h2]⟩
    | succ j =>
      rw [List.modify_succ_cons]
      unfold Grows
      rw [faceSides_cons, faceSides_cons e E, sideSum_append, sideSum_append, List.length_append, List.length_append]
      rcases ih j with ⟨h1, h2⟩ | ⟨h1, h2⟩
      · left; exact ⟨by rw [h1]; omega, by rw [h2]; ring⟩
      · right; exact ⟨by rw [h1], by rw [h2]⟩

theorem joinEdge_grows (pts : Nat → K × K) (mx k : Nat) (E : List DEdge) (s t : Nat) : Grows pts E (joinEdge mx k E s t) s t := by
  unfold joinEdge
  split
  · unfold dAdd
    split
    · exact .inr ⟨rfl, rfl⟩
    split
    · left
      rw [faceSides_append]
      exact ⟨by simp [faceSides], by rw [sideSum_append]; simp [faceSides, sideSum]⟩
    · exact .inr ⟨rfl, rfl⟩
  · exact modify_grows _ _ _ _ _ _

theorem setHull_same (s t j : Nat) (E : List DEdge) : faceSides (E.modify j (setLeft s t .hull)) = faceSides E := by
  induction E generalizing j with
  | nil => cases j <;> rfl
  | cons e E ih =>
    cases j with
    | zero =>
      rw [List.modify_zero_cons, faceSides_cons, faceSides_cons e E]
      congr 1
      unfold setLeft
      split
      · rename_i h; simp [faceSides, h.2.2]
      split
      · rename_i h; simp [faceSides, h.2.2]
      · rfl
    | succ j => rw [List.modify_succ_cons, faceSides_cons, faceSides_cons e E, ih]

/-- The account of sides and faces. -/
def Acc (pts : Nat → K × K) (E : List DEdge) (faces : List Tri3) : Prop :=
  (faceSides E).length ≤ 3 * faces.length ∧ ((faceSides E).length = 3 * faces.length → sideSum pts (faceSides E) = areaSum pts faces)

theorem Acc.step {pts : Nat → K × K} {E E1 E2 E3 : List DEdge} {faces : List Tri3} (h : Acc pts E faces) {a b c : Nat} (h1 : Grows pts E E1 a b)
    (h2 : Grows pts E1 E2 c a) (h3 : Grows pts E2 E3 b c) : Acc pts E3 (faces ++ [(a, b, c)]) := by
  have harea : areaSum pts (faces ++ [(a, b, c)]) = areaSum pts faces + cross2 (pts a) (pts b) (pts c) := by
    unfold areaSum; rw [List.map_append, List.sum_append]; simp
  have hlen : (faces ++ [(a, b, c)]).length = faces.length + 1 := by simp
  obtain ⟨g1, g2⟩ := h
  unfold Acc
  rw [hlen, harea]
  rcases h1 with ⟨a1, a2⟩ | ⟨a1, a2⟩ <;> rcases h2 with ⟨b1, b2⟩ | ⟨b1, b2⟩ <;> rcases h3 with ⟨c1, c2⟩ | ⟨c1, c2⟩ <;>
    refine ⟨by omega, fun heq => ?_⟩ <;> first | (exfalso; omega) | skip
  rw [c2, b2, a2, g2 (by omega)]
  unfold cross2 wedge
  ring

/-- The table with its faces. -/
def TOk (pts : Nat → K × K) (n : Nat) (T : List DEdge × Nat) (faces : List Tri3) : Prop :=
  faces.length = T.2 ∧ (∀ F ∈ faces, Good pts n F) ∧ TInv n faces T.1 ∧ Acc pts T.1 faces

theorem facetAt_ok {pts : Nat → K × K} {n mx : Nat} {T : List DEdge × Nat} {faces : List Tri3} (h : TOk pts n T faces) {e s t : Nat} (hs : s < n)
    (ht : t < n) : ∃ faces', TOk pts n (facetAt pts n mx T e s t) faces' := by
  obtain ⟨h1, h2, h3, h4⟩ := h
  unfold facetAt
  split
  · refine ⟨faces, h1, h2, h3.set (by intro k hk; cases hk) _, ?_⟩
    unfold Acc
    simp only
    rw [setHull_same]
    exact h4
  · rename_i pt hpt
    obtain ⟨p1, p2⟩ := bestPoint_spec pts n T.1 s t hpt
    have hF : ∀ x y, Dir (s, t, pt) x y → Known (faces ++ [(s, t, pt)]) (.face T.2) x y := by
      intro x y hd k hk
      cases hk
      exact ⟨(s, t, pt), by rw [← h1, List.getElem?_append_right (le_refl _)]; simp, hd⟩
    refine ⟨faces ++ [(s, t, pt)], by simp [h1], ?_, ?_, h4.step (modify_grows _ _ _ _ _ _) (joinEdge_grows _ _ _ _ _ _) (joinEdge_grows _ _ _ _ _ _)⟩
    · intro F hm
      rcases List.mem_append.1 hm with hm | hm
      · exact h2 F hm
      · rw [List.mem_singleton.1 hm]
        exact ⟨hs, ht, p1, p2⟩
    · exact (((h3.more _).set (hF s t (.inl rfl)) _).join p1 hs (hF pt s (.inr (.inr rfl)))).join ht p1 (hF t pt (.inr (.inl rfl)))

theorem completeFacet_ok {pts : Nat → K × K} {n mx : Nat} {T : List DEdge × Nat} {faces : List Tri3} (h : TOk pts n T faces) (e : Nat) :
    ∃ faces', TOk pts n (completeFacet pts n mx T e) faces' := by
  unfold completeFacet
  split
  · exact ⟨faces, h⟩
  · rename_i ed hed
    obtain ⟨e1, e2⟩ := h.2.2.1.ends ed (List.mem_of_getElem? hed)
    split
    · exact facetAt_ok h e1 e2
    split
    · exact facetAt_ok h e2 e1
    · exact ⟨faces, h⟩

theorem facetRound_ok {pts : Nat → K × K} {n mx : Nat} {T : List DEdge × Nat} {faces : List Tri3} (h : TOk pts n T faces) (e : Nat) :
    ∃ faces', TOk pts n (facetRound pts n mx T e) faces' := by
  unfold facetRound
  have h1 : ∃ faces', TOk pts n (if (T.1[e]?.map (·.l)) = some .undef then completeFacet pts n mx T e else T) faces' := by
    split
    · exact completeFacet_ok h e
    · exact ⟨faces, h⟩
  obtain ⟨f1, h1⟩ := h1
  simp only
  generalize (if (T.1[e]?.map (·.l)) = some .undef then completeFacet pts n mx T e else T) = T' at h1 ⊢
  split
  · exact completeFacet_ok h1 e
  · exact ⟨f1, h1⟩

theorem facetLoop_ok {pts : Nat → K × K} {n mx : Nat} (fuel e : Nat) {T T' : List DEdge × Nat} {faces : List Tri3} (h : TOk pts n T faces)
    (hr : facetLoop pts n mx fuel e T = some T') : ∃ faces', TOk pts n T' faces' := by
  induction fuel generalizing e T faces with
  | zero =>
    rw [facetLoop] at hr
    split at hr
    · cases hr
    · cases hr
      exact ⟨faces, h⟩
  | succ fuel ih =>
    rw [facetLoop] at hr
    split at hr
    · obtain ⟨f1, h1⟩ := facetRound_ok (mx := mx) h e
      exact ih _ h1 hr
    · cases hr
      exact ⟨faces, h⟩

theorem hullEdges_ok {n : Nat} (mx : Nat) (vs : List Nat) (p : Nat) {E : List DEdge} (h : TInv n [] E) (hp : p < n) (hv : ∀ v ∈ vs, v < n) :
    TInv n [] (hullEdges mx p vs E) := by
  induction vs generalizing p E with
  | nil => exact h
  | cons v vs ih =>
    exact ih v (h.add hp (hv v (by simp)) (by intro k hk; cases hk) (by intro k hk; cases hk)) (hv v (by simp)) fun w hw => hv w (by simp [hw])

theorem delaunayTable_ok {pts : Nat → K × K} {n : Nat} {hull : List Nat} (hh : ∀ v ∈ hull, v < n) {T : List DEdge × Nat}
    (h : delaunayTable pts n hull = some T) : ∃ faces, TOk pts n T faces := by
  refine facetLoop_ok (faces := []) _ _ ⟨rfl, by simp, ?_, ?_⟩ h
  swap
  · have : ∀ (vs : List Nat) (p : Nat) (E : List DEdge), faceSides E = [] → faceSides (hullEdges (n * 10) p vs E) = [] := by
      intro vs
      induction vs with
      | nil => intro p E hE; exact hE
      | cons v vs ih =>
        intro p E hE
        refine ih v _ ?_
        unfold dAdd
        split
        · exact hE
        split
        · rw [faceSides_append, hE]; rfl
        · exact hE
    unfold Acc
    simp only
    rw [this _ _ _ rfl]
    exact ⟨by simp, fun _ => rfl⟩
  cases hull with
  | nil => exact ⟨by simp [hullEdges], by simp [hullEdges], by simp [hullEdges]⟩
  | cons a l =>
    refine hullEdges_ok _ _ _ ⟨by simp, by simp, by simp⟩ (hh _ ?_) hh
    rw [List.getLastD_eq_getLast?, List.getLast?_eq_some_getLast (by simp)]
    exact List.getLast_mem _

end

/-! ## Triangles -/

/-- A triangle under construction fits its face. -/
def FitsFace (F : Tri3) (t : TriSlots) : Prop :=
  t = (none, none, none) ∨ ∃ x y z, Rot F x y z ∧ (t = (some y, some x, none) ∨ t = (some y, some x, some z))

theorem mark_fits {F : Tri3} (h1 : F.1 ≠ F.2.1) (h2 : F.2.1 ≠ F.2.2) (h3 : F.2.2 ≠ F.1) {t : TriSlots} (ht : FitsFace F t) {x y : Nat} (hd : Dir F x y) :
    FitsFace F (mark y x t) := by
  obtain ⟨a, b, c⟩ := F
  simp only at h1 h2 h3
  have hd' : ∃ z, Rot (a, b, c) x y z := by
    rcases hd with h | h | h <;> simp only [Prod.mk.injEq] at h <;> obtain ⟨rfl, rfl⟩ := h
    · exact ⟨c, .inl rfl⟩
    · exact ⟨a, .inr (.inr rfl)⟩
    · exact ⟨b, .inr (.inl rfl)⟩
  obtain ⟨z, hz⟩ := hd'
  rcases ht with rfl | ⟨x0, y0, z0, hr, ht⟩
  · exact .inr ⟨x, y, z, hz, .inl rfl⟩
  · right
    refine ⟨x0, y0, z0, hr, ?_⟩
    have hdist : x0 ≠ y0 ∧ y0 ≠ z0 ∧ z0 ≠ x0 := by
      rcases hr with h | h | h <;> simp only [Prod.mk.injEq] at h <;> obtain ⟨rfl, rfl, rfl⟩ := h
      · exact ⟨h1, h2, h3⟩
      · exact ⟨h3, h1, h2⟩
      · exact ⟨h2, h3, h1⟩
    have hxy : (x = x0 ∧ y = y0) ∨ (x = y0 ∧ y = z0) ∨ (x = z0 ∧ y = x0) := by
      rcases hr with h | h | h <;> simp only [Prod.mk.injEq] at h <;> obtain ⟨rfl, rfl, rfl⟩ := h <;>
        rcases hd with h | h | h <;> simp only [Prod.mk.injEq] at h <;> obtain ⟨rfl, rfl⟩ := h <;> simp
    rcases hxy with ⟨rfl, rfl⟩ | ⟨rfl, rfl⟩ | ⟨rfl, rfl⟩ <;> rcases ht with rfl | rfl <;> unfold mark <;>
      simp [hdist.1, hdist.2.1, hdist.2.2, hdist.1.symm, hdist.2.1.symm, hdist.2.2.symm]

/-- All triangles under construction fit their faces. -/
def AllFit (faces : List Tri3) (ts : List TriSlots) : Prop :=
  ts.length = faces.length ∧ ∀ (k : Nat) (F : Tri3) (t : TriSlots), faces[k]? = some F → ts[k]? = some t → FitsFace F t

theorem markFace_fits {faces : List Tri3} (hdist : ∀ F ∈ faces, F.1 ≠ F.2.1 ∧ F.2.1 ≠ F.2.2 ∧ F.2.2 ≠ F.1) {ts : List TriSlots} (h : AllFit faces ts)
    {f : FaceRef} {x y : Nat} (hf : Known faces f x y) : AllFit faces (markFace y x f ts) := by
  unfold markFace
  split
  · rename_i k
    refine ⟨by rw [List.length_modify]; exact h.1, ?_⟩
    intro j F t hF ht
    rw [List.getElem?_modify] at ht
    split at ht
    · rename_i hkj
      subst hkj
      obtain ⟨t0, h0, rfl⟩ := Option.map_eq_some_iff.1 ht
      obtain ⟨G, g1, g2⟩ := hf k rfl
      rw [hF] at g1
      cases g1
      obtain ⟨d1, d2, d3⟩ := hdist F (List.mem_of_getElem? hF)
      exact mark_fits d1 d2 d3 (h.2 k F t0 hF h0) g2
    · exact h.2 j F t hF (by simpa using ht)
  · exact h

theorem marks_fit {n : Nat} {faces : List Tri3} (hdist : ∀ F ∈ faces, F.1 ≠ F.2.1 ∧ F.2.1 ≠ F.2.2 ∧ F.2.2 ≠ F.1) (E : List DEdge)
    (hl : ∀ e ∈ E, Known faces e.l e.s e.t) (hr : ∀ e ∈ E, Known faces e.r e.t e.s) {ts : List TriSlots} (h : AllFit faces ts) :
    AllFit faces (E.foldl markEdge ts) := by
  induction E generalizing ts with
  | nil => exact h
  | cons e E ih =>
    exact ih (fun e' he => hl e' (by simp [he])) (fun e' he => hr e' (by simp [he]))
      (markFace_fits hdist (markFace_fits hdist h (hr e (by simp))) (hl e (by simp)))

theorem cross2_self1 {K : Type} [_root_.Field K] (a b : K × K) : cross2 a a b = 0 := by unfold cross2; ring

theorem cross2_self2 {K : Type} [_root_.Field K] (a b : K × K) : cross2 a b b = 0 := by unfold cross2; ring

theorem cross2_self3 {K : Type} [_root_.Field K] (a b : K × K) : cross2 a b a = 0 := by unfold cross2; ring

section
variable {K : Type} [_root_.Field K] [LinearOrder K] [IsStrictOrderedRing K]

theorem Good.dist {pts : Nat → K × K} {n : Nat} {F : Tri3} (h : Good pts n F) : F.1 ≠ F.2.1 ∧ F.2.1 ≠ F.2.2 ∧ F.2.2 ≠ F.1 := by
  have h4 : (0 : K) < cross2 (pts F.1) (pts F.2.1) (pts F.2.2) := lt_trans (by norm_num) h.2.2.2
  refine ⟨fun e => ?_, fun e => ?_, fun e => ?_⟩
  · rw [e, cross2_self1] at h4; exact lt_irrefl _ h4
  · rw [e, cross2_self2] at h4; exact lt_irrefl _ h4
  · rw [e, cross2_self3] at h4; exact lt_irrefl _ h4

/-- The stored triangles are the faces, each with its corners in the opposite order. -/
theorem facesOf_spec {pts : Nat → K × K} {n : Nat} {T : List DEdge × Nat} {faces : List Tri3} (h : TOk pts n T faces) {tris : List Tri3}
    (hr : facesOf T = some tris) : List.Forall₂ (fun F t => Rot F t.2.1 t.1 t.2.2) faces tris := by
  obtain ⟨h1, h2, h3, -⟩ := h
  unfold facesOf at hr
  simp only at hr
  have hfit : AllFit faces (T.1.foldl markEdge (List.replicate T.2 (none, none, none))) := by
    refine marks_fit (n := n) (fun F hF => (h2 F hF).dist) _ h3.left h3.right ⟨by simp [h1], ?_⟩
    intro k F t _ ht
    rw [List.getElem?_replicate] at ht
    split at ht
    · cases ht; exact .inl rfl
    · cases ht
  generalize T.1.foldl markEdge (List.replicate T.2 (none, none, none)) = ts at hfit hr
  split at hr
  · rename_i hall
    cases hr
    clear h1 h2 h3
    induction ts generalizing faces with
    | nil =>
      have := hfit.1
      cases faces with
      | nil => exact .nil
      | cons F faces => simp at this
    | cons t ts ih =>
      cases faces with
      | nil => have := hfit.1; simp at this
      | cons F faces =>
        have ht : (whole t).isSome = true := List.all_eq_true.1 hall t (by simp)
        have hts : ts.all (fun t => (whole t).isSome) = true := List.all_eq_true.2 fun t' h' => List.all_eq_true.1 hall t' (by simp [h'])
        have hF := hfit.2 0 F t rfl rfl
        have hrest : AllFit faces ts := by
          refine ⟨by simpa using hfit.1, fun k G t' hG ht' => hfit.2 (k + 1) G t' (by simpa using hG) (by simpa using ht')⟩
        rcases hF with rfl | ⟨x, y, z, hrot, rfl | rfl⟩
        · simp [whole] at ht
        · simp [whole] at ht
        · rw [List.filterMap_cons]
          simp only [whole]
          exact .cons hrot (ih hrest hts)
  · cases hr

theorem rot_cross2 {pts : Nat → K × K} {F : Tri3} {x y z : Nat} (h : Rot F x y z) :
    cross2 (pts y) (pts x) (pts z) = -cross2 (pts F.1) (pts F.2.1) (pts F.2.2) := by
  rcases h with rfl | rfl | rfl <;> simp only <;> unfold cross2 <;> ring

/-- **C146** whenever the triangulation of an outline with interior points returns, every triangle has three different points of the set
as corners, and all triangles have the orientation of a clockwise outline, with more than the tolerance of area. -/
theorem delaunay_sound (pts : Nat → K × K) (n : Nat) (hull : List Nat) (hh : ∀ v ∈ hull, v < n) (tris : List Tri3)
    (hr : delaunayHull pts n hull = some tris) : ∀ t ∈ tris, (t.1 < n ∧ t.2.1 < n ∧ t.2.2 < n) ∧ (t.1 ≠ t.2.1 ∧ t.2.1 ≠ t.2.2 ∧ t.2.2 ≠ t.1) ∧
      cross2 (pts t.1) (pts t.2.1) (pts t.2.2) < -(1 / 100000) := by
  intro t ht
  unfold delaunayHull at hr
  cases hT : delaunayTable pts n hull with
  | none => rw [hT] at hr; cases hr
  | some T =>
    rw [hT] at hr
    obtain ⟨faces, hf⟩ := delaunayTable_ok hh hT
    have h2 := facesOf_spec hf hr
    obtain ⟨F, hF, hrot⟩ : ∃ F ∈ faces, Rot F t.2.1 t.1 t.2.2 := by
      clear hf hT hr
      induction h2 with
      | nil => cases ht
      | cons h _ ih =>
        rcases List.mem_cons.1 ht with rfl | ht
        · exact ⟨_, List.mem_cons_self, h⟩
        · obtain ⟨F, hF, hr⟩ := ih ht
          exact ⟨F, List.mem_cons_of_mem _ hF, hr⟩
    have hg := hf.2.1 F hF
    have hd := hg.dist
    have hc := rot_cross2 (pts := pts) hrot
    obtain ⟨g1, g2, g3, g4⟩ := hg
    refine ⟨?_, ?_, by rw [hc]; exact neg_lt_neg g4⟩
    · rcases hrot with h | h | h <;> rw [h] at g1 g2 g3
      · exact ⟨g2, g1, g3⟩
      · exact ⟨g1, g3, g2⟩
      · exact ⟨g3, g2, g1⟩
    · rcases hrot with h | h | h <;> rw [h] at hd
      · exact ⟨hd.1.symm, hd.2.2.symm, hd.2.1.symm⟩
      · exact ⟨hd.2.2.symm, hd.2.1.symm, hd.1.symm⟩
      · exact ⟨hd.2.1.symm, hd.1.symm, hd.2.2.symm⟩

/-! ## The loop ends -/

theorem dAdd_length (mx : Nat) (E : List DEdge) (s t : Nat) (l r : FaceRef) (h : E.length ≤ mx) : (dAdd mx E s t l r).length ≤ mx := by
  unfold dAdd
  split
  · exact h
  split
  · rw [List.length_append, List.length_singleton]; omega
  · exact h

theorem joinEdge_length (mx nf : Nat) (E : List DEdge) (s t : Nat) (h : E.length ≤ mx) : (joinEdge mx nf E s t).length ≤ mx := by
  unfold joinEdge
  split
  · exact dAdd_length _ _ _ _ _ _ h
  · rw [List.length_modify]; exact h

theorem facetAt_length (pts : Nat → K × K) (n mx : Nat) (T : List DEdge × Nat) (e s t : Nat) (h : T.1.length ≤ mx) :
    (facetAt pts n mx T e s t).1.length ≤ mx := by
  unfold facetAt
  split
  · simp only; rw [List.length_modify]; exact h
  · exact joinEdge_length _ _ _ _ _ (joinEdge_length _ _ _ _ _ (by rw [List.length_modify]; exact h))

theorem completeFacet_length (pts : Nat → K × K) (n mx : Nat) (T : List DEdge × Nat) (e : Nat) (h : T.1.length ≤ mx) :
    (completeFacet pts n mx T e).1.length ≤ mx := by
  unfold completeFacet
  split
  · exact h
  split
  · exact facetAt_length _ _ _ _ _ _ _ h
  split
  · exact facetAt_length _ _ _ _ _ _ _ h
  · exact h

theorem facetRound_length (pts : Nat → K × K) (n mx : Nat) (T : List DEdge × Nat) (e : Nat) (h : T.1.length ≤ mx) :
    (facetRound pts n mx T e).1.length ≤ mx := by
  unfold facetRound
  have h1 : (if (T.1[e]?.map (·.l)) = some .undef then completeFacet pts n mx T e else T).1.length ≤ mx := by
    split
    · exact completeFacet_length _ _ _ _ _ h
    · exact h
  simp only
  generalize (if (T.1[e]?.map (·.l)) = some .undef then completeFacet pts n mx T e else T) = T' at h1 ⊢
  split
  · exact completeFacet_length _ _ _ _ _ h1
  · exact h1

theorem facetLoop_ends (pts : Nat → K × K) (n mx : Nat) (fuel e : Nat) (T : List DEdge × Nat) (h : T.1.length ≤ mx) (hf : mx ≤ fuel + e) :
    ∃ T', facetLoop pts n mx fuel e T = some T' := by
  induction fuel generalizing e T with
  | zero =>
    rw [facetLoop, if_neg (by omega)]
    exact ⟨_, rfl⟩
  | succ fuel ih =>
    rw [facetLoop]
    split
    · exact ih _ _ (facetRound_length _ _ _ _ _ h) (by omega)
    · exact ⟨_, rfl⟩

theorem hullEdges_length (mx : Nat) (vs : List Nat) (p : Nat) (E : List DEdge) (h : E.length ≤ mx) : (hullEdges mx p vs E).length ≤ mx := by
  induction vs generalizing p E with
  | nil => exact h
  | cons v vs ih => exact ih v _ (dAdd_length _ _ _ _ _ _ h)

/-- **C146** the facets are completed within ten rounds per point, whatever the points and the outline are. -/
theorem delaunay_ends (pts : Nat → K × K) (n : Nat) (hull : List Nat) : ∃ T, delaunayTable pts n hull = some T :=
  facetLoop_ends _ _ _ _ _ _ (hullEdges_length _ _ _ _ (by simp)) (by omega)

/-! ## Area -/

/-- What has been decided about the sides of an edge stays decided. -/
def Keeps (E E' : List DEdge) : Prop :=
  ∀ (i : Nat) (e : DEdge), E[i]? = some e → ∃ e', E'[i]? = some e' ∧ (e.l ≠ .undef → e'.l ≠ .undef) ∧ (e.r ≠ .undef → e'.r ≠ .undef)

theorem Keeps.refl (E : List DEdge) : Keeps E E := fun i e h => ⟨e, h, id, id⟩

theorem Keeps.trans {A B C : List DEdge} (h1 : Keeps A B) (h2 : Keeps B C) : Keeps A C := by
  intro i e h
  obtain ⟨e1, a1, a2, a3⟩ := h1 i e h
  obtain ⟨e2, b1, b2, b3⟩ := h2 i e1 a1
  exact ⟨e2, b1, b2 ∘ a2, b3 ∘ a3⟩

theorem modify_keeps (s t j : Nat) {f : FaceRef} (hf : f ≠ .undef) (E : List DEdge) : Keeps E (E.modify j (setLeft s t f)) := by
  intro i e h
  rw [List.getElem?_modify, h]
  split
  · refine ⟨setLeft s t f e, rfl, ?_⟩
    unfold setLeft
    split
    · exact ⟨fun _ => hf, id⟩
    split
    · exact ⟨id, fun _ => hf⟩
    · exact ⟨id, id⟩
  · exact ⟨e, rfl, id, id⟩

theorem joinEdge_keeps (mx nf : Nat) (E : List DEdge) (s t : Nat) : Keeps E (joinEdge mx nf E s t) := by
  unfold joinEdge
  split
  · unfold dAdd
    split
    · exact .refl _
    split
    · intro i e h
      exact ⟨e, by rw [List.getElem?_append_left (List.getElem?_eq_some_iff.1 h).1]; exact h, id, id⟩
    · exact .refl _
  · exact modify_keeps _ _ _ (by simp) _

theorem facetAt_keeps (pts : Nat → K × K) (n mx : Nat) (T : List DEdge × Nat) (e s t : Nat) : Keeps T.1 (facetAt pts n mx T e s t).1 := by
  unfold facetAt
  split
  · exact modify_keeps _ _ _ (by simp) _
  · exact ((modify_keeps _ _ _ (by simp) _).trans (joinEdge_keeps _ _ _ _ _)).trans (joinEdge_keeps _ _ _ _ _)

theorem completeFacet_keeps (pts : Nat → K × K) (n mx : Nat) (T : List DEdge × Nat) (e : Nat) : Keeps T.1 (completeFacet pts n mx T e).1 := by
  unfold completeFacet
  split
  · exact .refl _
  split
  · exact facetAt_keeps _ _ _ _ _ _ _
  split
  · exact facetAt_keeps _ _ _ _ _ _ _
  · exact .refl _

/-- The first call of the facet decides the side. -/
theorem facetAt_decides (pts : Nat → K × K) (n mx : Nat) (T : List DEdge × Nat) (e s t : Nat) {ed : DEdge} (h : T.1[e]? = some ed) :
    ∃ f ≠ FaceRef.undef, ∃ e', (facetAt pts n mx T e s t).1[e]? = some e' ∧ ((setLeft s t f ed).l ≠ .undef → e'.l ≠ .undef) ∧
      ((setLeft s t f ed).r ≠ .undef → e'.r ≠ .undef) := by
  unfold facetAt
  split
  · refine ⟨.hull, by simp, setLeft s t .hull ed, ?_, id, id⟩
    simp only
    rw [List.getElem?_modify, h]
    simp
  · refine ⟨.face T.2, by simp, ?_⟩
    have h1 : (T.1.modify e (setLeft s t (.face T.2)))[e]? = some (setLeft s t (.face T.2) ed) := by
      rw [List.getElem?_modify, h]; simp
    exact ((joinEdge_keeps _ _ _ _ _).trans (joinEdge_keeps _ _ _ _ _)) e _ h1

theorem completeFacet_left (pts : Nat → K × K) (n mx : Nat) (T : List DEdge × Nat) (e : Nat) {ed : DEdge} (h : T.1[e]? = some ed) :
    ∃ e', (completeFacet pts n mx T e).1[e]? = some e' ∧ e'.l ≠ .undef := by
  unfold completeFacet
  rw [h]
  simp only
  split
  · rename_i hl
    obtain ⟨f, hf, e', h1, h2, _⟩ := facetAt_decides pts n mx T e ed.s ed.t h
    refine ⟨e', h1, h2 ?_⟩
    unfold setLeft
    rw [if_pos ⟨rfl, rfl, hl⟩]
    exact hf
  · rename_i hl
    split
    · obtain ⟨e', h1, h2, _⟩ := facetAt_keeps pts n mx T e ed.t ed.s e ed h
      exact ⟨e', h1, h2 hl⟩
    · exact ⟨ed, h, hl⟩

theorem completeFacet_right (pts : Nat → K × K) (n mx : Nat) (T : List DEdge × Nat) (e : Nat) {ed : DEdge} (h : T.1[e]? = some ed)
    (hl : ed.l ≠ .undef) : ∃ e', (completeFacet pts n mx T e).1[e]? = some e' ∧ e'.l ≠ .undef ∧ e'.r ≠ .undef := by
  unfold completeFacet
  rw [h]
  simp only
  rw [if_neg hl]
  split
  · rename_i hr
    obtain ⟨f, hf, e', h1, h2, h3⟩ := facetAt_decides pts n mx T e ed.t ed.s h
    have hs : setLeft ed.t ed.s f ed = { ed with r := f } := by
      unfold setLeft
      rw [if_neg (fun hc => hl hc.2.2), if_pos ⟨rfl, rfl, hr⟩]
    rw [hs] at h2 h3
    exact ⟨e', h1, h2 hl, h3 hf⟩
  · rename_i hr
    exact ⟨ed, h, hl, hr⟩

theorem facetRound_keeps (pts : Nat → K × K) (n mx : Nat) (T : List DEdge × Nat) (e : Nat) : Keeps T.1 (facetRound pts n mx T e).1 := by
  unfold facetRound
  have h1 : Keeps T.1 (if (T.1[e]?.map (·.l)) = some .undef then completeFacet pts n mx T e else T).1 := by
    split
    · exact completeFacet_keeps _ _ _ _ _
    · exact .refl _
  simp only
  generalize (if (T.1[e]?.map (·.l)) = some .undef then completeFacet pts n mx T e else T) = T' at h1 ⊢
  split
  · exact h1.trans (completeFacet_keeps _ _ _ _ _)
  · exact h1

theorem facetRound_decides (pts : Nat → K × K) (n mx : Nat) (T : List DEdge × Nat) (e : Nat) (h : e < T.1.length) :
    ∃ e', (facetRound pts n mx T e).1[e]? = some e' ∧ e'.l ≠ .undef ∧ e'.r ≠ .undef := by
  unfold facetRound
  have h1 : ∃ e', (if (T.1[e]?.map (·.l)) = some .undef then completeFacet pts n mx T e else T).1[e]? = some e' ∧ e'.l ≠ .undef := by
    have he : T.1[e]? = some T.1[e] := List.getElem?_eq_getElem h
    split
    · exact completeFacet_left _ _ _ _ _ he
    · rename_i hc
      exact ⟨_, he, fun hl => hc (by rw [he]; simp [hl])⟩
  simp only
  generalize (if (T.1[e]?.map (·.l)) = some .undef then completeFacet pts n mx T e else T) = T' at h1 ⊢
  obtain ⟨e1, h1, hl⟩ := h1
  split
  · exact completeFacet_right _ _ _ _ _ h1 hl
  · rename_i hc
    exact ⟨e1, h1, hl, fun hr => hc (by rw [h1]; simp [hr])⟩

theorem facetLoop_decides (pts : Nat → K × K) (n mx : Nat) (fuel e : Nat) (T T' : List DEdge × Nat)
    (hd : ∀ i < e, ∀ ed, T.1[i]? = some ed → ed.l ≠ .undef ∧ ed.r ≠ .undef) (h : facetLoop pts n mx fuel e T = some T') :
    ∀ ed ∈ T'.1, ed.l ≠ .undef ∧ ed.r ≠ .undef := by
  have hend : ¬ e < T.1.length → ∀ ed ∈ T.1, ed.l ≠ .undef ∧ ed.r ≠ .undef := by
    intro hc ed hed
    obtain ⟨i, hi⟩ := List.mem_iff_getElem?.1 hed
    exact hd i (by have := (List.getElem?_eq_some_iff.1 hi).1; omega) ed hi
  induction fuel generalizing e T with
  | zero =>
    rw [facetLoop] at h
    split at h
    · cases h
    · rename_i hc
      cases h
      exact hend hc
  | succ fuel ih =>
    rw [facetLoop] at h
    split at h
    · rename_i hc
      have hd' : ∀ i < e + 1, ∀ ed, (facetRound pts n mx T e).1[i]? = some ed → ed.l ≠ .undef ∧ ed.r ≠ .undef := by
        intro i hi ed hed
        rcases Nat.lt_succ_iff_lt_or_eq.1 hi with hi | rfl
        · have hlt : i < T.1.length := by omega
          obtain ⟨e', k1, k2, k3⟩ := facetRound_keeps pts n mx T e i _ (List.getElem?_eq_getElem hlt)
          rw [hed] at k1
          cases k1
          have := hd i hi _ (List.getElem?_eq_getElem hlt)
          exact ⟨k2 this.1, k3 this.2⟩
        · obtain ⟨e', k1, k2, k3⟩ := facetRound_decides pts n mx T i hc
          rw [hed] at k1
          cases k1
          exact ⟨k2, k3⟩
      refine ih _ _ hd' h ?_
      intro hc' ed hed
      obtain ⟨i, hi⟩ := List.mem_iff_getElem?.1 hed
      exact hd' i (by have := (List.getElem?_eq_some_iff.1 hi).1; omega) ed hi
    · rename_i hc
      cases h
      exact hend hc

theorem sides_cancel (pts : Nat → K × K) (E : List DEdge) (h : ∀ e ∈ E, e.l ≠ .undef ∧ e.r ≠ .undef) :
    sideSum pts (faceSides E) + sideSum pts (hullSides E) = 0 := by
  induction E with
  | nil => simp [faceSides, hullSides, sideSum]
  | cons e E ih =>
    have h1 := ih fun e' he => h e' (by simp [he])
    have h2 : hullSides (e :: E) = hullSides [e] ++ hullSides E := by unfold hullSides; simp
    rw [faceSides_cons, h2, sideSum_append, sideSum_append]
    obtain ⟨hl, hr⟩ := h e (by simp)
    have h3 : sideSum pts (faceSides [e]) + sideSum pts (hullSides [e]) = 0 := by
      unfold faceSides hullSides sideSum
      cases hel : e.l with
      | undef => exact absurd hel hl
      | hull => cases her : e.r with
        | undef => exact absurd her hr
        | hull => simp [hel, her, wedge]; ring
        | face k => simp [hel, her, wedge]; ring
      | face j => cases her : e.r with
        | undef => exact absurd her hr
        | hull => simp [hel, her, wedge]; ring
        | face k => simp [hel, her, wedge]; ring
    linear_combination h1 + h3

/-- Spec: the sides of a closed outline, from the vertex before each vertex to that vertex. -/
def outlineSides (p : Nat) : List Nat → List (Nat × Nat)
  | [] => []
  | v :: vs => (p, v) :: outlineSides v vs

/-- **C147** (partial) if every triangle is entered at its three sides and the sides left outside are those of the outline, then the
triangles have together the area of the outline. Missing: the code does not ensure the two conditions, see `delaunay_panic_refuted`
and `delaunay_area_refuted`. -/
theorem delaunay_area_partial (pts : Nat → K × K) (n : Nat) (hull : List Nat) (hh : ∀ v ∈ hull, v < n) (tris : List Tri3)
    (hr : delaunayHull pts n hull = some tris) (T : List DEdge × Nat) (hT : delaunayTable pts n hull = some T)
    (h3 : (faceSides T.1).length = 3 * T.2) (ho : (hullSides T.1).Perm (outlineSides (hull.getLastD 0) hull)) :
    areaSum pts tris = sideSum pts (outlineSides (hull.getLastD 0) hull) := by
  obtain ⟨faces, hf⟩ := delaunayTable_ok hh hT
  have hd := facetLoop_decides pts n (n * 10) _ 0 _ T (by intro i hi; omega) hT
  have h0 := sides_cancel pts T.1 hd
  have hacc := hf.2.2.2.2 (by rw [h3, hf.1])
  unfold delaunayHull at hr
  rw [hT] at hr
  have h2 := facesOf_spec hf hr
  have ha : areaSum pts tris = -areaSum pts faces := by
    clear hf hacc hr
    induction h2 with
    | nil => simp [areaSum]
    | cons hrot _ ih =>
      have := rot_cross2 (pts := pts) hrot
      unfold areaSum at ih ⊢
      rw [List.map_cons, List.map_cons, List.sum_cons, List.sum_cons, ih, this]
      ring
  have hp : sideSum pts (hullSides T.1) = sideSum pts (outlineSides (hull.getLastD 0) hull) := by
    unfold sideSum
    exact (ho.map _).sum_eq
  rw [ha, ← hp, ← hacc]
  linear_combination -h0

end

/-! ## Cases -/

/-- A triangle with one point inside. -/
def inner1 : Nat → ℚ × ℚ
  | 0 => (0, 0)
  | 1 => (30, 60)
  | 2 => (60, 0)
  | _ => (31, 20)

/-- A triangle with points inside whose faces get in the way of each other. -/
def inner4 : Nat → ℚ × ℚ
  | 0 => (0, 0)
  | 1 => (30, 60)
  | 2 => (60, 0)
  | 3 => (38, 30)
  | 4 => (36, 32)
  | 5 => (20, 23)
  | _ => (24, 32)

/-- A triangle with points inside whose faces overlap. -/
def inner4' : Nat → ℚ × ℚ
  | 0 => (0, 0)
  | 1 => (300, 600)
  | 2 => (600, 0)
  | 3 => (213, 289)
  | 4 => (349, 327)
  | 5 => (221, 301)
  | _ => (223, 304)

-- three triangles around the point inside; the conditions of both theorems hold
example : delaunayHull inner1 4 [0, 1, 2] = some [(2, 0, 3), (0, 1, 3), (1, 2, 3)] := by decide +kernel
example : ((delaunayTable inner1 4 [0, 1, 2]).map fun T =>
    decide ((faceSides T.1).length = 3 * T.2 ∧ (hullSides T.1).Perm (outlineSides 2 [0, 1, 2]))) = some true := by decide +kernel
example : areaSum inner1 [(2, 0, 3), (0, 1, 3), (1, 2, 3)] = sideSum inner1 (outlineSides 2 [0, 1, 2]) := by decide +kernel
-- triangles have the orientation of the outline
example : cross2 (inner1 0) (inner1 1) (inner1 2) < 0 := by decide +kernel

/-- Spec: the point lies inside the clockwise outline of the first three points. -/
def Inside3 (pts : Nat → ℚ × ℚ) (k : Nat) : Prop :=
  cross2 (pts 0) (pts 1) (pts k) < 0 ∧ cross2 (pts 1) (pts 2) (pts k) < 0 ∧ cross2 (pts 2) (pts 0) (pts k) < 0

/-- **C147** (refuted) the triangulation of a triangle with four points inside it, no two of them equal, panics at a dangling face. -/
theorem delaunay_panic_refuted : (∀ k, 3 ≤ k → k < 7 → Inside3 inner4 k) ∧ (∀ i j, i < j → j < 7 → inner4 i ≠ inner4 j) ∧
    delaunayHull inner4 7 [0, 1, 2] = none := by
  refine ⟨?_, ?_, by decide +kernel⟩
  · intro k h1 h2
    have : k = 3 ∨ k = 4 ∨ k = 5 ∨ k = 6 := by omega
    unfold Inside3
    rcases this with rfl | rfl | rfl | rfl <;> decide +kernel
  · have h : ∀ j < 7, ∀ i < j, inner4 i ≠ inner4 j := by decide +kernel
    intro i j h1 h2
    exact h j h2 i h1

/-- **C147** (refuted) and with four other points inside the triangle it returns triangles that have together more than the area of the
outline, so that they overlap. -/
theorem delaunay_area_refuted : (∀ k, 3 ≤ k → k < 7 → Inside3 inner4' k) ∧ (∀ i j, i < j → j < 7 → inner4' i ≠ inner4' j) ∧
    ∃ tris, delaunayHull inner4' 7 [0, 1, 2] = some tris ∧ areaSum inner4' tris < sideSum inner4' (outlineSides 2 [0, 1, 2]) ∧
      sideSum inner4' (outlineSides 2 [0, 1, 2]) < 0 := by
  refine ⟨?_, ?_, ?_⟩
  · intro k h1 h2
    have : k = 3 ∨ k = 4 ∨ k = 5 ∨ k = 6 := by omega
    unfold Inside3
    rcases this with rfl | rfl | rfl | rfl <;> decide +kernel
  · have h : ∀ j < 7, ∀ i < j, inner4' i ≠ inner4' j := by decide +kernel
    intro i j h1 h2
    exact h j h2 i h1
  · have h : ((delaunayHull inner4' 7 [0, 1, 2]).map fun tris => decide (areaSum inner4' tris < sideSum inner4' (outlineSides 2 [0, 1, 2]))) =
        some true := by decide +kernel
    obtain ⟨tris, h1, h2⟩ := Option.map_eq_some_iff.1 h
    exact ⟨tris, h1, of_decide_eq_true h2, by decide +kernel⟩

end Verif.Recast
