/-
Queries of the mesh itself on one tile: `NavMesh.queryPolygonsInTile`, `NavMesh.closestPointOnPoly` and
`NavMesh.FindNearestPolyInTile` (detour/mesh.go:854-1102), which link off-mesh connections.

Simplifications: the query box is already quantized (`q`); coordinates are in an exact ordered field; for each polygon the
results of the geometry tests are given (`PolyGeom`). `d3.Vec3.Assign` copies three components.
-/
import Verif.Detour.BvTree
import Verif.Detour.TileTable
import Mathlib.Algebra.Order.Field.Basic
import Mathlib.Tactic.Ring
import Mathlib.Tactic.Linarith

namespace Verif.Detour
open Verif

set_option linter.unusedSimpArgs false
set_option linter.unusedVariables false
set_option linter.unusedSectionVars false

/-! ## Model -/

/-- Storing a hit (detour/mesh.go:944-949, 979-984): `n` is increased first, then `polys[n]` is written. `none` is an index
out of range. -/
def storeHit (maxPolys : Nat) (s : Nat × List U32) (ref : U32) : Option (Nat × List U32) :=
  if s.1 < maxPolys then
    if s.1 + 1 < s.2.length then some (s.1 + 1, s.2.set (s.1 + 1) ref) else none
  else some s

/-- The tree branch of `NavMesh.queryPolygonsInTile` (detour/mesh.go:936-960). -/
def meshQueryTree (nodes : Nat → BNode) (q : QBox) (base : U32) (maxPolys cnt : Nat) :
    Nat → Nat → Nat × List U32 → Option (Nat × List U32)
  | 0, i, s => if i < cnt then none else some s
  | f + 1, i, s =>
    if i < cnt then
      let node := nodes i
      let overlap := overlapQuant q node.box
      let leaf := decide (0 ≤ node.i)
      let next := if overlap || leaf then i + 1 else ((i : Int) + -node.i).toNat
      if leaf && overlap then
        (storeHit maxPolys s (base ||| BitVec.ofNat 32 node.i.toNat)).bind (meshQueryTree nodes q base maxPolys cnt f next)
      else meshQueryTree nodes q base maxPolys cnt f next s
    else some s

/-- `tile.Verts[v*3 : 3]` (detour/mesh.go:974, 979) with `v*3` a `uint16`: `none` is a panic, which also follows when the slice
has fewer than the three components read from it. -/
def sliceVert (v : U16) : Option Unit := if (v * 3#16).toNat = 0 then some () else none

/-- The linear branch (detour/mesh.go:963-989) for tiles without a tree: per polygon whether it is an off-mesh connection, and
its vertex indices; `over i` says that its bounds overlap the query box. -/
def meshQueryLinear (over : Nat → Bool) (base : U32) (maxPolys : Nat) :
    List (Nat × Bool × List U16) → Nat × List U32 → Option (Nat × List U32)
  | [], s => some s
  | (i, isCon, verts) :: ps, s =>
    if isCon then meshQueryLinear over base maxPolys ps s
    else if verts.any fun v => (sliceVert v).isNone then none
    else if over i then (storeHit maxPolys s (base ||| BitVec.ofNat 32 i)).bind (meshQueryLinear over base maxPolys ps)
    else meshQueryLinear over base maxPolys ps s

/-- What the geometry of a polygon gives for a point: whether it lies over the polygon, the nearest point of the edges,
and the height of the detail mesh below a point. -/
structure PolyGeom (D : Type) where
  inside : D × D × D → Bool
  clampPt : D × D × D → D × D × D
  height : D × D × D → Option D

section
variable {D : Type}

/-- `closest[1] = h` (detour/mesh.go:1097-1100). -/
def setY (p : D × D × D) : Option D → D × D × D
  | some h => (p.1, h, p.2.2)
  | none => p

/-- `NavMesh.closestPointOnPoly` (detour/mesh.go:1043-1102) as its caller sees it: `closest` is a slice, `closest.Assign(pos)`
writes to the caller's slice, but `closest = va.Lerp(..)` rebinds the variable, and the height is then written to the new
slice. -/
def meshClosest (g : PolyGeom D) (pos : D × D × D) : (D × D × D) × Bool :=
  let caller := pos
  if g.inside pos then (setY caller (g.height caller), true) else (caller, false)

variable [_root_.Field D] [LinearOrder D]

/-- The distance of a candidate (detour/mesh.go:878-890). -/
def candDist (climb : D) (pos c : D × D × D) (over : Bool) : D :=
  if over then
    let d := |pos.2.1 - c.2.1| - climb
    if d > 0 then d * d else 0
  else (pos.1 - c.1) * (pos.1 - c.1) + (pos.2.1 - c.2.1) * (pos.2.1 - c.2.1) + (pos.2.2 - c.2.2) * (pos.2.2 - c.2.2)

/-- The loop over the candidates (detour/mesh.go:868-896): `none` is a panic (a reference without polygon). -/
def nearestLoop (geom : U32 → Option (PolyGeom D)) (climb : D) (pos : D × D × D) : List U32 → U32 × D → Option (U32 × D)
  | [], b => some b
  | ref :: l, b =>
    (geom ref).bind fun g =>
      let c := meshClosest g pos
      let d := candDist climb pos c.1 c.2
      nearestLoop geom climb pos l (if d ≤ b.2 then (ref, d) else b)

/-- `FindNearestPolyInTile` (detour/mesh.go:854-898) on a tile with a tree; `top` is `MaxFloat32`. -/
def nearestInTile (nodes : Nat → BNode) (q : QBox) (base : U32) (cnt fuel : Nat) (geom : U32 → Option (PolyGeom D)) (climb top : D)
    (pos : D × D × D) : Option U32 :=
  (meshQueryTree nodes q base 128 cnt fuel 0 (0, List.replicate 128 0)).bind fun r =>
    (nearestLoop geom climb pos (r.2.take r.1) (0, top)).map (·.1)

end

/-! ## The query -/

/-- Storing several hits. -/
def storeHits (maxPolys : Nat) : List U32 → Nat × List U32 → Option (Nat × List U32)
  | [], s => some s
  | r :: l, s => (storeHit maxPolys s r).bind (storeHits maxPolys l)

theorem meshQueryTree_walk {nodes : Nat → BNode} {q : QBox} {base : U32} {maxPolys cnt : Nat} (f : Nat) : ∀ i s l,
    treeWalk (fun j => overlapQuant q (nodes j).box) (fun j => (nodes j).i) cnt f i = some l →
    meshQueryTree nodes q base maxPolys cnt f i s = storeHits maxPolys ((leafPolys nodes l).map fun p => base ||| BitVec.ofNat 32 p) s := by
  induction f with
  | zero =>
    intro i s l h
    rw [treeWalk] at h
    rw [meshQueryTree]
    split at h
    · cases h
    · cases h
      rename_i hi
      rw [if_neg hi]
      rfl
  | succ f ih =>
    intro i s l h
    rw [treeWalk] at h
    rw [meshQueryTree]
    split at h
    · rename_i hi
      rw [if_pos hi]
      simp only
      split at h
      · rename_i hleaf
        simp only [hleaf, decide_true, Bool.or_true, if_true, Bool.true_and]
        split at h
        · rename_i hov
          obtain ⟨l', h', rfl⟩ := Option.map_eq_some_iff.1 h
          rw [if_pos hov]
          simp only [leafPolys, List.map_cons, storeHits]
          congr 1
          funext s'
          exact ih _ _ _ h'
        · rename_i hov
          rw [if_neg hov]
          exact ih _ _ _ h
      · rename_i hleaf
        simp only [hleaf, decide_false, Bool.or_false, Bool.false_and]
        split at h
        · rename_i hov
          rw [if_pos hov]
          exact ih _ _ _ h
        · rename_i hov
          rw [if_neg hov]
          exact ih _ _ _ h
    · rename_i hi
      cases h
      rw [if_neg hi]
      rfl

/-- Where the hits end up: behind the slots in use and the one skipped. -/
theorem storeHits_spec {maxPolys : Nat} : ∀ (hits done : List U32) (x : U32) (rest : List U32), done.length + hits.length ≤ maxPolys →
    hits.length ≤ rest.length →
    storeHits maxPolys hits (done.length, x :: done ++ rest) =
      some (done.length + hits.length, x :: (done ++ hits) ++ rest.drop hits.length) := by
  intro hits
  induction hits with
  | nil => intro done x rest _ _; simp [storeHits]
  | cons r l ih =>
    intro done x rest hm hr
    cases rest with
    | nil => simp at hr
    | cons y rest =>
      simp only [List.length_cons] at hm hr
      rw [storeHits, storeHit, if_pos (by dsimp only; omega), if_pos (by simp), Option.bind_some]
      have e : (x :: done ++ y :: rest).set (done.length + 1) r = x :: (done ++ [r]) ++ rest := by
        rw [List.cons_append, List.set_cons_succ, List.set_append_right _ _ (Nat.le_refl _), Nat.sub_self]
        simp
      have e2 : done.length + 1 = (done ++ [r]).length := by simp
      dsimp only
      rw [e, e2, ih (done ++ [r]) x rest (by simp; omega) (by omega)]
      simp
      omega

theorem storeHits_full {maxPolys : Nat} : ∀ (hits : List U32) (n : Nat) (polys : List U32), polys.length ≤ maxPolys →
    n < polys.length → polys.length ≤ n + hits.length → storeHits maxPolys hits (n, polys) = none := by
  intro hits
  induction hits with
  | nil => intro n polys _ h1 h2; simp at h2; omega
  | cons r l ih =>
    intro n polys hm h1 h2
    rw [storeHits, storeHit, if_pos (by dsimp only; omega)]
    by_cases hn : n + 1 < polys.length
    · rw [if_pos hn, Option.bind_some]
      apply ih
      · rw [List.length_set]; exact hm
      · rw [List.length_set]; exact hn
      · rw [List.length_set]; simp only [List.length_cons] at h2; dsimp only; omega
    · rw [if_neg hn]
      rfl

/-- **C67** (partial): when the walk over the tile's tree meets fewer polygons than the buffer holds, their references are
stored in order and counted, but from index 1 on: slot 0 keeps what it held. -/
theorem query_tile_partial {nodes : Nat → BNode} {q : QBox} {base : U32} {maxPolys cnt f : Nat} {l : List Nat}
    (h : treeWalk (fun j => overlapQuant q (nodes j).box) (fun j => (nodes j).i) cnt f 0 = some l)
    (x : U32) (rest : List U32) (hm : l.length ≤ maxPolys) (hr : l.length ≤ rest.length) :
    meshQueryTree nodes q base maxPolys cnt f 0 (0, x :: rest) =
      some (l.length, x :: ((leafPolys nodes l).map fun p => base ||| BitVec.ofNat 32 p) ++ rest.drop l.length) := by
  rw [meshQueryTree_walk f 0 _ l h]
  have := storeHits_spec (maxPolys := maxPolys) ((leafPolys nodes l).map fun p => base ||| BitVec.ofNat 32 p) [] x rest
    (by simpa [leafPolys] using hm) (by simpa [leafPolys] using hr)
  simpa [leafPolys] using this

/-- **C67** (refuted): with as many hits as the buffer holds, all of which are to be stored, the query writes past the
buffer. -/
theorem query_tile_full_refuted {nodes : Nat → BNode} {q : QBox} {base : U32} {maxPolys cnt f : Nat} {l : List Nat}
    (h : treeWalk (fun j => overlapQuant q (nodes j).box) (fun j => (nodes j).i) cnt f 0 = some l)
    (polys : List U32) (h0 : polys ≠ []) (hm : maxPolys = polys.length) (hl : polys.length ≤ l.length) :
    meshQueryTree nodes q base maxPolys cnt f 0 (0, polys) = none := by
  rw [meshQueryTree_walk f 0 _ l h]
  apply storeHits_full
  · omega
  · exact List.length_pos_of_ne_nil h0
  · simpa [leafPolys] using hl

/-- **C67** (refuted): on a tile without a tree the query panics as soon as it comes to a polygon with a vertex other than
vertex 0 (below 21846). -/
theorem query_linear_panics_refuted {over : Nat → Bool} {base : U32} {maxPolys : Nat} {ps : List (Nat × Bool × List U16)} {s : Nat × List U32}
    (p : Nat × Bool × List U16) (hp : p ∈ ps) (hc : p.2.1 = false) (v : U16) (hv : v ∈ p.2.2) (h1 : 1 ≤ v.toNat) (h2 : v.toNat < 21846) :
    meshQueryLinear over base maxPolys ps s = none := by
  induction ps generalizing s with
  | nil => cases hp
  | cons a ps ih =>
    obtain ⟨i, isCon, verts⟩ := a
    rw [meshQueryLinear]
    rcases List.mem_cons.1 hp with rfl | hp
    · dsimp only at hc hv
      rw [hc, if_neg (by simp), if_pos]
      rw [List.any_eq_true]
      refine ⟨v, hv, ?_⟩
      unfold sliceVert
      have : (v * 3#16).toNat = v.toNat * 3 % 65536 := by rw [BitVec.toNat_mul]; rfl
      rw [if_neg (by omega)]
      rfl
    · split
      · exact ih hp
      · split
        · rfl
        · split
          · cases storeHit maxPolys s (base ||| BitVec.ofNat 32 i) with
            | none => rfl
            | some s' => exact ih hp
          · exact ih hp

/-- **C67** On a tile without a tree the off-mesh connections play no part in the query, wherever they lie. -/
theorem query_linear_skips {over : Nat → Bool} {base : U32} {maxPolys : Nat} (ps : List (Nat × Bool × List U16)) (s : Nat × List U32) :
    meshQueryLinear over base maxPolys ps s = meshQueryLinear over base maxPolys (ps.filter fun p => !p.2.1) s := by
  induction ps generalizing s with
  | nil => rfl
  | cons a ps ih =>
    obtain ⟨i, isCon, verts⟩ := a
    cases isCon with
    | true =>
      rw [meshQueryLinear, if_pos rfl, ih, List.filter_cons_of_neg (by simp)]
    | false =>
      rw [List.filter_cons_of_pos (by simp), meshQueryLinear, meshQueryLinear, ih, funext fun s => ih s]

example : meshQueryLinear (fun _ => true) 0x4000#32 4 [(0, true, [5, 6]), (1, false, [0, 0, 0])] (0, [0, 0, 0, 0]) =
    meshQueryLinear (fun _ => true) 0x4000#32 4 [(1, false, [0, 0, 0])] (0, [0, 0, 0, 0]) := query_linear_skips _ _

/-- One tree node that is a leaf. -/
def oneLeaf : Nat → BNode := fun _ => ⟨⟨2, 2, 2, 5, 5, 5⟩, 3⟩

example : treeWalk (fun j => overlapQuant ⟨4, 4, 4, 7, 7, 7⟩ (oneLeaf j).box) (fun j => (oneLeaf j).i) 2 2 0 = some [0, 1] := by decide
example : meshQueryTree oneLeaf ⟨4, 4, 4, 7, 7, 7⟩ 0x400000#32 4 2 2 0 (0, [9, 9, 9, 9]) = some (2, [9, 0x400003#32, 0x400003#32, 9]) := by decide
example : meshQueryTree oneLeaf ⟨4, 4, 4, 7, 7, 7⟩ 0x400000#32 2 2 2 0 (0, [9, 9]) = none := by decide

/-! ## The nearest polygon -/

section
variable {D : Type} [_root_.Field D] [LinearOrder D] [IsStrictOrderedRing D]

/-- What one pass does with a candidate. -/
theorem nearestLoop_mem {geom : U32 → Option (PolyGeom D)} {climb : D} {pos : D × D × D} : ∀ (l : List U32) (b : U32 × D) (r : U32 × D),
    nearestLoop geom climb pos l b = some r → r = b ∨ r.1 ∈ l := by
  intro l
  induction l with
  | nil => intro b r h; rw [nearestLoop] at h; cases h; exact .inl rfl
  | cons ref l ih =>
    intro b r h
    rw [nearestLoop] at h
    obtain ⟨g, -, h⟩ := Option.bind_eq_some_iff.1 h
    rcases ih _ _ h with h | h
    · split at h
      · right; rw [h]; exact List.mem_cons_self ..
      · exact .inl h
    · exact .inr (List.mem_cons_of_mem _ h)

/-- The loop keeps a candidate at the least distance. -/
theorem nearestLoop_least {geom : U32 → Option (PolyGeom D)} {climb : D} {pos : D × D × D} : ∀ (l : List U32) (b : U32 × D) (r : U32 × D),
    nearestLoop geom climb pos l b = some r →
    r.2 ≤ b.2 ∧ ∀ x ∈ l, ∃ g, geom x = some g ∧ r.2 ≤ candDist climb pos (meshClosest g pos).1 (meshClosest g pos).2 := by
  intro l
  induction l with
  | nil => intro b r h; rw [nearestLoop] at h; cases h; exact ⟨le_refl _, fun x hx => by cases hx⟩
  | cons ref l ih =>
    intro b r h
    rw [nearestLoop] at h
    obtain ⟨g, hg, h⟩ := Option.bind_eq_some_iff.1 h
    obtain ⟨h1, h2⟩ := ih _ _ h
    have h3 : r.2 ≤ b.2 ∧ r.2 ≤ candDist climb pos (meshClosest g pos).1 (meshClosest g pos).2 := by
      split at h1
      · rename_i hd
        exact ⟨le_trans h1 hd, h1⟩
      · rename_i hd
        exact ⟨h1, le_trans h1 (le_of_lt (not_le.1 hd))⟩
    refine ⟨h3.1, fun x hx => ?_⟩
    rcases List.mem_cons.1 hx with rfl | hx
    · exact ⟨g, hg, h3.2⟩
    · exact h2 x hx

/-- The distance kept belongs to the reference kept. -/
theorem nearestLoop_own {geom : U32 → Option (PolyGeom D)} {climb : D} {pos : D × D × D} : ∀ (l : List U32) (b : U32 × D) (r : U32 × D),
    nearestLoop geom climb pos l b = some r →
    r = b ∨ ∃ g, geom r.1 = some g ∧ r.2 = candDist climb pos (meshClosest g pos).1 (meshClosest g pos).2 := by
  intro l
  induction l with
  | nil => intro b r h; rw [nearestLoop] at h; cases h; exact .inl rfl
  | cons ref l ih =>
    intro b r h
    rw [nearestLoop] at h
    obtain ⟨g, hg, h⟩ := Option.bind_eq_some_iff.1 h
    rcases ih _ _ h with h | h
    · split at h
      · right; rw [h]; exact ⟨g, hg, rfl⟩
      · exact .inl h
    · exact .inr h

/-- The candidates `FindNearestPolyInTile` looks at: reference 0 in place of the first hit, and all hits but the last. -/
theorem nearest_candidates {nodes : Nat → BNode} {q : QBox} {base : U32} {cnt fuel : Nat} {l : List Nat}
    {geom : U32 → Option (PolyGeom D)} {climb top : D} {pos : D × D × D}
    (h : treeWalk (fun j => overlapQuant q (nodes j).box) (fun j => (nodes j).i) cnt fuel 0 = some l) (h0 : l ≠ []) (hl : l.length ≤ 127) :
    nearestInTile nodes q base cnt fuel geom climb top pos =
      (nearestLoop geom climb pos (0 :: ((leafPolys nodes l).map fun p => base ||| BitVec.ofNat 32 p).dropLast) (0, top)).map (·.1) := by
  unfold nearestInTile
  have e : List.replicate 128 (0 : U32) = 0 :: List.replicate 127 0 := rfl
  rw [e, query_tile_partial h 0 _ (by omega) (by simpa using hl), Option.bind_some]
  have hpos := List.length_pos_of_ne_nil h0
  have : ((0 : U32) :: ((leafPolys nodes l).map fun p => base ||| BitVec.ofNat 32 p) ++ (List.replicate 127 0).drop l.length).take l.length =
      0 :: ((leafPolys nodes l).map fun p => base ||| BitVec.ofNat 32 p).dropLast := by
    obtain ⟨m, hm⟩ : ∃ m, l.length = m + 1 := ⟨l.length - 1, by omega⟩
    rw [hm, List.cons_append, List.take_succ_cons, List.take_append_of_le_length (by simp [leafPolys]; omega), List.dropLast_eq_take]
    simp [leafPolys, hm]
  dsimp only
  rw [this]

/-- **C104** (partial): what `FindNearestPolyInTile` returns is the reference of a polygon in the search box, or 0; without a
polygon in the box it is 0. -/
theorem nearest_found_partial {nodes : Nat → BNode} {q : QBox} {base : U32} {cnt fuel : Nat} {l : List Nat}
    {geom : U32 → Option (PolyGeom D)} {climb top : D} {pos : D × D × D} {r : U32}
    (h : treeWalk (fun j => overlapQuant q (nodes j).box) (fun j => (nodes j).i) cnt fuel 0 = some l) (hl : l.length ≤ 127)
    (hr : nearestInTile nodes q base cnt fuel geom climb top pos = some r) :
    r = 0 ∨ ∃ p ∈ leafPolys nodes l, r = base ||| BitVec.ofNat 32 p := by
  by_cases h0 : l = []
  · subst h0
    unfold nearestInTile at hr
    rw [show List.replicate 128 (0 : U32) = 0 :: List.replicate 127 0 from rfl, query_tile_partial h 0 _ (by simp) (by simp), Option.bind_some] at hr
    simp only [List.length_nil, List.take_zero, nearestLoop, Option.map_some, Option.some.injEq] at hr
    exact .inl hr.symm
  · rw [nearest_candidates h h0 hl] at hr
    obtain ⟨b, hb, rfl⟩ := Option.map_eq_some_iff.1 hr
    rcases nearestLoop_mem _ _ _ hb with rfl | hm
    · exact .inl rfl
    · rcases List.mem_cons.1 hm with hm | hm
      · exact .inl hm
      · obtain ⟨p, hp, he⟩ := List.mem_map.1 (List.mem_of_mem_dropLast hm)
        exact .inr ⟨p, hp, he.symm⟩

/-- **C104** (partial): of the polygons in the box other than the one met last, none is nearer (by the distance of
`candDist`) than the one returned. -/
theorem nearest_least_partial {nodes : Nat → BNode} {q : QBox} {base : U32} {cnt fuel : Nat} {l : List Nat}
    {geom : U32 → Option (PolyGeom D)} {climb top : D} {pos : D × D × D} {r : U32}
    (h : treeWalk (fun j => overlapQuant q (nodes j).box) (fun j => (nodes j).i) cnt fuel 0 = some l) (hl : l.length ≤ 127)
    (hr : nearestInTile nodes q base cnt fuel geom climb top pos = some r)
    (htop : ∀ x g, geom x = some g → candDist climb pos (meshClosest g pos).1 (meshClosest g pos).2 ≤ top)
    (x : Nat) (hx : x ∈ (leafPolys nodes l).dropLast) :
    ∃ g g', geom r = some g ∧ geom (base ||| BitVec.ofNat 32 x) = some g' ∧
      candDist climb pos (meshClosest g pos).1 (meshClosest g pos).2 ≤ candDist climb pos (meshClosest g' pos).1 (meshClosest g' pos).2 := by
  have h0 : l ≠ [] := by
    rintro rfl
    simp [leafPolys] at hx
  rw [nearest_candidates h h0 hl] at hr
  obtain ⟨b, hb, rfl⟩ := Option.map_eq_some_iff.1 hr
  obtain ⟨h1, h2⟩ := nearestLoop_least _ _ _ hb
  have hx' : base ||| BitVec.ofNat 32 x ∈ ((leafPolys nodes l).map fun p => base ||| BitVec.ofNat 32 p).dropLast := by
    rw [← List.map_dropLast]
    exact List.mem_map.2 ⟨x, hx, rfl⟩
  obtain ⟨g', hg', hle⟩ := h2 _ (List.mem_cons_of_mem _ hx')
  obtain ⟨g0, hg0, hle0⟩ := h2 0 (List.mem_cons_self ..)
  rcases nearestLoop_own _ _ _ hb with rfl | ⟨g, hg, he⟩
  · exact ⟨g0, g', hg0, hg', le_trans (htop _ _ hg0) hle⟩
  · exact ⟨g, g', hg, hg', he ▸ hle⟩

/-- **C104** (refuted): if exactly one polygon of the tile lies in the search box, it is never found: the answer is 0 (or the
call panics), whatever the geometry. -/
theorem nearest_single_refuted {nodes : Nat → BNode} {q : QBox} {base : U32} {cnt fuel : Nat} {j : Nat}
    {geom : U32 → Option (PolyGeom D)} {climb top : D} {pos : D × D × D}
    (h : treeWalk (fun j => overlapQuant q (nodes j).box) (fun j => (nodes j).i) cnt fuel 0 = some [j]) :
    ∀ r, nearestInTile nodes q base cnt fuel geom climb top pos = some r → r = 0 := by
  intro r hr
  rw [nearest_candidates h (by simp) (by simp)] at hr
  obtain ⟨b, hb, rfl⟩ := Option.map_eq_some_iff.1 hr
  rcases nearestLoop_mem _ _ _ hb with rfl | hm
  · rfl
  · simpa [leafPolys] using hm

/-- **C104** (refuted): a polygon that the point is not over always counts as being at distance 0, however far away it is. -/
theorem nearest_outside_refuted (g : PolyGeom D) (climb : D) (pos : D × D × D) (h : g.inside pos = false) :
    candDist climb pos (meshClosest g pos).1 (meshClosest g pos).2 = 0 := by
  unfold meshClosest candDist
  rw [h]
  simp

/-- **C104** (partial): for a point over a polygon the distance is measured to the point of the detail mesh below or above
it. -/
theorem nearest_over_partial (g : PolyGeom D) (climb : D) (pos : D × D × D) (y : D) (h : g.inside pos = true) (hy : g.height pos = some y) :
    candDist climb pos (meshClosest g pos).1 (meshClosest g pos).2 =
      (if |pos.2.1 - y| ≤ climb then 0 else (|pos.2.1 - y| - climb) ^ 2) := by
  have e : meshClosest g pos = ((pos.1, y, pos.2.2), true) := by
    unfold meshClosest
    simp only [h, hy, if_true, setY]
  rw [e]
  unfold candDist
  dsimp only
  rw [if_pos rfl]
  by_cases hc : |pos.2.1 - y| ≤ climb
  · rw [if_pos hc, if_neg (not_lt.2 (sub_nonpos.2 hc))]
  · rw [if_neg hc, if_pos (sub_pos.2 (not_le.1 hc)), sq]

end

/-- Polygon 3, at height 0, everywhere below the point; reference 0 is the same polygon. -/
def flatGeom : U32 → Option (PolyGeom ℚ) := fun _ => some ⟨fun _ => true, fun p => p, fun _ => some 0⟩

example : nearestInTile oneLeaf ⟨4, 4, 4, 7, 7, 7⟩ 0x400000#32 1 1 flatGeom 1 1000 (5, 3, 5) = some 0 := by decide +kernel
example : treeWalk (fun j => overlapQuant ⟨4, 4, 4, 7, 7, 7⟩ (oneLeaf j).box) (fun j => (oneLeaf j).i) 1 1 0 = some [0] := by decide

end Verif.Detour
