/-
The BV tree of a tile: construction (`subdivide`, `createBVTree`, detour/navmeshcreate.go:14-339) and
queries (detour/query.go:1224-1348).

Simplifications: indices are `Nat`/`Int` instead of int32 (a tile has fewer than 2^16 polygons, so
nothing overflows). `sort.Slice` is any function that permutes its input: every theorem holds for all
of them, so the comparison functions do not matter. `subdivide` hands the segments `items[imin:isplit]`
and `items[isplit:imax]` to its recursive calls and does not look at `items` afterwards, so the model
passes the segments themselves. Boxes come from float arithmetic (detour/navmeshcreate.go:262-331) and
are arbitrary here.
-/
import Verif.Common.Chain
import Verif.Common.EscapeTree
import Verif.Detour.TileTable

namespace Verif.Detour

/-! ## Model -/

/-- `BMin`, `BMax` of an item or node. -/
structure QBox where
  lo0 : U16
  lo1 : U16
  lo2 : U16
  hi0 : U16
  hi1 : U16
  hi2 : U16
  deriving DecidableEq, Repr

/-- `bvItem` (detour/navmeshcreate.go:14-17). -/
structure BvItem where
  box : QBox
  i : Nat
  deriving DecidableEq, Repr

/-- `BvNode` (detour/mesh.go:695-699). -/
structure BNode where
  box : QBox
  i : Int
  deriving DecidableEq, Repr

/-- Loop body of `calcExtends` (detour/navmeshcreate.go:28-49). -/
def QBox.grow (b c : QBox) : QBox :=
  { lo0 := if c.lo0 < b.lo0 then c.lo0 else b.lo0
    lo1 := if c.lo1 < b.lo1 then c.lo1 else b.lo1
    lo2 := if c.lo2 < b.lo2 then c.lo2 else b.lo2
    hi0 := if c.hi0 > b.hi0 then c.hi0 else b.hi0
    hi1 := if c.hi1 > b.hi1 then c.hi1 else b.hi1
    hi2 := if c.hi2 > b.hi2 then c.hi2 else b.hi2 }

/-- `calcExtends` (detour/navmeshcreate.go:19-50) of the segment `it :: rest`. -/
def calcExtends (it : BvItem) (rest : List BvItem) : QBox :=
  rest.foldl (fun b c => b.grow c.box) it.box

/-- `longestAxis` (detour/navmeshcreate.go:52-63). -/
def longestAxis (x y z : U16) : Nat :=
  let a := if y > x then (1, y) else (0, x)
  if z > a.2 then 2 else a.1

/-- `subdivide` (detour/navmeshcreate.go:65-248): segment, `curNode` and the nodes; result is the new
`curNode` and nodes. `cap` is `len(nodes)`; `none` is an index out of range (also for an empty
segment, where `items[imin]` is read). -/
def bvSubdivide (srt : Nat → List BvItem → List BvItem) (cap : Nat) :
    Nat → List BvItem → Nat → (Nat → BNode) → Option (Nat × (Nat → BNode))
  | 0, _, _, _ => none
  | _ + 1, [], _, _ => none
  | _ + 1, [it], cur, nodes =>
    if cap ≤ cur then none else some (cur + 1, upd nodes cur ⟨it.box, it.i⟩)
  | f + 1, it :: it2 :: rest, cur, nodes =>
    if cap ≤ cur then none
    else
      let b := calcExtends it (it2 :: rest)
      let axis := longestAxis (b.hi0 - b.lo0) (b.hi1 - b.lo1) (b.hi2 - b.lo2)
      let sorted := srt axis (it :: it2 :: rest)
      let k := (it :: it2 :: rest).length / 2
      (bvSubdivide srt cap f (sorted.take k) (cur + 1)
          (upd nodes cur { nodes cur with box := b })).bind fun r1 =>
      (bvSubdivide srt cap f (sorted.drop k) r1.1 r1.2).bind fun r2 =>
      some (r2.1, upd r2.2 cur { r2.2 cur with i := -((r2.1 : Int) - (cur : Int)) })

/-- The zero value of a node, as `make` leaves it. -/
def BNode.zero : BNode := ⟨⟨0, 0, 0, 0, 0, 0⟩, 0⟩

/-- `createBVTree` (detour/navmeshcreate.go:260-339) on a node array of `2 * PolyCount` entries
(detour/navmeshcreate.go:707, 884): the number of nodes used and the array. Item `k` stands for
polygon `k`. -/
def createBVTree (srt : Nat → List BvItem → List BvItem) (boxes : List QBox) :
    Option (Nat × (Nat → BNode)) :=
  bvSubdivide srt (2 * boxes.length) (2 * boxes.length + 1)
    (boxes.zipIdx.map fun x => ⟨x.1, x.2⟩) 0 fun _ => .zero

/-- `OverlapQuantBounds` (detour/common.go:49-62). -/
def overlapQuant (a b : QBox) : Bool :=
  if a.lo0 > b.hi0 ∨ a.hi0 < b.lo0 then false
  else if a.lo1 > b.hi1 ∨ a.hi1 < b.lo1 then false
  else if a.lo2 > b.hi2 ∨ a.hi2 < b.lo2 then false
  else true

/-- State of `queryPolygonsInTile`: the batches handed to `query.process` so far and
`polyRefs[0:n]`. -/
structure Batch where
  done : List (List U32)
  buf : List U32

/-- Storing a hit (detour/query.go:1288-1297, 1332-1341). -/
def Batch.add (b : Batch) (ref : U32) : Batch :=
  if b.buf.length = 31 then ⟨b.done ++ [b.buf ++ [ref]], []⟩ else ⟨b.done, b.buf ++ [ref]⟩

/-- "Process the last polygons that didn't make a full batch" (detour/query.go:1344-1347). -/
def Batch.finish (b : Batch) : List (List U32) :=
  if b.buf.length > 0 then b.done ++ [b.buf] else b.done

/-- The tree branch of `queryPolygonsInTile` (detour/query.go:1278-1308) with quantized query box `q`,
on a tile with `npolys` polygons; `pass` is the filter. `none` is an index out of range (or an endless
loop). -/
def queryTree (nodes : Nat → BNode) (q : QBox) (base : U32) (npolys : Nat) (pass : Nat → Bool)
    (cnt : Nat) : Nat → Nat → Batch → Option (List (List U32))
  | 0, i, b => if i < cnt then none else some b.finish
  | f + 1, i, b =>
    if i < cnt then
      let node := nodes i
      let overlap := overlapQuant q node.box
      let leaf := decide (0 ≤ node.i)
      let next := if overlap || leaf then i + 1 else ((i : Int) + -node.i).toNat
      if leaf && overlap then
        if npolys ≤ node.i.toNat then none
        else if pass node.i.toNat then
          queryTree nodes q base npolys pass cnt f next (b.add (base ||| BitVec.ofNat 32 node.i.toNat))
        else queryTree nodes q base npolys pass cnt f next b
      else queryTree nodes q base npolys pass cnt f next b
    else some b.finish

/-- The linear branch of `queryPolygonsInTile` (detour/query.go:1309-1343) for tiles without a tree:
`isCon i` says that polygon `i` is an off-mesh connection (the process ends, `log.Fatalf`), `over i`
that its bounds overlap the query box. -/
def queryLinear (isCon over pass : Nat → Bool) (base : U32) : List Nat → Batch → Out (List (List U32))
  | [], b => .ok b.finish
  | i :: is, b =>
    if isCon i then .fatal
    else if pass i then
      if over i then queryLinear isCon over pass base is (b.add (base ||| BitVec.ofNat 32 i))
      else queryLinear isCon over pass base is b
    else queryLinear isCon over pass base is b

/-! ## Boxes -/

/-- Spec: a point with quantized coordinates lies in a box. -/
def QBox.Has (b : QBox) (x y z : Nat) : Prop :=
  b.lo0.toNat ≤ x ∧ x ≤ b.hi0.toNat ∧ b.lo1.toNat ≤ y ∧ y ≤ b.hi1.toNat ∧
    b.lo2.toNat ≤ z ∧ z ≤ b.hi2.toNat

/-- `c` lies in `b`, coordinate by coordinate. -/
def QBox.Sub (c b : QBox) : Prop :=
  b.lo0.toNat ≤ c.lo0.toNat ∧ c.hi0.toNat ≤ b.hi0.toNat ∧ b.lo1.toNat ≤ c.lo1.toNat ∧
    c.hi1.toNat ≤ b.hi1.toNat ∧ b.lo2.toNat ≤ c.lo2.toNat ∧ c.hi2.toNat ≤ b.hi2.toNat

theorem overlapQuant_iff (a b : QBox) : overlapQuant a b = true ↔
    (a.lo0.toNat ≤ b.hi0.toNat ∧ b.lo0.toNat ≤ a.hi0.toNat) ∧
    (a.lo1.toNat ≤ b.hi1.toNat ∧ b.lo1.toNat ≤ a.hi1.toNat) ∧
    (a.lo2.toNat ≤ b.hi2.toNat ∧ b.lo2.toNat ≤ a.hi2.toNat) := by
  unfold overlapQuant
  simp only [gt_iff_lt, BitVec.lt_def]
  split
  · simp; omega
  split
  · simp; omega
  split
  · simp; omega
  · simp; omega

theorem overlapQuant_mono {q c b : QBox} (h : c.Sub b) (ho : overlapQuant q c = true) :
    overlapQuant q b = true := by
  rw [overlapQuant_iff] at *
  unfold QBox.Sub at h
  omega

theorem QBox.Sub.trans {a b c : QBox} (h1 : a.Sub b) (h2 : b.Sub c) : a.Sub c := by
  unfold QBox.Sub at *; omega

theorem QBox.Sub.refl (a : QBox) : a.Sub a := by unfold QBox.Sub; omega

theorem QBox.sub_grow (b c : QBox) : b.Sub (b.grow c) ∧ c.Sub (b.grow c) := by
  unfold QBox.Sub QBox.grow
  simp only [gt_iff_lt, BitVec.lt_def]
  refine ⟨⟨?_, ?_, ?_, ?_, ?_, ?_⟩, ⟨?_, ?_, ?_, ?_, ?_, ?_⟩⟩ <;> split <;> omega

theorem foldl_grow (l : List BvItem) : ∀ b : QBox, b.Sub (l.foldl (fun b c => b.grow c.box) b) ∧
    ∀ c ∈ l, c.box.Sub (l.foldl (fun b c => b.grow c.box) b) := by
  induction l with
  | nil => intro b; exact ⟨.refl b, by simp⟩
  | cons a l ih =>
    intro b
    obtain ⟨h1, h2⟩ := ih (b.grow a.box)
    obtain ⟨g1, g2⟩ := b.sub_grow a.box
    refine ⟨g1.trans h1, fun c hc => ?_⟩
    rcases List.mem_cons.1 hc with rfl | hc
    · exact g2.trans h1
    · exact h2 c hc

theorem calcExtends_sub (it : BvItem) (rest : List BvItem) :
    ∀ c ∈ it :: rest, c.box.Sub (calcExtends it rest) := by
  intro c hc
  obtain ⟨h1, h2⟩ := foldl_grow rest it.box
  rcases List.mem_cons.1 hc with rfl | hc
  · exact h1
  · exact h2 c hc

/-! ## Construction -/

/-- The leaf stored for an item. -/
def BvItem.leafNode (it : BvItem) : BNode := ⟨it.box, it.i⟩

theorem bvSubdivide_spec (srt : Nat → List BvItem → List BvItem) (hsrt : ∀ a l, (srt a l).Perm l)
    (cap : Nat) (f : Nat) : ∀ (items : List BvItem) (cur : Nat) (nodes : Nat → BNode),
      items ≠ [] → items.length ≤ f → cur + 2 * items.length ≤ cap + 1 →
      ∃ (s : Shape) (nodes' : Nat → BNode),
        bvSubdivide srt cap f items cur nodes = some (cur + s.size, nodes') ∧
        s.nleaves = items.length ∧ s.Lay (fun j => (nodes' j).i) cur ∧
        (∀ j, j < cur ∨ cur + s.size ≤ j → nodes' j = nodes j) ∧
        ((s.leaves cur).map nodes').Perm (items.map BvItem.leafNode) ∧
        ∀ q, s.Mono (fun j => overlapQuant q (nodes' j).box) cur := by
  induction f with
  | zero => intro items cur nodes h0 hf; cases items <;> simp at *
  | succ f ih =>
    intro items cur nodes h0 hf hcap
    match items with
    | [it] =>
      refine ⟨.leaf, upd nodes cur it.leafNode, ?_, rfl, ?_, ?_, ?_, fun q => trivial⟩
      · rw [bvSubdivide, if_neg (by simp at hcap; omega)]
        rfl
      · simp only [Shape.Lay, upd_same, BvItem.leafNode]; omega
      · intro j hj
        simp only [Shape.size] at hj
        rw [upd_ne _ _ (by omega)]
      · simp [Shape.leaves]
    | it :: it2 :: rest =>
      generalize hb : calcExtends it (it2 :: rest) = b
      have hbs := calcExtends_sub it (it2 :: rest)
      rw [hb] at hbs
      rw [bvSubdivide, hb, if_neg (by simp at hcap; omega)]
      simp only
      generalize longestAxis _ _ _ = axis
      generalize hall : it :: it2 :: rest = all at *
      have hlen2 : 2 ≤ all.length := by rw [← hall]; simp
      have hp := hsrt axis all
      generalize srt axis all = sorted at *
      have hsl := hp.length_eq
      have hk1 : (sorted.take (all.length / 2)).length = all.length / 2 := by
        rw [List.length_take]; omega
      have hk2 : (sorted.drop (all.length / 2)).length = all.length - all.length / 2 := by
        rw [List.length_drop]; omega
      obtain ⟨l, n1, e1, hl1, hl2, hl3, hl4, hl5⟩ := ih (sorted.take (all.length / 2)) (cur + 1)
        (upd nodes cur { nodes cur with box := b })
        (by intro h; rw [h] at hk1; simp at hk1; omega) (by omega) (by omega)
      have hls := l.size_eq
      obtain ⟨r, n2, e2, hr1, hr2, hr3, hr4, hr5⟩ := ih (sorted.drop (all.length / 2))
        (cur + 1 + l.size) n1
        (by intro h; rw [h] at hk2; simp at hk2; omega) (by omega) (by omega)
      have hrs := r.size_eq
      refine ⟨.node l r, upd n2 cur { n2 cur with i := -(((cur + 1 + l.size + r.size : Nat) : Int) - cur) },
        ?_, ?_, ?_, ?_, ?_, ?_⟩
      · rw [e1, Option.bind_some]
        simp only
        rw [e2, Option.bind_some]
        simp only [Shape.size]
        rw [show cur + (1 + l.size + r.size) = cur + 1 + l.size + r.size by omega]
      · simp only [Shape.nleaves]; omega
      · refine ⟨?_, ?_, ?_⟩
        · simp only [upd_same]; omega
        · refine Shape.Lay.congr l _ hl2 fun j h1 h2 => ?_
          rw [upd_ne _ _ (by omega), hr3 j (by omega)]
        · refine Shape.Lay.congr r _ hr2 fun j h1 h2 => ?_
          rw [upd_ne _ _ (by omega)]
      · intro j hj
        simp only [Shape.size] at hj
        have hjc : j ≠ cur := by omega
        rw [upd_ne _ _ hjc, hr3 j (by omega), hl3 j (by omega), upd_ne _ _ hjc]
      · have hml : (l.leaves (cur + 1)).map
            (upd n2 cur { n2 cur with i := -(((cur + 1 + l.size + r.size : Nat) : Int) - cur) })
            = (l.leaves (cur + 1)).map n1 := by
          apply List.map_congr_left
          intro j hj
          have := l.leaves_range _ j hj
          rw [upd_ne _ _ (by omega), hr3 j (by omega)]
        have hmr : (r.leaves (cur + 1 + l.size)).map
            (upd n2 cur { n2 cur with i := -(((cur + 1 + l.size + r.size : Nat) : Int) - cur) })
            = (r.leaves (cur + 1 + l.size)).map n2 := by
          apply List.map_congr_left
          intro j hj
          have := r.leaves_range _ j hj
          rw [upd_ne _ _ (by omega)]
        rw [Shape.leaves, List.map_append, hml, hmr]
        refine (hl4.append hr4).trans ?_
        rw [← List.map_append, List.take_append_drop]
        exact hp.map _
      · intro q
        refine ⟨?_, ?_, ?_⟩
        · intro j hj hov
          have hbox : (n2 cur).box = b := by
            rw [hr3 cur (by omega), hl3 cur (by omega), upd_same]
          simp only [upd_same, hbox]
          refine overlapQuant_mono ?_ hov
          have hjr := (Shape.node l r).leaves_range _ j hj
          simp only [Shape.leaves, List.mem_append] at hj
          have hjc : j ≠ cur := by
            rcases hj with hj | hj
            · have := l.leaves_range _ j hj; omega
            · have := r.leaves_range _ j hj; omega
          simp only [upd_ne _ _ hjc]
          have hmem : ∃ it ∈ sorted, (n2 j).box = it.box := by
            rcases hj with hj | hj
            · have hjl := l.leaves_range _ j hj
              have : n1 j ∈ (sorted.take (all.length / 2)).map BvItem.leafNode :=
                hl4.mem_iff.1 (List.mem_map_of_mem hj)
              obtain ⟨x, hx, e⟩ := List.mem_map.1 this
              exact ⟨x, List.mem_of_mem_take hx, by rw [hr3 j (by omega), ← e]; rfl⟩
            · have : n2 j ∈ (sorted.drop (all.length / 2)).map BvItem.leafNode :=
                hr4.mem_iff.1 (List.mem_map_of_mem hj)
              obtain ⟨x, hx, e⟩ := List.mem_map.1 this
              exact ⟨x, List.mem_of_mem_drop hx, by rw [← e]; rfl⟩
          obtain ⟨x, hx, e⟩ := hmem
          rw [e]
          exact hbs x (hp.mem_iff.1 hx)
        · refine Shape.Mono.congr l _ (hl5 q) fun j h1 h2 => ?_
          rw [upd_ne _ _ (by omega), hr3 j (by omega)]
        · refine Shape.Mono.congr r _ (hr5 q) fun j h1 h2 => ?_
          rw [upd_ne _ _ (by omega)]

/-! ## Queries -/

theorem batch_add_inv (b : Batch) (r : U32) (h1 : b.buf.length ≤ 31) (h2 : ∀ d ∈ b.done, d.length = 32) :
    (b.add r).buf.length ≤ 31 ∧ (∀ d ∈ (b.add r).done, d.length = 32) ∧
      (b.add r).done.flatten ++ (b.add r).buf = b.done.flatten ++ b.buf ++ [r] := by
  unfold Batch.add
  split
  · refine ⟨by simp, fun d hd => ?_, by simp⟩
    simp only [List.mem_append, List.mem_singleton] at hd
    rcases hd with hd | rfl
    · exact h2 d hd
    · simp; omega
  · refine ⟨by simp; omega, h2, by simp⟩

theorem batch_foldl (refs : List U32) : ∀ b : Batch, b.buf.length ≤ 31 → (∀ d ∈ b.done, d.length = 32) →
    (refs.foldl Batch.add b).buf.length ≤ 31 ∧ (∀ d ∈ (refs.foldl Batch.add b).done, d.length = 32) ∧
      (refs.foldl Batch.add b).done.flatten ++ (refs.foldl Batch.add b).buf =
        b.done.flatten ++ b.buf ++ refs := by
  induction refs with
  | nil => intro b h1 h2; exact ⟨h1, h2, by simp⟩
  | cons r rs ih =>
    intro b h1 h2
    obtain ⟨g1, g2, g3⟩ := batch_add_inv b r h1 h2
    obtain ⟨k1, k2, k3⟩ := ih _ g1 g2
    refine ⟨k1, k2, ?_⟩
    rw [List.foldl_cons, k3, g3]
    simp

/-- Spec: `batches` is the list `refs` cut into pieces of 32, the last one possibly shorter but not
empty. -/
def CutInto32 (batches : List (List U32)) (refs : List U32) : Prop :=
  batches.flatten = refs ∧ (∀ b ∈ batches, 1 ≤ b.length ∧ b.length ≤ 32) ∧
    ∀ k, k + 1 < batches.length → (batches[k]?.map List.length) = some 32

theorem batch_finish (refs : List U32) : CutInto32 (refs.foldl Batch.add ⟨[], []⟩).finish refs := by
  obtain ⟨h1, h2, h3⟩ := batch_foldl refs ⟨[], []⟩ (by simp) (by simp)
  generalize refs.foldl Batch.add ⟨[], []⟩ = b at *
  unfold Batch.finish
  split
  · rename_i hpos
    refine ⟨by simpa using h3, fun x hx => ?_, fun k hk => ?_⟩
    · simp only [List.mem_append, List.mem_singleton] at hx
      rcases hx with hx | rfl
      · have := h2 x hx; omega
      · omega
    · simp only [List.length_append, List.length_singleton] at hk
      have hkd : k < b.done.length := by omega
      rw [List.getElem?_append_left hkd, List.getElem?_eq_getElem hkd]
      simp [h2 _ (List.getElem_mem hkd)]
  · rename_i hpos
    have hb : b.buf = [] := List.eq_nil_of_length_eq_zero (by omega)
    refine ⟨by simpa [hb] using h3, fun x hx => ?_, fun k hk => ?_⟩
    · have := h2 x hx; omega
    · have hkd : k < b.done.length := by omega
      rw [List.getElem?_eq_getElem hkd]
      simp [h2 _ (List.getElem_mem hkd)]

/-- Polygon numbers of the leaves at the given positions. -/
def leafPolys (nodes : Nat → BNode) (l : List Nat) : List Nat := l.map fun j => (nodes j).i.toNat

/-- The loop is the walk over the tree, storing the hits that pass the filter. -/
theorem queryTree_walk {nodes : Nat → BNode} {q : QBox} {base : U32} {npolys : Nat} {pass : Nat → Bool}
    {cnt : Nat} (f : Nat) : ∀ i b l,
      treeWalk (fun j => overlapQuant q (nodes j).box) (fun j => (nodes j).i) cnt f i = some l →
      (∀ p ∈ leafPolys nodes l, p < npolys) →
      queryTree nodes q base npolys pass cnt f i b =
        some ((((leafPolys nodes l).filter pass).map fun p => base ||| BitVec.ofNat 32 p).foldl
          Batch.add b).finish := by
  induction f with
  | zero =>
    intro i b l h hl
    rw [treeWalk] at h
    rw [queryTree]
    split at h
    · cases h
    · cases h
      rename_i hi
      rw [if_neg hi]
      rfl
  | succ f ih =>
    intro i b l h hl
    rw [treeWalk] at h
    rw [queryTree]
    split at h
    · rename_i hi
      rw [if_pos hi]
      simp only
      split at h
      · rename_i hleaf
        simp only [hleaf, decide_true, Bool.or_true, if_true, Bool.true_and]
        split at h
        · rename_i hov
          obtain ⟨l', h', rfl⟩ := Option.map_eq_some_iff.1 h
          rw [if_pos hov]
          have hp : (nodes i).i.toNat < npolys := hl _ (by simp [leafPolys])
          rw [if_neg (by omega)]
          have hl' : ∀ p ∈ leafPolys nodes l', p < npolys := fun p hp => hl p (by
            simp only [leafPolys, List.map_cons, List.mem_cons] at *; exact Or.inr hp)
          split
          · rename_i hpass
            rw [ih _ _ _ h' hl']
            simp [leafPolys, hpass]
          · rename_i hpass
            rw [ih _ _ _ h' hl']
            simp [leafPolys, hpass]
        · rename_i hov
          rw [if_neg hov]
          exact ih _ _ _ h hl
      · rename_i hleaf
        simp only [hleaf, decide_false, Bool.or_false, Bool.false_and]
        split at h
        · rename_i hov
          rw [if_pos hov]
          exact ih _ _ _ h hl
        · rename_i hov
          rw [if_neg hov]
          exact ih _ _ _ h hl
    · rename_i hi
      cases h
      rw [if_neg hi]
      rfl

/-- **C33.** Whatever tree the tile holds: when the walk over it reports the leaves `l` (all naming
polygons of the tile), the query hands over exactly the polygons of those leaves that pass the filter,
in the order of the walk, each once per leaf, cut into batches of 32. -/
theorem query_tree_batches {nodes : Nat → BNode} {q : QBox} {base : U32} {npolys : Nat}
    {pass : Nat → Bool} {cnt f : Nat} {l : List Nat}
    (h : treeWalk (fun j => overlapQuant q (nodes j).box) (fun j => (nodes j).i) cnt f 0 = some l)
    (hl : ∀ p ∈ leafPolys nodes l, p < npolys) :
    ∃ batches, queryTree nodes q base npolys pass cnt f 0 ⟨[], []⟩ = some batches ∧
      CutInto32 batches (((leafPolys nodes l).filter pass).map fun p => base ||| BitVec.ofNat 32 p) :=
  ⟨_, queryTree_walk f 0 _ l h hl, batch_finish _⟩

theorem queryLinear_eq {isCon over pass : Nat → Bool} {base : U32} (is : List Nat) : ∀ b,
    (∀ i ∈ is, isCon i = false) →
    queryLinear isCon over pass base is b =
      .ok (((is.filter fun i => pass i && over i).map fun p => base ||| BitVec.ofNat 32 p).foldl
        Batch.add b).finish := by
  induction is with
  | nil => intro b _; rfl
  | cons i is ih =>
    intro b h
    rw [queryLinear, h i (by simp)]
    have h' : ∀ j ∈ is, isCon j = false := fun j hj => h j (by simp [hj])
    simp only [Bool.false_eq_true, if_false]
    cases hp : pass i <;> cases ho : over i <;> simp [ih _ h', hp, ho]

/-- **C33.** The same for tiles without a tree and without off-mesh connections: the query hands over
exactly the polygons whose bounds overlap and that pass the filter, in order, cut into batches of 32. -/
theorem query_linear_batches {isCon over pass : Nat → Bool} {base : U32} {npolys : Nat}
    (h : ∀ i < npolys, isCon i = false) :
    ∃ batches, queryLinear isCon over pass base (List.range npolys) ⟨[], []⟩ = .ok batches ∧
      CutInto32 batches (((List.range npolys).filter fun i => pass i && over i).map fun p =>
        base ||| BitVec.ofNat 32 p) :=
  ⟨_, queryLinear_eq _ _ fun i hi => h i (List.mem_range.1 hi), batch_finish _⟩

/-- **C33.** The tree-less branch does not survive off-mesh connections: one such polygon in the tile
ends the process on every query. -/
theorem query_linear_fatal {isCon over pass : Nat → Bool} {base : U32} {npolys i : Nat}
    (hi : i < npolys) (h : isCon i = true) :
    queryLinear isCon over pass base (List.range npolys) ⟨[], []⟩ = .fatal := by
  have : ∀ (is : List Nat) b, i ∈ is → queryLinear isCon over pass base is b = .fatal := by
    intro is
    induction is with
    | nil => intro b hm; cases hm
    | cons j is ih =>
      intro b hm
      rw [queryLinear]
      by_cases hj : isCon j = true
      · rw [if_pos hj]
      · rw [if_neg hj]
        have hm' : i ∈ is := by
          rcases List.mem_cons.1 hm with rfl | hm
          · exact absurd h hj
          · exact hm
        split
        · split <;> exact ih _ hm'
        · exact ih _ hm'
  exact this _ _ (List.mem_range.2 hi)

/-- 33 hits make one full batch and one of length 1. -/
example : ∃ batches, queryLinear (fun _ => false) (fun _ => true) (fun i => i != 3) 0x400000#32
    (List.range 34) ⟨[], []⟩ = .ok batches ∧ batches.map List.length = [32, 1] := ⟨_, rfl, rfl⟩

/-! ## Tree and query together -/

/-- Spec: the box is not inside out. -/
def QBox.Valid (b : QBox) : Prop :=
  b.lo0.toNat ≤ b.hi0.toNat ∧ b.lo1.toNat ≤ b.hi1.toNat ∧ b.lo2.toNat ≤ b.hi2.toNat

/-- Spec: two boxes share a point. -/
def QBox.Meets (a b : QBox) : Prop := ∃ x y z, a.Has x y z ∧ b.Has x y z

/-- **C37.** `OverlapQuantBounds` returns true exactly for boxes that share a point. -/
theorem overlapQuant_exact {a b : QBox} (ha : a.Valid) (hb : b.Valid) :
    overlapQuant a b = true ↔ a.Meets b := by
  rw [overlapQuant_iff]
  unfold QBox.Meets QBox.Has QBox.Valid at *
  constructor
  · intro h
    exact ⟨max a.lo0.toNat b.lo0.toNat, max a.lo1.toNat b.lo1.toNat, max a.lo2.toNat b.lo2.toNat,
      by omega, by omega⟩
  · rintro ⟨x, y, z, h1, h2⟩; omega

/-- **C37.** `OverlapQuantBounds` is symmetric, for all boxes. -/
theorem overlapQuant_symm (a b : QBox) : overlapQuant a b = overlapQuant b a := by
  rw [Bool.eq_iff_iff, overlapQuant_iff, overlapQuant_iff]; omega

theorem createBVTree_spec {srt : Nat → List BvItem → List BvItem} (hsrt : ∀ a l, (srt a l).Perm l)
    {boxes : List QBox} (h0 : boxes ≠ []) :
    ∃ (s : Shape) (nodes : Nat → BNode),
      createBVTree srt boxes = some (2 * boxes.length - 1, nodes) ∧ s.size + 1 = 2 * boxes.length ∧
      s.Lay (fun j => (nodes j).i) 0 ∧ (∀ j, s.size ≤ j → nodes j = .zero) ∧
      ((s.leaves 0).map nodes).Perm (boxes.zipIdx.map fun x => (⟨x.1, x.2⟩ : BNode)) ∧
      ∀ q, s.Mono (fun j => overlapQuant q (nodes j).box) 0 := by
  have hlen : (boxes.zipIdx.map fun x => (⟨x.1, x.2⟩ : BvItem)).length = boxes.length := by simp
  have hpos : 0 < boxes.length := List.length_pos_of_ne_nil h0
  obtain ⟨s, nodes, e, h1, h2, h3, h4, h5⟩ := bvSubdivide_spec srt hsrt (2 * boxes.length)
    (2 * boxes.length + 1) (boxes.zipIdx.map fun x => ⟨x.1, x.2⟩) 0 (fun _ => .zero)
    (by intro h; rw [h] at hlen; simp at hlen; omega) (by omega) (by omega)
  have hs := s.size_eq
  rw [h1, hlen] at hs
  refine ⟨s, nodes, ?_, hs, h2, fun j hj => h3 j (by omega), ?_, h5⟩
  · unfold createBVTree
    rw [e]
    congr 2
    omega
  · rw [List.map_map] at h4
    exact h4

/-- Numbers of the boxes that overlap `q`, in order. -/
def overlapping (q : QBox) (boxes : List QBox) : List Nat :=
  (boxes.zipIdx.filter fun x => overlapQuant q x.1).map (·.2)

theorem mem_overlapping {q : QBox} {boxes : List QBox} {p : Nat} :
    p ∈ overlapping q boxes ↔ ∃ b, boxes[p]? = some b ∧ overlapQuant q b = true := by
  unfold overlapping
  simp only [List.mem_map, List.mem_filter, Prod.exists, List.mem_zipIdx_iff_getElem?]
  constructor
  · rintro ⟨b, i, ⟨h1, h2⟩, rfl⟩; exact ⟨b, h1, h2⟩
  · rintro ⟨b, h1, h2⟩; exact ⟨b, p, ⟨h1, h2⟩, rfl⟩

theorem nodup_overlapping (q : QBox) (boxes : List QBox) : (overlapping q boxes).Nodup := by
  unfold overlapping
  have h : (boxes.zipIdx.map (·.2)).Nodup := by
    have : boxes.zipIdx.map (·.2) = List.range' 0 boxes.length := List.zipIdx_map_snd 0 boxes
    rw [this]; exact List.nodup_range'
  exact h.sublist (List.filter_sublist.map _)

theorem leafPolys_perm {nodes : Nat → BNode} {l : List Nat} {boxes : List QBox} (q : QBox)
    (h : (l.map nodes).Perm (boxes.zipIdx.map fun x => (⟨x.1, x.2⟩ : BNode))) :
    (leafPolys nodes (l.filter fun j => overlapQuant q (nodes j).box)).Perm (overlapping q boxes) := by
  have h2 := (h.filter fun n => overlapQuant q n.box).map fun n => n.i.toNat
  rw [List.filter_map, List.filter_map, List.map_map, List.map_map] at h2
  exact h2

/-- **C32.** The tree that `createBVTree` builds has `2n-1` nodes for `n` polygons, fits its array, and
the walk over these nodes ends and reports every polygon whose box shares a point with the query box
exactly once, and no other - for every sorting order and every set of boxes. (The header written by
`CreateNavMeshData` makes queries walk one node more, see `bv_query_partial`.) -/
theorem bv_walk_exact {srt : Nat → List BvItem → List BvItem} (hsrt : ∀ a l, (srt a l).Perm l)
    {boxes : List QBox} (h0 : boxes ≠ []) (hv : ∀ b ∈ boxes, b.Valid) :
    ∃ nodes, createBVTree srt boxes = some (2 * boxes.length - 1, nodes) ∧
      ∀ q : QBox, q.Valid → ∀ f, 2 * boxes.length ≤ f → ∃ l,
        treeWalk (fun j => overlapQuant q (nodes j).box) (fun j => (nodes j).i)
          (2 * boxes.length - 1) f 0 = some l ∧
        (leafPolys nodes l).Nodup ∧
        ∀ p, p ∈ leafPolys nodes l ↔ ∃ b, boxes[p]? = some b ∧ q.Meets b := by
  obtain ⟨s, nodes, e, hs, h1, h2, h3, h4⟩ := createBVTree_spec hsrt h0
  refine ⟨nodes, e, fun q hq f hf =>
    ⟨(s.leaves 0).filter fun j => overlapQuant q (nodes j).box, ?_, ?_, fun p => ?_⟩⟩
  · have := s.walk_tree (ov := fun j => overlapQuant q (nodes j).box) h1 f (by omega)
    rw [show 2 * boxes.length - 1 = s.size by omega, this, s.hits_eq 0 (h4 q)]
  · exact (leafPolys_perm q h3).nodup_iff.2 (nodup_overlapping q boxes)
  · rw [(leafPolys_perm q h3).mem_iff, mem_overlapping]
    constructor
    · rintro ⟨b, hb, ho⟩
      exact ⟨b, hb, (overlapQuant_exact hq (hv b (List.mem_of_getElem? hb))).1 ho⟩
    · rintro ⟨b, hb, ho⟩
      exact ⟨b, hb, (overlapQuant_exact hq (hv b (List.mem_of_getElem? hb))).2 ho⟩

/-- A query on a tile built by `CreateNavMeshData`: the header counts `2 * PolyCount` nodes
(detour/navmeshcreate.go:746-748, 883), so the walk also visits the unused last entry. -/
def queryBuilt (srt : Nat → List BvItem → List BvItem) (boxes : List QBox) (q : QBox) (base : U32)
    (npolys : Nat) (pass : Nat → Bool) : Option (List (List U32)) :=
  (createBVTree srt boxes).bind fun r =>
    queryTree r.2 q base npolys pass (2 * boxes.length) (2 * boxes.length) 0 ⟨[], []⟩

/-- **C32** (partial). A query on a freshly built tile ends, and hands over each polygon that passes the
filter and whose box shares a point with the query box exactly once - followed, when the query box
contains the low corner of the tile (quantized (0,0,0)) and polygon 0 passes the filter, by one extra
copy of polygon 0, overlapping or not. Missing from the full claim: that there is no extra report; it is
false, see `bv_query_refuted`. -/
theorem bv_query_partial {srt : Nat → List BvItem → List BvItem} (hsrt : ∀ a l, (srt a l).Perm l)
    {boxes : List QBox} (h0 : boxes ≠ []) (hv : ∀ b ∈ boxes, b.Valid) {q : QBox} (hq : q.Valid)
    {base : U32} {npolys : Nat} (hn : boxes.length ≤ npolys) (pass : Nat → Bool) :
    ∃ batches ps extra, queryBuilt srt boxes q base npolys pass = some batches ∧
      CutInto32 batches ((ps ++ extra).map fun p => base ||| BitVec.ofNat 32 p) ∧
      ps.Nodup ∧ (∀ p, p ∈ ps ↔ pass p = true ∧ ∃ b, boxes[p]? = some b ∧ q.Meets b) ∧
      ((q.Has 0 0 0 ∧ pass 0 = true ∧ extra = [0]) ∨ (¬ (q.Has 0 0 0 ∧ pass 0 = true) ∧ extra = [])) := by
  obtain ⟨s, nodes, e, hs, h1, h2, h3, h4⟩ := createBVTree_spec hsrt h0
  have hpos : 0 < boxes.length := List.length_pos_of_ne_nil h0
  have hz := h2 s.size (by omega)
  have hperm := leafPolys_perm q h3
  generalize hl : (s.leaves 0).filter (fun j => overlapQuant q (nodes j).box) = l at hperm
  have hw : treeWalk (fun j => overlapQuant q (nodes j).box) (fun j => (nodes j).i)
      (2 * boxes.length) (2 * boxes.length) 0 =
        some (l ++ if overlapQuant q BNode.zero.box then [s.size] else []) := by
    rw [← hl, ← s.hits_eq 0 (h4 q)]
    refine s.walk_lay (ov := fun j => overlapQuant q (nodes j).box) 0 1 _ h1 (by omega) ?_ _ (by omega)
    intro f hf
    obtain ⟨f, rfl⟩ : ∃ k, f = k + 1 := ⟨f - 1, by omega⟩
    have hend : treeWalk (fun j => overlapQuant q (nodes j).box) (fun j => (nodes j).i)
        (2 * boxes.length) f (s.size + 1) = some [] := by
      cases f <;> rw [treeWalk, if_neg (by omega)]
    rw [Nat.zero_add, treeWalk, if_pos (by omega), if_pos (by rw [hz]; exact Int.le_refl 0), hend, hz]
    split <;> rfl
  have hlt : ∀ p ∈ leafPolys nodes l, p < boxes.length := by
    intro p hp
    obtain ⟨b, hb, _⟩ := mem_overlapping.1 (hperm.mem_iff.1 hp)
    exact (List.getElem?_eq_some_iff.1 hb).1
  have hov : overlapQuant q BNode.zero.box = true ↔ q.Has 0 0 0 := by
    rw [overlapQuant_iff]
    unfold QBox.Has BNode.zero QBox.Valid at *
    simp
  have hext : leafPolys nodes (if overlapQuant q BNode.zero.box then [s.size] else []) =
      if overlapQuant q BNode.zero.box then [0] else [] := by
    split
    · simp [leafPolys, hz, BNode.zero]
    · rfl
  obtain ⟨batches, hb1, hb2⟩ := query_tree_batches (base := base) (npolys := npolys) (pass := pass) hw
    (by
      intro p hp
      unfold leafPolys at hp hext hlt
      rw [List.map_append, List.mem_append, hext] at hp
      rcases hp with hp | hp
      · have := hlt p hp; omega
      · split at hp
        · simp only [List.mem_singleton] at hp; omega
        · cases hp)
  refine ⟨batches, (leafPolys nodes l).filter pass,
    (if overlapQuant q BNode.zero.box then [0] else []).filter pass, ?_, ?_, ?_, fun p => ?_, ?_⟩
  · unfold queryBuilt
    rw [e, Option.bind_some]
    exact hb1
  · rw [← hext, ← List.filter_append]
    unfold leafPolys at *
    rw [← List.map_append]
    exact hb2
  · exact (hperm.nodup_iff.2 (nodup_overlapping q boxes)).filter _
  · rw [List.mem_filter, hperm.mem_iff, mem_overlapping, and_comm]
    refine and_congr_right fun _ => exists_congr fun b => and_congr_right fun hb => ?_
    exact overlapQuant_exact hq (hv b (List.mem_of_getElem? hb))
  · by_cases ho : overlapQuant q BNode.zero.box = true
    · rw [if_pos ho]
      cases hp : pass 0
      · right; simp [hp]
      · left; simp [hp, hov.1 ho]
    · rw [if_neg ho]
      right
      refine ⟨fun h => ho (hov.2 h.1), rfl⟩

/-- A sort along `BMin[0]` only, for the examples. -/
def sortX (_ : Nat) (l : List BvItem) : List BvItem :=
  l.mergeSort fun a b => decide (a.box.lo0.toNat ≤ b.box.lo0.toNat)

/-- Three polygons; the query meets the boxes of polygons 0 and 2. -/
example : ∀ a l, (sortX a l).Perm l := fun _ l => l.mergeSort_perm _

example : (⟨4, 0, 0, 9, 3, 9⟩ : QBox).Valid ∧ (⟨6, 2, 2, 7, 3, 3⟩ : QBox).Has 7 2 3 := by
  unfold QBox.Valid QBox.Has; decide

/-- **C32** (refuted in full). Polygon 0 lies far away from the query box, and is reported all the
same: two polygons with boxes (10,10,10)-(20,20,20) and (0,0,0)-(5,5,5), query (0,0,0)-(1,1,1). -/
theorem bv_query_refuted : ∃ (boxes : List QBox) (q b : QBox),
    boxes[0]? = some b ∧ (∀ c ∈ boxes, c.Valid) ∧ q.Valid ∧ ¬ q.Meets b ∧
      queryBuilt (fun _ l => l) boxes q 0x400000#32 2 (fun _ => true) =
        some [[0x400001#32, 0x400000#32]] := by
  refine ⟨[⟨10, 10, 10, 20, 20, 20⟩, ⟨0, 0, 0, 5, 5, 5⟩], ⟨0, 0, 0, 1, 1, 1⟩, _, rfl, ?_, ?_, ?_, rfl⟩
  · unfold QBox.Valid; decide
  · unfold QBox.Valid; decide
  · rintro ⟨x, y, z, h1, h2⟩
    unfold QBox.Has at h1 h2
    simp at h1 h2
    omega

/-- The same polygon reported twice, when it does lie at the low corner. -/
example : queryBuilt (fun _ l => l) [⟨0, 0, 0, 5, 5, 5⟩] ⟨0, 0, 0, 1, 1, 1⟩ 0x400000#32 1 (fun _ => true) =
    some [[0x400000#32, 0x400000#32]] := rfl

end Verif.Detour
