/-
The chunky triangle mesh (recast/chunkytrimesh.go): a tree over the triangles of a mesh, used to find
the triangles that touch a tile.

Simplifications: coordinates are elements of any linear order (float32 without NaN: only comparisons
matter here); int32 indices are `Nat`/`Int` (no overflow: the triangle array has 3 * ntris int32
entries, so this excludes more than 2^29 triangles); `sort.SliceStable` along whichever axis
`longestAxis` picks is any function that permutes its input, so every theorem holds for all sorting
orders. `subdivide` passes segments of `items` on to its recursive calls and does not look at `items`
afterwards, so the model passes the segments themselves. The triangle array is the list of triangle
numbers copied so far; `curTri` is its length.
-/
import Verif.Common.Chain
import Verif.Common.EscapeTree
import Mathlib.Order.Defs.LinearOrder
import Mathlib.Tactic.Order

namespace Verif.Recast

variable {α : Type} [LinearOrder α]

/-! ## Model -/

/-- `bmin`, `bmax` (recast/chunkytrimesh.go:10-11, 24-25). -/
structure Rect (α : Type) where
  lo0 : α
  lo1 : α
  hi0 : α
  hi1 : α
  deriving DecidableEq

/-- `BoundsItem` (recast/chunkytrimesh.go:23-27). -/
structure CItem (α : Type) where
  box : Rect α
  i : Nat

/-- `ChunkyTriMeshNode` (recast/chunkytrimesh.go:9-13). -/
structure CNode (α : Type) where
  box : Rect α
  i : Int
  n : Int

/-- Loop body of `calcExtends` (recast/chunkytrimesh.go:37-50). -/
def Rect.grow (b c : Rect α) : Rect α :=
  { lo0 := if c.lo0 < b.lo0 then c.lo0 else b.lo0
    lo1 := if c.lo1 < b.lo1 then c.lo1 else b.lo1
    hi0 := if c.hi0 > b.hi0 then c.hi0 else b.hi0
    hi1 := if c.hi1 > b.hi1 then c.hi1 else b.hi1 }

/-- `calcExtends` (recast/chunkytrimesh.go:29-52) of the segment `it :: rest`. -/
def calcExtends (it : CItem α) (rest : List (CItem α)) : Rect α :=
  rest.foldl (fun b c => b.grow c.box) it.box

/-- What `subdivide` changes: `curNode`, the nodes, and the triangles written to `outTris`. -/
structure CState (α : Type) where
  cur : Nat
  nodes : Nat → CNode α
  out : List Nat

/-- `subdivide` (recast/chunkytrimesh.go:61-118); `cap` is both `len(nodes)` and `maxNodes`, `t` is
`trisPerChunk`. `none` is an index out of range: `nodes[cap]`, or `items[imin]` of an empty segment. -/
def chunkSubdivide (srt : Rect α → List (CItem α) → List (CItem α)) (t cap : Nat) :
    Nat → List (CItem α) → CState α → Option (CState α)
  | 0, _, _ => none
  | f + 1, items, st =>
    if st.cur > cap then some st
    else if st.cur = cap then none
    else
      match items with
      | [] => none
      | it :: rest =>
        let b := calcExtends it rest
        if (it :: rest).length ≤ t then
          some ⟨st.cur + 1, upd st.nodes st.cur ⟨b, (st.out.length : Int), ((it :: rest).length : Int)⟩,
            st.out ++ (it :: rest).map (·.i)⟩
        else
          let sorted := srt b (it :: rest)
          let k := (it :: rest).length / 2
          (chunkSubdivide srt t cap f (sorted.take k)
              ⟨st.cur + 1, upd st.nodes st.cur { st.nodes st.cur with box := b }, st.out⟩).bind fun s1 =>
          (chunkSubdivide srt t cap f (sorted.drop k) s1).bind fun s2 =>
          some ⟨s2.cur, upd s2.nodes st.cur
            ({ s2.nodes st.cur with i := -((s2.cur : Int) - (st.cur : Int)) }), s2.out⟩

/-- Bounds of a triangle in the xz-plane (recast/chunkytrimesh.go:147-167). -/
def triRect (p0 p1 p2 : α × α) : Rect α :=
  ((⟨p0.1, p0.2, p0.1, p0.2⟩ : Rect α).grow ⟨p1.1, p1.2, p1.1, p1.2⟩).grow ⟨p2.1, p2.2, p2.1, p2.2⟩

/-- A built mesh: `Nnodes`, `Nodes`, `Tris` (as triangle numbers), `MaxTrisPerChunk`. -/
structure Chunky (α : Type) where
  nnodes : Nat
  nodes : Nat → CNode α
  tris : List Nat
  maxTris : Int

/-- "Calc max tris per node." (recast/chunkytrimesh.go:178-188). -/
def maxTrisPerChunk (nodes : Nat → CNode α) (nnodes : Nat) : Int :=
  (List.range nnodes).foldl (fun m j =>
    if (nodes j).i ≥ 0 then (if (nodes j).n > m then (nodes j).n else m) else m) 0

/-- `createChunkyTriMesh` (recast/chunkytrimesh.go:122-191) for triangles given by their xz-corners.
`none` is a panic (also the division by zero for `t = 0`), `some none` is the result `false`.
`z` is the zero value of a coordinate. -/
def createChunky (z : α) (srt : Rect α → List (CItem α) → List (CItem α)) (t : Nat)
    (tris : List ((α × α) × (α × α) × (α × α))) : Option (Option (Chunky α)) :=
  if t = 0 then none
  else
    let nchunks := (tris.length + t - 1) / t
    if nchunks * 4 = 0 then some none
    else
      (chunkSubdivide srt t (nchunks * 4) (tris.length + 1)
        (tris.zipIdx.map fun x => ⟨triRect x.1.1 x.1.2.1 x.1.2.2, x.2⟩)
        ⟨0, fun _ => ⟨⟨z, z, z, z⟩, 0, 0⟩, []⟩).map fun st =>
          some ⟨st.cur, st.nodes, st.out, maxTrisPerChunk st.nodes st.cur⟩

/-- `checkOverlapRect` (recast/chunkytrimesh.go:193-202). -/
def checkOverlapRect (a b : Rect α) : Bool :=
  if a.lo0 > b.hi0 ∨ a.hi0 < b.lo0 then false
  else if a.lo1 > b.hi1 ∨ a.hi1 < b.lo1 then false
  else true

/-- `ChunksOverlappingRect` (recast/chunkytrimesh.go:205-232): `ids[0:n]`, for a buffer of `len`
entries; `none` if the loop does not end within the fuel. -/
def chunksLoop (nodes : Nat → CNode α) (nnodes : Nat) (q : Rect α) (len : Nat) :
    Nat → Nat → List Nat → Option (List Nat)
  | 0, i, ids => if i < nnodes then none else some ids
  | f + 1, i, ids =>
    if i < nnodes then
      let overlap := checkOverlapRect q (nodes i).box
      let leaf := decide ((nodes i).i ≥ 0)
      let ids' := if leaf && overlap then (if ids.length < len then ids ++ [i] else ids) else ids
      if overlap || leaf then chunksLoop nodes nnodes q len f (i + 1) ids'
      else chunksLoop nodes nnodes q len f ((i : Int) + -(nodes i).i).toNat ids'
    else some ids

/-! ## Rectangles -/

/-- Spec: a point lies in a rectangle. -/
def Rect.Has (b : Rect α) (x y : α) : Prop := b.lo0 ≤ x ∧ x ≤ b.hi0 ∧ b.lo1 ≤ y ∧ y ≤ b.hi1

/-- Spec: the rectangle is not inside out. -/
def Rect.Valid (b : Rect α) : Prop := b.lo0 ≤ b.hi0 ∧ b.lo1 ≤ b.hi1

/-- Spec: two rectangles share a point. -/
def Rect.Meets (a b : Rect α) : Prop := ∃ x y, a.Has x y ∧ b.Has x y

/-- `c` lies in `b`. -/
def Rect.Sub (c b : Rect α) : Prop := b.lo0 ≤ c.lo0 ∧ b.lo1 ≤ c.lo1 ∧ c.hi0 ≤ b.hi0 ∧ c.hi1 ≤ b.hi1

theorem overlap_iff (a b : Rect α) : checkOverlapRect a b = true ↔
    (a.lo0 ≤ b.hi0 ∧ b.lo0 ≤ a.hi0) ∧ (a.lo1 ≤ b.hi1 ∧ b.lo1 ≤ a.hi1) := by
  unfold checkOverlapRect
  by_cases h1 : a.lo0 > b.hi0 ∨ a.hi0 < b.lo0
  · rw [if_pos h1]
    simp only [Bool.false_eq_true, false_iff]
    rintro ⟨⟨h2, h3⟩, _⟩
    rcases h1 with h1 | h1 <;> order
  · rw [if_neg h1]
    by_cases h2 : a.lo1 > b.hi1 ∨ a.hi1 < b.lo1
    · rw [if_pos h2]
      simp only [Bool.false_eq_true, false_iff]
      rintro ⟨_, h3, h4⟩
      rcases h2 with h2 | h2 <;> order
    · rw [if_neg h2]
      simp only [not_or, not_lt, gt_iff_lt] at h1 h2
      simp [h1, h2]

/-- The test is exact on rectangles that are not inside out. -/
theorem overlap_exact {a b : Rect α} (ha : a.Valid) (hb : b.Valid) :
    checkOverlapRect a b = true ↔ a.Meets b := by
  rw [overlap_iff]
  unfold Rect.Meets Rect.Has Rect.Valid at *
  constructor
  · rintro ⟨⟨h1, h2⟩, h3, h4⟩
    refine ⟨max a.lo0 b.lo0, max a.lo1 b.lo1, ⟨le_max_left _ _, max_le ha.1 h2, le_max_left _ _,
      max_le ha.2 h4⟩, le_max_right _ _, max_le h1 hb.1, le_max_right _ _, max_le h3 hb.2⟩
  · rintro ⟨x, y, ⟨h1, h2, h3, h4⟩, h5, h6, h7, h8⟩
    exact ⟨⟨h1.trans h6, h5.trans h2⟩, h3.trans h8, h7.trans h4⟩

theorem Rect.Sub.refl (a : Rect α) : a.Sub a := ⟨le_refl _, le_refl _, le_refl _, le_refl _⟩

theorem Rect.Sub.trans {a b c : Rect α} (h1 : a.Sub b) (h2 : b.Sub c) : a.Sub c :=
  ⟨h2.1.trans h1.1, h2.2.1.trans h1.2.1, h1.2.2.1.trans h2.2.2.1, h1.2.2.2.trans h2.2.2.2⟩

theorem overlap_mono {q c b : Rect α} (h : c.Sub b) (ho : checkOverlapRect q c = true) :
    checkOverlapRect q b = true := by
  rw [overlap_iff] at *
  obtain ⟨h1, h2, h3, h4⟩ := h
  obtain ⟨⟨g1, g2⟩, g3, g4⟩ := ho
  exact ⟨⟨g1.trans h3, h1.trans g2⟩, g3.trans h4, h2.trans g4⟩

theorem Rect.sub_grow (b c : Rect α) : b.Sub (b.grow c) ∧ c.Sub (b.grow c) := by
  unfold Rect.Sub Rect.grow
  simp only
  refine ⟨⟨?_, ?_, ?_, ?_⟩, ⟨?_, ?_, ?_, ?_⟩⟩ <;> split <;> order

theorem foldl_grow (l : List (CItem α)) : ∀ b : Rect α,
    b.Sub (l.foldl (fun b c => b.grow c.box) b) ∧
      ∀ c ∈ l, c.box.Sub (l.foldl (fun b c => b.grow c.box) b) := by
  induction l with
  | nil => intro b; exact ⟨.refl b, by simp⟩
  | cons a l ih =>
    intro b
    obtain ⟨h1, h2⟩ := ih (b.grow a.box)
    obtain ⟨g1, g2⟩ := b.sub_grow a.box
    refine ⟨g1.trans h1, fun c hc => ?_⟩
    rcases List.mem_cons.1 hc with rfl | hc
    · exact g2.trans h1
    · exact h2 c hc

theorem calcExtends_sub (it : CItem α) (rest : List (CItem α)) :
    ∀ c ∈ it :: rest, c.box.Sub (calcExtends it rest) := by
  intro c hc
  obtain ⟨h1, h2⟩ := foldl_grow rest it.box
  rcases List.mem_cons.1 hc with rfl | hc
  · exact h1
  · exact h2 c hc

theorem Rect.grow_sub {b c B : Rect α} (h1 : b.Sub B) (h2 : c.Sub B) : (b.grow c).Sub B := by
  obtain ⟨h11, h12, h13, h14⟩ := h1
  obtain ⟨h21, h22, h23, h24⟩ := h2
  unfold Rect.Sub Rect.grow
  refine ⟨?_, ?_, ?_, ?_⟩ <;> simp only <;> split <;> assumption

theorem calcExtends_least (it : CItem α) (rest : List (CItem α)) {B : Rect α}
    (h : ∀ c ∈ it :: rest, c.box.Sub B) : (calcExtends it rest).Sub B := by
  have : ∀ (l : List (CItem α)) (b : Rect α), b.Sub B → (∀ c ∈ l, c.box.Sub B) →
      (l.foldl (fun b c => b.grow c.box) b).Sub B := by
    intro l
    induction l with
    | nil => intro b hb _; exact hb
    | cons a l ih =>
      intro b hb hl
      exact ih _ (Rect.grow_sub hb (hl a (by simp))) fun c hc => hl c (by simp [hc])
  exact this rest it.box (h it (by simp)) fun c hc => h c (by simp [hc])

/-! ## Construction -/

/-- The leaves at positions `js` describe the segments `gs`, stored one after the other from triangle
position `st` on. -/
def LeafOK (nodes : Nat → CNode α) (t : Nat) : Nat → List Nat → List (List (CItem α)) → Prop
  | _, [], [] => True
  | st, j :: js, g :: gs =>
    ((nodes j).i = (st : Int) ∧ (nodes j).n = (g.length : Int) ∧ g ≠ [] ∧ g.length ≤ t ∧
      (∃ it rest, g = it :: rest ∧ (nodes j).box = calcExtends it rest)) ∧
    LeafOK nodes t (st + g.length) js gs
  | _, _, _ => False

theorem LeafOK.congr {nodes nodes' : Nat → CNode α} {t : Nat} (js : List Nat) :
    ∀ (gs : List (List (CItem α))) (st : Nat), LeafOK nodes t st js gs →
      (∀ j ∈ js, nodes' j = nodes j) → LeafOK nodes' t st js gs := by
  induction js with
  | nil => intro gs st h _; cases gs <;> exact h
  | cons j js ih =>
    intro gs st h he
    cases gs with
    | nil => exact h
    | cons g gs =>
      obtain ⟨h1, h2⟩ := h
      refine ⟨?_, ih gs _ h2 fun k hk => he k (by simp [hk])⟩
      rw [he j (by simp)]
      exact h1

theorem LeafOK.append {nodes : Nat → CNode α} {t : Nat} (js : List Nat) :
    ∀ (gs : List (List (CItem α))) (st : Nat) {js' : List Nat} {gs' : List (List (CItem α))},
      LeafOK nodes t st js gs → LeafOK nodes t (st + gs.flatten.length) js' gs' →
      LeafOK nodes t st (js ++ js') (gs ++ gs') := by
  induction js with
  | nil =>
    intro gs st js' gs' h h'
    cases gs with
    | nil => simpa using h'
    | cons g gs => exact h.elim
  | cons j js ih =>
    intro gs st js' gs' h h'
    cases gs with
    | nil => exact h.elim
    | cons g gs =>
      obtain ⟨h1, h2⟩ := h
      refine ⟨h1, ih gs _ h2 ?_⟩
      rw [List.flatten_cons, List.length_append] at h'
      rwa [Nat.add_assoc]

/-- Every leaf describes a segment. -/
theorem LeafOK.mem {nodes : Nat → CNode α} {t : Nat} (js : List Nat) :
    ∀ (gs : List (List (CItem α))) (st : Nat), LeafOK nodes t st js gs → ∀ j ∈ js,
      ∃ g pre post, gs = pre ++ g :: post ∧ (nodes j).i = ((st + pre.flatten.length : Nat) : Int) ∧
        (nodes j).n = (g.length : Int) ∧ 1 ≤ g.length ∧ g.length ≤ t ∧
        (∀ c ∈ g, c.box.Sub (nodes j).box) ∧
        ∀ B, (∀ c ∈ g, c.box.Sub B) → (nodes j).box.Sub B := by
  induction js with
  | nil => intro gs st _ j hj; cases hj
  | cons k js ih =>
    intro gs st h j hj
    cases gs with
    | nil => exact h.elim
    | cons g gs =>
      obtain ⟨⟨h1, h2, h3, h4, it, rest, rfl, h5⟩, h6⟩ := h
      rcases List.mem_cons.1 hj with rfl | hj
      · have hs := calcExtends_sub it rest
        rw [← h5] at hs
        refine ⟨it :: rest, [], gs, rfl, by simpa using h1, h2, by simp, h4, hs, fun B hB => ?_⟩
        rw [h5]
        exact calcExtends_least it rest hB
      · obtain ⟨g', pre, post, e, g1, g2, g3, g4, g5⟩ := ih gs _ h6 j hj
        refine ⟨g', (it :: rest) :: pre, post, by rw [e]; rfl, ?_, g2, g3, g4, g5⟩
        rw [g1, List.flatten_cons, List.length_append, Nat.add_assoc]

/-- Every triangle position belongs to exactly one leaf. -/
theorem LeafOK.cover {nodes : Nat → CNode α} {t : Nat} (js : List Nat) :
    ∀ (gs : List (List (CItem α))) (st : Nat), LeafOK nodes t st js gs → js.Nodup →
      ∀ k, st ≤ k → k < st + gs.flatten.length →
        ∃ j ∈ js, ((nodes j).i ≤ (k : Int) ∧ (k : Int) < (nodes j).i + (nodes j).n) ∧
          ∀ j' ∈ js, (nodes j').i ≤ (k : Int) → (k : Int) < (nodes j').i + (nodes j').n → j' = j := by
  induction js with
  | nil =>
    intro gs st h _ k h1 h2
    cases gs with
    | nil => simp at h2; omega
    | cons g gs => exact h.elim
  | cons a js ih =>
    intro gs st h hnd k h1 h2
    cases gs with
    | nil => exact h.elim
    | cons g gs =>
      have hall := h
      obtain ⟨⟨g1, g2, _⟩, h6⟩ := h
      rw [List.flatten_cons, List.length_append] at h2
      rw [List.nodup_cons] at hnd
      by_cases hk : k < st + g.length
      · refine ⟨a, by simp, by rw [g1, g2]; omega, fun j' hj' l1 l2 => ?_⟩
        rcases List.mem_cons.1 hj' with rfl | hj'
        · rfl
        · obtain ⟨g', pre, post, e, m1, _⟩ := LeafOK.mem js gs _ h6 j' hj'
          omega
      · obtain ⟨j, hj, hr, hu⟩ := ih gs _ h6 hnd.2 k (by omega) (by omega)
        refine ⟨j, by simp [hj], hr, fun j' hj' l1 l2 => ?_⟩
        rcases List.mem_cons.1 hj' with rfl | hj'
        · omega
        · exact hu j' hj' l1 l2

theorem chunkSubdivide_spec (srt : Rect α → List (CItem α) → List (CItem α))
    (hsrt : ∀ b l, (srt b l).Perm l) (t : Nat) (ht : 1 ≤ t) (cap : Nat) (f : Nat) :
    ∀ (items : List (CItem α)) (st : CState α), items ≠ [] → items.length ≤ f →
      ((items.length ≤ t ∧ st.cur < cap) ∨
        (t ≤ 2 * items.length ∧ st.cur * t + 4 * items.length ≤ cap * t)) →
      ∃ (s : Shape) (nodes' : Nat → CNode α) (gs : List (List (CItem α))),
        chunkSubdivide srt t cap f items st =
          some ⟨st.cur + s.size, nodes', st.out ++ gs.flatten.map (·.i)⟩ ∧
        (t ≤ 2 * items.length → s.size * t + t ≤ 4 * items.length) ∧
        (items.length ≤ t → s.size = 1) ∧
        s.Lay (fun j => (nodes' j).i) st.cur ∧
        (∀ j, j < st.cur ∨ st.cur + s.size ≤ j → nodes' j = st.nodes j) ∧
        gs.flatten.Perm items ∧ LeafOK nodes' t st.out.length (s.leaves st.cur) gs ∧
        ∀ q, s.Mono (fun j => checkOverlapRect q (nodes' j).box) st.cur := by
  induction f with
  | zero => intro items st h0 hf; cases items <;> simp at *
  | succ f ih =>
    intro items st h0 hf hcap
    have hlt : st.cur < cap := by
      rcases hcap with h | ⟨h1, h2⟩
      · exact h.2
      · by_contra hc
        have : cap * t ≤ st.cur * t := Nat.mul_le_mul_right t (by omega)
        have : 0 < items.length := List.length_pos_of_ne_nil h0
        omega
    match items with
    | it :: rest =>
      rw [chunkSubdivide, if_neg (by omega), if_neg (by omega)]
      simp only
      generalize hb : calcExtends it rest = b
      have hbs := calcExtends_sub it rest
      rw [hb] at hbs
      generalize hall : it :: rest = all at *
      split
      · rename_i hle
        refine ⟨.leaf, upd st.nodes st.cur ⟨b, (st.out.length : Int), (all.length : Int)⟩, [all], ?_, ?_, fun _ => rfl, ?_, ?_, by simp, ?_, fun q => trivial⟩
        · simp [Shape.size]
        · intro h; simp only [Shape.size]; omega
        · simp only [Shape.Lay, upd_same]; omega
        · intro j hj
          simp only [Shape.size] at hj
          rw [upd_ne _ _ (by omega)]
        · refine ⟨⟨?_, ?_, h0, hle, it, rest, hall.symm, ?_⟩, trivial⟩ <;> simp [hb]
      · rename_i hgt
        have hn : t < all.length := by omega
        have hcap' : st.cur * t + 4 * all.length ≤ cap * t := by
          rcases hcap with h | h
          · omega
          · exact h.2
        have hp := hsrt b all
        generalize srt b all = sorted at *
        have hsl := hp.length_eq
        have hk1 : (sorted.take (all.length / 2)).length = all.length / 2 := by
          rw [List.length_take]; omega
        have hk2 : (sorted.drop (all.length / 2)).length = all.length - all.length / 2 := by
          rw [List.length_drop]; omega
        obtain ⟨l, n1, g1, e1, hl1, -, hl2, hl3, hl4, hl5, hl6⟩ := ih (sorted.take (all.length / 2))
          ⟨st.cur + 1, upd st.nodes st.cur { st.nodes st.cur with box := b }, st.out⟩
          (by intro h; rw [h] at hk1; simp at hk1; omega) (by omega)
          (Or.inr ⟨by omega, by simp only [Nat.add_mul]; omega⟩)
        have hl1' := hl1 (by omega)
        simp only at e1 hl2 hl3 hl5 hl6
        obtain ⟨r, n2, g2, e2, hr1, -, hr2, hr3, hr4, hr5, hr6⟩ := ih (sorted.drop (all.length / 2))
          ⟨st.cur + 1 + l.size, n1, st.out ++ g1.flatten.map (·.i)⟩
          (by intro h; rw [h] at hk2; simp at hk2; omega) (by omega)
          (Or.inr ⟨by omega, by simp only [Nat.add_mul]; omega⟩)
        have hr1' := hr1 (by omega)
        simp only at e2 hr2 hr3 hr5 hr6
        refine ⟨.node l r, upd n2 st.cur { n2 st.cur with i := -(((st.cur + 1 + l.size + r.size : Nat) : Int) - st.cur) },
          g1 ++ g2, ?_, ?_, by omega, ?_, ?_, ?_, ?_, ?_⟩
        · rw [e1, Option.bind_some, e2, Option.bind_some]
          simp only [Shape.size]
          rw [show st.cur + (1 + l.size + r.size) = st.cur + 1 + l.size + r.size by omega]
          simp
        · intro _
          simp only [Shape.size, Nat.add_mul]
          omega
        · refine ⟨?_, ?_, ?_⟩
          · simp only [upd_same]; omega
          · refine Shape.Lay.congr l _ hl2 fun j h1 h2 => ?_
            rw [upd_ne _ _ (by omega), hr3 j (by omega)]
          · refine Shape.Lay.congr r _ hr2 fun j h1 h2 => ?_
            rw [upd_ne _ _ (by omega)]
        · intro j hj
          simp only [Shape.size] at hj
          have hjc : j ≠ st.cur := by omega
          rw [upd_ne _ _ hjc, hr3 j (by omega), hl3 j (by omega), upd_ne _ _ hjc]
        · rw [List.flatten_append]
          refine (hl4.append hr4).trans ?_
          rw [List.take_append_drop]
          exact hp
        · rw [Shape.leaves]
          refine LeafOK.append _ g1 _ ?_ ?_
          · refine LeafOK.congr _ _ _ hl5 fun j hj => ?_
            have := l.leaves_range _ j hj
            rw [upd_ne _ _ (by omega), hr3 j (by omega)]
          · rw [List.length_append, List.length_map] at hr5
            refine LeafOK.congr _ _ _ hr5 fun j hj => ?_
            have := r.leaves_range _ j hj
            rw [upd_ne _ _ (by omega)]
        · intro q
          refine ⟨?_, ?_, ?_⟩
          · intro j hj hov
            have hbox : (n2 st.cur).box = b := by
              rw [hr3 st.cur (by omega), hl3 st.cur (by omega), upd_same]
            simp only [upd_same, hbox]
            simp only [Shape.leaves, List.mem_append] at hj
            have hjc : j ≠ st.cur := by
              rcases hj with hj | hj
              · have := l.leaves_range _ j hj; omega
              · have := r.leaves_range _ j hj; omega
            simp only [upd_ne _ _ hjc] at hov
            refine overlap_mono ?_ hov
            rcases hj with hj | hj
            · have hjl := l.leaves_range _ j hj
              obtain ⟨g, pre, post, e, -, -, -, -, -, hB⟩ := LeafOK.mem _ _ _ hl5 j hj
              rw [hr3 j (by omega)]
              refine hB b fun c hc => hbs c ?_
              refine hp.mem_iff.1 (List.mem_of_mem_take (hl4.mem_iff.1 ?_))
              rw [e]; simp [hc]
            · obtain ⟨g, pre, post, e, -, -, -, -, -, hB⟩ := LeafOK.mem _ _ _ hr5 j hj
              refine hB b fun c hc => hbs c ?_
              refine hp.mem_iff.1 (List.mem_of_mem_drop (hr4.mem_iff.1 ?_))
              rw [e]; simp [hc]
          · refine Shape.Mono.congr l _ (hl6 q) fun j h1 h2 => ?_
            rw [upd_ne _ _ (by omega), hr3 j (by omega)]
          · refine Shape.Mono.congr r _ (hr6 q) fun j h1 h2 => ?_
            rw [upd_ne _ _ (by omega)]

/-! ## Properties -/

/-- Corners of triangle `p`. -/
abbrev Tri (α : Type) := (α × α) × (α × α) × (α × α)

theorem triRect_has (p0 p1 p2 : α × α) : (triRect p0 p1 p2).Has p0.1 p0.2 ∧
    (triRect p0 p1 p2).Has p1.1 p1.2 ∧ (triRect p0 p1 p2).Has p2.1 p2.2 := by
  unfold triRect
  obtain ⟨h1, h2⟩ := (⟨p0.1, p0.2, p0.1, p0.2⟩ : Rect α).sub_grow ⟨p1.1, p1.2, p1.1, p1.2⟩
  generalize (⟨p0.1, p0.2, p0.1, p0.2⟩ : Rect α).grow ⟨p1.1, p1.2, p1.1, p1.2⟩ = b at *
  obtain ⟨h3, h4⟩ := b.sub_grow ⟨p2.1, p2.2, p2.1, p2.2⟩
  generalize b.grow ⟨p2.1, p2.2, p2.1, p2.2⟩ = c at *
  have g1 := h1.trans h3
  have g2 := h2.trans h3
  exact ⟨⟨g1.1, g1.2.2.1, g1.2.1, g1.2.2.2⟩, ⟨g2.1, g2.2.2.1, g2.2.1, g2.2.2.2⟩,
    h4.1, h4.2.2.1, h4.2.1, h4.2.2.2⟩

omit [LinearOrder α] in
theorem maxTris_spec (nodes : Nat → CNode α) (n : Nat) :
    (∀ j < n, 0 ≤ (nodes j).i → (nodes j).n ≤ maxTrisPerChunk nodes n) ∧
      (maxTrisPerChunk nodes n = 0 ∨ ∃ j < n, 0 ≤ (nodes j).i ∧ (nodes j).n = maxTrisPerChunk nodes n) := by
  induction n with
  | zero => exact ⟨fun j hj => absurd hj (by omega), Or.inl rfl⟩
  | succ n ih =>
    obtain ⟨h1, h2⟩ := ih
    have e : maxTrisPerChunk nodes (n + 1) = if (nodes n).i ≥ 0 then
        (if (nodes n).n > maxTrisPerChunk nodes n then (nodes n).n else maxTrisPerChunk nodes n)
        else maxTrisPerChunk nodes n := by
      unfold maxTrisPerChunk
      rw [List.range_succ, List.foldl_append]
      rfl
    have hle : maxTrisPerChunk nodes n ≤ maxTrisPerChunk nodes (n + 1) := by
      rw [e]; split <;> (try split) <;> omega
    constructor
    · intro j hj hi
      by_cases hjn : j = n
      · subst hjn
        rw [e, if_pos hi]
        split <;> omega
      · exact (h1 j (by omega) hi).trans hle
    · rw [e]
      split
      · rename_i hi
        split
        · exact Or.inr ⟨n, by omega, hi, rfl⟩
        · rcases h2 with h2 | ⟨j, hj, h3, h4⟩
          · exact Or.inl h2
          · exact Or.inr ⟨j, by omega, h3, h4⟩
      · rcases h2 with h2 | ⟨j, hj, h3, h4⟩
        · exact Or.inl h2
        · exact Or.inr ⟨j, by omega, h3, h4⟩

/-- What a built mesh looks like. -/
theorem createChunky_spec (z : α) {srt : Rect α → List (CItem α) → List (CItem α)}
    (hsrt : ∀ b l, (srt b l).Perm l) {t : Nat} (ht : 1 ≤ t) {tris : List (Tri α)} (h0 : tris ≠ []) :
    ∃ (cm : Chunky α) (s : Shape) (gs : List (List (CItem α))),
      createChunky z srt t tris = some (some cm) ∧ cm.nnodes = s.size ∧
      cm.nnodes < (tris.length + t - 1) / t * 4 ∧
      cm.tris = gs.flatten.map (·.i) ∧ cm.maxTris = maxTrisPerChunk cm.nodes cm.nnodes ∧
      s.Lay (fun j => (cm.nodes j).i) 0 ∧
      gs.flatten.Perm (tris.zipIdx.map fun x => ⟨triRect x.1.1 x.1.2.1 x.1.2.2, x.2⟩) ∧
      LeafOK cm.nodes t 0 (s.leaves 0) gs ∧
      ∀ q, s.Mono (fun j => checkOverlapRect q (cm.nodes j).box) 0 := by
  have hpos : 0 < tris.length := List.length_pos_of_ne_nil h0
  generalize hc : (tris.length + t - 1) / t = nc
  have hc1 : tris.length ≤ nc * t := by
    have h1 := Nat.div_add_mod (tris.length + t - 1) t
    have h2 := Nat.mod_lt (tris.length + t - 1) (show t > 0 by omega)
    rw [hc, Nat.mul_comm] at h1
    omega
  have hc2 : 1 ≤ nc := by
    rcases Nat.eq_zero_or_pos nc with h | h
    · rw [h] at hc1; omega
    · exact h
  have hlen : (tris.zipIdx.map fun x => (⟨triRect x.1.1 x.1.2.1 x.1.2.2, x.2⟩ : CItem α)).length
      = tris.length := by simp
  obtain ⟨s, nodes, gs, e, h1, h2, h3, h4, h5, h6, h7⟩ := chunkSubdivide_spec srt hsrt t ht (nc * 4)
    (tris.length + 1) (tris.zipIdx.map fun x => ⟨triRect x.1.1 x.1.2.1 x.1.2.2, x.2⟩)
    ⟨0, fun _ => ⟨⟨z, z, z, z⟩, 0, 0⟩, []⟩
    (by intro h; rw [h] at hlen; simp at hlen; omega) (by omega) (by
      rw [hlen]
      by_cases h : tris.length ≤ t
      · exact Or.inl ⟨h, by show 0 < nc * 4; omega⟩
      · refine Or.inr ⟨by omega, ?_⟩
        show 0 * t + 4 * tris.length ≤ nc * 4 * t
        rw [Nat.mul_right_comm]
        omega)
  rw [hlen] at h1 h2
  refine ⟨⟨s.size, nodes, gs.flatten.map (·.i), maxTrisPerChunk nodes s.size⟩, s, gs, ?_, rfl, ?_, rfl,
    rfl, h3, h5, h6, h7⟩
  · unfold createChunky
    rw [if_neg (by omega)]
    simp only [hc]
    rw [if_neg (by omega), e]
    simp
  · show s.size < nc * 4
    by_cases h : tris.length ≤ t
    · rw [h2 h]; omega
    · have := h1 (by omega)
      by_contra hcon
      have h8 : nc * 4 * t ≤ s.size * t := Nat.mul_le_mul_right t (by omega)
      rw [Nat.mul_right_comm] at h8
      omega

/-- **C59.** For every non-empty triangle list and chunk size the mesh is built without overrunning its
node array; the stored triangles are a permutation of the input; every stored triangle lies in the
range of exactly one leaf; no leaf is empty or holds more than `t` triangles; `MaxTrisPerChunk` is the
largest leaf. -/
theorem chunky_partition (z : α) {srt : Rect α → List (CItem α) → List (CItem α)}
    (hsrt : ∀ b l, (srt b l).Perm l) {t : Nat} (ht : 1 ≤ t) {tris : List (Tri α)} (h0 : tris ≠ []) :
    ∃ cm : Chunky α, createChunky z srt t tris = some (some cm) ∧
      cm.nnodes < (tris.length + t - 1) / t * 4 ∧
      cm.tris.Perm (List.range tris.length) ∧
      (∀ k < tris.length, ∃ j, (j < cm.nnodes ∧ 0 ≤ (cm.nodes j).i ∧
          (cm.nodes j).i ≤ (k : Int) ∧ (k : Int) < (cm.nodes j).i + (cm.nodes j).n) ∧
        ∀ j', j' < cm.nnodes → 0 ≤ (cm.nodes j').i → (cm.nodes j').i ≤ (k : Int) →
          (k : Int) < (cm.nodes j').i + (cm.nodes j').n → j' = j) ∧
      (∀ j < cm.nnodes, 0 ≤ (cm.nodes j).i → 1 ≤ (cm.nodes j).n ∧ (cm.nodes j).n ≤ (t : Int) ∧
        (cm.nodes j).i + (cm.nodes j).n ≤ (tris.length : Int) ∧ (cm.nodes j).n ≤ cm.maxTris) ∧
      ∃ j < cm.nnodes, 0 ≤ (cm.nodes j).i ∧ (cm.nodes j).n = cm.maxTris := by
  obtain ⟨cm, s, gs, e, h1, h2, h3, h4, h5, h6, h7, h8⟩ := createChunky_spec z hsrt ht h0
  have hflen : gs.flatten.length = tris.length := by rw [h6.length_eq]; simp
  have hleaf : ∀ j, j < cm.nnodes → (0 ≤ (cm.nodes j).i ↔ j ∈ s.leaves 0) := fun j hj =>
    Shape.Lay.leaf_iff s 0 h5 j (by omega) (by omega)
  have hnd : (s.leaves 0).Nodup := (s.leaves_sorted 0).imp fun h => by omega
  have hmx := maxTris_spec cm.nodes cm.nnodes
  rw [← h4] at hmx
  have hbd : ∀ j < cm.nnodes, 0 ≤ (cm.nodes j).i → 1 ≤ (cm.nodes j).n ∧ (cm.nodes j).n ≤ (t : Int) ∧
        (cm.nodes j).i + (cm.nodes j).n ≤ (tris.length : Int) ∧ (cm.nodes j).n ≤ cm.maxTris := by
    intro j hj hi
    obtain ⟨g, pre, post, e', g1, g2, g3, g4, -⟩ := LeafOK.mem _ _ _ h7 j ((hleaf j hj).1 hi)
    have : gs.flatten.length = pre.flatten.length + (g.length + post.flatten.length) := by
      rw [e']; simp
    exact ⟨by omega, by omega, by omega, hmx.1 j hj hi⟩
  have hcov : ∀ k < tris.length, ∃ j, (j < cm.nnodes ∧ 0 ≤ (cm.nodes j).i ∧
          (cm.nodes j).i ≤ (k : Int) ∧ (k : Int) < (cm.nodes j).i + (cm.nodes j).n) ∧
        ∀ j', j' < cm.nnodes → 0 ≤ (cm.nodes j').i → (cm.nodes j').i ≤ (k : Int) →
          (k : Int) < (cm.nodes j').i + (cm.nodes j').n → j' = j := by
    intro k hk
    obtain ⟨j, hj, hr, hu⟩ := LeafOK.cover _ _ _ h7 hnd k (by omega) (by omega)
    have hjr := s.leaves_range _ j hj
    have hjn : j < cm.nnodes := by omega
    exact ⟨j, ⟨hjn, (hleaf j hjn).2 hj, hr⟩, fun j' hj' hi l1 l2 => hu j' ((hleaf j' hj').1 hi) l1 l2⟩
  refine ⟨cm, e, h2, ?_, hcov, hbd, ?_⟩
  · rw [h3]
    refine (h6.map _).trans ?_
    rw [List.map_map]
    have : (tris.zipIdx.map ((fun c : CItem α => c.i) ∘ fun x => ⟨triRect x.1.1 x.1.2.1 x.1.2.2, x.2⟩)) =
        List.range tris.length := by
      rw [List.range_eq_range']
      exact List.zipIdx_map_snd 0 tris
    rw [this]
  · rcases hmx.2 with h | ⟨j, hj⟩
    · obtain ⟨j, ⟨hj, hi, -⟩, -⟩ := hcov 0 (List.length_pos_of_ne_nil h0)
      have := hbd j hj hi
      omega
    · exact ⟨j, hj⟩

/-- The remaining inputs: no triangles give the result `false`, chunk size 0 panics. -/
theorem chunky_degenerate (z : α) (srt : Rect α → List (CItem α) → List (CItem α)) (tris : List (Tri α)) :
    createChunky z srt 0 tris = none ∧ ∀ t, 1 ≤ t → createChunky z srt t [] = some none := by
  refine ⟨rfl, fun t ht => ?_⟩
  unfold createChunky
  rw [if_neg (by omega)]
  simp only [List.length_nil, Nat.zero_add]
  rw [Nat.div_eq_of_lt (by omega)]
  rfl

theorem chunksLoop_walk {nodes : Nat → CNode α} {nnodes : Nat} {q : Rect α} {len : Nat} (f : Nat) :
    ∀ i ids l, treeWalk (fun j => checkOverlapRect q (nodes j).box) (fun j => (nodes j).i) nnodes f i =
        some l → ids.length ≤ len →
      chunksLoop nodes nnodes q len f i ids = some ((ids ++ l).take len) := by
  induction f with
  | zero =>
    intro i ids l h hl
    rw [treeWalk] at h
    rw [chunksLoop]
    split at h
    · cases h
    · rename_i hi
      cases h
      rw [if_neg hi, List.append_nil, List.take_of_length_le hl]
  | succ f ih =>
    intro i ids l h hl
    rw [treeWalk] at h
    rw [chunksLoop]
    split at h
    · rename_i hi
      rw [if_pos hi]
      simp only
      split at h
      · rename_i hleaf
        simp only [ge_iff_le, hleaf, decide_true, Bool.or_true, if_true, Bool.true_and]
        split at h
        · rename_i hov
          obtain ⟨l', h', rfl⟩ := Option.map_eq_some_iff.1 h
          rw [if_pos hov]
          split
          · rw [ih _ _ _ h' (by simp; omega)]
            simp
          · rw [ih _ _ _ h' hl]
            have : len = ids.length := by omega
            simp [this]
        · rename_i hov
          rw [if_neg hov]
          exact ih _ _ _ h hl
      · rename_i hleaf
        simp only [ge_iff_le, hleaf, decide_false, Bool.or_false, Bool.false_and, Bool.false_eq_true, if_false]
        split at h
        · rename_i hov
          rw [if_pos hov]
          exact ih _ _ _ h hl
        · rename_i hov
          rw [if_neg hov]
          exact ih _ _ _ h hl
    · rename_i hi
      cases h
      rw [if_neg hi, List.append_nil, List.take_of_length_le hl]

/-- **C60.** On every built mesh the query ends, and its result is the strictly increasing list of all
leaves whose rectangle overlaps the query rectangle, cut off at the length of the buffer. -/
theorem chunks_exact (z : α) {srt : Rect α → List (CItem α) → List (CItem α)}
    (hsrt : ∀ b l, (srt b l).Perm l) {t : Nat} (ht : 1 ≤ t) {tris : List (Tri α)} (h0 : tris ≠ [])
    {cm : Chunky α} (hcm : createChunky z srt t tris = some (some cm)) (q : Rect α) (len : Nat) :
    ∃ l : List Nat, (∀ f, cm.nnodes ≤ f → chunksLoop cm.nodes cm.nnodes q len f 0 [] = some (l.take len)) ∧
      l.Pairwise (· < ·) ∧ ∀ j, j ∈ l ↔ j < cm.nnodes ∧ 0 ≤ (cm.nodes j).i ∧
        (q.lo0 ≤ (cm.nodes j).box.hi0 ∧ (cm.nodes j).box.lo0 ≤ q.hi0) ∧
        (q.lo1 ≤ (cm.nodes j).box.hi1 ∧ (cm.nodes j).box.lo1 ≤ q.hi1) := by
  obtain ⟨cm', s, gs, e, h1, h2, h3, h4, h5, h6, h7, h8⟩ := createChunky_spec z hsrt ht h0
  rw [hcm] at e
  cases e
  refine ⟨(s.leaves 0).filter fun j => checkOverlapRect q (cm.nodes j).box, fun f hf => ?_, ?_, fun j => ?_⟩
  · have := s.walk_tree (ov := fun j => checkOverlapRect q (cm.nodes j).box) h5 f (by omega)
    rw [s.hits_eq 0 (h8 q), ← h1] at this
    rw [chunksLoop_walk f 0 [] _ this (by simp), List.nil_append]
  · exact (s.leaves_sorted 0).filter _
  · rw [List.mem_filter, overlap_iff]
    constructor
    · rintro ⟨hj, ho⟩
      have hr := s.leaves_range _ j hj
      exact ⟨by omega, (Shape.Lay.leaf_iff s 0 h5 j (by omega) (by omega)).2 hj, ho⟩
    · rintro ⟨hj, hi, ho⟩
      exact ⟨(Shape.Lay.leaf_iff s 0 h5 j (by omega) (by omega)).1 hi, ho⟩

/-- **C60.** No triangle is missed: with a large enough buffer, every triangle with a corner in the
query rectangle - or whose bounds share a point with it - is stored in one of the returned chunks. -/
theorem chunks_find (z : α) {srt : Rect α → List (CItem α) → List (CItem α)}
    (hsrt : ∀ b l, (srt b l).Perm l) {t : Nat} (ht : 1 ≤ t) {tris : List (Tri α)} (h0 : tris ≠ [])
    {cm : Chunky α} (hcm : createChunky z srt t tris = some (some cm)) (q : Rect α)
    {len : Nat} (hlen : cm.nnodes ≤ len) {p : Nat} {p0 p1 p2 : α × α} (hp : tris[p]? = some (p0, p1, p2))
    (hmeet : (triRect p0 p1 p2).Meets q) :
    ∃ ids j k, chunksLoop cm.nodes cm.nnodes q len cm.nnodes 0 [] = some ids ∧ j ∈ ids ∧
      (cm.nodes j).i ≤ ((k : Nat) : Int) ∧ (k : Int) < (cm.nodes j).i + (cm.nodes j).n ∧
      cm.tris[k]? = some p := by
  obtain ⟨l, hl1, hl2, hl3⟩ := chunks_exact z hsrt ht h0 hcm q len
  obtain ⟨cm', s, gs, e, h1, h2, h3, h4, h5, h6, h7, h8⟩ := createChunky_spec z hsrt ht h0
  rw [hcm] at e
  cases e
  have hmem : (⟨triRect p0 p1 p2, p⟩ : CItem α) ∈ gs.flatten := by
    rw [h6.mem_iff, List.mem_map]
    exact ⟨((p0, p1, p2), p), List.mem_zipIdx_iff_getElem?.2 hp, rfl⟩
  obtain ⟨k, hk, hke⟩ := List.mem_iff_getElem.1 hmem
  have hnd : (s.leaves 0).Nodup := (s.leaves_sorted 0).imp fun h => by omega
  obtain ⟨j, hj, hr, -⟩ := LeafOK.cover _ _ _ h7 hnd k (by omega) (by omega)
  have hjr := s.leaves_range _ j hj
  have hsub : (triRect p0 p1 p2).Sub (cm.nodes j).box := by
    obtain ⟨g, pre, post, e', g1, g2, -, -, g5, -⟩ := LeafOK.mem _ _ _ h7 j hj
    have he : gs.flatten[k]? = some ⟨triRect p0 p1 p2, p⟩ := by
      rw [List.getElem?_eq_getElem hk, hke]
    rw [e', List.flatten_append, List.flatten_cons, List.getElem?_append_right (by omega),
      List.getElem?_append_left (by omega)] at he
    exact g5 _ (List.mem_of_getElem? he)
  have hov : checkOverlapRect q (triRect p0 p1 p2) = true := by
    obtain ⟨x, y, m1, m2⟩ := hmeet
    rw [overlap_iff]
    exact ⟨⟨m2.1.trans m1.2.1, m1.1.trans m2.2.1⟩, m2.2.2.1.trans m1.2.2.2, m1.2.2.1.trans m2.2.2.2⟩
  have hjl : j ∈ l := by
    rw [hl3]
    exact ⟨by omega, (Shape.Lay.leaf_iff s 0 h5 j (by omega) (by omega)).2 hj,
      (overlap_iff _ _).1 (overlap_mono hsub hov)⟩
  have hll : l.length ≤ len := by
    have hsubl : l ⊆ List.range cm.nnodes := fun x hx => List.mem_range.2 ((hl3 x).1 hx).1
    have hndl : l.Nodup := hl2.imp fun h => by omega
    have := (hndl.subperm hsubl).length_le
    rw [List.length_range] at this
    omega
  refine ⟨l, j, k, ?_, hjl, hr.1, hr.2, ?_⟩
  · rw [hl1 _ (Nat.le_refl _), List.take_of_length_le hll]
  · rw [h3, List.getElem?_map, List.getElem?_eq_getElem hk, hke]
    rfl

/-- Corners in the rectangle count as meeting it. -/
theorem corner_meets {p0 p1 p2 : α × α} {q : Rect α}
    (h : q.Has p0.1 p0.2 ∨ q.Has p1.1 p1.2 ∨ q.Has p2.1 p2.2) : (triRect p0 p1 p2).Meets q := by
  obtain ⟨h0, h1, h2⟩ := triRect_has p0 p1 p2
  rcases h with h | h | h
  · exact ⟨_, _, h0, h⟩
  · exact ⟨_, _, h1, h⟩
  · exact ⟨_, _, h2, h⟩

/-- **C60.** In particular every triangle with a corner in the query rectangle is stored in one of the
returned chunks. -/
theorem chunks_find_corner (z : α) {srt : Rect α → List (CItem α) → List (CItem α)}
    (hsrt : ∀ b l, (srt b l).Perm l) {t : Nat} (ht : 1 ≤ t) {tris : List (Tri α)} (h0 : tris ≠ [])
    {cm : Chunky α} (hcm : createChunky z srt t tris = some (some cm)) (q : Rect α)
    {len : Nat} (hlen : cm.nnodes ≤ len) {p : Nat} {p0 p1 p2 : α × α} (hp : tris[p]? = some (p0, p1, p2))
    (h : q.Has p0.1 p0.2 ∨ q.Has p1.1 p1.2 ∨ q.Has p2.1 p2.2) :
    ∃ ids j k, chunksLoop cm.nodes cm.nnodes q len cm.nnodes 0 [] = some ids ∧ j ∈ ids ∧
      (cm.nodes j).i ≤ ((k : Nat) : Int) ∧ (k : Int) < (cm.nodes j).i + (cm.nodes j).n ∧
      cm.tris[k]? = some p :=
  chunks_find z hsrt ht h0 hcm q hlen hp (corner_meets h)

/-- Four triangles in chunks of at most two, unsorted: three nodes. -/
def exTris : List (Tri Nat) :=
  [((0, 0), (2, 0), (0, 2)), ((8, 8), (9, 8), (8, 9)), ((1, 1), (3, 1), (1, 3)), ((7, 0), (9, 0), (7, 2))]

example : ∃ cm, createChunky 0 (fun _ l => l) 2 exTris = some (some cm) ∧ cm.nnodes = 3 ∧
    cm.tris = [0, 1, 2, 3] ∧ cm.maxTris = 2 ∧
    chunksLoop cm.nodes cm.nnodes ⟨4, 0, 9, 1⟩ 8 3 0 [] = some [1, 2] ∧
    chunksLoop cm.nodes cm.nnodes ⟨4, 0, 9, 1⟩ 1 3 0 [] = some [1] ∧
    chunksLoop cm.nodes cm.nnodes ⟨4, 5, 9, 9⟩ 8 3 0 [] = some [1] := ⟨_, rfl, rfl, rfl, rfl, rfl, rfl, rfl⟩

end Verif.Recast
