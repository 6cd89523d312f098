/-
Welding of vertices when the polygon mesh is built: `computeVertexHash`, `addVertex`
(recast/mesh.go:97-132) and the loop over a contour's vertices (recast/polymesh.go:150-158).

Simplifications: the vertex array holds one triple per vertex; -1 in the linked lists is `none`; the arrays
are unbounded (that `nv` stays within the allocated `maxVertices` is `addVertices_length`).
-/
import Verif.Recast.Triangulate
import Verif.Common.Chain

namespace Verif.Recast
open Verif Verif.Detour

set_option linter.unusedSimpArgs false

/-- A vertex of the mesh: `verts[i*3 : i*3+3]`. -/
structure MV where
  x : BitVec 16
  y : BitVec 16
  z : BitVec 16
deriving DecidableEq, Repr

instance : Inhabited MV := ⟨⟨0, 0, 0⟩⟩

/-- `computeVertexHash(int32(x), 0, int32(z))` (recast/mesh.go:99-107): the `int64` sum does not overflow for
16-bit coordinates. -/
def vertexHash (x z : BitVec 16) : Nat := ((0x8da6b343 * x.toNat + 0xcb1ab31f * z.toNat) % 2 ^ 32) % 4096

/-- The test of recast/mesh.go:115: `v[1]-y` is a `uint16`, so `iAbs` does nothing. -/
def weldable (v : MV) (x y z : BitVec 16) : Bool :=
  decide (v.x = x) && decide ((v.y - y).toNat ≤ 2) && decide (v.z = z)

/-- `mesh.Verts`, `firstVert`, `nextVert`, `mesh.NVerts`. -/
structure Weld where
  verts : Nat → MV
  firstV : Nat → Option Nat
  nextV : Nat → Option Nat
  nv : Nat

/-- The empty table (recast/polymesh.go:107-112). -/
def Weld.empty : Weld := ⟨fun _ => default, fun _ => none, fun _ => none, 0⟩

/-- The walk through a bucket (recast/mesh.go:113-119). -/
def Weld.find (s : Weld) (x y z : BitVec 16) : Nat → Option Nat → Option Nat
  | 0, _ => none
  | _ + 1, none => none
  | fuel + 1, some i => if weldable (s.verts i) x y z then some i else s.find x y z fuel (s.nextV i)

/-- `addVertex` (recast/mesh.go:109-132): the index, as `uint16`, and the new table. -/
def addVertex (s : Weld) (x y z : BitVec 16) : Nat × Weld :=
  let b := vertexHash x z
  match s.find x y z (s.nv + 1) (s.firstV b) with
  | some i => (i % 65536, s)
  | none =>
    (s.nv % 65536, { verts := upd s.verts s.nv ⟨x, y, z⟩, firstV := upd s.firstV b (some s.nv),
                     nextV := upd s.nextV s.nv (s.firstV b), nv := s.nv + 1 })

/-- The vertices of one or more contours, one after the other (recast/polymesh.go:150-152). -/
def addVertices (s : Weld) : List MV → List Nat × Weld
  | [] => ([], s)
  | v :: l =>
    let r := addVertex s v.x v.y v.z
    let r' := addVertices r.2 l
    (r.1 :: r'.1, r'.2)

/-! ## Spec: the table as a list -/

/-- The vertices in the table. -/
def Weld.list (s : Weld) : List MV := (List.range s.nv).map s.verts

/-- A chain of the linked lists. -/
def Follows (nx : Nat → Option Nat) : Option Nat → List Nat → Prop
  | h, [] => h = none
  | h, k :: l => h = some k ∧ Follows nx (nx k) l

/-- Every bucket is a list of exactly the vertices with its hash, the newest first. -/
structure Weld.Ok (s : Weld) : Prop where
  chain : ∀ b, ∃ l : List Nat, Follows s.nextV (s.firstV b) l ∧ l.Pairwise (· > ·) ∧
    ∀ i, i ∈ l ↔ i < s.nv ∧ vertexHash (s.verts i).x (s.verts i).z = b

theorem Weld.empty_ok : Weld.empty.Ok :=
  ⟨fun b => ⟨[], rfl, List.Pairwise.nil, by simp [Weld.empty]⟩⟩

theorem find_spec (s : Weld) (x y z : BitVec 16) : ∀ (l : List Nat) (h : Option Nat) (fuel : Nat), Follows s.nextV h l → l.length < fuel →
    s.find x y z fuel h = l.find? fun i => weldable (s.verts i) x y z := by
  intro l
  induction l with
  | nil =>
    intro h fuel hf hl
    cases fuel with
    | zero => simp at hl
    | succ fuel => cases h with
      | none => rfl
      | some i => cases hf
  | cons k l ih =>
    intro h fuel hf hl
    cases fuel with
    | zero => simp at hl
    | succ fuel =>
      obtain ⟨rfl, hf⟩ := hf
      rw [Weld.find, List.find?_cons]
      cases hw : weldable (s.verts k) x y z with
      | true => simp
      | false => simp only [Bool.false_eq_true, if_false]; exact ih _ fuel hf (by simpa using hl)

theorem nodup_bound {l : List Nat} {n : Nat} (h : l.Pairwise (· > ·)) (hb : ∀ i ∈ l, i < n) : l.length ≤ n := by
  induction l generalizing n with
  | nil => simp
  | cons k l ih =>
    rw [List.pairwise_cons] at h
    have h1 := hb k (List.mem_cons_self ..)
    have := ih (n := k) h.2 (fun i hi => h.1 i hi)
    simp only [List.length_cons]
    omega

theorem weldable_hash {v : MV} {x y z : BitVec 16} (h : weldable v x y z = true) : vertexHash v.x v.z = vertexHash x z := by
  simp only [weldable, Bool.and_eq_true, decide_eq_true_eq] at h
  rw [h.1.1, h.2]

theorem Follows.congr {nx nx' : Nat → Option Nat} : ∀ {l : List Nat} {h : Option Nat}, Follows nx h l → (∀ i ∈ l, nx' i = nx i) →
    Follows nx' h l := by
  intro l
  induction l with
  | nil => intro h hf _; exact hf
  | cons k l ih =>
    intro h hf hc
    obtain ⟨h1, h2⟩ := hf
    refine ⟨h1, ?_⟩
    rw [hc k (List.mem_cons_self ..)]
    exact ih h2 fun i hi => hc i (List.mem_cons_of_mem _ hi)

/-- What `addVertex` does on a good table: the newest vertex that can be welded, or a new one at the end. -/
theorem addVertex_cases {s : Weld} (h : s.Ok) (x y z : BitVec 16) (hn : s.nv < 65536) :
    (addVertex s x y z).2.Ok ∧
    ((∃ i < s.nv, weldable (s.verts i) x y z = true ∧ (∀ j < s.nv, weldable (s.verts j) x y z = true → j ≤ i) ∧
        addVertex s x y z = (i, s)) ∨
     ((∀ j < s.nv, weldable (s.verts j) x y z = false) ∧ (addVertex s x y z).1 = s.nv ∧
        (addVertex s x y z).2.nv = s.nv + 1 ∧ (addVertex s x y z).2.verts = upd s.verts s.nv ⟨x, y, z⟩)) := by
  obtain ⟨l, hl, hp, hm⟩ := h.chain (vertexHash x z)
  have hlen : l.length ≤ s.nv := nodup_bound hp fun i hi => ((hm i).1 hi).1
  have hf := find_spec s x y z l (s.firstV (vertexHash x z)) (s.nv + 1) hl (by omega)
  cases hr : l.find? (fun i => weldable (s.verts i) x y z) with
  | some i =>
    have hw : weldable (s.verts i) x y z = true := by simpa using List.find?_some hr
    have hi : i < s.nv := ((hm i).1 (List.mem_of_find?_eq_some hr)).1
    have he : addVertex s x y z = (i, s) := by
      unfold addVertex
      dsimp only
      rw [hf, hr]
      simp only [Prod.mk.injEq, and_true]
      exact Nat.mod_eq_of_lt (by omega)
    refine ⟨by rw [he]; exact h, Or.inl ⟨i, hi, hw, ?_, he⟩⟩
    intro j hj hwj
    have hjl : j ∈ l := (hm j).2 ⟨hj, weldable_hash hwj⟩
    -- the first of a decreasing list that passes is the greatest
    obtain ⟨-, as, bs, rfl, has⟩ := List.find?_eq_some_iff_append.1 hr
    rw [List.pairwise_append] at hp
    rcases List.mem_append.1 hjl with hj' | hj'
    · have := has j hj'
      simp [hwj] at this
    · rcases List.mem_cons.1 hj' with rfl | hj'
      · exact le_rfl
      · have := (List.pairwise_cons.1 hp.2.1).1 j hj'
        omega
  | none =>
    have hno : ∀ j < s.nv, weldable (s.verts j) x y z = false := by
      intro j hj
      by_contra hc
      have hc : weldable (s.verts j) x y z = true := by simpa using hc
      have hjl : j ∈ l := (hm j).2 ⟨hj, weldable_hash hc⟩
      have := List.find?_eq_none.1 hr j hjl
      exact this hc
    have he : addVertex s x y z = (s.nv, Weld.mk (upd s.verts s.nv ⟨x, y, z⟩)
        (upd s.firstV (vertexHash x z) (some s.nv)) (upd s.nextV s.nv (s.firstV (vertexHash x z))) (s.nv + 1)) := by
      unfold addVertex
      dsimp only
      rw [hf, hr]
      simp only [Prod.mk.injEq, and_true]
      exact Nat.mod_eq_of_lt hn
    refine ⟨?_, Or.inr ⟨hno, by rw [he], by rw [he], by rw [he]⟩⟩
    rw [he]
    constructor
    intro b
    dsimp only
    have hne : ∀ (l : List Nat), (∀ i ∈ l, i < s.nv) → ∀ i ∈ l, upd s.nextV s.nv (s.firstV (vertexHash x z)) i = s.nextV i := by
      intro l hl i hi
      have := hl i hi
      exact upd_ne _ _ (by omega)
    by_cases hb : b = vertexHash x z
    · subst hb
      refine ⟨s.nv :: l, ⟨by rw [upd_same], ?_⟩, ?_, ?_⟩
      · rw [upd_same]
        exact hl.congr (hne l fun i hi => ((hm i).1 hi).1)
      · rw [List.pairwise_cons]
        exact ⟨fun i hi => ((hm i).1 hi).1, hp⟩
      · intro i
        rw [List.mem_cons, hm]
        constructor
        · rintro (rfl | ⟨h1, h2⟩)
          · rw [upd_same]; exact ⟨by omega, rfl⟩
          · rw [upd_ne _ _ (by omega)]; exact ⟨by omega, h2⟩
        · rintro ⟨h1, h2⟩
          by_cases e : i = s.nv
          · exact Or.inl e
          · rw [upd_ne _ _ e] at h2; exact Or.inr ⟨by omega, h2⟩
    · obtain ⟨l', hl', hp', hm'⟩ := h.chain b
      refine ⟨l', ?_, hp', ?_⟩
      · rw [upd_ne _ _ hb]
        exact hl'.congr (hne l' fun i hi => ((hm' i).1 hi).1)
      · intro i
        rw [hm']
        constructor
        · rintro ⟨h1, h2⟩
          rw [upd_ne _ _ (by omega)]; exact ⟨by omega, h2⟩
        · rintro ⟨h1, h2⟩
          by_cases e : i = s.nv
          · subst e
            rw [upd_same] at h2
            exact absurd h2.symm hb
          · rw [upd_ne _ _ e] at h2; exact ⟨by omega, h2⟩

theorem wlist_get {s : Weld} {i : Nat} (h : i < s.nv) : s.list[i]? = some (s.verts i) := by
  simp [Weld.list, h]

theorem wlist_length (s : Weld) : s.list.length = s.nv := by simp [Weld.list]

theorem wlist_append {s s' : Weld} {v : MV} (h1 : s'.nv = s.nv + 1) (h2 : s'.verts = upd s.verts s.nv v) : s'.list = s.list ++ [v] := by
  unfold Weld.list
  rw [h1, h2, List.range_succ, List.map_append, List.map_singleton, upd_same]
  congr 1
  apply List.map_congr_left
  intro i hi
  have := List.mem_range.1 hi
  exact upd_ne _ _ (by omega)

/-- Spec: the earlier vertex `v` has the same x and z and a height of 0 to 2 above `y`, counted modulo 65536. -/
def SameOrUpTo2 (v w : MV) : Prop := v.x = w.x ∧ v.z = w.z ∧ (v.y.toNat + (65536 - w.y.toNat)) % 65536 ≤ 2

theorem SameOrUpTo2.refl (w : MV) : SameOrUpTo2 w w := by
  have := w.y.isLt
  exact ⟨rfl, rfl, by omega⟩

theorem weldable_iff (v : MV) (x y z : BitVec 16) : weldable v x y z = true ↔ SameOrUpTo2 v ⟨x, y, z⟩ := by
  unfold weldable SameOrUpTo2
  simp only [Bool.and_eq_true, decide_eq_true_eq, BitVec.toNat_sub]
  have := y.isLt
  have e : (2 ^ 16 - y.toNat + v.y.toNat) = (v.y.toNat + (65536 - y.toNat)) := by omega
  rw [e]
  tauto

/-- **C55**: what `addVertex` does to the table of vertices, seen as a list: if some vertex has the same x and z
and a height 0 to 2 above the new one's (modulo 65536), the newest such is returned and the table stays; else
the vertex is appended and its index returned. The buckets stay in order. -/
theorem addVertex_spec {s : Weld} (h : s.Ok) (w : MV) (hn : s.nv < 65536) :
    (addVertex s w.x w.y w.z).2.Ok ∧
    ((∃ (i : Nat) (v : MV), s.list[i]? = some v ∧ SameOrUpTo2 v w ∧ (∀ (j : Nat) (v' : MV), s.list[j]? = some v' → SameOrUpTo2 v' w → j ≤ i) ∧
        (addVertex s w.x w.y w.z).1 = i ∧ (addVertex s w.x w.y w.z).2.list = s.list) ∨
     ((∀ v ∈ s.list, ¬ SameOrUpTo2 v w) ∧ (addVertex s w.x w.y w.z).1 = s.list.length ∧
        (addVertex s w.x w.y w.z).2.list = s.list ++ [w])) := by
  obtain ⟨hok, hc⟩ := addVertex_cases h w.x w.y w.z hn
  refine ⟨hok, ?_⟩
  rcases hc with ⟨i, hi, hw, hmax, he⟩ | ⟨hno, h1, h2, h3⟩
  · refine Or.inl ⟨i, s.verts i, wlist_get hi, (weldable_iff ..).1 hw, ?_, by rw [he], by rw [he]⟩
    intro j v' hj hv'
    have hjl : j < s.nv := by
      by_contra hcon
      rw [List.getElem?_eq_none (by rw [wlist_length]; omega)] at hj
      cases hj
    rw [wlist_get hjl] at hj
    cases hj
    exact hmax j hjl ((weldable_iff ..).2 hv')
  · refine Or.inr ⟨?_, by rw [h1, wlist_length], wlist_append h2 h3⟩
    intro v hv hs
    simp only [Weld.list, List.mem_map, List.mem_range] at hv
    obtain ⟨j, hj, rfl⟩ := hv
    have := (weldable_iff (s.verts j) w.x w.y w.z).2 hs
    rw [hno j hj] at this
    cases this

/-- **C55**: the table only grows, by at most one vertex per call; the returned index is valid in the new
table, and the vertex there has the x and z asked for and its height or up to 2 more (modulo 65536). -/
theorem addVertex_index {s : Weld} (h : s.Ok) (w : MV) (hn : s.nv < 65536) :
    s.list <+: (addVertex s w.x w.y w.z).2.list ∧ (addVertex s w.x w.y w.z).2.nv ≤ s.nv + 1 ∧
    ∃ v, (addVertex s w.x w.y w.z).2.list[(addVertex s w.x w.y w.z).1]? = some v ∧ SameOrUpTo2 v w := by
  rcases (addVertex_spec h w hn).2 with ⟨i, v, h1, h2, -, h3, h4⟩ | ⟨-, h3, h4⟩
  · refine ⟨by rw [h4], ?_, v, by rw [h3, h4]; exact h1, h2⟩
    have := congrArg List.length h4
    rw [wlist_length, wlist_length] at this
    omega
  · refine ⟨by rw [h4]; exact List.prefix_append _ _, ?_, w, by rw [h3, h4]; simp, SameOrUpTo2.refl w⟩
    have := congrArg List.length h4
    rw [wlist_length, List.length_append, wlist_length] at this
    simp at this
    omega

/-- **C55**: over any sequence of vertices, fewer than 65536 in all: there is one index per vertex, it is valid in
the final table and the vertex there has the x and z asked for and its height or up to 2 more (modulo 65536); the table grows by at most the number of
vertices, so it never outgrows the `maxVertices` allocated for it. -/
theorem addVertices_length (l : List MV) : ∀ {s : Weld}, s.Ok → s.nv + l.length < 65536 →
    (addVertices s l).2.Ok ∧ (addVertices s l).1.length = l.length ∧ s.list <+: (addVertices s l).2.list ∧
      (addVertices s l).2.nv ≤ s.nv + l.length ∧
      ∀ (k : Nat) (w : MV), l[k]? = some w → ∃ (i : Nat) (v : MV), (addVertices s l).1[k]? = some i ∧ (addVertices s l).2.list[i]? = some v ∧ SameOrUpTo2 v w := by
  induction l with
  | nil => intro s h _; exact ⟨h, rfl, List.prefix_refl _, by simp [addVertices], by simp⟩
  | cons w l ih =>
    intro s h hn
    simp only [List.length_cons] at hn
    obtain ⟨h1, h2, v, h3, h4⟩ := addVertex_index h w (by omega)
    have hok := (addVertex_spec h w (by omega)).1
    obtain ⟨g1, g2, g3, g4, g5⟩ := ih hok (by omega)
    rw [addVertices]
    dsimp only
    refine ⟨g1, by simp [g2], h1.trans g3, by simp only [List.length_cons]; omega, ?_⟩
    intro k w' hk
    cases k with
    | zero =>
      simp only [List.getElem?_cons_zero, Option.some.injEq] at hk
      subst hk
      refine ⟨(addVertex s w.x w.y w.z).1, v, rfl, ?_, h4⟩
      obtain ⟨t, ht⟩ := g3
      rw [← ht, List.getElem?_append_left]
      · exact h3
      · by_contra hcon
        rw [List.getElem?_eq_none (by omega)] at h3
        cases h3
    | succ k =>
      rw [List.getElem?_cons_succ] at hk
      obtain ⟨i, v', e1, e2⟩ := g5 k w' hk
      exact ⟨i, v', by simpa using e1, e2⟩

/-- **C55** (what "nearly the same height" comes to, away from the ends of the height range): an earlier vertex
is reused iff it has the same x and z and is 0, 1 or 2 units higher. -/
theorem weld_partial (v w : MV) (hv : v.y.toNat ≤ 65533) (hw : w.y.toNat ≤ 65533) :
    SameOrUpTo2 v w ↔ v.x = w.x ∧ v.z = w.z ∧ w.y.toNat ≤ v.y.toNat ∧ v.y.toNat ≤ w.y.toNat + 2 := by
  unfold SameOrUpTo2
  have : (v.y.toNat + (65536 - w.y.toNat)) % 65536 ≤ 2 ↔ w.y.toNat ≤ v.y.toNat ∧ v.y.toNat ≤ w.y.toNat + 2 := by omega
  rw [this]

/-- **C55** (refuted): the height test subtracts `uint16`s, so a vertex one unit below the new one is not reused;
the order in which contours are handled decides whether they are joined. -/
theorem weld_below_refuted : ∃ v w : MV, v.x = w.x ∧ v.z = w.z ∧ w.y.toNat = v.y.toNat + 1 ∧
    (addVertices Weld.empty [v, w]).1 = [0, 1] ∧ (addVertices Weld.empty [w, v]).1 = [0, 0] :=
  ⟨⟨5, 10, 7⟩, ⟨5, 11, 7⟩, rfl, rfl, rfl, by decide +kernel, by decide +kernel⟩

/-- **C55** (refuted): heights at opposite ends of the range count as near. -/
theorem weld_wrap_refuted : ∃ v w : MV, v.y.toNat = 1 ∧ w.y.toNat = 65535 ∧ (addVertices Weld.empty [v, w]).1 = [0, 0] :=
  ⟨⟨5, 1, 7⟩, ⟨5, 65535, 7⟩, rfl, rfl, by decide +kernel⟩

example : (addVertices Weld.empty [⟨1, 9, 1⟩, ⟨2, 9, 1⟩, ⟨1, 8, 1⟩, ⟨1, 4, 1⟩]).1 = [0, 1, 0, 2] := by decide +kernel

end Verif.Recast
