/-
The size of a tile's link table (`maxLinkCount`, detour/navmeshcreate.go:639-666) against the links its polygons get
(detour/mesh.go:569-610, 781-851, 1139-1221, 1254-1319).
-/
import Verif.Detour.CreateData
import Verif.Detour.LinkComplete

namespace Verif.Detour

/-! ## Specification -/

/-- Spec: the link lists of a tile in which nothing is ever dropped. -/
def idealLink (c : Nat → List LinkInfo) : LOp → Nat → List LinkInfo
  | .push p l => upd c p (l :: c p)
  | .cut hit => fun p => (c p).filter fun l => !hit l

/-- Spec: the link belongs to an edge of a ground polygon that has a neighbour. The others come from off-mesh connections. -/
def onEdge (P : Poly) (l : LinkInfo) : Bool :=
  decide (polyType P.areaAndType ≠ 1#8) && decide (l.edge.toNat < P.vertCount.toNat) && (P.neis[l.edge.toNat]?.getD 0#16 != 0#16)

/-- Spec: links that edge `j` has. -/
def edgeCount (c : List LinkInfo) (j : Nat) : Nat := (c.filter fun l => decide (l.edge.toNat = j)).length

/-- Spec: at most one link per internal edge, three per portal edge, and `K` links of off-mesh connections. -/
structure Demand (ps : List Poly) (K : Nat) (c : Nat → List LinkInfo) : Prop where
  inner : ∀ (q : Nat) (P : Poly) (j : Nat) (ne : U16), ps[q]? = some P → j < P.vertCount.toNat → P.neis[j]? = some ne → ne ≠ 0#16 →
    ne.toNat < 0x8000 → polyType P.areaAndType ≠ 1#8 → edgeCount (c q) j ≤ 1
  portal : ∀ (q : Nat) (P : Poly) (j : Nat) (ne : U16), ps[q]? = some P → j < P.vertCount.toNat → P.neis[j]? = some ne →
    0x8000 ≤ ne.toNat → polyType P.areaAndType ≠ 1#8 → edgeCount (c q) j ≤ 3
  rest : (ps.zipIdx.map fun x => ((c x.2).filter fun l => !onEdge x.1 l).length).sum ≤ K

/-! ## Counting -/

/-- Links to be expected at an edge. -/
def cap (ne : U16) : Nat := if ne = 0#16 then 0 else if ne.toNat < 0x8000 then 1 else 3

/-- Links to be expected at the edges of a polygon. -/
def edgeCost (P : Poly) : Nat := if polyType P.areaAndType = 1#8 then 0 else ((P.neis.take P.vertCount.toNat).map cap).sum

theorem filter_or_le {α : Type} (p q r : α → Bool) (h : ∀ x, p x = true → q x = true ∨ r x = true) (l : List α) :
    (l.filter p).length ≤ (l.filter q).length + (l.filter r).length := by
  induction l with
  | nil => simp
  | cons x l ih =>
    simp only [List.filter_cons]
    have := h x
    cases hp : p x <;> cases hq : q x <;> cases hr : r x <;> simp_all <;> omega

theorem filter_split {α : Type} (p : α → Bool) (l : List α) : l.length = (l.filter p).length + (l.filter fun x => !p x).length := by
  induction l with
  | nil => rfl
  | cons x l ih =>
    simp only [List.filter_cons]
    cases p x <;> simp <;> omega

theorem edge_links_le (neis : List U16) (c : List LinkInfo) : ∀ k, k ≤ neis.length →
    (∀ j ne, j < k → neis[j]? = some ne → ne ≠ 0#16 → edgeCount c j ≤ cap ne) →
    (c.filter fun l => decide (l.edge.toNat < k) && (neis[l.edge.toNat]?.getD 0#16 != 0#16)).length ≤ ((neis.take k).map cap).sum
  | 0, _, _ => by simp
  | k + 1, hk, hc => by
    have ih := edge_links_le neis c k (by omega) fun j ne hj => hc j ne (by omega)
    have hne : neis[k]? = some neis[k] := List.getElem?_eq_getElem (by omega)
    have hlast : (c.filter fun l => decide (l.edge.toNat = k) && (neis[l.edge.toNat]?.getD 0#16 != 0#16)).length ≤ cap neis[k] := by
      by_cases h0 : neis[k] = 0#16
      · rw [List.filter_eq_nil_iff.2]
        · simp
        · intro l _
          simp only [Bool.and_eq_true, decide_eq_true_eq, not_and]
          intro hl
          rw [hl, hne]
          simp [h0]
      · refine le_trans ?_ (hc k neis[k] (by omega) hne h0)
        unfold edgeCount
        refine le_trans (filter_or_le _ (fun l => decide (l.edge.toNat = k)) (fun _ => false) ?_ c) (by simp)
        intro x hx
        simp only [Bool.and_eq_true] at hx
        exact .inl hx.1
    rw [List.take_add_one, hne]
    simp only [Option.toList_some, List.map_append, List.sum_append, List.map_cons, List.map_nil, List.sum_cons, List.sum_nil]
    refine le_trans (filter_or_le _ (fun l => decide (l.edge.toNat < k) && (neis[l.edge.toNat]?.getD 0#16 != 0#16))
      (fun l => decide (l.edge.toNat = k) && (neis[l.edge.toNat]?.getD 0#16 != 0#16)) ?_ c) (by omega)
    intro x hx
    simp only [Bool.and_eq_true, decide_eq_true_eq] at hx ⊢
    rcases Nat.lt_or_ge x.edge.toNat k with h | h
    · exact .inl ⟨h, hx.2⟩
    · exact .inr ⟨by omega, hx.2⟩

theorem poly_links_le {P : Poly} {c : List LinkInfo} (hv : P.vertCount.toNat ≤ P.neis.length)
    (hc : ∀ j ne, j < P.vertCount.toNat → P.neis[j]? = some ne → ne ≠ 0#16 → polyType P.areaAndType ≠ 1#8 → edgeCount c j ≤ cap ne) :
    c.length ≤ edgeCost P + (c.filter fun l => !onEdge P l).length := by
  rw [filter_split (onEdge P) c]
  apply Nat.add_le_add_right
  unfold edgeCost onEdge
  by_cases ht : polyType P.areaAndType = 1#8
  · rw [if_pos ht, List.filter_eq_nil_iff.2]
    · simp
    · simp [ht]
  · rw [if_neg ht]
    refine le_trans (le_of_eq ?_) (edge_links_le P.neis c _ hv fun j ne h1 h2 h3 => hc j ne h1 h2 h3 ht)
    congr 1
    apply List.filter_congr
    intro x _
    simp [ht]

theorem sum_map_add' {α : Type} (l : List α) (f g : α → Nat) : (l.map fun x => f x + g x).sum = (l.map f).sum + (l.map g).sum := by
  induction l with
  | nil => rfl
  | cons x l ih => simp only [List.map_cons, List.sum_cons, ih]; omega

theorem sum_map_le' {α : Type} (l : List α) {f g : α → Nat} (h : ∀ x ∈ l, f x ≤ g x) : (l.map f).sum ≤ (l.map g).sum := by
  induction l with
  | nil => simp
  | cons x l ih =>
    simp only [List.map_cons, List.sum_cons]
    exact Nat.add_le_add (h x (by simp)) (ih fun y hy => h y (by simp [hy]))

theorem used_zipIdx (ps : List Poly) (c : Nat → List LinkInfo) : used ps.length c = (ps.zipIdx.map fun x => (c x.2).length).sum := by
  unfold used
  have : (ps.zipIdx.map fun x => (c x.2).length) = (ps.zipIdx.map Prod.snd).map fun i => (c i).length := by
    rw [List.map_map]; rfl
  rw [this, List.zipIdx_map_snd, ← List.range_eq_range']

/-- Demand is met by as many slots as the edges cost and the connections need. -/
theorem demand_used {ps : List Poly} {K : Nat} {c : Nat → List LinkInfo} (hv : ∀ P ∈ ps, P.vertCount.toNat ≤ P.neis.length)
    (h : Demand ps K c) : used ps.length c ≤ (ps.map edgeCost).sum + K := by
  rw [used_zipIdx]
  have h1 : (ps.zipIdx.map fun x => (c x.2).length).sum ≤
      (ps.zipIdx.map fun x => edgeCost x.1 + ((c x.2).filter fun l => !onEdge x.1 l).length).sum := by
    apply sum_map_le'
    rintro ⟨P, q⟩ hx
    have hq : ps[q]? = some P := List.mem_zipIdx_iff_getElem?.1 hx
    apply poly_links_le (hv P (List.mem_of_getElem? hq))
    intro j ne h1 h2 h3 h4
    unfold cap
    rw [if_neg h3]
    split
    · exact h.inner q P j ne hq h1 h2 h3 (by assumption) h4
    · exact h.portal q P j ne hq h1 h2 (by omega) h4
  rw [sum_map_add'] at h1
  have h2 : (ps.zipIdx.map fun x => edgeCost x.1).sum = (ps.map edgeCost).sum := by
    have : (ps.zipIdx.map fun x => edgeCost x.1) = (ps.zipIdx.map Prod.fst).map edgeCost := by
      rw [List.map_map]; rfl
    rw [this, List.zipIdx_map_fst]
  have h3 := h.rest
  omega

/-! ## Created tiles -/

/-- Spec: input of the shape `CreateNavMeshData` expects: rows of at most six entries, at least one vertex per polygon, and no neighbour
number 0x7fff (stored plus one, it would look like a portal). -/
structure RowsOK (p : CreateParams) : Prop where
  nvp : p.nvp ≤ 6
  rows : ∀ q ∈ p.polys, q.verts.length = p.nvp ∧ q.neis.length = p.nvp
  used : ∀ q ∈ p.polys, usedVerts q.verts ≠ []
  neis : ∀ q ∈ p.polys, ∀ n ∈ q.neis, n ≠ 0x7fff#16
  some : p.polys ≠ []

/-- The polygons of the tile. -/
def createdPolys (p : CreateParams) : List Poly :=
  p.polys.map groundPoly ++ (storedCons p).zipIdx.map fun c => conPoly p.verts.length c.2 c.1

theorem createdPolys_eq {p : CreateParams} {h : MeshHeader} {t : TileBody} (ht : createTile p = some (h, t)) : t.polys = createdPolys p := by
  unfold createTile at ht
  obtain ⟨d, _, ht⟩ := Option.bind_eq_some_iff.1 ht
  obtain ⟨bv, _, ht⟩ := Option.bind_eq_some_iff.1 ht
  cases ht
  rfl

theorem createdLinks_eq {p : CreateParams} {h : MeshHeader} {t : TileBody} (ht : createTile p = some (h, t)) :
    h.maxLinkCount = BitVec.ofNat 32 (createLinks p) := by
  unfold createTile at ht
  obtain ⟨d, _, ht⟩ := Option.bind_eq_some_iff.1 ht
  obtain ⟨bv, _, ht⟩ := Option.bind_eq_some_iff.1 ht
  cases ht
  rfl

theorem conPoly_type (b n : Nat) (c : CreateCon) : polyType (conPoly b n c).areaAndType = 1#8 := (polyType_set c.area 1#8 (by decide)).1

theorem groundPoly_type (q : CreatePoly) : polyType (groundPoly q).areaAndType = 0#8 := (polyType_set q.area 0#8 (by decide)).1

theorem cap_stored (n : U16) (h : n ≠ 0x7fff#16) : cap (storedNei n) ≤ 1 + 2 * (if countsPortal n then 1 else 0) := by
  have hm := storedNei_means n
  unfold storedNei countsPortal
  by_cases hb : ((n &&& 0x8000#16) != 0#16) = true
  · rw [if_pos hb, hb]
    by_cases hf : n &&& 0xf#16 = 0xf#16
    · rw [if_pos hf]; simp [cap]
    · rw [if_neg hf]
      have : ((n &&& 0xf#16) != 0xf#16) = true := by simp [hf]
      rw [this]
      have hc : ∀ x : U16, cap x ≤ 3 := by intro x; unfold cap; split; omega; split <;> omega
      exact le_trans (hc _) (by simp)
  · rw [if_neg hb]
    have hlt : n.toNat < 0x8000 := by
      rw [high_bit] at hb
      simpa using hb
    have hne : n.toNat ≠ 0x7fff := fun h' => h (BitVec.eq_of_toNat_eq (by simpa using h'))
    have : (n + 1#16).toNat < 0x8000 := by
      rw [BitVec.toNat_add]
      have : (1#16 : U16).toNat = 1 := by decide
      omega
    unfold cap
    split
    · exact Nat.zero_le _
    · exact Nat.le_add_right _ _

theorem sum_cap_stored (l : List U16) (h : ∀ n ∈ l, n ≠ 0x7fff#16) :
    ((l.map storedNei).map cap).sum ≤ l.length + 2 * (l.filter countsPortal).length := by
  induction l with
  | nil => simp
  | cons n l ih =>
    have h1 := cap_stored n (h n (by simp))
    have h2 := ih fun m hm => h m (by simp [hm])
    simp only [List.map_cons, List.sum_cons, List.length_cons, List.filter_cons]
    split at h1
    · rename_i hc
      rw [if_pos hc, List.length_cons]; omega
    · rename_i hc
      rw [if_neg hc]; omega

theorem ground_used {p : CreateParams} (hp : RowsOK p) {q : CreatePoly} (hq : q ∈ p.polys) :
    (groundPoly q).vertCount.toNat = (usedVerts q.verts).length ∧ (usedVerts q.verts).length ≤ 6 ∧ (groundPoly q).neis.length = 6 ∧
    (q.neis.take (usedVerts q.verts).length).length = (usedVerts q.verts).length := by
  have h1 := usedVerts_length q.verts
  obtain ⟨h2, h3⟩ := hp.rows q hq
  have h4 := hp.nvp
  refine ⟨?_, by omega, ?_, ?_⟩
  · show (BitVec.ofNat 8 (usedVerts q.verts).length).toNat = _
    rw [BitVec.toNat_ofNat]
    exact Nat.mod_eq_of_lt (by omega)
  · exact pad6_length (by rw [List.length_map, List.length_take]; omega)
  · rw [List.length_take]; omega

theorem ground_cost {p : CreateParams} (hp : RowsOK p) {q : CreatePoly} (hq : q ∈ p.polys) :
    edgeCost (groundPoly q) ≤ (usedVerts q.verts).length + 2 * ((q.neis.take (usedVerts q.verts).length).filter countsPortal).length := by
  obtain ⟨h1, h2, h3, h4⟩ := ground_used hp hq
  unfold edgeCost
  rw [if_neg (by rw [groundPoly_type]; decide), h1]
  have : (groundPoly q).neis.take (usedVerts q.verts).length = (q.neis.take (usedVerts q.verts).length).map storedNei := by
    show (pad6 _).take _ = _
    unfold pad6
    rw [List.take_append_of_le_length (by rw [List.length_map]; omega), List.take_of_length_le (by rw [List.length_map]; omega)]
  rw [this]
  refine le_trans (sum_cap_stored _ fun n hn => hp.neis q hq n (List.mem_of_mem_take hn)) ?_
  omega

/-- The edges of a created tile cost no more than is reserved for them. -/
theorem created_cost {p : CreateParams} (hp : RowsOK p) : ((createdPolys p).map edgeCost).sum + 2 * conLinks p ≤ createLinks p := by
  unfold createdPolys createLinks
  rw [List.map_append, List.sum_append, List.map_map, List.map_map]
  have h1 : ((storedCons p).zipIdx.map (edgeCost ∘ fun c => conPoly p.verts.length c.2 c.1)).sum = 0 := by
    have : ∀ l : List (CreateCon × Nat), (l.map (edgeCost ∘ fun c => conPoly p.verts.length c.2 c.1)).sum = 0 := by
      intro l
      induction l with
      | nil => rfl
      | cons c l ih =>
        rw [List.map_cons, List.sum_cons, ih]
        exact if_pos (conPoly_type _ _ _)
    exact this _
  have h2 : (p.polys.map (edgeCost ∘ groundPoly)).sum ≤
      (p.polys.map fun q => (usedVerts q.verts).length + 2 * ((q.neis.take (usedVerts q.verts).length).filter countsPortal).length).sum :=
    sum_map_le' _ fun q hq => ground_cost hp hq
  rw [sum_map_add'] at h2
  have h3 : ∀ (l : List CreatePoly) (f : CreatePoly → Nat), (l.map fun q => 2 * f q).sum = (l.map f).sum * 2 := by
    intro l f
    induction l with
    | nil => rfl
    | cons x l ih => simp only [List.map_cons, List.sum_cons, ih]; omega
  rw [h3] at h2
  omega

theorem created_edges {p : CreateParams} (hp : RowsOK p) : ∀ P ∈ createdPolys p, EdgesOK P ∧ P.vertCount.toNat ≤ P.neis.length := by
  intro P hP
  unfold createdPolys at hP
  rcases List.mem_append.1 hP with h | h
  · obtain ⟨q, hq, rfl⟩ := List.mem_map.1 h
    obtain ⟨h1, h2, h3, h4⟩ := ground_used hp hq
    have h5 := List.length_pos_iff.2 (hp.used q hq)
    exact ⟨⟨h3, .inr (by omega)⟩, by omega⟩
  · obtain ⟨c, _, rfl⟩ := List.mem_map.1 h
    exact ⟨⟨rfl, .inl (conPoly_type _ _ _)⟩, by show 2 ≤ 6; omega⟩

theorem internal_cost (base : U32) (P : Poly) (hv : P.vertCount.toNat ≤ P.neis.length) : (internalLinks base P).length ≤ edgeCost P := by
  unfold internalLinks edgeCost
  split
  · simp
  · have : ∀ k, k ≤ P.neis.length → (intLinksOf base P k).length ≤ ((P.neis.take k).map cap).sum := by
      intro k
      induction k with
      | zero => intro _; simp [intLinksOf]
      | succ k ih =>
        intro hk
        have := ih (by omega)
        have hne : P.neis[k]? = some P.neis[k] := List.getElem?_eq_getElem (by omega)
        rw [intLinksOf_succ, List.take_add_one, hne]
        simp only [Option.bind_some, Option.toList_some, List.length_append, List.map_append, List.sum_append, List.map_cons, List.map_nil,
          List.sum_cons, List.sum_nil]
        split
        · rename_i hi
          have : 1 ≤ cap P.neis[k] := by
            unfold cap
            rw [if_neg hi.1]
            split <;> omega
          simp only [Option.toList_some, List.length_singleton]
          omega
        · simp only [Option.toList_none, List.length_nil]
          omega
    exact this _ hv

theorem created_pos {p : CreateParams} (hp : RowsOK p) : 0 < createLinks p := by
  unfold createLinks
  obtain ⟨q, l, hl⟩ := List.exists_cons_of_ne_nil hp.some
  have := List.length_pos_iff.2 (hp.used q (by simp [hl]))
  rw [hl]
  simp only [List.map_cons, List.sum_cons]
  omega

/-- **C107** (internal links): the link table of a created tile has room for all internal links: after `connectIntLinks` every polygon has
exactly one link per internal edge. -/
theorem created_internal {p : CreateParams} (hp : RowsOK p) (base : U32) (info : Nat → LinkInfo) (first : Nat → Option Nat) :
    ∃ t, connectInt base (createdPolys p) 0 (.fresh (createLinks p) info first) = some t ∧
      ∀ i P, (createdPolys p)[i]? = some P → t.links i = some (internalLinks base P) := by
  refine internal_links _ (created_pos hp) info first base _ (fun P hP => (created_edges hp P hP).1) ?_
  refine le_trans (sum_map_le' _ fun P hP => internal_cost base P (created_edges hp P hP).2) ?_
  have := created_cost hp
  omega

/-- The links of a created tile before any other tile is there. -/
def startLinks (base : U32) (p : CreateParams) (q : Nat) : List LinkInfo :=
  match (createdPolys p)[q]? with
  | none => []
  | some P => internalLinks base P

theorem run_ideal {ps : List Poly} {K n : Nat} (hv : ∀ P ∈ ps, P.vertCount.toNat ≤ P.neis.length) (hn : (ps.map edgeCost).sum + K ≤ n) :
    ∀ (ops : List LOp) {t : LTile} {c : Nat → List LinkInfo}, Holds t ps.length n c → (∀ p l, .push p l ∈ ops → p < ps.length) →
    (∀ pre, pre <+: ops → Demand ps K (pre.foldl idealLink c)) →
    ∃ t', LTile.run ps.length ops t = some t' ∧ Holds t' ps.length n (ops.foldl idealLink c)
  | [], t, c, h, _, _ => ⟨t, rfl, h⟩
  | op :: ops, t, c, h, hops, hd => by
    have h1 : ∃ t1, t.step ps.length op = some t1 ∧ Holds t1 ps.length n (idealLink c op) := by
      cases op with
      | push p l =>
        have hp := hops p l (by simp)
        obtain ⟨t1, e1, h1⟩ := h.push hp l
        refine ⟨t1, e1, ?_⟩
        have hd1 := demand_used hv (hd [.push p l] ⟨ops, rfl⟩)
        have hu := used_upd ps.length c p hp (l :: c p)
        simp only [List.length_cons] at hu
        simp only [List.foldl_cons, List.foldl_nil, idealLink] at hd1
        simp only [specLink] at h1
        rw [if_pos (by omega)] at h1
        exact h1
      | cut hit =>
        obtain ⟨t1, e1, h1⟩ := h.cut hit
        exact ⟨t1, e1, h1⟩
    obtain ⟨t1, e1, h1⟩ := h1
    obtain ⟨t2, e2, h2⟩ := run_ideal hv hn ops h1 (fun p l hm => hops p l (by simp [hm])) fun pre hpre => by
      obtain ⟨rest, rfl⟩ := hpre
      exact hd (op :: pre) ⟨rest, rfl⟩
    exact ⟨t2, by rw [LTile.run, e1]; exact e2, h2⟩

/-- The end points of off-mesh connections that lie in the tile. -/
def conEnds (p : CreateParams) : Nat :=
  p.cons.countP (fun c => c.startClass = 0xff#8) + p.cons.countP fun c => c.endClass = 0xff#8

theorem conEnds_eq (p : CreateParams) : conLinks p = conEnds p := by
  unfold conLinks conEnds
  induction p.cons with
  | nil => rfl
  | cons c cs ih =>
    rw [List.map_cons, List.sum_cons, ih, List.countP_cons, List.countP_cons]
    simp only [beq_iff_eq, decide_eq_true_eq]
    omega

/-- **C107** (`_partial`): take a created tile and any further sequence of link creations and removals. As long as no portal edge has more
than three links at a time, and the off-mesh connections no more than two per end point in the tile, no link is dropped: every polygon has
all the links created and not removed. Missing: a portal edge may get four links (`link_room_refuted`) and a connection that leaves the tile
three (`con_room_refuted`). -/
theorem link_room_partial {p : CreateParams} (hp : RowsOK p) (base : U32) (info : Nat → LinkInfo) (first : Nat → Option Nat)
    (ops : List LOp) (hops : ∀ q l, .push q l ∈ ops → q < (createdPolys p).length)
    (hd : ∀ pre, pre <+: ops → Demand (createdPolys p) (2 * conEnds p) (pre.foldl idealLink (startLinks base p))) :
    ∃ t0 t, connectInt base (createdPolys p) 0 (.fresh (createLinks p) info first) = some t0 ∧
      LTile.run (createdPolys p).length ops t0 = some t ∧
      ∀ q, q < (createdPolys p).length → t.links q = some (ops.foldl idealLink (startLinks base p) q) := by
  have hv := fun P hP => (created_edges hp P hP).2
  have hcost := created_cost hp
  rw [conEnds_eq] at hcost
  obtain ⟨t0, e0, h0⟩ := connectInt_holds base (createdPolys p) (fun P hP => (created_edges hp P hP).1)
    (fresh_holds (createLinks p) (created_pos hp) info first fun _ => []) (by
      have := sum_map_le' (createdPolys p) fun P hP => internal_cost base P (hv P hP)
      simp only [used, List.range_zero, List.map_nil, List.sum_nil]
      omega)
  rw [Nat.zero_add] at h0
  have h0' : Holds t0 (createdPolys p).length (createLinks p) (startLinks base p) := by
    refine h0.congr fun q hq => ?_
    rw [if_neg (by omega), Nat.sub_zero]
    rfl
  obtain ⟨t, e, h⟩ := run_ideal hv hcost ops h0' hops hd
  exact ⟨t0, t, e0, e, fun q hq => h.links hq⟩

/-! ## Witnesses -/

/-- A tile at (1, 1) that is one square, open on all four sides. -/
def squareParams : CreateParams :=
  { nvp := 4
    verts := [(0, 0, 0), (0, 0, 4), (4, 0, 4), (4, 0, 0)]
    polys := [⟨[0, 1, 2, 3], [0x8000, 0x8001, 0x8002, 0x8003], 1, 63⟩]
    details := some [⟨0, 4, 0, 2⟩]
    detailVerts := List.replicate 4 (7, 7, 7)
    detailTris := [(0, 1, 2, 0), (0, 2, 3, 0)]
    cons := []
    buildBv := true
    world := fun v => (v.1.setWidth 32, v.2.1.setWidth 32, v.2.2.setWidth 32)
    boxes := [⟨0, 0, 0, 4, 4, 4⟩]
    srt := fun _ l => l
    hdr := { exampleHeader with x := 1, y := 1, layer := 0 } }

theorem square_rows : RowsOK squareParams := by
  have h : ∀ q ∈ squareParams.polys, q = ⟨[0, 1, 2, 3], [0x8000, 0x8001, 0x8002, 0x8003], 1, 63⟩ := fun q hq => List.mem_singleton.1 hq
  refine ⟨by show 4 ≤ 6; decide, fun q hq => ?_, fun q hq => ?_, fun q hq => ?_, by simp [squareParams]⟩ <;> rw [h q hq]
  · exact ⟨rfl, rfl⟩
  · exact (by decide : usedVerts [0, 1, 2, 3] ≠ [])
  · intro n hn
    simp only [List.mem_cons, List.not_mem_nil, or_false] at hn
    rcases hn with rfl | rfl | rfl | rfl <;> decide

/-- A tile at `(x, y)` with four triangles, each with a portal edge of the given kind, and four links. -/
def fourData (x y : U32) (n : U16) : Bytes :=
  (⟨navMeshMagic, navMeshVersion, x, y, 0, 0, 4, 0, 4, 0, 0, 0, 0, 0, 0, 0, 0, 0, 0, 0, 0, 0, 0, 0, 0⟩ : MeshHeader).words.flatMap le32 ++
    (List.replicate 4 (edgePoly n 0)).flatMap encPoly ++ zeros 48

def squareData : Bytes := match createNavMeshData squareParams with | .ok d => d | _ => []

/-- Tiles on all four sides of the square, then the square. -/
def squareOps : List LMOp :=
  [.add allTouch (fourData 2 1 0x8004) 0#32, .add allTouch (fourData 1 2 0x8006) 0#32, .add allTouch (fourData 0 1 0x8000) 0#32,
   .add allTouch (fourData 1 0 0x8002) 0#32, .add allTouch squareData 0#32]

set_option maxRecDepth 1000000 in
/-- **C107** refuted: the tile made by `CreateNavMeshData` from one square that is open on all four sides reserves twelve links. With four
polygons along each side, of which `findConnectingPolys` reports all four (detour/mesh.go:1279), sixteen are needed; the links to the tile
linked last are dropped. -/
theorem link_room_refuted : ∃ (p : CreateParams) (data : Bytes) (lk0 : Nat → LTile) (s : LMesh) (ls : List LinkInfo) (b k : Nat),
    RowsOK p ∧ createNavMeshData p = .ok data ∧ squareOps.getLast? = some (.add allTouch data 0#32) ∧
    Fresh ⟨0, 0, 0, 0, 0, 64#32, 16#32⟩ bigMesh ∧ LMesh.run squareOps ⟨bigMesh, lk0⟩ = .ok s ∧
    Touches allTouch s 4 0 3 b k (0, 255) ∧ (s.lk 4).links 0 = some ls ∧ ls.length = 12 ∧ ∀ l ∈ ls, l.ref ≠ polyRefOf s.mesh b k :=
  ⟨squareParams, squareData, fun _ => .fresh 0 (fun _ => ⟨0, 0, 0, 0, 0⟩) fun _ => none, _, _, 3, 0, square_rows, by decide +kernel, rfl,
    bigMesh_fresh, rfl, ⟨by show 0 < 4; decide, rfl, by decide⟩, rfl, rfl, by decide⟩

theorem square_polys : createdPolys squareParams = [groundPoly ⟨[0, 1, 2, 3], [0x8000, 0x8001, 0x8002, 0x8003], 1, 63⟩] := rfl

theorem square_demand {c : Nat → List LinkInfo} (h : (c 0).length ≤ 3) (he : ∀ l ∈ c 0, l.edge.toNat < 4) :
    Demand (createdPolys squareParams) (2 * conEnds squareParams) c := by
  rw [square_polys]
  have one : ∀ (q : Nat) (P : Poly), [groundPoly ⟨[0, 1, 2, 3], [0x8000, 0x8001, 0x8002, 0x8003], 1, 63⟩][q]? = some P →
      q = 0 ∧ P = groundPoly ⟨[0, 1, 2, 3], [0x8000, 0x8001, 0x8002, 0x8003], 1, 63⟩ := by
    intro q P hq
    cases q with
    | zero => exact ⟨rfl, (Option.some.inj hq).symm⟩
    | succ q => simp at hq
  refine ⟨fun q P j ne hq hj hn h0 hl _ => ?_, fun q P j ne hq hj hn h0 _ => ?_, ?_⟩
  · obtain ⟨rfl, rfl⟩ := one q P hq
    have hj' : j < 4 := hj
    have key : ∀ j : Fin 4, ∃ ne, (groundPoly ⟨[0, 1, 2, 3], [0x8000, 0x8001, 0x8002, 0x8003], 1, 63⟩).neis[j.val]? = some ne ∧ 0x8000 ≤ ne.toNat := by
      intro j
      match j with
      | 0 => exact ⟨_, rfl, by decide⟩
      | 1 => exact ⟨_, rfl, by decide⟩
      | 2 => exact ⟨_, rfl, by decide⟩
      | 3 => exact ⟨_, rfl, by decide⟩
    obtain ⟨ne', e, h'⟩ := key ⟨j, hj'⟩
    rw [e] at hn
    cases hn
    omega
  · obtain ⟨rfl, rfl⟩ := one q P hq
    exact le_trans (List.length_filter_le _ _) h
  · show ((c 0).filter _).length + 0 ≤ 0
    rw [List.filter_eq_nil_iff.2]
    · simp
    · intro l hl
      have h4 := he l hl
      have key : ∀ j : Fin 4, ((groundPoly ⟨[0, 1, 2, 3], [0x8000, 0x8001, 0x8002, 0x8003], 1, 63⟩).neis[j.val]?.getD 0#16 != 0#16) = true := by
        decide
      have := key ⟨l.edge.toNat, h4⟩
      unfold onEdge
      simp only at this
      rw [this]
      have h4' : l.edge.toNat < (groundPoly ⟨[0, 1, 2, 3], [0x8000, 0x8001, 0x8002, 0x8003], 1, 63⟩).vertCount.toNat := h4
      simp only [h4', decide_true, Bool.and_true, Bool.not_eq_true', decide_eq_false_iff_not, not_not]
      rw [groundPoly_type]
      decide

/-- The hypotheses of `link_room_partial` are met: the square gets a link on edge 0 and two on edge 2, and those on edge 2 are removed. -/
example : ∀ pre, pre <+: [LOp.push 0 ⟨7, 0, 4, 0, 255⟩, .push 0 ⟨8, 2, 0, 0, 9⟩, .push 0 ⟨9, 2, 0, 9, 255⟩, .cut fun l => l.edge == 2] →
    Demand (createdPolys squareParams) (2 * conEnds squareParams) (pre.foldl idealLink (startLinks 64#32 squareParams)) := by
  intro pre hpre
  have h0 : startLinks 64#32 squareParams 0 = [] := by decide +kernel
  rw [← List.mem_inits] at hpre
  simp only [List.inits, List.map_cons, List.map_nil, List.mem_cons, List.not_mem_nil, or_false] at hpre
  rcases hpre with rfl | rfl | rfl | rfl | rfl <;> apply square_demand <;> simp [idealLink, h0]

/-- A tile at (1, 1) that is one triangle with solid edges and four connections to the tile on side 0. -/
def jumpParams : CreateParams :=
  { squareParams with
    polys := [⟨[0, 1, 2, 0xffff], [0x800f, 0x800f, 0x800f, 0xffff], 1, 63⟩]
    details := some [⟨0, 3, 0, 1⟩]
    detailTris := [(0, 1, 2, 0)]
    cons := List.replicate 4 ⟨(1, 1, 1), (9, 9, 9), 1, 1, 5, true, 9, 0xff, 0⟩ }

theorem jump_rows : RowsOK jumpParams := by
  have h : ∀ q ∈ jumpParams.polys, q = ⟨[0, 1, 2, 0xffff], [0x800f, 0x800f, 0x800f, 0xffff], 1, 63⟩ := fun q hq => List.mem_singleton.1 hq
  refine ⟨by show 4 ≤ 6; decide, fun q hq => ?_, fun q hq => ?_, fun q hq => ?_, by simp [jumpParams]⟩ <;> rw [h q hq]
  · exact ⟨rfl, rfl⟩
  · exact (by decide : usedVerts [0, 1, 2, 0xffff] ≠ [])
  · intro n hn
    simp only [List.mem_cons, List.not_mem_nil, or_false] at hn
    rcases hn with rfl | rfl | rfl | rfl <;> decide

def jumpData : Bytes := match createNavMeshData jumpParams with | .ok d => d | _ => []

def jumpOps : List LMOp := [.add allLand (fourData 2 1 0x8004) 0#32, .add allLand jumpData 0#32]

set_option maxRecDepth 1000000 in
/-- **C107** refuted for off-mesh connections: a connection that starts in the tile and leaves it needs three links there (start, back from
the polygon under the start, end), but two are reserved (detour/navmeshcreate.go:617-623, 666). With four such connections from a triangle
the start of the last one is linked, its end lands on a polygon of the next tile, and its link is dropped. -/
theorem con_room_refuted : ∃ (p : CreateParams) (data : Bytes) (lk0 : Nat → LTile) (s : LMesh) (t : Tile) (c : OffMeshCon) (l : LinkInfo),
    RowsOK p ∧ createNavMeshData p = .ok data ∧ jumpOps.getLast? = some (.add allLand data 0#32) ∧
    LMesh.run jumpOps ⟨bigMesh, lk0⟩ = .ok s ∧ s.mesh.tile 1 = some t ∧ t.body.offMeshCons[3]? = some c ∧ c.side = 0#8 ∧
    allLand.land s 0 1 3 true = some 0 ∧ (s.lk 1).links c.poly.toNat = some [l] ∧ l.edge = 0#8 :=
  ⟨jumpParams, jumpData, fun _ => .fresh 0 (fun _ => ⟨0, 0, 0, 0, 0⟩) fun _ => none, _, _, _, _, jump_rows, by decide +kernel, rfl, rfl, rfl,
    rfl, rfl, rfl, rfl, rfl⟩

end Verif.Detour
