/-
The sliced search with the any-angle option (detour/query.go:1774-1781, 1877-1949, 1971-1995, 2064-2117), in the model of `Sliced.lean`:
what it finds when rays are cast, and two ways in which it goes wrong.
-/
import Verif.Detour.SlicedProps
import Verif.Detour.RaycastExact

set_option linter.unusedSectionVars false

namespace Verif.Detour

section
variable {P C : Type} [LinearOrder C] [Add C] [Zero C]

/-! ## Specification -/

/-- A ray from polygon `r` at `a` to `b` goes through the polygons `vis`, each of which can be entered from the one before, and tracing it
again stores them as far as there is room. -/
structure RayThrough (e : RayEnv P C) (r : Ref) (a b : P) (vis : List Ref) : Prop where
  head : vis.head? = some r
  chain : vis.IsChain (Edge e.toEnv)
  path : ∀ room, e.rayPath r a b room =
    (vis.take room, if room < vis.length then Status.success ||| Status.bufferTooSmall else Status.success)

/-- Rays that reach their end do so through a corridor, at a cost that is not negative (see `raycast_corridor`, C127). -/
structure RaysFit (e : RayEnv P C) : Prop where
  cost : ∀ r a b g c, e.ray r a b g = some c → 0 ≤ c
  through : ∀ r a b g c, e.ray r a b g = some c → ∃ vis, RayThrough e r a b vis

/-- A ray from a place where a polygon is entered to the place where a polygon `n` is entered ends in `n` or in a polygon that is linked to `n`, not on another floor. -/
def RaysMeet (e : RayEnv P C) (q : Query P) : Prop :=
  ∀ (r : Ref) (a b : P) (g : Ref) (c : C) (vis : List Ref) (m n x : Ref), e.ray r a b g = some c → RayThrough e r a b vis → Entry e.toEnv q r a →
    Edge e.toEnv m n → e.mid m n = some b → vis.getLast? = some x → x = n ∨ Edge e.toEnv x n

/-- The midpoint of an edge that leads to a neighbour can be computed (`edgeMidPoint` does not fail). -/
def MidsExist (e : RayEnv P C) : Prop := ∀ a b, Edge e.toEnv a b → ∃ x, e.mid a b = some x

/-! ## The invariant -/

/-- How a node follows from its parent: by a link, or by a ray. -/
def Way (e : RayEnv P C) (nj ni : Node P C) : Prop :=
  (ni.detached = false ∧ Edge e.toEnv nj.id ni.id) ∨ (ni.detached = true ∧ ∃ g c, e.ray nj.id nj.pos ni.pos g = some c)

/-- The polygon has a node, or the search ran out of nodes. -/
def CoversRef (e : RayEnv P C) (s : Search P C) (r : Ref) : Prop :=
  r ≠ 0#32 → e.pass r = true → s.outOfNodes = true ∨ ∃ k, k < s.pool.count ∧ (s.pool.nodes k).id = r

/-- The invariant of the search; `cur` is the node being expanded with the neighbours already handled. -/
structure AInv (e : RayEnv P C) (q : Query P) (mx : Nat) (cur : Option (Nat × List Ref)) (s : Search P C) : Prop where
  pool : PoolInv s.pool
  max : s.pool.maxNodes = mx
  len : s.heap.len = mx + 1
  heap : HeapInv (totals s.pool) s.heap
  mem : ∀ i, i ∈ s.heap.toList ↔ i < s.pool.count ∧ (s.pool.nodes i).opened = true
  flags : ∀ i, i < s.pool.count → (s.pool.nodes i).closed = !(s.pool.nodes i).opened
  root : 0 < s.pool.count ∧ (s.pool.nodes 0).id = q.start ∧ (s.pool.nodes 0).pidx = 0 ∧ (s.pool.nodes 0).cost = 0 ∧
    (s.pool.nodes 0).pos = q.startPos
  parent : ∀ i, i < s.pool.count → i ≠ 0 → ∃ j, j < s.pool.count ∧ (s.pool.nodes i).pidx = j + 1 ∧
    (s.pool.nodes j).cost ≤ (s.pool.nodes i).cost ∧ Way e (s.pool.nodes j) (s.pool.nodes i)
  chain : ∀ i, i < s.pool.count → ∃ l, Chain (par s.pool) (some i) l ∧ ∀ a ∈ l, a < s.pool.count
  tot : ∀ i, i < s.pool.count → (s.pool.nodes i).total = (s.pool.nodes i).cost + hpart e.toEnv q (s.pool.nodes i)
  goal : ∀ i, i < s.pool.count → (s.pool.nodes i).closed = true → (s.pool.nodes i).id ≠ q.goal
  exp : ∀ i, i < s.pool.count → (s.pool.nodes i).closed = true → ∀ r ∈ (e.links (s.pool.nodes i).id).map (·.1),
    (∀ d, cur = some (i, d) → r ∈ d) → CoversRef e s r
  best : s.best < s.pool.count
  pos : ∀ i, i < s.pool.count → i ≠ 0 → ∃ a, Edge e.toEnv a (s.pool.nodes i).id ∧
    (e.mid a (s.pool.nodes i).id = some (s.pool.nodes i).pos ∨ e.mid a (s.pool.nodes i).id = none)
  reach : ∀ i, i < s.pool.count → Relation.ReflTransGen (Edge e.toEnv) q.start (s.pool.nodes i).id

theorem AInv.chain_cost {e : RayEnv P C} {q : Query P} {mx : Nat} {cur : Option (Nat × List Ref)} {s : Search P C} (hs : AInv e q mx cur s)
    {i : Nat} {l : List Nat} (hl : Chain (par s.pool) (some i) l) (hc : ∀ a ∈ l, a < s.pool.count) :
    ∀ a ∈ l, (s.pool.nodes a).cost ≤ (s.pool.nodes i).cost := by
  induction l generalizing i with
  | nil => intro a ha; simp at ha
  | cons c l ih =>
    obtain ⟨hic, hl⟩ := hl
    simp only [Option.some.injEq] at hic
    subst hic
    intro a ha'
    rcases List.mem_cons.1 ha' with rfl | ha
    · exact le_refl _
    · by_cases hi0 : i = 0
      · subst hi0
        have : par s.pool 0 = none := by
          unfold par
          rw [hs.root.2.2.1]
          rfl
        rw [this] at hl
        rw [Chain.none_iff.1 hl] at ha
        simp at ha
      · obtain ⟨j, h1, h2, h6, _⟩ := hs.parent i (hc i (by simp)) hi0
        have : par s.pool i = some j := by
          unfold par
          rw [h2]
          rfl
        rw [this] at hl
        exact le_trans (ih hl (fun a ha => hc a (by simp [ha])) a ha) h6

theorem AInv.zero_mem {e : RayEnv P C} {q : Query P} {mx : Nat} {cur : Option (Nat × List Ref)} {s : Search P C} (hs : AInv e q mx cur s)
    {i : Nat} {l : List Nat} (hl : Chain (par s.pool) (some i) l) (hc : ∀ a ∈ l, a < s.pool.count) : l.getLast? = some 0 := by
  induction l generalizing i with
  | nil => simp [Chain] at hl
  | cons c l ih =>
    obtain ⟨hic, hl⟩ := hl
    simp only [Option.some.injEq] at hic
    subst hic
    by_cases hi0 : i = 0
    · subst hi0
      have : par s.pool 0 = none := by
        unfold par
        rw [hs.root.2.2.1]
        rfl
      rw [this] at hl
      rw [Chain.none_iff.1 hl]
      rfl
    · obtain ⟨j, h1, h2, _⟩ := hs.parent i (hc i (by simp)) hi0
      have : par s.pool i = some j := by
        unfold par
        rw [h2]
        rfl
      rw [this] at hl
      rw [List.getLast?_cons, ih hl (fun a ha => hc a (by simp [ha]))]
      rfl

/-- The update of one node (new or improved), with parent `a`, preserves the invariant. -/
theorem anySettle_inv {e : RayEnv P C} {q : Query P} {mx : Nat} {a b : Nat} {d : List Ref} {s : Search P C}
    (hs : AInv e q mx (some (b, d)) s) (hb : b < s.pool.count) (ha : a < s.pool.count) {nref : Ref} (hE : Edge e.toEnv (s.pool.nodes b).id nref)
    {i : Nat} {p : Pool P C} {n : Node P C} (hp : PoolInv p) (hmx : p.maxNodes = mx)
    (hcount : s.pool.count ≤ p.count) (hcount' : ∀ j, j < p.count → j ≠ i → j < s.pool.count)
    (hi : i < p.count) (hnodes : ∀ j, j ≠ i → p.nodes j = s.pool.nodes j) (hni : p.nodes i = n)
    {la : List Nat} (hla : Chain (par s.pool) (some a) la) (hlac : ∀ x ∈ la, x < s.pool.count) (hila : i ∉ la)
    (n1 : n.id = nref) (n3 : n.pidx = a + 1)
    (n4 : n.opened = true) (n5 : n.closed = false) (n6 : n.total = n.cost + hpart e.toEnv q n)
    (n7 : (s.pool.nodes a).cost ≤ n.cost)
    (n8 : ∃ m, Edge e.toEnv m nref ∧ (e.mid m nref = some n.pos ∨ e.mid m nref = none))
    (n9 : Way e (s.pool.nodes a) n)
    (hold : i < s.pool.count → (s.pool.nodes i).key = n.key ∧ n.total ≤ (s.pool.nodes i).total ∧ n.cost ≤ (s.pool.nodes i).cost ∧
      n.pos = (s.pool.nodes i).pos)
    {h : Heap} {wasOpen : Bool} (hreq : requeue p s.heap wasOpen i = some h)
    (hwas : wasOpen = true ↔ i < s.pool.count ∧ (s.pool.nodes i).opened = true) :
    ∀ s' : Search P C, s'.pool = p → s'.heap = h → s'.outOfNodes = s.outOfNodes → (s'.best = i ∨ s'.best = s.best) →
      AInv e q mx (some (b, nref :: d)) s' := by
  intro s' e1 e2 e3 hbest
  have hzero : 0 ∈ la := List.mem_of_getLast? (hs.zero_mem hla hlac)
  have hi0 : i ≠ 0 := by rintro rfl; exact hila hzero
  have hai : a ≠ i := by
    rintro rfl
    apply hila
    cases la with
    | nil => simp [Chain] at hla
    | cons x la =>
      have := hla.1
      simp only [Option.some.injEq] at this
      simp [this]
  have hkeysame : ∀ j, j < s.pool.count → (p.nodes j).key = (s.pool.nodes j).key := by
    intro j hj
    by_cases hji : j = i
    · subst hji
      rw [hni]
      exact (hold hj).1.symm
    · rw [hnodes j hji]
  have hidsame : ∀ j, j < s.pool.count → (p.nodes j).id = (s.pool.nodes j).id :=
    fun j hj => congrArg Prod.fst (hkeysame j hj)
  have hpossame : ∀ j, j < s.pool.count → (p.nodes j).pos = (s.pool.nodes j).pos := by
    intro j hj
    by_cases hji : j = i
    · subst hji
      rw [hni]
      exact (hold hj).2.2.2
    · rw [hnodes j hji]
  have hheap : HeapInv (totals p) h ∧ h.len = mx + 1 ∧ ∀ j, j ∈ h.toList ↔ (j ∈ s.heap.toList ∨ j = i) := by
    unfold requeue at hreq
    split at hreq
    · rename_i hw
      obtain ⟨w1, w2⟩ := hwas.1 hw
      simp only [Option.some.injEq] at hreq
      have hmem : i ∈ s.heap.toList := (hs.mem i).2 ⟨w1, w2⟩
      obtain ⟨m1, m2, m3, m4⟩ := modify_spec (key' := totals p) hs.heap i hmem
        (by unfold totals; rw [hni]; exact (hold w1).2.1)
        (fun y hy _ => by unfold totals; rw [hnodes y hy])
      rw [← hreq]
      refine ⟨m1, by rw [m3, hs.len], fun j => ?_⟩
      rw [m2.mem_iff]
      constructor
      · exact Or.inl
      · rintro (h | rfl)
        · exact h
        · exact hmem
    · rename_i hw
      have hnm : i ∉ s.heap.toList := by
        intro hm
        exact hw (hwas.2 ((hs.mem i).1 hm))
      have hinv : HeapInv (totals p) s.heap := by
        apply hs.heap.congr
        intro y hy
        unfold totals
        rw [hnodes y (by rintro rfl; exact hnm hy)]
      have hroom : s.heap.size < s.heap.len := by
        have hsub : s.heap.toList ⊆ List.range s.pool.count :=
          fun a ha => List.mem_range.2 ((hs.mem a).1 ha).1
        have := (List.subperm_of_subset hs.heap.nodup hsub).length_le
        rw [toList_length, List.length_range] at this
        have h1 := hs.pool.count
        have h2 := hs.max
        rw [hs.len]
        omega
      obtain ⟨h', p1, p2, p3, p4⟩ := push_spec hinv i hnm hroom
      rw [p1] at hreq
      simp only [Option.some.injEq] at hreq
      rw [← hreq]
      refine ⟨p2, by rw [p4, hs.len], fun j => ?_⟩
      rw [p3.mem_iff, List.mem_cons, or_comm]
  have hpar : par p = upd (par s.pool) i (some a) := by
    funext j
    unfold par
    by_cases hji : j = i
    · subst hji
      rw [upd_same, hni, n3]
      rfl
    · rw [upd_ne _ _ hji, hnodes j hji]
  have hcov : ∀ r, CoversRef e s r → CoversRef e s' r := by
    intro r hc h1 h2
    rcases hc h1 h2 with h | ⟨k, k1, k2⟩
    · left; rw [e3]; exact h
    · right
      refine ⟨k, by rw [e1]; omega, ?_⟩
      rw [e1, hidsame k k1]
      exact k2
  have hcovl : CoversRef e s' nref := by
    intro _ _
    right
    exact ⟨i, by rw [e1]; exact hi, by rw [e1, hni]; exact n1⟩
  have hcost : ∀ j, j < s.pool.count → (p.nodes j).cost ≤ (s.pool.nodes j).cost := by
    intro j hj
    by_cases hji : j = i
    · subst hji
      rw [hni]
      exact (hold hj).2.2.1
    · rw [hnodes j hji]
  refine ⟨by rw [e1]; exact hp, by rw [e1]; exact hmx, by rw [e2]; exact hheap.2.1,
    by rw [e1, e2]; exact hheap.1, ?_, ?_, ?_, ?_, ?_, ?_, ?_, ?_, ?_, ?_, ?_⟩
  · intro j
    rw [e1, e2, hheap.2.2 j, hs.mem j]
    by_cases hji : j = i
    · subst hji
      simp only [or_true, true_iff]
      exact ⟨hi, by rw [hni]; exact n4⟩
    · rw [hnodes j hji]
      constructor
      · rintro (⟨h1, h2⟩ | h)
        · exact ⟨by omega, h2⟩
        · exact absurd h hji
      · rintro ⟨h1, h2⟩
        exact Or.inl ⟨hcount' j h1 hji, h2⟩
  · intro j hj
    rw [e1] at hj ⊢
    by_cases hji : j = i
    · subst hji
      rw [hni, n4, n5]
      rfl
    · rw [hnodes j hji]
      exact hs.flags j (hcount' j hj hji)
  · rw [e1, hnodes 0 (fun h => hi0 h.symm)]
    have := hs.root
    exact ⟨by omega, this.2⟩
  · intro j hj hj0
    rw [e1] at hj ⊢
    by_cases hji : j = i
    · subst hji
      refine ⟨a, by omega, by rw [hni]; exact n3, ?_, ?_⟩
      · rw [hni, hnodes a hai]; exact n7
      · rw [hni, hnodes a hai]; exact n9
    · obtain ⟨k, k1, k2, k6, k7⟩ := hs.parent j (hcount' j hj hji) hj0
      rw [hnodes j hji]
      refine ⟨k, by omega, k2, le_trans (hcost k k1) k6, ?_⟩
      unfold Way at k7 ⊢
      rw [hidsame k k1, hpossame k k1]
      exact k7
  · intro j hj
    rw [e1] at hj ⊢
    rw [hpar]
    by_cases hji : j = i
    · subst hji
      refine ⟨j :: la, ⟨rfl, ?_⟩, ?_⟩
      · rw [upd_same]
        exact hla.upd_notMem hila
      · intro x hx
        rcases List.mem_cons.1 hx with rfl | hx
        · exact hi
        · exact lt_of_lt_of_le (hlac x hx) hcount
    · obtain ⟨lj, c1, c2⟩ := hs.chain j (hcount' j hj hji)
      obtain ⟨l', d1, d2⟩ := Chain.reparent c1 hla hila
      refine ⟨l', d1, fun x hx => ?_⟩
      rcases d2 x hx with h | h | h
      · exact lt_of_lt_of_le (c2 x h) hcount
      · exact lt_of_lt_of_le (hlac x h) hcount
      · rw [h]; exact hi
  · intro j hj
    rw [e1] at hj ⊢
    by_cases hji : j = i
    · subst hji
      rw [hni]; exact n6
    · rw [hnodes j hji]
      exact hs.tot j (hcount' j hj hji)
  · intro j hj hc
    rw [e1] at hj hc ⊢
    by_cases hji : j = i
    · subst hji
      rw [hni, n5] at hc
      simp at hc
    · rw [hnodes j hji] at hc ⊢
      exact hs.goal j (hcount' j hj hji) hc
  · intro j hj hc l' hl' hd
    rw [e1] at hj hc hl'
    by_cases hji : j = i
    · subst hji
      rw [hni, n5] at hc
      simp at hc
    · rw [hnodes j hji] at hc hl'
      by_cases hjb : j = b
      · subst hjb
        have := hd _ rfl
        rcases List.mem_cons.1 this with rfl | hm
        · exact hcovl
        · exact hcov _ (hs.exp j (hcount' j hj hji) hc l' hl' (by
            intro d' hd'
            simp only [Option.some.injEq, Prod.mk.injEq, true_and] at hd'
            rw [← hd']; exact hm))
      · exact hcov _ (hs.exp j (hcount' j hj hji) hc l' hl' (by
          intro d' hd'
          simp only [Option.some.injEq, Prod.mk.injEq] at hd'
          exact absurd hd'.1.symm hjb))
  · rw [e1]
    rcases hbest with h | h
    · rw [h]; exact hi
    · rw [h]; exact lt_of_lt_of_le hs.best hcount
  · intro j hj hj0
    rw [e1] at hj ⊢
    by_cases hji : j = i
    · subst hji; rw [hni, n1]; exact n8
    · rw [hnodes j hji]
      exact hs.pos j (hcount' j hj hji) hj0
  · intro j hj
    rw [e1] at hj ⊢
    by_cases hji : j = i
    · subst hji; rw [hni, n1]; exact (hs.reach b hb).tail hE
    · rw [hnodes j hji]
      exact hs.reach j (hcount' j hj hji)

theorem AInv.skip {e : RayEnv P C} {q : Query P} {mx : Nat} {b : Nat} {d : List Ref} {s : Search P C} (hs : AInv e q mx (some (b, d)) s)
    (r : Ref) (hc : CoversRef e s r) : AInv e q mx (some (b, r :: d)) s := by
  refine { hs with exp := ?_ }
  intro j hj hcl l' hl' hd
  by_cases hll : l' = r
  · rw [hll]; exact hc
  · apply hs.exp j hj hcl l' hl'
    intro d' hd'
    simp only [Option.some.injEq, Prod.mk.injEq] at hd'
    obtain ⟨rfl, rfl⟩ := hd'
    have := hd _ rfl
    rcases List.mem_cons.1 this with h | h
    · exact absurd h hll
    · exact h

/-- A sliced search in progress, with the nodes of `t`. -/
def ofAny (q : Query P) (any : Bool) (t : Search P C) : Sliced P C :=
  ⟨q, any, Status.inProgress ||| (if t.outOfNodes then Status.outOfNodes else 0#32), some t.best, t.bestCost, t.pool, t.heap⟩

/-- The node the neighbour is to follow: the popped one or, by a ray, its parent. -/
theorem short_spec {e : RayEnv P C} (laws : CostLaws C) (hnn : e.NonNeg) (hray : ∀ r a b g c, e.ray r a b g = some c → 0 ≤ c)
    {q : Query P} {b : Nat} {s : Search P C} (hb : b < s.pool.count) (pref gref : Ref) (parent : Option Nat)
    (hparent : ∀ j, parent = some j → (s.pool.nodes b).pidx = j + 1 ∧ j < s.pool.count ∧ (s.pool.nodes j).id = pref)
    (nref : Ref) (hE : Edge e.toEnv (s.pool.nodes b).id nref) (n : Node P C) (hid : n.id = nref) (p : Pool P C)
    (hpb : p.nodes b = s.pool.nodes b) (hpj : ∀ j, parent = some j → (p.nodes j).pos = (s.pool.nodes j).pos ∧ (p.nodes j).cost = (s.pool.nodes j).cost) :
    ∃ (sh : Option C) (ch : C × C) (a : Nat), (parent.bind fun j => (e.ray pref (p.nodes j).pos n.pos gref).map fun c => (p.nodes j).cost + c) = sh ∧
      slicedCost e q (s.pool.nodes b).id pref nref (p.nodes b) n sh = ch ∧
      (if sh.isSome = true then (p.nodes b).pidx else nodeIdx (some b)) = a + 1 ∧ a < s.pool.count ∧
      (s.pool.nodes a).cost ≤ ch.1 ∧ ch.2 = hpart e.toEnv q n ∧ (sh.isSome = false → a = b) ∧
      (sh.isSome = true → (s.pool.nodes b).pidx ≠ 0) ∧
      ∀ n' : Node P C, n'.id = nref → n'.pos = n.pos → n'.detached = sh.isSome → Way e (s.pool.nodes a) n' := by
  have hh : ∀ sh, (slicedCost e q (s.pool.nodes b).id pref nref (p.nodes b) n sh).2 = hpart e.toEnv q n := by
    intro sh
    unfold slicedCost hpart
    dsimp only
    rw [hid]
    split <;> rfl
  have hc : ∀ sh : Option C, ∀ c0, c0 ≤ sh.getD ((p.nodes b).cost + e.cost (p.nodes b).pos n.pos pref (s.pool.nodes b).id nref) →
      c0 ≤ (slicedCost e q (s.pool.nodes b).id pref nref (p.nodes b) n sh).1 := by
    intro sh c0 h
    unfold slicedCost
    dsimp only
    split
    · exact le_trans h (laws.grow _ _ (hnn _ _ _ _ _))
    · exact h
  cases hsh : (parent.bind fun j => (e.ray pref (p.nodes j).pos n.pos gref).map fun c => (p.nodes j).cost + c) with
  | none =>
    refine ⟨none, _, b, rfl, rfl, rfl, hb, hc _ _ ?_, hh _, fun _ => rfl, by simp, ?_⟩
    · rw [hpb]; exact laws.grow _ _ (hnn _ _ _ _ _)
    · intro n' h1 _ h3
      exact Or.inl ⟨h3, by rw [h1]; exact hE⟩
  | some c =>
    obtain ⟨j, hj, hj2⟩ := Option.bind_eq_some_iff.1 hsh
    obtain ⟨rc, hr, hrc⟩ := Option.map_eq_some_iff.1 hj2
    obtain ⟨p1, p2, p3⟩ := hparent j hj
    obtain ⟨k1, k2⟩ := hpj j hj
    refine ⟨some c, _, j, rfl, rfl, ?_, p2, hc _ _ ?_, hh _, by simp, ?_, ?_⟩
    · simp only [Option.isSome_some, if_true]; rw [hpb]; exact p1
    · rw [← hrc, k2]
      exact laws.grow _ _ (hray _ _ _ _ _ hr)
    · intro _; omega
    · intro n' h1 h2 h3
      refine Or.inr ⟨h3, gref, rc, ?_⟩
      rw [p3, ← k1, h2]
      exact hr

/-- One link keeps the invariant. -/
theorem anyRelax_inv {e : RayEnv P C} (laws : CostLaws C) (hnn : e.NonNeg) (hray : ∀ r a b g c, e.ray r a b g = some c → 0 ≤ c)
    {q : Query P} {any : Bool} {mx : Nat} {b : Nat} {d : List Ref} {s : Search P C} (hs : AInv e q mx (some (b, d)) s) (hb : b < s.pool.count)
    (pref gref : Ref) (hpref : pref ≠ 0#32 → ∃ k, k < s.pool.count ∧ (s.pool.nodes k).id = pref) (parent : Option Nat)
    (hparent : ∀ j, parent = some j → (s.pool.nodes b).pidx = j + 1 ∧ j < s.pool.count ∧ (s.pool.nodes j).id = pref)
    (nref : Ref) (hl : nref ∈ (e.links (s.pool.nodes b).id).map (·.1)) :
    ∃ s', slicedRelax e b (s.pool.nodes b).id pref gref parent (ofAny q any s) nref = some (ofAny q any s') ∧
      AInv e q mx (some (b, nref :: d)) s' ∧ Progress s s' ∧ SameIds s s' ∧ s'.pool.nodes b = s.pool.nodes b := by
  unfold slicedRelax
  split
  · rename_i h
    refine ⟨s, rfl, hs.skip nref ?_, Progress.rfl' s, fun _ _ => rfl, rfl⟩
    intro h1 h2
    rcases h with h | h
    · exact absurd h h1
    · right
      rw [h]
      exact hpref (by rw [← h]; exact h1)
  rename_i hl0
  rw [not_or] at hl0
  split
  · rename_i h
    refine ⟨s, rfl, hs.skip nref ?_, Progress.rfl' s, fun _ _ => rfl, rfl⟩
    intro _ h2
    rw [h] at h2
    simp at h2
  rename_i hpass
  have hpass : e.pass nref = true := by
    cases h : e.pass nref
    · exact absurd h hpass
    · rfl
  have hE : Edge e.toEnv (s.pool.nodes b).id nref := by
    obtain ⟨⟨r, sd⟩, h1, h2⟩ := List.mem_map.1 hl
    simp only at h2
    subst h2
    exact ⟨sd, h1, hl0.1, hpass⟩
  have hroom : s.heap.size < s.heap.len ∨ s.heap.size = s.pool.count := by
    have hsub : s.heap.toList ⊆ List.range s.pool.count :=
      fun a ha => List.mem_range.2 ((hs.mem a).1 ha).1
    have := (List.subperm_of_subset hs.heap.nodup hsub).length_le
    rw [toList_length, List.length_range] at this
    have h1 := hs.pool.count
    have h2 := hs.max
    rw [hs.len]
    omega
  have hroom : s.heap.size < s.heap.len := by
    have h1 := hs.pool.count
    have h2 := hs.max
    have h3 := hs.len
    omega
  have hpl : (ofAny q any s).pool = s.pool := rfl
  rw [hpl]
  rcases node_cases hs.pool (nref, 0#8) with ⟨i, h1, h2, h3⟩ | ⟨h1, h2, h3⟩ | ⟨p', h1, h2, h3, h4, h5, h6, h7, h8⟩
  · rw [h1]
    simp only
    have hid : (s.pool.nodes i).id = nref := congrArg Prod.fst h3
    have hfl := hs.flags i h2
    have hvis : (s.pool.nodes i).opened = true ∨ (s.pool.nodes i).closed = true := by
      rw [hfl]
      cases (s.pool.nodes i).opened <;> simp
    have hcovl : CoversRef e s nref := fun _ _ => Or.inr ⟨i, h2, hid⟩
    unfold slicedVisit
    split
    · exact ⟨s, rfl, hs.skip nref hcovl, Progress.rfl' s, fun _ _ => rfl, rfl⟩
    rename_i hsib
    simp only [place_visited e.toEnv _ _ _ hvis, write_self]
    obtain ⟨sh, ch, a, q1, q2, q3, q4, q5, q6, q7, q8, q9⟩ := short_spec (q := q) laws hnn hray hb pref gref parent hparent nref hE (s.pool.nodes i) hid
      s.pool rfl (fun _ _ => ⟨rfl, rfl⟩)
    have hq : (ofAny q any s).q = q := rfl
    simp only [hq, q1, q2, q3]
    obtain ⟨la, hla, hlac⟩ := hs.chain a q4
    by_cases himp : (s.pool.nodes i).total ≤ ch.1 + ch.2
    · refine ⟨s, ?_, hs.skip nref hcovl, Progress.rfl' s, fun _ _ => rfl, rfl⟩
      rcases hvis with h | h
      · rw [if_pos ⟨h, himp⟩]; rfl
      · split
        · rfl
        · rw [if_pos ⟨h, himp⟩]; rfl
    · rw [if_neg (fun h => himp h.2), if_neg (fun h => himp h.2)]
      have hila : i ∉ la := by
        intro hm
        apply himp
        rw [hs.tot i h2, q6]
        exact laws.mono _ _ _ (le_trans (hs.chain_cost hla hlac i hm) q5)
      have hbi : b ≠ i := by
        rintro rfl
        cases hshort : sh.isSome with
        | true => exact hsib ⟨q8 hshort, rfl⟩
        | false =>
          have := q7 hshort
          subst this
          apply hila
          cases la with
          | nil => simp [Chain] at hla
          | cons x la =>
            have := hla.1
            simp only [Option.some.injEq] at this
            simp [this]
      have hlt : ch.1 + ch.2 < (s.pool.nodes i).total := not_le.1 himp
      have hcostle : ch.1 ≤ (s.pool.nodes i).cost := by
        by_contra hc
        apply himp
        rw [hs.tot i h2, q6]
        exact laws.mono _ _ _ (le_of_lt (not_le.1 hc))
      obtain ⟨n, hn⟩ : ∃ n, slicedSettle (s.pool.nodes i) (a + 1) nref ch.1 (ch.1 + ch.2) sh.isSome = n := ⟨_, rfl⟩
      have f1 : n.id = nref := by rw [← hn]; rfl
      have f2 : n.pidx = a + 1 := by rw [← hn]; rfl
      have f3 : n.opened = true := by rw [← hn]; rfl
      have f4 : n.closed = false := by rw [← hn]; rfl
      have f5 : n.cost = ch.1 := by rw [← hn]; rfl
      have f6 : n.total = ch.1 + ch.2 := by rw [← hn]; rfl
      have f7 : n.detached = sh.isSome := by rw [← hn]; rfl
      have f8 : n.pos = (s.pool.nodes i).pos := by rw [← hn]; rfl
      have f9 : n.key = (s.pool.nodes i).key := by rw [← hn]; unfold slicedSettle Node.key; simp only [hid]
      have hhp : hpart e.toEnv q n = hpart e.toEnv q (s.pool.nodes i) := by
        unfold hpart
        rw [f1, f8, hid]
      rw [hn]
      have hwinv := write_inv hs.pool i n f9
      have hreq : ∃ h, requeue (s.pool.write i n) s.heap (s.pool.nodes i).opened i = some h := by
        unfold requeue
        split
        · exact ⟨_, rfl⟩
        · unfold Heap.push
          rw [if_pos hroom]
          exact ⟨_, rfl⟩
      obtain ⟨h, hreq⟩ := hreq
      have hheap : (ofAny q any s).heap = s.heap := rfl
      rw [hheap, hreq]
      simp only
      have hi0 : i ≠ 0 := by
        rintro rfl
        exact hila (List.mem_of_getLast? (hs.zero_mem hla hlac))
      have hsettle := anySettle_inv hs hb q4 hE hwinv.1 hs.max (le_refl _)
        (fun j hj _ => hj) h2 (fun j hj => upd_ne _ _ hj) (upd_same _ _ _) hla hlac hila
        f1 f2 f3 f4 (by rw [hhp, ← q6, f5, f6]) (by rw [f5]; exact q5) (by
          have := hs.pos i h2 hi0
          rw [hid] at this
          rw [f8]
          exact this) (q9 n f1 f8 f7)
        (fun _ => ⟨f9.symm, by rw [f6]; exact le_of_lt hlt, by rw [f5]; exact hcostle, f8⟩) hreq
        ⟨fun h => ⟨h2, h⟩, fun h => h.2⟩
      have hprog : ∀ s' : Search P C, s'.pool = s.pool.write i n →
          Progress s s' ∧ SameIds s s' ∧ s'.pool.nodes b = s.pool.nodes b := by
        intro s' e1
        refine ⟨⟨by rw [e1]; exact le_refl _, fun _ j => ?_, fun _ ht => ?_⟩, fun j hj => ?_, ?_⟩
        · rw [e1]
          unfold Pool.write
          by_cases hji : j = i
          · subst hji
            simp only [upd_same]
            rw [f6]
            exact le_of_lt hlt
          · simp only [upd_ne _ _ hji, le_refl]
        · have := ht i h2
          rw [e1] at this
          unfold Pool.write at this
          simp only [upd_same] at this
          rw [f6] at this
          exact absurd this (ne_of_lt hlt)
        · rw [e1]
          unfold Pool.write
          by_cases hji : j = i
          · subst hji
            simp only [upd_same]
            rw [f1, hid]
          · simp only [upd_ne _ _ hji]
        · rw [e1]
          unfold Pool.write
          simp only [upd_ne _ _ hbi]
      split
      · exact ⟨{ s with pool := s.pool.write i n, heap := h, best := i, bestCost := ch.2 }, rfl, hsettle _ rfl rfl rfl (Or.inl rfl), hprog _ rfl⟩
      · exact ⟨{ s with pool := s.pool.write i n, heap := h }, rfl, hsettle _ rfl rfl rfl (Or.inr rfl), hprog _ rfl⟩
  · rw [h1]
    refine ⟨{ s with outOfNodes := true }, ?_, ?_, ⟨le_refl _, fun _ _ => le_refl _, fun _ _ => rfl⟩, fun _ _ => rfl, rfl⟩
    · unfold ofAny
      simp only [oon_or, if_true]
    · exact { hs with exp := fun _ _ _ _ _ _ => fun _ _ => Or.inl rfl }
  · rw [h1]
    simp only
    unfold slicedVisit
    have hbc : b ≠ s.pool.count := by omega
    have hpc : p'.nodes s.pool.count = (s.pool.nodes s.pool.count).reset (nref, 0#8) := by rw [h8, upd_same]
    have hpj : ∀ j, j ≠ s.pool.count → p'.nodes j = s.pool.nodes j := by
      intro j hj
      rw [h8, upd_ne _ _ hj]
    split
    · rename_i hsib
      simp only at hsib
      rw [hpc] at hsib
      exact absurd rfl hsib.1
    simp only
    rw [hpc]
    have hpl : ∃ n0 : Node P C, place e.toEnv (s.pool.nodes b).id nref
        ((s.pool.nodes s.pool.count).reset (nref, 0#8)) = n0 ∧ n0.opened = false ∧
        n0.closed = false ∧ n0.id = nref ∧ n0.state = 0#8 ∧ (e.mid (s.pool.nodes b).id nref = some n0.pos ∨ e.mid (s.pool.nodes b).id nref = none) := by
      refine ⟨_, rfl, ?_⟩
      have hpos : ∀ x : P, e.mid (s.pool.nodes b).id nref = some ((e.mid (s.pool.nodes b).id nref).getD x) ∨ e.mid (s.pool.nodes b).id nref = none := by
        intro x
        cases h : e.mid (s.pool.nodes b).id nref with
        | none => exact Or.inr rfl
        | some y => exact Or.inl rfl
      unfold place Node.reset
      simp [hpos]
    obtain ⟨n0, hn0, f1, f2, f3, f4, f5⟩ := hpl
    rw [hn0]
    have hnb : ∀ j, j ≠ s.pool.count → (p'.write s.pool.count n0).nodes j = s.pool.nodes j := by
      intro j hj
      unfold Pool.write
      simp only [upd_ne _ _ hj]
      exact hpj j hj
    obtain ⟨sh, ch, a, q1, q2, q3, q4, q5, q6, q7, q8, q9⟩ := short_spec (q := q) laws hnn hray hb pref gref parent hparent nref hE n0 f3
      (p'.write s.pool.count n0) (hnb b hbc) (fun j hj => by
        have := (hparent j hj).2.1
        rw [hnb j (by omega)]
        exact ⟨rfl, rfl⟩)
    have hq : (ofAny q any s).q = q := rfl
    simp only [hq, q1, q2, q3]
    rw [f1, f2]
    rw [if_neg (by simp), if_neg (by simp)]
    obtain ⟨la, hla, hlac⟩ := hs.chain a q4
    have hila : s.pool.count ∉ la := fun h => absurd (hlac _ h) (lt_irrefl _)
    obtain ⟨n, hn⟩ : ∃ n, slicedSettle n0 (a + 1) nref ch.1 (ch.1 + ch.2) sh.isSome = n := ⟨_, rfl⟩
    have g1 : n.id = nref := by rw [← hn]; rfl
    have g2 : n.pidx = a + 1 := by rw [← hn]; rfl
    have g3 : n.opened = true := by rw [← hn]; rfl
    have g4 : n.closed = false := by rw [← hn]; rfl
    have g5 : n.cost = ch.1 := by rw [← hn]; rfl
    have g6 : n.total = ch.1 + ch.2 := by rw [← hn]; rfl
    have g7 : n.detached = sh.isSome := by rw [← hn]; rfl
    have g8 : n.pos = n0.pos := by rw [← hn]; rfl
    have g9 : n.key = n0.key := by rw [← hn]; unfold slicedSettle Node.key; simp only [f3]
    have hhp : hpart e.toEnv q n = hpart e.toEnv q n0 := by
      unfold hpart
      rw [g1, g8, f3]
    rw [hn]
    have hw1 := write_inv h4 s.pool.count n0 (by
      rw [hpc, reset_key]
      exact Prod.ext f3 f4)
    have hw2 := write_inv hw1.1 s.pool.count n (by
      unfold Pool.write
      simp only [upd_same]
      exact g9)
    have hheap : (ofAny q any s).heap = s.heap := rfl
    rw [hheap]
    have hreq : ∃ h, requeue ((p'.write s.pool.count n0).write s.pool.count n) s.heap false s.pool.count = some h := by
      unfold requeue Heap.push
      rw [if_neg (by simp), if_pos hroom]
      exact ⟨_, rfl⟩
    obtain ⟨h, hreq⟩ := hreq
    rw [hreq]
    simp only
    have hcnt : ((p'.write s.pool.count n0).write s.pool.count n).count = s.pool.count + 1 := h5
    have hsettle := anySettle_inv (i := s.pool.count) (n := n) hs hb q4 hE hw2.1
      (by show p'.maxNodes = mx; rw [h6, hs.max]) (by rw [hcnt]; omega)
      (fun j hj hne => by rw [hcnt] at hj; omega) (by rw [hcnt]; omega)
      (fun j hj => by
        show upd (p'.write s.pool.count n0).nodes s.pool.count n j = _
        rw [upd_ne _ _ hj]
        exact hnb j hj) (upd_same _ _ _) hla hlac hila
      g1 g2 g3 g4 (by rw [hhp, ← q6, g5, g6]) (by rw [g5]; exact q5) ⟨_, hE, by rw [g8]; exact f5⟩ (q9 n g1 g8 g7)
      (fun hc => absurd hc (lt_irrefl _)) hreq
      ⟨fun h => by simp at h, fun h => absurd h.1 (lt_irrefl _)⟩
    have hprog : ∀ s' : Search P C, s'.pool = (p'.write s.pool.count n0).write s.pool.count n →
        Progress s s' ∧ SameIds s s' ∧ s'.pool.nodes b = s.pool.nodes b := by
      intro s' e1
      have hj : ∀ j, j ≠ s.pool.count → s'.pool.nodes j = s.pool.nodes j := by
        intro j hj
        rw [e1]
        show upd (p'.write s.pool.count n0).nodes s.pool.count n j = _
        rw [upd_ne _ _ hj]
        exact hnb j hj
      refine ⟨⟨by rw [e1, hcnt]; omega, fun hc => ?_, fun hc => ?_⟩, fun j hj' => ?_, hj b hbc⟩
      · rw [e1, hcnt] at hc; omega
      · rw [e1, hcnt] at hc; omega
      · rw [hj j (by omega)]
    split
    · exact ⟨{ s with pool := (p'.write s.pool.count n0).write s.pool.count n, heap := h, best := s.pool.count, bestCost := ch.2 }, rfl,
        hsettle _ rfl rfl rfl (Or.inl rfl), hprog _ rfl⟩
    · exact ⟨{ s with pool := (p'.write s.pool.count n0).write s.pool.count n, heap := h }, rfl, hsettle _ rfl rfl rfl (Or.inr rfl), hprog _ rfl⟩

theorem anyRelaxAll_inv {e : RayEnv P C} (laws : CostLaws C) (hnn : e.NonNeg) (hray : ∀ r a b g c, e.ray r a b g = some c → 0 ≤ c)
    {q : Query P} {any : Bool} {mx : Nat} {b : Nat} {r : Ref} (pref gref : Ref) (parent : Option Nat) (ls : List Ref)
    (hls : ∀ l ∈ ls, l ∈ (e.links r).map (·.1)) {d : List Ref} {s : Search P C} (hs : AInv e q mx (some (b, d)) s) (hb : b < s.pool.count)
    (hbr : (s.pool.nodes b).id = r) (hpref : pref ≠ 0#32 → ∃ k, k < s.pool.count ∧ (s.pool.nodes k).id = pref)
    (hparent : ∀ j, parent = some j → (s.pool.nodes b).pidx = j + 1 ∧ j < s.pool.count ∧ (s.pool.nodes j).id = pref) :
    ∃ s', ls.foldlM (slicedRelax e b r pref gref parent) (ofAny q any s) = some (ofAny q any s') ∧
      AInv e q mx (some (b, ls.reverse ++ d)) s' ∧ Progress s s' ∧ SameIds s s' := by
  induction ls generalizing s d with
  | nil => exact ⟨s, rfl, hs, Progress.rfl' s, fun _ _ => rfl⟩
  | cons l ls ih =>
    obtain ⟨s1, h1, h2, h3, h4, h5⟩ := anyRelax_inv (any := any) laws hnn hray hs hb pref gref hpref parent hparent l
      (by rw [hbr]; exact hls l (by simp))
    have hg := h3.grew
    obtain ⟨s2, g1, g2, g3, g4⟩ := ih (fun l' hl' => hls l' (by simp [hl'])) h2 (by omega)
      (by rw [h4 b hb, hbr]) (by
        intro hp
        obtain ⟨k, k1, k2⟩ := hpref hp
        exact ⟨k, by omega, by rw [h4 k k1, k2]⟩) (by
        intro j hj
        obtain ⟨k1, k2, k3⟩ := hparent j hj
        exact ⟨by rw [h5, k1], by omega, by rw [h4 j k2, k3]⟩)
    refine ⟨s2, ?_, ?_, h3.trans g3, ?_⟩
    · rw [List.foldlM_cons, ← hbr, h1]
      rw [hbr]
      exact g1
    · rw [List.reverse_cons, List.append_assoc]
      exact g2
    · intro i hi
      rw [g4 i (by omega), h4 i hi]

/-- After a pop. -/
theorem anyClose_inv {e : RayEnv P C} {q : Query P} {mx : Nat} {s : Search P C}
    (hs : AInv e q mx none s) {b : Nat} {h : Heap} (hpop : s.heap.pop (totals s.pool) = some (b, h)) :
    b < s.pool.count ∧ h.size + 1 = s.heap.size ∧
    (∀ i, ((markClosed s.pool b).nodes i).id = (s.pool.nodes i).id ∧
      ((markClosed s.pool b).nodes i).total = (s.pool.nodes i).total ∧
      ((markClosed s.pool b).nodes i).pidx = (s.pool.nodes i).pidx) ∧
    ((s.pool.nodes b).id ≠ q.goal →
      AInv e q mx (some (b, [])) { s with pool := markClosed s.pool b, heap := h }) := by
  have hne : s.heap.size ≠ 0 := by
    intro h0
    rw [pop_empty_panics _ _ h0] at hpop
    simp at hpop
  obtain ⟨x, h', p1, p2, p3, p4, p5, p6⟩ := pop_spec hs.heap hne
  rw [p1] at hpop
  simp only [Option.some.injEq, Prod.mk.injEq] at hpop
  obtain ⟨rfl, rfl⟩ := hpop
  have hxm : x ∈ s.heap.toList := p3.mem_iff.2 (by simp)
  obtain ⟨x1, x2⟩ := (hs.mem x).1 hxm
  have hfield : ∀ i, (markClosed s.pool x).nodes i = if i = x then
      { s.pool.nodes x with opened := false, closed := true } else s.pool.nodes i := fun i => rfl
  have hsame : ∀ i, ((markClosed s.pool x).nodes i).id = (s.pool.nodes i).id ∧
      ((markClosed s.pool x).nodes i).total = (s.pool.nodes i).total ∧
      ((markClosed s.pool x).nodes i).pidx = (s.pool.nodes i).pidx ∧
      ((markClosed s.pool x).nodes i).cost = (s.pool.nodes i).cost ∧
      ((markClosed s.pool x).nodes i).pos = (s.pool.nodes i).pos ∧
      ((markClosed s.pool x).nodes i).detached = (s.pool.nodes i).detached := by
    intro i
    rw [hfield]
    split
    · rename_i hix
      rw [hix]
      exact ⟨rfl, rfl, rfl, rfl, rfl, rfl⟩
    · exact ⟨rfl, rfl, rfl, rfl, rfl, rfl⟩
  have hhp : ∀ i, hpart e.toEnv q ((markClosed s.pool x).nodes i) = hpart e.toEnv q (s.pool.nodes i) := by
    intro i
    unfold hpart
    rw [(hsame i).1, (hsame i).2.2.2.2.1]
  have hcnt : (markClosed s.pool x).count = s.pool.count := rfl
  have hpar : par (markClosed s.pool x) = par s.pool := by
    funext i
    unfold par
    rw [(hsame i).2.2.1]
  have htot : totals (markClosed s.pool x) = totals s.pool := by
    funext i
    exact (hsame i).2.1
  refine ⟨x1, p6, fun i => ⟨(hsame i).1, (hsame i).2.1, (hsame i).2.2.1⟩, fun hgoal => ?_⟩
  have hwi := write_inv hs.pool x { s.pool.nodes x with opened := false, closed := true } rfl
  have hnodup := (p3.nodup_iff).1 hs.heap.nodup
  rw [List.nodup_cons] at hnodup
  refine ⟨hwi.1, hs.max, by rw [p5]; exact hs.len, by rw [htot]; exact p2, ?_, ?_, ?_, ?_, ?_, ?_, ?_, ?_, hs.best, ?_, ?_⟩
  · intro i
    simp only
    rw [hcnt, hfield]
    by_cases hix : i = x
    · subst hix
      simp only [if_true]
      constructor
      · intro hm; exact absurd hm hnodup.1
      · rintro ⟨_, hc⟩; simp at hc
    · rw [if_neg hix, ← hs.mem i, p3.mem_iff, List.mem_cons]
      simp [hix]
  · intro i hi
    simp only
    rw [hfield]
    split
    · rfl
    · exact hs.flags i hi
  · simp only
    rw [(hsame 0).1, (hsame 0).2.2.1, (hsame 0).2.2.2.1, (hsame 0).2.2.2.2.1, hcnt]
    exact hs.root
  · intro i hi hi0
    obtain ⟨j, j1, j2, j3, j4⟩ := hs.parent i hi hi0
    refine ⟨j, j1, ?_⟩
    unfold Way at j4 ⊢
    simp only
    rw [(hsame i).1, (hsame i).2.2.1, (hsame i).2.2.2.1, (hsame i).2.2.2.2.1, (hsame i).2.2.2.2.2,
      (hsame j).1, (hsame j).2.2.2.1, (hsame j).2.2.2.2.1]
    exact ⟨j2, j3, j4⟩
  · intro i hi
    simp only
    rw [hpar]
    exact hs.chain i hi
  · intro i hi
    simp only
    rw [(hsame i).2.1, (hsame i).2.2.2.1, hhp]
    exact hs.tot i hi
  · intro i hi hc
    simp only at hc ⊢
    rw [(hsame i).1]
    by_cases hix : i = x
    · rw [hix]; exact hgoal
    · rw [hfield, if_neg hix] at hc
      exact hs.goal i hi hc
  · intro i hi hc l hl hd
    simp only at hc hl
    by_cases hix : i = x
    · subst hix
      exact absurd (hd _ rfl) (by simp)
    · rw [hfield, if_neg hix] at hc hl
      intro c1 c2
      rcases hs.exp i hi hc l hl (by intro d' hd'; simp at hd') c1 c2 with h | ⟨k, k1, k2⟩
      · exact Or.inl h
      · right
        refine ⟨k, k1, ?_⟩
        simp only
        rw [(hsame k).1]
        exact k2
  · intro i hi hi0
    simp only
    rw [(hsame i).1, (hsame i).2.2.2.2.1]
    exact hs.pos i hi hi0
  · intro i hi
    simp only
    rw [(hsame i).1]
    exact hs.reach i hi

theorem any_parentRef {e : RayEnv P C} {q : Query P} {mx : Nat} {cur : Option (Nat × List Ref)} {s : Search P C} (hs : AInv e q mx cur s)
    {i : Nat} (hi : i < s.pool.count) :
    (nodeAtIdx (s.pool.nodes i).pidx = none ∧ parentRef s.pool i = 0#32) ∨
    ∃ j, j < s.pool.count ∧ (s.pool.nodes i).pidx = j + 1 ∧ nodeAtIdx (s.pool.nodes i).pidx = some j ∧ parentRef s.pool i = (s.pool.nodes j).id := by
  by_cases h0 : i = 0
  · subst h0
    left
    unfold parentRef
    rw [hs.root.2.2.1]
    exact ⟨rfl, rfl⟩
  · obtain ⟨j, j1, j2, _⟩ := hs.parent i hi h0
    refine Or.inr ⟨j, j1, j2, ?_, ?_⟩
    · rw [j2]; rfl
    · unfold parentRef
      rw [j2]
      rfl

theorem any_reach_valid {e : RayEnv P C} (hv : LinksValid e) {a b : Ref} (ha : e.valid a = true)
    (h : Relation.ReflTransGen (Edge e.toEnv) a b) : e.valid b = true := by
  induction h with
  | refl => exact ha
  | tail _ hE ih =>
    obtain ⟨sd, h1, h2, _⟩ := hE
    exact hv _ ih _ h1 h2

/-- One iteration. -/
theorem anyStep_inv {e : RayEnv P C} (laws : CostLaws C) (hnn : e.NonNeg) (hray : ∀ r a b g c, e.ray r a b g = some c → 0 ≤ c)
    (hlv : LinksValid e) {q : Query P} (hv : e.valid q.start = true) {any : Bool} {mx : Nat} {t : Search P C} (hs : AInv e q mx none t)
    (hne : t.heap.size ≠ 0) :
    (∃ b h, b < t.pool.count ∧ (t.pool.nodes b).id = q.goal ∧
      sliceStep e (ofAny q any t) = .stop { ofAny q any t with pool := markClosed t.pool b, heap := h, best := some b, status := completed (ofAny q any t).status }) ∨
    (∃ t', sliceStep e (ofAny q any t) = .more (ofAny q any t') ∧ AInv e q mx none t' ∧ t.pool.count ≤ t'.pool.count ∧
      (t'.pool.count = t.pool.count → ∀ i, (t'.pool.nodes i).total ≤ (t.pool.nodes i).total) ∧
      (t'.pool.count = t.pool.count →
        (∀ i, i < t.pool.count → (t'.pool.nodes i).total = (t.pool.nodes i).total) → t'.heap.size < t.heap.size)) := by
  obtain ⟨b, h, p1, _⟩ := pop_spec hs.heap hne
  obtain ⟨c1, c2, c3, c5⟩ := anyClose_inv hs p1
  unfold sliceStep
  have e1 : (ofAny q any t).heap = t.heap := rfl
  have e2 : (ofAny q any t).pool = t.pool := rfl
  have e3 : (ofAny q any t).q = q := rfl
  rw [e1, e2, p1]
  dsimp only
  rw [e3]
  by_cases hg : ((markClosed t.pool b).nodes b).id = q.goal
  · rw [if_pos hg]
    exact .inl ⟨b, h, c1, by rw [← (c3 b).1]; exact hg, rfl⟩
  · rw [if_neg hg]
    right
    have hg' : (t.pool.nodes b).id ≠ q.goal := by rw [← (c3 b).1]; exact hg
    have hs1 := c5 hg'
    have hval' : ∀ k, k < t.pool.count → e.valid ((markClosed t.pool b).nodes k).id = true := by
      intro k hk
      exact any_reach_valid hlv hv (hs1.reach k hk)
    have hpv : ∀ k, k < t.pool.count → parentRef (markClosed t.pool b) k ≠ 0#32 → e.valid (parentRef (markClosed t.pool b) k) = true := by
      intro k hk h0
      rcases any_parentRef hs1 hk with ⟨_, h1⟩ | ⟨j, j1, _, _, j2⟩
      · exact absurd h1 h0
      · simp only at j2
        rw [j2]
        exact hval' j j1
    rw [if_neg (by rw [hval' b c1]; simp)]
    rw [if_neg (by
      rintro ⟨h1, h2 | ⟨h2, h3⟩⟩
      · rw [hpv b c1 h1] at h2; simp at h2
      · unfold grandpaRef at h2 h3
        rcases any_parentRef hs1 c1 with ⟨hj, _⟩ | ⟨j, j1, _, hj, _⟩
        · simp only at hj
          rw [hj] at h2
          exact h2 rfl
        · simp only at hj
          rw [hj] at h2 h3
          dsimp only at h2 h3
          rw [hpv j j1 h2] at h3
          simp at h3)]
    obtain ⟨parent, hpar, hparent⟩ : ∃ parent, (if ((ofAny q any t).any && parentRef (markClosed t.pool b) b != 0#32 &&
        (nodeAtIdx ((markClosed t.pool b).nodes b).pidx).any fun j => e.near ((markClosed t.pool b).nodes j).pos ((markClosed t.pool b).nodes b).pos) = true
        then nodeAtIdx ((markClosed t.pool b).nodes b).pidx else none) = parent ∧
        ∀ j, parent = some j → ((markClosed t.pool b).nodes b).pidx = j + 1 ∧ j < t.pool.count ∧ ((markClosed t.pool b).nodes j).id = parentRef (markClosed t.pool b) b := by
      refine ⟨_, rfl, fun j hj => ?_⟩
      split at hj
      · rcases any_parentRef hs1 c1 with ⟨h1, _⟩ | ⟨k, k1, k2, k3, k4⟩
        · simp only at h1
          rw [h1] at hj
          simp at hj
        · simp only at k2 k3 k4
          rw [k3] at hj
          simp only [Option.some.injEq] at hj
          subst hj
          exact ⟨k2, k1, k4.symm⟩
      · simp at hj
    simp only [hpar]
    obtain ⟨t', r1, r2, r3, r4⟩ := anyRelaxAll_inv (any := any) laws hnn hray (parentRef (markClosed t.pool b) b) (grandpaRef (markClosed t.pool b) b) parent
      ((e.links ((markClosed t.pool b).nodes b).id).map (·.1)) (fun l hl => hl) hs1 c1 rfl (fun hp => by
        rcases any_parentRef hs1 c1 with ⟨_, h1⟩ | ⟨k, k1, k2, k3, k4⟩
        · exact absurd h1 hp
        · exact ⟨k, k1, k4.symm⟩) hparent
    rw [show (⟨q, (ofAny q any t).any, (ofAny q any t).status, (ofAny q any t).best, (ofAny q any t).bestCost, markClosed t.pool b, h⟩ : Sliced P C) =
      ofAny q any { t with pool := markClosed t.pool b, heap := h } from rfl, r1]
    refine ⟨t', rfl, ?_, r3.grew, fun hc i => ?_, fun hc ht => ?_⟩
    · refine { r2 with exp := ?_ }
      intro i hi hcl l hl _
      apply r2.exp i hi hcl l hl
      intro d hd
      simp only [Option.some.injEq, Prod.mk.injEq, List.append_nil] at hd
      obtain ⟨rfl, rfl⟩ := hd
      rw [List.mem_reverse]
      have := r4 b c1
      simp only at this
      rw [this] at hl
      exact hl
    · rw [← (c3 i).2.1]
      exact r3.down hc i
    · have := r3.same hc (fun i hi => by
        simp only
        rw [ht i hi, (c3 i).2.1])
      simp only at this
      omega

/-! ## Any number of iterations -/

/-- A point of the search: `t` is a running search with the nodes of `s`, and `b` the node the path is traced back from. -/
structure AnySnap (e : RayEnv P C) (q : Query P) (any : Bool) (mx : Nat) (s : Sliced P C) (t : Search P C) (b : Nat) : Prop where
  inv : AInv e q mx none t
  query : s.q = q
  max : s.pool.maxNodes = t.pool.maxNodes
  nodes : ∀ i, (s.pool.nodes i).id = (t.pool.nodes i).id ∧ (s.pool.nodes i).pidx = (t.pool.nodes i).pidx ∧
    (s.pool.nodes i).detached = (t.pool.nodes i).detached ∧ (s.pool.nodes i).pos = (t.pool.nodes i).pos
  best : s.best = some b
  live : b < t.pool.count
  /-- running, or the goal was found, or nothing is left to do -/
  stage : (s = ofAny q any t ∧ b = t.best) ∨
    ((s.status = completed (ofAny q any t).status) ∧ (t.pool.nodes b).id = q.goal) ∨
    ((s.status = completed (ofAny q any t).status) ∧ b = t.best ∧ t.heap.size = 0)

theorem AnySnap.running {e : RayEnv P C} {q : Query P} {any : Bool} {mx : Nat} {t : Search P C} (hs : AInv e q mx none t) :
    AnySnap e q any mx (ofAny q any t) t t.best :=
  ⟨hs, rfl, rfl, fun _ => ⟨rfl, rfl, rfl, rfl⟩, rfl, hs.best, .inl ⟨rfl, rfl⟩⟩

theorem anyLoop_snap {e : RayEnv P C} (laws : CostLaws C) (hnn : e.NonNeg) (hray : ∀ r a b g c, e.ray r a b g = some c → 0 ≤ c)
    (hlv : LinksValid e) {q : Query P} (hv : e.valid q.start = true) {any : Bool} {mx : Nat} : ∀ (n : Nat) {t : Search P C}, AInv e q mx none t →
    ∃ k st s, sliceLoop e n (ofAny q any t) = some (k, st, s) ∧ ∃ t' b, AnySnap e q any mx s t' b ∧ (st = false → s = ofAny q any t')
  | 0, t, hs => ⟨0, false, _, rfl, t, t.best, AnySnap.running hs, fun _ => rfl⟩
  | n + 1, t, hs => by
    rw [sliceLoop]
    by_cases h0 : (ofAny q any t).heap.size = 0
    · rw [if_pos h0]
      exact ⟨0, false, _, rfl, t, t.best, AnySnap.running hs, fun _ => rfl⟩
    rw [if_neg h0]
    rcases anyStep_inv (any := any) laws hnn hray hlv hv hs h0 with ⟨b, h, b1, b2, b3⟩ | ⟨t', b1, b2, _⟩
    · rw [b3]
      refine ⟨1, true, _, rfl, t, b, ⟨hs, rfl, rfl, ?_, rfl, b1, .inr (.inl ⟨rfl, b2⟩)⟩, by simp⟩
      intro i
      unfold markClosed Pool.write
      simp only [upd]
      split
      · rename_i hib; subst hib; exact ⟨rfl, rfl, rfl, rfl⟩
      · exact ⟨rfl, rfl, rfl, rfl⟩
    · rw [b1]
      obtain ⟨k, st, s, l1, l2⟩ := anyLoop_snap laws hnn hray hlv hv n b2
      exact ⟨k + 1, st, s, by dsimp only; rw [l1]; rfl, l2⟩

theorem ofAny_running (q : Query P) (any : Bool) (t : Search P C) : (ofAny q any t).status.isInProgress = true := by
  unfold ofAny
  dsimp only
  cases t.outOfNodes <;> decide

theorem anyUpdate_snap {e : RayEnv P C} (laws : CostLaws C) (hnn : e.NonNeg) (hray : ∀ r a b g c, e.ray r a b g = some c → 0 ≤ c)
    (hlv : LinksValid e) {q : Query P} (hv : e.valid q.start = true) (hv2 : e.valid q.goal = true) {any : Bool} {mx : Nat} (n : Nat)
    {t : Search P C} (hs : AInv e q mx none t) :
    ∃ k s t' b, sliceUpdate e n (ofAny q any t) = some (some k, s) ∧ AnySnap e q any mx s t' b := by
  unfold sliceUpdate
  rw [if_neg (by rw [ofAny_running]; simp), if_neg (by
    show ¬ (e.valid q.start = false ∨ e.valid q.goal = false)
    rw [hv, hv2]; simp)]
  obtain ⟨k, st, s, l1, t', b, l2, l3⟩ := anyLoop_snap (any := any) laws hnn hray hlv hv n hs
  rw [l1]
  cases st with
  | true => exact ⟨k, s, t', b, rfl, l2⟩
  | false =>
    dsimp only
    unfold exhausted
    have hse := l3 rfl
    subst hse
    by_cases h0 : (ofAny q any t').heap.size = 0
    · rw [if_pos h0]
      exact ⟨k, _, t', t'.best, rfl, l2.inv, rfl, rfl, fun _ => ⟨rfl, rfl, rfl, rfl⟩, rfl, l2.inv.best, .inr (.inr ⟨rfl, rfl, h0⟩)⟩
    · rw [if_neg h0]
      exact ⟨k, _, t', b, rfl, l2⟩

theorem anyLoop_terminates [WellFoundedLT C] {e : RayEnv P C} (laws : CostLaws C) (hnn : e.NonNeg)
    (hray : ∀ r a b g c, e.ray r a b g = some c → 0 ≤ c) (hlv : LinksValid e)
    {q : Query P} (hv : e.valid q.start = true) {any : Bool} {mx : Nat} {t : Search P C} (hs : AInv e q mx none t) :
    ∃ n k st s, sliceLoop e n (ofAny q any t) = some (k, st, s) ∧ (st = true ∨ s.heap.size = 0) := by
  have key : ∀ (k : Nat) (tt : Fin mx → C) (sz : Nat) (t : Search P C), AInv e q mx none t →
      mx - t.pool.count = k → (fun i : Fin mx => (t.pool.nodes i).total) = tt → t.heap.size = sz →
      ∃ n k st s, sliceLoop e n (ofAny q any t) = some (k, st, s) ∧ (st = true ∨ s.heap.size = 0) := by
    intro k
    induction k using Nat.strong_induction_on with
    | _ k ihk =>
      intro tt
      induction tt using WellFoundedLT.induction with
      | _ tt iht =>
        intro sz
        induction sz using Nat.strong_induction_on with
        | _ sz ihz =>
          intro t hs hk ht hz
          by_cases h0 : t.heap.size = 0
          · exact ⟨0, 0, false, _, rfl, .inr h0⟩
          rcases anyStep_inv (any := any) laws hnn hray hlv hv hs h0 with ⟨b, h, b1, b2, b3⟩ | ⟨t', e1, e2, e3, e4, e5⟩
          · exact ⟨1, 1, true, _, by rw [sliceLoop, if_neg (by exact h0), b3], .inl rfl⟩
          · have hmx : t'.pool.count ≤ mx := by
              have := e2.pool.count
              rw [e2.max] at this
              exact this
            have hnext : ∃ n k st s, sliceLoop e n (ofAny q any t') = some (k, st, s) ∧ (st = true ∨ s.heap.size = 0) := by
              by_cases hc : t'.pool.count = t.pool.count
              · by_cases hall : ∀ i : Fin mx, (t'.pool.nodes i).total = (t.pool.nodes i).total
                · have hlt : t'.heap.size < sz := by
                    rw [← hz]
                    exact e5 hc fun i hi => hall ⟨i, by omega⟩
                  exact ihz _ hlt t' e2 (by omega) (by rw [← ht]; funext i; exact hall i) rfl
                · have hlt : (fun i : Fin mx => (t'.pool.nodes i).total) < tt := by
                    rw [← ht]
                    rw [Pi.lt_def]
                    refine ⟨fun i => e4 hc i, ?_⟩
                    simp only [not_forall] at hall
                    obtain ⟨i, hi⟩ := hall
                    exact ⟨i, lt_of_le_of_ne (e4 hc i) hi⟩
                  exact iht _ hlt _ t' e2 (by omega) rfl rfl
              · exact ihk _ (by omega) _ _ t' e2 rfl rfl rfl
            obtain ⟨n, k, st, s, f1, f2⟩ := hnext
            exact ⟨n + 1, k + 1, st, s, by rw [sliceLoop, if_neg (by exact h0), e1]; dsimp only; rw [f1]; rfl, f2⟩
  exact key _ _ _ t hs rfl rfl rfl

/-! ## Reading the path back -/

/-- Reversing the parent pointers moves the ray marks along. -/
theorem reverseLoop_any (d0 : Nat → Bool) : ∀ (l acc : List Nat) (f : Nat) (prev : Option Nat) (ray : Bool) (c : Nat) (p : Pool P C),
    Chain (par p) (some c) l → Chain (par p) prev acc → (∀ a ∈ l, a ∉ acc) → l.length ≤ f →
    (∀ a ∈ l, (p.nodes a).detached = d0 a) → acc.IsChain (fun x y => (p.nodes x).detached = d0 y) →
    (∀ x ∈ acc.getLast?, (p.nodes x).detached = false) → (∀ y ∈ acc.head?, ray = d0 y) → (acc = [] → ray = false) →
    ∃ p' last, reverseLoop f prev ray c p = some (p', last) ∧ Chain (par p') (some last) (l.reverse ++ acc) ∧
      (∀ i, (p'.nodes i).id = (p.nodes i).id ∧ (p'.nodes i).pos = (p.nodes i).pos) ∧ p'.maxNodes = p.maxNodes ∧
      (l.reverse ++ acc).IsChain (fun x y => (p'.nodes x).detached = d0 y) ∧
      ∀ x ∈ (l.reverse ++ acc).getLast?, (p'.nodes x).detached = false := by
  intro l
  induction l with
  | nil => intro acc f prev ray c p h; simp [Chain] at h
  | cons x l ih =>
    intro acc f prev ray c p hl ha hd hf h1 h2 h3 h4 h5
    cases f with
    | zero => simp at hf
    | succ f =>
    obtain ⟨hx, hl⟩ := hl
    simp only [Option.some.injEq] at hx
    subst hx
    rw [reverseLoop]
    dsimp only
    generalize hp' : p.write c { p.nodes c with pidx := nodeIdx prev, detached := ray } = p'
    have hpar : par p' = upd (par p) c prev := by
      rw [← hp']
      funext i
      unfold par Pool.write
      dsimp only
      by_cases hi : i = c
      · subst hi
        rw [upd_same, upd_same]
        cases prev <;> rfl
      · rw [upd_ne _ _ hi, upd_ne _ _ hi]
    have hids : ∀ i, (p'.nodes i).id = (p.nodes i).id ∧ (p'.nodes i).pos = (p.nodes i).pos := by
      intro i
      rw [← hp']
      unfold Pool.write
      dsimp only [upd]
      split
      · rename_i hi; subst hi; exact ⟨rfl, rfl⟩
      · exact ⟨rfl, rfl⟩
    have hdc : (p'.nodes c).detached = ray := by
      rw [← hp']
      unfold Pool.write
      simp only [upd_same]
    have hdo : ∀ i, i ≠ c → (p'.nodes i).detached = (p.nodes i).detached := by
      intro i hi
      rw [← hp']
      unfold Pool.write
      simp only [upd_ne _ _ hi]
    have hmax : p'.maxNodes = p.maxNodes := by rw [← hp']; rfl
    have hcl : c ∉ l := by
      have : Chain (par p) (some c) (c :: l) := ⟨rfl, hl⟩
      exact (List.nodup_cons.1 this.nodup).1
    have hca : c ∉ acc := hd c (by simp)
    have hacc : Chain (par p') (some c) (c :: acc) := by
      refine ⟨rfl, ?_⟩
      rw [hpar, upd_same]
      exact ha.upd_notMem hca
    have hchain : (c :: acc).IsChain (fun x y => (p'.nodes x).detached = d0 y) := by
      rw [List.isChain_cons]
      refine ⟨fun y hy => by rw [hdc]; exact h4 y hy, ?_⟩
      refine h2.imp_of_mem_imp ?_
      intro a b hab hb hE
      rw [hdo a (by rintro rfl; exact hca hab)]
      exact hE
    have hlast : ∀ x ∈ (c :: acc).getLast?, (p'.nodes x).detached = false := by
      intro x hx
      rw [List.getLast?_cons] at hx
      cases hg : acc.getLast? with
      | none =>
        rw [hg] at hx
        simp only [Option.getD_none, Option.mem_def, Option.some.injEq] at hx
        rw [← hx, hdc]
        exact h5 (by simpa using hg)
      | some y =>
        rw [hg] at hx
        simp only [Option.getD_some, Option.mem_def, Option.some.injEq] at hx
        rw [← hx, hdo y (by rintro rfl; exact hca (List.mem_of_getLast? hg))]
        exact h3 y hg
    cases hn : par p c with
    | none =>
      rw [hn] at hl
      rw [Chain.none_iff.1 hl]
      exact ⟨p', c, rfl, by simpa using hacc, hids, hmax, by simpa using hchain, by simpa using hlast⟩
    | some c' =>
      rw [hn] at hl
      obtain ⟨p2, last, r1, r2, r3, r4, r5, r6⟩ := ih (c :: acc) f (some c) (p.nodes c).detached c' p' (by rw [hpar]; exact hl.upd_notMem hcl) hacc
        (by
          intro a hal hac
          rcases List.mem_cons.1 hac with rfl | hac
          · exact hcl hal
          · exact hd a (by simp [hal]) hac)
        (by simpa using hf)
        (fun a hal => by rw [hdo a (by rintro rfl; exact hcl hal)]; exact h1 a (by simp [hal])) hchain hlast
        (by
          intro y hy
          simp only [List.head?_cons, Option.mem_def, Option.some.injEq] at hy
          rw [← hy]
          exact h1 c (by simp)) (by simp)
      refine ⟨p2, last, r1, ?_, fun i => ⟨(r3 i).1.trans (hids i).1, (r3 i).2.trans (hids i).2⟩, r4.trans hmax, ?_, ?_⟩
      · rw [List.reverse_cons, List.append_assoc]
        exact r2
      · rw [List.reverse_cons, List.append_assoc]
        exact r5
      · rw [List.reverse_cons, List.append_assoc]
        exact r6

/-- What the path is stored from: how each node leads to the next one. -/
def StoreOk (e : RayEnv P C) (q : Query P) (p : Pool P C) (x y : Nat) : Prop :=
  (((p.nodes x).detached = false ∧ Edge e.toEnv (p.nodes x).id (p.nodes y).id) ∨
    ((p.nodes x).detached = true ∧ ∃ g c, e.ray (p.nodes x).id (p.nodes x).pos (p.nodes y).pos g = some c)) ∧
  Entry e.toEnv q (p.nodes x).id (p.nodes x).pos ∧ ∃ m, Edge e.toEnv m (p.nodes y).id ∧ e.mid m (p.nodes y).id = some (p.nodes y).pos

/-- What is stored: the polygons along the links and along the rays, as far as there is room. With less room the code may panic. -/
theorem storeLoop_any {e : RayEnv P C} (hfit : RaysFit e) {q : Query P} (hmeet : RaysMeet e q) (p : Pool P C) : ∀ (l : List Nat) (c : Nat),
    Chain (par p) (some c) l → l.IsChain (StoreOk e q p) → (∀ x ∈ l.getLast?, (p.nodes x).detached = false) →
    ∃ full : List Ref, Corridor e.toEnv (p.nodes c).id full ∧ (∀ x ∈ l.getLast?, full.getLast? = some (p.nodes x).id) ∧
      ∀ (cap f : Nat) (path : List Ref) (st : Status), l.length ≤ f → path.length ≤ cap →
        (path.length + full.length ≤ cap → storeLoop e p cap f c path st =
          some (path ++ full, if cap = path.length + full.length then st ||| Status.bufferTooSmall else st)) ∧
        (cap < path.length + full.length → storeLoop e p cap f c path st = none ∨
          ∃ pre, storeLoop e p cap f c path st = some (pre, st ||| Status.bufferTooSmall) ∧ pre <+: path ++ full) := by
  intro l
  induction l with
  | nil => intro c h; simp [Chain] at h
  | cons x l ih =>
    intro c hl hok hlast
    obtain ⟨hx, hl⟩ := hl
    simp only [Option.some.injEq] at hx
    subst hx
    have hbts : Status.bufferTooSmall &&& Status.detailMask = Status.bufferTooSmall := by decide
    cases l with
    | nil =>
      have hd : (p.nodes c).detached = false := hlast c rfl
      have hn : par p c = none := hl
      refine ⟨[(p.nodes c).id], ⟨rfl, by simp⟩, by simp, fun cap f path st hf hc => ?_⟩
      cases f with
      | zero => simp at hf
      | succ f =>
      rw [storeLoop, storeNode, if_neg (by rw [hd]; simp), hn]
      simp only [List.length_cons, List.length_nil, Nat.zero_add]
      refine ⟨fun h => ?_, fun h => ?_⟩
      · rw [if_neg (by omega)]
        dsimp only
        by_cases he : cap = path.length + 1
        · rw [if_pos (show cap ≤ path.length + 1 by omega), if_pos (by decide), if_pos he, hbts]
        · rw [if_neg (show ¬ cap ≤ path.length + 1 by omega), if_neg (by decide), if_neg he]
      · rw [if_pos (by omega)]
        exact .inl rfl
    | cons y l =>
      rw [List.isChain_cons_cons] at hok
      obtain ⟨⟨hway, hent, m, hm1, hm2⟩, hok⟩ := hok
      have hn : par p c = some y := hl.1
      have hl' : Chain (par p) (some y) (y :: l) := ⟨rfl, hl.2⟩
      obtain ⟨full, ⟨f1, f2⟩, f3, f4⟩ := ih y hl' hok (by rw [List.getLast?_cons_cons] at hlast; exact hlast)
      obtain ⟨t, rfl⟩ : ∃ t, full = (p.nodes y).id :: t := by
        cases full with
        | nil => simp at f1
        | cons a t =>
          simp only [List.head?_cons, Option.some.injEq] at f1
          exact ⟨t, by rw [f1]⟩
      rcases hway with ⟨w1, w2⟩ | ⟨w1, g, rc, w2⟩
      · refine ⟨(p.nodes c).id :: (p.nodes y).id :: t, ⟨rfl, List.isChain_cons_cons.2 ⟨w2, f2⟩⟩, ?_, fun cap f path st hf hc => ?_⟩
        · intro x hx
          rw [List.getLast?_cons_cons] at hx ⊢
          exact f3 x hx
        cases f with
        | zero => simp at hf
        | succ f =>
        rw [storeLoop, storeNode, if_neg (by rw [w1]; simp), hn]
        simp only [List.length_cons] at f4 hf ⊢
        refine ⟨fun h => ?_, fun h => ?_⟩
        · rw [if_neg (by omega)]
          dsimp only
          rw [if_neg (show ¬ cap ≤ path.length + 1 by omega), if_neg (by decide)]
          have := (f4 cap f (path ++ [(p.nodes c).id]) st (by omega) (by simp; omega)).1 (by simp; omega)
          rw [this]
          simp only [List.append_assoc, List.singleton_append, List.length_append, List.length_cons, List.length_nil]
          congr 2
          congr 1
          simp only [eq_iff_iff]
          omega
        · by_cases h0 : cap ≤ path.length
          · rw [if_pos h0]; exact .inl rfl
          rw [if_neg h0]
          dsimp only
          by_cases h1 : cap ≤ path.length + 1
          · rw [if_pos h1, if_pos (by decide), hbts]
            refine .inr ⟨_, rfl, ?_⟩
            rw [List.prefix_append_right_inj]
            exact ⟨_, rfl⟩
          · rw [if_neg h1, if_neg (by decide)]
            have := (f4 cap f (path ++ [(p.nodes c).id]) st (by omega) (by simp; omega)).2 (by simp; omega)
            simpa [List.append_assoc] using this
      · obtain ⟨vis, hv⟩ := hfit.through _ _ _ _ _ w2
        have hvne : vis ≠ [] := by
          intro h0
          have := hv.head
          rw [h0] at this
          simp at this
        obtain ⟨ini, z, rfl⟩ : ∃ ini z, vis = ini ++ [z] := ⟨_, _, (List.dropLast_append_getLast hvne).symm⟩
        have hz : (ini ++ [z]).getLast? = some z := by simp
        obtain ⟨add, ha1, ha2, ha3⟩ : ∃ add : List Ref, (∀ path : List Ref, (if (path ++ (ini ++ [z])).getLast? = some (p.nodes y).id then (path ++ (ini ++ [z])).dropLast
            else path ++ (ini ++ [z])) = path ++ add) ∧ ini <+: add ∧ Corridor e.toEnv (p.nodes c).id (add ++ (p.nodes y).id :: t) ∧ ini.length + 1 ≤ add.length + 1 := by
          by_cases hzy : z = (p.nodes y).id
          · refine ⟨ini, fun path => ?_, ⟨[], by simp⟩, ⟨?_, ?_⟩, by omega⟩
            · rw [if_pos (by rw [← List.append_assoc, List.getLast?_append]; simp [hzy]), ← List.append_assoc, List.dropLast_concat]
            · have := hv.head
              rw [hzy] at this
              cases ini with
              | nil => simpa using this
              | cons a ini => simpa using this
            · have := hv.chain
              rw [hzy] at this
              exact List.isChain_split.2 ⟨this, f2⟩
          · refine ⟨ini ++ [z], fun path => ?_, ⟨[z], rfl⟩, ⟨?_, ?_⟩, by simp⟩
            · rw [if_neg (by rw [← List.append_assoc, List.getLast?_append]; simpa using hzy)]
            · have := hv.head
              cases ini with
              | nil => simpa using this
              | cons a ini => simpa using this
            · refine List.isChain_append.2 ⟨hv.chain, f2, ?_⟩
              intro a ha b hb
              rw [hz] at ha
              simp only [Option.mem_def, Option.some.injEq, List.head?_cons] at ha hb
              subst ha hb
              exact (hmeet _ _ _ _ _ _ _ _ _ w2 hv hent hm1 hm2 hz).resolve_left hzy
        obtain ⟨ha3, ha4⟩ := ha3
        refine ⟨add ++ (p.nodes y).id :: t, ha3, ?_, fun cap f path st hf hc => ?_⟩
        · intro x hx
          rw [List.getLast?_append, f3 x (by rw [List.getLast?_cons_cons] at hx; exact hx)]
          rfl
        cases f with
        | zero => simp at hf
        | succ f =>
        have hal : add.length ≤ (ini ++ [z]).length := by
          have := ha1 []
          simp only [List.nil_append] at this
          rw [← this]
          split
          · simp
          · simp
        rw [storeLoop, storeNode, if_pos w1, hn]
        dsimp only
        rw [hv.path]
        simp only [List.length_cons, List.length_append, List.length_nil] at f4 hf hal ⊢
        by_cases hroom : cap - path.length < ini.length + (0 + 1)
        · rw [if_pos hroom]
          refine ⟨fun h => by omega, fun _ => ?_⟩
          split
          · exact .inl rfl
          · rename_i hsome
            split at hsome
            · simp at hsome
            simp only [Option.some.injEq, Prod.mk.injEq] at hsome
            obtain ⟨e1, e2⟩ := hsome
            rw [← e2, if_pos (by decide), show (Status.success ||| Status.bufferTooSmall) &&& Status.detailMask = Status.bufferTooSmall by decide, ← e1]
            have hpre : path ++ List.take (cap - path.length) (ini ++ [z]) <+: path ++ (add ++ (p.nodes y).id :: t) := by
              rw [List.prefix_append_right_inj, List.take_append_of_le_length (by omega)]
              exact (List.take_prefix _ _).trans (ha2.trans ⟨_, rfl⟩)
            refine .inr ⟨_, rfl, ?_⟩
            split
            · exact (List.dropLast_prefix _).trans hpre
            · exact hpre
        · rw [if_neg hroom, List.take_of_length_le (by simp; omega), if_neg (by simp), ha1]
          dsimp only
          rw [if_neg (by decide)]
          obtain ⟨g1, g2⟩ := f4 cap f (path ++ add) st (by omega) (by simp; omega)
          simp only [List.length_append, List.append_assoc] at g1 g2
          refine ⟨fun h => ?_, fun h => g2 (by omega)⟩
          rw [g1 (by omega)]
          congr 2
          congr 1
          simp only [eq_iff_iff]
          omega

theorem AInv.ways {e : RayEnv P C} {q : Query P} {mx : Nat} {s : Search P C} (hs : AInv e q mx none s) {b : Nat} {l : List Nat}
    (hl : Chain (par s.pool) (some b) l) (hc : ∀ a ∈ l, a < s.pool.count) :
    l.IsChain (fun i j => Way e (s.pool.nodes j) (s.pool.nodes i) ∧ i ≠ 0 ∧ i < s.pool.count ∧ j < s.pool.count) := by
  induction l generalizing b with
  | nil => exact List.IsChain.nil
  | cons c l ih =>
    obtain ⟨hbc, hl⟩ := hl
    simp only [Option.some.injEq] at hbc
    subst hbc
    by_cases hb0 : b = 0
    · subst hb0
      have : par s.pool 0 = none := by
        unfold par
        rw [hs.root.2.2.1]
        rfl
      rw [this] at hl
      rw [Chain.none_iff.1 hl]
      exact List.IsChain.singleton _
    · obtain ⟨j, j1, j2, j3, j4⟩ := hs.parent b (hc b (by simp)) hb0
      have : par s.pool b = some j := by
        unfold par
        rw [j2]
        rfl
      rw [this] at hl
      obtain ⟨t, rfl, ht⟩ := Chain.some_iff.1 hl
      exact List.IsChain.cons_cons ⟨j4, hb0, hc b (by simp), j1⟩ (ih hl (fun a ha => hc a (by simp [ha])))

theorem AnySnap.not_failed {e : RayEnv P C} {q : Query P} {any : Bool} {mx : Nat} {s : Sliced P C} {t : Search P C} {b : Nat} (h : AnySnap e q any mx s t b) :
    ∃ done : Bool, s.status = if done = true then completed (Status.inProgress ||| (if t.outOfNodes = true then Status.outOfNodes else 0#32))
        else Status.inProgress ||| (if t.outOfNodes = true then Status.outOfNodes else 0#32) := by
  rcases h.stage with ⟨h1, _⟩ | ⟨h1, _⟩ | ⟨h1, _⟩
  · exact ⟨false, by rw [h1]; rfl⟩
  · exact ⟨true, by rw [h1]; rfl⟩
  · exact ⟨true, by rw [h1]; rfl⟩

/-- Finalizing at any point of the search. -/
theorem AnySnap.final {e : RayEnv P C} (hfit : RaysFit e) {q : Query P} (hmeet : RaysMeet e q) (hmid : MidsExist e) {any : Bool} {mx : Nat}
    {s : Sliced P C} {t : Search P C} {b : Nat} (h : AnySnap e q any mx s t b) (hne : q.start ≠ q.goal) (z : P) :
    ∃ full : List Ref, Corridor e.toEnv q.start full ∧ full.getLast? = some (t.pool.nodes b).id ∧
      ∀ cap, (full.length ≤ cap → ∃ s', sliceFinal e s z cap = some (full,
          pathStatus (decide (cap ≤ full.length)) (decide ((t.pool.nodes b).id ≠ q.goal)) t.outOfNodes, s')) ∧
        (cap < full.length → sliceFinal e s z cap = none ∨ ∃ pre s', sliceFinal e s z cap = some (pre,
          pathStatus (decide (cap ≤ full.length)) (decide ((t.pool.nodes b).id ≠ q.goal)) t.outOfNodes, s') ∧ pre <+: full) := by
  obtain ⟨l, c1, c2⟩ := h.inv.chain b h.live
  have hpar : par s.pool = par t.pool := by
    funext i
    unfold par
    rw [(h.nodes i).2.1]
  have hmx : s.pool.maxNodes = mx := h.max.trans h.inv.max
  have hlen : l.length ≤ mx := by
    rw [← h.inv.max]
    exact Nat.le_trans (c1.length_le c2) h.inv.pool.count
  obtain ⟨p', last, r1, r2, r3, r4, r5, r6⟩ := reverseLoop_any (fun i => (t.pool.nodes i).detached) l [] s.pool.maxNodes none false b s.pool
    (by rw [hpar]; exact c1) (Chain.none_iff.2 rfl) (by simp) (by rw [hmx]; exact hlen) (fun a _ => (h.nodes a).2.2.1) (by simp) (by simp) (by simp) (by simp)
  rw [List.append_nil] at r2 r5 r6
  have hid : ∀ i, (p'.nodes i).id = (t.pool.nodes i).id := fun i => (r3 i).1.trans (h.nodes i).1
  have hps : ∀ i, (p'.nodes i).pos = (t.pool.nodes i).pos := fun i => (r3 i).2.trans (h.nodes i).2.2.2
  have hrev : l.reverse.IsChain (fun j i => Way e (t.pool.nodes j) (t.pool.nodes i) ∧ i ≠ 0 ∧ i < t.pool.count ∧ j < t.pool.count) :=
    List.isChain_reverse.2 (h.inv.ways c1 c2)
  have hok : l.reverse.IsChain (StoreOk e q p') := by
    have key : ∀ L : List Nat, L.IsChain (fun j i => Way e (t.pool.nodes j) (t.pool.nodes i) ∧ i ≠ 0 ∧ i < t.pool.count ∧ j < t.pool.count) →
        L.IsChain (fun x y => (p'.nodes x).detached = (t.pool.nodes y).detached) → L.IsChain (StoreOk e q p') := by
      intro L
      induction L with
      | nil => intro _ _; exact List.IsChain.nil
      | cons x L ih =>
        cases L with
        | nil => intro _ _; exact List.IsChain.singleton _
        | cons y L =>
          intro h1 h2
          rw [List.isChain_cons_cons] at h1 h2 ⊢
          refine ⟨?_, ih h1.2 h2.2⟩
          obtain ⟨w, y0, yc, xc⟩ := h1.1
          unfold StoreOk
          rw [hid x, hid y, hps x, hps y, h2.1]
          refine ⟨w, ?_, ?_⟩
          · by_cases hx0 : x = 0
            · subst hx0
              exact .inl ⟨h.inv.root.2.1, h.inv.root.2.2.2.2⟩
            · exact .inr (h.inv.pos x xc hx0)
          obtain ⟨m, m1, m2⟩ := h.inv.pos y yc y0
          refine ⟨m, m1, ?_⟩
          rcases m2 with m2 | m2
          · exact m2
          · obtain ⟨v, hv⟩ := hmid m _ m1
            rw [m2] at hv
            simp at hv
    exact key _ hrev r5
  obtain ⟨full, f1, f2, f3⟩ := storeLoop_any hfit hmeet p' l.reverse last r2 hok r6
  have hlast : l.reverse.getLast? = some b := by
    rw [List.getLast?_reverse]
    cases l with
    | nil => simp [Chain] at c1
    | cons x l =>
      have := c1.1
      simp only [Option.some.injEq] at this
      rw [this]
      rfl
  have hfirst : last = 0 := by
    have h0 := h.inv.zero_mem c1 c2
    have : l.reverse.head? = some 0 := by rw [List.head?_reverse, h0]
    cases hr : l.reverse with
    | nil => rw [hr] at this; simp at this
    | cons x r =>
      rw [hr] at this r2
      have h1 := r2.1
      simp only [Option.some.injEq, List.head?_cons] at h1 this
      rw [h1, this]
  refine ⟨full, ?_, ?_, fun cap => ?_⟩
  · rw [hfirst, hid, h.inv.root.2.1] at f1
    exact f1
  · rw [f2 b hlast, hid]
  · obtain ⟨done, hd⟩ := h.not_failed
    have hfin : ∀ r, storeLoop e p' cap s.pool.maxNodes last []
        (if (decide ((t.pool.nodes b).id ≠ q.goal)) = true then s.status ||| Status.partialResult else s.status) = r →
        sliceFinal e s z cap = r.map fun o => (o.1, completed o.2, s.wiped z p') := by
      intro r hr
      unfold sliceFinal
      rw [if_neg (by rw [hd, slice_failed]; simp), if_neg (by rw [h.query]; exact hne), h.best]
      dsimp only
      unfold traceBack
      rw [r1, Option.bind_some, (h.nodes b).1, h.query, ← hr]
      simp only [decide_eq_true_eq]
    obtain ⟨g1, g2⟩ := f3 cap s.pool.maxNodes [] (if (decide ((t.pool.nodes b).id ≠ q.goal)) = true then s.status ||| Status.partialResult else s.status)
      (by rw [hmx]; simpa using hlen) (by simp)
    simp only [List.length_nil, Nat.zero_add, List.nil_append] at g1 g2
    refine ⟨fun hc => ⟨s.wiped z p', ?_⟩, fun hc => ?_⟩
    · rw [hfin _ (g1 hc), Option.map_some]
      congr 3
      rw [← status_final _ _ _ done, hd]
      have : (decide (cap ≤ full.length) = true) = (cap = full.length) := by
        simp only [decide_eq_true_eq, eq_iff_iff]
        omega
      simp only [this]
    · rcases g2 hc with g | ⟨pre, g, g'⟩
      · exact .inl (by rw [hfin _ g]; rfl)
      · refine .inr ⟨pre, s.wiped z p', ?_, g'⟩
        rw [hfin _ g, Option.map_some]
        congr 3
        rw [← status_final _ _ _ done, hd, decide_eq_true (by omega : cap ≤ full.length)]
        simp

/-! ## Starting the search -/

theorem anyInit_snap {e : RayEnv P C} {q : Query P} {p : Pool P C} {h : Heap} {mx : Nat} (hs : SliceSetting e q p h mx) (any : Bool) (c0 : C) :
    ∃ t, sliceInit e q any c0 p h = some (Status.inProgress, ofAny q any t) ∧ AInv e q mx none t := by
  obtain ⟨t, i1, i2⟩ := initSearch_inv (e := flatEnv e) hs.base.laws hs.ne hs.base.obj
  have hi : initSearch e.toEnv q p h = some t := i1
  have hz : ∀ r, e.valid r = true → r ≠ 0#32 := by
    intro r hr h0
    rw [h0, hs.zero] at hr
    simp at hr
  have hoon : t.outOfNodes = false ∧ t.pool.count = 1 ∧ (t.pool.nodes 0).closed = false ∧ (t.pool.nodes 0).pos = q.startPos := by
    have hcl : PoolInv p.clear := clear_inv hs.base.obj.hash hs.base.obj.hash' (by rw [hs.base.obj.max]; exact hs.base.obj.max1)
    have hc0 : p.clear.count = 0 := rfl
    unfold initSearch at hi
    rcases node_cases hcl (q.start, 0#8) with ⟨i, h1, h2, h3⟩ | ⟨h1, h2, h3⟩ | ⟨p1, h1, h2, h3, h4, h5, h6, h7, h8⟩
    · omega
    · rw [h1] at hi
      simp at hi
    · rw [h1] at hi
      dsimp only at hi
      split at hi
      · cases hi
      cases hi
      refine ⟨rfl, ?_, ?_, ?_⟩
      · show p1.count = 1
        rw [h5, hc0]
      · show (upd p1.nodes p.clear.count _ 0).closed = false
        rw [hc0, upd_same]
        rfl
      · show (upd p1.nodes p.clear.count _ 0).pos = q.startPos
        rw [hc0, upd_same]
        rfl
  obtain ⟨o1, o2, o3, o4⟩ := hoon
  have h1 : ∀ i, i < t.pool.count → i = 0 := by intro i hi; omega
  refine ⟨t, ?_, ?_⟩
  · unfold sliceInit
    rw [if_neg (by
      simp only [not_or]
      exact ⟨hz _ hs.start, hz _ hs.goal, by rw [hs.start]; simp, by rw [hs.goal]; simp⟩), if_neg hs.ne, hi]
    unfold ofAny
    rw [o1]
    simp
  · refine ⟨i2.pool, i2.max, i2.len, i2.heap, i2.mem, i2.flags, ⟨i2.root.1, i2.root.2.1, i2.root.2.2.1, i2.root.2.2.2.1, o4⟩, ?_, i2.chain, i2.tot,
      i2.goal, ?_, i2.best.1, ?_, ?_⟩
    · intro i hi h0; exact absurd (h1 i hi) h0
    · intro i hi hc
      rw [h1 i hi, o3] at hc
      simp at hc
    · intro i hi h0; exact absurd (h1 i hi) h0
    · intro i hi
      rw [h1 i hi, i2.root.2.1]

theorem anyRun_snap {e : RayEnv P C} (hfit : RaysFit e) {q : Query P} {p : Pool P C} {h : Heap} {mx : Nat} (hs : SliceSetting e q p h mx) (any : Bool)
    (c0 : C) (ns : List Nat) : ∃ s1 k s t b, sliceInit e q any c0 p h = some (Status.inProgress, s1) ∧ sliceRun e ns s1 = some (k, s) ∧
      AnySnap e q any mx s t b := by
  obtain ⟨t, i1, i2⟩ := anyInit_snap hs any c0
  cases ns with
  | nil => exact ⟨_, 0, _, t, t.best, i1, rfl, AnySnap.running i2⟩
  | cons n ns =>
    obtain ⟨k, s, t', b, u1, u2⟩ := anyUpdate_snap (any := any) hs.base.laws hs.base.nonneg hfit.cost hs.links hs.start hs.goal ((n :: ns).sum) i2
    exact ⟨_, k, s, t', b, i1, by rw [slice_any, u1]; rfl, u2⟩

theorem anyRun_done [WellFoundedLT C] {e : RayEnv P C} (hfit : RaysFit e) {q : Query P} {p : Pool P C} {h : Heap} {mx : Nat}
    (hs : SliceSetting e q p h mx) (any : Bool) (c0 : C) :
    ∃ N s1, sliceInit e q any c0 p h = some (Status.inProgress, s1) ∧
      ∀ ns : List Nat, ns ≠ [] → N ≤ ns.sum → ∃ k s, sliceRun e ns s1 = some (k, s) ∧ s.status.isInProgress = false := by
  obtain ⟨t, i1, i2⟩ := anyInit_snap hs any c0
  obtain ⟨N, k, st, s, l1, l2⟩ := anyLoop_terminates (any := any) hs.base.laws hs.base.nonneg hfit.cost hs.links hs.start i2
  refine ⟨N, _, i1, fun ns h0 hN => ?_⟩
  cases ns with
  | nil => simp at h0
  | cons n ns =>
    rw [slice_any]
    generalize (n :: ns).sum = m at hN ⊢
    obtain ⟨d, rfl⟩ := Nat.exists_eq_add_of_le hN
    unfold sliceUpdate
    rw [if_neg (by rw [ofAny_running]; simp), if_neg (by
      show ¬ (e.valid q.start = false ∨ e.valid q.goal = false)
      rw [hs.start, hs.goal]; simp), sliceLoop_add, l1]
    cases st with
    | true => exact ⟨k, s, by simp, (sliceLoop_kept N l1).2 rfl⟩
    | false =>
      have h0 := l2.resolve_left (by simp)
      simp only [Option.bind_some, Bool.false_eq_true, if_false]
      rw [sliceLoop_empty e d s h0]
      refine ⟨k + 0, exhausted s, by simp, ?_⟩
      unfold exhausted
      rw [if_pos h0]
      exact completed_done _

/-! ## Properties -/

/-- **C167**, the part that holds. With the any-angle option (and without), whatever the slicing and whenever it is finalized, over a mesh where a ray
to the place at which a polygon is entered ends in this polygon or in one that is linked to it: there is a corridor `full` from the start polygon
which a buffer with room for it receives; `PartialResult` is set exactly when it does not end at the end polygon, and `BufferTooSmall` exactly when the
buffer is filled. With less room the buffer receives the first polygons of it and `BufferTooSmall` is set, or the call panics.
Missing in the full statement: the first is not so over other meshes (`any_disconnected_refuted`), and the call does panic
(`any_buffer_refuted`). -/
theorem any_corridor_partial {e : RayEnv P C} (hfit : RaysFit e) {q : Query P} (hmeet : RaysMeet e q) (hmid : MidsExist e) {p : Pool P C} {h : Heap}
    {mx : Nat} (hs : SliceSetting e q p h mx) (any : Bool) (c0 : C) (z : P) (ns : List Nat) :
    ∃ (s1 : Sliced P C) (k : Nat) (s : Sliced P C) (full : List Ref), sliceInit e q any c0 p h = some (Status.inProgress, s1) ∧
      sliceRun e ns s1 = some (k, s) ∧ Corridor e.toEnv q.start full ∧
      ∀ cap, (full.length ≤ cap → ∃ st s', sliceFinal e s z cap = some (full, st, s') ∧ st.failed = false ∧
          (st.detail Status.partialResult = false ↔ full.getLast? = some q.goal) ∧
          (st.detail Status.bufferTooSmall = true ↔ cap = full.length)) ∧
        (cap < full.length → sliceFinal e s z cap = none ∨ ∃ pre st s', sliceFinal e s z cap = some (pre, st, s') ∧ pre <+: full ∧
          st.failed = false ∧ st.detail Status.bufferTooSmall = true) := by
  obtain ⟨s1, k, s, t, b, h1, h2, h3⟩ := anyRun_snap hfit hs any c0 ns
  obtain ⟨full, f1, f2, f3⟩ := h3.final hfit hmeet hmid hs.ne z
  refine ⟨s1, k, s, full, h1, h2, f1, fun cap => ⟨fun hc => ?_, fun hc => ?_⟩⟩
  · obtain ⟨s', hs'⟩ := (f3 cap).1 hc
    refine ⟨_, s', hs', pathStatus_failed _ _ _, ?_, ?_⟩
    · rw [pathStatus_partial, f2]
      simp
    · rw [pathStatus_tooSmall, decide_eq_true_eq]
      omega
  · rcases (f3 cap).2 hc with g | ⟨pre, s', g, g'⟩
    · exact .inl g
    · exact .inr ⟨pre, _, s', g, g', pathStatus_failed _ _ _, by rw [pathStatus_tooSmall, decide_eq_true_eq]; omega⟩

theorem AInv.all_closed {e : RayEnv P C} {q : Query P} {mx : Nat} {s : Search P C} (hs : AInv e q mx none s)
    (h0 : s.heap.size = 0) {i : Nat} (hi : i < s.pool.count) : (s.pool.nodes i).closed = true ∧ (s.pool.nodes i).id ≠ q.goal := by
  have hc : (s.pool.nodes i).closed = true := by
    rw [hs.flags i hi]
    cases ho : (s.pool.nodes i).opened
    · rfl
    · have := (hs.mem i).2 ⟨hi, ho⟩
      have hl := toList_length s.heap
      rw [h0] at hl
      rw [List.length_eq_zero_iff.1 hl] at this
      simp at this
  exact ⟨hc, hs.goal i hi hc⟩

/-- **C167**: the search ends, with this option too: from some number of iterations on, however they are sliced, the update reports a result, and then
the end polygon is found if it can be reached and the pool did not run out. -/
theorem any_complete [WellFoundedLT C] {e : RayEnv P C} (hfit : RaysFit e) {q : Query P} (hmeet : RaysMeet e q) (hmid : MidsExist e) {p : Pool P C}
    {h : Heap} {mx : Nat} (hs : SliceSetting e q p h mx) (any : Bool) (c0 : C) (z : P) :
    ∃ N s1, sliceInit e q any c0 p h = some (Status.inProgress, s1) ∧
      ∀ ns : List Nat, ns ≠ [] → N ≤ ns.sum → ∃ k s, sliceRun e ns s1 = some (k, s) ∧ s.status.isInProgress = false ∧
        ∃ n, ∀ cap, n ≤ cap → ∃ path st s', sliceFinal e s z cap = some (path, st, s') ∧
          (Relation.ReflTransGen (Edge e.toEnv) q.start q.goal → st.detail Status.outOfNodes = false →
            path.getLast? = some q.goal ∧ st.detail Status.partialResult = false) := by
  obtain ⟨N, s1, i1, hN⟩ := anyRun_done hfit hs any c0
  refine ⟨N, s1, i1, fun ns h0 hle => ?_⟩
  obtain ⟨k, s, r1, r2⟩ := hN ns h0 hle
  obtain ⟨s1', k', s', t, b, h1, h2, h3⟩ := anyRun_snap hfit hs any c0 ns
  rw [i1] at h1
  cases h1
  rw [r1] at h2
  cases h2
  obtain ⟨full, f1, f2, f3⟩ := h3.final hfit hmeet hmid hs.ne z
  refine ⟨k, s, r1, r2, full.length, fun cap hcap => ?_⟩
  obtain ⟨sw, hsw⟩ := (f3 cap).1 hcap
  refine ⟨_, _, sw, hsw, fun hreach hoon => ?_⟩
  rw [pathStatus_oon] at hoon
  suffices hg : (t.pool.nodes b).id = q.goal by
    refine ⟨by rw [f2, hg], ?_⟩
    rw [pathStatus_partial, decide_eq_false_iff_not, not_not]
    exact hg
  rcases h3.stage with ⟨g1, _⟩ | ⟨_, g2⟩ | ⟨_, _, g0⟩
  · rw [g1, ofAny_running] at r2
    simp at r2
  · exact g2
  · exfalso
    have key : ∀ b, Relation.ReflTransGen (Edge e.toEnv) q.start b → ∃ i, i < t.pool.count ∧ (t.pool.nodes i).id = b := by
      intro b hb
      induction hb with
      | refl => exact ⟨0, h3.inv.root.1, h3.inv.root.2.1⟩
      | tail _ hE ih =>
        obtain ⟨i, hi, rfl⟩ := ih
        obtain ⟨sd, e1, e2, e3⟩ := hE
        rcases h3.inv.exp i hi (h3.inv.all_closed g0 hi).1 _ (List.mem_map.2 ⟨_, e1, rfl⟩) (by intro d hd; simp at hd) e2 e3 with hc | hk
        · rw [hoon] at hc; simp at hc
        · exact hk
    obtain ⟨i, hi, hid⟩ := key _ hreach
    exact (h3.inv.all_closed g0 hi).2 hid

/-! ## Rays that `Raycast` casts -/

/-- What the sliced search sees of `Raycast`: in the search (detour/query.go:1922-1936) the cost of the ray with the option for costs, when `T` is at
least `one`; when storing (detour/query.go:2095-2100) `Raycast2` into what is left of the buffer. `geo a b` is the geometry of the ray from `a` to
`b`, `rc a b` the costs along it; `zero` is 0 and `ge` compares parameters. -/
def castEnv {F : Type} (base : Env P C) (m : RayMesh) (geo : P → P → RayGeom F) (zero one : F) (ge : F → F → Bool)
    (rc : P → P → RayPos F → RayPos F → Ref → Ref → Ref → C) (fuel : Nat) (near : P → P → Bool) : RayEnv P C where
  toEnv := base
  near := near
  ray r a b g :=
    match raycast m (geo a b) true (rc a b) fuel r g ⟨zero, none, some 0, [], 0, 0, 0⟩ with
    | some (.ok _ h) => if ge h.t one = true then some h.cost else none
    | _ => none
  rayPath r a b room :=
    match raycast2 m (geo a b) zero (rc a b) fuel r (List.replicate room 0#32) room with
    | some (.ok st h) => (h.path.take h.count, st)
    | _ => ([], 0)

/-- The links and the filter that rays see are those of the search. -/
structure CastFits {F : Type} (base : Env P C) (m : RayMesh) (zero one : F) (ge : F → F → Bool)
    (rc : P → P → RayPos F → RayPos F → Ref → Ref → Ref → C) : Prop where
  ref : ∀ c, ∀ l ∈ m.links c, l.ref ≠ 0#32 ∧ (l.ref, l.side) ∈ base.links c
  pass : ∀ c, m.pass c = true → base.pass c = true
  zero : ge zero one = false
  cost : ∀ a b x y r s t, 0 ≤ rc a b x y r s t

theorem rayLegs_nonneg {F : Type} {g : RayGeom F} {cost : RayPos F → RayPos F → Ref → Ref → Ref → C} (hc : ∀ x y r s t, 0 ≤ cost x y r s t)
    (fin : RayEnd F) (vis : List Ref) : ∀ prev pos t, ∀ c ∈ rayLegs g cost fin prev pos t vis, 0 ≤ c := by
  induction vis with
  | nil => intro prev pos t c h; simp [rayLegs] at h
  | cons v vis ih =>
    intro prev pos t c h
    rw [rayLegs] at h
    split at h
    · rcases List.mem_cons.1 h with rfl | h
      · exact hc _ _ _ _ _
      · exact ih _ _ _ c h
    · rcases List.mem_cons.1 h with rfl | h
      · exact hc _ _ _ _ _
      · simp at h
    · simp at h

theorem foldl_nonneg (hl : CostLaws C) (l : List C) : ∀ c : C, 0 ≤ c → (∀ x ∈ l, 0 ≤ x) → 0 ≤ l.foldl (· + ·) c := by
  induction l with
  | nil => intro c h _; exact h
  | cons x l ih =>
    intro c h hx
    exact ih _ (le_trans h (hl.grow c x (hx x (by simp)))) fun y hy => hx y (by simp [hy])

theorem RayWalk.edges {F : Type} {base : Env P C} {m : RayMesh} {g : RayGeom F}
    (hl : ∀ c, ∀ l ∈ m.links c, l.ref ≠ 0#32 ∧ (l.ref, l.side) ∈ base.links c) (hp : ∀ c, m.pass c = true → base.pass c = true) {c : Ref}
    {vis : List Ref} {fin : RayEnd F} (h : RayWalk m g c vis fin) :
    vis.IsChain (Edge base) ∧ (vis = [] ∨ vis.head? = some c) := by
  induction h with
  | missed _ => exact ⟨.nil, .inl rfl⟩
  | reached _ => exact ⟨.singleton _, .inr rfl⟩
  | wall _ _ => exact ⟨.singleton _, .inr rfl⟩
  | @step c t e l vis fin hc ho hw ih =>
    refine ⟨?_, .inr rfl⟩
    rcases ih.2 with h | h
    · subst h; exact .singleton _
    · cases vis with
      | nil => simp at h
      | cons v vis =>
        simp only [List.head?_cons, Option.some.injEq] at h
        subst h
        exact .cons_cons ⟨l.side, (hl c l ho.mem).2, (hl c l ho.mem).1, hp _ ho.pass⟩ ih.1

/-- The way of a ray that reaches its end. -/
theorem cast_walk {F : Type} {base : Env P C} {m : RayMesh} {geo : P → P → RayGeom F} {zero one : F} {ge : F → F → Bool}
    {rc : P → P → RayPos F → RayPos F → Ref → Ref → Ref → C} {fuel : Nat} {near : P → P → Bool} (hf : CastFits base m zero one ge rc)
    {r : Ref} {a b : P} {g : Ref} {c : C} (h : (castEnv base m geo zero one ge rc fuel near).ray r a b g = some c) :
    ∃ vis fin, RayWalk m (geo a b) r vis fin ∧ vis ≠ [] ∧ RayThrough (castEnv base m geo zero one ge rc fuel near) r a b vis ∧
      m.valid r = true ∧
      ge (match fin with | .reached => (geo a b).maxT | _ => furthestExit (geo a b) zero vis) one = true ∧
      c = (rayLegs (geo a b) (rc a b) fin g .start zero vis).foldl (· + ·) 0 := by
  have hz : ∀ c, ∀ l ∈ m.links c, l.ref ≠ 0#32 := fun c l hl => (hf.ref c l hl).1
  simp only [castEnv] at h
  split at h
  · rename_i st h' hr
    split at h
    · rename_i hge
      cases h
      unfold raycast at hr
      split at hr
      · cases hr
        exact absurd (hf.zero.symm.trans hge) (by simp)
      rename_i hv
      split at hr
      · cases hr
        exact absurd (hf.zero.symm.trans hge) (by simp)
      have hr0 : r ≠ 0#32 := fun h => hv (.inl h)
      have hrv : m.valid r = true := by
        cases hx : m.valid r
        · exact absurd (.inr hx) hv
        · rfl
      obtain ⟨vis, fin, st', h2, e1, e2, e3, e4, e5, e6, e7, e8, e9, e10⟩ :=
        rayLoop_trace m (geo a b) true (rc a b) hz fuel g r .start 0 Status.success _ _ hr0 (Nat.zero_le _) (by simp) hr
      cases e1
      have hne : vis ≠ [] := by
        intro h0
        subst h0
        cases fin with
        | reached => cases e2
        | wall _ _ _ => cases e2
        | missed c =>
          dsimp only [furthestExit] at e6
          rw [e6, hf.zero] at hge
          simp at hge
      obtain ⟨c1, c2⟩ := RayWalk.edges (base := base) hf.ref hf.pass e2
      refine ⟨vis, fin, e2, hne, ⟨c2.resolve_left hne, c1, fun room => ?_⟩, hrv, ?_, ?_⟩
      · simp only [castEnv]
        unfold raycast2 raycast
        rw [if_neg hv, if_neg (by simp)]
        obtain ⟨out, ho⟩ := rayLoop_of_trace m (geo a b) false (rc a b) fuel 0#32 r .start 0 Status.success
          ⟨zero, none, some 0, List.replicate room 0#32, 0, room, 0⟩ _ hr0 e10
        obtain ⟨vis', fin', st2, h3, d1, d2, d3, d4, d5, d6, d7, d8, d9, d10⟩ :=
          rayLoop_trace m (geo a b) false (rc a b) hz fuel 0#32 r .start 0 Status.success _ _ hr0 (Nat.zero_le _) (by simp) ho
        rw [e10] at d10
        cases d10
        rw [ho, d1]
        simp only [Nat.zero_add] at d3 d4 d5
        dsimp only
        refine Prod.ext ?_ d5
        show h3.path.take h3.count = vis.take room
        rw [d4, d3]
        simp only [paste, List.take_zero, List.nil_append, Nat.sub_zero]
        rw [List.take_append_of_le_length (by simp [Nat.min_comm]), List.take_take, List.take_eq_take_iff]
        omega
      · rw [e6] at hge
        cases fin <;> exact hge
      · rw [e8]
        simp
    · cases h
  · cases h

/-- **C167**: the rays that `Raycast` casts are such rays: they go through a corridor, at a cost that is not negative, and `Raycast2` stores it. -/
theorem cast_fit {F : Type} (hl : CostLaws C) {base : Env P C} {m : RayMesh} (geo : P → P → RayGeom F) {zero one : F} {ge : F → F → Bool}
    {rc : P → P → RayPos F → RayPos F → Ref → Ref → Ref → C} (fuel : Nat) (near : P → P → Bool) (hf : CastFits base m zero one ge rc) :
    RaysFit (castEnv base m geo zero one ge rc fuel near) where
  cost r a b g c h := by
    obtain ⟨vis, fin, _, _, _, _, _, rfl⟩ := cast_walk hf h
    exact foldl_nonneg hl _ 0 le_rfl (rayLegs_nonneg (hf.cost a b) fin vis _ _ _)
  through r a b g c h := by
    obtain ⟨vis, _, _, _, h1, _⟩ := cast_walk hf h
    exact ⟨vis, h1⟩

theorem RayThrough.unique {e : RayEnv P C} {r : Ref} {a b : P} {v w : List Ref} (hv : RayThrough e r a b v) (hw : RayThrough e r a b w) : v = w := by
  have h := (hv.path (v.length + w.length)).symm.trans (hw.path (v.length + w.length))
  have h1 := congrArg Prod.fst h
  simp only at h1
  rwa [List.take_of_length_le (by omega), List.take_of_length_le (by omega)] at h1

/-- No two floors above each other where polygons are entered: the start position is in the start polygon, the midpoint over which a polygon is
entered is in it, and is in no other ground than the two polygons it is between. -/
structure OneFloor {K : Type} [Field K] [LinearOrder K] (base : Env (V3 K) C) (q : Query (V3 K)) (m : RayMesh) (verts : Ref → List (V3 K)) : Prop where
  ground : ∀ a b, Edge base a b → Ground m b
  start : Ground m q.start ∧ InPoly (verts q.start) q.startPos
  inside : ∀ a b x, Edge base a b → base.mid a b = some x → InPoly (verts b) x
  only : ∀ a b x, Edge base a b → base.mid a b = some x → ∀ d, Ground m d → InPoly (verts d) x → d = a ∨ d = b

theorem RayWalk.ground {F : Type} {m : RayMesh} {g : RayGeom F} (hv : ∀ c, Ground m c → ∀ l ∈ m.links c, m.valid l.ref = true) {c : Ref}
    {vis : List Ref} {fin : RayEnd F} (h : RayWalk m g c vis fin) (hc : Ground m c) : ∀ d ∈ vis, Ground m d := by
  induction h with
  | missed _ => intro d hd; simp at hd
  | reached _ => intro d hd; rw [List.mem_singleton] at hd; rw [hd]; exact hc
  | wall _ _ => intro d hd; rw [List.mem_singleton] at hd; rw [hd]; exact hc
  | @step c t e l vis fin _ ho hw ih =>
    intro d hd
    rcases List.mem_cons.1 hd with rfl | hd
    · exact hc
    · exact ih ⟨hv c hc l ho.mem, ho.ground⟩ d hd

/-- **C167**: in exact arithmetic, over convex polygons joined at their edges, without floors above each other where polygons are entered, rays end
where they should, so that the any-angle search finds corridors. -/
theorem cast_meet {K : Type} [Field K] [LinearOrder K] [IsStrictOrderedRing K] {eps maxT : K} (he : 0 < eps) {base : Env (V3 K) C} {q : Query (V3 K)}
    {m : RayMesh} {verts : Ref → List (V3 K)} {rc : V3 K → V3 K → RayPos K → RayPos K → Ref → Ref → Ref → C} (fuel : Nat)
    (near : V3 K → V3 K → Bool) (hf : CastFits base m (0 : K) 1 (fun a b => decide (b ≤ a)) rc)
    (hmid : ∀ a b, Edge base a b → ∃ x, base.mid a b = some x) (hfl : OneFloor base q m verts)
    (hfits : ∀ r x a b y, Entry base q r x → Edge base a b → base.mid a b = some y → RayFits eps x y m verts) :
    RaysMeet (castEnv base m (fun a b => exactRay eps maxT a b verts) 0 1 (fun a b => decide (b ≤ a)) rc fuel near) q := by
  intro r a b g c vis u n x hray hth hent hE hm hx
  obtain ⟨vis', fin, w1, w2, w3, w4, w5, w6⟩ := cast_walk hf hray
  have := hth.unique w3
  subst this
  have hE' : Edge base u n := hE
  have hm' : base.mid u n = some b := hm
  have hent' : Entry base q r a := hent
  have hin : Ground m r ∧ InPoly (verts r) a := by
    rcases hent' with ⟨rfl, rfl⟩ | ⟨p, h1, h2⟩
    · exact hfl.start
    · obtain ⟨y, hy⟩ := hmid p r h1
      rcases h2 with h2 | h2
      · exact ⟨hfl.ground p r h1, hfl.inside p r a h1 h2⟩
      · rw [hy] at h2; cases h2
  have hrf := hfits r a u n b hent' hE' hm'
  have hin0 : InPoly (verts r) (rayAt a b 0) := hin.2.congr (by simp [rayAt]) (by simp [rayAt])
  have hw := rayWalk_exact he hrf w1 0 hin.1 le_rfl zero_le_one hin0
  cases fin with
  | missed d => exact absurd hw id
  | wall d e t =>
    exfalso
    obtain ⟨k1, k2, k3, _⟩ := hw
    dsimp only at w5
    rw [k1, decide_eq_true_eq] at w5
    exact absurd k3 (not_lt.2 w5)
  | reached =>
    obtain ⟨_, d, hd1, hd2⟩ := hw
    rw [hx] at hd1
    cases hd1
    have hxg : Ground m x := w1.ground hrf.valid hin.1 x (List.mem_of_getLast? hx)
    rcases hfl.only u n b hE' hm' x hxg (hd2.congr (by simp [rayAt]) (by simp [rayAt])) with rfl | rfl
    · exact .inr hE
    · exact .inl rfl

end

/-! ## Concrete searches -/

/-- The distance in thousandths, rounded down. -/
def milliDist (a b : V3 ℚ) : Nat :=
  let n := (((a.x - b.x) ^ 2 + (a.y - b.y) ^ 2 + (a.z - b.z) ^ 2) * 1000000).floor.toNat
  (List.range 24).foldr (fun i r => if (r + 2 ^ i) ^ 2 ≤ n then r + 2 ^ i else r) 0

/-- The point on the ray. -/
def rayPoint (a b : V3 ℚ) : RayPos ℚ → V3 ℚ
  | .start => a
  | .goal => b
  | .at t _ _ => ⟨a.x + t * (b.x - a.x), a.y + t * (b.y - a.y), a.z + t * (b.z - a.z)⟩

/-- The search over the polygons of `m`; `mids` tells the midpoints. -/
def sampleBase (m : RayMesh) (mids : Ref → Ref → Option (V3 ℚ)) : Env (V3 ℚ) Nat where
  links r := (m.links r).map fun l => (l.ref, l.side)
  pass _ := true
  mid := mids
  cost a b _ _ _ := milliDist a b
  heur a b := milliDist a b
  valid := m.valid

def sampleEnv (m : RayMesh) (mids : Ref → Ref → Option (V3 ℚ)) (verts : Ref → List (V3 ℚ)) : RayEnv (V3 ℚ) Nat :=
  castEnv (sampleBase m mids) m (fun a b => exactRay (1 / 100000000) 1000 a b verts) 0 1 (fun a b => decide (b ≤ a))
    (fun a b x y _ _ _ => milliDist (rayPoint a b x) (rayPoint a b y)) 9 (fun a b => decide ((a.x - b.x) ^ 2 + (a.y - b.y) ^ 2 + (a.z - b.z) ^ 2 < 900))

def sampleBlank : Node (V3 ℚ) Nat := ⟨⟨0, 0, 0⟩, 0, 0, 0, 0, false, false, false, 0⟩

/-- Three squares in a row. -/
def trioVerts : Ref → List (V3 ℚ) := fun r =>
  if r = 1#32 then [⟨0, 0, 0⟩, ⟨0, 0, 1⟩, ⟨1, 0, 1⟩, ⟨1, 0, 0⟩]
  else if r = 2#32 then [⟨1, 0, 0⟩, ⟨1, 0, 1⟩, ⟨2, 0, 1⟩, ⟨2, 0, 0⟩]
  else [⟨2, 0, 0⟩, ⟨2, 0, 1⟩, ⟨3, 0, 1⟩, ⟨3, 0, 0⟩]

def trioMesh : RayMesh where
  links r :=
    if r = 1#32 then [⟨2, 2#32, 0xff#8, 0#8, 0#8⟩]
    else if r = 2#32 then [⟨0, 1#32, 0xff#8, 0#8, 0#8⟩, ⟨2, 3#32, 0xff#8, 0#8, 0#8⟩]
    else if r = 3#32 then [⟨0, 2#32, 0xff#8, 0#8, 0#8⟩] else []
  offMesh _ := false
  pass _ := true
  valid r := r = 1#32 ∨ r = 2#32 ∨ r = 3#32

def trioMids (a b : Ref) : Option (V3 ℚ) := if a = 3#32 ∨ b = 3#32 then some ⟨2, 0, 1 / 2⟩ else some ⟨1, 0, 1 / 2⟩

def trioEnv : RayEnv (V3 ℚ) Nat := sampleEnv trioMesh trioMids trioVerts
def trioQuery : Query (V3 ℚ) := ⟨1#32, 3#32, ⟨1 / 2, 0, 1 / 4⟩, ⟨5 / 2, 0, 1 / 2⟩, true⟩

/-- A square 1; a ramp 2 goes down from its right side to 3; a ramp 4 goes up from its far side and passes above 2 and 3. -/
def rampVerts : Ref → List (V3 ℚ) := fun r =>
  if r = 1#32 then [⟨0, 0, 0⟩, ⟨0, 0, 2⟩, ⟨2, 0, 2⟩, ⟨2, 0, 0⟩]
  else if r = 2#32 then [⟨2, 0, 0⟩, ⟨2, 0, 2⟩, ⟨8, -6, 8⟩, ⟨8, -6, 2⟩]
  else if r = 3#32 then [⟨8, -6, 2⟩, ⟨8, -6, 8⟩, ⟨10, -6, 8⟩, ⟨10, -6, 2⟩]
  else [⟨0, 0, 2⟩, ⟨0, 7, 9⟩, ⟨9, 7, 9⟩, ⟨9, 1, 5 / 2⟩, ⟨2, 0, 2⟩]

def rampMesh : RayMesh where
  links r :=
    if r = 1#32 then [⟨1, 4#32, 0xff#8, 0#8, 0#8⟩, ⟨2, 2#32, 0xff#8, 0#8, 0#8⟩]
    else if r = 2#32 then [⟨0, 1#32, 0xff#8, 0#8, 0#8⟩, ⟨2, 3#32, 0xff#8, 0#8, 0#8⟩]
    else if r = 3#32 then [⟨0, 2#32, 0xff#8, 0#8, 0#8⟩]
    else if r = 4#32 then [⟨4, 1#32, 0xff#8, 0#8, 0#8⟩] else []
  offMesh _ := false
  pass _ := true
  valid r := r = 1#32 ∨ r = 2#32 ∨ r = 3#32 ∨ r = 4#32

def rampMids (a b : Ref) : Option (V3 ℚ) :=
  if a = 4#32 ∨ b = 4#32 then some ⟨1, 0, 2⟩ else if a = 3#32 ∨ b = 3#32 then some ⟨8, -6, 5⟩ else some ⟨2, 0, 1⟩

def rampEnv : RayEnv (V3 ℚ) Nat := sampleEnv rampMesh rampMids rampVerts
def rampQuery : Query (V3 ℚ) := ⟨1#32, 3#32, ⟨1, 0, 19 / 10⟩, ⟨9, -6, 5⟩, true⟩

/-- What a search leaves in a buffer; the inner `none` is a panic at the end. -/
def samplePath (e : RayEnv (V3 ℚ) Nat) (q : Query (V3 ℚ)) (any : Bool) (ns : List Nat) (cap : Nat) : Option (Option (List Ref × Status)) :=
  (sliceInit e q any 0 (Pool.new sampleBlank 8 2) (Heap.new 8)).bind fun s1 =>
    (sliceRun e ns s1.2).map fun r => (sliceFinal e r.2 ⟨0, 0, 0⟩ cap).map fun f => (f.1, f.2.1)

theorem sample_casts (m : RayMesh) (mids : Ref → Ref → Option (V3 ℚ)) (hz : ∀ c, ∀ l ∈ m.links c, l.ref ≠ 0#32) :
    CastFits (sampleBase m mids) m (0 : ℚ) 1 (fun a b => decide (b ≤ a)) (fun a b x y _ _ _ => milliDist (rayPoint a b x) (rayPoint a b y)) where
  ref c l hl := ⟨hz c l hl, List.mem_map.2 ⟨l, hl, rfl⟩⟩
  pass _ _ := rfl
  zero := by decide +kernel
  cost _ _ _ _ _ _ _ := Nat.zero_le _

theorem sample_fit (m : RayMesh) (mids : Ref → Ref → Option (V3 ℚ)) (verts : Ref → List (V3 ℚ)) (hz : ∀ c, ∀ l ∈ m.links c, l.ref ≠ 0#32) :
    RaysFit (sampleEnv m mids verts) := cast_fit costLaws_nat _ _ _ (sample_casts m mids hz)

theorem sample_setting (m : RayMesh) (mids : Ref → Ref → Option (V3 ℚ)) (verts : Ref → List (V3 ℚ)) (q : Query (V3 ℚ))
    (hv : ∀ c, ∀ l ∈ m.links c, m.valid l.ref = true) (h1 : m.valid q.start = true) (h2 : m.valid q.goal = true) (h3 : m.valid 0#32 = false)
    (h4 : q.start ≠ q.goal) : SliceSetting (sampleEnv m mids verts) q (Pool.new sampleBlank 8 2) (Heap.new 8) 8 := by
  refine ⟨⟨costLaws_nat, fun _ _ _ _ _ => Nat.zero_le _, ⟨by decide, by decide, rfl, by decide, by decide, rfl⟩⟩, ?_, h1, h2, h3, h4⟩
  intro a _ l hl _
  obtain ⟨l', hl', rfl⟩ := List.mem_map.1 hl
  exact hv a l' hl'

theorem trio_links {c : Ref} {l : RayLink} (hl : l ∈ trioMesh.links c) :
    (c = 1#32 ∧ l = ⟨2, 2#32, 0xff#8, 0#8, 0#8⟩) ∨ (c = 2#32 ∧ l = ⟨0, 1#32, 0xff#8, 0#8, 0#8⟩) ∨ (c = 2#32 ∧ l = ⟨2, 3#32, 0xff#8, 0#8, 0#8⟩) ∨
      (c = 3#32 ∧ l = ⟨0, 2#32, 0xff#8, 0#8, 0#8⟩) := by
  simp only [trioMesh] at hl
  split at hl
  · exact .inl ⟨‹_›, by simpa using hl⟩
  split at hl
  · simp at hl
    rcases hl with h | h
    · exact .inr (.inl ⟨‹_›, h⟩)
    · exact .inr (.inr (.inl ⟨‹_›, h⟩))
  split at hl
  · exact .inr (.inr (.inr ⟨‹_›, by simpa using hl⟩))
  · simp at hl

theorem trio_edge {a b : Ref} (h : Edge (sampleBase trioMesh trioMids) a b) :
    (a = 1#32 ∧ b = 2#32) ∨ (a = 2#32 ∧ b = 1#32) ∨ (a = 2#32 ∧ b = 3#32) ∨ (a = 3#32 ∧ b = 2#32) := by
  obtain ⟨sd, h, _⟩ := h
  obtain ⟨l, hl, h⟩ := List.mem_map.1 h
  rcases trio_links hl with ⟨rfl, rfl⟩ | ⟨rfl, rfl⟩ | ⟨rfl, rfl⟩ | ⟨rfl, rfl⟩ <;> simp only [Prod.mk.injEq] at h <;> simp [← h.1]

theorem trio_mid {a b : Ref} {x : V3 ℚ} (h : Edge (sampleBase trioMesh trioMids) a b) (hm : trioMids a b = some x) :
    (x = ⟨1, 0, 1 / 2⟩ ∧ ((a = 1#32 ∧ b = 2#32) ∨ (a = 2#32 ∧ b = 1#32))) ∨ (x = ⟨2, 0, 1 / 2⟩ ∧ ((a = 2#32 ∧ b = 3#32) ∨ (a = 3#32 ∧ b = 2#32))) := by
  rcases trio_edge h with ⟨rfl, rfl⟩ | ⟨rfl, rfl⟩ | ⟨rfl, rfl⟩ | ⟨rfl, rfl⟩ <;> simp [trioMids] at hm <;> simp [← hm]

theorem trio_ground {c : Ref} (h : Ground trioMesh c) : c = 1#32 ∨ c = 2#32 ∨ c = 3#32 := by
  simpa [trioMesh] using h.1

theorem trio_fits {x y : V3 ℚ} (hp : ∀ c, c = 1#32 ∨ c = 2#32 ∨ c = 3#32 → ∀ j a b, PolyEdge (trioVerts c) j a b →
    |(y.sub x).perp (b.sub a)| < 1 / 100000000 → (y.sub x).perp (b.sub a) = 0) : RayFits (1 / 100000000) x y trioMesh trioVerts where
  corners c hc := by
    have hff : (0xff#8 : BitVec 8) = 255#8 := rfl
    refine ⟨?_, ?_, ?_⟩
    · intro v hv j a b he
      rcases trio_ground hc with rfl | rfl | rfl <;> simp [trioVerts] at hv he <;>
        rcases polyEdge_four he with ⟨_, rfl, rfl⟩ | ⟨_, rfl, rfl⟩ | ⟨_, rfl, rfl⟩ | ⟨_, rfl, rfl⟩ <;>
        rcases hv with rfl | rfl | rfl | rfl <;> norm_num [triArea]
    · intro j a b c' h1 h2 h3
      rcases trio_ground hc with rfl | rfl | rfl <;> simp [trioVerts] at h1 h2 h3 <;>
        (match j with
        | 0 => simp at h1 h2 h3; subst h1 h2 h3; norm_num [triArea]
        | 1 => simp at h1 h2 h3; subst h1 h2 h3; norm_num [triArea]
        | 2 => simp at h1 h2 h3; subst h1 h2 h3; norm_num [triArea]
        | 3 => simp at h1 h2 h3; subst h1 h2 h3; norm_num [triArea]
        | j + 4 => simp at h1)
    · rcases trio_ground hc with rfl | rfl | rfl <;> simp [trioVerts]
  valid c _ l hl := by
    rcases trio_links hl with ⟨_, rfl⟩ | ⟨_, rfl⟩ | ⟨_, rfl⟩ | ⟨_, rfl⟩ <;> decide
  seam c _ l hl _ a b he := by
    rcases trio_links hl with ⟨rfl, rfl⟩ | ⟨rfl, rfl⟩ | ⟨rfl, rfl⟩ | ⟨rfl, rfl⟩ <;> simp [trioVerts] at he <;>
      rcases polyEdge_four he with ⟨h, h1, h2⟩ | ⟨h, h1, h2⟩ | ⟨h, h1, h2⟩ | ⟨h, h1, h2⟩ <;> (first | (exact absurd h (by decide)) | skip) <;>
      subst h1 h2 <;> refine ⟨by simp [linkFrom, linkTo], ?_, ?_, ?_, by simp, by simp⟩
    all_goals first
      | (intro j a b hq
         simp [trioVerts] at hq
         rcases polyEdge_four hq with ⟨_, rfl, rfl⟩ | ⟨_, rfl, rfl⟩ | ⟨_, rfl, rfl⟩ | ⟨_, rfl, rfl⟩ <;>
           norm_num [triArea, edgeAt, linkFrom, linkTo])
      | (intro p hq
         have h0 := hq 0 _ _ ⟨rfl, rfl⟩
         have h2 := hq 2 _ _ ⟨rfl, rfl⟩
         simp [triArea] at h0 h2 ⊢
         linarith)
  parallel c hc := hp c (trio_ground hc)

theorem trio_meet : RaysMeet trioEnv trioQuery := by
  refine cast_meet (by norm_num) _ _ (sample_casts trioMesh trioMids ?_) ?_ ?_ ?_
  · intro c l hl
    rcases trio_links hl with ⟨_, rfl⟩ | ⟨_, rfl⟩ | ⟨_, rfl⟩ | ⟨_, rfl⟩ <;> decide
  · intro a b _
    show ∃ x, trioMids a b = some x
    unfold trioMids
    split
    · exact ⟨_, rfl⟩
    · exact ⟨_, rfl⟩
  · refine ⟨?_, ⟨⟨by decide, rfl⟩, ?_⟩, ?_, ?_⟩
    · intro a b h
      rcases trio_edge h with ⟨_, rfl⟩ | ⟨_, rfl⟩ | ⟨_, rfl⟩ | ⟨_, rfl⟩ <;> exact ⟨by decide, rfl⟩
    · intro j a b he
      simp [trioQuery, trioVerts] at he ⊢
      rcases polyEdge_four he with ⟨_, rfl, rfl⟩ | ⟨_, rfl, rfl⟩ | ⟨_, rfl, rfl⟩ | ⟨_, rfl, rfl⟩ <;> norm_num [triArea]
    · intro a b x h hm j u v he
      rcases trio_mid h hm with ⟨rfl, ⟨_, rfl⟩ | ⟨_, rfl⟩⟩ | ⟨rfl, ⟨_, rfl⟩ | ⟨_, rfl⟩⟩ <;> simp [trioVerts] at he <;>
        rcases polyEdge_four he with ⟨_, rfl, rfl⟩ | ⟨_, rfl, rfl⟩ | ⟨_, rfl, rfl⟩ | ⟨_, rfl, rfl⟩ <;> norm_num [triArea]
    · intro a b x h hm d hd hin
      have h0 := hin 0
      have h2 := hin 2
      rcases trio_ground hd with rfl | rfl | rfl <;> rcases trio_mid h hm with ⟨rfl, ⟨rfl, rfl⟩ | ⟨rfl, rfl⟩⟩ | ⟨rfl, ⟨rfl, rfl⟩ | ⟨rfl, rfl⟩⟩ <;>
        (first
          | (left; rfl)
          | (right; rfl)
          | (exfalso; have := h0 _ _ ⟨rfl, rfl⟩; norm_num [triArea] at this; done)
          | (exfalso; have := h2 _ _ ⟨rfl, rfl⟩; norm_num [triArea] at this))
  · intro r x a b y hent h hm
    have hx : x = ⟨1 / 2, 0, 1 / 4⟩ ∨ x = ⟨1, 0, 1 / 2⟩ ∨ x = ⟨2, 0, 1 / 2⟩ := by
      rcases hent with ⟨_, h⟩ | ⟨p, hp, h | h⟩
      · exact .inl h
      · rcases trio_mid hp h with ⟨h, _⟩ | ⟨h, _⟩
        · exact .inr (.inl h)
        · exact .inr (.inr h)
      · exfalso
        revert h
        show trioMids p r ≠ none
        unfold trioMids
        split <;> simp
    have hy : y = ⟨1, 0, 1 / 2⟩ ∨ y = ⟨2, 0, 1 / 2⟩ := by
      rcases trio_mid h hm with ⟨h, _⟩ | ⟨h, _⟩
      · exact .inl h
      · exact .inr h
    apply trio_fits
    intro c hc j u v he
    rcases hc with rfl | rfl | rfl <;> simp [trioVerts] at he <;>
      rcases polyEdge_four he with ⟨_, rfl, rfl⟩ | ⟨_, rfl, rfl⟩ | ⟨_, rfl, rfl⟩ | ⟨_, rfl, rfl⟩ <;>
      rcases hx with rfl | rfl | rfl <;> rcases hy with rfl | rfl <;> norm_num [V3.perp, V3.sub, abs_of_pos, abs_of_neg]

theorem trio_setting : SliceSetting trioEnv trioQuery (Pool.new sampleBlank 8 2) (Heap.new 8) 8 :=
  sample_setting _ _ _ _ (by
    intro c l hl
    rcases trio_links hl with ⟨_, rfl⟩ | ⟨_, rfl⟩ | ⟨_, rfl⟩ | ⟨_, rfl⟩ <;> decide) (by decide) (by decide) (by decide) (by decide)

theorem trio_fit : RaysFit trioEnv := sample_fit _ _ _ (by
  intro c l hl
  rcases trio_links hl with ⟨_, rfl⟩ | ⟨_, rfl⟩ | ⟨_, rfl⟩ | ⟨_, rfl⟩ <;> decide)

theorem trio_mids : MidsExist trioEnv := by
  intro a b _
  show ∃ x, trioMids a b = some x
  unfold trioMids
  split <;> exact ⟨_, rfl⟩

/-- The hypotheses of `any_corridor_partial` and `any_complete` hold for the three squares. -/
example := any_corridor_partial trio_fit trio_meet trio_mids trio_setting true 0 ⟨0, 0, 0⟩ [1, 2, 3]
example := any_complete trio_fit trio_meet trio_mids trio_setting true 0 ⟨0, 0, 0⟩

/-- The third square is reached from the first by a ray; tracing it again tells the second. -/
example : trioEnv.ray 1#32 ⟨1 / 2, 0, 1 / 4⟩ ⟨2, 0, 1 / 2⟩ 0#32 = some 1519 := by decide +kernel
example : samplePath trioEnv trioQuery true [2, 1, 10] 4 = some (some ([1#32, 2#32, 3#32], Status.success)) := by decide +kernel

/-- **C167** does not hold in full: with a buffer of two references the search with rays from the first of three squares to the third ends in a
panic, where without rays the first two and `BufferTooSmall` are given. -/
theorem any_buffer_refuted :
    ¬ (∀ (e : RayEnv (V3 ℚ) Nat) (q : Query (V3 ℚ)) (p : Pool (V3 ℚ) Nat) (h : Heap) (mx : Nat), RaysFit e → RaysMeet e q → MidsExist e →
      SliceSetting e q p h mx → ∀ (c0 : Nat) (z : V3 ℚ) (ns : List Nat) (cap : Nat) (s1 : Sliced (V3 ℚ) Nat) (k : Nat) (s : Sliced (V3 ℚ) Nat),
      sliceInit e q true c0 p h = some (Status.inProgress, s1) → sliceRun e ns s1 = some (k, s) → 0 < cap → sliceFinal e s z cap ≠ none) := by
  intro hall
  obtain ⟨s1, k, s, _, h1, h2, _⟩ := any_corridor_partial trio_fit trio_meet trio_mids trio_setting true 0 ⟨0, 0, 0⟩ [10]
  have hne := hall _ _ _ _ _ trio_fit trio_meet trio_mids trio_setting 0 ⟨0, 0, 0⟩ [10] 2 s1 k s h1 h2 (by decide)
  have hp : samplePath trioEnv trioQuery true [10] 2 = some none := by decide +kernel
  unfold samplePath at hp
  rw [h1, Option.bind_some, h2] at hp
  simp only [Option.map_some, Option.some.injEq, Option.map_eq_none_iff] at hp
  exact hne hp

example : samplePath trioEnv trioQuery false [10] 2 = some (some ([1#32, 2#32], Status.success ||| Status.bufferTooSmall)) := by decide +kernel

theorem ramp_links {c : Ref} {l : RayLink} (hl : l ∈ rampMesh.links c) : l.ref ≠ 0#32 ∧ rampMesh.valid l.ref = true := by
  simp only [rampMesh] at hl
  split at hl
  · simp at hl; rcases hl with rfl | rfl <;> decide
  split at hl
  · simp at hl; rcases hl with rfl | rfl <;> decide
  split at hl
  · simp at hl; subst hl; decide
  split at hl
  · simp at hl; subst hl; decide
  · simp at hl

/-- **C167** does not hold in full: where floors are above each other the path is not connected. From the square, the ray to where 3 is entered
goes up the ramp 4, above it, and is taken to get there: the path is 1, 4, 3, without `PartialResult`, but 3 cannot be entered from 4. -/
theorem any_disconnected_refuted :
    ¬ (∀ (e : RayEnv (V3 ℚ) Nat) (q : Query (V3 ℚ)) (p : Pool (V3 ℚ) Nat) (h : Heap) (mx : Nat), RaysFit e → MidsExist e → SliceSetting e q p h mx →
      ∀ (c0 : Nat) (z : V3 ℚ) (ns : List Nat) (cap : Nat) (s1 : Sliced (V3 ℚ) Nat) (k : Nat) (s s' : Sliced (V3 ℚ) Nat) (path : List Ref),
      sliceInit e q true c0 p h = some (Status.inProgress, s1) → sliceRun e ns s1 = some (k, s) →
      sliceFinal e s z cap = some (path, Status.success, s') → Corridor e.toEnv q.start path) := by
  intro hall
  have hfit : RaysFit rampEnv := sample_fit _ _ _ fun c l hl => (ramp_links hl).1
  have hset : SliceSetting rampEnv rampQuery (Pool.new sampleBlank 8 2) (Heap.new 8) 8 :=
    sample_setting _ _ _ _ (fun c l hl => (ramp_links hl).2) (by decide) (by decide) (by decide) (by decide)
  have hmid : MidsExist rampEnv := by
    intro a b _
    show ∃ x, rampMids a b = some x
    unfold rampMids
    split
    · exact ⟨_, rfl⟩
    split <;> exact ⟨_, rfl⟩
  obtain ⟨s1, k, s, t, b, h1, h2, h3⟩ := anyRun_snap hfit hset true 0 [10]
  have hp : samplePath rampEnv rampQuery true [10] 8 = some (some ([1#32, 4#32, 3#32], Status.success)) := by decide +kernel
  unfold samplePath at hp
  rw [h1, Option.bind_some, h2] at hp
  simp only [Option.map_some, Option.some.injEq, Option.map_eq_some_iff] at hp
  obtain ⟨⟨path, st, s'⟩, hf, he⟩ := hp
  simp only [Prod.mk.injEq] at he
  obtain ⟨rfl, rfl⟩ := he
  have hc := hall _ _ _ _ _ hfit hmid hset 0 ⟨0, 0, 0⟩ [10] 8 s1 k s s' _ h1 h2 hf
  obtain ⟨sd, hE, _⟩ : Edge rampEnv.toEnv 4#32 3#32 := by
    have := hc.2
    simp only [List.isChain_cons_cons] at this
    exact this.2.1
  revert hE
  show (3#32, sd) ∉ (rampMesh.links 4#32).map fun l => (l.ref, l.side)
  simp [rampMesh]

/-- Without rays it is 1, 2, 3. -/
example : samplePath rampEnv rampQuery false [10] 8 = some (some ([1#32, 2#32, 3#32], Status.success)) := by decide +kernel

end Verif.Detour
