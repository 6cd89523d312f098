/-
`NavMeshQuery.FindPath` (detour/query.go:179-372) and `pathToNode` (detour/query.go:883-932), over
the node pool of `NodePool.lean` and the heap of `NodeQueue.lean`.

What the search reads of the mesh and of the filter is abstract (`Env`): the list of links of a
polygon, the filter decision, the edge midpoint, the filter cost and the heuristic. The mesh tables
behind these are modelled elsewhere (`TileTable.lean`, `Links.lean`). Costs live in any linear order
with the few laws of `CostLaws`; non-NaN float32 with round-to-nearest satisfies them.
-/
import Verif.Detour.Bits
import Verif.Detour.NodePool
import Verif.Detour.NodeQueue
import Mathlib.Data.DFinsupp.WellFounded

set_option linter.unusedSectionVars false

namespace Verif.Detour

/-! ## Model -/

/-- A polygon reference. -/
abbrev Ref := BitVec 32

/-- What the search reads of the mesh and the filter.
* `links r`: the (Ref, Side) pairs met by following `FirstLink`/`Next` from polygon `r`;
* `pass r`: `filter.PassFilter`;
* `mid a b`: `edgeMidPoint`, `none` when it fails and leaves the position unchanged;
* `cost pa pb prev cur next`: `filter.Cost`;
* `heur pos end`: `pos.Dist(end) * HScale`;
* `valid r`: `IsValidPolyRef`. -/
structure Env (P C : Type) where
  links : Ref → List (Ref × BitVec 8)
  pass : Ref → Bool
  mid : Ref → Ref → Option P
  cost : P → P → Ref → Ref → Ref → C
  heur : P → P → C
  valid : Ref → Bool

/-- The arguments of `FindPath`. `argsOK` is the conjunction of the nil and length checks on the
positions and the filter (detour/query.go:186). -/
structure Query (P : Type) where
  start : Ref
  goal : Ref
  startPos : P
  endPos : P
  argsOK : Bool

/-- The state of the search loop: the query's pool and open list, and the local variables
`lastBestNode`, `lastBestNodeCost`, `outOfNodes`. -/
structure Search (P C : Type) where
  pool : Pool P C
  heap : Heap
  best : Nat
  bestCost : C
  outOfNodes : Bool

/-- `Total` seen through node pointers. -/
def totals {P C : Type} (p : Pool P C) : Nat → C := fun i => (p.nodes i).total

/-- `crossSide` (detour/query.go:269-272). -/
def crossSide (side : BitVec 8) : BitVec 8 := if side ≠ 0xff#8 then side >>> 1 else 0#8

section
variable {P C : Type} [LinearOrder C] [Add C] [Zero C]

/-- First visit: the node gets its position (detour/query.go:281-290). -/
def place (e : Env P C) (bestRef nref : Ref) (n : Node P C) : Node P C :=
  if n.opened = false ∧ n.closed = false ∧ n.detached = false then
    { n with pos := (e.mid bestRef nref).getD n.pos }
  else n

/-- Cost and heuristic of going from node `bn` to `n` (detour/query.go:292-319). -/
def stepCost (e : Env P C) (q : Query P) (bestRef parentRef nref : Ref) (bn n : Node P C) : C × C :=
  if nref = q.goal then
    (bn.cost + e.cost bn.pos n.pos parentRef bestRef nref
      + e.cost n.pos q.endPos bestRef nref 0#32, 0)
  else
    (bn.cost + e.cost bn.pos n.pos parentRef bestRef nref, e.heur n.pos q.endPos)

/-- The node updated with its new parent (detour/query.go:333-338, 345). -/
def settle (n : Node P C) (b : Nat) (nref : Ref) (cost total : C) : Node P C :=
  { n with pidx := nodeIdx (some b), id := nref, closed := false, opened := true, cost := cost,
           total := total }

/-- Open-list update (detour/query.go:340-347). -/
def requeue (p : Pool P C) (h : Heap) (wasOpen : Bool) (i : Nat) : Option Heap :=
  if wasOpen then some (h.modify (totals p) i) else h.push (totals p) i

/-- Body of the link loop once the neighbour node `i` is at hand (detour/query.go:280-354). -/
def visit (e : Env P C) (q : Query P) (b : Nat) (bestRef parentRef nref : Ref) (i : Nat)
    (s : Search P C) : Option (Search P C) :=
  let n := place e bestRef nref (s.pool.nodes i)
  let p := s.pool.write i n
  let ch := stepCost e q bestRef parentRef nref (p.nodes b) n
  let total := ch.1 + ch.2
  if n.opened = true ∧ n.total ≤ total then some { s with pool := p }
  else if n.closed = true ∧ n.total ≤ total then some { s with pool := p }
  else
    let p' := p.write i (settle n b nref ch.1 total)
    match requeue p' s.heap n.opened i with
    | none => none
    | some h =>
      if ch.2 < s.bestCost then some { s with pool := p', heap := h, best := i, bestCost := ch.2 }
      else some { s with pool := p', heap := h }

/-- One link of the popped polygon (detour/query.go:246-355). `none` is a panic. -/
def relax (e : Env P C) (q : Query P) (b : Nat) (bestRef parentRef : Ref) (s : Search P C)
    (l : Ref × BitVec 8) : Option (Search P C) :=
  if l.1 = 0#32 ∨ l.1 = parentRef then some s
  else if e.pass l.1 = false then some s
  else
    match s.pool.node (l.1, crossSide l.2) with
    | none => none
    | some (none, p) => some { s with pool := p, outOfNodes := true }
    | some (some i, p) => visit e q b bestRef parentRef l.1 i { s with pool := p }

/-- The link loop (detour/query.go:246). -/
def relaxAll (e : Env P C) (q : Query P) (b : Nat) (bestRef parentRef : Ref) :
    List (Ref × BitVec 8) → Search P C → Option (Search P C)
  | [], s => some s
  | l :: ls, s =>
    match relax e q b bestRef parentRef s l with
    | none => none
    | some s' => relaxAll e q b bestRef parentRef ls s'

/-- How one round of the main loop ends. -/
inductive StepOut (P C : Type) where
  /-- the loop is left with this state -/
  | done (s : Search P C)
  /-- another round follows -/
  | more (s : Search P C)
  /-- run-time panic -/
  | panic

/-- The reference of the parent node, 0 if none (detour/query.go:238-240). -/
def parentRef (p : Pool P C) (b : Nat) : Ref :=
  match nodeAtIdx (p.nodes b).pidx with
  | none => 0#32
  | some j => (p.nodes j).id

/-- The popped node leaves the open list (detour/query.go:217-218). -/
def markClosed (p : Pool P C) (b : Nat) : Pool P C :=
  p.write b { p.nodes b with opened := false, closed := true }

/-- One round of `for !q.openList.empty()` (detour/query.go:214-356). -/
def searchStep (e : Env P C) (q : Query P) (s : Search P C) : StepOut P C :=
  if s.heap.size = 0 then .done s
  else
    match s.heap.pop (totals s.pool) with
    | none => .panic
    | some (b, h) =>
      let p := markClosed s.pool b
      if (p.nodes b).id = q.goal then .done { s with pool := p, heap := h, best := b }
      else
        match relaxAll e q b (p.nodes b).id (parentRef p b) (e.links (p.nodes b).id)
            { s with pool := p, heap := h } with
        | none => .panic
        | some s' => .more s'

/-- The main loop with a bound on the number of rounds; `none` when the bound is reached. -/
def searchLoop (e : Env P C) (q : Query P) : Nat → Search P C → Option (StepOut P C)
  | 0, _ => none
  | f + 1, s =>
    match searchStep e q s with
    | .done s' => some (.done s')
    | .panic => some .panic
    | .more s' => searchLoop e q f s'

/-- The parent pointer of a node (`NodeAtIdx(PIdx)`). -/
def par (p : Pool P C) : Nat → Option Nat := fun i => nodeAtIdx (p.nodes i).pidx

/-- `for { length++; curNode = NodeAtIdx(curNode.PIdx); if curNode == nil { break } }`
(detour/query.go:894-900), with a bound on the rounds. -/
def lengthLoop (next : Nat → Option Nat) : Nat → Nat → Option Nat
  | 0, _ => none
  | f + 1, c =>
    match next c with
    | none => some 1
    | some c' => (lengthLoop next f c').map (· + 1)

/-- Skipping the nodes that do not fit (detour/query.go:903-908); `none` is a nil dereference. -/
def climb (next : Nat → Option Nat) : Nat → Option Nat → Option (Option Nat)
  | 0, c => some c
  | _ + 1, none => none
  | k + 1, some c => climb next k (next c)

/-- Writing `path[k-1]` down to `path[0]` (detour/query.go:911-917); `acc` is what is already written
behind. -/
def writePath (next : Nat → Option Nat) (ids : Nat → Ref) :
    Nat → Option Nat → List Ref → Option (List Ref)
  | 0, _, acc => some acc
  | _ + 1, none, _ => none
  | k + 1, some c, acc => writePath next ids k (next c) (ids c :: acc)

/-- `pathToNode` (detour/query.go:883-932): the polygons written and the status. `cap = len(path)`;
`none` is a panic or an endless loop (the first loop is bounded by the size of the pool). -/
def pathToNode (p : Pool P C) (endNode cap : Nat) : Option (List Ref × Status) :=
  match lengthLoop (par p) p.maxNodes endNode with
  | none => none
  | some len =>
    match climb (par p) (len - cap) (some endNode) with
    | none => none
    | some cur =>
      match writePath (par p) (fun i => (p.nodes i).id) (len - (len - cap)) cur [] with
      | none => none
      | some path =>
        some (path, if cap < len then Status.success ||| Status.bufferTooSmall else Status.success)

/-- The start node (detour/query.go:204-210). -/
def startNode (e : Env P C) (q : Query P) (n : Node P C) : Node P C :=
  { n with pos := q.startPos, pidx := 0, cost := 0, total := e.heur q.startPos q.endPos,
           id := q.start, opened := true, closed := false, detached := false }

/-- Set-up of the search (detour/query.go:196-216). `none` is a panic. -/
def initSearch (e : Env P C) (q : Query P) (p : Pool P C) (h : Heap) : Option (Search P C) :=
  match p.clear.node (q.start, 0#8) with
  | none => none
  | some (none, _) => none
  | some (some i, p1) =>
    let p2 := p1.write i (startNode e q (p1.nodes i))
    match h.clear.push (totals p2) i with
    | none => none
    | some h' => some ⟨p2, h', i, (p2.nodes i).total, false⟩

/-- What a call returns: polygons written to the start of `path` (their number is `pathCount`) and
the status. -/
inductive PathOut where
  | ok (path : List Ref) (st : Status)
  | panic
  | timeout
  deriving DecidableEq

/-- `FindPath` (detour/query.go:179-372). `fuel` bounds the rounds of the main loop. -/
def findPath (e : Env P C) (q : Query P) (p : Pool P C) (h : Heap) (cap fuel : Nat) : PathOut :=
  if e.valid q.start = false ∨ e.valid q.goal = false ∨ q.argsOK = false ∨ cap = 0 then
    .ok [] (Status.failure ||| Status.invalidParam)
  else if q.start = q.goal then .ok [q.start] Status.success
  else
    match initSearch e q p h with
    | none => .panic
    | some s0 =>
      match searchLoop e q fuel s0 with
      | none => .timeout
      | some .panic => .panic
      | some (.more _) => .panic
      | some (.done s) =>
        match pathToNode s.pool s.best cap with
        | none => .panic
        | some (path, st) =>
          let st := if (s.pool.nodes s.best).id ≠ q.goal then st ||| Status.partialResult else st
          let st := if s.outOfNodes then st ||| Status.outOfNodes else st
          .ok path st

end

/-! ## Laws of costs -/

/-- The arithmetic the search relies on. -/
structure CostLaws (C : Type) [LinearOrder C] [Add C] [Zero C] : Prop where
  zero_add : ∀ a : C, 0 + a = a
  mono : ∀ a b c : C, a ≤ b → a + c ≤ b + c
  grow : ∀ a c : C, 0 ≤ c → a ≤ a + c

/-- Natural-number costs obey them. -/
theorem costLaws_nat : CostLaws Nat :=
  ⟨Nat.zero_add, fun _ _ _ h => Nat.add_le_add_right h _, fun _ _ _ => Nat.le_add_right _ _⟩

section
variable {P C : Type} [LinearOrder C] [Add C] [Zero C]

/-- The filter's costs are not negative. -/
def Env.NonNeg (e : Env P C) : Prop := ∀ a b r s t, 0 ≤ e.cost a b r s t

/-- The constant heuristic part of a node's total. -/
def hpart (e : Env P C) (q : Query P) (n : Node P C) : C :=
  if n.id = q.goal then 0 else e.heur n.pos q.endPos

/-- Spec: `b` can be entered from `a` through some link the search may take. -/
def Edge (e : Env P C) (a b : Ref) : Prop :=
  ∃ side, (b, side) ∈ e.links a ∧ b ≠ 0#32 ∧ e.pass b = true

/-- A link is accounted for: its target has a node, or the search ran out of nodes. -/
def Covers (e : Env P C) (s : Search P C) (l : Ref × BitVec 8) : Prop :=
  l.1 ≠ 0#32 → e.pass l.1 = true →
    s.outOfNodes = true ∨ ∃ k, k < s.pool.count ∧ (s.pool.nodes k).id = l.1

/-- Spec: `x` is a point where polygon `r` can be entered: the start position for the start polygon,
otherwise the midpoint of the edge shared with a polygon `r` is linked from. When `edgeMidPoint`
fails the position is arbitrary. -/
def Entry (e : Env P C) (q : Query P) (r : Ref) (x : P) : Prop :=
  (r = q.start ∧ x = q.startPos) ∨ ∃ a, Edge e a r ∧ (e.mid a r = some x ∨ e.mid a r = none)

/-- The invariant of the search. `cur` is the node being expanded with the links already handled. -/
structure SInv (e : Env P C) (q : Query P) (mx : Nat)
    (cur : Option (Nat × List (Ref × BitVec 8))) (s : Search P C) : Prop where
  pool : PoolInv s.pool
  max : s.pool.maxNodes = mx
  len : s.heap.len = mx + 1
  heap : HeapInv (totals s.pool) s.heap
  mem : ∀ i, i ∈ s.heap.toList ↔ i < s.pool.count ∧ (s.pool.nodes i).opened = true
  flags : ∀ i, i < s.pool.count → (s.pool.nodes i).closed = !(s.pool.nodes i).opened
  root : 0 < s.pool.count ∧ (s.pool.nodes 0).id = q.start ∧ (s.pool.nodes 0).pidx = 0 ∧
    (s.pool.nodes 0).cost = 0 ∧ (s.pool.nodes 0).state = 0#8
  parent : ∀ i, i < s.pool.count → i ≠ 0 → ∃ j, j < s.pool.count ∧ (s.pool.nodes i).pidx = j + 1 ∧
    (∃ side, ((s.pool.nodes i).id, side) ∈ e.links (s.pool.nodes j).id ∧
      crossSide side = (s.pool.nodes i).state) ∧
    (s.pool.nodes i).id ≠ 0#32 ∧ e.pass (s.pool.nodes i).id = true ∧
    (s.pool.nodes j).cost ≤ (s.pool.nodes i).cost ∧ (s.pool.nodes j).id ≠ q.goal
  chain : ∀ i, i < s.pool.count → ∃ l, Chain (par s.pool) (some i) l ∧ ∀ a ∈ l, a < s.pool.count
  tot : ∀ i, i < s.pool.count →
    (s.pool.nodes i).total = (s.pool.nodes i).cost + hpart e q (s.pool.nodes i)
  goal : ∀ i, i < s.pool.count → (s.pool.nodes i).closed = true → (s.pool.nodes i).id ≠ q.goal
  exp : ∀ i, i < s.pool.count → (s.pool.nodes i).closed = true →
    ∀ l ∈ e.links (s.pool.nodes i).id, (∀ d, cur = some (i, d) → l ∈ d) → Covers e s l
  best : s.best < s.pool.count ∧ s.bestCost = hpart e q (s.pool.nodes s.best) ∧
    ∀ i, i < s.pool.count → s.bestCost ≤ hpart e q (s.pool.nodes i)
  oon : s.outOfNodes = true → s.pool.count = mx ∧ ∃ j l, j < s.pool.count ∧
    l ∈ e.links (s.pool.nodes j).id ∧ l.1 ≠ 0#32 ∧ e.pass l.1 = true ∧
    ∀ i, i < s.pool.count → (s.pool.nodes i).key ≠ (l.1, crossSide l.2)
  pos : ∀ i, i < s.pool.count → Entry e q (s.pool.nodes i).id (s.pool.nodes i).pos

/-- Re-rooting one node of a forest below a node outside its subtree keeps all chains finite. -/
theorem Chain.reparent {next : Nat → Option Nat} {i b k : Nat} {l lb : List Nat}
    (hl : Chain next (some k) l) (hb : Chain next (some b) lb) (hi : i ∉ lb) :
    ∃ l', Chain (upd next i (some b)) (some k) l' ∧ ∀ a ∈ l', a ∈ l ∨ a ∈ lb ∨ a = i := by
  have hb' : Chain (upd next i (some b)) (some b) lb := hb.upd_notMem hi
  induction l generalizing k with
  | nil => simp [Chain] at hl
  | cons a l ih =>
    obtain ⟨hka, hl⟩ := hl
    simp only [Option.some.injEq] at hka
    subst hka
    by_cases hki : k = i
    · subst hki
      refine ⟨k :: lb, ⟨rfl, ?_⟩, ?_⟩
      · rw [upd_same]
        exact hb'
      · intro a ha
        rcases List.mem_cons.1 ha with rfl | ha
        · exact Or.inr (Or.inr rfl)
        · exact Or.inr (Or.inl ha)
    · cases hn : next k with
      | none =>
        refine ⟨[k], ⟨rfl, ?_⟩, ?_⟩
        · rw [upd_ne _ _ hki, hn]
          rfl
        · intro a ha
          simp only [List.mem_singleton] at ha
          exact Or.inl (by simp [ha])
      | some k' =>
        rw [hn] at hl
        obtain ⟨l', h1, h2⟩ := ih hl
        refine ⟨k :: l', ⟨rfl, ?_⟩, ?_⟩
        · rw [upd_ne _ _ hki, hn]
          exact h1
        · intro a ha
          rcases List.mem_cons.1 ha with rfl | ha
          · exact Or.inl (by simp)
          · rcases h2 a ha with h | h | h
            · exact Or.inl (by simp [h])
            · exact Or.inr (Or.inl h)
            · exact Or.inr (Or.inr h)

/-- Costs do not increase towards the root. -/
theorem SInv.chain_cost {e : Env P C} {q : Query P} {mx : Nat}
    {cur : Option (Nat × List (Ref × BitVec 8))} {s : Search P C} (hs : SInv e q mx cur s)
    {i : Nat} {l : List Nat} (hl : Chain (par s.pool) (some i) l) (hc : ∀ a ∈ l, a < s.pool.count) :
    ∀ a ∈ l, (s.pool.nodes a).cost ≤ (s.pool.nodes i).cost := by
  induction l generalizing i with
  | nil => intro a ha; simp at ha
  | cons c l ih =>
    obtain ⟨hic, hl⟩ := hl
    simp only [Option.some.injEq] at hic
    subst hic
    intro a ha'
    rcases List.mem_cons.1 ha' with rfl | ha
    · exact le_refl _
    · by_cases hi0 : i = 0
      · subst hi0
        have : par s.pool 0 = none := by
          unfold par
          rw [hs.root.2.2.1]
          rfl
        rw [this] at hl
        rw [Chain.none_iff.1 hl] at ha
        simp at ha
      · obtain ⟨j, h1, h2, _, _, _, h6, _⟩ := hs.parent i (hc i (by simp)) hi0
        have : par s.pool i = some j := by
          unfold par
          rw [h2]
          rfl
        rw [this] at hl
        exact le_trans (ih hl (fun a ha => hc a (by simp [ha])) a ha) h6

/-- The root ends every chain. -/
theorem SInv.zero_mem {e : Env P C} {q : Query P} {mx : Nat}
    {cur : Option (Nat × List (Ref × BitVec 8))} {s : Search P C} (hs : SInv e q mx cur s)
    {i : Nat} {l : List Nat} (hl : Chain (par s.pool) (some i) l) (hc : ∀ a ∈ l, a < s.pool.count) :
    l.getLast? = some 0 := by
  induction l generalizing i with
  | nil => simp [Chain] at hl
  | cons c l ih =>
    obtain ⟨hic, hl⟩ := hl
    simp only [Option.some.injEq] at hic
    subst hic
    by_cases hi0 : i = 0
    · subst hi0
      have : par s.pool 0 = none := by
        unfold par
        rw [hs.root.2.2.1]
        rfl
      rw [this] at hl
      rw [Chain.none_iff.1 hl]
      rfl
    · obtain ⟨j, h1, h2, _⟩ := hs.parent i (hc i (by simp)) hi0
      have : par s.pool i = some j := by
        unfold par
        rw [h2]
        rfl
      rw [this] at hl
      rw [List.getLast?_cons, ih hl (fun a ha => hc a (by simp [ha]))]
      rfl

theorem write_self (p : Pool P C) (i : Nat) : p.write i (p.nodes i) = p := by
  unfold Pool.write
  have : upd p.nodes i (p.nodes i) = p.nodes := by
    funext j
    unfold upd
    split
    · rename_i h; rw [h]
    · rfl
  rw [this]

theorem place_key (e : Env P C) (a b : Ref) (n : Node P C) : (place e a b n).key = n.key := by
  unfold place
  split <;> rfl

theorem place_visited (e : Env P C) (a b : Ref) (n : Node P C)
    (h : n.opened = true ∨ n.closed = true) : place e a b n = n := by
  unfold place
  rw [if_neg]
  rintro ⟨h1, h2, _⟩
  rcases h with h | h
  · rw [h1] at h; simp at h
  · rw [h2] at h; simp at h

theorem stepCost_le {e : Env P C} (laws : CostLaws C) (hnn : e.NonNeg) (q : Query P)
    (bestRef pref nref : Ref) (bn n : Node P C) :
    bn.cost ≤ (stepCost e q bestRef pref nref bn n).1 := by
  unfold stepCost
  split
  · exact le_trans (laws.grow _ _ (hnn _ _ _ _ _)) (laws.grow _ _ (hnn _ _ _ _ _))
  · exact laws.grow _ _ (hnn _ _ _ _ _)

theorem stepCost_hpart (e : Env P C) (q : Query P) (bestRef pref : Ref) (bn n : Node P C)
    (nref : Ref) (h : n.id = nref) :
    (stepCost e q bestRef pref nref bn n).2 = hpart e q n := by
  unfold stepCost hpart
  rw [h]
  split <;> rfl

/-- What one round can do to the measure of progress. -/
structure Progress (s s' : Search P C) : Prop where
  grew : s.pool.count ≤ s'.pool.count
  down : s'.pool.count = s.pool.count → ∀ i, (s'.pool.nodes i).total ≤ (s.pool.nodes i).total
  same : s'.pool.count = s.pool.count →
    (∀ i, i < s.pool.count → (s'.pool.nodes i).total = (s.pool.nodes i).total) →
    s'.heap.size = s.heap.size

theorem Progress.rfl' (s : Search P C) : Progress s s :=
  ⟨le_refl _, fun _ _ => le_refl _, fun _ _ => rfl⟩

theorem Progress.trans {s s' s'' : Search P C} (h1 : Progress s s') (h2 : Progress s' s'') :
    Progress s s'' := by
  have g1 := h1.grew
  have g2 := h2.grew
  refine ⟨le_trans g1 g2, fun hc i => ?_, fun hc ht => ?_⟩
  · exact le_trans (h2.down (by omega) i) (h1.down (by omega) i)
  · have e1 : s'.pool.count = s.pool.count := by omega
    have e2 : s''.pool.count = s'.pool.count := by omega
    have t1 : ∀ i, i < s.pool.count → (s'.pool.nodes i).total = (s.pool.nodes i).total := by
      intro i hi
      apply le_antisymm (h1.down e1 i)
      rw [← ht i hi]
      exact h2.down e2 i
    rw [h2.same e2 (fun i hi => by rw [ht i (by omega), t1 i (by omega)]), h1.same e1 t1]

/-- The update of one node (new or improved) preserves the invariant. -/
theorem settle_inv {e : Env P C} {q : Query P} {mx : Nat}
    {b : Nat} {d : List (Ref × BitVec 8)} {s : Search P C}
    (hs : SInv e q mx (some (b, d)) s) (hb : b < s.pool.count)
    (hbgoal : (s.pool.nodes b).id ≠ q.goal)
    {l : Ref × BitVec 8} (hl : l ∈ e.links (s.pool.nodes b).id) (hl0 : l.1 ≠ 0#32)
    (hlp : e.pass l.1 = true)
    {i : Nat} {p : Pool P C} {n : Node P C} (hp : PoolInv p) (hmx : p.maxNodes = mx)
    (hcount : s.pool.count ≤ p.count) (hcount' : ∀ j, j < p.count → j ≠ i → j < s.pool.count)
    (hi : i < p.count) (hnew : s.pool.count ≤ i ∨ i < s.pool.count)
    (hnodes : ∀ j, j ≠ i → p.nodes j = s.pool.nodes j) (hni : p.nodes i = n)
    {lb : List Nat} (hlb : Chain (par s.pool) (some b) lb) (hlbc : ∀ a ∈ lb, a < s.pool.count)
    (hilb : i ∉ lb)
    (n1 : n.id = l.1) (n2 : n.state = crossSide l.2) (n3 : n.pidx = b + 1)
    (n4 : n.opened = true) (n5 : n.closed = false) (n6 : n.total = n.cost + hpart e q n)
    (n7 : (s.pool.nodes b).cost ≤ n.cost) (n8 : Entry e q n.id n.pos)
    (hold : i < s.pool.count → (s.pool.nodes i).key = n.key ∧ n.total ≤ (s.pool.nodes i).total ∧
      hpart e q n = hpart e q (s.pool.nodes i) ∧ n.cost ≤ (s.pool.nodes i).cost)
    {h : Heap} {wasOpen : Bool} (hreq : requeue p s.heap wasOpen i = some h)
    (hwas : wasOpen = true ↔ i < s.pool.count ∧ (s.pool.nodes i).opened = true) :
    ∀ s' : Search P C, s'.pool = p → s'.heap = h → s'.outOfNodes = s.outOfNodes →
      ((s'.best = i ∧ s'.bestCost = hpart e q n ∧ hpart e q n ≤ s.bestCost) ∨
        (s'.best = s.best ∧ s'.bestCost = s.bestCost ∧ s.bestCost ≤ hpart e q n)) →
      SInv e q mx (some (b, l :: d)) s' := by
  intro s' e1 e2 e3 hbest
  have hzero : 0 ∈ lb := List.mem_of_getLast? (hs.zero_mem hlb hlbc)
  have hi0 : i ≠ 0 := by rintro rfl; exact hilb hzero
  have hbi : b ≠ i := by
    rintro rfl
    apply hilb
    cases lb with
    | nil => simp [Chain] at hlb
    | cons a lb =>
      have := hlb.1
      simp only [Option.some.injEq] at this
      simp [this]
  have hkeysame : ∀ j, j < s.pool.count → (p.nodes j).key = (s.pool.nodes j).key := by
    intro j hj
    by_cases hji : j = i
    · subst hji
      rw [hni]
      exact (hold hj).1.symm
    · rw [hnodes j hji]
  have hidsame : ∀ j, j < s.pool.count → (p.nodes j).id = (s.pool.nodes j).id :=
    fun j hj => congrArg Prod.fst (hkeysame j hj)
  have hheap : HeapInv (totals p) h ∧ h.len = mx + 1 ∧
      ∀ j, j ∈ h.toList ↔ (j ∈ s.heap.toList ∨ j = i) := by
    unfold requeue at hreq
    split at hreq
    · rename_i hw
      obtain ⟨w1, w2⟩ := hwas.1 hw
      simp only [Option.some.injEq] at hreq
      have hmem : i ∈ s.heap.toList := (hs.mem i).2 ⟨w1, w2⟩
      obtain ⟨m1, m2, m3, m4⟩ := modify_spec (key' := totals p) hs.heap i hmem
        (by unfold totals; rw [hni]; exact (hold w1).2.1)
        (fun y hy _ => by unfold totals; rw [hnodes y hy])
      rw [← hreq]
      refine ⟨m1, by rw [m3, hs.len], fun j => ?_⟩
      rw [m2.mem_iff]
      constructor
      · exact Or.inl
      · rintro (h | rfl)
        · exact h
        · exact hmem
    · rename_i hw
      have hnm : i ∉ s.heap.toList := by
        intro hm
        exact hw (hwas.2 ((hs.mem i).1 hm))
      have hinv : HeapInv (totals p) s.heap := by
        apply hs.heap.congr
        intro y hy
        unfold totals
        rw [hnodes y (by rintro rfl; exact hnm hy)]
      have hroom : s.heap.size < s.heap.len := by
        have hsub : s.heap.toList ⊆ List.range s.pool.count :=
          fun a ha => List.mem_range.2 ((hs.mem a).1 ha).1
        have := (List.subperm_of_subset hs.heap.nodup hsub).length_le
        rw [toList_length, List.length_range] at this
        have h1 := hs.pool.count
        have h2 := hs.max
        rw [hs.len]
        omega
      obtain ⟨h', p1, p2, p3, p4⟩ := push_spec hinv i hnm hroom
      rw [p1] at hreq
      simp only [Option.some.injEq] at hreq
      rw [← hreq]
      refine ⟨p2, by rw [p4, hs.len], fun j => ?_⟩
      rw [p3.mem_iff, List.mem_cons, or_comm]
  have hpar : par p = upd (par s.pool) i (some b) := by
    funext j
    unfold par
    by_cases hji : j = i
    · subst hji
      rw [upd_same, hni, n3]
      rfl
    · rw [upd_ne _ _ hji, hnodes j hji]
  have hcov : ∀ l', Covers e s l' → Covers e s' l' := by
    intro l' hc h1 h2
    rcases hc h1 h2 with h | ⟨k, k1, k2⟩
    · left; rw [e3]; exact h
    · right
      refine ⟨k, by rw [e1]; omega, ?_⟩
      rw [e1, hidsame k k1]
      exact k2
  have hcovl : Covers e s' l := by
    intro _ _
    right
    exact ⟨i, by rw [e1]; exact hi, by rw [e1, hni]; exact n1⟩
  have hcost : ∀ j, j < s.pool.count → (p.nodes j).cost ≤ (s.pool.nodes j).cost := by
    intro j hj
    by_cases hji : j = i
    · subst hji
      rw [hni]
      exact (hold hj).2.2.2
    · rw [hnodes j hji]
  refine ⟨by rw [e1]; exact hp, by rw [e1]; exact hmx, by rw [e2]; exact hheap.2.1,
    by rw [e1, e2]; exact hheap.1, ?_, ?_, ?_, ?_, ?_, ?_, ?_, ?_, ?_, ?_, ?_⟩
  · intro j
    rw [e1, e2, hheap.2.2 j, hs.mem j]
    by_cases hji : j = i
    · subst hji
      simp only [or_true, true_iff]
      exact ⟨hi, by rw [hni]; exact n4⟩
    · rw [hnodes j hji]
      constructor
      · rintro (⟨h1, h2⟩ | h)
        · exact ⟨by omega, h2⟩
        · exact absurd h hji
      · rintro ⟨h1, h2⟩
        exact Or.inl ⟨hcount' j h1 hji, h2⟩
  · intro j hj
    rw [e1] at hj ⊢
    by_cases hji : j = i
    · subst hji
      rw [hni, n4, n5]
      rfl
    · rw [hnodes j hji]
      exact hs.flags j (hcount' j hj hji)
  · rw [e1, hnodes 0 (fun h => hi0 h.symm)]
    have := hs.root
    exact ⟨by omega, this.2⟩
  · intro j hj hj0
    rw [e1] at hj ⊢
    by_cases hji : j = i
    · subst hji
      refine ⟨b, by omega, by rw [hni]; exact n3, ⟨l.2, ?_, ?_⟩, ?_, ?_, ?_, ?_⟩
      · rw [hni, hnodes b hbi, n1]
        exact hl
      · rw [hni, n2]
      · rw [hni, n1]; exact hl0
      · rw [hni, n1]; exact hlp
      · rw [hni, hnodes b hbi]; exact n7
      · rw [hnodes b hbi]; exact hbgoal
    · obtain ⟨k, k1, k2, ⟨sd, k3, k3'⟩, k4, k5, k6, k7⟩ := hs.parent j (hcount' j hj hji) hj0
      rw [hnodes j hji]
      refine ⟨k, by omega, k2, ⟨sd, ?_, k3'⟩, k4, k5, ?_, ?_⟩
      · rw [hidsame k k1]; exact k3
      · exact le_trans (hcost k k1) k6
      · rw [hidsame k k1]; exact k7
  · intro j hj
    rw [e1] at hj ⊢
    rw [hpar]
    by_cases hji : j = i
    · subst hji
      refine ⟨j :: lb, ⟨rfl, ?_⟩, ?_⟩
      · rw [upd_same]
        exact hlb.upd_notMem hilb
      · intro a ha
        rcases List.mem_cons.1 ha with rfl | ha
        · exact hi
        · exact lt_of_lt_of_le (hlbc a ha) hcount
    · obtain ⟨lj, c1, c2⟩ := hs.chain j (hcount' j hj hji)
      obtain ⟨l', d1, d2⟩ := Chain.reparent c1 hlb hilb
      refine ⟨l', d1, fun a ha => ?_⟩
      rcases d2 a ha with h | h | h
      · exact lt_of_lt_of_le (c2 a h) hcount
      · exact lt_of_lt_of_le (hlbc a h) hcount
      · rw [h]; exact hi
  · intro j hj
    rw [e1] at hj ⊢
    by_cases hji : j = i
    · subst hji
      rw [hni]; exact n6
    · rw [hnodes j hji]
      exact hs.tot j (hcount' j hj hji)
  · intro j hj hc
    rw [e1] at hj hc ⊢
    by_cases hji : j = i
    · subst hji
      rw [hni, n5] at hc
      simp at hc
    · rw [hnodes j hji] at hc ⊢
      exact hs.goal j (hcount' j hj hji) hc
  · intro j hj hc l' hl' hd
    rw [e1] at hj hc hl'
    by_cases hji : j = i
    · subst hji
      rw [hni, n5] at hc
      simp at hc
    · rw [hnodes j hji] at hc hl'
      by_cases hjb : j = b
      · subst hjb
        have := hd _ rfl
        rcases List.mem_cons.1 this with rfl | hm
        · exact hcovl
        · exact hcov _ (hs.exp j (hcount' j hj hji) hc l' hl' (by
            intro d' hd'
            simp only [Option.some.injEq, Prod.mk.injEq, true_and] at hd'
            rw [← hd']; exact hm))
      · exact hcov _ (hs.exp j (hcount' j hj hji) hc l' hl' (by
          intro d' hd'
          simp only [Option.some.injEq, Prod.mk.injEq] at hd'
          exact absurd hd'.1.symm hjb))
  · obtain ⟨b1, b2, b3⟩ := hs.best
    rw [e1]
    have hh : ∀ j, j < p.count → j ≠ i → hpart e q (p.nodes j) = hpart e q (s.pool.nodes j) := by
      intro j _ hji
      rw [hnodes j hji]
    rcases hbest with ⟨c1, c2, c3⟩ | ⟨c1, c2, c3⟩
    · rw [c1, c2]
      refine ⟨hi, by rw [hni], fun j hj => ?_⟩
      by_cases hji : j = i
      · subst hji; rw [hni]
      · rw [hnodes j hji]
        exact le_trans c3 (b3 j (hcount' j hj hji))
    · rw [c1, c2]
      refine ⟨by omega, ?_, fun j hj => ?_⟩
      · by_cases hbi' : s.best = i
        · rw [hbi', hni]
          rw [(hold (by omega)).2.2.1, b2, hbi']
        · rw [hnodes _ hbi']; exact b2
      · by_cases hji : j = i
        · subst hji; rw [hni]; exact c3
        · rw [hnodes j hji]
          exact b3 j (hcount' j hj hji)
  · intro ho
    rw [e3] at ho
    obtain ⟨o1, j, lj, o2, o3, o4, o5, o6⟩ := hs.oon ho
    have hpm := hp.count
    have hpc : p.count = s.pool.count := by omega
    rw [e1, hpc]
    refine ⟨o1, j, lj, o2, ?_, o4, o5, fun k hk => ?_⟩
    · rw [hidsame j o2]; exact o3
    · rw [hkeysame k hk]; exact o6 k hk
  · intro j hj
    rw [e1] at hj ⊢
    by_cases hji : j = i
    · subst hji; rw [hni]; exact n8
    · rw [hnodes j hji]
      exact hs.pos j (hcount' j hj hji)

/-- Adding a handled link to the record of the current node. -/
theorem SInv.skip {e : Env P C} {q : Query P} {mx : Nat} {b : Nat} {d : List (Ref × BitVec 8)}
    {s : Search P C} (hs : SInv e q mx (some (b, d)) s) (l : Ref × BitVec 8) (hc : Covers e s l) :
    SInv e q mx (some (b, l :: d)) s := by
  refine { hs with exp := ?_ }
  intro j hj hcl l' hl' hd
  by_cases hll : l' = l
  · rw [hll]; exact hc
  · apply hs.exp j hj hcl l' hl'
    intro d' hd'
    simp only [Option.some.injEq, Prod.mk.injEq] at hd'
    obtain ⟨rfl, rfl⟩ := hd'
    have := hd _ rfl
    rcases List.mem_cons.1 this with h | h
    · exact absurd h hll
    · exact h

/-- Ids of live nodes never change. -/
def SameIds (s s' : Search P C) : Prop :=
  ∀ i, i < s.pool.count → (s'.pool.nodes i).id = (s.pool.nodes i).id

theorem relax_inv {e : Env P C} (laws : CostLaws C) (hnn : e.NonNeg) {q : Query P} {mx : Nat}
    {b : Nat} {d : List (Ref × BitVec 8)} {s : Search P C}
    (hs : SInv e q mx (some (b, d)) s) (hb : b < s.pool.count)
    (hbgoal : (s.pool.nodes b).id ≠ q.goal)
    (pref : Ref) (hpref : pref ≠ 0#32 → ∃ k, k < s.pool.count ∧ (s.pool.nodes k).id = pref)
    (l : Ref × BitVec 8) (hl : l ∈ e.links (s.pool.nodes b).id) :
    ∃ s', relax e q b (s.pool.nodes b).id pref s l = some s' ∧
      SInv e q mx (some (b, l :: d)) s' ∧ Progress s s' ∧ SameIds s s' := by
  unfold relax
  split
  · rename_i h
    refine ⟨s, rfl, hs.skip l ?_, Progress.rfl' s, fun _ _ => rfl⟩
    intro h1 h2
    rcases h with h | h
    · exact absurd h h1
    · right
      rw [h]
      exact hpref (by rw [← h]; exact h1)
  rename_i hl0
  rw [not_or] at hl0
  split
  · rename_i h
    refine ⟨s, rfl, hs.skip l ?_, Progress.rfl' s, fun _ _ => rfl⟩
    intro _ h2
    rw [h] at h2
    simp at h2
  rename_i hpass
  have hpass : e.pass l.1 = true := by
    cases h : e.pass l.1
    · exact absurd h hpass
    · rfl
  obtain ⟨lb, hlb, hlbc⟩ := hs.chain b hb
  rcases node_cases hs.pool (l.1, crossSide l.2) with
    ⟨i, h1, h2, h3⟩ | ⟨h1, h2, h3⟩ | ⟨p', h1, h2, h3, h4, h5, h6, h7, h8⟩
  · -- existing node
    rw [h1]
    simp only
    have hid : (s.pool.nodes i).id = l.1 := congrArg Prod.fst h3
    have hst : (s.pool.nodes i).state = crossSide l.2 := congrArg Prod.snd h3
    have hfl := hs.flags i h2
    have hvis : (s.pool.nodes i).opened = true ∨ (s.pool.nodes i).closed = true := by
      rw [hfl]
      cases (s.pool.nodes i).opened <;> simp
    have hcovl : Covers e s l := fun _ _ => Or.inr ⟨i, h2, hid⟩
    unfold visit
    simp only [place_visited e _ _ _ hvis, write_self]
    have hsc := stepCost_hpart e q (s.pool.nodes b).id pref (s.pool.nodes b) (s.pool.nodes i) l.1 hid
    have hle := stepCost_le laws hnn q (s.pool.nodes b).id pref l.1 (s.pool.nodes b)
      (s.pool.nodes i)
    generalize stepCost e q (s.pool.nodes b).id pref l.1 (s.pool.nodes b) (s.pool.nodes i) = ch at *
    by_cases himp : (s.pool.nodes i).total ≤ ch.1 + ch.2
    · have : (if (s.pool.nodes i).opened = true ∧ (s.pool.nodes i).total ≤ ch.1 + ch.2 then some s
          else if (s.pool.nodes i).closed = true ∧ (s.pool.nodes i).total ≤ ch.1 + ch.2 then some s
          else none) = some s := by
        rcases hvis with h | h
        · rw [if_pos ⟨h, himp⟩]
        · split
          · rfl
          · rw [if_pos ⟨h, himp⟩]
      refine ⟨s, ?_, hs.skip l hcovl, Progress.rfl' s, fun _ _ => rfl⟩
      rcases hvis with h | h
      · rw [if_pos ⟨h, himp⟩]
      · split
        · rfl
        · rw [if_pos ⟨h, himp⟩]
    · rw [if_neg (fun h => himp h.2), if_neg (fun h => himp h.2)]
      have hilb : i ∉ lb := by
        intro hm
        apply himp
        rw [hs.tot i h2, hsc]
        exact laws.mono _ _ _ (le_trans (hs.chain_cost hlb hlbc i hm) hle)
      have hlt : ch.1 + ch.2 < (s.pool.nodes i).total := not_le.1 himp
      have hcostle : ch.1 ≤ (s.pool.nodes i).cost := by
        by_contra hc
        apply himp
        rw [hs.tot i h2, hsc]
        exact laws.mono _ _ _ (le_of_lt (not_le.1 hc))
      have hwinv := write_inv hs.pool i (settle (s.pool.nodes i) b l.1 ch.1 (ch.1 + ch.2)) (by
        unfold settle Node.key
        simp only [hid])
      have hpoolc : (s.pool.write i (settle (s.pool.nodes i) b l.1 ch.1 (ch.1 + ch.2))).count
        = s.pool.count := rfl
      have hreq : ∃ h, requeue (s.pool.write i (settle (s.pool.nodes i) b l.1 ch.1 (ch.1 + ch.2)))
          s.heap (s.pool.nodes i).opened i = some h ∧
          ((s.pool.nodes i).opened = true → h.size = s.heap.size) := by
        unfold requeue
        split
        · rename_i hw
          refine ⟨_, rfl, fun _ => ?_⟩
          unfold Heap.modify
          split <;> rfl
        · rename_i hw
          unfold Heap.push
          rw [if_pos]
          · exact ⟨_, rfl, fun h => absurd h hw⟩
          · have hsub : s.heap.toList ⊆ List.range s.pool.count :=
              fun a ha => List.mem_range.2 ((hs.mem a).1 ha).1
            have := (List.subperm_of_subset hs.heap.nodup hsub).length_le
            rw [toList_length, List.length_range] at this
            have h1 := hs.pool.count
            have h2 := hs.max
            rw [hs.len]
            omega
      obtain ⟨h, hreq, hsz⟩ := hreq
      rw [hreq]
      simp only
      have hhp : hpart e q (settle (s.pool.nodes i) b l.1 ch.1 (ch.1 + ch.2))
          = hpart e q (s.pool.nodes i) := by
        unfold hpart settle
        simp only [hid]
      have hsettle := settle_inv hs hb hbgoal hl hl0.1 hpass hwinv.1 hs.max (le_refl _)
        (fun j hj _ => hj) h2 (Or.inr h2) (fun j hj => upd_ne _ _ hj) (upd_same _ _ _) hlb hlbc hilb
        (by rfl) (by exact hst) (by rfl) (by rfl) (by rfl)
        (by rw [hhp, ← hsc]; rfl) (by exact hle) (by
          have := hs.pos i h2
          rw [hid] at this
          exact this)
        (fun _ => ⟨by unfold settle Node.key; simp only [hid], le_of_lt hlt, hhp, hcostle⟩) hreq
        ⟨fun h => ⟨h2, h⟩, fun h => h.2⟩
      have hprog : ∀ s' : Search P C,
          s'.pool = s.pool.write i (settle (s.pool.nodes i) b l.1 ch.1 (ch.1 + ch.2)) →
          Progress s s' ∧ SameIds s s' := by
        intro s' e1
        refine ⟨⟨by rw [e1]; exact le_refl _, fun _ j => ?_, fun _ ht => ?_⟩, fun j hj => ?_⟩
        · rw [e1]
          unfold Pool.write
          by_cases hji : j = i
          · subst hji
            simp only [upd_same]
            exact le_of_lt hlt
          · simp only [upd_ne _ _ hji, le_refl]
        · have := ht i h2
          rw [e1] at this
          unfold Pool.write at this
          simp only [upd_same] at this
          exact absurd this (ne_of_lt hlt)
        · rw [e1]
          unfold Pool.write
          by_cases hji : j = i
          · subst hji
            simp only [upd_same]
            exact hid.symm
          · simp only [upd_ne _ _ hji]
      split
      · rename_i hlt'
        exact ⟨_, rfl, hsettle _ rfl rfl rfl (Or.inl ⟨rfl, by rw [hhp, ← hsc],
          by rw [hhp, ← hsc]; exact le_of_lt hlt'⟩), hprog _ rfl⟩
      · rename_i hlt'
        exact ⟨_, rfl, hsettle _ rfl rfl rfl (Or.inr ⟨rfl, rfl,
          by rw [hhp, ← hsc]; exact not_lt.1 hlt'⟩), hprog _ rfl⟩
  · -- pool exhausted
    rw [h1]
    refine ⟨_, rfl, ?_, ⟨le_refl _, fun _ _ => le_refl _, fun _ _ => rfl⟩, fun _ _ => rfl⟩
    have : ∀ l', Covers e { s with pool := s.pool, outOfNodes := true } l' :=
      fun _ _ _ => Or.inl rfl
    exact { hs with
      exp := fun _ _ _ _ _ _ => this _
      oon := fun _ => ⟨by rw [h3]; exact hs.max, b, l, hb, hl, hl0.1, hpass, fun i hi hk =>
        h2 (mem_table.2 ⟨i, hi, hk⟩)⟩ }
  · -- new node
    rw [h1]
    simp only
    unfold visit
    simp only
    have hbc : b ≠ s.pool.count := by omega
    have hpc : p'.nodes s.pool.count
        = (s.pool.nodes s.pool.count).reset (l.1, crossSide l.2) := by rw [h8, upd_same]
    have hpj : ∀ j, j ≠ s.pool.count → p'.nodes j = s.pool.nodes j := by
      intro j hj
      rw [h8, upd_ne _ _ hj]
    rw [hpc]
    have hpl : ∃ n0 : Node P C, place e (s.pool.nodes b).id l.1
        ((s.pool.nodes s.pool.count).reset (l.1, crossSide l.2)) = n0 ∧ n0.opened = false ∧
        n0.closed = false ∧ n0.id = l.1 ∧ n0.state = crossSide l.2 ∧ Entry e q l.1 n0.pos := by
      refine ⟨_, rfl, ?_⟩
      have hE : Edge e (s.pool.nodes b).id l.1 := ⟨l.2, hl, hl0.1, hpass⟩
      have hpos : ∀ x : P, Entry e q l.1 ((e.mid (s.pool.nodes b).id l.1).getD x) := by
        intro x
        refine Or.inr ⟨_, hE, ?_⟩
        cases h : e.mid (s.pool.nodes b).id l.1 with
        | none => exact Or.inr rfl
        | some y => exact Or.inl rfl
      unfold place Node.reset
      simp [hpos]
    obtain ⟨n0, hn0, f1, f2, f3, f4, f5⟩ := hpl
    rw [hn0]
    have hnb : (p'.write s.pool.count n0).nodes b = s.pool.nodes b := by
      unfold Pool.write
      simp only [upd_ne _ _ hbc]
      exact hpj b hbc
    rw [hnb]
    have hsc := stepCost_hpart e q (s.pool.nodes b).id pref (s.pool.nodes b) n0 l.1 f3
    have hle := stepCost_le laws hnn q (s.pool.nodes b).id pref l.1 (s.pool.nodes b) n0
    generalize stepCost e q (s.pool.nodes b).id pref l.1 (s.pool.nodes b) n0 = ch at *
    rw [f1, f2]
    rw [if_neg (by simp), if_neg (by simp)]
    have hilb : s.pool.count ∉ lb := fun h => absurd (hlbc _ h) (lt_irrefl _)
    have hw1 := write_inv h4 s.pool.count n0 (by
      rw [hpc, reset_key]
      exact Prod.ext f3 f4)
    have hw2 := write_inv hw1.1 s.pool.count (settle n0 b l.1 ch.1 (ch.1 + ch.2)) (by
      unfold Pool.write settle Node.key
      simp only [upd_same, f3])
    have hreq : ∃ h, requeue ((p'.write s.pool.count n0).write s.pool.count
        (settle n0 b l.1 ch.1 (ch.1 + ch.2))) s.heap false s.pool.count = some h := by
      unfold requeue Heap.push
      rw [if_neg (by simp), if_pos]
      · exact ⟨_, rfl⟩
      · have hsub : s.heap.toList ⊆ List.range s.pool.count :=
          fun a ha => List.mem_range.2 ((hs.mem a).1 ha).1
        have := (List.subperm_of_subset hs.heap.nodup hsub).length_le
        rw [toList_length, List.length_range] at this
        have h1 := hs.pool.count
        have h2 := hs.max
        rw [hs.len]
        omega
    obtain ⟨h, hreq⟩ := hreq
    rw [hreq]
    simp only
    have hhp : hpart e q (settle n0 b l.1 ch.1 (ch.1 + ch.2)) = hpart e q n0 := by
      unfold hpart settle
      simp only [f3]
    have hcnt : ((p'.write s.pool.count n0).write s.pool.count
        (settle n0 b l.1 ch.1 (ch.1 + ch.2))).count = s.pool.count + 1 := h5
    have hsettle := settle_inv (i := s.pool.count)
      (n := settle n0 b l.1 ch.1 (ch.1 + ch.2)) hs hb hbgoal hl hl0.1 hpass hw2.1
      (by show p'.maxNodes = mx; rw [h6, hs.max]) (by rw [hcnt]; omega)
      (fun j hj hne => by rw [hcnt] at hj; omega) (by rw [hcnt]; omega) (Or.inl (le_refl _))
      (fun j hj => by
        unfold Pool.write
        simp only [upd_ne _ _ hj]
        exact hpj j hj) (by unfold Pool.write; simp only [upd_same]) hlb hlbc hilb
      (by rfl) (by exact f4) (by rfl) (by rfl) (by rfl)
      (by rw [hhp, ← hsc]; rfl) (by exact hle) (by exact f5)
      (fun hc => absurd hc (lt_irrefl _)) hreq
      ⟨fun h => by simp at h, fun h => absurd h.1 (lt_irrefl _)⟩
    have hprog : ∀ s' : Search P C, s'.pool = (p'.write s.pool.count n0).write s.pool.count
        (settle n0 b l.1 ch.1 (ch.1 + ch.2)) → Progress s s' ∧ SameIds s s' := by
      intro s' e1
      refine ⟨⟨by rw [e1, hcnt]; omega, fun hc => ?_, fun hc => ?_⟩, fun j hj => ?_⟩
      · rw [e1, hcnt] at hc; omega
      · rw [e1, hcnt] at hc; omega
      · rw [e1]
        unfold Pool.write
        simp only [upd_ne _ _ (show j ≠ s.pool.count by omega)]
        rw [hpj j (by omega)]
    split
    · rename_i hlt'
      exact ⟨_, rfl, hsettle _ rfl rfl rfl (Or.inl ⟨rfl, by rw [hhp, ← hsc],
        by rw [hhp, ← hsc]; exact le_of_lt hlt'⟩), hprog _ rfl⟩
    · rename_i hlt'
      exact ⟨_, rfl, hsettle _ rfl rfl rfl (Or.inr ⟨rfl, rfl,
        by rw [hhp, ← hsc]; exact not_lt.1 hlt'⟩), hprog _ rfl⟩

theorem relaxAll_inv {e : Env P C} (laws : CostLaws C) (hnn : e.NonNeg) {q : Query P} {mx : Nat}
    {b : Nat} {r : Ref} (hr : r ≠ q.goal) (pref : Ref) (ls : List (Ref × BitVec 8))
    (hls : ∀ l ∈ ls, l ∈ e.links r) {d : List (Ref × BitVec 8)} {s : Search P C}
    (hs : SInv e q mx (some (b, d)) s) (hb : b < s.pool.count) (hbr : (s.pool.nodes b).id = r)
    (hpref : pref ≠ 0#32 → ∃ k, k < s.pool.count ∧ (s.pool.nodes k).id = pref) :
    ∃ s', relaxAll e q b r pref ls s = some s' ∧ SInv e q mx (some (b, ls.reverse ++ d)) s' ∧
      Progress s s' ∧ SameIds s s' := by
  induction ls generalizing s d with
  | nil => exact ⟨s, rfl, hs, Progress.rfl' s, fun _ _ => rfl⟩
  | cons l ls ih =>
    obtain ⟨s1, h1, h2, h3, h4⟩ := relax_inv laws hnn hs hb (by rw [hbr]; exact hr) pref hpref l
      (by rw [hbr]; exact hls l (by simp))
    have hg := h3.grew
    obtain ⟨s2, g1, g2, g3, g4⟩ := ih (fun l' hl' => hls l' (by simp [hl'])) h2 (by omega)
      (by rw [h4 b hb, hbr]) (by
        intro hp
        obtain ⟨k, k1, k2⟩ := hpref hp
        exact ⟨k, by omega, by rw [h4 k k1, k2]⟩)
    refine ⟨s2, ?_, ?_, h3.trans g3, ?_⟩
    · rw [relaxAll, ← hbr, h1]
      simp only
      rw [hbr]
      exact g1
    · rw [List.reverse_cons, List.append_assoc]
      exact g2
    · intro i hi
      rw [g4 i (by omega), h4 i hi]

/-- The round after a pop: everything except the popped node keeps its flags. -/
theorem close_inv {e : Env P C} {q : Query P} {mx : Nat} {s : Search P C}
    (hs : SInv e q mx none s) {b : Nat} {h : Heap} (hpop : s.heap.pop (totals s.pool) = some (b, h)) :
    b < s.pool.count ∧ h.size + 1 = s.heap.size ∧
    (∀ i, ((markClosed s.pool b).nodes i).id = (s.pool.nodes i).id ∧
      ((markClosed s.pool b).nodes i).total = (s.pool.nodes i).total ∧
      ((markClosed s.pool b).nodes i).pidx = (s.pool.nodes i).pidx) ∧
    (∀ y ∈ s.heap.toList, (s.pool.nodes b).total ≤ (s.pool.nodes y).total) ∧
    ((s.pool.nodes b).id ≠ q.goal →
      SInv e q mx (some (b, [])) { s with pool := markClosed s.pool b, heap := h }) := by
  have hne : s.heap.size ≠ 0 := by
    intro h0
    rw [pop_empty_panics _ _ h0] at hpop
    simp at hpop
  obtain ⟨x, h', p1, p2, p3, p4, p5, p6⟩ := pop_spec hs.heap hne
  rw [p1] at hpop
  simp only [Option.some.injEq, Prod.mk.injEq] at hpop
  obtain ⟨rfl, rfl⟩ := hpop
  have hxm : x ∈ s.heap.toList := p3.mem_iff.2 (by simp)
  obtain ⟨x1, x2⟩ := (hs.mem x).1 hxm
  have hfield : ∀ i, (markClosed s.pool x).nodes i = if i = x then
      { s.pool.nodes x with opened := false, closed := true } else s.pool.nodes i := by
    intro i
    rfl
  have hsame : ∀ i, ((markClosed s.pool x).nodes i).key = (s.pool.nodes i).key ∧
      ((markClosed s.pool x).nodes i).id = (s.pool.nodes i).id ∧
      ((markClosed s.pool x).nodes i).total = (s.pool.nodes i).total ∧
      ((markClosed s.pool x).nodes i).pidx = (s.pool.nodes i).pidx ∧
      ((markClosed s.pool x).nodes i).cost = (s.pool.nodes i).cost ∧
      ((markClosed s.pool x).nodes i).pos = (s.pool.nodes i).pos ∧
      ((markClosed s.pool x).nodes i).state = (s.pool.nodes i).state := by
    intro i
    rw [hfield]
    split
    · rename_i hix
      rw [hix]
      exact ⟨rfl, rfl, rfl, rfl, rfl, rfl, rfl⟩
    · exact ⟨rfl, rfl, rfl, rfl, rfl, rfl, rfl⟩
  have hhp : ∀ i, hpart e q ((markClosed s.pool x).nodes i) = hpart e q (s.pool.nodes i) := by
    intro i
    unfold hpart
    rw [(hsame i).2.1, (hsame i).2.2.2.2.2.1]
  have hcnt : (markClosed s.pool x).count = s.pool.count := rfl
  have hpar : par (markClosed s.pool x) = par s.pool := by
    funext i
    unfold par
    rw [(hsame i).2.2.2.1]
  have htot : totals (markClosed s.pool x) = totals s.pool := by
    funext i
    exact (hsame i).2.2.1
  refine ⟨x1, p6, fun i => ⟨(hsame i).2.1, (hsame i).2.2.1, (hsame i).2.2.2.1⟩, p4, fun hgoal => ?_⟩
  have hwi := write_inv hs.pool x { s.pool.nodes x with opened := false, closed := true } rfl
  have hnodup := (p3.nodup_iff).1 hs.heap.nodup
  rw [List.nodup_cons] at hnodup
  refine ⟨hwi.1, hs.max, by rw [p5]; exact hs.len, by rw [htot]; exact p2, ?_, ?_, ?_, ?_, ?_, ?_, ?_, ?_,
    ?_, ?_, ?_⟩
  · intro i
    simp only
    rw [hcnt, hfield]
    by_cases hix : i = x
    · subst hix
      simp only [if_true]
      constructor
      · intro hm; exact absurd hm hnodup.1
      · rintro ⟨_, hc⟩; simp at hc
    · rw [if_neg hix, ← hs.mem i, p3.mem_iff, List.mem_cons]
      simp [hix]
  · intro i hi
    simp only
    rw [hfield]
    split
    · rfl
    · exact hs.flags i hi
  · simp only
    rw [(hsame 0).2.1, (hsame 0).2.2.2.1, (hsame 0).2.2.2.2.1, (hsame 0).2.2.2.2.2.2, hcnt]
    exact hs.root
  · intro i hi hi0
    obtain ⟨j, j1, j2, j3, j4, j5, j6, j7⟩ := hs.parent i hi hi0
    refine ⟨j, j1, ?_⟩
    simp only
    rw [(hsame i).2.1, (hsame i).2.2.2.1, (hsame i).2.2.2.2.1, (hsame i).2.2.2.2.2.2,
      (hsame j).2.1, (hsame j).2.2.2.2.1]
    exact ⟨j2, j3, j4, j5, j6, j7⟩
  · intro i hi
    simp only
    rw [hpar]
    exact hs.chain i hi
  · intro i hi
    simp only
    rw [(hsame i).2.2.1, (hsame i).2.2.2.2.1, hhp]
    exact hs.tot i hi
  · intro i hi hc
    simp only at hc ⊢
    rw [(hsame i).2.1]
    by_cases hix : i = x
    · rw [hix]; exact hgoal
    · rw [hfield, if_neg hix] at hc
      exact hs.goal i hi hc
  · intro i hi hc l hl hd
    simp only at hc hl
    by_cases hix : i = x
    · subst hix
      exact absurd (hd _ rfl) (by simp)
    · rw [hfield, if_neg hix] at hc hl
      intro c1 c2
      rcases hs.exp i hi hc l hl (by intro d' hd'; simp at hd') c1 c2 with h | ⟨k, k1, k2⟩
      · exact Or.inl h
      · right
        refine ⟨k, k1, ?_⟩
        simp only
        rw [(hsame k).2.1]
        exact k2
  · obtain ⟨b1, b2, b3⟩ := hs.best
    refine ⟨b1, ?_, fun i hi => ?_⟩
    · simp only
      rw [hhp]; exact b2
    · simp only
      rw [hhp]; exact b3 i hi
  · intro ho
    obtain ⟨o1, j, lj, o2, o3, o4, o5, o6⟩ := hs.oon ho
    refine ⟨o1, j, lj, o2, ?_, o4, o5, fun k hk => ?_⟩
    · simp only
      rw [(hsame j).2.1]; exact o3
    · simp only
      rw [(hsame k).1]; exact o6 k hk
  · intro i hi
    simp only
    rw [(hsame i).2.1, (hsame i).2.2.2.2.2.1]
    exact hs.pos i hi

/-- How the main loop can end. -/
structure Finished (e : Env P C) (q : Query P) (mx : Nat) (s : Search P C) : Prop where
  /-- the state is that of a search in progress up to the final bookkeeping -/
  inv : ∃ s0, SInv e q mx none s0 ∧ s0.pool.count = s.pool.count ∧ s.outOfNodes = s0.outOfNodes ∧
    s.pool.maxNodes = s0.pool.maxNodes ∧
    (∀ i, (s.pool.nodes i).id = (s0.pool.nodes i).id ∧ (s.pool.nodes i).pidx = (s0.pool.nodes i).pidx ∧
      (s.pool.nodes i).pos = (s0.pool.nodes i).pos) ∧
    ((s.best < s.pool.count ∧ (s.pool.nodes s.best).id = q.goal) ∨
      (s = s0 ∧ s.heap.size = 0))

theorem parentRef_live {e : Env P C} {q : Query P} {mx : Nat}
    {cur : Option (Nat × List (Ref × BitVec 8))} {s : Search P C} (hs : SInv e q mx cur s) {b : Nat}
    (hb : b < s.pool.count) (hne : parentRef s.pool b ≠ 0#32) :
    ∃ k, k < s.pool.count ∧ (s.pool.nodes k).id = parentRef s.pool b := by
  unfold parentRef at hne ⊢
  by_cases hb0 : b = 0
  · subst hb0
    rw [hs.root.2.2.1] at hne
    exact absurd rfl hne
  · obtain ⟨j, j1, j2, _⟩ := hs.parent b hb hb0
    rw [j2]
    exact ⟨j, j1, rfl⟩

theorem searchStep_inv {e : Env P C} (laws : CostLaws C) (hnn : e.NonNeg) {q : Query P} {mx : Nat}
    {s : Search P C} (hs : SInv e q mx none s) :
    (∃ s', searchStep e q s = .done s' ∧ Finished e q mx s') ∨
    (∃ s', searchStep e q s = .more s' ∧ SInv e q mx none s' ∧
      s.pool.count ≤ s'.pool.count ∧
      (s'.pool.count = s.pool.count → ∀ i, (s'.pool.nodes i).total ≤ (s.pool.nodes i).total) ∧
      (s'.pool.count = s.pool.count →
        (∀ i, i < s.pool.count → (s'.pool.nodes i).total = (s.pool.nodes i).total) →
        s'.heap.size < s.heap.size)) := by
  unfold searchStep
  split
  · rename_i h0
    exact Or.inl ⟨s, rfl, ⟨s, hs, rfl, rfl, rfl, fun _ => ⟨rfl, rfl, rfl⟩, Or.inr ⟨rfl, h0⟩⟩⟩
  · rename_i hne
    obtain ⟨b, h, p1, _⟩ := pop_spec hs.heap hne
    rw [p1]
    simp only
    obtain ⟨c1, c2, c3, c4, c5⟩ := close_inv hs p1
    split
    · rename_i hg
      left
      refine ⟨_, rfl, ⟨s, hs, rfl, rfl, rfl, fun i => ⟨(c3 i).1, (c3 i).2.2, ?_⟩, Or.inl ⟨c1, hg⟩⟩⟩
      simp only [markClosed, Pool.write, upd]
      split
      · rename_i hib; rw [hib]
      · rfl
    · rename_i hg
      have hg' : (s.pool.nodes b).id ≠ q.goal := by rw [← (c3 b).1]; exact hg
      have hs1 := c5 hg'
      obtain ⟨s', r1, r2, r3, r4⟩ := relaxAll_inv laws hnn hg
        (parentRef (markClosed s.pool b) b) (e.links ((markClosed s.pool b).nodes b).id)
        (fun l hl => hl) hs1 c1 rfl (fun hp => parentRef_live hs1 c1 hp)
      right
      rw [r1]
      refine ⟨s', rfl, ?_, r3.grew, fun hc i => ?_, fun hc ht => ?_⟩
      · refine { r2 with exp := ?_ }
        intro i hi hcl l hl _
        apply r2.exp i hi hcl l hl
        intro d hd
        simp only [Option.some.injEq, Prod.mk.injEq, List.append_nil] at hd
        obtain ⟨rfl, rfl⟩ := hd
        rw [List.mem_reverse]
        have := r4 b c1
        simp only at this
        rwa [← this]
      · rw [← (c3 i).2.1]
        exact r3.down hc i
      · have := r3.same hc (fun i hi => by
          simp only
          rw [ht i hi, (c3 i).2.1])
        simp only at this
        omega

/-- The search terminates without panic when totals cannot decrease forever. -/
theorem searchLoop_terminates [WellFoundedLT C] {e : Env P C} (laws : CostLaws C) (hnn : e.NonNeg)
    {q : Query P} {mx : Nat} {s : Search P C} (hs : SInv e q mx none s) :
    ∃ n s', searchLoop e q n s = some (.done s') ∧ Finished e q mx s' := by
  -- lexicographic measure: free nodes, totals, open list
  have key : ∀ (k : Nat) (t : Fin mx → C) (sz : Nat) (s : Search P C), SInv e q mx none s →
      mx - s.pool.count = k → (fun i : Fin mx => (s.pool.nodes i).total) = t → s.heap.size = sz →
      ∃ n s', searchLoop e q n s = some (.done s') ∧ Finished e q mx s' := by
    intro k
    induction k using Nat.strong_induction_on with
    | _ k ihk =>
      intro t
      induction t using WellFoundedLT.induction with
      | _ t iht =>
        intro sz
        induction sz using Nat.strong_induction_on with
        | _ sz ihz =>
          intro s hs hk ht hz
          rcases searchStep_inv laws hnn hs with ⟨s', e1, e2⟩ | ⟨s', e1, e2, e3, e4, e5⟩
          · exact ⟨1, s', by rw [searchLoop, e1], e2⟩
          · have hmx : s'.pool.count ≤ mx := by
              have := e2.pool.count
              rw [e2.max] at this
              exact this
            have hnext : ∃ n s'', searchLoop e q n s' = some (.done s'') ∧ Finished e q mx s'' := by
              by_cases hc : s'.pool.count = s.pool.count
              · by_cases hall : ∀ i : Fin mx, (s'.pool.nodes i).total = (s.pool.nodes i).total
                · have hlt : s'.heap.size < sz := by
                    rw [← hz]
                    exact e5 hc fun i hi => hall ⟨i, by omega⟩
                  exact ihz _ hlt s' e2 (by omega) (by rw [← ht]; funext i; exact hall i) rfl
                · have hlt : (fun i : Fin mx => (s'.pool.nodes i).total) < t := by
                    rw [← ht]
                    rw [Pi.lt_def]
                    refine ⟨fun i => e4 hc i, ?_⟩
                    simp only [not_forall] at hall
                    obtain ⟨i, hi⟩ := hall
                    exact ⟨i, lt_of_le_of_ne (e4 hc i) hi⟩
                  exact iht _ hlt _ s' e2 (by omega) rfl rfl
              · exact ihk _ (by omega) _ _ s' e2 rfl rfl rfl
            obtain ⟨n, s'', f1, f2⟩ := hnext
            exact ⟨n + 1, s'', by rw [searchLoop, e1]; exact f1, f2⟩
  exact key _ _ _ s hs rfl rfl rfl

end

end Verif.Detour
