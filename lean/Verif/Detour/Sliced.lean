/-
The sliced search: `InitSlicedFindPath`, `UpdateSlicedFindPath`, `FinalizeSlicedFindPath` and
`FinalizeSlicedFindPathPartial` (detour/query.go:1737-2242), over the node pool of `NodePool.lean` and the heap of
`NodeQueue.lean`.

As in `FindPath.lean`, what the search reads of the mesh and of the filter is abstract; here this includes the ray casts of
the any-angle option. The mesh may change between two calls: each call has its own `RayEnv`. A negative number of
iterations acts as 0. `TileAndPolyByRef` fails exactly when `IsValidPolyRef` does (both test the same fields,
detour/mesh.go:1524-1600).
-/
import Verif.Detour.FindPathProps

set_option linter.unusedSectionVars false

namespace Verif.Detour

/-! ## Model -/

/-- What the sliced search reads, besides `Env`.
* `near a b`: `a.DistSqr(b) < raycastLimitSqr`;
* `ray parent from to grandpa`: the cost of the straight way when `Raycast` reaches its end (`T >= 1`);
* `rayPath ref from to room`: what `Raycast2` writes to the path and its status. -/
structure RayEnv (P C : Type) extends Env P C where
  near : P → P → Bool
  ray : Ref → P → P → Ref → Option C
  rayPath : Ref → P → P → Nat → List Ref × Status

/-- `NavMeshQuery` during a sliced search: `queryData` (detour/query.go:34-47), pool and open list. `q.argsOK` is not
used. -/
structure Sliced (P C : Type) where
  q : Query P
  any : Bool
  status : Status
  best : Option Nat
  bestCost : C
  pool : Pool P C
  heap : Heap

section
variable {P C : Type} [LinearOrder C] [Add C] [Zero C]

/-- `Success | (status & StatusDetailMask)` (detour/query.go:1836-1837, 2020-2021). -/
def completed (st : Status) : Status := Status.success ||| (st &&& Status.detailMask)

/-- Cost and heuristic of a neighbour (detour/query.go:1931-1965); `short` is the cost by the way of a ray. -/
def slicedCost (e : RayEnv P C) (q : Query P) (bestRef parentRef nref : Ref) (bn n : Node P C) (short : Option C) : C × C :=
  let cost := short.getD (bn.cost + e.cost bn.pos n.pos parentRef bestRef nref)
  if nref = q.goal then (cost + e.cost n.pos q.endPos bestRef nref 0#32, 0)
  else (cost, e.heur n.pos q.endPos)

/-- The neighbour updated with its new parent (detour/query.go:1979-1995, 2001). -/
def slicedSettle (n : Node P C) (pidx : Nat) (nref : Ref) (cost total : C) (detached : Bool) : Node P C :=
  { n with pidx := pidx, id := nref, closed := false, opened := true, cost := cost, total := total, detached := detached }

/-- Body of the link loop once the neighbour node `i` is at hand (detour/query.go:1914-2010). `parent` is the parent node
when rays are to be tried. -/
def slicedVisit (e : RayEnv P C) (b : Nat) (bestRef parentRef grandpaRef : Ref) (parent : Option Nat) (nref : Ref) (i : Nat)
    (s : Sliced P C) : Option (Sliced P C) :=
  if (s.pool.nodes i).pidx ≠ 0 ∧ (s.pool.nodes i).pidx = (s.pool.nodes b).pidx then some s
  else
    let n := place e.toEnv bestRef nref (s.pool.nodes i)
    let p := s.pool.write i n
    let short := parent.bind fun j =>
      (e.ray parentRef (p.nodes j).pos n.pos grandpaRef).map fun c => (p.nodes j).cost + c
    let ch := slicedCost e s.q bestRef parentRef nref (p.nodes b) n short
    let total := ch.1 + ch.2
    if n.opened = true ∧ n.total ≤ total then some { s with pool := p }
    else if n.closed = true ∧ n.total ≤ total then some { s with pool := p }
    else
      let pidx := if short.isSome then (p.nodes b).pidx else nodeIdx (some b)
      let p' := p.write i (slicedSettle n pidx nref ch.1 total short.isSome)
      match requeue p' s.heap n.opened i with
      | none => none
      | some h =>
        if ch.2 < s.bestCost then some { s with pool := p', heap := h, best := some i, bestCost := ch.2 }
        else some { s with pool := p', heap := h }

/-- One link of the popped polygon (detour/query.go:1882-2011). `none` is a panic. -/
def slicedRelax (e : RayEnv P C) (b : Nat) (bestRef parentRef grandpaRef : Ref) (parent : Option Nat) (s : Sliced P C)
    (nref : Ref) : Option (Sliced P C) :=
  if nref = 0#32 ∨ nref = parentRef then some s
  else if e.pass nref = false then some s
  else
    match s.pool.node (nref, 0#8) with
    | none => none
    | some (none, p) => some { s with pool := p, status := s.status ||| Status.outOfNodes }
    | some (some i, p) => slicedVisit e b bestRef parentRef grandpaRef parent nref i { s with pool := p }

/-- How one iteration ends: with another one to follow, with `return`, or with a panic. -/
inductive SliceOut (P C : Type) where
  | more (s : Sliced P C)
  | stop (s : Sliced P C)
  | panic

/-- The reference of the parent's parent, 0 if none (detour/query.go:1861-1867). -/
def grandpaRef (p : Pool P C) (b : Nat) : Ref :=
  match nodeAtIdx (p.nodes b).pidx with
  | none => 0#32
  | some j => parentRef p j

/-- One iteration of the loop (detour/query.go:1825-2012) on a non-empty open list. -/
def sliceStep (e : RayEnv P C) (s : Sliced P C) : SliceOut P C :=
  match s.heap.pop (totals s.pool) with
  | none => .panic
  | some (b, h) =>
    let p := markClosed s.pool b
    let bestRef := (p.nodes b).id
    if bestRef = s.q.goal then .stop { s with pool := p, heap := h, best := some b, status := completed s.status }
    else if e.valid bestRef = false then .stop { s with pool := p, heap := h, status := Status.failure }
    else
      let parent := nodeAtIdx (p.nodes b).pidx
      let pref := parentRef p b
      let gref := grandpaRef p b
      if pref ≠ 0#32 ∧ (e.valid pref = false ∨ (gref ≠ 0#32 ∧ e.valid gref = false)) then
        .stop { s with pool := p, heap := h, status := Status.failure }
      else
        let los := s.any && pref != 0#32 && parent.any fun j => e.near (p.nodes j).pos (p.nodes b).pos
        match ((e.links bestRef).map (·.1)).foldlM (slicedRelax e b bestRef pref gref (if los then parent else none))
            { s with pool := p, heap := h } with
        | none => .panic
        | some s' => .more s'

/-- The loop (detour/query.go:1824-2013): iterations done, whether it was left by `return`, and the state. -/
def sliceLoop (e : RayEnv P C) : Nat → Sliced P C → Option (Nat × Bool × Sliced P C)
  | 0, s => some (0, false, s)
  | f + 1, s =>
    if s.heap.size = 0 then some (0, false, s)
    else
      match sliceStep e s with
      | .panic => none
      | .stop s' => some (1, true, s')
      | .more s' => (sliceLoop e f s').map fun r => (r.1 + 1, r.2)

/-- After the loop (detour/query.go:2015-2022). -/
def exhausted (s : Sliced P C) : Sliced P C :=
  if s.heap.size = 0 then { s with status := completed s.status } else s

/-- `UpdateSlicedFindPath` (detour/query.go:1811-2031): what is written to `doneIters` (if anything) and the new state; the
returned status is that of the new state. -/
def sliceUpdate (e : RayEnv P C) (n : Nat) (s : Sliced P C) : Option (Option Nat × Sliced P C) :=
  if s.status.isInProgress = false then some (none, s)
  else if e.valid s.q.start = false ∨ e.valid s.q.goal = false then some (none, { s with status := Status.failure })
  else
    match sliceLoop e n s with
    | none => none
    | some (k, true, s') => some (some k, s')
    | some (k, false, s') => some (some k, exhausted s')

/-- Several updates in a row: iterations done in all, and the state. -/
def sliceRun (e : RayEnv P C) : List Nat → Sliced P C → Option (Nat × Sliced P C)
  | [], s => some (0, s)
  | n :: ns, s => (sliceUpdate e n s).bind fun r => (sliceRun e ns r.2).map fun r' => (r.1.getD 0 + r'.1, r'.2)

/-- `InitSlicedFindPath` (detour/query.go:1737-1801): returned status and state; `none` is a panic. With an invalid reference
pool and open list stay as they are. -/
def sliceInit (e : RayEnv P C) (q : Query P) (any : Bool) (c0 : C) (p : Pool P C) (h : Heap) : Option (Status × Sliced P C) :=
  if q.start = 0#32 ∨ q.goal = 0#32 ∨ e.valid q.start = false ∨ e.valid q.goal = false then
    some (Status.failure ||| Status.invalidParam, ⟨q, any, Status.failure, none, c0, p, h⟩)
  else if q.start = q.goal then some (Status.success, ⟨q, any, Status.success, none, c0, p, h⟩)
  else
    match initSearch e.toEnv q p h with
    | none => none
    | some s => some (Status.inProgress, ⟨q, any, Status.inProgress, some s.best, s.bestCost, s.pool, s.heap⟩)

/-- Reversing the parent pointers (detour/query.go:2067-2083): `NodeParentDetached` moves along. Returns the pool and the node
it ended at; `none` is an endless loop. -/
def reverseLoop : Nat → Option Nat → Bool → Nat → Pool P C → Option (Pool P C × Nat)
  | 0, _, _, _, _ => none
  | f + 1, prev, prevRay, c, p =>
    let p' := p.write c { p.nodes c with pidx := nodeIdx prev, detached := prevRay }
    match par p c with
    | none => some (p', c)
    | some c' => reverseLoop f (some c) (p.nodes c).detached c' p'

/-- What one node adds to the path (detour/query.go:2089-2106): the path so far and the local `status`; `none` is an index out of
range or a nil dereference. `cap = maxPath = len(path)`. -/
def storeNode (e : RayEnv P C) (p : Pool P C) (cap c : Nat) (path : List Ref) : Option (List Ref × Status) :=
  if (p.nodes c).detached = true then
    match par p c with
    | none => none
    | some j =>
      let r := e.rayPath (p.nodes c).id (p.nodes c).pos (p.nodes j).pos (cap - path.length)
      let path' := path ++ r.1
      if path' = [] then none
      else some (if path'.getLast? = some (p.nodes j).id then path'.dropLast else path', r.2)
  else if cap ≤ path.length then none
  else some (path ++ [(p.nodes c).id], if cap ≤ path.length + 1 then Status.bufferTooSmall else 0#32)

/-- Storing the path (detour/query.go:2086-2117). -/
def storeLoop (e : RayEnv P C) (p : Pool P C) (cap : Nat) : Nat → Nat → List Ref → Status → Option (List Ref × Status)
  | 0, _, _, _ => none
  | f + 1, c, path, st =>
    match storeNode e p cap c path with
    | none => none
    | some (path', st') =>
      if st' &&& Status.detailMask ≠ 0#32 then some (path', st ||| (st' &&& Status.detailMask))
      else
        match par p c with
        | none => some (path', st)
        | some j => storeLoop e p cap f j path' st

/-- `q.query = queryData{}`: zero value; pool and open list keep what they hold. The zero value of a position is `z`. -/
def Sliced.wiped (s : Sliced P C) (z : P) (p : Pool P C) : Sliced P C :=
  ⟨⟨0#32, 0#32, z, z, s.q.argsOK⟩, false, 0#32, none, 0, p, s.heap⟩

/-- The common part of both `Finalize` functions (detour/query.go:2064-2126, 2195-2241) for the node to trace back from. -/
def traceBack (e : RayEnv P C) (s : Sliced P C) (z : P) (node cap : Nat) (st : Status) : Option (List Ref × Status × Sliced P C) :=
  (reverseLoop s.pool.maxNodes none false node s.pool).bind fun r =>
    (storeLoop e r.1 cap s.pool.maxNodes r.2 [] st).map fun o => (o.1, completed o.2, s.wiped z r.1)

/-- `FinalizeSlicedFindPath` (detour/query.go:2045-2127): path, status and state; `none` is a panic. -/
def sliceFinal (e : RayEnv P C) (s : Sliced P C) (z : P) (cap : Nat) : Option (List Ref × Status × Sliced P C) :=
  if s.status.failed = true then some ([], Status.failure, s.wiped z s.pool)
  else if s.q.start = s.q.goal then
    if cap = 0 then none else some ([s.q.start], completed s.status, s.wiped z s.pool)
  else
    match s.best with
    | none => none
    | some b =>
      traceBack e s z b cap (if (s.pool.nodes b).id ≠ s.q.goal then s.status ||| Status.partialResult else s.status)

/-- The furthest polygon of `existing` that was visited (detour/query.go:2179-2185), searching from the end; the outer `none` is a
panic. -/
def furthest (p : Pool P C) : List Ref → Option (Option Nat)
  | [] => some none
  | r :: rs =>
    match p.findNodes r 1 with
    | none => none
    | some [] => furthest p rs
    | some (i :: _) => some (some i)

/-- `FinalizeSlicedFindPathPartial` (detour/query.go:2144-2242). -/
def sliceFinalPartial (e : RayEnv P C) (s : Sliced P C) (z : P) (existing : List Ref) (cap : Nat) :
    Option (List Ref × Status × Sliced P C) :=
  if existing = [] then some ([], Status.failure, s)
  else if s.status.failed = true then some ([], Status.failure, s.wiped z s.pool)
  else if s.q.start = s.q.goal then
    if cap = 0 then none else some ([s.q.start], completed s.status, s.wiped z s.pool)
  else
    match furthest s.pool existing.reverse with
    | none => none
    | some (some i) => traceBack e s z i cap s.status
    | some none =>
      match s.best with
      | none => none
      | some b => traceBack e s z b cap (s.status ||| Status.partialResult)

end

/-! ## Slicing does not matter -/

section
variable {P C : Type} [LinearOrder C] [Add C] [Zero C]

theorem inProgress_oon (st : Status) (h : st.isInProgress = true) : (st ||| Status.outOfNodes).isInProgress = true := by
  unfold Status.isInProgress at *
  rw [BitVec.and_or_distrib_right, show Status.outOfNodes &&& Status.inProgress = 0#32 by decide, BitVec.or_zero]
  exact h

theorem completed_done (st : Status) : (completed st).isInProgress = false := by
  unfold completed Status.isInProgress
  rw [BitVec.and_or_distrib_right, BitVec.and_assoc, show Status.detailMask &&& Status.inProgress = 0#32 by decide,
    show Status.success &&& Status.inProgress = 0#32 by decide]
  simp

/-- What a link can do to the query. -/
structure Kept (s s' : Sliced P C) : Prop where
  q : s'.q = s.q
  any : s'.any = s.any
  run : s.status.isInProgress = true → s'.status.isInProgress = true

theorem slicedVisit_kept {e : RayEnv P C} {b : Nat} {r pr gr : Ref} {pa : Option Nat} {nr : Ref} {i : Nat} {s s' : Sliced P C}
    (h : slicedVisit e b r pr gr pa nr i s = some s') : Kept s s' := by
  unfold slicedVisit at h
  split at h
  · cases h; exact ⟨rfl, rfl, id⟩
  dsimp only at h
  split at h
  · cases h; exact ⟨rfl, rfl, id⟩
  split at h
  · cases h; exact ⟨rfl, rfl, id⟩
  split at h
  · cases h
  split at h <;> (cases h; exact ⟨rfl, rfl, id⟩)

theorem slicedRelax_kept {e : RayEnv P C} {b : Nat} {r pr gr : Ref} {pa : Option Nat} {nr : Ref} {s s' : Sliced P C}
    (h : slicedRelax e b r pr gr pa s nr = some s') : Kept s s' := by
  unfold slicedRelax at h
  split at h
  · cases h; exact ⟨rfl, rfl, id⟩
  split at h
  · cases h; exact ⟨rfl, rfl, id⟩
  split at h
  · cases h
  · cases h; exact ⟨rfl, rfl, inProgress_oon _⟩
  · have := slicedVisit_kept h
    exact ⟨this.q, this.any, this.run⟩

theorem slicedRelaxAll_kept {e : RayEnv P C} {b : Nat} {r pr gr : Ref} {pa : Option Nat} : ∀ (ls : List Ref) {s s' : Sliced P C},
    ls.foldlM (slicedRelax e b r pr gr pa) s = some s' → Kept s s'
  | [], s, s', h => by cases h; exact ⟨rfl, rfl, id⟩
  | l :: ls, s, s', h => by
    rw [List.foldlM_cons] at h
    obtain ⟨s1, h1, h2⟩ := Option.bind_eq_some_iff.1 h
    have k1 := slicedRelax_kept h1
    have k2 := slicedRelaxAll_kept ls h2
    exact ⟨k2.q.trans k1.q, k2.any.trans k1.any, fun h => k2.run (k1.run h)⟩

theorem sliceStep_more {e : RayEnv P C} {s s' : Sliced P C} (h : sliceStep e s = .more s') : Kept s s' := by
  unfold sliceStep at h
  split at h
  · cases h
  dsimp only at h
  split at h
  · cases h
  split at h
  · cases h
  split at h
  · cases h
  split at h
  · cases h
  · rename_i hf
    cases h
    have := slicedRelaxAll_kept _ hf
    exact ⟨this.q, this.any, this.run⟩

theorem sliceStep_stop {e : RayEnv P C} {s s' : Sliced P C} (h : sliceStep e s = .stop s') : s'.status.isInProgress = false := by
  unfold sliceStep at h
  split at h
  · cases h
  dsimp only at h
  split at h
  · cases h; exact completed_done _
  split at h
  · cases h; exact (by decide : Status.failure.isInProgress = false)
  split at h
  · cases h; exact (by decide : Status.failure.isInProgress = false)
  split at h <;> cases h

theorem sliceLoop_kept {e : RayEnv P C} : ∀ (n : Nat) {s s' : Sliced P C} {k : Nat} {b : Bool}, sliceLoop e n s = some (k, b, s') →
    (b = false → Kept s s') ∧ (b = true → s'.status.isInProgress = false)
  | 0, s, s', k, b, h => by cases h; exact ⟨fun _ => ⟨rfl, rfl, id⟩, by simp⟩
  | n + 1, s, s', k, b, h => by
    rw [sliceLoop] at h
    split at h
    · cases h; exact ⟨fun _ => ⟨rfl, rfl, id⟩, by simp⟩
    split at h
    · cases h
    · rename_i hs
      cases h
      exact ⟨by simp, fun _ => sliceStep_stop hs⟩
    · rename_i s1 hs
      obtain ⟨⟨k1, b1, s2⟩, h1, h2⟩ := Option.map_eq_some_iff.1 h
      cases h2
      have k0 := sliceStep_more hs
      obtain ⟨g1, g2⟩ := sliceLoop_kept n h1
      refine ⟨fun hb => ?_, g2⟩
      have := g1 hb
      exact ⟨this.q.trans k0.q, this.any.trans k0.any, fun h => this.run (k0.run h)⟩

theorem sliceLoop_add (e : RayEnv P C) (m : Nat) : ∀ (n : Nat) (s : Sliced P C),
    sliceLoop e (n + m) s = (sliceLoop e n s).bind fun r =>
      if r.2.1 then some r else (sliceLoop e m r.2.2).map fun r' => (r.1 + r'.1, r'.2)
  | 0, s => by
    rw [Nat.zero_add, sliceLoop, Option.bind_some]
    simp
  | n + 1, s => by
    rw [show n + 1 + m = (n + m) + 1 by omega, sliceLoop, sliceLoop]
    split
    · rename_i h0
      rw [Option.bind_some]
      cases m with
      | zero => simp [sliceLoop]
      | succ m => rw [sliceLoop, if_pos h0]; simp
    split
    · rfl
    · simp
    · rename_i s1 _
      rw [sliceLoop_add e m n s1]
      cases sliceLoop e n s1 with
      | none => rfl
      | some r =>
        simp only [Option.bind_some, Option.map_some]
        split
        · rfl
        · rw [Option.map_map]
          congr 1
          funext r'
          simp only [Function.comp]
          rw [Nat.add_right_comm]

theorem sliceLoop_empty (e : RayEnv P C) (n : Nat) (s : Sliced P C) (h : s.heap.size = 0) : sliceLoop e n s = some (0, false, s) := by
  cases n with
  | zero => rfl
  | succ n => rw [sliceLoop, if_pos h]

/-- **C29**: once the search is not in progress any more, further updates change nothing (and write no count). -/
theorem slice_done (e : RayEnv P C) (n : Nat) (s : Sliced P C) (h : s.status.isInProgress = false) :
    sliceUpdate e n s = some (none, s) := by
  unfold sliceUpdate
  rw [if_pos h]

/-- **C29**: `n` iterations and then `m` iterations do what `n + m` iterations do: the same state and status, the same number of
iterations in all, and a panic in the same cases; on any mesh, with any filter, options and pool. -/
theorem slice_split (e : RayEnv P C) (n m : Nat) (s : Sliced P C) :
    sliceRun e [n, m] s = (sliceUpdate e (n + m) s).map fun r => (r.1.getD 0, r.2) := by
  have key : (sliceUpdate e n s).bind (fun r => (sliceUpdate e m r.2).map fun r' => (r.1.getD 0 + r'.1.getD 0, r'.2)) =
      (sliceUpdate e (n + m) s).map fun r => (r.1.getD 0, r.2) := by
    unfold sliceUpdate
    by_cases hp : s.status.isInProgress = false
    · simp [hp]
    rw [if_neg hp, if_neg hp]
    by_cases hv : e.valid s.q.start = false ∨ e.valid s.q.goal = false
    · rw [if_pos hv, if_pos hv]
      simp only [Option.bind_some, Option.map_some]
      rw [if_pos (by decide)]
      simp
    rw [if_neg hv, if_neg hv, sliceLoop_add]
    cases hl : sliceLoop e n s with
    | none => simp
    | some r =>
      obtain ⟨k, b, s1⟩ := r
      obtain ⟨g1, g2⟩ := sliceLoop_kept n hl
      cases b with
      | true =>
        simp only [Option.bind_some, if_true, Option.map_some]
        rw [if_pos (g2 rfl)]
        simp
      | false =>
        have kept := g1 rfl
        have hrun := kept.run (by simpa using hp)
        simp only [Option.bind_some, Bool.false_eq_true, if_false]
        by_cases h0 : s1.heap.size = 0
        · unfold exhausted
          rw [if_pos h0, if_pos (by exact completed_done _), sliceLoop_empty e m s1 h0]
          simp [h0]
        · unfold exhausted
          rw [if_neg h0, if_neg (by rw [hrun]; simp), kept.q, if_neg hv]
          cases sliceLoop e m s1 with
          | none => rfl
          | some r' =>
            obtain ⟨k', b', s2⟩ := r'
            cases b' <;> simp
  rw [← key]
  unfold sliceRun
  congr 1
  funext r
  rw [sliceRun]
  cases sliceUpdate e m r.2 with
  | none => rfl
  | some r' => simp [sliceRun]

/-- **C29**: any way of slicing gives the state and the number of iterations of a single call with the sum. -/
theorem slice_any (e : RayEnv P C) (n : Nat) (ns : List Nat) (s : Sliced P C) :
    sliceRun e (n :: ns) s = (sliceUpdate e ((n :: ns).sum) s).map fun r => (r.1.getD 0, r.2) := by
  induction ns generalizing n s with
  | nil =>
    rw [sliceRun]
    simp only [sliceRun, Option.map_some, List.sum_cons, List.sum_nil, Nat.add_zero]
    cases sliceUpdate e n s <;> simp
  | cons m ns ih =>
    rw [List.sum_cons, ← slice_split]
    rw [sliceRun, sliceRun]
    congr 1
    funext r
    rw [ih m r.2]
    simp only [sliceRun, Option.map_some]
    cases sliceUpdate e ((m :: ns).sum) r.2 <;> simp

theorem sliceLoop_count {e : RayEnv P C} : ∀ (n : Nat) {s s' : Sliced P C} {k : Nat} {b : Bool}, sliceLoop e n s = some (k, b, s') →
    k ≤ n ∧ (b = false → s'.heap.size ≠ 0 → k = n)
  | 0, s, s', k, b, h => by cases h; exact ⟨Nat.le_refl _, fun _ _ => rfl⟩
  | n + 1, s, s', k, b, h => by
    rw [sliceLoop] at h
    split at h
    · rename_i h0
      cases h
      exact ⟨Nat.zero_le _, fun _ h => absurd h0 h⟩
    split at h
    · cases h
    · cases h
      exact ⟨by omega, by simp⟩
    · obtain ⟨⟨k1, b1, s2⟩, h1, h2⟩ := Option.map_eq_some_iff.1 h
      cases h2
      obtain ⟨g1, g2⟩ := sliceLoop_count n h1
      refine ⟨by dsimp only; omega, fun hb h0 => ?_⟩
      have := g2 hb h0
      dsimp only
      omega

/-- **C29**: the reported number of iterations is at most the number asked for, and exactly that while the search goes on. -/
theorem slice_count {e : RayEnv P C} {n k : Nat} {s s' : Sliced P C} (h : sliceUpdate e n s = some (some k, s')) :
    k ≤ n ∧ (s'.status.isInProgress = true → k = n) := by
  unfold sliceUpdate at h
  split at h
  · cases h
  split at h
  · cases h
  split at h
  · cases h
  · rename_i hl
    cases h
    refine ⟨(sliceLoop_count n hl).1, fun hp => ?_⟩
    rw [(sliceLoop_kept n hl).2 rfl] at hp
    simp at hp
  · rename_i s1 hl
    cases h
    refine ⟨(sliceLoop_count n hl).1, fun hp => (sliceLoop_count n hl).2 rfl ?_⟩
    intro h0
    unfold exhausted at hp
    rw [if_pos h0, completed_done] at hp
    simp at hp

end
end Verif.Detour
