/-
Properties of `FindPath` (C23-C28): corridor validity, truthful flags, termination, argument checks,
completeness and truncation.
-/
import Verif.Detour.FindPath
import Mathlib.Logic.Relation
import Mathlib.Data.List.Chain
import Mathlib.Data.List.NodupEquivFin

set_option linter.unusedSectionVars false

namespace Verif.Detour

section
variable {P C : Type} [LinearOrder C] [Add C] [Zero C]

/-! ## Set-up of the search -/

/-- A query object as `NewNavMeshQuery` makes it (detour/query.go:111-153), after any earlier
searches: only the sizes matter. -/
structure QueryObj (p : Pool P C) (h : Heap) (mx : Nat) : Prop where
  hash : 0 < p.hashSize
  hash' : p.hashSize < 2 ^ 32
  max : p.maxNodes = mx
  max0 : 1 ≤ mx
  max1 : mx ≤ 65535
  len : h.len = mx + 1

theorem initSearch_inv {e : Env P C} (laws : CostLaws C) {q : Query P} (hne : q.start ≠ q.goal)
    {p : Pool P C} {h : Heap} {mx : Nat} (ho : QueryObj p h mx) :
    ∃ s, initSearch e q p h = some s ∧ SInv e q mx none s := by
  have hcl : PoolInv p.clear := clear_inv ho.hash ho.hash' (by rw [ho.max]; exact ho.max1)
  have hc0 : p.clear.count = 0 := rfl
  have hm0 : p.clear.maxNodes = mx := ho.max
  unfold initSearch
  rcases node_cases hcl (q.start, 0#8) with
    ⟨i, h1, h2, h3⟩ | ⟨h1, h2, h3⟩ | ⟨p1, h1, h2, h3, h4, h5, h6, h7, h8⟩
  · omega
  · have := ho.max0
    omega
  · rw [h1]
    simp only [hc0] at h5 h8 ⊢
    have hk : ∀ n : Node P C, n.key = (q.start, 0#8) → (startNode e q n).key = n.key := by
      intro n hn
      unfold startNode Node.key
      simp only
      have : n.id = q.start := congrArg Prod.fst hn
      rw [this]
    have hp10 : (p1.nodes 0).key = (q.start, 0#8) := by
      rw [h8, upd_same, reset_key]
    have hw := write_inv h4 0 (startNode e q (p1.nodes 0)) (hk _ hp10)
    generalize hp2 : p1.write 0 (startNode e q (p1.nodes 0)) = p2 at hw ⊢
    have hp2c : p2.count = 1 := by rw [← hp2]; exact h5
    have hp2m : p2.maxNodes = mx := by rw [← hp2, ← hm0, ← h6]; rfl
    have hn0 : p2.nodes 0 = startNode e q (p1.nodes 0) := by
      rw [← hp2]
      unfold Pool.write
      simp only [upd_same]
    have hhc : HeapInv (totals p2) h.clear := by
      refine ⟨?_, List.nodup_nil, Nat.zero_le _⟩
      intro j _ hj
      simp [Heap.clear] at hj
    obtain ⟨h', g1, g2, g3, g4⟩ := push_spec hhc 0 (by simp [Heap.toList, Heap.clear, entries])
      (by
        show 0 < h.len
        rw [ho.len]
        omega)
    rw [g1]
    refine ⟨_, rfl, ?_⟩
    have hlist : ∀ i, i ∈ h'.toList ↔ i = 0 := by
      intro i
      rw [g3.mem_iff]
      simp [Heap.toList, Heap.clear, entries]
    have hone : ∀ i, i < p2.count → i = 0 := by
      intro i hi
      omega
    have hhp : hpart e q (startNode e q (p1.nodes 0)) = e.heur q.startPos q.endPos := by
      unfold hpart startNode
      simp only
      rw [if_neg hne]
    refine ⟨hw.1, hp2m, by simp only; rw [g4]; exact ho.len, g2, ?_, ?_, ?_, ?_, ?_, ?_, ?_, ?_, ?_, ?_, ?_⟩
    · intro i
      simp only
      rw [hlist]
      constructor
      · rintro rfl
        exact ⟨by omega, by rw [hn0]; rfl⟩
      · rintro ⟨h1, _⟩
        exact hone i h1
    · intro i hi
      simp only at hi ⊢
      rw [hone i hi, hn0]
      rfl
    · simp only
      rw [hn0]
      exact ⟨by omega, rfl, rfl, rfl, congrArg Prod.snd hp10⟩
    · intro i hi hi0
      exact absurd (hone i hi) hi0
    · intro i hi
      simp only at hi ⊢
      refine ⟨[0], ?_, fun a ha => ?_⟩
      · rw [hone i hi]
        refine ⟨rfl, ?_⟩
        show par p2 0 = none
        unfold par
        rw [hn0]
        rfl
      · simp only [List.mem_singleton] at ha
        omega
    · intro i hi
      simp only at hi ⊢
      rw [hone i hi, hn0, hhp]
      exact (laws.zero_add _).symm
    · intro i hi hc
      simp only at hi hc
      rw [hone i hi, hn0] at hc
      simp [startNode] at hc
    · intro i hi hc
      simp only at hi hc
      rw [hone i hi, hn0] at hc
      simp [startNode] at hc
    · refine ⟨by simp only; omega, ?_, fun i hi => ?_⟩
      · simp only
        rw [hn0, hhp]
        rfl
      · simp only at hi ⊢
        rw [hone i hi, hn0, hhp]
        exact le_refl _
    · intro hc
      simp at hc
    · intro i hi
      simp only at hi ⊢
      rw [hone i hi, hn0]
      exact Or.inl ⟨rfl, rfl⟩

theorem searchLoop_mono {e : Env P C} {q : Query P} {n : Nat} {s : Search P C} {r : StepOut P C}
    (h : searchLoop e q n s = some r) (k : Nat) (hk : n ≤ k) : searchLoop e q k s = some r := by
  induction n generalizing s k with
  | zero => simp [searchLoop] at h
  | succ n ih =>
    obtain ⟨k', rfl⟩ : ∃ k', k = k' + 1 := ⟨k - 1, by omega⟩
    rw [searchLoop] at h ⊢
    split <;> rename_i hst <;> rw [hst] at h
    · exact h
    · exact h
    · exact ih h k' (by omega)

/-! ## Reading the path back -/

theorem lengthLoop_eq {next : Nat → Option Nat} {c : Nat} {l : List Nat}
    (hc : Chain next (some c) l) {f : Nat} (hf : l.length ≤ f) :
    lengthLoop next f c = some l.length := by
  induction l generalizing c f with
  | nil => simp [Chain] at hc
  | cons a l ih =>
    obtain ⟨ha, hc⟩ := hc
    simp only [Option.some.injEq] at ha
    subst ha
    cases f with
    | zero => simp at hf
    | succ f =>
      rw [lengthLoop]
      cases hn : next c with
      | none =>
        rw [hn] at hc
        rw [Chain.none_iff.1 hc]
        rfl
      | some c' =>
        rw [hn] at hc
        simp only
        rw [ih hc (by simpa using hf)]
        rfl

theorem climb_eq {next : Nat → Option Nat} {h : Option Nat} {l : List Nat} (hc : Chain next h l)
    {k : Nat} (hk : k ≤ l.length) : ∃ h', climb next k h = some h' ∧ Chain next h' (l.drop k) := by
  induction k generalizing h l with
  | zero =>
    refine ⟨h, ?_, by simpa using hc⟩
    cases h <;> rfl
  | succ k ih =>
    cases l with
    | nil => simp at hk
    | cons a l =>
      obtain ⟨rfl, hc⟩ := hc
      rw [climb]
      exact ih hc (by simpa using hk)

theorem writePath_eq {next : Nat → Option Nat} {ids : Nat → Ref} {h : Option Nat} {l : List Nat}
    (hc : Chain next h l) {k : Nat} (hk : k ≤ l.length) (acc : List Ref) :
    writePath next ids k h acc = some (((l.take k).map ids).reverse ++ acc) := by
  induction k generalizing h l acc with
  | zero => cases h <;> simp [writePath]
  | succ k ih =>
    cases l with
    | nil => simp at hk
    | cons a l =>
      obtain ⟨rfl, hc⟩ := hc
      rw [writePath, ih hc (by simpa using hk)]
      simp

theorem pathToNode_eq {p : Pool P C} {b cap : Nat} {l : List Nat}
    (hc : Chain (par p) (some b) l) (hl : l.length ≤ p.maxNodes) :
    pathToNode p b cap = some (((l.map fun i => (p.nodes i).id).reverse).take cap,
      if cap < l.length then Status.success ||| Status.bufferTooSmall else Status.success) := by
  unfold pathToNode
  rw [lengthLoop_eq hc hl]
  obtain ⟨h', c1, c2⟩ := climb_eq hc (k := l.length - cap) (by omega)
  simp only [c1]
  rw [writePath_eq c2 (by simp)]
  simp only [List.append_nil, Option.some.injEq, Prod.mk.injEq, and_true]
  rw [List.take_of_length_le (by simp)]
  rw [List.map_drop]
  have : cap = l.length - (l.length - cap) ∨ l.length ≤ cap := by omega
  rcases this with h | h
  · rw [List.take_reverse]
    simp only [List.length_map]
  · rw [List.take_of_length_le (by simpa using h)]
    have : l.length - cap = 0 := by omega
    rw [this]
    rfl

/-! ## The result of a search -/

/-- Spec: the status of a search that ran. -/
def pathStatus (tooSmall part oon : Bool) : Status :=
  Status.success ||| (if tooSmall then Status.bufferTooSmall else 0#32)
    ||| (if part then Status.partialResult else 0#32) ||| (if oon then Status.outOfNodes else 0#32)

/-- Spec: a corridor from `start`: each polygon is linked to the next, which passes the filter. -/
def Corridor (e : Env P C) (start : Ref) (path : List Ref) : Prop :=
  path.head? = some start ∧ path.IsChain (Edge e)

theorem trace_corridor {e : Env P C} {q : Query P} {mx : Nat} {s0 : Search P C}
    (hs : SInv e q mx none s0) {b : Nat} {l : List Nat}
    (hl : Chain (par s0.pool) (some b) l) (hc : ∀ a ∈ l, a < s0.pool.count) :
    Corridor e q.start ((l.map fun i => (s0.pool.nodes i).id).reverse) ∧
      ((l.map fun i => (s0.pool.nodes i).id).reverse).getLast? = some (s0.pool.nodes b).id := by
  have hlast := hs.zero_mem hl hc
  refine ⟨⟨?_, ?_⟩, ?_⟩
  · rw [List.head?_reverse, List.getLast?_map, hlast]
    simp only [Option.map_some]
    rw [hs.root.2.1]
  · rw [List.isChain_reverse]
    rw [List.isChain_map]
    -- each element of the chain is the child of its successor
    clear hlast
    induction l generalizing b with
    | nil => exact List.IsChain.nil
    | cons c l ih =>
      obtain ⟨hbc, hl⟩ := hl
      simp only [Option.some.injEq] at hbc
      subst hbc
      by_cases hb0 : b = 0
      · subst hb0
        have : par s0.pool 0 = none := by
          unfold par
          rw [hs.root.2.2.1]
          rfl
        rw [this] at hl
        rw [Chain.none_iff.1 hl]
        exact List.IsChain.singleton _
      · obtain ⟨j, j1, j2, ⟨sd, j3, _⟩, j4, j5, _⟩ := hs.parent b (hc b (by simp)) hb0
        have : par s0.pool b = some j := by
          unfold par
          rw [j2]
          rfl
        rw [this] at hl
        obtain ⟨t, rfl, ht⟩ := Chain.some_iff.1 hl
        refine List.IsChain.cons_cons ?_ (ih hl (fun a ha => hc a (by simp [ha])))
        exact ⟨sd, j3, j4, j5⟩
  · rw [List.getLast?_reverse, List.head?_map]
    cases l with
    | nil => simp [Chain] at hl
    | cons c l =>
      have := hl.1
      simp only [Option.some.injEq] at this
      subst this
      rfl

/-- Everything there is to know about a search that ran: `full` is the corridor before truncation,
`part` whether it misses the goal, `oon` whether nodes ran out. -/
structure SearchRun (e : Env P C) (q : Query P) (mx : Nat) (s s0 : Search P C) (l : List Nat)
    (full : List Ref) (part : Bool) : Prop where
  inv : SInv e q mx none s0
  live : ∀ a ∈ l, a < s0.pool.count
  nodup : l.Nodup
  eq : full = (l.map fun i => (s0.pool.nodes i).id).reverse
  corridor : Corridor e q.start full
  last : full.getLast? = some (s0.pool.nodes s.best).id
  hit : part = false → (s0.pool.nodes s.best).id = q.goal
  miss : part = true → s = s0 ∧ s0.heap.size = 0 ∧ (s0.pool.nodes s.best).id ≠ q.goal
  oon : s.outOfNodes = s0.outOfNodes
  best : s.best < s0.pool.count

theorem status_assemble (c1 c2 c3 : Bool) :
    (let st := if c1 = true then Status.success ||| Status.bufferTooSmall else Status.success
     let st := if c2 = true then st ||| Status.partialResult else st
     if c3 = true then st ||| Status.outOfNodes else st) = pathStatus c1 c2 c3 := by
  cases c1 <;> cases c2 <;> cases c3 <;> decide

/-- The run of `FindPath` behind every successful call with distinct valid end points. -/
theorem findPath_run [WellFoundedLT C] {e : Env P C} (laws : CostLaws C) (hnn : e.NonNeg)
    {q : Query P} (hv1 : e.valid q.start = true) (hv2 : e.valid q.goal = true)
    (hargs : q.argsOK = true) (hne : q.start ≠ q.goal) {p : Pool P C} {h : Heap} {mx : Nat}
    (ho : QueryObj p h mx) :
    ∃ (fuel : Nat) (s s0 : Search P C) (l : List Nat) (full : List Ref) (part : Bool),
      SearchRun e q mx s s0 l full part ∧
      ∀ cap, 0 < cap → ∀ f, fuel ≤ f → findPath e q p h cap f
        = .ok (full.take cap) (pathStatus (decide (cap < full.length)) part s.outOfNodes) := by
  obtain ⟨s1, i1, i2⟩ := initSearch_inv (e := e) laws hne ho
  obtain ⟨fuel, s, l1, ⟨s0, f1, f2, f3, f4, f5, f6⟩⟩ := searchLoop_terminates laws hnn i2
  have hlive : s.best < s0.pool.count := by
    rcases f6 with ⟨h1, _⟩ | ⟨h1, _⟩
    · omega
    · rw [h1]; exact f1.best.1
  obtain ⟨l, c1, c2⟩ := f1.chain _ hlive
  have hids : (fun i => (s.pool.nodes i).id) = fun i => (s0.pool.nodes i).id :=
    funext fun i => (f5 i).1
  have hpar : par s.pool = par s0.pool := by
    funext i
    unfold par
    rw [(f5 i).2.1]
  have hlen : l.length ≤ s.pool.maxNodes := by
    rw [f4]
    exact Nat.le_trans (c1.length_le c2) f1.pool.count
  obtain ⟨t1, t2⟩ := trace_corridor f1 c1 c2
  refine ⟨fuel, s, s0, l, (l.map fun i => (s0.pool.nodes i).id).reverse,
    decide ((s0.pool.nodes s.best).id ≠ q.goal), ?_, ?_⟩
  · refine ⟨f1, c2, c1.nodup, rfl, t1, t2, ?_, ?_, f3, hlive⟩
    · intro hp
      by_contra hc
      simp [hc] at hp
    · intro hp
      have hp' : (s0.pool.nodes s.best).id ≠ q.goal := by simpa using hp
      rcases f6 with ⟨_, h2⟩ | ⟨h1, h2⟩
      · rw [(f5 _).1] at h2
        exact absurd h2 hp'
      · exact ⟨h1, by rw [← h1]; exact h2, hp'⟩
  · intro cap hcap f hf
    unfold findPath
    rw [if_neg (by
      rw [hv1, hv2, hargs]
      simp
      omega), if_neg hne, i1]
    simp only
    rw [searchLoop_mono l1 f hf]
    simp only
    rw [pathToNode_eq (cap := cap) (by rw [hpar]; exact c1) hlen]
    simp only [hids]
    rw [(f5 _).1]
    congr 1
    rw [← status_assemble]
    simp only [List.length_reverse, List.length_map, decide_eq_true_eq]

/-! ## Status decoding -/

theorem pathStatus_failed (a b c : Bool) : (pathStatus a b c).failed = false := by
  cases a <;> cases b <;> cases c <;> decide

theorem pathStatus_succeed (a b c : Bool) : (pathStatus a b c).succeed = true := by
  cases a <;> cases b <;> cases c <;> decide

theorem pathStatus_tooSmall (a b c : Bool) :
    (pathStatus a b c).detail Status.bufferTooSmall = a := by
  cases a <;> cases b <;> cases c <;> decide

theorem pathStatus_partial (a b c : Bool) :
    (pathStatus a b c).detail Status.partialResult = b := by
  cases a <;> cases b <;> cases c <;> decide

theorem pathStatus_oon (a b c : Bool) : (pathStatus a b c).detail Status.outOfNodes = c := by
  cases a <;> cases b <;> cases c <;> decide

theorem findPath_mono {e : Env P C} {q : Query P} {p : Pool P C} {h : Heap} {cap f : Nat}
    (hr : findPath e q p h cap f ≠ .timeout) {g : Nat} (hg : f ≤ g) :
    findPath e q p h cap g = findPath e q p h cap f := by
  unfold findPath at hr ⊢
  split
  · rfl
  split
  · rfl
  rename_i h1 h2
  rw [if_neg h1, if_neg h2] at hr
  cases hi : initSearch e q p h with
  | none => rfl
  | some s0 =>
    rw [hi] at hr
    simp only at hr ⊢
    cases hl : searchLoop e q f s0 with
    | none =>
      rw [hl] at hr
      simp at hr
    | some r => rw [searchLoop_mono hl g hg]

/-! ## Properties -/

/-- Hypotheses shared by the theorems on `FindPath`: costs behave like float32 (finite, hence
well-founded, monotone addition), the filter's costs are not negative, and the query object was made
by `NewNavMeshQuery`. -/
structure Setting (e : Env P C) (p : Pool P C) (h : Heap) (mx : Nat) : Prop where
  laws : CostLaws C
  nonneg : e.NonNeg
  obj : QueryObj p h mx

/-- **C26**: with an invalid start or end reference, a missing argument or an empty buffer, the call
returns `Failure|InvalidParam` and no polygon; otherwise it does not fail. -/
theorem findPath_invalid (e : Env P C) (q : Query P) (p : Pool P C) (h : Heap) (cap f : Nat)
    (hbad : e.valid q.start = false ∨ e.valid q.goal = false ∨ q.argsOK = false ∨ cap = 0) :
    findPath e q p h cap f = .ok [] (Status.failure ||| Status.invalidParam) := by
  unfold findPath
  rw [if_pos hbad]

/-- **C26**: start equal to end gives the one-polygon path. -/
theorem findPath_same (e : Env P C) (q : Query P) (p : Pool P C) (h : Heap) (cap f : Nat)
    (hv : e.valid q.start = true) (hargs : q.argsOK = true) (hcap : 0 < cap)
    (hsame : q.start = q.goal) : findPath e q p h cap f = .ok [q.start] Status.success := by
  unfold findPath
  rw [if_neg (by rw [← hsame, hv, hargs]; simp; omega), if_pos hsame]

/-- **C25**: `FindPath` returns (no endless loop, no panic, in particular the open list never
outgrows its slice), whatever the links, filter, pool size, buffer and earlier searches. -/
theorem findPath_terminates [WellFoundedLT C] {e : Env P C} {p : Pool P C} {h : Heap} {mx : Nat}
    (hs : Setting e p h mx) (q : Query P) (cap : Nat) :
    ∃ fuel path st, ∀ f, fuel ≤ f → findPath e q p h cap f = .ok path st := by
  by_cases hbad : e.valid q.start = false ∨ e.valid q.goal = false ∨ q.argsOK = false ∨ cap = 0
  · exact ⟨0, _, _, fun f _ => findPath_invalid e q p h cap f hbad⟩
  · simp only [not_or, Bool.not_eq_false] at hbad
    obtain ⟨b1, b2, b3, b4⟩ := hbad
    by_cases hsame : q.start = q.goal
    · exact ⟨0, _, _, fun f _ => findPath_same e q p h cap f b1 b3 (by omega) hsame⟩
    · obtain ⟨fuel, s, s0, l, full, part, _, hr⟩ :=
        findPath_run hs.laws hs.nonneg b1 b2 b3 hsame hs.obj
      exact ⟨fuel, _, _, hr cap (by omega)⟩

/-- The three ways a call can end. -/
theorem findPath_cases [WellFoundedLT C] {e : Env P C} {p : Pool P C} {h : Heap} {mx : Nat}
    (hs : Setting e p h mx) {q : Query P} {cap f : Nat} {path : List Ref} {st : Status}
    (hr : findPath e q p h cap f = .ok path st) :
    (path = [] ∧ st = (Status.failure ||| Status.invalidParam)) ∨
    (q.start = q.goal ∧ 0 < cap ∧ path = [q.start] ∧ st = Status.success) ∨
    (q.start ≠ q.goal ∧ 0 < cap ∧ ∃ s s0 l full part, SearchRun e q mx s s0 l full part ∧
      path = full.take cap ∧
      st = pathStatus (decide (cap < full.length)) part s.outOfNodes) := by
  by_cases hbad : e.valid q.start = false ∨ e.valid q.goal = false ∨ q.argsOK = false ∨ cap = 0
  · left
    rw [findPath_invalid e q p h cap f hbad] at hr
    simp only [PathOut.ok.injEq] at hr
    exact ⟨hr.1.symm, hr.2.symm⟩
  · simp only [not_or, Bool.not_eq_false] at hbad
    obtain ⟨b1, b2, b3, b4⟩ := hbad
    right
    by_cases hsame : q.start = q.goal
    · left
      rw [findPath_same e q p h cap f b1 b3 (by omega) hsame] at hr
      simp only [PathOut.ok.injEq] at hr
      exact ⟨hsame, by omega, hr.1.symm, hr.2.symm⟩
    · right
      obtain ⟨fuel, s, s0, l, full, part, ho, hrun⟩ :=
        findPath_run hs.laws hs.nonneg b1 b2 b3 hsame hs.obj
      have := hrun cap (by omega) (Nat.max f fuel) (Nat.le_max_right _ _)
      rw [findPath_mono (f := f) (by rw [hr]; simp) (Nat.le_max_left _ _), hr] at this
      simp only [PathOut.ok.injEq] at this
      exact ⟨hsame, by omega, s, s0, l, full, part, ho, this.1, this.2⟩

theorem isChain_take {R : Ref → Ref → Prop} {l : List Ref} (h : l.IsChain R) (n : Nat) :
    (l.take n).IsChain R := h.take n

/-- **C23**: a path returned by a call that did not fail starts at `startRef`, fits the buffer, and
each polygon is linked to the next, which passes the filter. -/
theorem findPath_corridor [WellFoundedLT C] {e : Env P C} {p : Pool P C} {h : Heap} {mx : Nat}
    (hs : Setting e p h mx) {q : Query P} {cap f : Nat} {path : List Ref} {st : Status}
    (hr : findPath e q p h cap f = .ok path st) (hok : st.failed = false) :
    Corridor e q.start path ∧ path.length ≤ cap := by
  rcases findPath_cases hs hr with ⟨_, h2⟩ | ⟨_, h1, h2, _⟩ | ⟨_, h0, s, s0, l, full, part, ho, h2, _⟩
  · rw [h2] at hok
    exact absurd hok (by decide)
  · rw [h2]
    exact ⟨⟨rfl, List.IsChain.singleton _⟩, h1⟩
  · obtain ⟨c1, c2⟩ := ho.corridor
    refine ⟨⟨?_, by rw [h2]; exact c2.take _⟩, by rw [h2]; simp⟩
    rw [h2, List.head?_take, if_neg (by omega), c1]

/-- **C23**: no polygon occurs in the path more often than there are search states. The states are
the tile sides halved (`crossSide`), so at most 128, and at most 4 when sides are 0..7 or 0xff as
`AddTile` makes them. -/
theorem findPath_repeats [WellFoundedLT C] {e : Env P C} {p : Pool P C} {h : Heap} {mx : Nat}
    (hs : Setting e p h mx) {q : Query P} {cap f : Nat} {path : List Ref} {st : Status}
    (hr : findPath e q p h cap f = .ok path st) (n : Nat) (hn : 1 ≤ n)
    (hsides : ∀ a, ∀ l ∈ e.links a, (crossSide l.2).toNat < n) (r : Ref) :
    path.count r ≤ n := by
  rcases findPath_cases hs hr with ⟨h1, _⟩ | ⟨_, _, h2, _⟩ | ⟨_, h0, s, s0, l, full, part, ho, h2, _⟩
  · rw [h1]; simp
  · rw [h2]
    exact Nat.le_trans List.count_le_length (by simpa using hn)
  · have hstate : ∀ i, i < s0.pool.count → (s0.pool.nodes i).state.toNat < n := by
      intro i hi
      by_cases hi0 : i = 0
      · rw [hi0, ho.inv.root.2.2.2.2]
        exact hn
      · obtain ⟨j, _, _, ⟨sd, j3, j4⟩, _⟩ := ho.inv.parent i hi hi0
        rw [← j4]
        exact hsides _ _ j3
    have h3 : path.count r ≤ full.count r := by
      rw [h2]
      exact (List.take_sublist _ _).count_le r
    refine Nat.le_trans h3 ?_
    rw [ho.eq, List.count_reverse, List.count_eq_length_filter, List.filter_map, List.length_map]
    generalize hf : l.filter ((fun x => x == r) ∘ fun i => (s0.pool.nodes i).id) = m
    have hmem : ∀ i ∈ m, i < s0.pool.count ∧ (s0.pool.nodes i).id = r := by
      intro i hi
      rw [← hf, List.mem_filter] at hi
      exact ⟨ho.live i hi.1, by simpa using hi.2⟩
    have hnd : m.Nodup := by
      rw [← hf]
      exact ho.nodup.filter _
    have hnd2 : (m.map fun i => (s0.pool.nodes i).state.toNat).Nodup := by
      rw [List.nodup_map_iff_inj_on hnd]
      intro a ha b hb hab
      apply ho.inv.pool.keys a b (hmem a ha).1 (hmem b hb).1
      unfold Node.key
      rw [(hmem a ha).2, (hmem b hb).2, BitVec.eq_of_toNat_eq hab]
    have hsub : (m.map fun i => (s0.pool.nodes i).state.toNat) ⊆ List.range n := by
      intro x hx
      obtain ⟨i, hi, rfl⟩ := List.mem_map.1 hx
      exact List.mem_range.2 (hstate i (hmem i hi).1)
    have := (List.subperm_of_subset hnd2 hsub).length_le
    simpa using this

/-- **C24**: a path that was not truncated lacks the `PartialResult` flag exactly when it ends at
`endRef`. -/
theorem findPath_partial_flag [WellFoundedLT C] {e : Env P C} {p : Pool P C} {h : Heap} {mx : Nat}
    (hs : Setting e p h mx) {q : Query P} {cap f : Nat} {path : List Ref} {st : Status}
    (hr : findPath e q p h cap f = .ok path st) (hok : st.failed = false)
    (hfit : st.detail Status.bufferTooSmall = false) :
    st.detail Status.partialResult = false ↔ path.getLast? = some q.goal := by
  rcases findPath_cases hs hr with ⟨_, h2⟩ | ⟨h0, h1, h2, h3⟩ | ⟨_, h0, s, s0, l, full, part, ho, h2, h3⟩
  · rw [h2] at hok
    exact absurd hok (by decide)
  · rw [h2, h3, h0]
    exact ⟨fun _ => rfl, fun _ => by decide⟩
  · rw [h3, pathStatus_tooSmall] at hfit
    have hfit : full.length ≤ cap := by simpa using hfit
    rw [h2, List.take_of_length_le hfit, h3, pathStatus_partial, ho.last]
    simp only [Option.some.injEq]
    constructor
    · exact ho.hit
    · intro hg
      cases part
      · rfl
      · exact absurd hg (ho.miss rfl).2.2

theorem SInv.all_closed {e : Env P C} {q : Query P} {mx : Nat}
    {cur : Option (Nat × List (Ref × BitVec 8))} {s : Search P C} (hs : SInv e q mx cur s)
    (h0 : s.heap.size = 0) {i : Nat} (hi : i < s.pool.count) :
    (s.pool.nodes i).closed = true ∧ (s.pool.nodes i).id ≠ q.goal := by
  have hc : (s.pool.nodes i).closed = true := by
    rw [hs.flags i hi]
    cases ho : (s.pool.nodes i).opened
    · rfl
    · have := (hs.mem i).2 ⟨hi, ho⟩
      have hl := toList_length s.heap
      rw [h0] at hl
      rw [List.length_eq_zero_iff.1 hl] at this
      simp at this
  exact ⟨hc, hs.goal i hi hc⟩

theorem chain_reach {e : Env P C} {a : Ref} {l : List Ref} (h : Corridor e a l) {b : Ref}
    (hb : l.getLast? = some b) : Relation.ReflTransGen (Edge e) a b := by
  obtain ⟨h1, h2⟩ := h
  induction l generalizing a with
  | nil => simp at h1
  | cons x l ih =>
    simp only [List.head?_cons, Option.some.injEq] at h1
    subst h1
    cases l with
    | nil =>
      simp only [List.getLast?_singleton, Option.some.injEq] at hb
      rw [hb]
    | cons y l =>
      rw [List.isChain_cons_cons] at h2
      rw [List.getLast?_cons_cons] at hb
      exact Relation.ReflTransGen.head h2.1 (ih hb rfl h2.2)

/-- Every visited polygon can be reached. -/
theorem SInv.reach {e : Env P C} {q : Query P} {mx : Nat} {s : Search P C}
    (hs : SInv e q mx none s) {i : Nat} (hi : i < s.pool.count) :
    Relation.ReflTransGen (Edge e) q.start (s.pool.nodes i).id := by
  obtain ⟨l, c1, c2⟩ := hs.chain i hi
  obtain ⟨t1, t2⟩ := trace_corridor hs c1 c2
  exact chain_reach t1 t2

/-- **C24**: an untruncated partial path ends at the polygon with the smallest heuristic among all
visited polygons. The visited polygons include the path, and all polygons that can be entered from a
visited one unless the search ran out of nodes. -/
theorem findPath_partial_best [WellFoundedLT C] {e : Env P C} {p : Pool P C} {h : Heap} {mx : Nat}
    (hs : Setting e p h mx) {q : Query P} {cap f : Nat} {path : List Ref} {st : Status}
    (hr : findPath e q p h cap f = .ok path st)
    (hfit : st.detail Status.bufferTooSmall = false)
    (hpart : st.detail Status.partialResult = true) :
    ∃ visited : List Ref, q.start ∈ visited ∧ path ⊆ visited ∧ q.goal ∉ visited ∧
      (∀ a ∈ visited, Relation.ReflTransGen (Edge e) q.start a) ∧
      (st.detail Status.outOfNodes = false → ∀ a ∈ visited, ∀ b, Edge e a b → b ∈ visited) ∧
      ∃ r x, path.getLast? = some r ∧ Entry e q r x ∧
        ∀ a ∈ visited, ∃ y, Entry e q a y ∧ e.heur x q.endPos ≤ e.heur y q.endPos := by
  rcases findPath_cases hs hr with ⟨_, h2⟩ | ⟨h0, h1, h2, h3⟩ | ⟨_, h0, s, s0, l, full, part, ho, h2, h3⟩
  · rw [h2] at hpart
    exact absurd hpart (by decide)
  · rw [h3] at hpart
    exact absurd hpart (by decide)
  · rw [h3, pathStatus_tooSmall] at hfit
    rw [h3, pathStatus_partial] at hpart
    have hfit : full.length ≤ cap := by simpa using hfit
    rw [List.take_of_length_le hfit] at h2
    obtain ⟨m1, m2, m3⟩ := ho.miss hpart
    have hmem : ∀ a, a ∈ (List.range s0.pool.count).map (fun i => (s0.pool.nodes i).id) ↔
        ∃ i, i < s0.pool.count ∧ (s0.pool.nodes i).id = a := by
      intro a
      simp [List.mem_map, List.mem_range]
    refine ⟨(List.range s0.pool.count).map fun i => (s0.pool.nodes i).id, ?_, ?_, ?_, ?_, ?_,
      (s0.pool.nodes s.best).id, (s0.pool.nodes s.best).pos, by rw [h2]; exact ho.last,
      ho.inv.pos _ ho.best, ?_⟩
    · exact (hmem _).2 ⟨0, ho.inv.root.1, ho.inv.root.2.1⟩
    · intro a ha
      rw [h2, ho.eq] at ha
      simp only [List.mem_reverse, List.mem_map] at ha
      obtain ⟨i, hi, rfl⟩ := ha
      exact (hmem _).2 ⟨i, ho.live i hi, rfl⟩
    · intro hg
      obtain ⟨i, hi, hid⟩ := (hmem _).1 hg
      exact (ho.inv.all_closed m2 hi).2 hid
    · intro a ha
      obtain ⟨i, hi, rfl⟩ := (hmem _).1 ha
      exact ho.inv.reach hi
    · intro hoon a ha b ⟨sd, e1, e2, e3⟩
      rw [h3, pathStatus_oon, ho.oon] at hoon
      obtain ⟨i, hi, rfl⟩ := (hmem _).1 ha
      rcases ho.inv.exp i hi (ho.inv.all_closed m2 hi).1 _ e1 (by intro d hd; simp at hd) e2 e3 with
        hc | ⟨k, k1, k2⟩
      · rw [hoon] at hc; simp at hc
      · exact (hmem _).2 ⟨k, k1, k2⟩
    · intro a ha
      obtain ⟨i, hi, rfl⟩ := (hmem _).1 ha
      refine ⟨_, ho.inv.pos i hi, ?_⟩
      obtain ⟨b1, b2, b3⟩ := ho.inv.best
      have := b3 i hi
      subst m1
      rw [b2] at this
      unfold Verif.Detour.hpart at this
      rw [if_neg (ho.inv.all_closed m2 hi).2, if_neg m3] at this
      exact this

/-- **C27**: if `endRef` can be reached over links into polygons the filter accepts and the search
did not run out of nodes, the result is not partial (so by `findPath_partial_flag` an untruncated
path ends at `endRef`). -/
theorem findPath_complete [WellFoundedLT C] {e : Env P C} {p : Pool P C} {h : Heap} {mx : Nat}
    (hs : Setting e p h mx) {q : Query P} {cap f : Nat} {path : List Ref} {st : Status}
    (hr : findPath e q p h cap f = .ok path st)
    (hreach : Relation.ReflTransGen (Edge e) q.start q.goal)
    (hoon : st.detail Status.outOfNodes = false) : st.detail Status.partialResult = false := by
  rcases findPath_cases hs hr with ⟨_, h2⟩ | ⟨h0, h1, h2, h3⟩ | ⟨_, h0, s, s0, l, full, part, ho, h2, h3⟩
  · rw [h2]; decide
  · rw [h3]; decide
  · rw [h3, pathStatus_oon, ho.oon] at hoon
    rw [h3, pathStatus_partial]
    cases part
    · rfl
    · exfalso
      obtain ⟨m1, m2, m3⟩ := ho.miss rfl
      have key : ∀ b, Relation.ReflTransGen (Edge e) q.start b →
          ∃ i, i < s0.pool.count ∧ (s0.pool.nodes i).id = b := by
        intro b hb
        induction hb with
        | refl => exact ⟨0, ho.inv.root.1, ho.inv.root.2.1⟩
        | tail _ hE ih =>
          obtain ⟨i, hi, rfl⟩ := ih
          obtain ⟨sd, e1, e2, e3⟩ := hE
          rcases ho.inv.exp i hi (ho.inv.all_closed m2 hi).1 _ e1 (by intro d hd; simp at hd) e2 e3
            with hc | hk
          · rw [hoon] at hc; simp at hc
          · exact hk
      obtain ⟨i, hi, hid⟩ := key _ hreach
      exact (ho.inv.all_closed m2 hi).2 hid

/-- **C27**: the search cannot run out of nodes when the pool has room for every polygon that can be
reached, once per search state. -/
theorem findPath_enough_nodes [WellFoundedLT C] {e : Env P C} {p : Pool P C} {h : Heap} {mx : Nat}
    (hs : Setting e p h mx) {q : Query P} {cap f : Nat} {path : List Ref} {st : Status}
    (hr : findPath e q p h cap f = .ok path st) (n : Nat) (hn : 1 ≤ n)
    (hsides : ∀ a, ∀ l ∈ e.links a, (crossSide l.2).toNat < n)
    (S : List Ref) (hS : ∀ r, Relation.ReflTransGen (Edge e) q.start r → r ∈ S)
    (hroom : S.length * n ≤ mx) : st.detail Status.outOfNodes = false := by
  rcases findPath_cases hs hr with ⟨_, h2⟩ | ⟨h0, h1, h2, h3⟩ | ⟨_, h0, s, s0, l, full, part, ho, h2, h3⟩
  · rw [h2]; decide
  · rw [h3]; decide
  · rw [h3, pathStatus_oon, ho.oon]
    cases hb : s0.outOfNodes
    · rfl
    · exfalso
      obtain ⟨o1, j, lk, o2, o3, o4, o5, o6⟩ := ho.inv.oon hb
      have hstate : ∀ i, i < s0.pool.count → (s0.pool.nodes i).state.toNat < n := by
        intro i hi
        by_cases hi0 : i = 0
        · rw [hi0, ho.inv.root.2.2.2.2]
          exact hn
        · obtain ⟨j, _, _, ⟨sd, j3, j4⟩, _⟩ := ho.inv.parent i hi hi0
          rw [← j4]
          exact hsides _ _ j3
      let g : Ref × BitVec 8 → Ref × Nat := fun k => (k.1, k.2.toNat)
      have hg : ∀ a b, g a = g b → a = b := by
        intro a b hab
        simp only [g, Prod.mk.injEq] at hab
        exact Prod.ext hab.1 (BitVec.eq_of_toNat_eq hab.2)
      have hnd : ((lk.1, crossSide lk.2) ::
          (List.range s0.pool.count).map (fun i => (s0.pool.nodes i).key)).Nodup := by
        rw [List.nodup_cons]
        constructor
        · intro hm
          obtain ⟨i, hi, hk⟩ := List.mem_map.1 hm
          exact o6 i (List.mem_range.1 hi) hk
        · rw [List.nodup_map_iff_inj_on List.nodup_range]
          intro a ha b hb hab
          exact ho.inv.pool.keys a b (List.mem_range.1 ha) (List.mem_range.1 hb) hab
      have hnd2 := hnd.map_on (f := g) (fun a _ b _ hab => hg a b hab)
      have hsub : ((lk.1, crossSide lk.2) ::
          (List.range s0.pool.count).map (fun i => (s0.pool.nodes i).key)).map g
          ⊆ S ×ˢ List.range n := by
        intro x hx
        obtain ⟨k, hk, rfl⟩ := List.mem_map.1 hx
        rw [List.mem_product]
        rcases List.mem_cons.1 hk with rfl | hk
        · exact ⟨hS _ ((ho.inv.reach o2).tail ⟨lk.2, o3, o4, o5⟩),
            List.mem_range.2 (hsides _ _ o3)⟩
        · obtain ⟨i, hi, rfl⟩ := List.mem_map.1 hk
          have hi := List.mem_range.1 hi
          exact ⟨hS _ (ho.inv.reach hi), List.mem_range.2 (hstate i hi)⟩
      have := (List.subperm_of_subset hnd2 hsub).length_le
      rw [List.length_product] at this
      simp only [List.length_map, List.length_cons, List.length_range] at this
      omega

/-- **C28**: for every query there is one full path; a buffer of any size receives its first
polygons, and `BufferTooSmall` is set exactly when some are missing. The other flags do not depend on
the buffer. -/
theorem findPath_truncation [WellFoundedLT C] {e : Env P C} {p : Pool P C} {h : Heap} {mx : Nat}
    (hs : Setting e p h mx) {q : Query P} (hv1 : e.valid q.start = true)
    (hv2 : e.valid q.goal = true) (hargs : q.argsOK = true) :
    ∃ (fuel : Nat) (full : List Ref) (part oon : Bool), full.length ≤ mx ∧ full ≠ [] ∧
      ∀ cap, 0 < cap → ∀ f, fuel ≤ f → ∃ st, findPath e q p h cap f = .ok (full.take cap) st ∧
        st.failed = false ∧ st.detail Status.bufferTooSmall = decide (cap < full.length) ∧
        st.detail Status.partialResult = part ∧ st.detail Status.outOfNodes = oon := by
  by_cases hsame : q.start = q.goal
  · refine ⟨0, [q.start], false, false, hs.obj.max0, by simp, fun cap hcap f _ =>
      ⟨Status.success, ?_, by decide, ?_, by decide, by decide⟩⟩
    · rw [findPath_same e q p h cap f hv1 hargs hcap hsame, List.take_of_length_le (by exact hcap)]
    · rw [show decide (cap < [q.start].length) = false by simp; omega]
      decide
  · obtain ⟨fuel, s, s0, l, full, part, ho, hr⟩ :=
      findPath_run hs.laws hs.nonneg hv1 hv2 hargs hsame hs.obj
    refine ⟨fuel, full, part, s.outOfNodes, ?_, ?_, fun cap hcap f hf => ⟨_, hr cap hcap f hf,
      pathStatus_failed _ _ _, pathStatus_tooSmall _ _ _, pathStatus_partial _ _ _,
      pathStatus_oon _ _ _⟩⟩
    · rw [ho.eq, List.length_reverse, List.length_map, ← ho.inv.max]
      have hsub : l ⊆ List.range s0.pool.count := fun a ha => List.mem_range.2 (ho.live a ha)
      have := (List.subperm_of_subset ho.nodup hsub).length_le
      rw [List.length_range] at this
      exact Nat.le_trans this ho.inv.pool.count
    · intro hc
      have := ho.corridor.1
      rw [hc] at this
      simp at this

theorem crossSide_bound (side : BitVec 8) : (crossSide side).toNat < 128 := by
  revert side; decide

/-- Sides as `AddTile` writes them (0..7 between tiles, 0xff inside) give four states. -/
theorem crossSide_four (side : BitVec 8) (h : side = 0xff#8 ∨ side.toNat < 8) :
    (crossSide side).toNat < 4 := by
  revert side; decide

end

/-! ## The hypotheses are met by a concrete search -/

/-- Three polygons in a row 1-2-3 and a detached one 4; 9 is not accepted by the filter. -/
def demoEnv : Env Nat Nat where
  links r := if r = 1#32 then [(2#32, 0xff#8), (9#32, 0xff#8)]
    else if r = 2#32 then [(1#32, 0xff#8), (3#32, 2#8)]
    else if r = 3#32 then [(2#32, 0xff#8)] else []
  pass r := decide (r ≠ 9#32)
  mid a b := some (a.toNat + b.toNat)
  cost a b _ _ _ := a - b + (b - a)
  heur a b := a - b + (b - a)
  valid r := decide (r.toNat < 5 ∧ 0 < r.toNat)

def demoBlank : Node Nat Nat := ⟨0, 0, 0, 0, 0, false, false, false, 0⟩

/-- The hypotheses of the theorems above are met. -/
example : Setting demoEnv (Pool.new demoBlank 8 2) (Heap.new 8) 8 :=
  ⟨costLaws_nat, fun _ _ _ _ _ => Nat.zero_le _, ⟨by decide, by decide, rfl, by decide, by decide, rfl⟩⟩

/-- 3 can be reached from 1, so `findPath_complete` applies to a non-trivial query. -/
example : Relation.ReflTransGen (Edge demoEnv) 1#32 3#32 :=
  Relation.ReflTransGen.head (b := 2#32) ⟨0xff#8, by decide, by decide, by decide⟩
    (Relation.ReflTransGen.single ⟨2#8, by decide, by decide, by decide⟩)

/-- The side bound of `findPath_repeats` holds with four states. -/
example : ∀ a, ∀ l ∈ demoEnv.links a, (crossSide l.2).toNat < 4 := by
  intro a l hl
  apply crossSide_four
  unfold demoEnv at hl
  simp only at hl
  split at hl
  · simp at hl; rcases hl with rfl | rfl <;> simp
  split at hl
  · simp at hl; rcases hl with rfl | rfl <;> simp
  split at hl
  · simp at hl; subst hl; simp
  · simp at hl

end Verif.Detour
