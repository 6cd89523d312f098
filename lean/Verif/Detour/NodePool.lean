/-
The pool of search nodes (detour/node.go): an arena of nodes indexed by a chained hash table keyed by
(polygon reference, state).
-/
import Verif.Common.Chain
import Verif.Detour.PolyRef

namespace Verif.Detour

/-! ## Model -/

/-- `hashRef` (detour/node.go:12-20). -/
def hashRef (a : BitVec 32) : BitVec 32 :=
  let a := a + ~~~(a <<< 15)
  let a := a ^^^ (a >>> 10)
  let a := a + (a <<< 3)
  let a := a ^^^ (a >>> 6)
  let a := a + ~~~(a <<< 11)
  a ^^^ (a >>> 16)

/-- `Node` (detour/node.go:44-57). Positions and costs are abstract types; the three flag bits are
separate booleans, so `Flags == 0` reads "all three false". -/
structure Node (P C : Type) where
  pos : P
  cost : C
  total : C
  pidx : Nat
  state : BitVec 8
  opened : Bool
  closed : Bool
  detached : Bool
  id : BitVec 32

/-- The key a node is looked up by. -/
def Node.key {P C : Type} (n : Node P C) : BitVec 32 × BitVec 8 := (n.id, n.state)

/-- A `NodeIndex` (uint16); `nullIdx = 0xffff` is `none` (detour/node.go:31-36). -/
def asIdx (n : Nat) : Option Nat := if n % 65536 = 65535 then none else some (n % 65536)

/-- `NodePool` (detour/node.go:72-78). -/
structure Pool (P C : Type) where
  nodes : Nat → Node P C
  first : Nat → Option Nat
  next : Nat → Option Nat
  maxNodes : Nat
  hashSize : Nat
  count : Nat

section
variable {P C : Type}

/-- `newNodePool` (detour/node.go:80-112). `blank` is the zero node; the assertions are compiled out
in normal builds. `make` panics on a zero-length index only later, so it always returns here. -/
def Pool.new (blank : Node P C) (maxNodes hashSize : Nat) : Pool P C :=
  ⟨fun _ => blank, fun _ => none, fun _ => none, maxNodes, hashSize, 0⟩

/-- `Clear` (detour/node.go:115-121). -/
def Pool.clear (p : Pool P C) : Pool P C := { p with first := fun _ => none, count := 0 }

/-- `hashRef(id) & uint32(np.hashSize-1)` (detour/node.go:128). -/
def Pool.bucket (p : Pool P C) (id : BitVec 32) : Nat :=
  (hashRef id &&& (BitVec.ofNat 32 p.hashSize - 1#32)).toNat

/-- The lookup loop shared by `Node` and `FindNode` (detour/node.go:130-138, 165-173). The outer
`none` is a panic (bucket out of range) or an endless chain. -/
def Pool.findNode (p : Pool P C) (k : BitVec 32 × BitVec 8) : Option (Option Nat) :=
  if p.bucket k.1 < p.hashSize then
    walkFind p.next (fun i => (p.nodes i).id == k.1 && (p.nodes i).state == k.2) p.maxNodes
      (p.first (p.bucket k.1))
  else none

/-- The node as initialised by `Node` (detour/node.go:148-155); `Pos` keeps its old value. -/
def Node.reset [Zero C] (n : Node P C) (k : BitVec 32 × BitVec 8) : Node P C :=
  ⟨n.pos, 0, 0, 0, k.2, false, false, false, k.1⟩

/-- `Node` (detour/node.go:127-160). -/
def Pool.node [Zero C] (p : Pool P C) (k : BitVec 32 × BitVec 8) :
    Option (Option Nat × Pool P C) :=
  match p.findNode k with
  | none => none
  | some (some i) => some (some i, p)
  | some none =>
    if p.maxNodes ≤ p.count then some (none, p)
    else
      match asIdx p.count with
      | none => none
      | some i =>
        some (some i, { p with
          nodes := upd p.nodes i ((p.nodes i).reset k)
          next := upd p.next i (p.first (p.bucket k.1))
          first := upd p.first (p.bucket k.1) (some i)
          count := p.count + 1 })

/-- `FindNodes` (detour/node.go:178-198): indices of the nodes of a polygon, at most `max`. -/
def Pool.findNodes (p : Pool P C) (id : BitVec 32) (max : Nat) : Option (List Nat) :=
  if p.bucket id < p.hashSize then
    (walkCollect p.next (fun i => (p.nodes i).id == id) p.maxNodes (p.first (p.bucket id))).map
      (List.take max)
  else none

/-- `NodeIdx` (detour/node.go:201-208). -/
def nodeIdx : Option Nat → Nat
  | none => 0
  | some i => i + 1

/-- `NodeAtIdx` (detour/node.go:211-216). -/
def nodeAtIdx : Nat → Option Nat
  | 0 => none
  | i + 1 => some i

/-- A write through a node pointer. -/
def Pool.write (p : Pool P C) (i : Nat) (n : Node P C) : Pool P C :=
  { p with nodes := upd p.nodes i n }

/-! ## Invariant -/

/-- The hash chains hold exactly the live nodes, and no key twice. -/
structure PoolInv (p : Pool P C) : Prop where
  hash : 0 < p.hashSize
  hash' : p.hashSize < 2 ^ 32
  max : p.maxNodes ≤ 65535
  count : p.count ≤ p.maxNodes
  chains : ∀ b, b < p.hashSize → ∃ l, Chain p.next (p.first b) l ∧
    ∀ i, i ∈ l ↔ i < p.count ∧ p.bucket (p.nodes i).id = b
  keys : ∀ i j, i < p.count → j < p.count → (p.nodes i).key = (p.nodes j).key → i = j

theorem and_le_right' (a b : BitVec 32) : (a &&& b).toNat ≤ b.toNat := by
  rw [BitVec.toNat_and]
  exact Nat.and_le_right

theorem bucket_lt (p : Pool P C) (h0 : 0 < p.hashSize) (h1 : p.hashSize < 2 ^ 32) (id : BitVec 32) :
    p.bucket id < p.hashSize := by
  unfold Pool.bucket
  refine Nat.lt_of_le_of_lt (and_le_right' _ _) ?_
  rw [BitVec.toNat_sub]
  simp only [BitVec.toNat_ofNat]
  omega

theorem PoolInv.bucket {p : Pool P C} (h : PoolInv p) (id : BitVec 32) :
    p.bucket id < p.hashSize := bucket_lt p h.hash h.hash' id

theorem new_inv (blank : Node P C) {mx hs : Nat} (h0 : 0 < hs) (h1 : hs < 2 ^ 32)
    (h2 : mx ≤ 65535) : PoolInv (Pool.new blank mx hs) := by
  refine ⟨h0, h1, h2, Nat.zero_le _, ?_, ?_⟩
  · intro b _
    refine ⟨[], rfl, ?_⟩
    intro i
    simp [Pool.new]
  · intro i j hi
    simp [Pool.new] at hi

theorem clear_inv {p : Pool P C} (h0 : 0 < p.hashSize) (h1 : p.hashSize < 2 ^ 32)
    (h2 : p.maxNodes ≤ 65535) : PoolInv p.clear := by
  refine ⟨h0, h1, h2, Nat.zero_le _, ?_, ?_⟩
  · intro b _
    refine ⟨[], rfl, ?_⟩
    intro i
    simp [Pool.clear]
  · intro i j hi
    simp [Pool.clear] at hi

/-- Live keys in order of allocation. -/
def Pool.table (p : Pool P C) : List (BitVec 32 × BitVec 8) :=
  (List.range p.count).map fun i => (p.nodes i).key

/-- The index of a key in the table of live keys. -/
def lookupIdx (t : List (BitVec 32 × BitVec 8)) (k : BitVec 32 × BitVec 8) : Option Nat :=
  if k ∈ t then some (t.idxOf k) else none

theorem PoolInv.nodup {p : Pool P C} (h : PoolInv p) : p.table.Nodup := by
  unfold Pool.table
  refine List.Nodup.map_on ?_ List.nodup_range
  intro i hi j hj he
  exact h.keys i j (List.mem_range.1 hi) (List.mem_range.1 hj) he

theorem mem_table {p : Pool P C} {k : BitVec 32 × BitVec 8} :
    k ∈ p.table ↔ ∃ i, i < p.count ∧ (p.nodes i).key = k := by
  unfold Pool.table
  simp [List.mem_map, List.mem_range]

theorem length_table (p : Pool P C) : p.table.length = p.count := by
  unfold Pool.table
  simp

theorem lookupIdx_some {p : Pool P C} (h : PoolInv p) {k : BitVec 32 × BitVec 8} {i : Nat} :
    lookupIdx p.table k = some i ↔ i < p.count ∧ (p.nodes i).key = k := by
  have hget : ∀ j (hj : j < p.table.length), p.table[j] = (p.nodes j).key := by
    intro j hj
    simp [Pool.table]
  unfold lookupIdx
  constructor
  · intro hk
    split at hk
    · rename_i hm
      simp only [Option.some.injEq] at hk
      have hlt := List.idxOf_lt_length_of_mem hm
      have := List.getElem_idxOf hlt
      rw [hget] at this
      rw [hk] at this hlt
      rw [length_table] at hlt
      exact ⟨hlt, this⟩
    · simp at hk
  · rintro ⟨hi, hk⟩
    have hm : k ∈ p.table := mem_table.2 ⟨i, hi, hk⟩
    rw [if_pos hm]
    have hlt : i < p.table.length := by rw [length_table]; exact hi
    have : p.table[i] = k := by rw [hget]; exact hk
    rw [← this, List.Nodup.idxOf_getElem h.nodup]

theorem lookupIdx_none {t : List (BitVec 32 × BitVec 8)} {k : BitVec 32 × BitVec 8} :
    lookupIdx t k = none ↔ k ∉ t := by
  unfold lookupIdx
  split <;> simp_all

theorem findNode_eq {p : Pool P C} (h : PoolInv p) (k : BitVec 32 × BitVec 8) :
    p.findNode k = some (lookupIdx p.table k) := by
  unfold Pool.findNode
  rw [if_pos (h.bucket _)]
  obtain ⟨l, hc, hl⟩ := h.chains _ (h.bucket k.1)
  have hlen : l.length ≤ p.maxNodes :=
    Nat.le_trans (hc.length_le (n := p.count) fun a ha => ((hl a).1 ha).1) h.count
  rw [walkFind_eq hc hlen]
  congr 1
  cases hf : l.find? (fun i => (p.nodes i).id == k.1 && (p.nodes i).state == k.2) with
  | none =>
    symm
    rw [lookupIdx_none, mem_table]
    rintro ⟨i, hi, hk⟩
    rw [List.find?_eq_none] at hf
    have hb : p.bucket (p.nodes i).id = p.bucket k.1 := by rw [← hk]; rfl
    have := hf i ((hl i).2 ⟨hi, hb⟩)
    rw [← hk] at this
    simp [Node.key] at this
  | some i =>
    symm
    rw [lookupIdx_some h]
    have h1 := List.find?_some hf
    have h2 := (hl i).1 (List.mem_of_find?_eq_some hf)
    refine ⟨h2.1, ?_⟩
    simp only [Bool.and_eq_true, beq_iff_eq] at h1
    exact Prod.ext h1.1 h1.2

theorem asIdx_eq {n : Nat} (h : n < 65535) : asIdx n = some n := by
  unfold asIdx
  rw [if_neg (by omega), Nat.mod_eq_of_lt (by omega)]

theorem reset_key [Zero C] (n : Node P C) (k : BitVec 32 × BitVec 8) : (n.reset k).key = k := rfl

/-- What `Node` does: the node of the key, or a new node, or nil when the pool is full. -/
theorem node_cases [Zero C] {p : Pool P C} (h : PoolInv p) (k : BitVec 32 × BitVec 8) :
    (∃ i, p.node k = some (some i, p) ∧ i < p.count ∧ (p.nodes i).key = k) ∨
    (p.node k = some (none, p) ∧ k ∉ p.table ∧ p.count = p.maxNodes) ∨
    (∃ p', p.node k = some (some p.count, p') ∧ k ∉ p.table ∧ p.count < p.maxNodes ∧ PoolInv p' ∧
      p'.count = p.count + 1 ∧ p'.maxNodes = p.maxNodes ∧ p'.hashSize = p.hashSize ∧
      p'.nodes = upd p.nodes p.count ((p.nodes p.count).reset k)) := by
  unfold Pool.node
  rw [findNode_eq h k]
  cases hl : lookupIdx p.table k with
  | some i =>
    obtain ⟨h1, h2⟩ := (lookupIdx_some h).1 hl
    exact Or.inl ⟨i, rfl, h1, h2⟩
  | none =>
    have hnm := lookupIdx_none.1 hl
    have hcnt := h.count
    by_cases hfull : p.maxNodes ≤ p.count
    · right; left
      simp only [if_pos hfull]
      exact ⟨trivial, hnm, by omega⟩
    · right; right
      simp only [if_neg hfull]
      have hmx := h.max
      rw [asIdx_eq (by omega)]
      refine ⟨_, rfl, hnm, by omega, ?_, rfl, rfl, rfl, rfl⟩
      have hbk := h.bucket k.1
      refine ⟨h.hash, h.hash', h.max, by simp only; omega, ?_, ?_⟩
      · intro b hb
        simp only at hb ⊢
        obtain ⟨l, hc, hm⟩ := h.chains b hb
        have hnl : p.count ∉ l := fun hc' => by
          have := ((hm _).1 hc').1
          omega
        by_cases hbb : b = p.bucket k.1
        · subst hbb
          refine ⟨p.count :: l, ?_, ?_⟩
          · rw [upd_same]
            exact hc.push hnl
          · intro i
            rw [List.mem_cons, hm]
            by_cases hi : i = p.count
            · subst hi
              rw [upd_same]
              simp only [true_or, true_iff]
              exact ⟨by omega, rfl⟩
            · rw [upd_ne _ _ hi]
              constructor
              · rintro (h' | ⟨h1, h2⟩)
                · exact absurd h' hi
                · exact ⟨by omega, h2⟩
              · rintro ⟨h1, h2⟩
                exact Or.inr ⟨by omega, h2⟩
        · refine ⟨l, ?_, ?_⟩
          · rw [upd_ne _ _ hbb]
            exact hc.upd_notMem hnl
          · intro i
            rw [hm]
            by_cases hi : i = p.count
            · subst hi
              rw [upd_same]
              constructor
              · rintro ⟨h1, _⟩; omega
              · rintro ⟨_, h2⟩
                exact absurd h2 (fun h => hbb h.symm)
            · rw [upd_ne _ _ hi]
              constructor
              · rintro ⟨h1, h2⟩; exact ⟨by omega, h2⟩
              · rintro ⟨h1, h2⟩; exact ⟨by omega, h2⟩
      · intro i j hi hj he
        simp only at hi hj he
        by_cases hic : i = p.count
        · by_cases hjc : j = p.count
          · omega
          · subst hic
            rw [upd_same, upd_ne _ _ hjc, reset_key] at he
            exact absurd (mem_table.2 ⟨j, by omega, he.symm⟩) hnm
        · by_cases hjc : j = p.count
          · subst hjc
            rw [upd_same, upd_ne _ _ hic, reset_key] at he
            exact absurd (mem_table.2 ⟨i, by omega, he⟩) hnm
          · rw [upd_ne _ _ hic, upd_ne _ _ hjc] at he
            exact h.keys i j (by omega) (by omega) he

theorem write_inv {p : Pool P C} (h : PoolInv p) (i : Nat) (n : Node P C)
    (hk : n.key = (p.nodes i).key) : PoolInv (p.write i n) ∧ (p.write i n).table = p.table := by
  have hkey : ∀ j, ((p.write i n).nodes j).key = (p.nodes j).key := by
    intro j
    unfold Pool.write
    by_cases hj : j = i
    · subst hj
      simp only [upd_same]
      exact hk
    · simp only [upd_ne _ _ hj]
  have hid : ∀ j, ((p.write i n).nodes j).id = (p.nodes j).id :=
    fun j => congrArg Prod.fst (hkey j)
  refine ⟨⟨h.hash, h.hash', h.max, h.count, ?_, ?_⟩, ?_⟩
  · intro b hb
    obtain ⟨l, hc, hm⟩ := h.chains b hb
    refine ⟨l, hc, fun i => ?_⟩
    rw [hm, hid]
    rfl
  · intro a b ha hb he
    rw [hkey, hkey] at he
    exact h.keys a b ha hb he
  · unfold Pool.table
    apply List.map_congr_left
    intro j _
    exact hkey j

/-! ## Properties -/

/-- The calls made on a pool. -/
inductive POp (P C : Type) where
  /-- `Node(id, state)` -/
  | node (k : BitVec 32 × BitVec 8)
  /-- `FindNode(id, state)` -/
  | find (k : BitVec 32 × BitVec 8)
  /-- a write to node `i` by the search -/
  | write (i : Nat) (n : Node P C)
  /-- `Clear()` -/
  | clear

/-- The search never changes the key of a node it writes to. -/
def POp.Legal (p : Pool P C) : POp P C → Prop
  | .write i n => n.key = (p.nodes i).key
  | _ => True

/-- One call: observation (node index or nil) and new pool; `none` is a panic. -/
def pstep [Zero C] (p : Pool P C) : POp P C → Option (Option Nat × Pool P C)
  | .node k => p.node k
  | .find k => (p.findNode k).map fun r => (r, p)
  | .write i n => some (none, p.write i n)
  | .clear => some (none, p.clear)

/-- Specification: a table of distinct keys, the node of a key being its position. -/
def specPool (max : Nat) (t : List (BitVec 32 × BitVec 8)) :
    POp P C → Option Nat × List (BitVec 32 × BitVec 8)
  | .node k =>
    if k ∈ t then (some (t.idxOf k), t)
    else if t.length < max then (some t.length, t ++ [k])
    else (none, t)
  | .find k => (if k ∈ t then some (t.idxOf k) else none, t)
  | .write _ _ => (none, t)
  | .clear => (none, [])

/-- A history of legal calls, with observations; `none` in place of a pool is a panic. -/
inductive PRun [Zero C] : Pool P C → List (POp P C) → List (Option Nat) → Pool P C → Prop
  | nil (p) : PRun p [] [] p
  | cons {p p' p'' op ops o os} : op.Legal p → pstep p op = some (o, p') → PRun p' ops os p'' →
      PRun p (op :: ops) (o :: os) p''

/-- The specification run over a history. -/
def specPoolRun (max : Nat) : List (BitVec 32 × BitVec 8) → List (POp P C) →
    List (Option Nat) × List (BitVec 32 × BitVec 8)
  | t, [] => ([], t)
  | t, op :: ops =>
    let r := specPool max t op
    let q := specPoolRun max r.2 ops
    (r.1 :: q.1, q.2)

theorem pstep_spec [Zero C] {p : Pool P C} (h : PoolInv p) (op : POp P C) (hl : op.Legal p) :
    ∃ p', pstep p op = some ((specPool p.maxNodes p.table op).1, p') ∧ PoolInv p' ∧
      p'.table = (specPool p.maxNodes p.table op).2 ∧ p'.maxNodes = p.maxNodes := by
  cases op with
  | node k =>
    rcases node_cases h k with ⟨i, h1, h2, h3⟩ | ⟨h1, h2, h3⟩ | ⟨p', h1, h2, h3, h4, h5, h6, h7, h8⟩
    · have hm : k ∈ p.table := mem_table.2 ⟨i, h2, h3⟩
      have hidx : p.table.idxOf k = i := by
        have := (lookupIdx_some h).2 ⟨h2, h3⟩
        unfold lookupIdx at this
        rw [if_pos hm] at this
        simpa using this
      refine ⟨p, ?_, h, ?_, rfl⟩
      · simp only [pstep, h1, specPool, if_pos hm, hidx]
      · simp only [specPool, if_pos hm]
    · refine ⟨p, ?_, h, ?_, rfl⟩
      · simp only [pstep, h1, specPool, if_neg h2, length_table, h3, lt_irrefl, if_false]
      · simp only [specPool, if_neg h2, length_table, h3, lt_irrefl, if_false]
    · refine ⟨p', ?_, h4, ?_, h6⟩
      · simp only [pstep, h1, specPool, if_neg h2, length_table, if_pos h3]
      · simp only [specPool, if_neg h2, length_table, if_pos h3]
        unfold Pool.table
        rw [h5, List.range_succ, List.map_append, h8]
        congr 1
        · apply List.map_congr_left
          intro j hj
          rw [upd_ne _ _ (by have := List.mem_range.1 hj; omega)]
        · simp only [List.map_cons, List.map_nil, upd_same, reset_key]
  | find k =>
    refine ⟨p, ?_, h, rfl, rfl⟩
    simp only [pstep, findNode_eq h, Option.map_some, specPool, lookupIdx]
  | write i n =>
    obtain ⟨h1, h2⟩ := write_inv h i n hl
    exact ⟨_, rfl, h1, h2, rfl⟩
  | clear => exact ⟨_, rfl, clear_inv h.hash h.hash' h.max, rfl, rfl⟩

theorem prun_spec [Zero C] {p : Pool P C} (h : PoolInv p) {ops : List (POp P C)}
    {os : List (Option Nat)} {p' : Pool P C} (hr : PRun p ops os p') :
    os = (specPoolRun p.maxNodes p.table ops).1 ∧
      p'.table = (specPoolRun p.maxNodes p.table ops).2 ∧ PoolInv p' := by
  induction hr with
  | nil p => exact ⟨rfl, rfl, h⟩
  | cons hl hs _ ih =>
    obtain ⟨p1, e1, e2, e3, e4⟩ := pstep_spec h _ hl
    rw [e1] at hs
    simp only [Option.some.injEq, Prod.mk.injEq] at hs
    obtain ⟨ho, rfl⟩ := hs
    obtain ⟨f1, f2, f3⟩ := ih e2
    rw [e3, e4] at f1 f2
    exact ⟨by rw [f1, ← ho]; rfl, f2, f3⟩

/-- **C20**: for every table size, capacity up to 65535, hash collisions and history of requests,
lookups, writes and clears, the pool answers exactly as a table of distinct keys in which the node of
a key is its position: repeated requests give the same node, different keys different nodes, lookups
find exactly the requested keys, and `Clear` forgets everything. -/
theorem pool_is_table [Zero C] (blank : Node P C) {mx hs : Nat} (h0 : 0 < hs) (h1 : hs < 2 ^ 32)
    (h2 : mx ≤ 65535) {ops : List (POp P C)} {os : List (Option Nat)} {p' : Pool P C}
    (hr : PRun (Pool.new blank mx hs) ops os p') :
    os = (specPoolRun mx [] ops).1 ∧ p'.table = (specPoolRun mx [] ops).2 ∧ p'.table.Nodup := by
  obtain ⟨e1, e2, e3⟩ := prun_spec (new_inv blank h0 h1 h2) hr
  exact ⟨e1, e2, e3.nodup⟩

/-- **C20**: in the resulting pool, two live nodes with the same key are the same node, and a lookup
returns a node carrying the key asked for. -/
theorem pool_injective [Zero C] (blank : Node P C) {mx hs : Nat} (h0 : 0 < hs) (h1 : hs < 2 ^ 32)
    (h2 : mx ≤ 65535) {ops : List (POp P C)} {os : List (Option Nat)} {p' : Pool P C}
    (hr : PRun (Pool.new blank mx hs) ops os p') :
    (∀ i j, i < p'.count → j < p'.count → (p'.nodes i).key = (p'.nodes j).key → i = j) ∧
    (∀ k i, p'.findNode k = some (some i) ↔ i < p'.count ∧ (p'.nodes i).key = k) := by
  obtain ⟨_, _, e3⟩ := prun_spec (new_inv blank h0 h1 h2) hr
  refine ⟨e3.keys, fun k i => ?_⟩
  rw [findNode_eq e3]
  simp only [Option.some.injEq]
  exact lookupIdx_some e3

/-- **C20**: node indices and node pointers convert both ways, 0 being the null pointer. -/
theorem nodeIdx_roundtrip : (∀ i, nodeAtIdx (nodeIdx i) = i) ∧ ∀ n, nodeIdx (nodeAtIdx n) = n := by
  constructor
  · intro i; cases i <;> rfl
  · intro n; cases n <;> rfl

/-- **C21**: no request, lookup, write or clear ever panics (indexes outside the table or the
arena), whatever came before. -/
theorem pool_never_panics [Zero C] (blank : Node P C) {mx hs : Nat} (h0 : 0 < hs)
    (h1 : hs < 2 ^ 32) (h2 : mx ≤ 65535) {ops : List (POp P C)} {os : List (Option Nat)}
    {p' : Pool P C} (hr : PRun (Pool.new blank mx hs) ops os p') (op : POp P C)
    (hl : op.Legal p') : ∃ o p'', pstep p' op = some (o, p'') ∧ p''.count ≤ mx ∧
      (∀ i, o = some i → i < mx) := by
  obtain ⟨_, _, e3⟩ := prun_spec (new_inv blank h0 h1 h2) hr
  have hmx : p'.maxNodes = mx := by
    have : ∀ {p : Pool P C} {ops os p'}, PRun p ops os p' → PoolInv p → p'.maxNodes = p.maxNodes := by
      intro p ops os p' hr
      induction hr with
      | nil => intro _; rfl
      | cons hl hs _ ih =>
        intro hi
        obtain ⟨p1, g1, g2, _, g4⟩ := pstep_spec hi _ hl
        rw [g1] at hs
        simp only [Option.some.injEq, Prod.mk.injEq] at hs
        obtain ⟨_, rfl⟩ := hs
        rw [ih g2, g4]
    exact this hr (new_inv blank h0 h1 h2)
  obtain ⟨p'', g1, g2, g3, g4⟩ := pstep_spec e3 op hl
  refine ⟨_, _, g1, ?_, ?_⟩
  · have := g2.count
    omega
  · intro i hi
    have hlen := length_table p'
    have hle := e3.count
    cases op with
    | node k =>
      simp only [specPool] at hi
      split at hi
      · rename_i hm
        simp only [Option.some.injEq] at hi
        have := List.idxOf_lt_length_of_mem hm
        omega
      · split at hi
        · simp only [Option.some.injEq] at hi
          omega
        · simp at hi
    | find k =>
      simp only [specPool] at hi
      split at hi
      · rename_i hm
        simp only [Option.some.injEq] at hi
        have := List.idxOf_lt_length_of_mem hm
        omega
      · simp at hi
    | write => simp [specPool] at hi
    | clear => simp [specPool] at hi

/-- **C21**: a request returns nil exactly when the key is absent and the pool is full. -/
theorem pool_nil_iff [Zero C] {p : Pool P C} (h : PoolInv p) (k : BitVec 32 × BitVec 8) :
    (∃ p', p.node k = some (none, p')) ↔
      (∀ i, i < p.count → (p.nodes i).key ≠ k) ∧ p.count = p.maxNodes := by
  rcases node_cases h k with ⟨i, h1, h2, h3⟩ | ⟨h1, h2, h3⟩ | ⟨p', h1, h2, h3, _⟩
  · rw [h1]
    constructor
    · rintro ⟨p', hp⟩; simp at hp
    · rintro ⟨hn, _⟩; exact absurd h3 (hn i h2)
  · rw [h1]
    refine ⟨fun _ => ⟨fun i hi hk => h2 (mem_table.2 ⟨i, hi, hk⟩), h3⟩, fun _ => ⟨p, rfl⟩⟩
  · rw [h1]
    constructor
    · rintro ⟨p', hp⟩; simp at hp
    · rintro ⟨_, hn⟩; omega

/-- **C20**: `FindNodes` returns every live node of the polygon once (up to the requested number). -/
theorem findNodes_spec {p : Pool P C} (h : PoolInv p) (id : BitVec 32) (max : Nat) :
    ∃ l : List Nat, p.findNodes id max = some (l.take max) ∧ l.Nodup ∧
      ∀ i, i ∈ l ↔ i < p.count ∧ (p.nodes i).id = id := by
  unfold Pool.findNodes
  rw [if_pos (h.bucket _)]
  obtain ⟨l, hc, hl⟩ := h.chains _ (h.bucket id)
  have hlen : l.length ≤ p.maxNodes :=
    Nat.le_trans (hc.length_le (n := p.count) fun a ha => ((hl a).1 ha).1) h.count
  rw [walkCollect_eq hc hlen]
  refine ⟨l.filter fun i => (p.nodes i).id == id, rfl, hc.nodup.filter _, fun i => ?_⟩
  rw [List.mem_filter, hl, beq_iff_eq]
  constructor
  · rintro ⟨⟨h1, _⟩, h2⟩; exact ⟨h1, h2⟩
  · rintro ⟨h1, h2⟩; exact ⟨⟨h1, by rw [h2]⟩, h2⟩

/-- The table size `NewNavMeshQuery` asks for, `NextPow2(maxNodes/4)` (detour/query.go:122). -/
def queryHashSize (maxNodes : Nat) : Nat := (nextPow2 (BitVec.ofNat 32 (maxNodes / 4))).toNat

/-- **C75** (refuted): 1, 2 and 3 nodes are within the documented limits, but the very first node
request panics, because the hash table has no bucket. -/
theorem small_pools_panic_refuted [Zero C] (blank : Node P C) (mx : Nat) (h1 : 1 ≤ mx)
    (h2 : mx ≤ 3) (k : BitVec 32 × BitVec 8) :
    (Pool.new blank mx (queryHashSize mx)).node k = none := by
  have : queryHashSize mx = 0 := by
    unfold queryHashSize
    have : mx / 4 = 0 := by omega
    rw [this]
    decide
  rw [this]
  rfl

/-- **C75** (`_partial`: 4 to 65535 nodes): the query's pool is usable. -/
theorem query_pool_partial (blank : Node P C) (mx : Nat) (h1 : 4 ≤ mx) (h2 : mx ≤ 65535) :
    PoolInv (Pool.new blank mx (queryHashSize mx)) := by
  have hv : (BitVec.ofNat 32 (mx / 4)).toNat = mx / 4 := by
    rw [BitVec.toNat_ofNat, Nat.mod_eq_of_lt (by omega)]
  have hq : queryHashSize mx = 2 ^ Nat.clog 2 (mx / 4) := by
    unfold queryHashSize
    rw [nextPow2_toNat _ (by rw [hv]; omega) (by rw [hv]; omega), hv]
  refine new_inv blank ?_ ?_ h2
  · rw [hq]
    exact Nat.pow_pos (by omega)
  · exact BitVec.isLt _

end

/-- A pool with one bucket, so that every key collides, and room for two nodes. -/
example : ∃ p', PRun (P := Unit) (C := Nat) (Pool.new ⟨(), 0, 0, 0, 0, false, false, false, 0⟩ 2 1)
    [.node (5#32, 0#8), .node (6#32, 0#8), .node (5#32, 0#8), .node (7#32, 1#8), .find (6#32, 0#8)]
    [some 0, some 1, some 0, none, some 1] p' :=
  ⟨_, .cons trivial rfl (.cons trivial rfl (.cons trivial rfl (.cons trivial rfl
    (.cons trivial rfl (.nil _)))))⟩

end Verif.Detour
