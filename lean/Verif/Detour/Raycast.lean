/-
`NavMeshQuery.Raycast` (detour/query.go:1435-1666) and `Raycast2` (detour/query.go:1701-1711).

The polygons, their links and the filter are tables over references (`RayMesh`); the geometry is an arbitrary set of functions
(`RayGeom`), so that what is proved here holds for all coordinates, NaN included. Exact geometry is in `RaycastExact.lean`.
-/
import Verif.Detour.FindPath
import Mathlib.Tactic.Common
import Mathlib.Data.List.Induction

set_option linter.unusedVariables false
set_option linter.unusedSimpArgs false

namespace Verif.Detour

/-! ## Model -/

/-- The fields of a link that `Raycast` reads (detour/structs.go, `Link`). -/
structure RayLink where
  edge : Nat
  ref : Ref
  side : BitVec 8
  bmin : BitVec 8
  bmax : BitVec 8
deriving DecidableEq

/-- What `Raycast` reads of the mesh and the filter, by polygon reference: the links in the order of the list from `FirstLink`,
whether the polygon is an off-mesh connection, `PassFilter`, and `IsValidPolyRef`. -/
structure RayMesh where
  links : Ref → List RayLink
  offMesh : Ref → Bool
  pass : Ref → Bool
  valid : Ref → Bool

/-- The geometry of one ray.
* `clip r`: `IntersectSegmentPoly2D` of the ray and polygon `r` (detour/query.go:1483-1502): `none` for no intersection, else `tmax` and
  `segMax` (`none` for -1);
* `portal r l t`: the point of the ray at `t` is in the part of the edge that the link covers (detour/query.go:1570-1601);
* `gt`: comparison of parameters; `maxT`: `math.MaxFloat32`. -/
structure RayGeom (F : Type) where
  clip : Ref → Option (F × Option Nat)
  portal : Ref → RayLink → F → Bool
  gt : F → F → Bool
  maxT : F

/-- A position on the ray: the start, the end, or the point at a parameter with the height of an edge (detour/query.go:1612-1628). -/
inductive RayPos (F : Type) where
  | start
  | goal
  | at (t : F) (poly : Ref) (edge : Nat)

/-- `RaycastHit` (detour/query.go:34-55). `HitEdgeIndex` is `none` for -1; `HitNormal` is `none` for the zero vector, else the edge
of a polygon whose normal it is. A negative `MaxPath` is as 0. -/
structure RayHit (F C : Type) where
  t : F
  normal : Option (Ref × Nat)
  edge : Option Nat
  path : List Ref
  count : Nat
  maxPath : Nat
  cost : C
deriving DecidableEq

/-- How `Raycast` ends. -/
inductive RayOut (F C : Type) where
  | panic
  | ok (status : Status) (hit : RayHit F C)
deriving DecidableEq

section
variable {F C : Type}

/-- The tests on one link (detour/query.go:1540-1602). -/
def rayAccepts (m : RayMesh) (g : RayGeom F) (cur : Ref) (seg : Nat) (tmax : F) (l : RayLink) : Bool :=
  decide (l.edge = seg) && !m.offMesh l.ref && m.pass l.ref &&
    (decide (l.side = 0xff#8) || (decide (l.bmin = 0#8) && decide (l.bmax = 255#8)) ||
      ((decide (l.side = 0#8) || decide (l.side = 4#8) || decide (l.side = 2#8) || decide (l.side = 6#8)) && g.portal cur l tmax))

/-- The reference of the next polygon, 0 if there is none (detour/query.go:1534-1603). -/
def rayNext (m : RayMesh) (g : RayGeom F) (cur : Ref) (seg : Nat) (tmax : F) : Ref :=
  match (m.links cur).find? (rayAccepts m g cur seg tmax) with
  | some l => l.ref
  | none => 0#32

/-- The visited polygon is stored (detour/query.go:1511-1517): the path, the number of polygons and the status; `none` is a panic. -/
def rayStore (cur : Ref) (n : Nat) (st : Status) (h : RayHit F C) : Option (RayHit F C × Nat × Status) :=
  if n < h.maxPath then
    if n < h.path.length then some ({ h with path := h.path.set n cur }, n + 1, st) else none
  else some (h, n, st ||| Status.bufferTooSmall)

/-- The loop (detour/query.go:1482-1665); `costs` is the option `RaycastUseCosts`, `cost` is `filter.Cost`, `pos` is `curPos` (only
read with the option). `none`:
not done after `fuel` rounds. -/
def rayLoop [Add C] (m : RayMesh) (g : RayGeom F) (costs : Bool) (cost : RayPos F → RayPos F → Ref → Ref → Ref → C) :
    Nat → Ref → Ref → RayPos F → Nat → Status → RayHit F C → Option (RayOut F C)
  | 0, _, _, _, _, _, _ => none
  | fuel + 1, prev, cur, pos, n, st, h =>
    if cur = 0#32 then some (.ok st { h with count := n })
    else
      match g.clip cur with
      | none => some (.ok st { h with count := n })
      | some (tmax, seg) =>
        let h := { h with edge := seg, t := if g.gt tmax h.t = true then tmax else h.t }
        match rayStore cur n st h with
        | none => some .panic
        | some (h, n, st) =>
          match seg with
          | none =>
            some (.ok st { h with t := g.maxT, count := n, cost := if costs = true then h.cost + cost pos .goal prev cur cur else h.cost })
          | some e =>
            let nx := rayNext m g cur e tmax
            let c := if costs = true then h.cost + cost pos (.at h.t cur e) prev cur nx else h.cost
            if nx = 0#32 then some (.ok st { h with cost := c, normal := some (cur, e), count := n })
            else rayLoop m g costs cost fuel cur nx (.at h.t cur e) n st { h with cost := c }

/-- `Raycast` (detour/query.go:1435-1666). -/
def raycast [Add C] (m : RayMesh) (g : RayGeom F) (costs : Bool) (cost : RayPos F → RayPos F → Ref → Ref → Ref → C) (fuel : Nat)
    (startRef prevRef : Ref) (h : RayHit F C) : Option (RayOut F C) :=
  if startRef = 0#32 ∨ m.valid startRef = false then some (.ok (Status.failure ||| Status.invalidParam) h)
  else if prevRef ≠ 0#32 ∧ m.valid prevRef = false then some (.ok (Status.failure ||| Status.invalidParam) h)
  else rayLoop m g costs cost fuel prevRef startRef .start 0 Status.success { h with normal := none }

/-- `Raycast2` (detour/query.go:1701-1711): a fresh hit structure over the given path. -/
def raycast2 [Add C] [Zero C] (m : RayMesh) (g : RayGeom F) (zero : F) (cost : RayPos F → RayPos F → Ref → Ref → Ref → C) (fuel : Nat)
    (startRef : Ref) (path : List Ref) (maxPath : Nat) : Option (RayOut F C) :=
  raycast m g false cost fuel startRef 0#32 ⟨zero, none, some 0, path, 0, maxPath, 0⟩

/-! ## Specification -/

/-- Spec: link `l` lets the ray pass from polygon `c` over its edge `e` at parameter `t`: it leads to a polygon that is no off-mesh
connection and passes the filter, and it covers the point where the ray crosses. -/
structure Opens (m : RayMesh) (g : RayGeom F) (c : Ref) (e : Nat) (t : F) (l : RayLink) : Prop where
  mem : l ∈ m.links c
  edge : l.edge = e
  ground : m.offMesh l.ref = false
  pass : m.pass l.ref = true
  covers : l.side = 0xff#8 ∨ (l.bmin = 0#8 ∧ l.bmax = 255#8) ∨ (l.side ∈ [0#8, 2#8, 4#8, 6#8] ∧ g.portal c l t = true)

/-- How a ray ends. -/
inductive RayEnd (F : Type) where
  /-- the end position is in the last polygon -/
  | reached
  /-- edge `e` of polygon `c` stops the ray at `t` -/
  | wall (c : Ref) (e : Nat) (t : F)
  /-- the ray does not meet polygon `c` -/
  | missed (c : Ref)

/-- Spec: the ray, coming to polygon `c`, goes through the polygons of the list and ends as told. -/
inductive RayWalk (m : RayMesh) (g : RayGeom F) : Ref → List Ref → RayEnd F → Prop
  | missed {c} : g.clip c = none → RayWalk m g c [] (.missed c)
  | reached {c t} : g.clip c = some (t, none) → RayWalk m g c [c] .reached
  | wall {c t e} : g.clip c = some (t, some e) → (∀ l, ¬ Opens m g c e t l) → RayWalk m g c [c] (.wall c e t)
  | step {c t e l vis fin} : g.clip c = some (t, some e) → Opens m g c e t l → RayWalk m g l.ref vis fin → RayWalk m g c (c :: vis) fin

/-- Spec: the greatest parameter at which the ray left the polygons, but at least `t`. -/
def furthestExit (g : RayGeom F) (t : F) : List Ref → F
  | [] => t
  | c :: vis =>
    match g.clip c with
    | some (x, _) => furthestExit g (if g.gt x t = true then x else t) vis
    | none => furthestExit g t vis

/-- Spec: the polygon that the ray comes to next, 0 if there is none. -/
def rayAfter (fin : RayEnd F) : List Ref → Ref
  | c :: _ => c
  | [] =>
    match fin with
    | .missed c => c
    | _ => 0#32

/-- Spec: the costs of the legs of the ray, one for each polygon: from where it came in, the start at first, to where it goes out, or to
the end position; with the polygon before and the polygon after, 0 behind a wall. -/
def rayLegs (g : RayGeom F) (cost : RayPos F → RayPos F → Ref → Ref → Ref → C) (fin : RayEnd F) : Ref → RayPos F → F → List Ref → List C
  | _, _, _, [] => []
  | prev, pos, t, c :: vis =>
    match g.clip c with
    | some (x, some e) =>
      let t := if g.gt x t = true then x else t
      cost pos (.at t c e) prev c (rayAfter fin vis) :: rayLegs g cost fin c (.at t c e) t vis
    | some (_, none) => [cost pos .goal prev c c]
    | none => []

/-! ## The loop -/

theorem rayAccepts_iff (m : RayMesh) (g : RayGeom F) (c : Ref) (e : Nat) (t : F) {l : RayLink} (hl : l ∈ m.links c) :
    rayAccepts m g c e t l = true ↔ Opens m g c e t l := by
  unfold rayAccepts
  simp only [Bool.and_eq_true, Bool.or_eq_true, decide_eq_true_eq, Bool.not_eq_true']
  constructor
  · rintro ⟨⟨⟨h1, h2⟩, h3⟩, h4⟩
    refine ⟨hl, h1, h2, h3, ?_⟩
    rcases h4 with (h4 | h4) | h4
    · exact Or.inl h4
    · exact Or.inr (Or.inl h4)
    · refine Or.inr (Or.inr ⟨?_, h4.2⟩)
      rcases h4.1 with ((h | h) | h) | h <;> simp [h]
  · rintro ⟨_, h1, h2, h3, h4⟩
    refine ⟨⟨⟨h1, h2⟩, h3⟩, ?_⟩
    rcases h4 with h4 | h4 | ⟨h4, h5⟩
    · exact Or.inl (Or.inl h4)
    · exact Or.inl (Or.inr h4)
    · refine Or.inr ⟨?_, h5⟩
      simp only [List.mem_cons, List.not_mem_nil, or_false] at h4
      tauto

theorem rayNext_spec (m : RayMesh) (g : RayGeom F) (hz : ∀ c, ∀ l ∈ m.links c, l.ref ≠ 0#32) (c : Ref) (e : Nat) (t : F) :
    (rayNext m g c e t = 0#32 ∧ ∀ l, ¬ Opens m g c e t l) ∨ ∃ l, rayNext m g c e t = l.ref ∧ Opens m g c e t l ∧ l.ref ≠ 0#32 := by
  unfold rayNext
  cases hf : (m.links c).find? (rayAccepts m g c e t) with
  | none =>
    refine Or.inl ⟨rfl, fun l ho => ?_⟩
    have := List.find?_eq_none.1 hf l ho.mem
    exact this ((rayAccepts_iff m g c e t ho.mem).2 ho)
  | some l =>
    have hm := List.mem_of_find?_eq_some hf
    exact Or.inr ⟨l, rfl, (rayAccepts_iff m g c e t hm).1 (List.find?_some hf), hz c l hm⟩

theorem RayWalk.head {m : RayMesh} {g : RayGeom F} {c : Ref} {vis : List Ref} {fin : RayEnd F} (h : RayWalk m g c vis fin) :
    rayAfter fin vis = c := by
  cases h <;> rfl

/-- Spec: the list with the entries from `n` on overwritten by `l`. -/
def paste (n : Nat) (l p : List Ref) : List Ref := p.take n ++ l ++ p.drop (n + l.length)

theorem paste_nil (n : Nat) (p : List Ref) : paste n [] p = p := by simp [paste]

theorem paste_cons {n : Nat} (c : Ref) (l p : List Ref) (h : n < p.length) : paste (n + 1) l (p.set n c) = paste n (c :: l) p := by
  unfold paste
  have h1 : (p.set n c).take (n + 1) = p.take n ++ [c] := by
    rw [List.take_set, List.take_succ_eq_append_getElem h, List.set_append_right _ _ (by simp)]
    simp [Nat.min_eq_left (le_of_lt h)]
  have h2 : (p.set n c).drop (n + 1 + l.length) = p.drop (n + 1 + l.length) := List.drop_set_of_lt (by omega)
  rw [h1, h2, List.length_cons, show n + 1 + l.length = n + (l.length + 1) by omega]
  simp

/-- The polygons that the ray goes through and its end, alone; the same rounds as `rayLoop`. -/
def rayTrace (m : RayMesh) (g : RayGeom F) : Nat → Ref → Option (List Ref × RayEnd F)
  | 0, _ => none
  | fuel + 1, cur =>
    match g.clip cur with
    | none => some ([], .missed cur)
    | some (_, none) => some ([cur], .reached)
    | some (t, some e) =>
      if rayNext m g cur e t = 0#32 then some ([cur], .wall cur e t)
      else (rayTrace m g fuel (rayNext m g cur e t)).map fun v => (cur :: v.1, v.2)

/-- What the loop does, told by the polygons the ray goes through. -/
theorem rayLoop_trace [Add C] (m : RayMesh) (g : RayGeom F) (costs : Bool) (cost : RayPos F → RayPos F → Ref → Ref → Ref → C)
    (hz : ∀ c, ∀ l ∈ m.links c, l.ref ≠ 0#32) : ∀ (fuel : Nat) (prev cur : Ref) (pos : RayPos F) (n : Nat) (st : Status) (h : RayHit F C)
    (out : RayOut F C), cur ≠ 0#32 → n ≤ h.maxPath → h.maxPath ≤ h.path.length → rayLoop m g costs cost fuel prev cur pos n st h = some out →
    ∃ vis fin st' h', out = .ok st' h' ∧ RayWalk m g cur vis fin ∧
      h'.count = min (n + vis.length) h.maxPath ∧ h'.path = paste n (vis.take (h.maxPath - n)) h.path ∧
      st' = (if h.maxPath < n + vis.length then st ||| Status.bufferTooSmall else st) ∧
      h'.t = (match fin with | .reached => g.maxT | _ => furthestExit g h.t vis) ∧
      (match fin with
        | .reached => h'.edge = none ∧ h'.normal = h.normal
        | .wall c e _ => h'.edge = some e ∧ h'.normal = some (c, e)
        | .missed _ => h'.normal = h.normal) ∧
      h'.cost = (if costs = true then (rayLegs g cost fin prev pos h.t vis).foldl (· + ·) h.cost else h.cost) ∧ h'.maxPath = h.maxPath ∧
      rayTrace m g fuel cur = some (vis, fin) := by
  intro fuel
  induction fuel with
  | zero => intro prev cur pos n st h out _ _ _ hr; simp [rayLoop] at hr
  | succ fuel ih =>
    intro prev cur pos n st h out hc hn hp hr
    rw [rayLoop, if_neg hc] at hr
    cases hcl : g.clip cur with
    | none =>
      rw [hcl] at hr
      simp only [Option.some.injEq] at hr
      refine ⟨[], .missed cur, st, { h with count := n }, hr.symm, .missed hcl, ?_, ?_, ?_, rfl, rfl, ?_, rfl, by simp [rayTrace, hcl]⟩
      · simp; omega
      · rw [List.take_nil, paste_nil]
      · simp only [List.length_nil, Nat.add_zero]; rw [if_neg (by omega)]
      · simp [rayLegs]
    | some v =>
      obtain ⟨tmax, seg⟩ := v
      rw [hcl] at hr
      simp only at hr
      -- storing the polygon
      obtain ⟨pth, n', st1, hst, hn', hst1, hpth⟩ : ∃ pth n' st1,
          rayStore cur n st { h with edge := seg, t := if g.gt tmax h.t = true then tmax else h.t } =
            some ({ h with edge := seg, t := if g.gt tmax h.t = true then tmax else h.t, path := pth }, n', st1) ∧
          n' = min (n + 1) h.maxPath ∧ st1 = (if h.maxPath < n + 1 then st ||| Status.bufferTooSmall else st) ∧
          pth = if n < h.maxPath then h.path.set n cur else h.path := by
        unfold rayStore
        by_cases h1 : n < h.maxPath
        · simp only [if_pos h1]
          rw [if_pos (by omega)]
          exact ⟨_, _, _, rfl, by omega, by rw [if_neg (by omega)], rfl⟩
        · simp only [if_neg h1]
          exact ⟨h.path, _, _, rfl, by omega, by rw [if_pos (by omega)], rfl⟩
      rw [hst] at hr
      simp only at hr
      have hlen : pth.length = h.path.length := by
        rw [hpth]; split <;> simp
      have hpaste : ∀ vis : List Ref, paste n' (vis.take (h.maxPath - n')) pth = paste n ((cur :: vis).take (h.maxPath - n)) h.path := by
        intro vis
        by_cases h1 : n < h.maxPath
        · have hn1 : n' = n + 1 := by omega
          rw [hpth, if_pos h1, hn1, paste_cons _ _ _ (by omega), show h.maxPath - n = (h.maxPath - (n + 1)) + 1 by omega, List.take_succ_cons]
        · have hn1 : n' = n := by omega
          rw [hpth, if_neg h1, hn1, show h.maxPath - n = 0 by omega]
          simp
      have hpaste1 : pth = paste n ([cur].take (h.maxPath - n)) h.path := by
        rw [← hpaste [], List.take_nil, paste_nil]
      cases seg with
      | none =>
        simp only [Option.some.injEq] at hr
        refine ⟨[cur], .reached, _, _, hr.symm, .reached hcl, by simpa using hn', hpaste1, by simpa using hst1, rfl, ⟨rfl, rfl⟩, ?_, rfl,
          by simp [rayTrace, hcl]⟩
        by_cases hco : costs = true <;> simp [hco, rayLegs, hcl]
      | some e =>
        simp only at hr
        rcases rayNext_spec m g hz cur e tmax with ⟨h0, hno⟩ | ⟨l, hl, ho, hl0⟩
        · rw [if_pos h0] at hr
          simp only [Option.some.injEq] at hr
          refine ⟨[cur], .wall cur e tmax, _, _, hr.symm, .wall hcl hno, by simpa using hn', hpaste1, by simpa using hst1, ?_, ⟨rfl, rfl⟩, ?_, rfl,
            by simp [rayTrace, hcl, h0]⟩
          · simp [furthestExit, hcl]
          · by_cases hco : costs = true <;> simp [hco, rayLegs, hcl, h0, rayAfter]
        · rw [if_neg (by rw [hl]; exact hl0)] at hr
          obtain ⟨vis, fin, st', h', e1, e2, e3, e4, e5, e6, e7, e8, e9, e10⟩ := ih cur (rayNext m g cur e tmax) _ n' st1 _ out (by rw [hl]; exact hl0)
            (by dsimp only; omega) (by dsimp only; omega) hr
          rw [hl] at e2
          simp only at e3 e4 e5 e6 e7 e8 e9
          refine ⟨cur :: vis, fin, st', h', e1, .step hcl ho e2, ?_, ?_, ?_, ?_, e7, ?_, e9,
            by rw [rayTrace, hcl]; dsimp only; rw [if_neg (by rw [hl]; exact hl0), e10]; rfl⟩
          · rw [e3, List.length_cons]; omega
          · rw [e4, hpaste]
          · rw [e5, hst1, List.length_cons]
            by_cases h1 : n < h.maxPath
            · have hn1 : n' = n + 1 := by omega
              rw [hn1, if_neg (by omega : ¬ h.maxPath < n + 1), show n + 1 + vis.length = n + (vis.length + 1) by omega]
            · have hn1 : n' = n := by omega
              rw [hn1, if_pos (by omega : h.maxPath < n + 1), if_pos (by omega : h.maxPath < n + (vis.length + 1))]
              split
              · rw [BitVec.or_assoc, BitVec.or_self]
              · rfl
          · rw [e6]
            cases fin <;> simp [furthestExit, hcl]
          · rw [e8]
            by_cases hco : costs = true
            · simp only [hco, if_true, rayLegs, hcl, List.foldl_cons]
              rw [hl, e2.head]
            · simp [hco]

theorem rayLoop_walk [Add C] (m : RayMesh) (g : RayGeom F) (costs : Bool) (cost : RayPos F → RayPos F → Ref → Ref → Ref → C)
    (hz : ∀ c, ∀ l ∈ m.links c, l.ref ≠ 0#32) (fuel : Nat) (prev cur : Ref) (pos : RayPos F) (n : Nat) (st : Status) (h : RayHit F C)
    (out : RayOut F C) (h1 : cur ≠ 0#32) (h2 : n ≤ h.maxPath) (h3 : h.maxPath ≤ h.path.length)
    (hr : rayLoop m g costs cost fuel prev cur pos n st h = some out) :
    ∃ vis fin st' h', out = .ok st' h' ∧ RayWalk m g cur vis fin ∧
      h'.count = min (n + vis.length) h.maxPath ∧ h'.path = paste n (vis.take (h.maxPath - n)) h.path ∧
      st' = (if h.maxPath < n + vis.length then st ||| Status.bufferTooSmall else st) ∧
      h'.t = (match fin with | .reached => g.maxT | _ => furthestExit g h.t vis) ∧
      (match fin with
        | .reached => h'.edge = none ∧ h'.normal = h.normal
        | .wall c e _ => h'.edge = some e ∧ h'.normal = some (c, e)
        | .missed _ => h'.normal = h.normal) ∧
      h'.cost = (if costs = true then (rayLegs g cost fin prev pos h.t vis).foldl (· + ·) h.cost else h.cost) ∧ h'.maxPath = h.maxPath := by
  obtain ⟨vis, fin, st', h', e1, e2, e3, e4, e5, e6, e7, e8, e9, _⟩ := rayLoop_trace m g costs cost hz fuel prev cur pos n st h out h1 h2 h3 hr
  exact ⟨vis, fin, st', h', e1, e2, e3, e4, e5, e6, e7, e8, e9⟩

/-- When the polygons can be found in so many rounds, the loop comes back in as many. -/
theorem rayLoop_of_trace [Add C] (m : RayMesh) (g : RayGeom F) (costs : Bool) (cost : RayPos F → RayPos F → Ref → Ref → Ref → C) :
    ∀ (fuel : Nat) (prev cur : Ref) (pos : RayPos F) (n : Nat) (st : Status) (h : RayHit F C) (v : List Ref × RayEnd F), cur ≠ 0#32 →
      rayTrace m g fuel cur = some v → ∃ out, rayLoop m g costs cost fuel prev cur pos n st h = some out := by
  intro fuel
  induction fuel with
  | zero => intro prev cur pos n st h v _ hr; simp [rayTrace] at hr
  | succ fuel ih =>
    intro prev cur pos n st h v hc hr
    rw [rayLoop, if_neg hc]
    rw [rayTrace] at hr
    cases hcl : g.clip cur with
    | none => exact ⟨_, rfl⟩
    | some w =>
      obtain ⟨tmax, seg⟩ := w
      rw [hcl] at hr
      dsimp only
      cases rayStore cur n st { h with edge := seg, t := if g.gt tmax h.t = true then tmax else h.t } with
      | none => exact ⟨_, rfl⟩
      | some w =>
        obtain ⟨h1, n1, st1⟩ := w
        cases seg with
        | none => exact ⟨_, rfl⟩
        | some e =>
          dsimp only at hr ⊢
          by_cases h0 : rayNext m g cur e tmax = 0#32
          · rw [if_pos h0]
            exact ⟨_, rfl⟩
          · rw [if_neg h0]
            rw [if_neg h0] at hr
            simp only [Option.map_eq_some_iff] at hr
            obtain ⟨v', hv', _⟩ := hr
            exact ih _ _ _ _ _ _ v' h0 hv'

/-! ## Properties -/

/-- **C127.** Whatever the geometry: a `Raycast` from a valid polygon (and a valid previous polygon, if any is given) with room for
`MaxPath` references does not panic, and when it comes back, there are polygons `vis` that the ray goes through, each from the one before
over the edge by which the ray leaves that one, by a link that covers the crossing and leads to ground that the filter passes
(`RayWalk`), such that: `Path` holds the first `MaxPath` of them and nothing else of it is changed, `PathCount` is their number,
`BufferTooSmall` is set exactly when there were more, and the ray has ended
* in the last of them, which holds the end position: `T` is `MaxFloat32`, `HitEdgeIndex` is -1 and `HitNormal` is zero, or
* at an edge of the last of them that no such link leaves: `T` is the furthest exit, `HitEdgeIndex` and `HitNormal` are those of the edge,
* or at a polygon that the clipping finds the ray not to meet.
Invalid references are refused and the hit structure is as before. -/
theorem raycast_corridor [Add C] (m : RayMesh) (g : RayGeom F) (costs : Bool) (cost : RayPos F → RayPos F → Ref → Ref → Ref → C)
    (hz : ∀ c, ∀ l ∈ m.links c, l.ref ≠ 0#32) (fuel : Nat) (startRef prevRef : Ref) (h : RayHit F C) (hp : h.maxPath ≤ h.path.length)
    (out : RayOut F C) (hr : raycast m g costs cost fuel startRef prevRef h = some out) :
    (((startRef = 0#32 ∨ m.valid startRef = false) ∨ (prevRef ≠ 0#32 ∧ m.valid prevRef = false)) →
      out = .ok (Status.failure ||| Status.invalidParam) h) ∧
    ((startRef ≠ 0#32 ∧ m.valid startRef = true) → (prevRef ≠ 0#32 → m.valid prevRef = true) →
      ∃ vis fin st' h', out = .ok st' h' ∧ RayWalk m g startRef vis fin ∧
        h'.count = min vis.length h.maxPath ∧ h'.path = vis.take h.maxPath ++ h.path.drop h'.count ∧
        st' = (if h.maxPath < vis.length then Status.success ||| Status.bufferTooSmall else Status.success) ∧
        (match fin with
          | .reached => h'.t = g.maxT ∧ h'.edge = none ∧ h'.normal = none
          | .wall c e _ => h'.t = furthestExit g h.t vis ∧ h'.edge = some e ∧ h'.normal = some (c, e)
          | .missed _ => h'.t = furthestExit g h.t vis ∧ h'.normal = none)) := by
  unfold raycast at hr
  refine ⟨fun hb => ?_, fun h1 h2 => ?_⟩
  · by_cases h1 : startRef = 0#32 ∨ m.valid startRef = false
    · rw [if_pos h1] at hr
      exact (Option.some.inj hr).symm
    · rw [if_neg h1, if_pos (hb.resolve_left h1)] at hr
      exact (Option.some.inj hr).symm
  · rw [if_neg (by simp [h1]), if_neg (by rintro ⟨a, b⟩; rw [h2 a] at b; cases b)] at hr
    obtain ⟨vis, fin, st', h', e1, e2, e3, e4, e5, e6, e7, _, _⟩ :=
      rayLoop_walk m g costs cost hz fuel prevRef startRef .start 0 _ { h with normal := none } out h1.1 (Nat.zero_le _) hp hr
    simp only [Nat.zero_add] at e3 e4 e5 e6 e7
    refine ⟨vis, fin, st', h', e1, e2, e3, ?_, e5, ?_⟩
    · rw [e4, e3]
      simp [paste, Nat.min_comm]
    · cases fin with
      | reached => exact ⟨e6, e7.1, e7.2⟩
      | wall c e t => exact ⟨e6, e7.1, e7.2⟩
      | missed c => exact ⟨e6, e7⟩

/-- **C127**, what a corridor is: the first polygon is the start; every later one passes the filter and is no off-mesh connection, and a
link of the polygon before, over the edge where the ray leaves that polygon, leads to it. -/
theorem RayWalk.corridor {m : RayMesh} {g : RayGeom F} {s : Ref} {vis : List Ref} {fin : RayEnd F} (h : RayWalk m g s vis fin) :
    (∀ c, vis[0]? = some c → c = s) ∧
    ∀ k c d, vis[k]? = some c → vis[k + 1]? = some d →
      m.pass d = true ∧ m.offMesh d = false ∧ ∃ t e l, g.clip c = some (t, some e) ∧ l ∈ m.links c ∧ l.edge = e ∧ l.ref = d := by
  induction h with
  | missed _ => simp
  | reached _ => exact ⟨by simp_all, by intro k c d _ hd; simp at hd⟩
  | wall _ _ => exact ⟨by simp_all, by intro k c d _ hd; simp at hd⟩
  | @step c t e l vis fin hc ho hw ih =>
    refine ⟨by simp_all, ?_⟩
    intro k a b ha hb
    cases k with
    | zero =>
      simp only [List.getElem?_cons_zero, Option.some.injEq] at ha
      simp only [Nat.zero_add, List.getElem?_cons_succ] at hb
      have := ih.1 b hb
      subst ha this
      exact ⟨ho.pass, ho.ground, t, e, l, hc, ho.mem, ho.edge, rfl⟩
    | succ k =>
      simp only [List.getElem?_cons_succ] at ha hb
      exact ih.2 k a b ha hb

/-- **C129.** With the option for costs, what the call adds to `PathCost` is the sum of one cost for each polygon the ray goes through: for
the leg inside it, from where the ray came in (at first the start position) to where it leaves, or to the end position in the last one,
with the polygons before and after. Without the option `PathCost` is as before. -/
theorem raycast_cost [Add C] (m : RayMesh) (g : RayGeom F) (costs : Bool) (cost : RayPos F → RayPos F → Ref → Ref → Ref → C)
    (hz : ∀ c, ∀ l ∈ m.links c, l.ref ≠ 0#32) (fuel : Nat) (startRef prevRef : Ref) (h : RayHit F C) (hp : h.maxPath ≤ h.path.length)
    (hv : startRef ≠ 0#32 ∧ m.valid startRef = true) (hpv : prevRef ≠ 0#32 → m.valid prevRef = true)
    (out : RayOut F C) (hr : raycast m g costs cost fuel startRef prevRef h = some out) :
    ∃ vis fin st' h', out = .ok st' h' ∧ RayWalk m g startRef vis fin ∧
      h'.cost = (if costs = true then (rayLegs g cost fin prevRef .start h.t vis).foldl (· + ·) h.cost else h.cost) := by
  unfold raycast at hr
  rw [if_neg (by simp [hv]), if_neg (by rintro ⟨a, b⟩; rw [hpv a] at b; cases b)] at hr
  obtain ⟨vis, fin, st', h', e1, e2, _, _, _, _, _, e8, _⟩ :=
    rayLoop_walk m g costs cost hz fuel prevRef startRef .start 0 _ { h with normal := none } out hv.1 (Nat.zero_le _) hp hr
  exact ⟨vis, fin, st', h', e1, e2, e8⟩

theorem rayLegs_length {m : RayMesh} {g : RayGeom F} {s : Ref} {vis : List Ref} {fin : RayEnd F} (h : RayWalk m g s vis fin)
    (cost : RayPos F → RayPos F → Ref → Ref → Ref → C) : ∀ prev pos t, (rayLegs g cost fin prev pos t vis).length = vis.length := by
  induction h with
  | missed _ => intro _ _ _; rfl
  | reached hc => intro _ _ _; simp [rayLegs, hc]
  | wall hc _ => intro _ _ _; simp [rayLegs, hc]
  | step hc _ _ ih => intro prev pos t; simp [rayLegs, hc, ih]

/-- Two hit structures that agree in what the loop goes by. -/
structure SameHit (n : Nat) (h₁ h₂ : RayHit F C) : Prop where
  t : h₁.t = h₂.t
  normal : h₁.normal = h₂.normal
  maxPath : h₁.maxPath = h₂.maxPath
  cost : h₁.cost = h₂.cost
  len : h₁.path.length = h₂.path.length
  path : h₁.path.take n = h₂.path.take n

theorem rayLoop_same [Add C] (m : RayMesh) (g : RayGeom F) (costs : Bool) (cost : RayPos F → RayPos F → Ref → Ref → Ref → C) :
    ∀ (fuel : Nat) (prev cur : Ref) (pos : RayPos F) (n : Nat) (st : Status) (h₁ h₂ : RayHit F C), SameHit n h₁ h₂ →
    (rayLoop m g costs cost fuel prev cur pos n st h₁ = none ∧ rayLoop m g costs cost fuel prev cur pos n st h₂ = none) ∨
    (rayLoop m g costs cost fuel prev cur pos n st h₁ = some .panic ∧ rayLoop m g costs cost fuel prev cur pos n st h₂ = some .panic) ∨
    ∃ st' k₁ k₂, rayLoop m g costs cost fuel prev cur pos n st h₁ = some (.ok st' k₁) ∧
      rayLoop m g costs cost fuel prev cur pos n st h₂ = some (.ok st' k₂) ∧ SameHit k₁.count k₁ k₂ ∧ k₁.count = k₂.count ∧
      (h₁.edge = h₂.edge ∨ (cur ≠ 0#32 ∧ g.clip cur ≠ none) → k₁.edge = k₂.edge) := by
  intro fuel
  induction fuel with
  | zero => intros; exact Or.inl ⟨rfl, rfl⟩
  | succ fuel ih =>
    intro prev cur pos n st h₁ h₂ hs
    rw [rayLoop, rayLoop]
    by_cases hc : cur = 0#32
    · rw [if_pos hc, if_pos hc]
      exact Or.inr (Or.inr ⟨_, _, _, rfl, rfl, ⟨hs.t, hs.normal, hs.maxPath, hs.cost, hs.len, hs.path⟩, rfl, fun h => h.elim id fun h => absurd hc h.1⟩)
    · rw [if_neg hc, if_neg hc]
      cases hcl : g.clip cur with
      | none =>
        exact Or.inr (Or.inr ⟨_, _, _, rfl, rfl, ⟨hs.t, hs.normal, hs.maxPath, hs.cost, hs.len, hs.path⟩, rfl,
          fun h => h.elim id fun h => absurd rfl h.2⟩)
      | some v =>
        obtain ⟨tmax, seg⟩ := v
        simp only
        rw [← hs.t]
        -- the store
        have hstore : ∀ t : F, (rayStore cur n st { h₁ with edge := seg, t := t } = none ∧ rayStore cur n st { h₂ with edge := seg, t := t } = none) ∨
            ∃ a₁ a₂ n' st1, rayStore cur n st { h₁ with edge := seg, t := t } = some (a₁, n', st1) ∧
              rayStore cur n st { h₂ with edge := seg, t := t } = some (a₂, n', st1) ∧ SameHit n' a₁ a₂ ∧ a₁.edge = a₂.edge := by
          intro t
          unfold rayStore
          simp only
          rw [← hs.maxPath, ← hs.len]
          by_cases h1 : n < h₁.maxPath
          · rw [if_pos h1, if_pos h1]
            by_cases h2 : n < h₁.path.length
            · rw [if_pos h2, if_pos h2]
              have h3 : n < h₂.path.length := hs.len ▸ h2
              refine Or.inr ⟨_, _, _, _, rfl, rfl, ⟨rfl, hs.normal, rfl, hs.cost, by simp [hs.len], ?_⟩, rfl⟩
              have e1 : ∀ p : List Ref, n < p.length → (p.set n cur).take (n + 1) = p.take n ++ [cur] := by
                intro p hp
                rw [List.take_set, List.take_succ_eq_append_getElem hp, List.set_append_right _ _ (by simp)]
                simp [Nat.min_eq_left (le_of_lt hp)]
              simp only
              rw [e1 _ h2, e1 _ h3, hs.path]
            · rw [if_neg h2, if_neg h2]
              exact Or.inl ⟨rfl, rfl⟩
          · rw [if_neg h1, if_neg h1]
            exact Or.inr ⟨_, _, _, _, rfl, rfl, ⟨rfl, hs.normal, rfl, hs.cost, hs.len, hs.path⟩, rfl⟩
        rcases hstore (if g.gt tmax h₁.t = true then tmax else h₁.t) with ⟨e1, e2⟩ | ⟨a₁, a₂, n', st1, e1, e2, hs', he⟩
        · rw [e1, e2]
          exact Or.inr (Or.inl ⟨rfl, rfl⟩)
        · rw [e1, e2]
          simp only
          cases seg with
          | none =>
            simp only
            rw [← hs'.cost]
            exact Or.inr (Or.inr ⟨_, _, _, rfl, rfl, ⟨rfl, hs'.normal, hs'.maxPath, rfl, hs'.len, hs'.path⟩, rfl, fun _ => he⟩)
          | some e =>
            simp only
            rw [← hs'.cost, ← hs'.t]
            by_cases hx : rayNext m g cur e tmax = 0#32
            · rw [if_pos hx, if_pos hx]
              exact Or.inr (Or.inr ⟨_, _, _, rfl, rfl, ⟨rfl, rfl, hs'.maxPath, rfl, hs'.len, hs'.path⟩, rfl, fun _ => he⟩)
            · rw [if_neg hx, if_neg hx]
              rcases ih cur (rayNext m g cur e tmax) (.at a₁.t cur e) n' st1
                { a₁ with cost := if costs = true then a₁.cost + cost pos (.at a₁.t cur e) prev cur (rayNext m g cur e tmax) else a₁.cost }
                { a₂ with t := a₁.t, cost := if costs = true then a₁.cost + cost pos (.at a₁.t cur e) prev cur (rayNext m g cur e tmax) else a₁.cost }
                ⟨rfl, hs'.normal, hs'.maxPath, rfl, hs'.len, hs'.path⟩ with r | r | ⟨st', k₁, k₂, r1, r2, r3, r4, r5⟩
              · exact Or.inl r
              · exact Or.inr (Or.inl r)
              · exact Or.inr (Or.inr ⟨st', k₁, k₂, r1, r2, r3, r4, fun _ => r5 (Or.inl he)⟩)

/-- **C128**, the part that holds. The full statement is that what a call of `Raycast` reports does not depend on what the hit structure held
before, but for `Path` and `MaxPath`, which are input; missing: `T` and `PathCost` must hold the same (as in two fresh structures). Then
the status, `T`, `PathCost`, `HitNormal`, `PathCount` and the references reported are the same, and `HitEdgeIndex`, if the ray meets the
start polygon. -/
theorem raycast_fresh_partial [Add C] (m : RayMesh) (g : RayGeom F) (costs : Bool) (cost : RayPos F → RayPos F → Ref → Ref → Ref → C)
    (fuel : Nat) (startRef prevRef : Ref) (h₁ h₂ : RayHit F C) (hv : startRef ≠ 0#32 ∧ m.valid startRef = true)
    (hpv : prevRef ≠ 0#32 → m.valid prevRef = true) (hlen : h₁.path.length = h₂.path.length) (hmax : h₁.maxPath = h₂.maxPath)
    (ht : h₁.t = h₂.t) (hc : h₁.cost = h₂.cost) (st₁ : Status) (k₁ : RayHit F C)
    (hr : raycast m g costs cost fuel startRef prevRef h₁ = some (.ok st₁ k₁)) :
    ∃ k₂, raycast m g costs cost fuel startRef prevRef h₂ = some (.ok st₁ k₂) ∧ k₁.t = k₂.t ∧ k₁.cost = k₂.cost ∧ k₁.normal = k₂.normal ∧
      k₁.count = k₂.count ∧ k₁.path.take k₁.count = k₂.path.take k₂.count ∧ (g.clip startRef ≠ none → k₁.edge = k₂.edge) := by
  unfold raycast at hr ⊢
  have n1 : ¬ (startRef = 0#32 ∨ m.valid startRef = false) := by simp [hv]
  have n2 : ¬ (prevRef ≠ 0#32 ∧ m.valid prevRef = false) := by rintro ⟨a, b⟩; rw [hpv a] at b; cases b
  rw [if_neg n1, if_neg n2] at hr ⊢
  rcases rayLoop_same m g costs cost fuel prevRef startRef .start 0 Status.success { h₁ with normal := none } { h₂ with normal := none }
    ⟨ht, rfl, hmax, hc, hlen, rfl⟩ with ⟨r, _⟩ | ⟨r, _⟩ | ⟨st', a, b, r1, r2, r3, r4, r5⟩
  · rw [r] at hr; cases hr
  · rw [r] at hr; cases hr
  · rw [r1] at hr
    simp only [Option.some.injEq, RayOut.ok.injEq] at hr
    obtain ⟨rfl, rfl⟩ := hr
    exact ⟨b, r2, r3.t, r3.cost, r3.normal, r4, r4 ▸ r3.path, fun h => r5 (Or.inr ⟨hv.1, h⟩)⟩

end

/-! ## Examples

Three polygons in a row, 1, 2 and 3; the ray leaves 1 by its edge 1 at 10, and 2 by its edge 2 at 20. -/

/-- The links; 3 has a portal to a polygon of another tile, which covers a part of its edge 0. -/
def rowMesh : RayMesh where
  links := fun r =>
    if r = 1#32 then [⟨0, 9#32, 0xff#8, 0#8, 0#8⟩, ⟨1, 9#32, 0xff#8, 0#8, 0#8⟩, ⟨1, 2#32, 0xff#8, 0#8, 0#8⟩]
    else if r = 2#32 then [⟨2, 3#32, 4#8, 0#8, 100#8⟩]
    else []
  offMesh := fun r => r = 9#32
  pass := fun _ => true
  valid := fun r => r.toNat ≤ 9

/-- A ray that ends in polygon 3 if `far`, else is stopped there at 30. -/
def rowGeom (far : Bool) : RayGeom Nat where
  clip := fun r =>
    if r = 1#32 then some (10, some 1) else if r = 2#32 then some (20, some 2)
    else if r = 3#32 then some (if far then (40, none) else (30, some 0)) else none
  portal := fun _ _ t => t = 20
  gt := fun a b => a > b
  maxT := 1000

def rowHit (t : Nat) : RayHit Nat Nat := ⟨t, none, none, [0#32, 0#32, 7#32], 0, 2, 0⟩

def rowCost : RayPos Nat → RayPos Nat → Ref → Ref → Ref → Nat
  | .start, .at t _ _, _, _, _ => t
  | .at a _ _, .at b _ _, _, _, _ => b - a
  | .at a _ _, .goal, _, _, _ => 40 - a
  | _, _, _, _, _ => 0

/-- The hypotheses of the theorems hold, and the ray is stopped in the third polygon; only two are stored. -/
example : (∀ c, ∀ l ∈ rowMesh.links c, l.ref ≠ 0#32) ∧ (rowHit 0).maxPath ≤ (rowHit 0).path.length ∧ rowMesh.valid 1#32 = true ∧
    raycast rowMesh (rowGeom false) true rowCost 5 1#32 0#32 (rowHit 0) =
      some (.ok (Status.success ||| Status.bufferTooSmall) ⟨30, some (3#32, 0), some 0, [1#32, 2#32, 7#32], 2, 2, 30⟩) ∧
    raycast rowMesh (rowGeom true) true rowCost 5 1#32 0#32 (rowHit 0) =
      some (.ok (Status.success ||| Status.bufferTooSmall) ⟨1000, none, none, [1#32, 2#32, 7#32], 2, 2, 40⟩) := by
  refine ⟨?_, by decide, by decide, rfl, rfl⟩
  intro c l hl
  simp only [rowMesh] at hl
  split at hl
  · simp at hl; rcases hl with rfl | rfl | rfl <;> decide
  · split at hl
    · simp at hl; subst hl; decide
    · simp at hl

/-- `MaxPath` beyond the length of `Path`: a panic. -/
example : raycast rowMesh (rowGeom true) true rowCost 5 1#32 0#32 { rowHit 0 with path := [0#32] } = some .panic := rfl

/-- **C128** does not hold in full: `T` is not reset. A hit structure that is used again after a ray that reached its end reports, of a ray
that a wall stops, that it reached its end too (`T` is `MaxFloat32`), and `PathCost` adds up. -/
theorem raycast_stale_refuted :
    ¬ (∀ (m : RayMesh) (g : RayGeom Nat) (h₁ h₂ k₁ k₂ : RayHit Nat Nat) (s : Status),
      h₁.path = h₂.path → h₁.maxPath = h₂.maxPath →
      raycast m g true rowCost 5 1#32 0#32 h₁ = some (.ok s k₁) → raycast m g true rowCost 5 1#32 0#32 h₂ = some (.ok s k₂) →
      k₁.t = k₂.t) := by
  intro h
  -- the structure as the ray that reached the end has left it
  exact absurd (h rowMesh (rowGeom false) (rowHit 0) ⟨1000, none, none, [0#32, 0#32, 7#32], 2, 2, 40⟩ _ _ _ rfl rfl rfl rfl) (by decide)

end Verif.Detour
