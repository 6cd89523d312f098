/-
The sliced search without the any-angle option: what it finds, for every way of slicing.
-/
import Verif.Detour.Sliced

set_option linter.unusedSectionVars false

namespace Verif.Detour

section
variable {P C : Type} [LinearOrder C] [Add C] [Zero C]

/-! ## The search is one of `FindPath` on links without sides -/

/-- The links as the sliced search sees them: all in search state 0. -/
def flatEnv (e : RayEnv P C) : Env P C := { e.toEnv with links := fun r => (e.links r).map fun l => (l.1, 0xff#8) }

theorem flat_edge (e : RayEnv P C) (a b : Ref) : Edge (flatEnv e) a b ↔ Edge e.toEnv a b := by
  unfold Edge flatEnv
  simp only [List.mem_map, Prod.mk.injEq]
  constructor
  · rintro ⟨sd, ⟨⟨r, sd'⟩, h1, h2, h3⟩, h4⟩
    simp only at h2
    subst h2
    exact ⟨sd', h1, h4⟩
  · rintro ⟨sd, h1, h2⟩
    exact ⟨0xff#8, ⟨(b, sd), h1, rfl, rfl⟩, h2⟩

theorem flat_edge_eq (e : RayEnv P C) : Edge (flatEnv e) = Edge e.toEnv := by
  funext a b
  exact propext (flat_edge e a b)

/-- A sliced search in progress that is a search of `FindPath`. -/
def ofSearch (q : Query P) (t : Search P C) : Sliced P C :=
  ⟨q, false, Status.inProgress ||| (if t.outOfNodes then Status.outOfNodes else 0#32), some t.best, t.bestCost, t.pool, t.heap⟩

/-- No node was reached by a ray. -/
def Plain (p : Pool P C) : Prop := ∀ i, i < p.count → (p.nodes i).detached = false

theorem place_detached (e : Env P C) (a b : Ref) (n : Node P C) : (place e a b n).detached = n.detached := by
  unfold place
  split <;> rfl

theorem place_pidx (e : Env P C) (a b : Ref) (n : Node P C) : (place e a b n).pidx = n.pidx := by
  unfold place
  split <;> rfl

theorem visit_plain {e : Env P C} {q : Query P} {b : Nat} {r pr nr : Ref} {i : Nat} {t t' : Search P C}
    (h : visit e q b r pr nr i t = some t') (hp : Plain t.pool) : Plain t'.pool := by
  have hw : ∀ (p : Pool P C) (n : Node P C), Plain p → (i < p.count → n.detached = false) → Plain (p.write i n) := by
    intro p n hp hn j hj
    unfold Pool.write
    simp only
    by_cases hji : j = i
    · subst hji; rw [upd_same]; exact hn hj
    · rw [upd_ne _ _ hji]; exact hp j hj
  unfold visit at h
  dsimp only at h
  have h1 : Plain (t.pool.write i (place e r nr (t.pool.nodes i))) :=
    hw _ _ hp (fun hi => by rw [place_detached]; exact hp i hi)
  split at h
  · cases h; exact h1
  split at h
  · cases h; exact h1
  split at h
  · cases h
  split at h
  all_goals
    cases h
    refine hw _ _ h1 (fun hi => ?_)
    show (place e r nr (t.pool.nodes i)).detached = false
    rw [place_detached]
    exact hp i hi

theorem relax_plain {e : Env P C} {q : Query P} {b : Nat} {r pr : Ref} {l : Ref × BitVec 8} {t t' : Search P C}
    (hi : PoolInv t.pool) (h : relax e q b r pr t l = some t') (hp : Plain t.pool) : Plain t'.pool := by
  unfold relax at h
  split at h
  · cases h; exact hp
  split at h
  · cases h; exact hp
  rcases node_cases hi (l.1, crossSide l.2) with ⟨i, h1, h2, h3⟩ | ⟨h1, h2, h3⟩ | ⟨p', h1, h2, h3, h4, h5, h6, h7, h8⟩
  · rw [h1] at h
    exact visit_plain h hp
  · rw [h1] at h
    cases h; exact hp
  · rw [h1] at h
    refine visit_plain h ?_
    intro j hj
    simp only at hj ⊢
    rw [h8]
    by_cases hj' : j = t.pool.count
    · subst hj'; rw [upd_same]; rfl
    · rw [upd_ne _ _ hj']; exact hp j (by omega)

/-- Visiting a neighbour without a ray is visiting it in `FindPath`, unless it has the same parent. -/
theorem slicedVisit_eq (e : RayEnv P C) (q : Query P) (b : Nat) (r pr gr nr : Ref) (i : Nat) (t : Search P C)
    (hs : ¬ ((t.pool.nodes i).pidx ≠ 0 ∧ (t.pool.nodes i).pidx = (t.pool.nodes b).pidx))
    (hd : (t.pool.nodes i).detached = false) :
    slicedVisit e b r pr gr none nr i (ofSearch q t) = (visit (flatEnv e) q b r pr nr i t).map (ofSearch q) := by
  unfold slicedVisit visit
  refine (if_neg hs).trans ?_
  have hpl : place e.toEnv r nr (t.pool.nodes i) = place (flatEnv e) r nr (t.pool.nodes i) := rfl
  have hset : ∀ c tot, slicedSettle (place (flatEnv e) r nr (t.pool.nodes i)) (nodeIdx (some b)) nr c tot false =
      settle (place (flatEnv e) r nr (t.pool.nodes i)) b nr c tot := by
    intro c tot
    unfold slicedSettle settle
    have := (place_detached (flatEnv e) r nr (t.pool.nodes i)).trans hd
    generalize place (flatEnv e) r nr (t.pool.nodes i) = n at *
    cases n
    simp only at this
    subst this
    rfl
  have hcost : ∀ bn n : Node P C, slicedCost e q r pr nr bn n none = stepCost (flatEnv e) q r pr nr bn n := by
    intro bn n
    unfold slicedCost stepCost
    rfl
  dsimp only [ofSearch, Option.bind_none]
  simp only [hpl, hcost, Option.isSome_none, Bool.false_eq_true, if_false, hset]
  generalize place (flatEnv e) r nr (t.pool.nodes i) = n
  generalize stepCost (flatEnv e) q r pr nr ((t.pool.write i n).nodes b) n = ch
  split
  · rfl
  split
  · rfl
  cases requeue ((t.pool.write i n).write i (settle n b nr ch.1 (ch.1 + ch.2))) t.heap n.opened i with
  | none => rfl
  | some h' =>
    dsimp only
    split <;> rfl

theorem oon_or (b : Bool) : (Status.inProgress ||| (if b then Status.outOfNodes else 0#32)) ||| Status.outOfNodes =
    Status.inProgress ||| Status.outOfNodes := by
  cases b <;> decide

/-- One link of the sliced search keeps the invariant of `FindPath`. -/
theorem slicedRelax_inv {e : RayEnv P C} (laws : CostLaws C) (hnn : (flatEnv e).NonNeg) {q : Query P} {mx : Nat}
    {b : Nat} {d : List (Ref × BitVec 8)} {t : Search P C}
    (hs : SInv (flatEnv e) q mx (some (b, d)) t) (hp : Plain t.pool) (hb : b < t.pool.count)
    (hbgoal : (t.pool.nodes b).id ≠ q.goal)
    (pref gref : Ref) (hpref : pref ≠ 0#32 → ∃ k, k < t.pool.count ∧ (t.pool.nodes k).id = pref)
    (nref : Ref) (hl : (nref, 0xff#8) ∈ (flatEnv e).links (t.pool.nodes b).id) :
    ∃ t', slicedRelax e b (t.pool.nodes b).id pref gref none (ofSearch q t) nref = some (ofSearch q t') ∧
      SInv (flatEnv e) q mx (some (b, (nref, 0xff#8) :: d)) t' ∧ Progress t t' ∧ SameIds t t' ∧ Plain t'.pool := by
  obtain ⟨t', r1, r2, r3, r4⟩ := relax_inv laws hnn hs hb hbgoal pref hpref (nref, 0xff#8) hl
  have r5 := relax_plain hs.pool r1 hp
  unfold relax at r1
  unfold slicedRelax
  dsimp only at r1
  by_cases h1 : nref = 0#32 ∨ nref = pref
  · rw [if_pos h1] at r1 ⊢
    cases r1
    exact ⟨t, rfl, r2, r3, r4, r5⟩
  rw [if_neg h1] at r1 ⊢
  have hpass : e.pass nref = (flatEnv e).pass nref := rfl
  rw [hpass]
  by_cases h2 : (flatEnv e).pass nref = false
  · rw [if_pos h2] at r1 ⊢
    cases r1
    exact ⟨t, rfl, r2, r3, r4, r5⟩
  rw [if_neg h2] at r1 ⊢
  have hc : crossSide 0xff#8 = 0#8 := by decide
  rw [hc] at r1
  have hpool : (ofSearch q t).pool = t.pool := rfl
  rw [hpool]
  rcases node_cases hs.pool (nref, 0#8) with ⟨i, n1, n2, n3⟩ | ⟨n1, n2, n3⟩ | ⟨p', n1, n2, n3, n4, n5, n6, n7, n8⟩
  · rw [n1] at r1 ⊢
    dsimp only at r1 ⊢
    by_cases hsib : (t.pool.nodes i).pidx ≠ 0 ∧ (t.pool.nodes i).pidx = (t.pool.nodes b).pidx
    · refine ⟨t, ?_, hs.skip _ ?_, Progress.rfl' t, fun _ _ => rfl, hp⟩
      · unfold slicedVisit
        exact if_pos hsib
      · intro _ _
        exact .inr ⟨i, n2, congrArg Prod.fst n3⟩
    · refine ⟨t', ?_, r2, r3, r4, r5⟩
      have : ({ofSearch q t with pool := t.pool} : Sliced P C) = ofSearch q t := rfl
      rw [this, slicedVisit_eq e q b _ pref gref nref i t hsib (hp i n2), r1]
      rfl
  · rw [n1] at r1 ⊢
    dsimp only at r1 ⊢
    cases r1
    refine ⟨_, ?_, r2, r3, r4, r5⟩
    unfold ofSearch
    simp only [oon_or, if_true]
  · rw [n1] at r1 ⊢
    dsimp only at r1 ⊢
    refine ⟨t', ?_, r2, r3, r4, r5⟩
    have : ({ofSearch q t with pool := p'} : Sliced P C) = ofSearch q {t with pool := p'} := rfl
    rw [this, slicedVisit_eq e q b _ pref gref nref t.pool.count {t with pool := p'}, r1]
    · rfl
    · dsimp only
      rw [n8, upd_same]
      rintro ⟨h, _⟩
      exact h rfl
    · dsimp only
      rw [n8, upd_same]
      rfl

theorem slicedRelaxAll_inv {e : RayEnv P C} (laws : CostLaws C) (hnn : (flatEnv e).NonNeg) {q : Query P} {mx : Nat}
    {b : Nat} {r : Ref} (hr : r ≠ q.goal) (pref gref : Ref) (ls : List Ref)
    (hls : ∀ l ∈ ls, (l, 0xff#8) ∈ (flatEnv e).links r) {d : List (Ref × BitVec 8)} {t : Search P C}
    (hs : SInv (flatEnv e) q mx (some (b, d)) t) (hp : Plain t.pool) (hb : b < t.pool.count) (hbr : (t.pool.nodes b).id = r)
    (hpref : pref ≠ 0#32 → ∃ k, k < t.pool.count ∧ (t.pool.nodes k).id = pref) :
    ∃ t', ls.foldlM (slicedRelax e b r pref gref none) (ofSearch q t) = some (ofSearch q t') ∧
      SInv (flatEnv e) q mx (some (b, (ls.map fun l => (l, 0xff#8)).reverse ++ d)) t' ∧ Progress t t' ∧ SameIds t t' ∧ Plain t'.pool := by
  induction ls generalizing t d with
  | nil => exact ⟨t, rfl, hs, Progress.rfl' t, fun _ _ => rfl, hp⟩
  | cons l ls ih =>
    obtain ⟨t1, h1, h2, h3, h4, h5⟩ := slicedRelax_inv laws hnn hs hp hb (by rw [hbr]; exact hr) pref gref hpref l
      (by rw [hbr]; exact hls l (by simp))
    have hg := h3.grew
    obtain ⟨t2, g1, g2, g3, g4, g5⟩ := ih (fun l' hl' => hls l' (by simp [hl'])) h2 h5 (by omega)
      (by rw [h4 b hb, hbr]) (by
        intro hp
        obtain ⟨k, k1, k2⟩ := hpref hp
        exact ⟨k, by omega, by rw [h4 k k1, k2]⟩)
    refine ⟨t2, ?_, ?_, h3.trans g3, ?_, g5⟩
    · rw [List.foldlM_cons, ← hbr, h1]
      rw [hbr]
      exact g1
    · rw [List.map_cons, List.reverse_cons, List.append_assoc]
      exact g2
    · intro i hi
      rw [g4 i (by omega), h4 i hi]

/-- Spec: links lead from valid polygons to valid ones (what C44 says of a mesh built with `AddTile` and `RemoveTile`). -/
def LinksValid (e : RayEnv P C) : Prop := ∀ a, e.valid a = true → ∀ l ∈ e.links a, l.1 ≠ 0#32 → e.valid l.1 = true

theorem reach_valid {e : RayEnv P C} (hv : LinksValid e) {a b : Ref} (ha : e.valid a = true)
    (h : Relation.ReflTransGen (Edge (flatEnv e)) a b) : e.valid b = true := by
  rw [flat_edge_eq] at h
  induction h with
  | refl => exact ha
  | tail _ hE ih =>
    obtain ⟨sd, h1, h2, _⟩ := hE
    exact hv _ ih _ h1 h2

/-- One iteration. -/
theorem sliceStep_inv {e : RayEnv P C} (laws : CostLaws C) (hnn : (flatEnv e).NonNeg) (hlv : LinksValid e) {q : Query P}
    (hv : e.valid q.start = true) {mx : Nat} {t : Search P C} (hs : SInv (flatEnv e) q mx none t) (hp : Plain t.pool)
    (hne : t.heap.size ≠ 0) :
    (∃ b h, b < t.pool.count ∧ (t.pool.nodes b).id = q.goal ∧
      sliceStep e (ofSearch q t) = .stop { ofSearch q t with pool := markClosed t.pool b, heap := h, best := some b, status := completed (ofSearch q t).status }) ∨
    (∃ t', sliceStep e (ofSearch q t) = .more (ofSearch q t') ∧ SInv (flatEnv e) q mx none t' ∧ Plain t'.pool ∧
      t.pool.count ≤ t'.pool.count ∧
      (t'.pool.count = t.pool.count → ∀ i, (t'.pool.nodes i).total ≤ (t.pool.nodes i).total) ∧
      (t'.pool.count = t.pool.count →
        (∀ i, i < t.pool.count → (t'.pool.nodes i).total = (t.pool.nodes i).total) → t'.heap.size < t.heap.size)) := by
  obtain ⟨b, h, p1, _⟩ := pop_spec hs.heap hne
  obtain ⟨c1, c2, c3, c4, c5⟩ := close_inv hs p1
  unfold sliceStep
  have e1 : (ofSearch q t).heap = t.heap := rfl
  have e2 : (ofSearch q t).pool = t.pool := rfl
  have e3 : (ofSearch q t).q = q := rfl
  rw [e1, e2, p1]
  dsimp only
  rw [e3]
  by_cases hg : ((markClosed t.pool b).nodes b).id = q.goal
  · rw [if_pos hg]
    exact .inl ⟨b, h, c1, by rw [← (c3 b).1]; exact hg, rfl⟩
  · rw [if_neg hg]
    right
    have hg' : (t.pool.nodes b).id ≠ q.goal := by rw [← (c3 b).1]; exact hg
    have hs1 := c5 hg'
    have hval : ∀ k, k < t.pool.count → e.valid (t.pool.nodes k).id = true := fun k hk => reach_valid hlv hv (hs.reach hk)
    have hval' : ∀ k, k < t.pool.count → e.valid ((markClosed t.pool b).nodes k).id = true := by
      intro k hk
      rw [(c3 k).1]
      exact hval k hk
    have hpv : ∀ k, k < t.pool.count → parentRef (markClosed t.pool b) k ≠ 0#32 → e.valid (parentRef (markClosed t.pool b) k) = true := by
      intro k hk h0
      obtain ⟨j, j1, j2⟩ := parentRef_live hs1 hk h0
      rw [← j2]
      exact hval' j j1
    rw [if_neg (by rw [hval' b c1]; simp)]
    rw [if_neg (by
      rintro ⟨h1, h2 | ⟨h2, h3⟩⟩
      · rw [hpv b c1 h1] at h2; simp at h2
      · unfold grandpaRef at h2 h3
        cases hj : nodeAtIdx ((markClosed t.pool b).nodes b).pidx with
        | none => rw [hj] at h2; exact h2 rfl
        | some j =>
          rw [hj] at h2 h3
          dsimp only at h2 h3
          have hjl : j < t.pool.count := by
            by_cases hb0 : b = 0
            · subst hb0
              have := hs1.root.2.2.1
              simp only at this
              rw [this] at hj
              simp [nodeAtIdx] at hj
            · obtain ⟨k, k1, k2, _⟩ := hs1.parent b c1 hb0
              simp only at k2
              rw [k2] at hj
              simp only [nodeAtIdx, Option.some.injEq] at hj
              rw [← hj]; exact k1
          rw [hpv j hjl h2] at h3
          simp at h3)]
    have hany : (ofSearch q t).any = false := rfl
    rw [hany]
    simp only [Bool.false_and, Bool.false_eq_true, if_false]
    have hcl : Plain (markClosed t.pool b) := by
      intro i hi
      unfold markClosed Pool.write
      simp only
      by_cases hib : i = b
      · subst hib; rw [upd_same]; exact hp i hi
      · rw [upd_ne _ _ hib]; exact hp i hi
    obtain ⟨t', r1, r2, r3, r4, r5⟩ := slicedRelaxAll_inv laws hnn hg (parentRef (markClosed t.pool b) b) (grandpaRef (markClosed t.pool b) b)
      ((e.links ((markClosed t.pool b).nodes b).id).map (·.1))
      (by
        intro l hl
        obtain ⟨x, hx, rfl⟩ := List.mem_map.1 hl
        exact List.mem_map.2 ⟨x, hx, rfl⟩) hs1 hcl c1 rfl (fun hp => parentRef_live hs1 c1 hp)
    rw [show (⟨q, false, (ofSearch q t).status, (ofSearch q t).best, (ofSearch q t).bestCost, markClosed t.pool b, h⟩ : Sliced P C) =
      ofSearch q { t with pool := markClosed t.pool b, heap := h } from rfl, r1]
    refine ⟨t', rfl, ?_, r5, r3.grew, fun hc i => ?_, fun hc ht => ?_⟩
    · refine { r2 with exp := ?_ }
      intro i hi hcl l hl _
      apply r2.exp i hi hcl l hl
      intro d hd
      simp only [Option.some.injEq, Prod.mk.injEq, List.append_nil] at hd
      obtain ⟨rfl, rfl⟩ := hd
      rw [List.mem_reverse]
      have := r4 b c1
      simp only at this
      rw [this] at hl
      obtain ⟨x, hx, rfl⟩ := List.mem_map.1 hl
      exact List.mem_map.2 ⟨x.1, List.mem_map.2 ⟨x, hx, rfl⟩, rfl⟩
    · rw [← (c3 i).2.1]
      exact r3.down hc i
    · have := r3.same hc (fun i hi => by
        simp only
        rw [ht i hi, (c3 i).2.1])
      simp only at this
      omega

/-! ## Any number of iterations -/

/-- A point of the search: `t` is a search of `FindPath` with the nodes of `s`, and `b` the node the path is traced back from. -/
structure Snap (e : RayEnv P C) (q : Query P) (mx : Nat) (s : Sliced P C) (t : Search P C) (b : Nat) : Prop where
  inv : SInv (flatEnv e) q mx none t
  plain : Plain t.pool
  query : s.q = q
  count : s.pool.count = t.pool.count
  max : s.pool.maxNodes = t.pool.maxNodes
  hash : s.pool.hashSize = t.pool.hashSize ∧ s.pool.first = t.pool.first ∧ s.pool.next = t.pool.next
  nodes : ∀ i, (s.pool.nodes i).id = (t.pool.nodes i).id ∧ (s.pool.nodes i).pidx = (t.pool.nodes i).pidx ∧
    (s.pool.nodes i).detached = (t.pool.nodes i).detached
  best : s.best = some b
  live : b < t.pool.count
  /-- running, or the goal was found, or nothing is left to do -/
  stage : (s = ofSearch q t ∧ b = t.best) ∨
    ((s.status = completed (ofSearch q t).status) ∧ (t.pool.nodes b).id = q.goal) ∨
    ((s.status = completed (ofSearch q t).status) ∧ b = t.best ∧ t.heap.size = 0)

theorem Snap.running {e : RayEnv P C} {q : Query P} {mx : Nat} {t : Search P C} (hs : SInv (flatEnv e) q mx none t) (hp : Plain t.pool) :
    Snap e q mx (ofSearch q t) t t.best :=
  ⟨hs, hp, rfl, rfl, rfl, ⟨rfl, rfl, rfl⟩, fun _ => ⟨rfl, rfl, rfl⟩, rfl, hs.best.1, .inl ⟨rfl, rfl⟩⟩

theorem sliceLoop_snap {e : RayEnv P C} (laws : CostLaws C) (hnn : (flatEnv e).NonNeg) (hlv : LinksValid e) {q : Query P}
    (hv : e.valid q.start = true) {mx : Nat} : ∀ (n : Nat) {t : Search P C}, SInv (flatEnv e) q mx none t → Plain t.pool →
    ∃ k st s, sliceLoop e n (ofSearch q t) = some (k, st, s) ∧ ∃ t' b, Snap e q mx s t' b ∧ (st = false → s = ofSearch q t') ∧
      (st = true → s.status = completed (ofSearch q t').status ∧ (t'.pool.nodes b).id = q.goal)
  | 0, t, hs, hp => ⟨0, false, _, rfl, t, t.best, Snap.running hs hp, fun _ => rfl, by simp⟩
  | n + 1, t, hs, hp => by
    rw [sliceLoop]
    by_cases h0 : (ofSearch q t).heap.size = 0
    · rw [if_pos h0]
      exact ⟨0, false, _, rfl, t, t.best, Snap.running hs hp, fun _ => rfl, by simp⟩
    rw [if_neg h0]
    rcases sliceStep_inv laws hnn hlv hv hs hp h0 with ⟨b, h, b1, b2, b3⟩ | ⟨t', b1, b2, b3, _⟩
    · rw [b3]
      refine ⟨1, true, _, rfl, t, b, ⟨hs, hp, rfl, rfl, rfl, ⟨rfl, rfl, rfl⟩, ?_, rfl, b1, .inr (.inl ⟨rfl, b2⟩)⟩, by simp, fun _ => ⟨rfl, b2⟩⟩
      intro i
      unfold markClosed Pool.write
      simp only [upd]
      split
      · rename_i hib; subst hib; exact ⟨rfl, rfl, rfl⟩
      · exact ⟨rfl, rfl, rfl⟩
    · rw [b1]
      obtain ⟨k, st, s, l1, l2⟩ := sliceLoop_snap laws hnn hlv hv n b2 b3
      exact ⟨k + 1, st, s, by dsimp only; rw [l1]; rfl, l2⟩

theorem ofSearch_running (q : Query P) (t : Search P C) : (ofSearch q t).status.isInProgress = true := by
  unfold ofSearch
  dsimp only
  cases t.outOfNodes <;> decide

/-- An update from a running search leads to a point of the search. -/
theorem sliceUpdate_snap {e : RayEnv P C} (laws : CostLaws C) (hnn : (flatEnv e).NonNeg) (hlv : LinksValid e) {q : Query P}
    (hv : e.valid q.start = true) (hv2 : e.valid q.goal = true) {mx : Nat} (n : Nat) {t : Search P C}
    (hs : SInv (flatEnv e) q mx none t) (hp : Plain t.pool) :
    ∃ k s t' b, sliceUpdate e n (ofSearch q t) = some (some k, s) ∧ Snap e q mx s t' b := by
  unfold sliceUpdate
  rw [if_neg (by rw [ofSearch_running]; simp), if_neg (by
    show ¬ (e.valid q.start = false ∨ e.valid q.goal = false)
    rw [hv, hv2]; simp)]
  obtain ⟨k, st, s, l1, t', b, l2, l3, l4⟩ := sliceLoop_snap laws hnn hlv hv n hs hp
  rw [l1]
  cases st with
  | true => exact ⟨k, s, t', b, rfl, l2⟩
  | false =>
    dsimp only
    unfold exhausted
    have hse := l3 rfl
    subst hse
    by_cases h0 : (ofSearch q t').heap.size = 0
    · rw [if_pos h0]
      exact ⟨k, _, t', t'.best, rfl, l2.inv, l2.plain, rfl, rfl, rfl, ⟨rfl, rfl, rfl⟩, fun _ => ⟨rfl, rfl, rfl⟩, rfl, l2.inv.best.1,
        .inr (.inr ⟨rfl, rfl, h0⟩)⟩
    · rw [if_neg h0]
      exact ⟨k, _, t', b, rfl, l2⟩

/-- Enough iterations finish the search. -/
theorem sliceLoop_terminates [WellFoundedLT C] {e : RayEnv P C} (laws : CostLaws C) (hnn : (flatEnv e).NonNeg) (hlv : LinksValid e)
    {q : Query P} (hv : e.valid q.start = true) {mx : Nat} {t : Search P C} (hs : SInv (flatEnv e) q mx none t) (hp : Plain t.pool) :
    ∃ n k st s, sliceLoop e n (ofSearch q t) = some (k, st, s) ∧ (st = true ∨ s.heap.size = 0) := by
  have key : ∀ (k : Nat) (tt : Fin mx → C) (sz : Nat) (t : Search P C), SInv (flatEnv e) q mx none t → Plain t.pool →
      mx - t.pool.count = k → (fun i : Fin mx => (t.pool.nodes i).total) = tt → t.heap.size = sz →
      ∃ n k st s, sliceLoop e n (ofSearch q t) = some (k, st, s) ∧ (st = true ∨ s.heap.size = 0) := by
    intro k
    induction k using Nat.strong_induction_on with
    | _ k ihk =>
      intro tt
      induction tt using WellFoundedLT.induction with
      | _ tt iht =>
        intro sz
        induction sz using Nat.strong_induction_on with
        | _ sz ihz =>
          intro t hs hp hk ht hz
          by_cases h0 : t.heap.size = 0
          · exact ⟨0, 0, false, _, rfl, .inr h0⟩
          rcases sliceStep_inv laws hnn hlv hv hs hp h0 with ⟨b, h, b1, b2, b3⟩ | ⟨t', e1, e2, ep, e3, e4, e5⟩
          · exact ⟨1, 1, true, _, by rw [sliceLoop, if_neg (by exact h0), b3], .inl rfl⟩
          · have hmx : t'.pool.count ≤ mx := by
              have := e2.pool.count
              rw [e2.max] at this
              exact this
            have hnext : ∃ n k st s, sliceLoop e n (ofSearch q t') = some (k, st, s) ∧ (st = true ∨ s.heap.size = 0) := by
              by_cases hc : t'.pool.count = t.pool.count
              · by_cases hall : ∀ i : Fin mx, (t'.pool.nodes i).total = (t.pool.nodes i).total
                · have hlt : t'.heap.size < sz := by
                    rw [← hz]
                    exact e5 hc fun i hi => hall ⟨i, by omega⟩
                  exact ihz _ hlt t' e2 ep (by omega) (by rw [← ht]; funext i; exact hall i) rfl
                · have hlt : (fun i : Fin mx => (t'.pool.nodes i).total) < tt := by
                    rw [← ht]
                    rw [Pi.lt_def]
                    refine ⟨fun i => e4 hc i, ?_⟩
                    simp only [not_forall] at hall
                    obtain ⟨i, hi⟩ := hall
                    exact ⟨i, lt_of_le_of_ne (e4 hc i) hi⟩
                  exact iht _ hlt _ t' e2 ep (by omega) rfl rfl
              · exact ihk _ (by omega) _ _ t' e2 ep rfl rfl rfl
            obtain ⟨n, k, st, s, f1, f2⟩ := hnext
            exact ⟨n + 1, k + 1, st, s, by rw [sliceLoop, if_neg (by exact h0), e1]; dsimp only; rw [f1]; rfl, f2⟩
  exact key _ _ _ t hs hp rfl rfl rfl

/-! ## Reading the path back -/

theorem reverseLoop_eq : ∀ (l acc : List Nat) (f : Nat) (prev : Option Nat) (c : Nat) (p : Pool P C),
    Chain (par p) (some c) l → Chain (par p) prev acc → (∀ a ∈ l, a ∉ acc) → l.length ≤ f →
    (∀ a ∈ l, (p.nodes a).detached = false) → (∀ a ∈ acc, (p.nodes a).detached = false) →
    ∃ p' last, reverseLoop f prev false c p = some (p', last) ∧ Chain (par p') (some last) (l.reverse ++ acc) ∧
      (∀ i, (p'.nodes i).id = (p.nodes i).id) ∧ p'.maxNodes = p.maxNodes ∧
      ∀ a ∈ l.reverse ++ acc, (p'.nodes a).detached = false := by
  intro l
  induction l with
  | nil => intro acc f prev c p h; simp [Chain] at h
  | cons x l ih =>
    intro acc f prev c p hl ha hd hf h1 h2
    cases f with
    | zero => simp at hf
    | succ f =>
    obtain ⟨hx, hl⟩ := hl
    simp only [Option.some.injEq] at hx
    subst hx
    rw [reverseLoop]
    dsimp only
    generalize hp' : p.write c { p.nodes c with pidx := nodeIdx prev, detached := false } = p'
    have hpar : par p' = upd (par p) c prev := by
      rw [← hp']
      funext i
      unfold par Pool.write
      dsimp only
      by_cases hi : i = c
      · subst hi
        rw [upd_same, upd_same]
        cases prev <;> rfl
      · rw [upd_ne _ _ hi, upd_ne _ _ hi]
    have hids : ∀ i, (p'.nodes i).id = (p.nodes i).id := by
      intro i
      rw [← hp']
      unfold Pool.write
      dsimp only [upd]
      split
      · rename_i hi; subst hi; rfl
      · rfl
    have hdet : ∀ i, i = c ∨ (p.nodes i).detached = false → (p'.nodes i).detached = false := by
      intro i hi
      rw [← hp']
      unfold Pool.write
      dsimp only [upd]
      split
      · rfl
      · rename_i hn
        exact hi.resolve_left hn
    have hmax : p'.maxNodes = p.maxNodes := by rw [← hp']; rfl
    have hcl : c ∉ l := by
      have : Chain (par p) (some c) (c :: l) := ⟨rfl, hl⟩
      exact (List.nodup_cons.1 this.nodup).1
    have hca : c ∉ acc := hd c (by simp)
    have hacc : Chain (par p') (some c) (c :: acc) := by
      refine ⟨rfl, ?_⟩
      rw [hpar, upd_same]
      exact ha.upd_notMem hca
    cases hn : par p c with
    | none =>
      rw [hn] at hl
      rw [Chain.none_iff.1 hl]
      refine ⟨p', c, rfl, ?_, hids, hmax, ?_⟩
      · simpa using hacc
      · intro a haa
        simp only [List.reverse_cons, List.reverse_nil, List.nil_append, List.singleton_append, List.mem_cons] at haa
        rcases haa with rfl | haa
        · exact hdet _ (.inl rfl)
        · exact hdet _ (.inr (h2 a haa))
    | some c' =>
      rw [hn] at hl
      obtain ⟨p2, last, r1, r2, r3, r4, r5⟩ := ih (c :: acc) f (some c) c' p' (by rw [hpar]; exact hl.upd_notMem hcl) hacc
        (by
          intro a hal hac
          rcases List.mem_cons.1 hac with rfl | hac
          · exact hcl hal
          · exact hd a (by simp [hal]) hac)
        (by simpa using hf)
        (fun a hal => hdet a (.inr (h1 a (by simp [hal]))))
        (by
          intro a hac
          rcases List.mem_cons.1 hac with rfl | hac
          · exact hdet _ (.inl rfl)
          · exact hdet _ (.inr (h2 a hac)))
      rw [h1 c (by simp)]
      refine ⟨p2, last, r1, ?_, fun i => (r3 i).trans (hids i), r4.trans hmax, ?_⟩
      · rw [List.reverse_cons, List.append_assoc]
        exact r2
      · rw [List.reverse_cons, List.append_assoc]
        exact r5

theorem storeLoop_eq (e : RayEnv P C) (p : Pool P C) (cap : Nat) : ∀ (l : List Nat) (f c : Nat) (path : List Ref) (st : Status),
    Chain (par p) (some c) l → l.length ≤ f → (∀ a ∈ l, (p.nodes a).detached = false) → path.length < cap →
    storeLoop e p cap f c path st = some (path ++ (l.map fun i => (p.nodes i).id).take (cap - path.length),
      if cap ≤ path.length + l.length then st ||| Status.bufferTooSmall else st) := by
  intro l
  induction l with
  | nil => intro f c path st h; simp [Chain] at h
  | cons x l ih =>
    intro f c path st hl hf hd hc
    cases f with
    | zero => simp at hf
    | succ f =>
    obtain ⟨hx, hl⟩ := hl
    simp only [Option.some.injEq] at hx
    subst hx
    rw [storeLoop, storeNode, if_neg (by rw [hd c (by simp)]; simp), if_neg (by omega)]
    dsimp only
    obtain ⟨m, hm⟩ : ∃ m, cap - path.length = m + 1 := ⟨cap - path.length - 1, by omega⟩
    rw [hm, List.map_cons, List.take_succ_cons]
    by_cases hfull : cap ≤ path.length + 1
    · rw [if_pos hfull, if_pos (by decide), if_pos (by simp only [List.length_cons]; omega)]
      have : m = 0 := by omega
      subst this
      rw [show Status.bufferTooSmall &&& Status.detailMask = Status.bufferTooSmall by decide]
      simp
    · rw [if_neg hfull, if_neg (by decide)]
      cases hn : par p c with
      | none =>
        rw [hn] at hl
        rw [Chain.none_iff.1 hl]
        simp only [List.map_nil, List.take_nil, List.length_cons, List.length_nil]
        rw [if_neg (by omega)]
      | some c' =>
        rw [hn] at hl
        dsimp only
        rw [ih f c' _ st hl (by simpa using hf) (fun a ha => hd a (by simp [ha])) (by simp; omega)]
        simp only [List.length_append, List.length_cons, List.length_nil, List.append_assoc, List.singleton_append]
        rw [show cap - (path.length + (0 + 1)) = m by omega]
        congr 2
        congr 1
        simp only [eq_iff_iff]
        omega

theorem status_final (c1 c2 c3 done : Bool) :
    (let st := if done = true then completed (Status.inProgress ||| (if c3 = true then Status.outOfNodes else 0#32))
        else Status.inProgress ||| (if c3 = true then Status.outOfNodes else 0#32)
     let st := if c2 = true then st ||| Status.partialResult else st
     completed (if c1 = true then st ||| Status.bufferTooSmall else st)) = pathStatus c1 c2 c3 := by
  cases c1 <;> cases c2 <;> cases c3 <;> cases done <;> decide

theorem Snap.not_failed {e : RayEnv P C} {q : Query P} {mx : Nat} {s : Sliced P C} {t : Search P C} {b : Nat} (h : Snap e q mx s t b) :
    ∃ done : Bool, s.status = if done = true then completed (Status.inProgress ||| (if t.outOfNodes = true then Status.outOfNodes else 0#32))
        else Status.inProgress ||| (if t.outOfNodes = true then Status.outOfNodes else 0#32) := by
  rcases h.stage with ⟨h1, _⟩ | ⟨h1, _⟩ | ⟨h1, _⟩
  · exact ⟨false, by rw [h1]; rfl⟩
  · exact ⟨true, by rw [h1]; rfl⟩
  · exact ⟨true, by rw [h1]; rfl⟩

theorem slice_failed (c done : Bool) :
    ((if done = true then completed (Status.inProgress ||| (if c = true then Status.outOfNodes else 0#32))
        else Status.inProgress ||| (if c = true then Status.outOfNodes else 0#32)) : Status).failed = false := by
  cases c <;> cases done <;> decide

/-- Tracing back from any visited node. -/
theorem Snap.trace {e : RayEnv P C} {q : Query P} {mx : Nat} {s : Sliced P C} {t : Search P C} {b : Nat} (h : Snap e q mx s t b)
    (z : P) {a : Nat} (ha : a < t.pool.count) :
    ∃ full : List Ref, Corridor e.toEnv q.start full ∧ full.getLast? = some (t.pool.nodes a).id ∧ full.length ≤ mx ∧
      (∀ r ∈ full, ∃ i, i < t.pool.count ∧ (t.pool.nodes i).id = r) ∧
      ∀ cap, 0 < cap → ∀ part : Bool, ∃ s', traceBack e s z a cap (if part = true then s.status ||| Status.partialResult else s.status) =
        some (full.take cap, pathStatus (decide (cap ≤ full.length)) part t.outOfNodes, s') := by
  obtain ⟨l, c1, c2⟩ := h.inv.chain a ha
  obtain ⟨t1, t2⟩ := trace_corridor h.inv c1 c2
  have hpar : par s.pool = par t.pool := by
    funext i
    unfold par
    rw [(h.nodes i).2.1]
  have hlen : l.length ≤ mx := by
    rw [← h.inv.max]
    exact Nat.le_trans (c1.length_le c2) h.inv.pool.count
  have hdet : ∀ i ∈ l, (s.pool.nodes i).detached = false := by
    intro i hi
    rw [(h.nodes i).2.2]
    exact h.plain i (c2 i hi)
  have hmx : s.pool.maxNodes = mx := h.max.trans h.inv.max
  obtain ⟨p', last, r1, r2, r3, r4, r5⟩ := reverseLoop_eq l [] s.pool.maxNodes none a s.pool (by rw [hpar]; exact c1)
    (Chain.none_iff.2 rfl) (by simp) (by rw [hmx]; exact hlen) hdet (by simp)
  rw [List.append_nil] at r2 r5
  have hids : (l.reverse.map fun i => (p'.nodes i).id) = (l.map fun i => (t.pool.nodes i).id).reverse := by
    rw [List.map_reverse]
    congr 1
    apply List.map_congr_left
    intro i _
    rw [r3, (h.nodes i).1]
  refine ⟨(l.map fun i => (t.pool.nodes i).id).reverse, ?_, t2, by simpa using hlen, ?_, ?_⟩
  · unfold Corridor at t1 ⊢
    rw [flat_edge_eq] at t1
    exact t1
  · intro r hr
    simp only [List.mem_reverse, List.mem_map] at hr
    obtain ⟨i, hi, rfl⟩ := hr
    exact ⟨i, c2 i hi, rfl⟩
  · intro cap hcap part
    refine ⟨s.wiped z p', ?_⟩
    unfold traceBack
    rw [r1, Option.bind_some]
    rw [storeLoop_eq e p' cap l.reverse s.pool.maxNodes last [] _ r2 (by rw [hmx]; simpa using hlen) r5 (by simpa using hcap)]
    simp only [List.nil_append, List.length_nil, Nat.sub_zero, Nat.zero_add, Option.map_some, hids]
    congr 3
    obtain ⟨done, hd⟩ := h.not_failed
    rw [← status_final _ _ _ done, hd]
    simp only [List.length_reverse, List.length_map, decide_eq_true_eq]

/-- Finalizing at any point of the search. -/
theorem Snap.final {e : RayEnv P C} {q : Query P} {mx : Nat} {s : Sliced P C} {t : Search P C} {b : Nat} (h : Snap e q mx s t b)
    (hne : q.start ≠ q.goal) (z : P) :
    ∃ full : List Ref, Corridor e.toEnv q.start full ∧ full.getLast? = some (t.pool.nodes b).id ∧ full.length ≤ mx ∧
      (∀ r ∈ full, ∃ i, i < t.pool.count ∧ (t.pool.nodes i).id = r) ∧
      ∀ cap, 0 < cap → ∃ s', sliceFinal e s z cap =
        some (full.take cap, pathStatus (decide (cap ≤ full.length)) (decide ((t.pool.nodes b).id ≠ q.goal)) t.outOfNodes, s') := by
  obtain ⟨full, f1, f2, f3, f4, f5⟩ := h.trace z h.live
  refine ⟨full, f1, f2, f3, f4, fun cap hcap => ?_⟩
  obtain ⟨s', hs'⟩ := f5 cap hcap (decide ((t.pool.nodes b).id ≠ q.goal))
  refine ⟨s', ?_⟩
  unfold sliceFinal
  obtain ⟨done, hd⟩ := h.not_failed
  rw [if_neg (by rw [hd, slice_failed]; simp), if_neg (by rw [h.query]; exact hne), h.best]
  dsimp only
  rw [← hs', (h.nodes b).1, h.query]
  simp only [decide_eq_true_eq]

/-- Hypotheses shared by the theorems on the sliced search: those of `FindPath`, valid distinct end points, and links that lead to
valid polygons (as `AddTile` and `RemoveTile` keep them). -/
structure SliceSetting (e : RayEnv P C) (q : Query P) (p : Pool P C) (h : Heap) (mx : Nat) : Prop where
  base : Setting (flatEnv e) p h mx
  links : LinksValid e
  start : e.valid q.start = true
  goal : e.valid q.goal = true
  zero : e.valid 0#32 = false
  ne : q.start ≠ q.goal

theorem sliceInit_snap {e : RayEnv P C} {q : Query P} {p : Pool P C} {h : Heap} {mx : Nat} (hs : SliceSetting e q p h mx) (c0 : C) :
    ∃ t, sliceInit e q false c0 p h = some (Status.inProgress, ofSearch q t) ∧ SInv (flatEnv e) q mx none t ∧ Plain t.pool := by
  obtain ⟨t, i1, i2⟩ := initSearch_inv (e := flatEnv e) hs.base.laws hs.ne hs.base.obj
  have hi : initSearch e.toEnv q p h = some t := i1
  have hz : ∀ r, e.valid r = true → r ≠ 0#32 := by
    intro r hr h0
    rw [h0, hs.zero] at hr
    simp at hr
  have hoon : t.outOfNodes = false ∧ Plain t.pool := by
    have hcl : PoolInv p.clear := clear_inv hs.base.obj.hash hs.base.obj.hash' (by rw [hs.base.obj.max]; exact hs.base.obj.max1)
    have hc0 : p.clear.count = 0 := rfl
    unfold initSearch at hi
    rcases node_cases hcl (q.start, 0#8) with ⟨i, h1, h2, h3⟩ | ⟨h1, h2, h3⟩ | ⟨p1, h1, h2, h3, h4, h5, h6, h7, h8⟩
    · omega
    · rw [h1] at hi
      simp at hi
    · rw [h1] at hi
      dsimp only at hi
      split at hi
      · cases hi
      cases hi
      refine ⟨rfl, fun i hi => ?_⟩
      have hi : i < p1.count := hi
      rw [h5, hc0] at hi
      obtain rfl : i = 0 := by omega
      show (upd p1.nodes p.clear.count _ 0).detached = false
      rw [hc0, upd_same]
      rfl
  refine ⟨t, ?_, i2, hoon.2⟩
  unfold sliceInit
  rw [if_neg (by
    simp only [not_or]
    exact ⟨hz _ hs.start, hz _ hs.goal, by rw [hs.start]; simp, by rw [hs.goal]; simp⟩), if_neg hs.ne, hi]
  unfold ofSearch
  rw [hoon.1]
  simp

/-- Every way of slicing leads to a point of the search. -/
theorem sliceRun_snap {e : RayEnv P C} {q : Query P} {p : Pool P C} {h : Heap} {mx : Nat} (hs : SliceSetting e q p h mx) (c0 : C)
    (ns : List Nat) : ∃ s1 k s t b, sliceInit e q false c0 p h = some (Status.inProgress, s1) ∧ sliceRun e ns s1 = some (k, s) ∧
      Snap e q mx s t b := by
  obtain ⟨t, i1, i2, i3⟩ := sliceInit_snap hs c0
  cases ns with
  | nil => exact ⟨_, 0, _, t, t.best, i1, rfl, Snap.running i2 i3⟩
  | cons n ns =>
    obtain ⟨k, s, t', b, u1, u2⟩ := sliceUpdate_snap hs.base.laws hs.base.nonneg hs.links hs.start hs.goal ((n :: ns).sum) i2 i3
    exact ⟨_, k, s, t', b, i1, by rw [slice_any, u1]; rfl, u2⟩

/-- Enough iterations, however sliced, end the search. -/
theorem sliceRun_done [WellFoundedLT C] {e : RayEnv P C} {q : Query P} {p : Pool P C} {h : Heap} {mx : Nat}
    (hs : SliceSetting e q p h mx) (c0 : C) :
    ∃ N s1, sliceInit e q false c0 p h = some (Status.inProgress, s1) ∧
      ∀ ns : List Nat, ns ≠ [] → N ≤ ns.sum → ∃ k s, sliceRun e ns s1 = some (k, s) ∧ s.status.isInProgress = false := by
  obtain ⟨t, i1, i2, i3⟩ := sliceInit_snap hs c0
  obtain ⟨N, k, st, s, l1, l2⟩ := sliceLoop_terminates hs.base.laws hs.base.nonneg hs.links hs.start i2 i3
  refine ⟨N, _, i1, fun ns h0 hN => ?_⟩
  cases ns with
  | nil => simp at h0
  | cons n ns =>
    rw [slice_any]
    generalize (n :: ns).sum = m at hN ⊢
    obtain ⟨d, rfl⟩ := Nat.exists_eq_add_of_le hN
    unfold sliceUpdate
    rw [if_neg (by rw [ofSearch_running]; simp), if_neg (by
      show ¬ (e.valid q.start = false ∨ e.valid q.goal = false)
      rw [hs.start, hs.goal]; simp), sliceLoop_add, l1]
    cases st with
    | true => exact ⟨k, s, by simp, (sliceLoop_kept N l1).2 rfl⟩
    | false =>
      have h0 := l2.resolve_left (by simp)
      simp only [Option.bind_some, Bool.false_eq_true, if_false]
      rw [sliceLoop_empty e d s h0]
      refine ⟨k + 0, exhausted s, by simp, ?_⟩
      unfold exhausted
      rw [if_pos h0]
      exact completed_done _

/-! ## Properties -/

/-- **C108**: without the any-angle option, whatever the slicing and whenever it is finalized, the search neither panics nor
fails: there is a corridor `full` from the start polygon, at most as long as the pool is large, of which the buffer receives
the first polygons. `PartialResult` is set exactly when `full` does not end at the end polygon. -/
theorem slice_corridor {e : RayEnv P C} {q : Query P} {p : Pool P C} {h : Heap} {mx : Nat} (hs : SliceSetting e q p h mx) (c0 : C) (z : P)
    (ns : List Nat) : ∃ (s1 : Sliced P C) (k : Nat) (s : Sliced P C) (full : List Ref), sliceInit e q false c0 p h = some (Status.inProgress, s1) ∧ sliceRun e ns s1 = some (k, s) ∧
      Corridor e.toEnv q.start full ∧ full.length ≤ mx ∧
      ∀ cap, 0 < cap → ∃ st s', sliceFinal e s z cap = some (full.take cap, st, s') ∧ st.failed = false ∧
        (st.detail Status.partialResult = false ↔ full.getLast? = some q.goal) := by
  obtain ⟨s1, k, s, t, b, h1, h2, h3⟩ := sliceRun_snap hs c0 ns
  obtain ⟨full, f1, f2, f3, f4, f5⟩ := h3.final hs.ne z
  refine ⟨s1, k, s, full, h1, h2, f1, f3, fun cap hc => ?_⟩
  obtain ⟨s', hs'⟩ := f5 cap hc
  refine ⟨_, s', hs', pathStatus_failed _ _ _, ?_⟩
  rw [pathStatus_partial, f2]
  simp

/-- **C108**: the search ends: from some number of iterations on, however they are sliced, the update reports a result, and then
the end polygon is found if it can be reached and the pool did not run out. -/
theorem slice_complete [WellFoundedLT C] {e : RayEnv P C} {q : Query P} {p : Pool P C} {h : Heap} {mx : Nat} (hs : SliceSetting e q p h mx)
    (c0 : C) (z : P) : ∃ N s1, sliceInit e q false c0 p h = some (Status.inProgress, s1) ∧
      ∀ ns : List Nat, ns ≠ [] → N ≤ ns.sum → ∃ k s, sliceRun e ns s1 = some (k, s) ∧ s.status.isInProgress = false ∧
        ∀ cap, 0 < cap → ∃ path st s', sliceFinal e s z cap = some (path, st, s') ∧
          (Relation.ReflTransGen (Edge e.toEnv) q.start q.goal → st.detail Status.outOfNodes = false →
            st.detail Status.partialResult = false) := by
  obtain ⟨N, s1, i1, hN⟩ := sliceRun_done hs c0
  refine ⟨N, s1, i1, fun ns h0 hle => ?_⟩
  obtain ⟨k, s, r1, r2⟩ := hN ns h0 hle
  refine ⟨k, s, r1, r2, fun cap hcap => ?_⟩
  obtain ⟨s1', k', s', t, b, h1, h2, h3⟩ := sliceRun_snap hs c0 ns
  rw [i1] at h1
  cases h1
  rw [r1] at h2
  cases h2
  obtain ⟨full, f1, f2, f3, f4, f5⟩ := h3.final hs.ne z
  obtain ⟨sw, hsw⟩ := f5 cap hcap
  refine ⟨_, _, sw, hsw, fun hreach hoon => ?_⟩
  rw [pathStatus_oon] at hoon
  rw [pathStatus_partial, decide_eq_false_iff_not, not_not]
  rcases h3.stage with ⟨g1, _⟩ | ⟨_, g2⟩ | ⟨_, _, g0⟩
  · rw [g1, ofSearch_running] at r2
    simp at r2
  · exact g2
  · exfalso
    rw [← flat_edge_eq] at hreach
    have key : ∀ b, Relation.ReflTransGen (Edge (flatEnv e)) q.start b → ∃ i, i < t.pool.count ∧ (t.pool.nodes i).id = b := by
      intro b hb
      induction hb with
      | refl => exact ⟨0, h3.inv.root.1, h3.inv.root.2.1⟩
      | tail _ hE ih =>
        obtain ⟨i, hi, rfl⟩ := ih
        obtain ⟨sd, e1, e2, e3⟩ := hE
        rcases h3.inv.exp i hi (h3.inv.all_closed g0 hi).1 _ e1 (by intro d hd; simp at hd) e2 e3 with hc | hk
        · rw [hoon] at hc; simp at hc
        · exact hk
    obtain ⟨i, hi, hid⟩ := key _ hreach
    exact (h3.inv.all_closed g0 hi).2 hid

/-- **C108**: a path that misses the end polygon, finalized at any moment, ends at the polygon with the smallest heuristic among
the visited ones; once the search is over these include all polygons that can be entered from a visited one, unless the pool
ran out. -/
theorem slice_partial_best {e : RayEnv P C} {q : Query P} {p : Pool P C} {h : Heap} {mx : Nat} (hs : SliceSetting e q p h mx)
    (c0 : C) (z : P) (ns : List Nat) {s1 s : Sliced P C} {k : Nat} (h1 : sliceInit e q false c0 p h = some (Status.inProgress, s1))
    (h2 : sliceRun e ns s1 = some (k, s)) {cap : Nat} {path : List Ref} {st : Status} {s' : Sliced P C}
    (hf : sliceFinal e s z cap = some (path, st, s')) (hcap : 0 < cap)
    (hfit : st.detail Status.bufferTooSmall = false) (hpart : st.detail Status.partialResult = true) :
    ∃ visited : List Ref, q.start ∈ visited ∧ path ⊆ visited ∧
      (∀ a ∈ visited, Relation.ReflTransGen (Edge e.toEnv) q.start a) ∧
      (s.status.isInProgress = false → st.detail Status.outOfNodes = false → ∀ a ∈ visited, ∀ b, Edge e.toEnv a b → b ∈ visited) ∧
      ∃ r x, path.getLast? = some r ∧ Entry (flatEnv e) q r x ∧
        ∀ a ∈ visited, a ≠ q.goal → ∃ y, Entry (flatEnv e) q a y ∧ e.heur x q.endPos ≤ e.heur y q.endPos := by
  obtain ⟨s1', k', s0, t, b, g1, g2, g3⟩ := sliceRun_snap hs c0 ns
  rw [h1] at g1
  cases g1
  rw [h2] at g2
  cases g2
  obtain ⟨full, f1, f2, f3, f4, f5⟩ := g3.final hs.ne z
  obtain ⟨sw, hsw⟩ := f5 cap hcap
  rw [hsw] at hf
  cases hf
  rw [pathStatus_tooSmall, decide_eq_false_iff_not] at hfit
  rw [pathStatus_partial, decide_eq_true_eq] at hpart
  rw [List.take_of_length_le (by omega)]
  have hbest : b = t.best := by
    rcases g3.stage with ⟨_, g⟩ | ⟨_, g⟩ | ⟨_, g, _⟩
    · exact g
    · exact absurd g hpart
    · exact g
  subst hbest
  have hmem : ∀ a, a ∈ (List.range t.pool.count).map (fun i => (t.pool.nodes i).id) ↔
      ∃ i, i < t.pool.count ∧ (t.pool.nodes i).id = a := by
    intro a
    simp [List.mem_map, List.mem_range]
  refine ⟨(List.range t.pool.count).map fun i => (t.pool.nodes i).id, ?_, ?_, ?_, ?_,
    (t.pool.nodes t.best).id, (t.pool.nodes t.best).pos, f2, g3.inv.pos _ g3.live, ?_⟩
  · exact (hmem _).2 ⟨0, g3.inv.root.1, g3.inv.root.2.1⟩
  · intro a ha
    exact (hmem _).2 (f4 a ha)
  · intro a ha
    obtain ⟨i, hi, rfl⟩ := (hmem _).1 ha
    rw [← flat_edge_eq]
    exact g3.inv.reach hi
  · intro hdone hoon a ha b hE
    rw [pathStatus_oon] at hoon
    have h0 : t.heap.size = 0 := by
      rcases g3.stage with ⟨g, _⟩ | ⟨_, g⟩ | ⟨_, _, g⟩
      · rw [g, ofSearch_running] at hdone
        simp at hdone
      · exact absurd g hpart
      · exact g
    rw [← flat_edge_eq] at hE
    obtain ⟨sd, e1, e2, e3⟩ := hE
    obtain ⟨i, hi, rfl⟩ := (hmem _).1 ha
    rcases g3.inv.exp i hi (g3.inv.all_closed h0 hi).1 _ e1 (by intro d hd; simp at hd) e2 e3 with hc | ⟨k, k1, k2⟩
    · rw [hoon] at hc; simp at hc
    · exact (hmem _).2 ⟨k, k1, k2⟩
  · intro a ha hag
    obtain ⟨i, hi, rfl⟩ := (hmem _).1 ha
    refine ⟨_, g3.inv.pos i hi, ?_⟩
    obtain ⟨b1, b2, b3⟩ := g3.inv.best
    have := b3 i hi
    rw [b2] at this
    unfold Verif.Detour.hpart at this
    rw [if_neg hag, if_neg hpart] at this
    exact this

/-- **C108**: from a valid polygon to itself the search is over at once; updates change nothing, and the path is this polygon. -/
theorem slice_same (e : RayEnv P C) (q : Query P) (any : Bool) (c0 : C) (p : Pool P C) (h : Heap) (z : P) (h0 : q.start ≠ 0#32)
    (hv : e.valid q.start = true) (hsame : q.start = q.goal) (ns : List Nat) (cap : Nat) (hcap : 0 < cap) :
    ∃ s, sliceInit e q any c0 p h = some (Status.success, s) ∧ sliceRun e ns s = some (0, s) ∧
      ∃ s', sliceFinal e s z cap = some ([q.start], Status.success, s') := by
  unfold sliceInit
  rw [if_neg (by rw [← hsame, hv]; simp [h0]), if_pos hsame]
  refine ⟨_, rfl, ?_, ?_⟩
  · induction ns with
    | nil => rfl
    | cons n ns ih =>
      rw [sliceRun, slice_done _ _ _ (by exact (by decide : Status.success.isInProgress = false)), Option.bind_some, ih]
      rfl
  · unfold sliceFinal
    rw [if_neg (by exact (by decide : ¬ (Status.success.failed = true))), if_pos hsame, if_neg (by omega)]
    exact ⟨_, congrArg (fun x => some ([q.start], x, _)) (by decide : completed Status.success = Status.success)⟩

/-- **C109**: `BufferTooSmall` of `FinalizeSlicedFindPath` is set exactly when the path fills the buffer or more. -/
theorem slice_tooSmall_partial {e : RayEnv P C} {q : Query P} {p : Pool P C} {h : Heap} {mx : Nat} (hs : SliceSetting e q p h mx) (c0 : C) (z : P)
    (ns : List Nat) : ∃ (s1 : Sliced P C) (k : Nat) (s : Sliced P C) (full : List Ref), sliceInit e q false c0 p h = some (Status.inProgress, s1) ∧ sliceRun e ns s1 = some (k, s) ∧
      ∀ cap, 0 < cap → ∃ st s', sliceFinal e s z cap = some (full.take cap, st, s') ∧
        st.detail Status.bufferTooSmall = decide (cap ≤ full.length) := by
  obtain ⟨s1, k, s, t, b, h1, h2, h3⟩ := sliceRun_snap hs c0 ns
  obtain ⟨full, f1, f2, f3, f4, f5⟩ := h3.final hs.ne z
  refine ⟨s1, k, s, full, h1, h2, fun cap hc => ?_⟩
  obtain ⟨s', hs'⟩ := f5 cap hc
  exact ⟨_, s', hs', pathStatus_tooSmall _ _ _⟩

/-- **C109**, refuted for every search and slicing: a buffer with exactly the room for the whole path is reported as too small. -/
theorem slice_exact_fit_refuted {e : RayEnv P C} {q : Query P} {p : Pool P C} {h : Heap} {mx : Nat} (hs : SliceSetting e q p h mx) (c0 : C) (z : P)
    (ns : List Nat) : ∃ (s1 : Sliced P C) (k : Nat) (s : Sliced P C) (full : List Ref), sliceInit e q false c0 p h = some (Status.inProgress, s1) ∧ sliceRun e ns s1 = some (k, s) ∧
      full ≠ [] ∧ (∃ st s', sliceFinal e s z (full.length + 1) = some (full, st, s')) ∧
      ∃ st s', sliceFinal e s z full.length = some (full, st, s') ∧ st.detail Status.bufferTooSmall = true := by
  obtain ⟨s1, k, s, t, b, h1, h2, h3⟩ := sliceRun_snap hs c0 ns
  obtain ⟨full, f1, f2, f3, f4, f5⟩ := h3.final hs.ne z
  have hne : full ≠ [] := by
    intro h0
    rw [h0] at f2
    simp at f2
  have hpos : 0 < full.length := List.length_pos_of_ne_nil hne
  refine ⟨s1, k, s, full, h1, h2, hne, ?_, ?_⟩
  · obtain ⟨s', hs'⟩ := f5 (full.length + 1) (by omega)
    exact ⟨_, s', by rw [hs', List.take_of_length_le (by omega)]⟩
  · obtain ⟨s', hs'⟩ := f5 full.length hpos
    refine ⟨_, s', by rw [hs', List.take_of_length_le (by omega)], ?_⟩
    rw [pathStatus_tooSmall]
    simp

/-- **C110**: after a failed search, or one that failed while it ran, `FinalizeSlicedFindPath` fails and writes nothing. -/
theorem slice_failed_partial (e : RayEnv P C) (s : Sliced P C) (z : P) (cap : Nat) (h : s.status.failed = true) :
    ∃ s', sliceFinal e s z cap = some ([], Status.failure, s') := by
  unfold sliceFinal
  rw [if_pos h]
  exact ⟨_, rfl⟩

/-- **C110**: a search with an invalid end point fails at once, whatever is called afterwards. -/
theorem slice_invalid_partial (e : RayEnv P C) (q : Query P) (any : Bool) (c0 : C) (p : Pool P C) (h : Heap) (z : P)
    (hv : e.valid q.start = false ∨ e.valid q.goal = false) (ns : List Nat) (cap : Nat) :
    ∃ s, sliceInit e q any c0 p h = some (Status.failure ||| Status.invalidParam, s) ∧ sliceRun e ns s = some (0, s) ∧
      ∃ s', sliceFinal e s z cap = some ([], Status.failure, s') := by
  unfold sliceInit
  rw [if_pos (.inr (.inr hv))]
  refine ⟨_, rfl, ?_, slice_failed_partial _ _ _ _ (by exact (by decide : Status.failure.failed = true))⟩
  induction ns with
  | nil => rfl
  | cons n ns ih =>
    rw [sliceRun, slice_done _ _ _ (by exact (by decide : Status.failure.isInProgress = false)), Option.bind_some, ih]
    rfl

/-- **C110**, refuted: finalizing twice (or without any search) succeeds with a path of one polygon, the null reference. -/
theorem slice_twice_refuted (e : RayEnv P C) (s s' : Sliced P C) (z : P) (cap cap' : Nat) (path : List Ref) (st : Status)
    (h : sliceFinal e s z cap = some (path, st, s')) (hc : 0 < cap') :
    ∃ s'', sliceFinal e s' z cap' = some ([0#32], Status.success, s'') := by
  have hw : ∃ p, s' = s.wiped z p := by
    unfold sliceFinal at h
    split at h
    · cases h; exact ⟨_, rfl⟩
    split at h
    · split at h
      · cases h
      · cases h; exact ⟨_, rfl⟩
    split at h
    · cases h
    · unfold traceBack at h
      obtain ⟨r, _, h2⟩ := Option.bind_eq_some_iff.1 h
      obtain ⟨o, _, h3⟩ := Option.map_eq_some_iff.1 h2
      cases h3
      exact ⟨_, rfl⟩
  obtain ⟨p, rfl⟩ := hw
  refine ⟨(s.wiped z p).wiped z p, ?_⟩
  unfold sliceFinal
  rw [if_neg (by exact (by decide : ¬ (Status.failed 0#32 = true))), if_pos (by rfl), if_neg (by omega)]
  exact congrArg (fun x => some ([0#32], x, (s.wiped z p).wiped z p)) (by decide : completed 0#32 = Status.success)

/-! ## Continuing an existing path -/

theorem findNodes_congr {p p' : Pool P C} (hh : p'.hashSize = p.hashSize) (hf : p'.first = p.first) (hn : p'.next = p.next)
    (hm : p'.maxNodes = p.maxNodes) (hi : ∀ i, (p'.nodes i).id = (p.nodes i).id) (r : Ref) (n : Nat) : p'.findNodes r n = p.findNodes r n := by
  unfold Pool.findNodes Pool.bucket
  rw [hh, hf, hn, hm]
  simp only [hi]

/-- `furthest` finds the first polygon of the list that has a node. -/
theorem furthest_spec {p : Pool P C} (hp : PoolInv p) : ∀ rs : List Ref,
    (furthest p rs = some none ∧ ∀ r ∈ rs, ∀ i, i < p.count → (p.nodes i).id ≠ r) ∨
    ∃ i pre r post, furthest p rs = some (some i) ∧ rs = pre ++ r :: post ∧ i < p.count ∧ (p.nodes i).id = r ∧
      ∀ r ∈ pre, ∀ i, i < p.count → (p.nodes i).id ≠ r
  | [] => .inl ⟨rfl, by simp⟩
  | r :: rs => by
    obtain ⟨l, h1, h2, h3⟩ := findNodes_spec hp r 1
    rw [furthest, h1]
    cases l with
    | cons i l =>
      have := (h3 i).1 (by simp)
      exact .inr ⟨i, [], r, rs, rfl, rfl, this.1, this.2, by simp⟩
    | nil =>
      have hr : ∀ i, i < p.count → (p.nodes i).id ≠ r := fun i hi hid => by
        have := (h3 i).2 ⟨hi, hid⟩
        simp at this
      simp only [List.take_nil]
      rcases furthest_spec hp rs with ⟨f1, f2⟩ | ⟨i, pre, r', post, f1, f2, f3, f4, f5⟩
      · refine .inl ⟨f1, ?_⟩
        intro a ha
        rcases List.mem_cons.1 ha with rfl | ha
        · exact hr
        · exact f2 a ha
      · refine .inr ⟨i, r :: pre, r', post, f1, by rw [f2]; rfl, f3, f4, ?_⟩
        intro a ha
        rcases List.mem_cons.1 ha with rfl | ha
        · exact hr
        · exact f5 a ha

theorem furthest_congr {p p' : Pool P C} (h : ∀ r, p'.findNodes r 1 = p.findNodes r 1) : ∀ rs : List Ref, furthest p' rs = furthest p rs
  | [] => rfl
  | r :: rs => by
    rw [furthest, furthest, h r, furthest_congr h rs]

/-- **C111**: `FinalizeSlicedFindPathPartial` at any moment of any slicing: the path is a corridor from the start polygon to the last
polygon of `existing` the search has visited (not flagged as partial); if it has visited none, `PartialResult` is set and the path is that of
`FinalizeSlicedFindPath`. -/
theorem slice_existing {e : RayEnv P C} {q : Query P} {p : Pool P C} {h : Heap} {mx : Nat} (hs : SliceSetting e q p h mx) (c0 : C) (z : P)
    (ns : List Nat) (existing : List Ref) (hex : existing ≠ []) :
    ∃ (s1 : Sliced P C) (k : Nat) (s : Sliced P C) (visited full : List Ref) (part : Bool), sliceInit e q false c0 p h = some (Status.inProgress, s1) ∧ sliceRun e ns s1 = some (k, s) ∧
      Corridor e.toEnv q.start full ∧ full.length ≤ mx ∧ q.start ∈ visited ∧ full ⊆ visited ∧
      (∀ a ∈ visited, Relation.ReflTransGen (Edge e.toEnv) q.start a) ∧
      (∀ cap, 0 < cap → ∃ st s', sliceFinalPartial e s z existing cap = some (full.take cap, st, s') ∧ st.failed = false ∧
        st.detail Status.partialResult = part) ∧
      ((part = false ∧ ∃ pre r post, existing = pre ++ r :: post ∧ full.getLast? = some r ∧ r ∈ visited ∧ ∀ a ∈ post, a ∉ visited) ∨
       (part = true ∧ (∀ a ∈ existing, a ∉ visited) ∧ ∀ cap, 0 < cap → ∃ st s', sliceFinal e s z cap = some (full.take cap, st, s'))) := by
  obtain ⟨s1, k, s, t, b, h1, h2, h3⟩ := sliceRun_snap hs c0 ns
  have hmem : ∀ a, a ∈ (List.range t.pool.count).map (fun i => (t.pool.nodes i).id) ↔
      ∃ i, i < t.pool.count ∧ (t.pool.nodes i).id = a := by
    intro a
    simp [List.mem_map, List.mem_range]
  have hfur : ∀ rs, furthest s.pool rs = furthest t.pool rs := furthest_congr fun r =>
    findNodes_congr h3.hash.1 h3.hash.2.1 h3.hash.2.2 h3.max (fun i => (h3.nodes i).1) r 1
  have hrv : ∀ a ∈ (List.range t.pool.count).map (fun i => (t.pool.nodes i).id), Relation.ReflTransGen (Edge e.toEnv) q.start a := by
    intro a ha
    obtain ⟨i, hi, rfl⟩ := (hmem _).1 ha
    rw [← flat_edge_eq]
    exact h3.inv.reach hi
  have hstart : q.start ∈ (List.range t.pool.count).map (fun i => (t.pool.nodes i).id) := (hmem _).2 ⟨0, h3.inv.root.1, h3.inv.root.2.1⟩
  have hopen : ∀ cap, sliceFinalPartial e s z existing cap = match furthest t.pool existing.reverse with
      | none => none
      | some (some i) => traceBack e s z i cap s.status
      | some none =>
        match s.best with
        | none => none
        | some b => traceBack e s z b cap (s.status ||| Status.partialResult) := by
    intro cap
    unfold sliceFinalPartial
    obtain ⟨done, hd⟩ := h3.not_failed
    rw [if_neg hex, if_neg (by rw [hd, slice_failed]; simp), if_neg (by rw [h3.query]; exact hs.ne), hfur]
    rfl
  rcases furthest_spec h3.inv.pool existing.reverse with ⟨u1, u2⟩ | ⟨i, pre, r, post, u1, u2, u3, u4, u5⟩
  · obtain ⟨full, f1, f2, f3, f4, f5⟩ := h3.trace z h3.live
    refine ⟨s1, k, s, _, full, true, h1, h2, f1, f3, hstart, fun a ha => (hmem a).2 (f4 a ha), hrv, ?_, .inr ⟨rfl, ?_, ?_⟩⟩
    · intro cap hcap
      obtain ⟨s', hs'⟩ := f5 cap hcap true
      refine ⟨_, s', ?_, pathStatus_failed _ _ _, pathStatus_partial (decide (cap ≤ full.length)) true t.outOfNodes⟩
      rw [hopen, u1, h3.best]
      exact hs'
    · intro a ha hv
      obtain ⟨i, hi, hid⟩ := (hmem a).1 hv
      exact u2 a (by simpa using ha) i hi hid
    · intro cap hcap
      obtain ⟨s', hs'⟩ := f5 cap hcap (decide ((t.pool.nodes b).id ≠ q.goal))
      refine ⟨pathStatus (decide (cap ≤ full.length)) (decide ((t.pool.nodes b).id ≠ q.goal)) t.outOfNodes, s', ?_⟩
      unfold sliceFinal
      obtain ⟨done, hd⟩ := h3.not_failed
      rw [if_neg (by rw [hd, slice_failed]; simp), if_neg (by rw [h3.query]; exact hs.ne), h3.best]
      dsimp only
      rw [← hs', (h3.nodes b).1, h3.query]
      simp only [decide_eq_true_eq]
  · obtain ⟨full, f1, f2, f3, f4, f5⟩ := h3.trace z u3
    refine ⟨s1, k, s, _, full, false, h1, h2, f1, f3, hstart, fun a ha => (hmem a).2 (f4 a ha), hrv, ?_, .inl ⟨rfl, ?_⟩⟩
    · intro cap hcap
      obtain ⟨s', hs'⟩ := f5 cap hcap false
      refine ⟨_, s', ?_, pathStatus_failed _ _ _, pathStatus_partial (decide (cap ≤ full.length)) false t.outOfNodes⟩
      rw [hopen, u1]
      exact hs'
    · refine ⟨post.reverse, r, pre.reverse, ?_, by rw [f2, u4], (hmem r).2 ⟨i, u3, u4⟩, ?_⟩
      · have := congrArg List.reverse u2
        rw [List.reverse_reverse] at this
        rw [this]
        simp
      · intro a ha hv
        obtain ⟨j, hj, hid⟩ := (hmem a).1 hv
        exact u5 a (by simpa using ha) j hj hid

end

/-! ## A concrete search -/

/-- Three polygons in a row 1-2-3 and a detached one 4; 9 is not accepted by the filter. Rays are never used. -/
def demoRay : RayEnv Nat Nat where
  toEnv := { demoEnv with links := fun r => if r = 1#32 then [(2#32, 0xff#8), (4#32, 0xff#8)]
    else if r = 2#32 then [(1#32, 0xff#8), (3#32, 2#8)] else if r = 3#32 then [(2#32, 0xff#8)] else [] }
  near _ _ := false
  ray _ _ _ _ := none
  rayPath _ _ _ _ := ([], Status.success)

def demoQ : Query Nat := ⟨1#32, 3#32, 0, 6, true⟩

/-- The hypotheses hold for a search from 1 to 3. -/
example : SliceSetting demoRay demoQ (Pool.new demoBlank 8 2) (Heap.new 8) 8 := by
  refine ⟨⟨costLaws_nat, fun _ _ _ _ _ => Nat.zero_le _, ⟨by decide, by decide, rfl, by decide, by decide, rfl⟩⟩, ?_, by decide, by decide,
    by decide, by decide⟩
  intro a _ l hl _
  unfold demoRay at hl
  simp only at hl
  split at hl
  · simp at hl; rcases hl with rfl | rfl <;> decide
  split at hl
  · simp at hl; rcases hl with rfl | rfl <;> decide
  split at hl
  · simp at hl; subst hl; decide
  · simp at hl

/-- The end polygon can be reached, so `slice_complete` says something about this search. -/
example : Relation.ReflTransGen (Edge demoRay.toEnv) 1#32 3#32 :=
  Relation.ReflTransGen.head (b := 2#32) ⟨0xff#8, by decide, by decide, by decide⟩
    (Relation.ReflTransGen.single ⟨2#8, by decide, by decide, by decide⟩)

/-- Slices of one iteration each: after the first the path is partial, after the fourth it is complete; `demoRun` is path, number of
iterations and whether the result is partial. (Evaluated by the interpreter: a test, not a proof.) -/
def demoRun (ns : List Nat) : Option (List Ref × Nat × Bool) := do
  let s ← sliceInit demoRay demoQ false 0 (Pool.new demoBlank 8 2) (Heap.new 8)
  let r ← sliceRun demoRay ns s.2
  let f ← sliceFinal demoRay r.2 0 10
  pure (f.1, r.1, f.2.1.detail Status.partialResult)

#guard demoRun [1] == some ([1#32, 4#32], 1, true)
#guard demoRun [1, 1, 5] == some ([1#32, 2#32, 3#32], 4, false)
#guard demoRun [7] == some ([1#32, 2#32, 3#32], 4, false)

end Verif.Detour
