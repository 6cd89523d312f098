/-
What the path of `FindPath` costs (detour/query.go:179-372): the search compared with all other corridors, in exact
arithmetic.

Simplifications: costs are exact (an ordered cancellative monoid such as the rationals), not `float32`. The theorem is for meshes in
which every polygon is entered with the same `crossSide` (meshes of one tile).
-/
import Verif.Detour.FindPathProps
import Mathlib.Algebra.Order.Monoid.Defs
import Mathlib.Algebra.Order.Ring.Rat
import Mathlib.Tactic.Abel

set_option linter.unusedVariables false
set_option linter.unusedSimpArgs false
set_option linter.unusedSectionVars false

namespace Verif.Detour

/-! ## Specification -/

section
variable {P C : Type} [AddCommMonoid C] [LinearOrder C] [IsOrderedCancelAddMonoid C]

/-- Spec: the cost of the legs of a corridor, its polygons being placed by `pl`. -/
def legsCost (e : Env P C) (pl : Ref → P) : List Ref → C
  | a :: b :: t => e.cost (pl a) (pl b) 0#32 a b + legsCost e pl (b :: t)
  | _ => 0

/-- Spec: the last leg, from the place of the goal polygon to the end position. -/
def lastLeg (e : Env P C) (q : Query P) (pl : Ref → P) : C := e.cost (pl q.goal) q.endPos 0#32 q.goal 0#32

/-- Spec: the cost of a corridor from the start to the end position. -/
def routeCost (e : Env P C) (q : Query P) (pl : Ref → P) (path : List Ref) : C := legsCost e pl path + lastLeg e q pl

/-- The costs are not negative, do not depend on the polygon before, and the heuristic is never more than what is ahead
(as with the standard filter and area costs of at least 1); every polygon is entered with `crossSide` 0. -/
structure FairCosts (e : Env P C) (q : Query P) : Prop where
  nonneg : e.NonNeg
  prev : ∀ a b r r' s t, e.cost a b r s t = e.cost a b r' s t
  ahead : ∀ a b s t, e.heur a q.endPos ≤ e.cost a b 0#32 s t + e.heur b q.endPos
  final : ∀ a s, e.heur a q.endPos ≤ e.cost a q.endPos 0#32 s 0#32
  one : ∀ r, ∀ l ∈ e.links r, crossSide l.2 = 0#8

theorem costLaws_exact : CostLaws C :=
  ⟨zero_add, fun _ _ c h => by gcongr, fun a c h => le_add_of_nonneg_right h⟩

end

/-! ## What one link does -/

section
variable {P C : Type} [LinearOrder C] [Add C] [Zero C]

theorem relax_effect {e : Env P C} {q : Query P} {mx : Nat} {b : Nat} {d : List (Ref × BitVec 8)} {s s' : Search P C}
    (hs : SInv e q mx (some (b, d)) s) (hb : b < s.pool.count) {pref : Ref} {l : Ref × BitVec 8}
    (hr : relax e q b (s.pool.nodes b).id pref s l = some s') :
    (s' = s ∧ (l.1 = 0#32 ∨ l.1 = pref ∨ e.pass l.1 = false)) ∨
    (s'.outOfNodes = true ∧ s'.pool = s.pool) ∨
    (s' = s ∧ ∃ i, i < s.pool.count ∧ (s.pool.nodes i).key = (l.1, crossSide l.2) ∧
      let ch := stepCost e q (s.pool.nodes b).id pref l.1 (s.pool.nodes b) (s.pool.nodes i)
      (s.pool.nodes i).total ≤ ch.1 + ch.2) ∨
    (s'.outOfNodes = s.outOfNodes ∧ ∃ i n, n.key = (l.1, crossSide l.2) ∧
      let ch := stepCost e q (s.pool.nodes b).id pref l.1 (s.pool.nodes b) n
      (∀ j, j ≠ i → s'.pool.nodes j = s.pool.nodes j) ∧ s'.pool.nodes i = settle n b l.1 ch.1 (ch.1 + ch.2) ∧
      ((i < s.pool.count ∧ s'.pool.count = s.pool.count ∧ n = s.pool.nodes i ∧ ch.1 + ch.2 < (s.pool.nodes i).total) ∨
        (i = s.pool.count ∧ s'.pool.count = s.pool.count + 1))) := by
  unfold relax at hr
  split at hr
  · rename_i h
    cases hr
    exact .inl ⟨rfl, h.elim .inl fun h => .inr (.inl h)⟩
  split at hr
  · rename_i h
    cases hr
    exact .inl ⟨rfl, .inr (.inr h)⟩
  right
  rcases node_cases hs.pool (l.1, crossSide l.2) with
    ⟨i, h1, h2, h3⟩ | ⟨h1, h2, h3⟩ | ⟨p', h1, h2, h3, h4, h5, h6, h7, h8⟩
  · right
    rw [h1] at hr
    simp only at hr
    have hvis : (s.pool.nodes i).opened = true ∨ (s.pool.nodes i).closed = true := by
      rw [hs.flags i h2]
      cases (s.pool.nodes i).opened <;> simp
    unfold visit at hr
    simp only [place_visited e _ _ _ hvis, write_self] at hr
    split at hr
    · rename_i h
      cases hr
      exact .inl ⟨rfl, i, h2, h3, h.2⟩
    split at hr
    · rename_i h
      cases hr
      exact .inl ⟨rfl, i, h2, h3, h.2⟩
    rename_i k1 k2
    right
    have hlt : ¬ (s.pool.nodes i).total ≤ (stepCost e q (s.pool.nodes b).id pref l.1 (s.pool.nodes b) (s.pool.nodes i)).1 +
        (stepCost e q (s.pool.nodes b).id pref l.1 (s.pool.nodes b) (s.pool.nodes i)).2 := by
      rcases hvis with h | h
      · exact fun hc => k1 ⟨h, hc⟩
      · exact fun hc => k2 ⟨h, hc⟩
    split at hr
    · cases hr
    · have key : s'.outOfNodes = s.outOfNodes ∧ s'.pool = s.pool.write i (settle (s.pool.nodes i) b l.1
          (stepCost e q (s.pool.nodes b).id pref l.1 (s.pool.nodes b) (s.pool.nodes i)).1
          ((stepCost e q (s.pool.nodes b).id pref l.1 (s.pool.nodes b) (s.pool.nodes i)).1 +
          (stepCost e q (s.pool.nodes b).id pref l.1 (s.pool.nodes b) (s.pool.nodes i)).2)) := by
        split at hr <;> cases hr <;> exact ⟨rfl, rfl⟩
      refine ⟨key.1, i, s.pool.nodes i, h3, ?_, ?_, .inl ⟨h2, ?_, rfl, not_le.1 hlt⟩⟩
      · intro j hj
        rw [key.2]
        exact upd_ne _ _ hj
      · rw [key.2]
        exact upd_same _ _ _
      · rw [key.2]
        rfl
  · rw [h1] at hr
    cases hr
    exact .inl ⟨rfl, rfl⟩
  · right
    right
    rw [h1] at hr
    simp only at hr
    have hbc : b ≠ s.pool.count := by omega
    have hpc : p'.nodes s.pool.count = (s.pool.nodes s.pool.count).reset (l.1, crossSide l.2) := by rw [h8, upd_same]
    have hpj : ∀ j, j ≠ s.pool.count → p'.nodes j = s.pool.nodes j := by
      intro j hj
      rw [h8, upd_ne _ _ hj]
    unfold visit at hr
    simp only at hr
    rw [hpc] at hr
    have hpl : ∃ n0 : Node P C, place e (s.pool.nodes b).id l.1
        ((s.pool.nodes s.pool.count).reset (l.1, crossSide l.2)) = n0 ∧ n0.opened = false ∧
        n0.closed = false ∧ n0.key = (l.1, crossSide l.2) := by
      refine ⟨_, rfl, ?_⟩
      unfold place Node.reset Node.key
      simp
    obtain ⟨n0, hn0, f1, f2, f3⟩ := hpl
    rw [hn0] at hr
    have hnb : (p'.write s.pool.count n0).nodes b = s.pool.nodes b := by
      unfold Pool.write
      simp only [upd_ne _ _ hbc]
      exact hpj b hbc
    rw [hnb, f1, f2, if_neg (by simp), if_neg (by simp)] at hr
    split at hr
    · cases hr
    · have key : s'.outOfNodes = s.outOfNodes ∧ s'.pool = (p'.write s.pool.count n0).write s.pool.count (settle n0 b l.1
          (stepCost e q (s.pool.nodes b).id pref l.1 (s.pool.nodes b) n0).1
          ((stepCost e q (s.pool.nodes b).id pref l.1 (s.pool.nodes b) n0).1 +
          (stepCost e q (s.pool.nodes b).id pref l.1 (s.pool.nodes b) n0).2)) := by
        split at hr <;> cases hr <;> exact ⟨rfl, rfl⟩
      refine ⟨key.1, s.pool.count, n0, f3, ?_, ?_, .inr ⟨rfl, ?_⟩⟩
      · intro j hj
        rw [key.2]
        exact (upd_ne _ _ hj).trans ((upd_ne _ _ hj).trans (hpj j hj))
      · rw [key.2]
        exact upd_same _ _ _
      · rw [key.2]
        exact h5

end

/-! ## Costs of the nodes -/

section
variable {P C : Type} [AddCommMonoid C] [LinearOrder C] [IsOrderedCancelAddMonoid C]

/-- What is added to the cost of a node for its child. -/
def leg (e : Env P C) (q : Query P) (a b : Node P C) : C :=
  e.cost a.pos b.pos 0#32 a.id b.id + if b.id = q.goal then e.cost b.pos q.endPos 0#32 b.id 0#32 else 0

theorem leg_nonneg {e : Env P C} {q : Query P} (hf : FairCosts e q) (a b : Node P C) : 0 ≤ leg e q a b := by
  unfold leg
  refine add_nonneg (hf.nonneg _ _ _ _ _) ?_
  split
  · exact hf.nonneg _ _ _ _ _
  · exact le_refl _

theorem leg_congr {e : Env P C} {q : Query P} {a a' b b' : Node P C} (h1 : a'.id = a.id) (h2 : a'.pos = a.pos) (h3 : b'.id = b.id)
    (h4 : b'.pos = b.pos) : leg e q a' b' = leg e q a b := by
  unfold leg
  rw [h1, h2, h3, h4]

theorem stepCost_leg {e : Env P C} {q : Query P} (hf : FairCosts e q) {pref nref : Ref} {bn n : Node P C} (hn : n.id = nref) :
    (stepCost e q bn.id pref nref bn n).1 = bn.cost + leg e q bn n := by
  subst hn
  unfold stepCost leg
  split
  · rw [hf.prev _ _ pref 0#32, hf.prev _ _ bn.id 0#32, add_assoc]
  · rw [hf.prev _ _ pref 0#32, add_zero]

/-- What holds of the costs during the search. -/
structure CInv (e : Env P C) (q : Query P) (cur : Option (Nat × List (Ref × BitVec 8))) (s : Search P C) : Prop where
  start : (s.pool.nodes 0).pos = q.startPos
  state : ∀ i, i < s.pool.count → (s.pool.nodes i).state = 0#8
  legs : ∀ i j, i < s.pool.count → i ≠ 0 → (s.pool.nodes i).pidx = j + 1 →
    (s.pool.nodes j).cost + leg e q (s.pool.nodes j) (s.pool.nodes i) ≤ (s.pool.nodes i).cost
  done : s.outOfNodes = false → ∀ i, i < s.pool.count → (s.pool.nodes i).closed = true →
    ∀ l ∈ e.links (s.pool.nodes i).id, (∀ d, cur = some (i, d) → l ∈ d) → l.1 ≠ 0#32 → e.pass l.1 = true →
      ∃ k, k < s.pool.count ∧ (s.pool.nodes k).id = l.1 ∧
        (s.pool.nodes k).cost ≤ (s.pool.nodes i).cost + leg e q (s.pool.nodes i) (s.pool.nodes k)

theorem CInv.skip {e : Env P C} {q : Query P} {b : Nat} {d : List (Ref × BitVec 8)} {s : Search P C} (hc : CInv e q (some (b, d)) s)
    {l : Ref × BitVec 8} (hk : s.outOfNodes = false → l.1 ≠ 0#32 → e.pass l.1 = true → ∃ k, k < s.pool.count ∧ (s.pool.nodes k).id = l.1 ∧
      (s.pool.nodes k).cost ≤ (s.pool.nodes b).cost + leg e q (s.pool.nodes b) (s.pool.nodes k)) :
    CInv e q (some (b, l :: d)) s := by
  refine { hc with done := ?_ }
  intro ho i hi hcl l' hl' hd h0 hp
  by_cases hib : i = b
  · subst hib
    rcases List.mem_cons.1 (hd _ rfl) with rfl | hm
    · exact hk ho h0 hp
    · exact hc.done ho i hi hcl l' hl' (by
        intro d' hd'
        simp only [Option.some.injEq, Prod.mk.injEq, true_and] at hd'
        rw [← hd']; exact hm) h0 hp
  · exact hc.done ho i hi hcl l' hl' (by
      intro d' hd'
      simp only [Option.some.injEq, Prod.mk.injEq] at hd'
      exact absurd hd'.1.symm hib) h0 hp

theorem relax_costs {e : Env P C} {q : Query P} (hf : FairCosts e q) {mx : Nat} {b : Nat} {d : List (Ref × BitVec 8)} {s s' : Search P C}
    (hs : SInv e q mx (some (b, d)) s) (hc : CInv e q (some (b, d)) s) (hb : b < s.pool.count) {pref : Ref}
    (hpref : pref ≠ 0#32 → ∃ k, k < s.pool.count ∧ (s.pool.nodes k).id = pref ∧ (s.pool.nodes k).cost ≤ (s.pool.nodes b).cost)
    {l : Ref × BitVec 8} (hl : l ∈ e.links (s.pool.nodes b).id)
    (hr : relax e q b (s.pool.nodes b).id pref s l = some s') :
    CInv e q (some (b, l :: d)) s' ∧ (s'.pool.nodes b).cost = (s.pool.nodes b).cost ∧ s.pool.count ≤ s'.pool.count ∧
      ∀ k, k < s.pool.count → (s'.pool.nodes k).id = (s.pool.nodes k).id ∧ (s'.pool.nodes k).cost ≤ (s.pool.nodes k).cost := by
  have hstepTot : ∀ n : Node P C, n.id = l.1 → (stepCost e q (s.pool.nodes b).id pref l.1 (s.pool.nodes b) n).2 = hpart e q n :=
    fun n hn => stepCost_hpart e q _ pref _ n l.1 hn
  rcases relax_effect hs hb hr with ⟨rfl, hskip⟩ | ⟨ho, hp⟩ | ⟨rfl, i, hi, hk, ht⟩ | ⟨ho, i, n, hk, hn1, hn2, hcase⟩
  · refine ⟨hc.skip fun _ h0 hp => ?_, rfl, le_refl _, fun _ _ => ⟨rfl, le_refl _⟩⟩
    rcases hskip with h | h | h
    · exact absurd h h0
    · obtain ⟨k, k1, k2, k3⟩ := hpref (h ▸ h0)
      exact ⟨k, k1, k2.trans h.symm, le_trans k3 (le_add_of_nonneg_right (leg_nonneg hf _ _))⟩
    · rw [h] at hp
      cases hp
  · refine ⟨⟨?_, ?_, ?_, ?_⟩, by rw [hp], by rw [hp], fun _ _ => by rw [hp]; exact ⟨rfl, le_refl _⟩⟩
    · rw [hp]; exact hc.start
    · rw [hp]; exact hc.state
    · rw [hp]; exact hc.legs
    · intro h
      rw [ho] at h
      cases h
  · refine ⟨hc.skip fun _ _ _ => ⟨i, hi, congrArg Prod.fst hk, ?_⟩, rfl, le_refl _, fun _ _ => ⟨rfl, le_refl _⟩⟩
    have hid : (s'.pool.nodes i).id = l.1 := congrArg Prod.fst hk
    simp only [hstepTot _ hid, stepCost_leg hf hid] at ht
    rw [hs.tot i hi] at ht
    exact le_of_add_le_add_right ht
  · have hid : n.id = l.1 := congrArg Prod.fst hk
    have hst : n.state = crossSide l.2 := congrArg Prod.snd hk
    simp only [stepCost_leg hf hid, hstepTot _ hid] at hn2 hcase
    have hcost : (s'.pool.nodes i).cost = (s.pool.nodes b).cost + leg e q (s.pool.nodes b) n := by rw [hn2]; rfl
    have hpos : (s'.pool.nodes i).pos = n.pos := by rw [hn2]; rfl
    have hid' : (s'.pool.nodes i).id = n.id := by rw [hn2, hid]; rfl
    have hpidx : (s'.pool.nodes i).pidx = b + 1 := by rw [hn2]; rfl
    have hcl : (s'.pool.nodes i).closed = false := by rw [hn2]; rfl
    have hstate : (s'.pool.nodes i).state = 0#8 := by
      rw [hn2]
      show n.state = _
      rw [hst]
      exact hf.one _ l hl
    have hcnt : s.pool.count ≤ s'.pool.count ∧ i < s'.pool.count ∧ ∀ j, j < s'.pool.count → j ≠ i → j < s.pool.count := by
      rcases hcase with ⟨c1, c2, _⟩ | ⟨c1, c2⟩
      · exact ⟨by omega, by omega, fun j hj _ => by omega⟩
      · exact ⟨by omega, by omega, fun j hj _ => by omega⟩
    -- existing nodes keep their places and do not get dearer
    have hkeep : ∀ k, k < s.pool.count → (s'.pool.nodes k).id = (s.pool.nodes k).id ∧ (s'.pool.nodes k).pos = (s.pool.nodes k).pos ∧
        (s'.pool.nodes k).cost ≤ (s.pool.nodes k).cost := by
      intro k hkc
      by_cases hki : k = i
      · subst hki
        rcases hcase with ⟨c1, c2, rfl, c4⟩ | ⟨c1, c2⟩
        · refine ⟨hid', hpos, ?_⟩
          rw [hcost]
          rw [hs.tot k hkc] at c4
          exact le_of_lt (lt_of_add_lt_add_right c4)
        · omega
      · rw [hn1 k hki]
        exact ⟨rfl, rfl, le_refl _⟩
    have hroot : 0 ≤ (s.pool.nodes b).cost := by
      obtain ⟨lb, hlb, hlbc⟩ := hs.chain b hb
      have := hs.chain_cost hlb hlbc 0 (List.mem_of_getLast? (hs.zero_mem hlb hlbc))
      rwa [hs.root.2.2.2.1] at this
    have hi0 : i ≠ 0 := by
      rintro rfl
      rcases hcase with ⟨c1, c2, rfl, c4⟩ | ⟨c1, c2⟩
      · rw [hs.tot 0 c1, hs.root.2.2.2.1] at c4
        have := lt_of_add_lt_add_right c4
        exact absurd (add_nonneg hroot (leg_nonneg hf _ _)) (not_le.2 this)
      · have := hs.root.1
        omega
    have hib : i ≠ b := by
      rintro rfl
      rcases hcase with ⟨c1, c2, rfl, c4⟩ | ⟨c1, c2⟩
      · rw [hs.tot i c1] at c4
        have := lt_of_add_lt_add_right c4
        exact absurd (le_add_of_nonneg_right (leg_nonneg hf _ _)) (not_le.2 this)
      · omega
    have hbs : s'.pool.nodes b = s.pool.nodes b := hn1 b hib.symm
    refine ⟨⟨?_, ?_, ?_, ?_⟩, by rw [hbs], hcnt.1, fun k hk => ⟨(hkeep k hk).1, (hkeep k hk).2.2⟩⟩
    · rw [hn1 0 hi0.symm]
      exact hc.start
    · intro j hj
      by_cases hji : j = i
      · rw [hji]; exact hstate
      · rw [hn1 j hji]
        exact hc.state j (hcnt.2.2 j hj hji)
    · intro x j hx hx0 hxj
      by_cases hxi : x = i
      · subst hxi
        rw [hpidx] at hxj
        obtain rfl : b = j := by omega
        rw [hbs, hcost]
        exact le_of_eq (congrArg _ (leg_congr rfl rfl hid' hpos))
      · rw [hn1 x hxi] at hxj ⊢
        have hx' := hcnt.2.2 x hx hxi
        obtain ⟨j', j1, j2, _⟩ := hs.parent x hx' hx0
        rw [j2] at hxj
        obtain rfl : j' = j := by omega
        have := hkeep j' j1
        rw [leg_congr this.1 this.2.1 rfl rfl]
        exact le_trans (add_le_add_left this.2.2 _) (hc.legs x j' hx' hx0 j2)
    · intro hoo x hx hxc l' hl' hd h0 hp
      rw [ho] at hoo
      have hxi : x ≠ i := by
        rintro rfl
        rw [hcl] at hxc
        cases hxc
      rw [hn1 x hxi] at hxc hl' ⊢
      have hx' := hcnt.2.2 x hx hxi
      have old : (∀ d', some (b, d) = some (x, d') → l' ∈ d') → ∃ k, k < s'.pool.count ∧ (s'.pool.nodes k).id = l'.1 ∧
          (s'.pool.nodes k).cost ≤ (s.pool.nodes x).cost + leg e q (s.pool.nodes x) (s'.pool.nodes k) := by
        intro hd'
        obtain ⟨k, k1, k2, k3⟩ := hc.done hoo x hx' hxc l' hl' hd' h0 hp
        have hk := hkeep k k1
        refine ⟨k, by omega, hk.1.trans k2, ?_⟩
        rw [leg_congr rfl rfl hk.1 hk.2.1]
        exact le_trans hk.2.2 k3
      by_cases hxb : x = b
      · subst hxb
        rcases List.mem_cons.1 (hd _ rfl) with rfl | hm
        · refine ⟨i, hcnt.2.1, by rw [hid', hid], ?_⟩
          rw [hcost]
          exact le_of_eq (congrArg _ (leg_congr rfl rfl hid' hpos).symm)
        · refine old fun d' hd' => ?_
          simp only [Option.some.injEq, Prod.mk.injEq, true_and] at hd'
          rw [← hd']; exact hm
      · refine old fun d' hd' => ?_
        simp only [Option.some.injEq, Prod.mk.injEq] at hd'
        exact absurd hd'.1.symm hxb

theorem relaxAll_costs {e : Env P C} {q : Query P} (hf : FairCosts e q) {mx : Nat} {b : Nat} {r : Ref} (hrg : r ≠ q.goal) {pref : Ref}
    (ls : List (Ref × BitVec 8)) (hls : ∀ l ∈ ls, l ∈ e.links r) {d : List (Ref × BitVec 8)} {s s' : Search P C}
    (hs : SInv e q mx (some (b, d)) s) (hc : CInv e q (some (b, d)) s) (hb : b < s.pool.count) (hbr : (s.pool.nodes b).id = r)
    (hpref : pref ≠ 0#32 → ∃ k, k < s.pool.count ∧ (s.pool.nodes k).id = pref ∧ (s.pool.nodes k).cost ≤ (s.pool.nodes b).cost)
    (hr : relaxAll e q b r pref ls s = some s') : CInv e q (some (b, ls.reverse ++ d)) s' := by
  induction ls generalizing s d with
  | nil =>
    cases hr
    exact hc
  | cons l ls ih =>
    subst hbr
    have hl := hls l (by simp)
    obtain ⟨s1, h1, h2, h3, h4⟩ := relax_inv costLaws_exact hf.nonneg hs hb hrg pref
      (fun hp => (hpref hp).imp fun k hk => ⟨hk.1, hk.2.1⟩) l hl
    obtain ⟨c1, c2, c3, c4⟩ := relax_costs hf hs hc hb hpref hl h1
    rw [relaxAll, h1] at hr
    simp only at hr
    have := ih (fun l' hl' => hls l' (by simp [hl'])) h2 c1 (by omega) (h4 b hb) (by
      intro hp
      obtain ⟨k, k1, k2, k3⟩ := hpref hp
      refine ⟨k, by omega, (c4 k k1).1.trans k2, ?_⟩
      rw [c2]
      exact le_trans (c4 k k1).2 k3) hr
    rw [List.reverse_cons, List.append_assoc]
    exact this

theorem markClosed_same (p : Pool P C) (b i : Nat) :
    ((markClosed p b).nodes i).id = (p.nodes i).id ∧ ((markClosed p b).nodes i).pos = (p.nodes i).pos ∧
    ((markClosed p b).nodes i).cost = (p.nodes i).cost ∧ ((markClosed p b).nodes i).state = (p.nodes i).state ∧
    ((markClosed p b).nodes i).pidx = (p.nodes i).pidx ∧ (i ≠ b → (markClosed p b).nodes i = p.nodes i) := by
  simp only [markClosed, Pool.write, upd]
  split
  · rename_i h
    subst h
    exact ⟨rfl, rfl, rfl, rfl, rfl, fun h => absurd rfl h⟩
  · exact ⟨rfl, rfl, rfl, rfl, rfl, fun _ => rfl⟩

theorem CInv.close {e : Env P C} {q : Query P} {s : Search P C} (hc : CInv e q none s) (b : Nat) (h : Heap) :
    CInv e q (some (b, [])) { s with pool := markClosed s.pool b, heap := h } := by
  refine ⟨?_, ?_, ?_, ?_⟩
  · simp only
    rw [(markClosed_same s.pool b 0).2.1]
    exact hc.start
  · intro i hi
    simp only
    rw [(markClosed_same s.pool b i).2.2.2.1]
    exact hc.state i hi
  · intro i j hi h0 hj
    simp only at hj ⊢
    have hi' := markClosed_same s.pool b i
    have hj' := markClosed_same s.pool b j
    rw [hi'.2.2.2.2.1] at hj
    rw [leg_congr hj'.1 hj'.2.1 hi'.1 hi'.2.1, hi'.2.2.1, hj'.2.2.1]
    exact hc.legs i j hi h0 hj
  · intro ho i hi hcl l hl hd h0 hp
    simp only at ho hi hcl hl ⊢
    by_cases hib : i = b
    · subst hib
      exact absurd (hd [] rfl) (by simp)
    · have hi' := markClosed_same s.pool b i
      rw [hi'.2.2.2.2.2 hib] at hcl hl ⊢
      obtain ⟨k, k1, k2, k3⟩ := hc.done ho i hi hcl l hl (by intro d hd; cases hd) h0 hp
      have hk' := markClosed_same s.pool b k
      refine ⟨k, k1, hk'.1.trans k2, ?_⟩
      rw [leg_congr rfl rfl hk'.1 hk'.2.1, hk'.2.2.1]
      exact k3

theorem CInv.finish {e : Env P C} {q : Query P} {b : Nat} {ls : List (Ref × BitVec 8)} {s : Search P C}
    (hc : CInv e q (some (b, ls)) s) (hall : ∀ l ∈ e.links (s.pool.nodes b).id, l ∈ ls) : CInv e q none s := by
  refine { hc with done := ?_ }
  intro ho i hi hcl l hl _ h0 hp
  refine hc.done ho i hi hcl l hl ?_ h0 hp
  intro d hd
  simp only [Option.some.injEq, Prod.mk.injEq] at hd
  obtain ⟨rfl, rfl⟩ := hd
  exact hall l hl

theorem initSearch_costs {e : Env P C} {q : Query P} {p : Pool P C} {h : Heap} {mx : Nat} {s : Search P C}
    (ho : QueryObj p h mx) (hi : initSearch e q p h = some s) : CInv e q none s := by
  have hcl : PoolInv p.clear := clear_inv ho.hash ho.hash' (by rw [ho.max]; exact ho.max1)
  unfold initSearch at hi
  rcases node_cases hcl (q.start, 0#8) with
    ⟨i, h1, h2, h3⟩ | ⟨h1, h2, h3⟩ | ⟨p1, h1, h2, h3, h4, h5, h6, h7, h8⟩
  · exact absurd h2 (Nat.not_lt_zero _)
  · have : p.clear.maxNodes = mx := ho.max
    have : p.clear.count = 0 := rfl
    have := ho.max0
    omega
  · rw [h1] at hi
    have hc0 : p.clear.count = 0 := rfl
    simp only [hc0] at h5 h8 hi
    split at hi
    · cases hi
    cases hi
    have hn0 : (p1.write 0 (startNode e q (p1.nodes 0))).nodes 0 = startNode e q (p1.nodes 0) := by
      unfold Pool.write
      simp only [upd_same]
    have hcnt : (p1.write 0 (startNode e q (p1.nodes 0))).count = 1 := h5
    refine ⟨by simp only; rw [hn0]; rfl, ?_, ?_, ?_⟩
    · intro i hi
      simp only at hi ⊢
      obtain rfl : i = 0 := by omega
      rw [hn0]
      show (p1.nodes 0).state = _
      have hp10 : (p1.nodes 0).key = (q.start, 0#8) := by
        rw [h8, upd_same, reset_key]
      exact congrArg Prod.snd hp10
    · intro i j hi h0
      simp only at hi
      omega
    · intro _ i hi hcl
      simp only at hi hcl
      obtain rfl : i = 0 := by omega
      rw [hn0] at hcl
      cases hcl

/-- The state in which the goal is popped. -/
theorem searchLoop_costs {e : Env P C} {q : Query P} (hf : FairCosts e q) {mx : Nat} (f : Nat) {s s' : Search P C}
    (hs : SInv e q mx none s) (hc : CInv e q none s) (hr : searchLoop e q f s = some (.done s'))
    (hg : (s'.pool.nodes s'.best).id = q.goal) :
    ∃ s0 h, SInv e q mx none s0 ∧ CInv e q none s0 ∧ s0.heap.pop (totals s0.pool) = some (s'.best, h) ∧
      s'.pool = markClosed s0.pool s'.best ∧ s'.outOfNodes = s0.outOfNodes := by
  induction f generalizing s with
  | zero => cases hr
  | succ f ih =>
    rw [searchLoop] at hr
    unfold searchStep at hr
    by_cases h0 : s.heap.size = 0
    · rw [if_pos h0] at hr
      cases hr
      exfalso
      have hb := hs.best.1
      have hopen : (s'.pool.nodes s'.best).opened = true := by
        by_contra hno
        refine hs.goal _ hb ?_ hg
        rw [hs.flags _ hb]
        simpa using hno
      have hm := (hs.mem s'.best).2 ⟨hb, hopen⟩
      have : s'.heap.toList = [] := by
        unfold Heap.toList
        rw [h0]
        rfl
      rw [this] at hm
      cases hm
    · rw [if_neg h0] at hr
      obtain ⟨b, h, p1, _⟩ := pop_spec hs.heap h0
      rw [p1] at hr
      simp only at hr
      obtain ⟨c1, c2, c3, c4, c5⟩ := close_inv hs p1
      by_cases hbg : ((markClosed s.pool b).nodes b).id = q.goal
      · rw [if_pos hbg] at hr
        cases hr
        exact ⟨s, h, hs, hc, p1, rfl, rfl⟩
      · rw [if_neg hbg] at hr
        have hg' : (s.pool.nodes b).id ≠ q.goal := by rw [← (c3 b).1]; exact hbg
        have hs1 := c5 hg'
        have hc1 := hc.close b h
        obtain ⟨s2, r1, r2, r3, r4⟩ := relaxAll_inv costLaws_exact hf.nonneg hbg (parentRef (markClosed s.pool b) b)
          (e.links ((markClosed s.pool b).nodes b).id) (fun l hl => hl) hs1 c1 rfl (fun hp => parentRef_live hs1 c1 hp)
        have hc2 := relaxAll_costs hf hbg (e.links ((markClosed s.pool b).nodes b).id) (fun l hl => hl) hs1 hc1 c1 rfl (by
          intro hp
          unfold parentRef at hp ⊢
          by_cases hb0 : b = 0
          · subst hb0
            rw [hs1.root.2.2.1] at hp
            exact absurd rfl hp
          · obtain ⟨j, j1, j2, _, _, _, j6, _⟩ := hs1.parent b c1 hb0
            simp only at j1 j2 j6 ⊢
            rw [j2]
            exact ⟨j, j1, rfl, j6⟩) r1
        rw [r1] at hr
        simp only at hr
        have hb2 : (s2.pool.nodes b).id = ((markClosed s.pool b).nodes b).id := r4 b c1
        refine ih ?_ (hc2.finish ?_) hr
        · refine { r2 with exp := ?_ }
          intro i hi hcl l hl _
          refine r2.exp i hi hcl l hl ?_
          intro d hd
          simp only [Option.some.injEq, Prod.mk.injEq] at hd
          obtain ⟨rfl, rfl⟩ := hd
          rw [hb2] at hl
          simpa using hl
        · intro l hl
          rw [hb2] at hl
          simpa using hl

/-! ## The frontier -/

theorem legsCost_nonneg {e : Env P C} {q : Query P} (hf : FairCosts e q) (pl : Ref → P) (w : List Ref) : 0 ≤ legsCost e pl w := by
  induction w with
  | nil => exact le_refl _
  | cons a t ih =>
    cases t with
    | nil => exact le_refl _
    | cons b t => exact add_nonneg (hf.nonneg _ _ _ _ _) ih

theorem legsCost_snoc (e : Env P C) (pl : Ref → P) (w : List Ref) (a b : Ref) :
    legsCost e pl (w ++ [a, b]) = legsCost e pl (w ++ [a]) + e.cost (pl a) (pl b) 0#32 a b := by
  induction w with
  | nil =>
    simp only [List.nil_append, legsCost]
    rw [add_zero, zero_add]
  | cons x t ih =>
    cases t with
    | nil =>
      simp only [List.cons_append, List.nil_append, legsCost]
      rw [add_zero, add_zero]
    | cons y t =>
      simp only [List.cons_append, legsCost] at ih ⊢
      rw [ih, add_assoc]

/-- The heuristic is never more than what is ahead. -/
theorem heur_le {e : Env P C} {q : Query P} (hf : FairCosts e q) (pl : Ref → P) (a : Ref) (t : List Ref)
    (hl : (a :: t).getLast? = some q.goal) : e.heur (pl a) q.endPos ≤ legsCost e pl (a :: t) + lastLeg e q pl := by
  induction t generalizing a with
  | nil =>
    simp only [List.getLast?_singleton, Option.some.injEq] at hl
    subst hl
    simp only [legsCost, zero_add]
    exact hf.final _ _
  | cons b t ih =>
    rw [List.getLast?_cons_cons] at hl
    simp only [legsCost]
    rw [add_assoc]
    exact le_trans (hf.ahead _ (pl b) a b) (by gcongr; exact ih b hl)

/-- Some open node is no dearer than any way of completing a closed one. -/
theorem frontier {e : Env P C} {q : Query P} (hf : FairCosts e q) {mx : Nat} {s : Search P C} (hs : SInv e q mx none s)
    (hc : CInv e q none s) (ho : s.outOfNodes = false) {pl : Ref → P}
    (hpl : ∀ i, i < s.pool.count → pl (s.pool.nodes i).id = (s.pool.nodes i).pos) (a : Ref) (t : List Ref)
    (hl : (a :: t).getLast? = some q.goal) (hw : (a :: t).IsChain (Edge e)) {k : Nat} (hk : k < s.pool.count)
    (hka : (s.pool.nodes k).id = a) (hg : a ≠ q.goal) :
    ∃ y ∈ s.heap.toList, (s.pool.nodes y).total ≤ (s.pool.nodes k).cost + (legsCost e pl (a :: t) + lastLeg e q pl) := by
  induction t generalizing a k with
  | nil =>
    simp only [List.getLast?_singleton, Option.some.injEq] at hl
    exact absurd hl hg
  | cons b t ih =>
    by_cases hop : (s.pool.nodes k).opened = true
    · refine ⟨k, (hs.mem k).2 ⟨hk, hop⟩, ?_⟩
      rw [hs.tot k hk]
      gcongr
      unfold hpart
      rw [hka, if_neg hg, ← hpl k hk, hka]
      exact heur_le hf pl a (b :: t) hl
    · have hcl : (s.pool.nodes k).closed = true := by
        rw [hs.flags k hk]
        simpa using hop
      rw [List.isChain_cons_cons] at hw
      obtain ⟨⟨side, e1, e2, e3⟩, hw⟩ := hw
      obtain ⟨k', k1, k2, k3⟩ := hc.done ho k hk hcl (b, side) (by rw [hka]; exact e1) (by intro d hd; cases hd) e2 e3
      have hpk : pl a = (s.pool.nodes k).pos := by rw [← hka]; exact hpl k hk
      simp only at k2
      have hpk' : pl b = (s.pool.nodes k').pos := by rw [← k2]; exact hpl k' k1
      rw [List.getLast?_cons_cons] at hl
      simp only [legsCost]
      unfold leg at k3
      rw [k2, hka, ← hpk, ← hpk'] at k3
      by_cases hbg : b = q.goal
      · have hop' : (s.pool.nodes k').opened = true := by
          by_contra hno
          refine hs.goal k' k1 ?_ (k2.trans hbg)
          rw [hs.flags k' k1]
          simpa using hno
        refine ⟨k', (hs.mem k').2 ⟨k1, hop'⟩, ?_⟩
        rw [hs.tot k' k1]
        unfold hpart
        rw [k2, if_pos hbg, add_zero]
        refine le_trans k3 ?_
        simp only [if_pos hbg]
        gcongr
        · exact le_add_of_nonneg_right (legsCost_nonneg hf pl _)
        · unfold lastLeg
          rw [hbg]
      · obtain ⟨y, y1, y2⟩ := ih b hl hw k1 k2 hbg
        refine ⟨y, y1, le_trans y2 ?_⟩
        rw [if_neg hbg, add_zero] at k3
        refine le_trans (add_le_add_left k3 _) (le_of_eq ?_)
        abel

/-- The corridor traced back from a node costs no more than the node says. -/
theorem trace_cost {e : Env P C} {q : Query P} (hne : q.start ≠ q.goal) {mx : Nat} {s : Search P C}
    (hs : SInv e q mx none s) (hc : CInv e q none s) {pl : Ref → P}
    (hpl : ∀ i, i < s.pool.count → pl (s.pool.nodes i).id = (s.pool.nodes i).pos) {i : Nat} {l : List Nat}
    (hl : Chain (par s.pool) (some i) l) (hlive : ∀ a ∈ l, a < s.pool.count) :
    legsCost e pl ((l.map fun i => (s.pool.nodes i).id).reverse) + (if (s.pool.nodes i).id = q.goal then lastLeg e q pl else 0) ≤
      (s.pool.nodes i).cost := by
  induction l generalizing i with
  | nil => simp [Chain] at hl
  | cons c l ih =>
    obtain ⟨hic, hl⟩ := hl
    simp only [Option.some.injEq] at hic
    subst hic
    by_cases hi0 : i = 0
    · subst hi0
      have : par s.pool 0 = none := by
        unfold par
        rw [hs.root.2.2.1]
        rfl
      rw [this] at hl
      rw [Chain.none_iff.1 hl, hs.root.2.1, if_neg hne, hs.root.2.2.2.1]
      simp [legsCost]
    · have hi := hlive i (by simp)
      obtain ⟨j, j1, j2, _, _, _, _, j7⟩ := hs.parent i hi hi0
      have : par s.pool i = some j := by
        unfold par
        rw [j2]
        rfl
      rw [this] at hl
      have ih := ih hl (fun a ha => hlive a (by simp [ha]))
      rw [if_neg j7, add_zero] at ih
      obtain ⟨t, rfl, ht⟩ := Chain.some_iff.1 hl
      have hleg := hc.legs i j hi hi0 j2
      simp only [List.map_cons, List.reverse_cons, List.append_assoc, List.cons_append, List.nil_append] at ih ⊢
      rw [legsCost_snoc]
      refine le_trans ?_ hleg
      refine le_trans ?_ (add_le_add_left ih _)
      unfold leg
      rw [hpl i hi, hpl j j1, add_assoc]
      gcongr
      split
      · rename_i hgi
        unfold lastLeg
        rw [← hpl i hi, hgi]
      · exact le_refl _

/-! ## The theorem -/

open Classical in
/-- The position the search gave a polygon. -/
noncomputable def seenAt (s : Search P C) (r : Ref) : Option P :=
  if h : ∃ i, i < s.pool.count ∧ (s.pool.nodes i).id = r then some (s.pool.nodes h.choose).pos else none

theorem seenAt_live {e : Env P C} {q : Query P} {mx : Nat} {s : Search P C} (hs : SInv e q mx none s) (hc : CInv e q none s)
    {i : Nat} (hi : i < s.pool.count) : seenAt s (s.pool.nodes i).id = some (s.pool.nodes i).pos := by
  unfold seenAt
  have h : ∃ j, j < s.pool.count ∧ (s.pool.nodes j).id = (s.pool.nodes i).id := ⟨i, hi, rfl⟩
  rw [dif_pos h]
  have hj := h.choose_spec
  have := hs.pool.keys _ i hj.1 hi (by
    unfold Node.key
    rw [hj.2, hc.state _ hj.1, hc.state i hi])
  rw [this]

theorem seenAt_some {e : Env P C} {q : Query P} {mx : Nat} {s : Search P C} (hs : SInv e q mx none s) {r : Ref} {x : P}
    (h : seenAt s r = some x) : Entry e q r x := by
  unfold seenAt at h
  split at h
  · rename_i hx
    simp only [Option.some.injEq] at h
    have := hs.pos _ hx.choose_spec.1
    rwa [hx.choose_spec.2, h] at this
  · cases h

/-- **C145** (partial). A full path of `FindPath` is a cheapest one among all corridors to the goal, whatever their length, when
every polygon is placed where the search first entered it (and polygons the search did not meet anywhere): the placing starts
at the start position and puts each polygon on the midpoint of one of the edges it is entered through. What is missing: the same
for corridors placed on their own edge midpoints (false: `findPath_cheapest_refuted`), and meshes of several tiles. -/
theorem findPath_cheapest_partial {e : Env P C} {q : Query P} (hf : FairCosts e q) (hne : q.start ≠ q.goal) {p : Pool P C} {h : Heap}
    {mx : Nat} (ho : QueryObj p h mx) {cap f : Nat} {path : List Ref} {st : Status} (hr : findPath e q p h cap f = .ok path st)
    (h1 : st.failed = false) (h2 : st.detail Status.bufferTooSmall = false) (h3 : st.detail Status.partialResult = false)
    (h4 : st.detail Status.outOfNodes = false) :
    Corridor e q.start path ∧ path.getLast? = some q.goal ∧
    ∃ seen : Ref → Option P, seen q.start = some q.startPos ∧ (∀ r x, seen r = some x → Entry e q r x) ∧
      (∀ r ∈ path, seen r ≠ none) ∧
      ∀ pl : Ref → P, (∀ r x, seen r = some x → pl r = x) →
        ∀ walk, Corridor e q.start walk → walk.getLast? = some q.goal → routeCost e q pl path ≤ routeCost e q pl walk := by
  unfold findPath at hr
  split at hr
  · simp only [PathOut.ok.injEq] at hr
    rw [← hr.2] at h1
    exact absurd h1 (by decide)
  rename_i hargs
  obtain ⟨s1, i1, i2⟩ := initSearch_inv (e := e) costLaws_exact hne ho
  have i3 := initSearch_costs ho i1
  rw [i1] at hr
  simp only at hr
  split at hr
  · cases hr
  · cases hr
  · cases hr
  rename_i s' hloop
  split at hr
  · cases hr
  rename_i path' st' hpath
  simp only [PathOut.ok.injEq] at hr
  obtain ⟨rfl, hst⟩ := hr
  -- the goal was popped
  have hst' : st' = Status.success ∨ st' = Status.success ||| Status.bufferTooSmall := by
    unfold pathToNode at hpath
    split at hpath
    · cases hpath
    split at hpath
    · cases hpath
    split at hpath
    · cases hpath
    simp only [Option.some.injEq, Prod.mk.injEq] at hpath
    rw [← hpath.2]
    split
    · exact .inr rfl
    · exact .inl rfl
  have hgoal : (s'.pool.nodes s'.best).id = q.goal := by
    by_contra hno
    rw [if_pos hno] at hst
    rw [← hst] at h3
    revert h3
    rcases hst' with rfl | rfl <;> cases s'.outOfNodes <;> decide
  obtain ⟨s0, hp, j1, j2, j3, j4, j5⟩ := searchLoop_costs hf f i2 i3 hloop hgoal
  have hoon : s0.outOfNodes = false := by
    rw [← j5]
    by_contra hno
    rw [Bool.not_eq_false] at hno
    rw [hno, if_pos rfl] at hst
    rw [← hst] at h4
    revert h4
    rw [if_neg (not_not.2 hgoal)]
    rcases hst' with rfl | rfl <;> decide
  obtain ⟨c1, c2, c3, c4, c5⟩ := close_inv j1 j3
  obtain ⟨l, l1, l2⟩ := j1.chain _ c1
  have hids : (fun i => (s'.pool.nodes i).id) = fun i => (s0.pool.nodes i).id := by
    funext i
    rw [j4]
    exact (c3 i).1
  have hpar : par s'.pool = par s0.pool := by
    funext i
    unfold par
    rw [j4, (c3 i).2.2]
  have hlen : l.length ≤ s'.pool.maxNodes := by
    rw [j4]
    exact Nat.le_trans (l1.length_le l2) j1.pool.count
  rw [pathToNode_eq (cap := cap) (by rw [hpar]; exact l1) hlen] at hpath
  simp only [Option.some.injEq, Prod.mk.injEq, hids] at hpath
  obtain ⟨hp1, hp2⟩ := hpath
  have hcap : l.length ≤ cap := by
    by_contra hno
    rw [if_pos (by omega)] at hp2
    rw [← hp2] at hst
    rw [← hst] at h2
    revert h2
    rw [if_neg (not_not.2 hgoal)]
    cases s'.outOfNodes <;> decide
  rw [List.take_of_length_le (by simpa using hcap)] at hp1
  have hgoal0 : (s0.pool.nodes s'.best).id = q.goal := by
    rw [← hgoal, j4]
    exact (c3 _).1.symm
  obtain ⟨t1, t2⟩ := trace_corridor j1 l1 l2
  rw [hp1] at t1 t2
  refine ⟨t1, by rw [t2, hgoal0], seenAt s0, ?_, fun r x hx => seenAt_some j1 hx, ?_, ?_⟩
  · have := seenAt_live j1 j2 j1.root.1
    rwa [j1.root.2.1, j2.start] at this
  · intro r hr
    rw [← hp1] at hr
    simp only [List.mem_reverse, List.mem_map] at hr
    obtain ⟨i, hi, rfl⟩ := hr
    rw [seenAt_live j1 j2 (l2 i hi)]
    simp
  · intro pl hpl walk hw hwl
    have hpl' : ∀ i, i < s0.pool.count → pl (s0.pool.nodes i).id = (s0.pool.nodes i).pos :=
      fun i hi => hpl _ _ (seenAt_live j1 j2 hi)
    have hcost := trace_cost hne j1 j2 hpl' l1 l2
    rw [hp1, if_pos hgoal0] at hcost
    obtain ⟨w1, w2⟩ := hw
    cases walk with
    | nil => cases w1
    | cons a t =>
      simp only [List.head?_cons, Option.some.injEq] at w1
      subst w1
      obtain ⟨y, y1, y2⟩ := frontier hf j1 j2 hoon hpl' q.start t hwl w2 j1.root.1 j1.root.2.1 hne
      have hpop := c4 y y1
      rw [j1.tot _ c1] at hpop
      unfold hpart at hpop
      rw [if_pos hgoal0, add_zero] at hpop
      rw [j1.root.2.2.2.1, zero_add] at y2
      exact le_trans hcost (le_trans hpop y2)

/-- **C145**, for meshes in which it does not matter through which edge a polygon is entered: the path is a cheapest one outright. -/
theorem findPath_cheapest_fixed {e : Env P C} {q : Query P} (hf : FairCosts e q) (hne : q.start ≠ q.goal) {p : Pool P C} {h : Heap}
    {mx : Nat} (ho : QueryObj p h mx) {cap f : Nat} {path : List Ref} {st : Status} (hr : findPath e q p h cap f = .ok path st)
    (h1 : st.failed = false) (h2 : st.detail Status.bufferTooSmall = false) (h3 : st.detail Status.partialResult = false)
    (h4 : st.detail Status.outOfNodes = false) {m : Ref → P} (hs : m q.start = q.startPos)
    (hm : ∀ a r, r ≠ q.start → Edge e a r → e.mid a r = some (m r)) :
    ∀ walk, Corridor e q.start walk → walk.getLast? = some q.goal → routeCost e q m path ≤ routeCost e q m walk := by
  obtain ⟨_, _, seen, s1, s2, s3, s4⟩ := findPath_cheapest_partial hf hne ho hr h1 h2 h3 h4
  refine s4 m fun r x hx => ?_
  by_cases hrs : r = q.start
  · subst hrs
    rw [s1] at hx
    simp only [Option.some.injEq] at hx
    rw [hs, hx]
  · rcases s2 r x hx with ⟨h, _⟩ | ⟨a, ha, h | h⟩
    · exact absurd h hrs
    · rw [hm a r hrs ha] at h
      simpa using h
    · rw [hm a r hrs ha] at h
      cases h

/-- **C145**, for costs that depend on the polygons only: the path is a cheapest one outright. -/
theorem findPath_cheapest_weights {e : Env P C} {q : Query P} (hf : FairCosts e q) (hne : q.start ≠ q.goal) {p : Pool P C} {h : Heap}
    {mx : Nat} (ho : QueryObj p h mx) {cap f : Nat} {path : List Ref} {st : Status} (hr : findPath e q p h cap f = .ok path st)
    (h1 : st.failed = false) (h2 : st.detail Status.bufferTooSmall = false) (h3 : st.detail Status.partialResult = false)
    (h4 : st.detail Status.outOfNodes = false) (hm : ∀ a b a' b' r s t, e.cost a b r s t = e.cost a' b' r s t) (pl : Ref → P) :
    ∀ walk, Corridor e q.start walk → walk.getLast? = some q.goal → routeCost e q pl path ≤ routeCost e q pl walk := by
  obtain ⟨_, _, seen, s1, s2, s3, s4⟩ := findPath_cheapest_partial hf hne ho hr h1 h2 h3 h4
  have hlegs : ∀ pl' w, legsCost e pl w = legsCost e pl' w := by
    intro pl' w
    induction w with
    | nil => rfl
    | cons a t ih =>
      cases t with
      | nil => rfl
      | cons b t =>
        simp only [legsCost]
        rw [ih, hm]
  have hroute : ∀ pl' w, routeCost e q pl w = routeCost e q pl' w := by
    intro pl' w
    unfold routeCost lastLeg
    rw [hlegs pl', hm]
  intro walk hw hl
  rw [hroute (fun r => (seen r).getD q.startPos), hroute (fun r => (seen r).getD q.startPos) walk]
  refine s4 _ (fun r x hx => ?_) walk hw hl
  rw [hx]
  rfl

end

/-! ## Own midpoints -/

section
variable {P C : Type} [AddCommMonoid C]

/-- Spec: the cost of a corridor walked over its own edge midpoints, from the position `x` on its first polygon. -/
def ownCost (e : Env P C) (q : Query P) : P → List Ref → C
  | _, [] => 0
  | x, [a] => e.cost x q.endPos 0#32 a 0#32
  | x, a :: b :: t => e.cost x ((e.mid a b).getD x) 0#32 a b + ownCost e q ((e.mid a b).getD x) (b :: t)

end

/-- Five polygons on a line: 1 is linked to 2 and 3, both to 4, that to 5. The ground of 3 is twice as dear. Midpoints: 1-2 at 0,
2-4 at -5, 1-3 and 3-4 at -1, 4-5 at 10. -/
def lineEnv : Env ℚ ℚ where
  links r := if r = 1#32 then [(2#32, 0xff#8), (3#32, 0xff#8)]
    else if r = 2#32 then [(4#32, 0xff#8)]
    else if r = 3#32 then [(4#32, 0xff#8)]
    else if r = 4#32 then [(5#32, 0xff#8)] else []
  pass _ := true
  mid a b := some (if b = 2#32 then 0 else if b = 3#32 then -1 else if b = 5#32 then 10 else if a = 2#32 then -5 else -1)
  cost a b _ s _ := (if s = 3#32 then 2 else 1) * |a - b|
  heur a b := |a - b| * (999 / 1000)
  valid _ := true

def lineQuery : Query ℚ := { start := 1#32, goal := 5#32, startPos := 0, endPos := 10, argsOK := true }

def lineBlank : Node ℚ ℚ := ⟨0, 0, 0, 0, 0, false, false, false, 0⟩

theorem line_fair : FairCosts lineEnv lineQuery := by
  have hnn : ∀ x : ℚ, 0 ≤ |x| := abs_nonneg
  refine ⟨?_, fun _ _ _ _ _ _ => rfl, ?_, ?_, ?_⟩
  · intro a b r s t
    show (0 : ℚ) ≤ (if s = 3#32 then 2 else 1) * |a - b|
    have := hnn (a - b)
    split <;> linarith
  · intro a b s t
    show |a - 10| * (999 / 1000) ≤ (if s = 3#32 then 2 else 1) * |a - b| + |b - 10| * (999 / 1000)
    have h1 := hnn (a - b)
    have h2 : |a - 10| ≤ |a - b| + |b - 10| := abs_sub_le a b 10
    split <;> linarith
  · intro a s
    show |a - 10| * (999 / 1000) ≤ (if s = 3#32 then 2 else 1) * |a - 10|
    have := hnn (a - 10)
    split <;> linarith
  · intro r l hl
    unfold lineEnv at hl
    simp only at hl
    split at hl
    · simp at hl; rcases hl with rfl | rfl <;> rfl
    split at hl
    · simp at hl; subst hl; rfl
    split at hl
    · simp at hl; subst hl; rfl
    split at hl
    · simp at hl; subst hl; rfl
    · simp at hl

/-- The hypotheses of `findPath_cheapest_partial` are met by a search with two ways to go. -/
example : lineQuery.start ≠ lineQuery.goal ∧ QueryObj (Pool.new lineBlank 8 2) (Heap.new 8) 8 ∧
    findPath lineEnv lineQuery (Pool.new lineBlank 8 2) (Heap.new 8) 8 8 = .ok [1#32, 2#32, 4#32, 5#32] Status.success :=
  ⟨by decide, ⟨by decide, by decide, rfl, by decide, by decide, rfl⟩, by decide +kernel⟩

/-- **C145** (refuted for own midpoints). With every corridor measured over its own edge midpoints the path need not be a cheapest
one: a polygon met a second time keeps the position of its first visit (detour/query.go:281-290), so the cheaper way into it is
costed to the wrong point. Here the path returned costs 20 and another 12. -/
theorem findPath_cheapest_refuted :
    ∃ (e : Env ℚ ℚ) (q : Query ℚ) (p : Pool ℚ ℚ) (h : Heap) (path walk : List Ref), FairCosts e q ∧ q.start ≠ q.goal ∧ QueryObj p h 8 ∧
      findPath e q p h 8 8 = .ok path Status.success ∧ Corridor e q.start walk ∧ walk.getLast? = some q.goal ∧
      ownCost e q q.startPos path = 20 ∧ ownCost e q q.startPos walk = 12 := by
  refine ⟨lineEnv, lineQuery, Pool.new lineBlank 8 2, Heap.new 8, [1#32, 2#32, 4#32, 5#32], [1#32, 3#32, 4#32, 5#32], line_fair,
    by decide, ⟨by decide, by decide, rfl, by decide, by decide, rfl⟩, by decide +kernel, ⟨rfl, ?_⟩, rfl, by decide +kernel, by decide +kernel⟩
  refine List.IsChain.cons_cons ⟨0xff#8, by decide, by decide, rfl⟩ (List.IsChain.cons_cons ⟨0xff#8, by decide, by decide, rfl⟩
    (List.IsChain.cons_cons ⟨0xff#8, by decide, by decide, rfl⟩ (List.IsChain.singleton _)))

end Verif.Detour
