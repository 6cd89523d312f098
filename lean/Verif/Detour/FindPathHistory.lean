/-
Property C30: the result of `FindPath` does not depend on what earlier searches left in the node pool
and in the open list.
-/
import Verif.Detour.FindPathProps

set_option linter.unusedSectionVars false

namespace Verif.Detour

section
variable {P C : Type} [LinearOrder C] [Add C] [Zero C]

/-- Two searches agree on everything that is live. -/
structure Sim (s t : Search P C) : Prop where
  count : t.pool.count = s.pool.count
  max : t.pool.maxNodes = s.pool.maxNodes
  nodes : ∀ i, i < s.pool.count → t.pool.nodes i = s.pool.nodes i
  size : t.heap.size = s.heap.size
  len : t.heap.len = s.heap.len
  arr : AgreeBelow s.heap.size s.heap.arr t.heap.arr
  best : t.best = s.best
  bestCost : t.bestCost = s.bestCost
  oon : t.outOfNodes = s.outOfNodes

theorem table_congr {p p' : Pool P C} (hc : p'.count = p.count)
    (hn : ∀ i, i < p.count → (p'.nodes i).key = (p.nodes i).key) : p'.table = p.table := by
  unfold Pool.table
  rw [hc]
  apply List.map_congr_left
  intro i hi
  exact hn i (List.mem_range.1 hi)

/-- The entry that is overwritten does not matter to `bubbleUp`. -/
theorem bubbleUp_upd (key : Nat → C) (a : Nat → Nat) (i x y : Nat) :
    bubbleUp key (upd a i y) i x = bubbleUp key a i x := by
  rw [bubbleUp, bubbleUp.eq_1 key a]
  have hu : ∀ z, upd (upd a i y) i z = upd a i z := by
    intro z
    funext j
    unfold upd
    split <;> rfl
  by_cases hi : 0 < i
  · have : upd a i y ((i - 1) / 2) = a ((i - 1) / 2) := upd_ne _ _ (by omega)
    rw [this, hu, hu]
  · rw [if_neg (fun h => hi h.1), if_neg (fun h => hi h.1), hu]

theorem find?_agree {f g : Nat → Bool} (l : List Nat) (h : ∀ j ∈ l, f j = g j) :
    l.find? g = l.find? f := by
  induction l with
  | nil => rfl
  | cons a l ih =>
    rw [List.find?_cons, List.find?_cons, h a (by simp), ih (fun j hj => h j (by simp [hj]))]

/-- Open lists that agree on their entries still agree after a push or modify. -/
theorem requeue_sim {p p' : Pool P C} {h h' : Heap} {w : Bool} {i : Nat}
    (hsz : h'.size = h.size) (hlen : h'.len = h.len) (harr : AgreeBelow h.size h.arr h'.arr)
    (hx : totals p i = totals p' i)
    (hk : ∀ j ∈ h.toList, j ≠ i → totals p j = totals p' j) :
    (requeue p h w i = none ∧ requeue p' h' w i = none) ∨
    ∃ g g', requeue p h w i = some g ∧ requeue p' h' w i = some g' ∧ g'.size = g.size ∧
      g'.len = g.len ∧ AgreeBelow g.size g.arr g'.arr := by
  have hkey : ∀ j, j < h.size → totals p (h.arr j) = totals p' (h.arr j) := by
    intro j hj
    by_cases hji : h.arr j = i
    · rw [hji]; exact hx
    · exact hk _ (mem_entries.2 ⟨j, hj, rfl⟩) hji
  unfold requeue
  cases w
  · simp only [Bool.false_eq_true, if_false]
    unfold Heap.push
    rw [hsz, hlen]
    split
    · right
      refine ⟨_, _, rfl, rfl, rfl, rfl, ?_⟩
      simp only
      rw [← bubbleUp_upd (totals p) h.arr h.size i 0, ← bubbleUp_upd (totals p') h'.arr h.size i 0]
      apply bubbleUp_agree (h.size + 1) (by omega)
      · intro j hj
        unfold upd
        split
        · rfl
        · exact harr j (by omega)
      · exact hx
      · intro j hj hne
        rw [upd_ne _ _ hne]
        exact hkey j (by omega)
    · exact Or.inl ⟨rfl, rfl⟩
  · simp only [if_true]
    right
    refine ⟨_, _, rfl, rfl, ?_⟩
    have hf : (List.range h'.size).find? (fun j => h'.arr j == i)
        = (List.range h.size).find? (fun j => h.arr j == i) := by
      rw [hsz]
      exact find?_agree _ (fun j hj => by rw [harr j (List.mem_range.1 hj)])
    unfold Heap.modify
    rw [hf]
    cases hfi : (List.range h.size).find? (fun j => h.arr j == i) with
    | none => exact ⟨hsz, hlen, harr⟩
    | some j =>
      refine ⟨hsz, hlen, ?_⟩
      have hj : j < h.size := List.mem_range.1 (List.mem_of_find?_eq_some hfi)
      exact bubbleUp_agree h.size hj harr hx (fun k hk' _ => hkey k hk')

theorem pop_sim {p p' : Pool P C} {h h' : Heap}
    (hsz : h'.size = h.size) (hlen : h'.len = h.len) (harr : AgreeBelow h.size h.arr h'.arr)
    (hk : ∀ j ∈ h.toList, totals p j = totals p' j) (hne : h.size ≠ 0) :
    ∃ x g g', h.pop (totals p) = some (x, g) ∧ h'.pop (totals p') = some (x, g') ∧
      g'.size = g.size ∧ g'.len = g.len ∧ AgreeBelow g.size g.arr g'.arr := by
  have hkey : ∀ j, j < h.size → totals p (h.arr j) = totals p' (h.arr j) :=
    fun j hj => hk _ (mem_entries.2 ⟨j, hj, rfl⟩)
  unfold Heap.pop
  rw [hsz, if_neg hne, if_neg hne, ← harr 0 (by omega), ← harr (h.size - 1) (by omega)]
  refine ⟨_, _, _, rfl, rfl, rfl, hlen, ?_⟩
  simp only
  by_cases h1 : h.size - 1 = 0
  · intro j hj; omega
  · exact trickleDown_agree (h.size - 1) (by omega) (fun j hj => harr j (by omega))
      (hkey _ (by omega)) (fun j hj _ => hkey j (by omega))

/-- One visit of a node, in two searches that agree on live nodes. -/
theorem visit_sim {e : Env P C} {q : Query P} {b : Nat} {bestRef pref nref : Ref} {i : Nat}
    {s t : Search P C} (hcount : t.pool.count = s.pool.count)
    (hmax : t.pool.maxNodes = s.pool.maxNodes)
    (hnodes : ∀ j, j < s.pool.count → j ≠ i → t.pool.nodes j = s.pool.nodes j)
    (hplace : place e bestRef nref (t.pool.nodes i) = place e bestRef nref (s.pool.nodes i))
    (hb : b < s.pool.count) (hsz : t.heap.size = s.heap.size) (hlen : t.heap.len = s.heap.len)
    (harr : AgreeBelow s.heap.size s.heap.arr t.heap.arr) (hbest : t.best = s.best)
    (hbc : t.bestCost = s.bestCost) (hoon : t.outOfNodes = s.outOfNodes)
    (hlive : ∀ j ∈ s.heap.toList, j < s.pool.count)
    {s' t' : Search P C} (hs : visit e q b bestRef pref nref i s = some s')
    (ht : visit e q b bestRef pref nref i t = some t') : Sim s' t' := by
  unfold visit at hs ht
  rw [hplace] at ht
  have hbn : (t.pool.write i (place e bestRef nref (s.pool.nodes i))).nodes b
      = (s.pool.write i (place e bestRef nref (s.pool.nodes i))).nodes b := by
    unfold Pool.write upd
    simp only
    split
    · rfl
    · rename_i hbi
      exact hnodes b hb hbi
  simp only [hbn] at hs ht
  generalize place e bestRef nref (s.pool.nodes i) = n at hs ht hbn
  generalize stepCost e q bestRef pref nref
    ((s.pool.write i n).nodes b) n = ch at hs ht
  have hw : ∀ m : Node P C, ∀ j, j < s.pool.count →
      (t.pool.write i m).nodes j = (s.pool.write i m).nodes j := by
    intro m j hj
    unfold Pool.write upd
    simp only
    split
    · rfl
    · rename_i hji
      exact hnodes j hj hji
  have hw2 : ∀ m : Node P C, ∀ j, j < s.pool.count →
      ((t.pool.write i n).write i m).nodes j = ((s.pool.write i n).write i m).nodes j := by
    intro m j hj
    have : ∀ p : Pool P C, (p.write i n).write i m = p.write i m := by
      intro p
      unfold Pool.write
      simp only [Pool.mk.injEq, and_true]
      funext k
      unfold upd
      split <;> rfl
    rw [this, this]
    exact hw m j hj
  split at hs
  · rename_i h1
    rw [if_pos h1] at ht
    simp only [Option.some.injEq] at hs ht
    subst hs; subst ht
    exact ⟨hcount, hmax, hw n, hsz, hlen, harr, hbest, hbc, hoon⟩
  · rename_i h1
    rw [if_neg h1] at ht
    split at hs
    · rename_i h2
      rw [if_pos h2] at ht
      simp only [Option.some.injEq] at hs ht
      subst hs; subst ht
      exact ⟨hcount, hmax, hw n, hsz, hlen, harr, hbest, hbc, hoon⟩
    · rename_i h2
      rw [if_neg h2] at ht
      rcases requeue_sim (p := (s.pool.write i n).write i (settle n b nref ch.1 (ch.1 + ch.2)))
        (p' := (t.pool.write i n).write i (settle n b nref ch.1 (ch.1 + ch.2)))
        (w := n.opened) (i := i) hsz hlen harr (by
          unfold totals Pool.write
          simp only [upd_same]) (by
          intro j hj _
          unfold totals
          rw [hw2 _ j (hlive j hj)]) with ⟨r1, r2⟩ | ⟨g, g', r1, r2, r3, r4, r5⟩
      · rw [r1] at hs
        simp at hs
      · rw [r1] at hs
        rw [r2] at ht
        simp only at hs ht
        rw [hbc] at ht
        split at hs
        · rename_i h3
          rw [if_pos h3] at ht
          simp only [Option.some.injEq] at hs ht
          subst hs; subst ht
          exact ⟨hcount, hmax, hw2 _, r3, r4, r5, rfl, rfl, hoon⟩
        · rename_i h3
          rw [if_neg h3] at ht
          simp only [Option.some.injEq] at hs ht
          subst hs; subst ht
          exact ⟨hcount, hmax, hw2 _, r3, r4, r5, hbest, rfl, hoon⟩

theorem relax_sim {e : Env P C} {q : Query P} {mx : Nat} {b : Nat}
    {d : List (Ref × BitVec 8)} {s t : Search P C} (hmid : ∀ a b, Edge e a b → e.mid a b ≠ none)
    (hs : SInv e q mx (some (b, d)) s) (ht : SInv e q mx (some (b, d)) t) (hsim : Sim s t)
    (hb : b < s.pool.count) (pref : Ref) (l : Ref × BitVec 8)
    (hl : l ∈ e.links (s.pool.nodes b).id) {s' t' : Search P C}
    (h1 : relax e q b (s.pool.nodes b).id pref s l = some s')
    (h2 : relax e q b (s.pool.nodes b).id pref t l = some t') : Sim s' t' := by
  unfold relax at h1 h2
  split at h1
  · rename_i hc
    rw [if_pos hc] at h2
    simp only [Option.some.injEq] at h1 h2
    subst h1; subst h2
    exact hsim
  rename_i hc
  rw [if_neg hc] at h2
  split at h1
  · rename_i hc
    rw [if_pos hc] at h2
    simp only [Option.some.injEq] at h1 h2
    subst h1; subst h2
    exact hsim
  rename_i hp
  rw [if_neg hp] at h2
  have hedge : Edge e (s.pool.nodes b).id l.1 :=
    ⟨l.2, hl, (not_or.1 hc).1, by simpa using hp⟩
  have htab : t.pool.table = s.pool.table :=
    table_congr hsim.count (fun i hi => by rw [hsim.nodes i hi])
  have hlive : ∀ j ∈ s.heap.toList, j < s.pool.count := fun j hj => ((hs.mem j).1 hj).1
  rcases node_cases hs.pool (l.1, crossSide l.2) with
    ⟨i, a1, a2, a3⟩ | ⟨a1, a2, a3⟩ | ⟨p', a1, a2, a3, a4, a5, a6, a7, a8⟩
  · rcases node_cases ht.pool (l.1, crossSide l.2) with
      ⟨i', b1, b2, b3⟩ | ⟨b1, b2, b3⟩ | ⟨p'', b1, b2, b3, b4, b5, b6, b7, b8⟩
    · have hii : i' = i := by
        apply ht.pool.keys i' i b2 (by rw [hsim.count]; exact a2)
        rw [b3, hsim.nodes i a2, a3]
      subst hii
      rw [a1] at h1
      rw [b1] at h2
      exact visit_sim hsim.count hsim.max (fun j hj _ => hsim.nodes j hj)
        (by rw [hsim.nodes i' a2]) hb hsim.size hsim.len hsim.arr hsim.best
        hsim.bestCost hsim.oon hlive h1 h2
    · rw [htab] at b2
      exact absurd (mem_table.2 ⟨i, a2, a3⟩) b2
    · rw [htab] at b2
      exact absurd (mem_table.2 ⟨i, a2, a3⟩) b2
  · rcases node_cases ht.pool (l.1, crossSide l.2) with
      ⟨i', b1, b2, b3⟩ | ⟨b1, b2, b3⟩ | ⟨p'', b1, b2, b3, b4, b5, b6, b7, b8⟩
    · rw [← htab] at a2
      exact absurd (mem_table.2 ⟨i', b2, b3⟩) a2
    · rw [a1] at h1
      rw [b1] at h2
      simp only [Option.some.injEq] at h1 h2
      subst h1; subst h2
      exact ⟨hsim.count, hsim.max, hsim.nodes, hsim.size, hsim.len, hsim.arr, hsim.best,
        hsim.bestCost, rfl⟩
    · rw [hsim.count, hsim.max, a3] at b3
      omega
  · rcases node_cases ht.pool (l.1, crossSide l.2) with
      ⟨i', b1, b2, b3⟩ | ⟨b1, b2, b3⟩ | ⟨p'', b1, b2, b3, b4, b5, b6, b7, b8⟩
    · rw [← htab] at a2
      exact absurd (mem_table.2 ⟨i', b2, b3⟩) a2
    · rw [hsim.count, hsim.max] at b3
      omega
    · rw [a1] at h1
      rw [b1] at h2
      simp only at h1 h2
      rw [hsim.count] at h2
      refine visit_sim (s := { s with pool := p' }) (t := { t with pool := p'' })
        (by simp only; rw [b5, a5, hsim.count]) (by simp only; rw [b6, a6, hsim.max])
        ?_ ?_ (by simp only; omega) hsim.size hsim.len hsim.arr hsim.best
        hsim.bestCost hsim.oon (fun j hj => by have := hlive j hj; simp only; omega) h1 h2
      · intro j hj hne
        simp only at hj ⊢
        rw [b8, a8, hsim.count, upd_ne _ _ hne, upd_ne _ _ hne]
        exact hsim.nodes j (by omega)
      · simp only
        rw [b8, a8, hsim.count, upd_same, upd_same]
        cases hm : e.mid (s.pool.nodes b).id l.1 with
        | none => exact absurd hm (hmid _ _ hedge)
        | some x => simp [place, Node.reset, hm]

theorem relaxAll_sim {e : Env P C} (laws : CostLaws C) (hnn : e.NonNeg)
    (hmid : ∀ a b, Edge e a b → e.mid a b ≠ none) {q : Query P} {mx : Nat} {b : Nat} {r : Ref}
    (hr : r ≠ q.goal) (pref : Ref) (ls : List (Ref × BitVec 8)) (hls : ∀ l ∈ ls, l ∈ e.links r)
    {d : List (Ref × BitVec 8)} {s t : Search P C} (hs : SInv e q mx (some (b, d)) s)
    (ht : SInv e q mx (some (b, d)) t) (hsim : Sim s t) (hb : b < s.pool.count)
    (hbr : (s.pool.nodes b).id = r)
    (hpref : pref ≠ 0#32 → ∃ k, k < s.pool.count ∧ (s.pool.nodes k).id = pref)
    {s' t' : Search P C} (h1 : relaxAll e q b r pref ls s = some s')
    (h2 : relaxAll e q b r pref ls t = some t') : Sim s' t' := by
  induction ls generalizing s t d with
  | nil =>
    simp only [relaxAll, Option.some.injEq] at h1 h2
    subst h1; subst h2
    exact hsim
  | cons l ls ih =>
    have hpt : pref ≠ 0#32 → ∃ k, k < t.pool.count ∧ (t.pool.nodes k).id = pref := by
      intro hp
      obtain ⟨k, k1, k2⟩ := hpref hp
      exact ⟨k, by rw [hsim.count]; exact k1, by rw [hsim.nodes k k1]; exact k2⟩
    have hbt : b < t.pool.count := by rw [hsim.count]; exact hb
    have hbrt : (t.pool.nodes b).id = r := by rw [hsim.nodes b hb]; exact hbr
    obtain ⟨s1, a1, a2, a3, a4⟩ := relax_inv laws hnn hs hb (by rw [hbr]; exact hr) pref hpref l
      (by rw [hbr]; exact hls l (by simp))
    obtain ⟨t1, b1, b2, b3, b4⟩ := relax_inv laws hnn ht hbt (by rw [hbrt]; exact hr) pref hpt l
      (by rw [hbrt]; exact hls l (by simp))
    rw [relaxAll] at h1 h2
    rw [hbr] at a1
    rw [hbrt] at b1
    have hsim1 : Sim s1 t1 := relax_sim hmid hs ht hsim hb pref l
      (by rw [hbr]; exact hls l (by simp)) (by rw [hbr]; exact a1) (by rw [hbr]; exact b1)
    rw [a1] at h1
    rw [b1] at h2
    have hg := a3.grew
    exact ih (fun l' hl' => hls l' (by simp [hl'])) a2 b2 hsim1 (by omega)
      (by rw [a4 b hb, hbr]) (fun hp => by
        obtain ⟨k, k1, k2⟩ := hpref hp
        exact ⟨k, by omega, by rw [a4 k k1, k2]⟩) h1 h2

theorem markClosed_sim {s t : Search P C} (hsim : Sim s t) {b : Nat} {g g' : Heap}
    (h1 : g'.size = g.size) (h2 : g'.len = g.len) (h3 : AgreeBelow g.size g.arr g'.arr)
    (hb : b < s.pool.count) :
    Sim { s with pool := markClosed s.pool b, heap := g }
      { t with pool := markClosed t.pool b, heap := g' } := by
  refine ⟨hsim.count, hsim.max, ?_, h1, h2, h3, hsim.best, hsim.bestCost, hsim.oon⟩
  intro i hi
  unfold markClosed Pool.write
  simp only
  rw [hsim.nodes b hb]
  unfold upd
  split
  · rfl
  · exact hsim.nodes i hi

/-- Results of one round correspond. -/
def StepSim : StepOut P C → StepOut P C → Prop
  | .done s, .done t => Sim s t
  | .more s, .more t => Sim s t
  | .panic, .panic => True
  | _, _ => False

theorem searchStep_sim {e : Env P C} (laws : CostLaws C) (hnn : e.NonNeg)
    (hmid : ∀ a b, Edge e a b → e.mid a b ≠ none) {q : Query P} {mx : Nat} {s t : Search P C}
    (hs : SInv e q mx none s) (ht : SInv e q mx none t) (hsim : Sim s t) :
    StepSim (searchStep e q s) (searchStep e q t) := by
  unfold searchStep
  by_cases h0 : s.heap.size = 0
  · rw [if_pos h0, if_pos (by rw [hsim.size]; exact h0)]
    exact hsim
  · rw [if_neg h0, if_neg (by rw [hsim.size]; exact h0)]
    obtain ⟨b, g, g', p1, p2, p3, p4, p5⟩ := pop_sim (p := s.pool) (p' := t.pool)
      hsim.size hsim.len hsim.arr (by
      intro j hj
      unfold totals
      rw [hsim.nodes j ((hs.mem j).1 hj).1]) h0
    rw [p1, p2]
    obtain ⟨c1, c2, c3, c4, c5⟩ := close_inv hs p1
    obtain ⟨d1, d2, d3, d4, d5⟩ := close_inv ht p2
    have hmc := markClosed_sim hsim p3 p4 p5 c1
    have hbn : (markClosed t.pool b).nodes b = (markClosed s.pool b).nodes b := hmc.nodes b c1
    simp only
    rw [hbn]
    split
    · rename_i hg
      exact ⟨hmc.count, hmc.max, hmc.nodes, p3, p4, p5, rfl, hsim.bestCost, hsim.oon⟩
    · rename_i hg
      have hg1 : (s.pool.nodes b).id ≠ q.goal := by rw [← (c3 b).1]; exact hg
      have hg2 : (t.pool.nodes b).id ≠ q.goal := by rw [hsim.nodes b c1]; exact hg1
      have hs1 := c5 hg1
      have ht1 := d5 hg2
      have hpr : parentRef (markClosed t.pool b) b = parentRef (markClosed s.pool b) b := by
        unfold parentRef
        rw [hbn]
        cases hn : nodeAtIdx ((markClosed s.pool b).nodes b).pidx with
        | none => rfl
        | some j =>
          simp only
          have hj : j < s.pool.count := by
            by_cases hb0 : b = 0
            · subst hb0
              have hr0 := hs1.root.2.2.1
              simp only at hr0
              rw [hr0] at hn
              simp [nodeAtIdx] at hn
            · obtain ⟨k, k1, k2, _⟩ := hs1.parent b c1 hb0
              simp only at k2
              rw [k2] at hn
              simp only [nodeAtIdx, Option.some.injEq] at hn
              rw [← hn]
              exact k1
          rw [hmc.nodes j hj]
      rw [hpr]
      obtain ⟨s', r1, _⟩ := relaxAll_inv laws hnn hg
        (parentRef (markClosed s.pool b) b) (e.links ((markClosed s.pool b).nodes b).id)
        (fun l hl => hl) hs1 c1 rfl (fun hp => parentRef_live hs1 c1 hp)
      obtain ⟨t', r2, _⟩ := relaxAll_inv laws hnn hg
        (parentRef (markClosed s.pool b) b) (e.links ((markClosed s.pool b).nodes b).id)
        (fun l hl => hl) ht1 d1 (by simp only; rw [hbn]) (fun hp => by
          rw [← hpr] at hp ⊢
          exact parentRef_live ht1 d1 hp)
      rw [r1, r2]
      exact relaxAll_sim laws hnn hmid hg _ _ (fun l hl => hl) hs1 ht1 hmc c1 rfl
        (fun hp => parentRef_live hs1 c1 hp) r1 r2

theorem searchLoop_sim {e : Env P C} (laws : CostLaws C) (hnn : e.NonNeg)
    (hmid : ∀ a b, Edge e a b → e.mid a b ≠ none) {q : Query P} {mx : Nat} (n : Nat)
    {s t : Search P C} (hs : SInv e q mx none s) (ht : SInv e q mx none t) (hsim : Sim s t) :
    (searchLoop e q n s = none ∧ searchLoop e q n t = none) ∨
    ∃ s' t', searchLoop e q n s = some (.done s') ∧ searchLoop e q n t = some (.done t') ∧
      Finished e q mx s' ∧ Sim s' t' := by
  induction n generalizing s t with
  | zero => exact Or.inl ⟨rfl, rfl⟩
  | succ n ih =>
    have hst := searchStep_sim laws hnn hmid hs ht hsim
    rw [searchLoop, searchLoop]
    rcases searchStep_inv laws hnn hs with ⟨s', e1, e2⟩ | ⟨s', e1, e2, _⟩
    · rcases searchStep_inv laws hnn ht with ⟨t', f1, f2⟩ | ⟨t', f1, f2, _⟩
      · rw [e1, f1] at hst ⊢
        exact Or.inr ⟨s', t', rfl, rfl, e2, hst⟩
      · rw [e1, f1] at hst
        exact absurd hst (by simp [StepSim])
    · rcases searchStep_inv laws hnn ht with ⟨t', f1, f2⟩ | ⟨t', f1, f2, _⟩
      · rw [e1, f1] at hst
        exact absurd hst (by simp [StepSim])
      · rw [e1, f1] at hst ⊢
        exact ih e2 f2 hst

theorem initSearch_sim {e : Env P C} {q : Query P} {mx : Nat}
    {p p' : Pool P C} {h h' : Heap} (ho : QueryObj p h mx) (ho' : QueryObj p' h' mx)
    {s t : Search P C} (hs : initSearch e q p h = some s) (ht : initSearch e q p' h' = some t) :
    Sim s t := by
  have hcl : PoolInv p.clear := clear_inv ho.hash ho.hash' (by rw [ho.max]; exact ho.max1)
  have hcl' : PoolInv p'.clear := clear_inv ho'.hash ho'.hash' (by rw [ho'.max]; exact ho'.max1)
  have hm : p.clear.maxNodes = mx := ho.max
  have hm' : p'.clear.maxNodes = mx := ho'.max
  have h0 : p.clear.count = 0 := rfl
  have h0' : p'.clear.count = 0 := rfl
  have hmx := ho.max0
  unfold initSearch at hs ht
  rcases node_cases hcl (q.start, 0#8) with
    ⟨i, a1, a2, a3⟩ | ⟨a1, a2, a3⟩ | ⟨p1, a1, a2, a3, a4, a5, a6, a7, a8⟩
  · omega
  · omega
  rcases node_cases hcl' (q.start, 0#8) with
    ⟨i, b1, b2, b3⟩ | ⟨b1, b2, b3⟩ | ⟨p2, b1, b2, b3, b4, b5, b6, b7, b8⟩
  · omega
  · omega
  rw [a1] at hs
  rw [b1] at ht
  simp only [h0, h0'] at hs ht a8 b8
  have hn : startNode e q (p2.nodes 0) = startNode e q (p1.nodes 0) := by
    rw [a8, b8, upd_same, upd_same]
    rfl
  rw [hn] at ht
  rw [h0] at a5
  rw [h0'] at b5
  have hk : totals (p1.write 0 (startNode e q (p1.nodes 0))) 0
      = totals (p2.write 0 (startNode e q (p1.nodes 0))) 0 := by
    unfold totals Pool.write
    simp only [upd_same]
  have hreq := requeue_sim (p := p1.write 0 (startNode e q (p1.nodes 0)))
    (p' := p2.write 0 (startNode e q (p1.nodes 0))) (h := h.clear) (h' := h'.clear) (w := false)
    (i := 0) rfl (by show h'.len = h.len; rw [ho.len, ho'.len]) (fun j hj => by simp [Heap.clear] at hj)
    hk (by intro j hj; simp [Heap.toList, Heap.clear, entries] at hj)
  unfold requeue at hreq
  simp only [Bool.false_eq_true, if_false] at hreq
  rcases hreq with ⟨r1, _⟩ | ⟨g, g', r1, r2, r3, r4, r5⟩
  · rw [r1] at hs
    simp at hs
  · rw [r1] at hs
    rw [r2] at ht
    simp only [Option.some.injEq] at hs ht
    subst hs; subst ht
    refine ⟨by simp only [Pool.write]; omega, by simp only [Pool.write]; rw [b6, a6, hm, hm'], ?_,
      r3, r4, r5, rfl, ?_, rfl⟩
    · intro i hi
      simp only [Pool.write] at hi ⊢
      have : i = 0 := by omega
      rw [this, upd_same, upd_same]
    · simp only [Pool.write, upd_same]

/-- **C30**: the outcome of `FindPath`, path and status, is the same for any two query objects of the
same size, whatever earlier searches left in their pools and open lists (and whatever their hash
tables look like). `hmid`: `edgeMidPoint` succeeds on linked polygons; otherwise a position left over
from an earlier search would be read. -/
theorem findPath_history {e : Env P C} {p p' : Pool P C} {h h' : Heap} {mx : Nat}
    (hs : Setting e p h mx) (ho' : QueryObj p' h' mx)
    (hmid : ∀ a b, Edge e a b → e.mid a b ≠ none) (q : Query P) (cap f : Nat) :
    findPath e q p h cap f = findPath e q p' h' cap f := by
  have ho := hs.obj
  unfold findPath
  split
  · rfl
  split
  · rfl
  rename_i hne
  obtain ⟨s, i1, i2⟩ := initSearch_inv (e := e) hs.laws hne ho
  obtain ⟨t, j1, j2⟩ := initSearch_inv (e := e) hs.laws hne ho'
  have hsim := initSearch_sim ho ho' i1 j1
  rw [i1, j1]
  simp only
  rcases searchLoop_sim hs.laws hs.nonneg hmid f i2 j2 hsim with ⟨e1, e2⟩ | ⟨s', t', e1, e2, ⟨fi⟩, hst⟩
  · rw [e1, e2]
  · rw [e1, e2]
    simp only
    obtain ⟨s0, f1, f2, f3, f4, f5, f6⟩ := fi
    have hlive : s'.best < s0.pool.count := by
      rcases f6 with ⟨h1, _⟩ | ⟨h1, _⟩
      · omega
      · rw [h1]; exact f1.best.1
    obtain ⟨l, c1, c2⟩ := f1.chain _ hlive
    have hc1 : Chain (par s'.pool) (some s'.best) l := by
      have : par s'.pool = par s0.pool := by
        funext i
        unfold par
        rw [(f5 i).2.1]
      rw [this]
      exact c1
    have hlen : l.length ≤ s'.pool.maxNodes := by
      rw [f4]
      exact Nat.le_trans (c1.length_le c2) f1.pool.count
    have hc2 : Chain (par t'.pool) (some t'.best) l := by
      rw [hst.best]
      apply hc1.congr
      intro a ha
      have := c2 a ha
      unfold par
      rw [hst.nodes a (by omega)]
    rw [pathToNode_eq hc1 hlen, pathToNode_eq hc2 (by rw [hst.max]; exact hlen)]
    simp only
    have hids : (l.map fun i => (t'.pool.nodes i).id) = l.map fun i => (s'.pool.nodes i).id := by
      apply List.map_congr_left
      intro a ha
      have := c2 a ha
      rw [hst.nodes a (by omega)]
    rw [hids, hst.best, hst.oon, hst.nodes _ (by omega)]

/-- A pool that has seen other searches, and one with another hash table, give the same answers. -/
example (q : Query Nat) (junk : Pool Nat Nat) (h : Heap) (hh : h.len = 9)
    (hj : junk.maxNodes = 8 ∧ junk.hashSize = 2) (cap f : Nat) :
    findPath demoEnv q (Pool.new demoBlank 8 2) (Heap.new 8) cap f = findPath demoEnv q junk h cap f :=
  findPath_history (mx := 8)
    ⟨costLaws_nat, fun _ _ _ _ _ => Nat.zero_le _,
      ⟨by decide, by decide, rfl, by decide, by decide, rfl⟩⟩
    ⟨by omega, by omega, hj.1, by decide, by decide, hh⟩ (fun _ _ _ => by simp [demoEnv]) q cap f

end

end Verif.Detour
