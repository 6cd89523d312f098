/-
The crossing test for points in polygons: `pointInPoly` (recast/area.go:291-307); the same loop is in
`distancePtPolyEdgesSqr` (detour/common.go:87-101).

Exact arithmetic over a linearly ordered field; a vertex is its x and z (`Q2.u`, `Q2.v`), as the code
reads no other coordinate.
-/
import Verif.Recast.ClipHull

namespace Verif.Recast

set_option linter.unusedSectionVars false
set_option linter.unusedSimpArgs false

section
variable {K : Type} [Field K] [LinearOrder K] [IsStrictOrderedRing K]

/-! ## Model -/

/-- The condition of the loop for `vj = a`, `vi = b` (recast/area.go:300-301). -/
def crosses (p a b : Q2 K) : Bool :=
  (decide (b.v > p.v) != decide (a.v > p.v)) &&
    decide (p.u < (a.u - b.u) * (p.v - b.v) / (a.v - b.v) + b.u)

/-- The loop, from `vj` on (recast/area.go:297-305). -/
def pnLoop (p : Q2 K) : Q2 K → List (Q2 K) → Bool → Bool
  | _, [], c => c
  | a, b :: l, c => pnLoop p b l (if crosses p a b then !c else c)

/-- `pointInPoly` (recast/area.go:291-307); it starts with `j = nvert-1`. -/
def pointInPoly (l : List (Q2 K)) (p : Q2 K) : Bool :=
  match l.getLast? with
  | none => false
  | some a => pnLoop p a l false

/-! ## Specification -/

/-- Consecutive vertices, from `a` on. -/
def pairs : Q2 K → List (Q2 K) → List (Q2 K × Q2 K)
  | _, [] => []
  | a, b :: l => (a, b) :: pairs b l

/-- The edges of a polygon, as pairs of end points. -/
def edges (l : List (Q2 K)) : List (Q2 K × Q2 K) :=
  match l.getLast? with
  | none => []
  | some a => pairs a l

/-- Twice the signed area of the triangle `a b p`. -/
def side (a b p : Q2 K) : K := (b.u - a.u) * (p.v - a.v) - (b.v - a.v) * (p.u - a.u)

/-- `p` lies strictly inside: on the same side of all edges. -/
def Inside (l : List (Q2 K)) (p : Q2 K) : Prop :=
  l ≠ [] ∧ ((∀ e ∈ edges l, 0 < side e.1 e.2 p) ∨ ∀ e ∈ edges l, side e.1 e.2 p < 0)

/-- `p` lies strictly outside: a line separates it from all vertices. -/
def Outside (l : List (Q2 K)) (p : Q2 K) : Prop := ∃ g : Aff K, (∀ q ∈ l, 0 ≤ g.val q) ∧ g.val p < 0

/-! ## Counting crossings -/

/-- Whether a vertex lies above the point. -/
def above (p q : Q2 K) : Bool := decide (q.v > p.v)

theorem pairs_snd (a : Q2 K) (l : List (Q2 K)) (q : Q2 K) (h : q ∈ l) : ∃ r, (r, q) ∈ pairs a l := by
  induction l generalizing a with
  | nil => simp at h
  | cons b l ih =>
    rcases List.mem_cons.1 h with rfl | h
    · exact ⟨a, by simp [pairs]⟩
    · obtain ⟨r, hr⟩ := ih b h
      exact ⟨r, by simp [pairs, hr]⟩

theorem pairs_mem (a : Q2 K) (l : List (Q2 K)) (e : Q2 K × Q2 K) (h : e ∈ pairs a l) :
    (e.1 = a ∨ e.1 ∈ l) ∧ e.2 ∈ l := by
  induction l generalizing a with
  | nil => simp [pairs] at h
  | cons b l ih =>
    rw [pairs, List.mem_cons] at h
    rcases h with rfl | h
    · simp
    · obtain ⟨h1, h2⟩ := ih b h
      refine ⟨Or.inr ?_, by simp [h2]⟩
      rcases h1 with h1 | h1
      · rw [h1]; simp
      · simp [h1]

/-- If exactly the edges with property `P` cross, the result is the parity of their number. -/
theorem pnLoop_count (p : Q2 K) (P : Q2 K → Q2 K → Bool) (cnt : Bool → List Bool → Nat)
    (h0 : ∀ a, cnt a [] = 0)
    (hs : ∀ a b l, cnt (above p a) (above p b :: l) = (if P a b then 1 else 0) + cnt (above p b) l)
    (l : List (Q2 K)) : ∀ (a : Q2 K) (c : Bool), (∀ e ∈ pairs a l, crosses p e.1 e.2 = P e.1 e.2) →
    pnLoop p a l c = (c != decide (cnt (above p a) (l.map (above p)) % 2 = 1)) := by
  induction l with
  | nil => intro a c _; simp [pnLoop, h0]
  | cons b l ih =>
    intro a c h
    rw [pnLoop, List.map_cons, hs, ih b _ (fun e he => h e (by simp [pairs, he])), h (a, b) (by simp [pairs])]
    cases hP : P a b
    · simp
    · simp only [if_true]
      generalize cnt (above p b) (l.map (above p)) = n
      have : n % 2 = 0 ∨ n % 2 = 1 := by omega
      rcases this with e | e
      · have : (1 + n) % 2 = 1 := by omega
        cases c <;> simp [e, this]
      · have : (1 + n) % 2 = 0 := by omega
        cases c <;> simp [e, this]

theorem crosses_change {p a b : Q2 K} (h : above p a = above p b) : crosses p a b = false := by
  unfold crosses
  unfold above at h
  rw [h]
  simp

/-- Where an upward edge meets the horizontal line of the point. -/
theorem crosses_up {p a b : Q2 K} (ha : above p a = false) (hb : above p b = true) :
    crosses p a b = decide (0 < side a b p) := by
  unfold above at ha hb
  simp only [gt_iff_lt, decide_eq_false_iff_not, not_lt, decide_eq_true_eq] at ha hb
  unfold crosses
  have hne : a.v - b.v < 0 := by linarith
  have e : (decide (b.v > p.v) != decide (a.v > p.v)) = true := by
    rw [decide_eq_true hb, decide_eq_false (by simpa using ha)]; rfl
  rw [e, Bool.true_and, decide_eq_decide, ← sub_lt_iff_lt_add, lt_div_iff_of_neg hne]
  unfold side
  constructor <;> intro h <;> nlinarith

theorem crosses_down {p a b : Q2 K} (ha : above p a = true) (hb : above p b = false) :
    crosses p a b = decide (side a b p < 0) := by
  unfold above at ha hb
  simp only [gt_iff_lt, decide_eq_false_iff_not, not_lt, decide_eq_true_eq] at ha hb
  unfold crosses
  have hne : 0 < a.v - b.v := by linarith
  have e : (decide (b.v > p.v) != decide (a.v > p.v)) = true := by
    rw [decide_eq_true (p := a.v > p.v) ha, decide_eq_false (by simpa using hb)]; rfl
  rw [e, Bool.true_and, decide_eq_decide, ← sub_lt_iff_lt_add, lt_div_iff₀ hne]
  unfold side
  constructor <;> intro h <;> nlinarith

/-! ## Outside -/

/-- A point of the horizontal line of `p` where a crossing edge meets it, times the height of the edge. -/
theorem change_hull (g : Aff K) {p a b : Q2 K} (ha : 0 ≤ g.val a) (hb : 0 ≤ g.val b) (h : above p a ≠ above p b) :
    ∃ t : K, 0 ≤ t ∧ t ≤ 1 ∧ (Q2.mix a b t).v = p.v ∧ 0 ≤ g.val (Q2.mix a b t) ∧
      (crosses p a b = decide (p.u < (Q2.mix a b t).u)) := by
  have key : (p.v - a.v) / (b.v - a.v) ∈ Set.Icc (0 : K) 1 ∧ b.v - a.v ≠ 0 := by
    unfold above at h
    by_cases h1 : a.v > p.v
    · have h2 : ¬ b.v > p.v := by
        intro h2; rw [decide_eq_true h1, decide_eq_true h2] at h; exact h rfl
      have hn : b.v - a.v < 0 := by linarith
      exact ⟨⟨div_nonneg_of_nonpos (by linarith) hn.le, by rw [div_le_one_of_neg hn]; linarith⟩, hn.ne⟩
    · have h2 : b.v > p.v := by
        by_contra h2; rw [decide_eq_false h1, decide_eq_false h2] at h; exact h rfl
      have hn : 0 < b.v - a.v := by linarith
      exact ⟨⟨div_nonneg (by linarith) hn.le, by rw [div_le_one hn]; linarith⟩, hn.ne'⟩
  obtain ⟨⟨h0, h1⟩, hne⟩ := key
  refine ⟨(p.v - a.v) / (b.v - a.v), h0, h1, ?_, ?_, ?_⟩
  · simp only [Q2.mix]
    field_simp
    ring
  · rw [Aff.val_mix]
    generalize (p.v - a.v) / (b.v - a.v) = t at h0 h1
    nlinarith
  · unfold crosses
    have e : (decide (b.v > p.v) != decide (a.v > p.v)) = true := by
      unfold above at h
      simp only [bne_iff_ne, ne_eq]
      exact fun h' => h h'.symm
    rw [e, Bool.true_and, decide_eq_decide]
    have hne' : a.v - b.v ≠ 0 := fun h => hne (by linarith)
    have : (a.u - b.u) * (p.v - b.v) / (a.v - b.v) + b.u = (Q2.mix a b ((p.v - a.v) / (b.v - a.v))).u := by
      simp only [Q2.mix]
      field_simp
      have e : a.v - b.v = -(b.v - a.v) := by ring
      rw [e]
      ring
    rw [this]

theorem even_tr {l : List Bool} {z : Bool} (h : l.getLast? = some z) : tr z l % 2 = 0 := by
  have h1 := (ups_eq_downs h).2
  have : ctr l = tr z l := by simp [ctr, h]
  omega

/-- **C92** The crossing test says no for every point that a line separates from all vertices, for every polygon,
convex or not. -/
theorem pointInPoly_outside (l : List (Q2 K)) (p : Q2 K) (h : Outside l p) : pointInPoly l p = false := by
  obtain ⟨g, hg, hp⟩ := h
  unfold pointInPoly
  cases hl : l.getLast? with
  | none => rfl
  | some z =>
    show pnLoop p z l false = false
    have hz : z ∈ l := List.mem_of_getLast? hl
    have hzl : (l.map (above p)).getLast? = some (above p z) := by rw [List.getLast?_map, hl]; rfl
    have hmem : ∀ e ∈ pairs z l, e.1 ∈ l ∧ e.2 ∈ l := by
      intro e he
      obtain ⟨h1, h2⟩ := pairs_mem z l e he
      refine ⟨?_, h2⟩
      rcases h1 with h1 | h1
      · rw [h1]; exact hz
      · exact h1
    by_cases hex : ∃ e ∈ pairs z l, crosses p e.1 e.2 = true
    · -- then all changing edges cross
      obtain ⟨e0, he0, hc0⟩ := hex
      have hne0 : above p e0.1 ≠ above p e0.2 := by
        intro h; rw [crosses_change h] at hc0; exact absurd hc0 (by simp)
      obtain ⟨t0, -, -, v0, g0, c0⟩ := change_hull g (hg _ (hmem e0 he0).1) (hg _ (hmem e0 he0).2) hne0
      rw [c0, decide_eq_true_eq] at hc0
      have hall : ∀ e ∈ pairs z l, crosses p e.1 e.2 = (above p e.1 != above p e.2) := by
        intro e he
        by_cases hne : above p e.1 = above p e.2
        · rw [crosses_change hne, hne]; simp
        · obtain ⟨t, -, -, v1, g1, c1⟩ := change_hull g (hg _ (hmem e he).1) (hg _ (hmem e he).2) hne
          rw [c1]
          have : p.u < (Q2.mix e.1 e.2 t).u := by
            by_contra hle
            push Not at hle
            generalize Q2.mix e.1 e.2 t = x at *
            generalize Q2.mix e0.1 e0.2 t0 = y at *
            unfold Aff.val at g0 g1 hp
            rw [v0] at g0
            rw [v1] at g1
            -- p is between x and y
            rcases lt_trichotomy g.a 0 with ha | ha | ha
            · nlinarith [mul_le_mul_of_nonpos_left hc0.le ha.le]
            · rw [ha] at g0 hp; linarith
            · nlinarith [mul_le_mul_of_nonneg_left hle ha.le]
          rw [decide_eq_true this]
          have : (above p e.1 != above p e.2) = true := by simpa using hne
          rw [this]
      rw [pnLoop_count p (fun a b => above p a != above p b) tr (fun _ => rfl) (fun a b l => by
        rw [tr]; cases above p a <;> cases above p b <;> simp) l z false hall]
      rw [even_tr hzl]; rfl
    · push Not at hex
      have hall : ∀ e ∈ pairs z l, crosses p e.1 e.2 = false := fun e he => by
        have := hex e he; simpa using this
      rw [pnLoop_count p (fun _ _ => false) (fun _ _ => 0) (fun _ => rfl) (fun a b l => by simp) l z false hall]
      rfl

/-! ## Inside -/

/-- Around a point, directions cannot turn the same way all the time on one side of a line. -/
theorem no_turn (u h : Q2 K → K) (a : Q2 K) (l : List (Q2 K)) (ha : a ∈ l) (hh : ∀ q ∈ l, 0 ≤ h q)
    (ht : ∀ e ∈ pairs a l, 0 < u e.2 * h e.1 - u e.1 * h e.2) : False := by
  have hha := hh a ha
  obtain ⟨r, hr⟩ := pairs_snd a l a ha
  have hr1 := ht _ hr
  simp only at hr1
  have hhr : 0 ≤ h r := by
    rcases (pairs_mem a l _ hr).1 with e | e
    · simp only at e; rw [e]; exact hha
    · exact hh r e
  rcases hha.lt_or_eq with hpos | hzero
  · -- all directions come after that of a
    have gen : ∀ (m : List (Q2 K)) (b : Q2 K), (∀ q ∈ m, 0 ≤ h q) → 0 ≤ h b →
        (∀ e ∈ pairs b m, 0 < u e.2 * h e.1 - u e.1 * h e.2) → 0 < u b * h a - u a * h b →
        ∀ q ∈ m, 0 < u q * h a - u a * h q := by
      intro m
      induction m with
      | nil => intro b _ _ _ _ q hq; simp at hq
      | cons c m ih =>
        intro b hm hb hp h1 q hq
        have h2 := hp (b, c) (by simp [pairs])
        simp only at h2
        have hc := hm c (by simp)
        have hbpos : 0 < h b := by
          rcases hb.lt_or_eq with hb' | hb'
          · exact hb'
          · exfalso
            rw [← hb'] at h1 h2
            have e1 : 0 < u b * h a := by linarith
            have e2 : 0 < u b := by
              by_contra hle; push Not at hle; nlinarith
            nlinarith
        have h3 : 0 < u c * h a - u a * h c := by
          have e : h b * (u c * h a - u a * h c) = h a * (u c * h b - u b * h c) + h c * (u b * h a - u a * h b) := by ring
          have : 0 < h b * (u c * h a - u a * h c) := by
            rw [e]
            have := mul_pos hpos h2
            have := mul_nonneg hc h1.le
            linarith
          exact (pos_iff_pos_of_mul_pos this).1 hbpos
        rcases List.mem_cons.1 hq with rfl | hq
        · exact h3
        · exact ih c (fun q hq => hm q (by simp [hq])) hc (fun e he => hp e (by simp [pairs, he])) h3 q hq
    cases l with
    | nil => simp at ha
    | cons b m =>
      have h1 := ht (a, b) (by simp [pairs])
      simp only at h1
      have hfin : 0 < u a * h a - u a * h a := by
        rcases List.mem_cons.1 ha with e | ha'
        · rw [← e] at h1; exact h1
        · exact gen m b (fun q hq => hh q (by simp [hq])) (hh b (by simp)) (fun e he => ht e (by simp [pairs, he])) h1 a ha'
      linarith
  · cases l with
    | nil => simp at ha
    | cons b m =>
      have h1 := ht (a, b) (by simp [pairs])
      simp only at h1
      have hb := hh b (by simp)
      rw [← hzero] at h1 hr1
      have e1 : u a * h b < 0 := by linarith
      have e2 : 0 < u a * h r := by linarith
      have e3 : u a < 0 := by
        by_contra hle; push Not at hle; nlinarith
      nlinarith

theorem side_eq (a b p : Q2 K) :
    side a b p = (b.u - p.u) * (p.v - a.v) - (a.u - p.u) * (p.v - b.v) := by unfold side; ring

theorem ctr_not (l : List Bool) : ctr (l.map (!·)) = ctr l := by
  unfold ctr
  rw [List.getLast?_map]
  cases h : l.getLast? with
  | none => rfl
  | some z =>
    show tr (!z) (l.map (!·)) = tr z l
    clear h
    induction l generalizing z with
    | nil => rfl
    | cons b l ih => rw [List.map_cons, tr, tr, ih]; cases z <;> cases b <;> rfl

/-- In a polygon with a point strictly inside, some vertices lie above the point and some do not. -/
theorem inside_changes {l : List (Q2 K)} {p z : Q2 K} (hl : l.getLast? = some z)
    (h : (∀ e ∈ pairs z l, 0 < side e.1 e.2 p) ∨ ∀ e ∈ pairs z l, side e.1 e.2 p < 0) :
    0 < tr (above p z) (l.map (above p)) := by
  have hz : z ∈ l := List.mem_of_getLast? hl
  by_contra h0
  have h0 : tr (above p z) (l.map (above p)) = 0 := by omega
  have hall := tr_zero _ _ h0
  have hall' : ∀ q ∈ l, above p q = above p z := fun q hq => hall _ (List.mem_map.2 ⟨q, hq, rfl⟩)
  cases hb : above p z
  · have hle : ∀ q ∈ l, 0 ≤ p.v - q.v := by
      intro q hq
      have := hall' q hq
      rw [hb] at this
      unfold above at this
      simp at this
      linarith
    rcases h with h | h
    · exact no_turn (fun q => q.u - p.u) (fun q => p.v - q.v) z l hz hle (fun e he => by
        have := h e he; rw [side_eq] at this; exact this)
    · exact no_turn (fun q => p.u - q.u) (fun q => p.v - q.v) z l hz hle (fun e he => by
        have := h e he; rw [side_eq] at this; linarith)
  · have hle : ∀ q ∈ l, 0 ≤ q.v - p.v := by
      intro q hq
      have := hall' q hq
      rw [hb] at this
      unfold above at this
      simp at this
      linarith
    rcases h with h | h
    · exact no_turn (fun q => p.u - q.u) (fun q => q.v - p.v) z l hz hle (fun e he => by
        have := h e he; rw [side_eq] at this; linarith)
    · exact no_turn (fun q => q.u - p.u) (fun q => q.v - p.v) z l hz hle (fun e he => by
        have := h e he; rw [side_eq] at this; linarith)

/-- **C92** The crossing test says yes for every point strictly inside a convex polygon of either orientation. -/
theorem pointInPoly_inside (l : List (Q2 K)) (hc : Convex l) (p : Q2 K) (h : Inside l p) : pointInPoly l p = true := by
  obtain ⟨hne, h⟩ := h
  unfold pointInPoly
  unfold edges at h
  cases hl : l.getLast? with
  | none => rw [List.getLast?_eq_none_iff] at hl; exact absurd hl hne
  | some z =>
    show pnLoop p z l false = true
    rw [hl] at h
    simp only at h
    have hch := inside_changes hl h
    have hzl : (l.map (above p)).getLast? = some (above p z) := by rw [List.getLast?_map, hl]; rfl
    obtain ⟨hud, hctr⟩ := ups_eq_downs hzl
    have htr := tr_eq (above p z) (l.map (above p))
    have hle : ctr (l.map (above p)) ≤ 2 := by
      have := hc ⟨0, -1, p.v⟩
      rw [← ctr_not, List.map_map] at this
      have e : ((fun b => !b) ∘ fun q : Q2 K => decide (0 ≤ (⟨0, -1, p.v⟩ : Aff K).val q)) = above p := by
        funext q
        show (!decide (0 ≤ (⟨0, -1, p.v⟩ : Aff K).val q)) = decide (q.v > p.v)
        have hv : (⟨0, -1, p.v⟩ : Aff K).val q = p.v - q.v := by simp only [Aff.val]; ring
        rw [hv]
        by_cases hq : q.v > p.v
        · rw [decide_eq_true hq, decide_eq_false (by linarith)]; rfl
        · rw [decide_eq_false hq, decide_eq_true (by linarith)]; rfl
      rwa [e] at this
    have hu : ups (above p z) (l.map (above p)) = 1 := by omega
    have hd : downs (above p z) (l.map (above p)) = 1 := by omega
    rcases h with h | h
    · rw [pnLoop_count p (fun a b => !above p a && above p b) ups (fun _ => rfl) (fun a b l => by
        rw [ups]; cases above p a <;> cases above p b <;> simp) l z false, hu]
      · rfl
      · intro e he
        have hs := h e he
        cases h1 : above p e.1 <;> cases h2 : above p e.2
        · rw [crosses_change (by rw [h1, h2])]; rfl
        · rw [crosses_up h1 h2, decide_eq_true hs]; rfl
        · rw [crosses_down h1 h2, decide_eq_false (not_lt.2 hs.le)]; rfl
        · rw [crosses_change (by rw [h1, h2])]; rfl
    · rw [pnLoop_count p (fun a b => above p a && !above p b) downs (fun _ => rfl) (fun a b l => by
        rw [downs]; cases above p a <;> cases above p b <;> simp) l z false, hd]
      · rfl
      · intro e he
        have hs := h e he
        cases h1 : above p e.1 <;> cases h2 : above p e.2
        · rw [crosses_change (by rw [h1, h2])]; rfl
        · rw [crosses_up h1 h2, decide_eq_false (not_lt.2 hs.le)]; rfl
        · rw [crosses_down h1 h2, decide_eq_true hs]; rfl
        · rw [crosses_change (by rw [h1, h2])]; rfl

end

/-- The hypotheses are met: a triangle, a point inside and a point outside. -/
example : Inside [⟨0, 0⟩, ⟨8, 0⟩, ⟨0, (8 : ℚ)⟩] ⟨2, 2⟩ ∧ Convex [⟨0, 0⟩, ⟨8, 0⟩, ⟨0, (8 : ℚ)⟩] ∧
    Outside [⟨0, 0⟩, ⟨8, 0⟩, ⟨0, (8 : ℚ)⟩] ⟨5, 5⟩ := by
  refine ⟨⟨by simp, Or.inl ?_⟩, convex_three _ _ _, ⟨⟨-1, -1, 8⟩, ?_, ?_⟩⟩
  · simp only [edges, List.getLast?_cons_cons, List.getLast?_singleton, pairs, List.mem_cons, List.not_mem_nil, or_false,
      forall_eq_or_imp, forall_eq, side]
    norm_num
  · simp only [List.mem_cons, List.not_mem_nil, or_false, forall_eq_or_imp, forall_eq, Aff.val]
    norm_num
  · simp only [Aff.val]
    norm_num

end Verif.Recast
