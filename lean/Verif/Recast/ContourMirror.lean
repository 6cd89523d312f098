/-
The border between two contours is simplified in the same way from both sides (recast/contour.go:625-641, 708-719:
"Traverse the segment in lexilogical order so that the max deviation is calculated similarly when traversing opposite segments").
-/
import Verif.Recast.ContourError

namespace Verif.Recast
open Verif Verif.Detour

set_option linter.unusedSimpArgs false
set_option linter.unusedVariables false

/-! ## Decomposition -/

theorem Tess.unique {split : Sv → Sv → Option Sv} {a b : Sv} {l : List Sv} (h : Tess split a b l) : ∀ {l'}, Tess split a b l' → l = l' := by
  induction h with
  | stop hs =>
    intro l' h'
    cases h' with
    | stop _ => rfl
    | cut h _ _ => rw [hs] at h; cases h
  | cut hs _ _ ih1 ih2 =>
    intro l' h'
    cases h' with
    | stop h => rw [hs] at h; cases h
    | cut h t1 t2 =>
      rw [hs] at h
      cases h
      rw [ih1 t1, ih2 t2]

theorem TessAll.unique {split : Sv → Sv → Option Sv} {z : Sv} {s r : List Sv} (h : TessAll split z s r) : ∀ {r'}, TessAll split z s r' → r = r' := by
  induction h with
  | nil => intro r' h'; cases h'; rfl
  | cons t _ ih =>
    intro r' h'
    cases h' with
    | cons t' h'' => rw [t.unique t', ih h'']

theorem TessAll.head {split : Sv → Sv → Option Sv} {z : Sv} {s r : List Sv} (h : TessAll split z s r) (d : Sv) : r.headD d = s.headD d := by
  cases h <;> rfl

theorem TessAll.append {split : Sv → Sv → Option Sv} {z : Sv} {s r t q : List Sv} (h2 : TessAll split z t q)
    (h1 : TessAll split (t.headD z) s r) : TessAll split z (s ++ t) (r ++ q) := by
  generalize hy : t.headD z = y at h1
  induction h1 with
  | nil => exact h2
  | @cons a s l r t1 _ ih =>
    rw [List.cons_append, List.cons_append, List.append_assoc]
    refine .cons ?_ ih
    cases s with
    | nil => rw [List.nil_append, hy]; exact t1
    | cons b s => exact t1

theorem TessAll.split_append {split : Sv → Sv → Option Sv} {z : Sv} {s t : List Sv} : ∀ {r}, TessAll split z (s ++ t) r →
    ∃ r1 r2, r = r1 ++ r2 ∧ TessAll split (t.headD z) s r1 ∧ TessAll split z t r2 := by
  induction s with
  | nil => intro r h; exact ⟨[], r, rfl, .nil, h⟩
  | cons a s ih =>
    intro r h
    rw [List.cons_append] at h
    cases h with
    | @cons _ _ l r' t1 h' =>
      obtain ⟨r1, r2, rfl, h1, h2⟩ := ih h'
      refine ⟨a :: (l ++ r1), r2, by simp, .cons ?_ h1, h2⟩
      cases s with
      | nil => exact t1
      | cons b s => exact t1

/-! ## Two contours with a common border -/

/-- Spec: the raw contours `P` and `Q` run along a common border of `g` edges in opposite directions: `P` from `a`, `Q` from `b`. The edges
of the border have one code on either side, with a region; they are between areas if and only if `c`. The border ends where the codes
change, at two different places. -/
structure Border2 (P Q : List Pt) (a b g : Nat) (c : Prop) : Prop where
  ha : a < P.length
  hb : b < Q.length
  g0 : 0 < g
  gP : g < P.length
  gQ : g < Q.length
  place : ∀ k ≤ g, (rawAt P ((a + k) % P.length)).x = (rawAt Q ((b + (g - k)) % Q.length)).x ∧
    (rawAt P ((a + k) % P.length)).z = (rawAt Q ((b + (g - k)) % Q.length)).z
  ends : ¬ Same (rawAt P a) (rawAt Q b)
  codeP : ∀ k, 0 < k → k ≤ g → codeAt P ((a + k) % P.length) = codeAt P ((a + 1) % P.length)
  codeQ : ∀ k, 0 < k → k ≤ g → codeAt Q ((b + k) % Q.length) = codeAt Q ((b + 1) % Q.length)
  regP : regOf (rawAt P ((a + 1) % P.length)) ≠ 0
  regQ : regOf (rawAt Q ((b + 1) % Q.length)) ≠ 0
  areaP : areaBit (rawAt P ((a + 1) % P.length)) ≠ 0 ↔ c
  areaQ : areaBit (rawAt Q ((b + 1) % Q.length)) ≠ 0 ↔ c
  changeP : ChangeAt P a ∧ ChangeAt P ((a + g) % P.length)
  changeQ : ChangeAt Q b ∧ ChangeAt Q ((b + g) % Q.length)

section
variable {P Q : List Pt} {a b g : Nat} {c : Prop}

/-- Vertex `k` of the border in `P`. -/
def eP (P : List Pt) (a k : Nat) : Sv := rawEntry P ((a + k) % P.length)

/-- Vertex `k` of the border in `Q`, counted backwards. -/
def eQ (Q : List Pt) (b g k : Nat) : Sv := rawEntry Q ((b + (g - k)) % Q.length)

theorem Border2.same (h : Border2 P Q a b g c) {k : Nat} (hk : k ≤ g) : (eP P a k).x = (eQ Q b g k).x ∧ (eP P a k).z = (eQ Q b g k).z := h.place k hk

/-- The border from the other side. -/
theorem Border2.swap (h : Border2 P Q a b g c) : Border2 Q P b a g c := by
  refine ⟨h.hb, h.ha, h.g0, h.gQ, h.gP, ?_, fun hs => h.ends hs.symm, h.codeQ, h.codeP, h.regQ, h.regP, h.areaQ, h.areaP, h.changeQ, h.changeP⟩
  intro k hk
  have := h.place (g - k) (by omega)
  rw [show g - (g - k) = k by omega] at this
  exact ⟨this.1.symm, this.2.symm⟩

theorem Border2.refP (h : Border2 P Q a b g c) {k : Nat} (h0 : 0 < k) (hk : k ≤ g) : refinable (rawAt P ((a + k) % P.length)) ↔ c := by
  have := h.codeP k h0 hk
  unfold codeAt at this
  unfold refinable
  rw [(Prod.mk.inj this).1, (Prod.mk.inj this).2, h.areaP]
  simp [h.regP]

theorem Border2.idxP (h : Border2 P Q a b g c) {u v : Nat} (huv : u ≤ v) (hv : v ≤ g) :
    (eP P a u).i < P.length ∧ gap P.length (eP P a u).i (eP P a v).i = v - u := by
  have hn : 0 < P.length := by have := h.ha; omega
  refine ⟨Nat.mod_lt _ hn, ?_⟩
  show gap P.length ((a + u) % P.length) ((a + v) % P.length) = v - u
  have h1 : (a + v) % P.length = ((a + u) % P.length + (v - u)) % P.length := by
    rw [Nat.mod_add_mod, show a + u + (v - u) = a + v by omega]
  rw [h1, gap_add (Nat.mod_lt _ hn) (by have := h.gP; omega)]

theorem Border2.idxQ (h : Border2 P Q a b g c) {u v : Nat} (huv : u ≤ v) (hv : v ≤ g) :
    (eQ Q b g v).i < Q.length ∧ gap Q.length (eQ Q b g v).i (eQ Q b g u).i = v - u := by
  have := h.swap.idxP (u := g - v) (v := g - u) (by omega) (by omega)
  unfold eP at this
  refine ⟨this.1, ?_⟩
  have h2 := this.2
  rw [show g - u - (g - v) = v - u by omega] at h2
  exact h2

/-- The offsets strictly between `u` and `v`. -/
def offsets (u v : Nat) : List Nat := (List.range (v - u - 1)).map fun t => u + 1 + t

theorem mem_offsets {u v w : Nat} (h : w ∈ offsets u v) : u < w ∧ w < v := by
  obtain ⟨t, ht, rfl⟩ := List.mem_map.1 h
  rw [List.mem_range] at ht
  omega

theorem Border2.innerP (h : Border2 P Q a b g c) {u v : Nat} (huv : u < v) (hv : v ≤ g) :
    inner P.length (eP P a u).i (v - u) = (offsets u v).map fun w => (a + w) % P.length := by
  unfold inner offsets
  rw [List.map_map]
  refine List.map_congr_left fun t ht => ?_
  show ((a + u) % P.length + 1 + t) % P.length = (a + (u + 1 + t)) % P.length
  rw [Nat.add_assoc, Nat.mod_add_mod]
  congr 1
  omega

theorem Border2.innerQ (h : Border2 P Q a b g c) {u v : Nat} (huv : u < v) (hv : v ≤ g) :
    (inner Q.length (eQ Q b g v).i (v - u)).reverse = (offsets u v).map fun w => (b + (g - w)) % Q.length := by
  rw [inner_reverse]
  unfold offsets
  rw [List.map_map]
  refine List.map_congr_left fun t ht => ?_
  rw [List.mem_range] at ht
  show ((b + (g - v)) % Q.length + (v - u - 1 - t)) % Q.length = (b + (g - (u + 1 + t))) % Q.length
  rw [Nat.mod_add_mod]
  congr 1
  omega

/-- The vertex that deviates most is the same one. -/
theorem Border2.worstDev (h : Border2 P Q a b g c) {F : Type} (o : SegDist F) {x y x' y' : Sv} (hx : x.x = x'.x ∧ x.z = x'.z) (hy : y.x = y'.x ∧ y.z = y'.z)
    (l : List Nat) (hl : ∀ w ∈ l, w ≤ g) : ∃ ow : Option Nat, (∀ w ∈ ow, w ∈ l) ∧
      (worstDev o P x y (l.map fun w => (a + w) % P.length)).1 = (Verif.Recast.worstDev o Q x' y' (l.map fun w => (b + (g - w)) % Q.length)).1 ∧
      (Verif.Recast.worstDev o P x y (l.map fun w => (a + w) % P.length)).2 = ow.map (fun w => (a + w) % P.length) ∧
      (Verif.Recast.worstDev o Q x' y' (l.map fun w => (b + (g - w)) % Q.length)).2 = ow.map (fun w => (b + (g - w)) % Q.length) ∧
      ∀ w ∈ ow, (Verif.Recast.worstDev o P x y (l.map fun w => (a + w) % P.length)).1 =
        o.dist (rawAt P ((a + w) % P.length)).x (rawAt P ((a + w) % P.length)).z x.x x.z y.x y.z := by
  have key : ∀ (l : List Nat), (∀ w ∈ l, w ≤ g) → ∀ (d : F) (ow : Option Nat),
      (∀ w ∈ ow, d = o.dist (rawAt P ((a + w) % P.length)).x (rawAt P ((a + w) % P.length)).z x.x x.z y.x y.z) →
      ∃ (d' : F) (ow' : Option Nat), (∀ w ∈ ow', w ∈ l ∨ w ∈ ow) ∧
        (l.map fun w => (a + w) % P.length).foldl (scanStep o P x.x x.z y.x y.z) (d, ow.map fun w => (a + w) % P.length) =
          (d', ow'.map fun w => (a + w) % P.length) ∧
        (l.map fun w => (b + (g - w)) % Q.length).foldl (scanStep o Q x'.x x'.z y'.x y'.z) (d, ow.map fun w => (b + (g - w)) % Q.length) =
          (d', ow'.map fun w => (b + (g - w)) % Q.length) ∧
        ∀ w ∈ ow', d' = o.dist (rawAt P ((a + w) % P.length)).x (rawAt P ((a + w) % P.length)).z x.x x.z y.x y.z := by
    intro l
    induction l with
    | nil => intro _ d ow hd; exact ⟨d, ow, fun w hw => Or.inr hw, rfl, rfl, hd⟩
    | cons k l ih =>
      intro hl d ow hd
      obtain ⟨p1, p2⟩ := h.place k (hl k (by simp))
      simp only [List.map_cons, List.foldl_cons]
      have eQd : o.dist (rawAt Q ((b + (g - k)) % Q.length)).x (rawAt Q ((b + (g - k)) % Q.length)).z x'.x x'.z y'.x y'.z =
          o.dist (rawAt P ((a + k) % P.length)).x (rawAt P ((a + k) % P.length)).z x.x x.z y.x y.z := by
        rw [p1, p2, hx.1, hx.2, hy.1, hy.2]
      by_cases hg : o.gt (o.dist (rawAt P ((a + k) % P.length)).x (rawAt P ((a + k) % P.length)).z x.x x.z y.x y.z) d = true
      · have e1 : scanStep o P x.x x.z y.x y.z (d, ow.map fun w => (a + w) % P.length) ((a + k) % P.length) =
            (o.dist (rawAt P ((a + k) % P.length)).x (rawAt P ((a + k) % P.length)).z x.x x.z y.x y.z, (some k).map fun w => (a + w) % P.length) := by
          unfold scanStep; exact if_pos hg
        have e2 : scanStep o Q x'.x x'.z y'.x y'.z (d, ow.map fun w => (b + (g - w)) % Q.length) ((b + (g - k)) % Q.length) =
            (o.dist (rawAt P ((a + k) % P.length)).x (rawAt P ((a + k) % P.length)).z x.x x.z y.x y.z, (some k).map fun w => (b + (g - w)) % Q.length) := by
          unfold scanStep
          dsimp only
          rw [eQd]
          exact if_pos hg
        rw [e1, e2]
        obtain ⟨d', ow', h1, h2, h3, h4⟩ := ih (fun w hw => hl w (by simp [hw])) _ (some k) (by
          intro w hw
          have : k = w := by simpa using hw
          subst this
          rfl)
        refine ⟨d', ow', ?_, h2, h3, h4⟩
        intro w hw
        rcases h1 w hw with h | h
        · left; simp [h]
        · left
          have : k = w := by simpa using h
          simp [this]
      · have e1 : scanStep o P x.x x.z y.x y.z (d, ow.map fun w => (a + w) % P.length) ((a + k) % P.length) = (d, ow.map fun w => (a + w) % P.length) := by
          unfold scanStep; exact if_neg hg
        have e2 : scanStep o Q x'.x x'.z y'.x y'.z (d, ow.map fun w => (b + (g - w)) % Q.length) ((b + (g - k)) % Q.length) =
            (d, ow.map fun w => (b + (g - w)) % Q.length) := by
          unfold scanStep
          dsimp only
          rw [eQd]
          exact if_neg hg
        rw [e1, e2]
        obtain ⟨d', ow', h1, h2, h3, h4⟩ := ih (fun w hw => hl w (by simp [hw])) d ow hd
        refine ⟨d', ow', ?_, h2, h3, h4⟩
        intro w hw
        rcases h1 w hw with h | h
        · left; simp [h]
        · right; exact h
  obtain ⟨d, ow, h1, h2, h3, h4⟩ := key l hl o.zero none (by simp)
  refine ⟨ow, ?_, ?_, ?_, ?_, ?_⟩
  · intro w hw
    rcases h1 w hw with h | h
    · exact h
    · simp at h
  · unfold Verif.Recast.worstDev
    simp only [Option.map_none] at h2 h3
    rw [h2, h3]
  · unfold Verif.Recast.worstDev
    simp only [Option.map_none] at h2
    rw [h2]
  · unfold Verif.Recast.worstDev
    simp only [Option.map_none] at h3
    rw [h3]
  · unfold Verif.Recast.worstDev
    simp only [Option.map_none] at h2
    rw [h2]
    exact h4

/-- Spec: the distance of an end of a segment from the segment is not too large. -/
def EndsNear {F : Type} (o : SegDist F) : Prop :=
  ∀ px pz qx qz, o.gt (o.dist px pz px pz qx qz) o.tol = false ∧ o.gt (o.dist qx qz px pz qx qz) o.tol = false

/-- Both sides add the same vertex. -/
theorem Border2.splitError (h : Border2 P Q a b g c) {F : Type} (o : SegDist F) (ho : EndsNear o) {u v : Nat} (huv : u < v) (hv : v ≤ g)
    (hne : ¬ ((eP P a u).x = (eP P a v).x ∧ (eP P a u).z = (eP P a v).z)) :
    ∃ ow : Option Nat, Verif.Recast.splitError o P (eP P a u) (eP P a v) = ow.map (eP P a) ∧
      Verif.Recast.splitError o Q (eQ Q b g v) (eQ Q b g u) = ow.map (eQ Q b g) ∧
      ∀ w ∈ ow, u < w ∧ w < v ∧ ¬ ((eP P a u).x = (eP P a w).x ∧ (eP P a u).z = (eP P a w).z) ∧
        ¬ ((eP P a w).x = (eP P a v).x ∧ (eP P a w).z = (eP P a v).z) := by
  obtain ⟨pu, gp⟩ := h.idxP (le_of_lt huv) hv
  obtain ⟨pv, -⟩ := h.idxP (le_refl v) hv
  obtain ⟨qv, gq⟩ := h.idxQ (le_of_lt huv) hv
  obtain ⟨qu, -⟩ := h.idxQ (le_refl u) (by omega)
  have nP : (eP P a u).i ≠ (eP P a v).i := by intro e; rw [e, gap_self] at gp; omega
  have nQ : (eQ Q b g v).i ≠ (eQ Q b g u).i := by intro e; rw [e, gap_self] at gq; omega
  obtain ⟨ux, uz⟩ := h.same (k := u) (by omega)
  obtain ⟨vx, vz⟩ := h.same hv
  rw [splitError_eq o P pu pv nP, splitError_eq o Q qv qu nQ, gp, gq]
  have hup : Upward (eQ Q b g v) (eQ Q b g u) ↔ ¬ Upward (eP P a u) (eP P a v) := by
    unfold Upward
    omega
  have hoff : ∀ w ∈ offsets u v, w ≤ g := fun w hw => by have := mem_offsets hw; omega
  -- the decision
  have hdec : ∀ (x y : Sv) (bP bQ : F × Option Nat) (ow : Option Nat), (x = eP P a u ∧ y = eP P a v ∨ x = eP P a v ∧ y = eP P a u) →
      (∀ w ∈ ow, w ∈ offsets u v) → bP.1 = bQ.1 →
      bP.2 = ow.map (fun w => (a + w) % P.length) → bQ.2 = ow.map (fun w => (b + (g - w)) % Q.length) →
      (∀ w ∈ ow, bP.1 = o.dist (rawAt P ((a + w) % P.length)).x (rawAt P ((a + w) % P.length)).z x.x x.z y.x y.z) →
      ∃ ow' : Option Nat, decideError o P bP = ow'.map (eP P a) ∧ decideError o Q bQ = ow'.map (eQ Q b g) ∧
        ∀ w ∈ ow', u < w ∧ w < v ∧ ¬ ((eP P a u).x = (eP P a w).x ∧ (eP P a u).z = (eP P a w).z) ∧
        ¬ ((eP P a w).x = (eP P a v).x ∧ (eP P a w).z = (eP P a v).z) := by
    intro x y bP bQ ow hxy hmem e1 e2 e3 hd
    cases ow with
    | none =>
      refine ⟨none, ?_, ?_, by simp⟩
      · unfold decideError; rw [e2]; rfl
      · unfold decideError; rw [e3]; rfl
    | some w =>
      have hw := mem_offsets (hmem w rfl)
      have hdw := hd w rfl
      by_cases hg : o.gt bP.1 o.tol = true
      · refine ⟨some w, ?_, ?_, ?_⟩
        · unfold decideError
          rw [e2]
          exact if_pos hg
        · unfold decideError
          rw [e3]
          rw [e1] at hg
          exact if_pos hg
        · intro w' hw'
          have : w = w' := by simpa using hw'
          subst this
          have hfar : ∀ p : Sv, (p = x ∨ p = y) → ¬ ((eP P a w).x = p.x ∧ (eP P a w).z = p.z) := by
            rintro p hp ⟨g1, g2⟩
            have g1' : (rawAt P ((a + w) % P.length)).x = p.x := g1
            have g2' : (rawAt P ((a + w) % P.length)).z = p.z := g2
            rw [hdw, g1', g2'] at hg
            rcases hp with rfl | rfl
            · rw [(ho _ _ _ _).1] at hg; cases hg
            · rw [(ho _ _ _ _).2] at hg; cases hg
          have hu' : eP P a u = x ∨ eP P a u = y := by rcases hxy with ⟨h1, h2⟩ | ⟨h1, h2⟩ <;> simp [h1, h2]
          have hv' : eP P a v = x ∨ eP P a v = y := by rcases hxy with ⟨h1, h2⟩ | ⟨h1, h2⟩ <;> simp [h1, h2]
          exact ⟨hw.1, hw.2, fun hh => hfar _ hu' ⟨hh.1.symm, hh.2.symm⟩, fun hh => hfar _ hv' hh⟩
      · refine ⟨none, ?_, ?_, by simp⟩
        · unfold decideError
          rw [e2]
          exact if_neg hg
        · unfold decideError
          rw [e3]
          rw [e1] at hg
          exact if_neg hg
  have hone : v = u + 1 → offsets u v = [] := by intro e; unfold offsets; rw [e]; simp
  by_cases hu : Upward (eP P a u) (eP P a v)
  · have hnu : ¬ Upward (eQ Q b g v) (eQ Q b g u) := by rw [hup]; exact not_not.2 hu
    rw [if_pos hu, if_neg hnu, h.innerP huv hv, h.innerQ huv hv]
    obtain ⟨ow, w1, w2, w3, w4, w5⟩ := h.worstDev o (x := eP P a u) (y := eP P a v) (x' := eQ Q b g u) (y' := eQ Q b g v) ⟨ux, uz⟩ ⟨vx, vz⟩ (offsets u v) hoff
    obtain ⟨ow', d1, d2, d3⟩ := hdec _ _ _ _ ow (Or.inl ⟨rfl, rfl⟩) w1 w2 w3 w4 w5
    by_cases hv1 : v = u + 1
    · refine ⟨none, ?_, ?_, by simp⟩
      · rw [hone hv1]; split <;> rfl
      · rw [hone hv1]; split <;> rfl
    · have r1 : refinable (rawAt P (((eP P a u).i + 1) % P.length)) ↔ c := by
        have := h.refP (k := u + 1) (by omega) (by omega)
        rw [← this]
        show refinable (rawAt P (((a + u) % P.length + 1) % P.length)) ↔ _
        rw [Nat.mod_add_mod, Nat.add_assoc]
      have r2 : refinable (rawAt Q (((eQ Q b g v).i + (v - u - 1)) % Q.length)) ↔ c := by
        have := h.swap.refP (k := g - u - 1) (by omega) (by omega)
        rw [← this]
        show refinable (rawAt Q (((b + (g - v)) % Q.length + (v - u - 1)) % Q.length)) ↔ _
        rw [Nat.mod_add_mod, show b + (g - v) + (v - u - 1) = b + (g - u - 1) by omega]
      by_cases hcc : c
      · rw [if_pos (r1.2 hcc), if_pos (r2.2 hcc)]
        exact ⟨ow', d1, d2, d3⟩
      · rw [if_neg (fun hh => hcc (r1.1 hh)), if_neg (fun hh => hcc (r2.1 hh))]
        exact ⟨none, rfl, rfl, by simp⟩
  · rw [if_neg hu, if_pos (hup.2 hu), h.innerP huv hv]
    have hq : inner Q.length (eQ Q b g v).i (v - u) = (offsets u v).reverse.map fun w => (b + (g - w)) % Q.length := by
      rw [List.map_reverse, ← h.innerQ huv hv, List.reverse_reverse]
    rw [hq, ← List.map_reverse]
    obtain ⟨ow, w1, w2, w3, w4, w5⟩ := h.worstDev o (x := eP P a v) (y := eP P a u) (x' := eQ Q b g v) (y' := eQ Q b g u) ⟨vx, vz⟩ ⟨ux, uz⟩
      (offsets u v).reverse (fun w hw => hoff w (List.mem_reverse.1 hw))
    obtain ⟨ow', d1, d2, d3⟩ := hdec _ _ _ _ ow (Or.inr ⟨rfl, rfl⟩) (fun w hw => List.mem_reverse.1 (w1 w hw)) w2 w3 w4 w5
    by_cases hv1 : v = u + 1
    · refine ⟨none, ?_, ?_, by simp⟩
      · rw [hone hv1]; split <;> rfl
      · rw [hone hv1]; split <;> rfl
    · have r1 : refinable (rawAt P (((eP P a u).i + (v - u - 1)) % P.length)) ↔ c := by
        have := h.refP (k := v - 1) (by omega) (by omega)
        rw [← this]
        show refinable (rawAt P (((a + u) % P.length + (v - u - 1)) % P.length)) ↔ _
        rw [Nat.mod_add_mod, show a + u + (v - u - 1) = a + (v - 1) by omega]
      have r2 : refinable (rawAt Q (((eQ Q b g v).i + 1) % Q.length)) ↔ c := by
        have := h.swap.refP (k := g - v + 1) (by omega) (by omega)
        rw [← this]
        show refinable (rawAt Q (((b + (g - v)) % Q.length + 1) % Q.length)) ↔ _
        rw [Nat.mod_add_mod, Nat.add_assoc]
      by_cases hcc : c
      · rw [if_pos (r1.2 hcc), if_pos (r2.2 hcc)]
        exact ⟨ow', d1, d2, d3⟩
      · rw [if_neg (fun hh => hcc (r1.1 hh)), if_neg (fun hh => hcc (r2.1 hh))]
        exact ⟨none, rfl, rfl, by simp⟩

theorem Border2.splitLong (h : Border2 P Q a b g c) (M : Int) (wall area : Bool) {u v : Nat} (huv : u < v) (hv : v ≤ g) :
    ∃ ow : Option Nat, Verif.Recast.splitLong P M wall area (eP P a u) (eP P a v) = ow.map (eP P a) ∧
      Verif.Recast.splitLong Q M wall area (eQ Q b g v) (eQ Q b g u) = ow.map (eQ Q b g) ∧ ∀ w ∈ ow, u < w ∧ w < v := by
  obtain ⟨pu, gp⟩ := h.idxP (le_of_lt huv) hv
  obtain ⟨pv, -⟩ := h.idxP (le_refl v) hv
  obtain ⟨qv, gq⟩ := h.idxQ (le_of_lt huv) hv
  obtain ⟨qu, -⟩ := h.idxQ (le_refl u) (by omega)
  obtain ⟨ux, uz⟩ := h.same (k := u) (by omega)
  obtain ⟨vx, vz⟩ := h.same hv
  have nP : (if (eP P a v).i < (eP P a u).i then (eP P a v).i + P.length - (eP P a u).i else (eP P a v).i - (eP P a u).i) = v - u := by
    rw [← gp]; unfold gap; split <;> split <;> omega
  have nQ : (if (eQ Q b g u).i < (eQ Q b g v).i then (eQ Q b g u).i + Q.length - (eQ Q b g v).i else (eQ Q b g u).i - (eQ Q b g v).i) = v - u := by
    rw [← gq]; unfold gap; split <;> split <;> omega
  have tP : ((wall && decide (regOf (rawAt P (((eP P a u).i + 1) % P.length)) = 0)) || (area && decide (areaBit (rawAt P (((eP P a u).i + 1) % P.length)) ≠ 0))) = true ↔
      area = true ∧ c := by
    have hc := h.codeP (u + 1) (by omega) (by omega)
    unfold codeAt at hc
    have e : ((eP P a u).i + 1) % P.length = (a + (u + 1)) % P.length := by
      show ((a + u) % P.length + 1) % P.length = _
      rw [Nat.mod_add_mod, Nat.add_assoc]
    rw [e, (Prod.mk.inj hc).1, (Prod.mk.inj hc).2]
    simp only [Bool.or_eq_true, Bool.and_eq_true, decide_eq_true_eq, h.areaP]
    simp [h.regP]
  have tQ : ((wall && decide (regOf (rawAt Q (((eQ Q b g v).i + 1) % Q.length)) = 0)) || (area && decide (areaBit (rawAt Q (((eQ Q b g v).i + 1) % Q.length)) ≠ 0))) = true ↔
      area = true ∧ c := by
    have hc := h.codeQ (g - v + 1) (by omega) (by omega)
    unfold codeAt at hc
    have e : ((eQ Q b g v).i + 1) % Q.length = (b + (g - v + 1)) % Q.length := by
      show ((b + (g - v)) % Q.length + 1) % Q.length = _
      rw [Nat.mod_add_mod, Nat.add_assoc]
    rw [e, (Prod.mk.inj hc).1, (Prod.mk.inj hc).2]
    simp only [Bool.or_eq_true, Bool.and_eq_true, decide_eq_true_eq, h.areaQ]
    simp [h.regQ]
  have hlen : ((eP P a v).x - (eP P a u).x) * ((eP P a v).x - (eP P a u).x) + ((eP P a v).z - (eP P a u).z) * ((eP P a v).z - (eP P a u).z) =
      ((eQ Q b g u).x - (eQ Q b g v).x) * ((eQ Q b g u).x - (eQ Q b g v).x) + ((eQ Q b g u).z - (eQ Q b g v).z) * ((eQ Q b g u).z - (eQ Q b g v).z) := by
    rw [ux, uz, vx, vz]; ring
  unfold Verif.Recast.splitLong
  dsimp only
  by_cases hc : (area = true ∧ c) ∧ ((eQ Q b g u).x - (eQ Q b g v).x) * ((eQ Q b g u).x - (eQ Q b g v).x) +
      ((eQ Q b g u).z - (eQ Q b g v).z) * ((eQ Q b g u).z - (eQ Q b g v).z) > M * M ∧ v - u > 1
  · have hdiff : ¬ ((eP P a u).x = (eP P a v).x ∧ (eP P a u).z = (eP P a v).z) := by
      rintro ⟨e1, e2⟩
      have := hc.2.1
      rw [← ux, ← uz, ← vx, ← vz, e1, e2] at this
      nlinarith [mul_self_nonneg M]
    have hup : Upward (eQ Q b g v) (eQ Q b g u) ↔ ¬ Upward (eP P a u) (eP P a v) := by
      unfold Upward
      omega
    have ePi : ∀ t, ((eP P a u).i + t) % P.length = (a + (u + t)) % P.length := by
      intro t
      show ((a + u) % P.length + t) % P.length = _
      rw [Nat.mod_add_mod, Nat.add_assoc]
    have eQi : ∀ t, ((eQ Q b g v).i + t) % Q.length = (b + (g - v + t)) % Q.length := by
      intro t
      show ((b + (g - v)) % Q.length + t) % Q.length = _
      rw [Nat.mod_add_mod, Nat.add_assoc]
    have hvu := hc.2.2
    by_cases hu : Upward (eP P a u) (eP P a v)
    · have hnu : ¬ Upward (eQ Q b g v) (eQ Q b g u) := by rw [hup]; exact not_not.2 hu
      refine ⟨some (u + (v - u) / 2), (if_pos ?_).trans ?_, (if_pos ?_).trans ?_, ?_⟩
      · rw [tP, nP, hlen]; exact hc
      · rw [if_pos hu, nP, ePi]; rfl
      · rw [tQ, nQ]; exact hc
      · rw [if_neg hnu, nQ, eQi, show g - v + (v - u + 1) / 2 = g - (u + (v - u) / 2) by omega]; rfl
      · intro w hw
        have : u + (v - u) / 2 = w := by simpa using hw
        omega
    · refine ⟨some (u + (v - u + 1) / 2), (if_pos ?_).trans ?_, (if_pos ?_).trans ?_, ?_⟩
      · rw [tP, nP, hlen]; exact hc
      · rw [if_neg hu, nP, ePi]; rfl
      · rw [tQ, nQ]; exact hc
      · rw [if_pos (hup.2 hu), nQ, eQi, show g - v + (v - u) / 2 = g - (u + (v - u + 1) / 2) by omega]; rfl
      · intro w hw
        have : u + (v - u + 1) / 2 = w := by simpa using hw
        omega
  · refine ⟨none, (if_neg ?_).trans rfl, (if_neg ?_).trans rfl, by simp⟩
    · rw [tP, nP, hlen]; exact hc
    · rw [tQ, nQ]; exact hc

/-- Points put between two border vertices by a rule that is the same from both sides. -/
theorem mirror_tess {A B : Nat → Sv} {g : Nat} {sP sQ : Sv → Sv → Option Sv} (ok : Nat → Nat → Prop)
    (hm : ∀ u v, u < v → v ≤ g → ok u v → ∃ ow : Option Nat, sP (A u) (A v) = ow.map A ∧ sQ (B v) (B u) = ow.map B ∧
      ∀ w ∈ ow, u < w ∧ w < v ∧ ok u w ∧ ok w v) :
    ∀ (d u v : Nat), v - u = d → u < v → v ≤ g → ok u v →
      ∃ L : List Nat, Tess sP (A u) (A v) (L.map A) ∧ Tess sQ (B v) (B u) (L.reverse.map B) ∧ (∀ w ∈ L, u < w ∧ w < v) ∧
        (u :: L ++ [v]).IsChain (fun x y => x < y ∧ ok x y) := by
  intro d
  induction d using Nat.strong_induction_on with
  | _ d ih =>
    intro u v hd huv hv hok
    obtain ⟨ow, h1, h2, h3⟩ := hm u v huv hv hok
    cases ow with
    | none => exact ⟨[], .stop h1, .stop h2, by simp, by simpa using ⟨huv, hok⟩⟩
    | some w =>
      obtain ⟨w1, w2, w3, w4⟩ := h3 w rfl
      obtain ⟨L1, a1, a2, a3, a4⟩ := ih (w - u) (by omega) u w rfl w1 (by omega) w3
      obtain ⟨L2, b1, b2, b3, b4⟩ := ih (v - w) (by omega) w v rfl w2 hv w4
      refine ⟨L1 ++ w :: L2, ?_, ?_, ?_, ?_⟩
      · rw [List.map_append, List.map_cons]
        exact .cut h1 a1 b1
      · rw [List.reverse_append, List.reverse_cons, List.append_assoc, List.map_append, List.singleton_append, List.map_cons]
        exact .cut h2 b2 a2
      · intro x hx
        rcases List.mem_append.1 hx with hx | hx
        · have := a3 x hx; omega
        · rcases List.mem_cons.1 hx with rfl | hx
          · omega
          · have := b3 x hx; omega
      · have e : u :: (L1 ++ w :: L2) ++ [v] = (u :: L1) ++ (w :: (L2 ++ [v])) := by simp
        rw [e]
        refine List.isChain_append.2 ⟨(List.isChain_append.1 a4).1, b4, ?_⟩
        intro x hx y hy
        have hyw : y = w := by simpa using hy.symm
        subst hyw
        exact (List.isChain_append.1 a4).2.2 x hx y (by simp)

/-- The same along a chain of border vertices. -/
theorem mirror_tessAll {A B : Nat → Sv} {g : Nat} {sP sQ : Sv → Sv → Option Sv}
    (hm : ∀ u v, u < v → v ≤ g → ∃ ow : Option Nat, sP (A u) (A v) = ow.map A ∧ sQ (B v) (B u) = ow.map B ∧ ∀ w ∈ ow, u < w ∧ w < v) {z : Nat} (hz : z ≤ g) :
    ∀ (L : List Nat) (u : Nat), (u :: L ++ [z]).IsChain (· < ·) →
      ∃ R : List Nat, TessAll sP (A z) ((u :: L).map A) ((u :: R).map A) ∧ TessAll sQ (B u) ((z :: L.reverse).map B) ((z :: R.reverse).map B) ∧
        ∀ w ∈ R, u < w ∧ w < z := by
  intro L
  induction L with
  | nil =>
    intro u hch
    have huz : u < z := by simpa using hch
    obtain ⟨R, h1, h2, h3, -⟩ := mirror_tess (A := A) (B := B) (sP := sP) (sQ := sQ) (g := g) (fun _ _ => True)
      (fun u v h1 h2 _ => by
        obtain ⟨ow, a1, a2, a3⟩ := hm u v h1 h2
        exact ⟨ow, a1, a2, fun w hw => ⟨(a3 w hw).1, (a3 w hw).2, trivial, trivial⟩⟩) (z - u) u z rfl huz hz trivial
    refine ⟨R, ?_, ?_, h3⟩
    · have := TessAll.cons (z := A z) (s := []) h1 .nil
      simpa using this
    · have := TessAll.cons (z := B u) (s := []) h2 .nil
      simpa using this
  | cons v L ih =>
    intro u hch
    rw [List.cons_append, List.cons_append, List.isChain_cons_cons] at hch
    obtain ⟨huv, hch⟩ := hch
    obtain ⟨R, h1, h2, h3⟩ := ih v (by simpa using hch)
    have hvz : v < z := by
      have hp := List.isChain_iff_pairwise.1 hch
      rw [List.pairwise_cons] at hp
      exact hp.1 z (by simp)
    obtain ⟨R0, a1, a2, a3, -⟩ := mirror_tess (A := A) (B := B) (sP := sP) (sQ := sQ) (g := g) (fun _ _ => True)
      (fun u v h1 h2 _ => by
        obtain ⟨ow, a1, a2, a3⟩ := hm u v h1 h2
        exact ⟨ow, a1, a2, fun w hw => ⟨(a3 w hw).1, (a3 w hw).2, trivial, trivial⟩⟩) (v - u) u v rfl huv (by omega) trivial
    refine ⟨R0 ++ v :: R, ?_, ?_, ?_⟩
    · have := TessAll.cons (z := A z) (a := A u) (s := (v :: L).map A) (by simpa using a1) h1
      simpa using this
    · have h4 : TessAll sQ (B u) [B v] (B v :: (R0.reverse.map B ++ [])) := TessAll.cons (s := []) a2 .nil
      have := TessAll.append h4 (by simpa using h2)
      simpa using this
    · intro x hx
      rcases List.mem_append.1 hx with hx | hx
      · have := a3 x hx; omega
      · rcases List.mem_cons.1 hx with rfl | hx
        · omega
        · have := h3 x hx; omega

/-- What lies between two neighbours in the order. -/
theorem CycleOrder.between {pts : List Pt} {z : Sv} {A B C : List Sv} {x y e : Sv} (h : CycleOrder pts z (A ++ (x :: B) ++ C)) (hy : C.headD z = y)
    (he : e ∈ A ++ (x :: B) ++ C) (h0 : 0 < gap pts.length x.i e.i) (h1 : gap pts.length x.i e.i < gap pts.length x.i y.i) : e ∈ B := by
  have hzm := h.raw z (List.mem_of_head? h.head)
  have hxm := h.raw x (by simp)
  have hem := h.raw e he
  have hs := h.sorted
  simp only [List.map_append, List.map_cons, List.pairwise_append, List.pairwise_cons, List.mem_map, List.mem_cons, List.mem_append] at hs
  obtain ⟨⟨hsA, ⟨hxB, hsB⟩, hAB⟩, hsC, hAC⟩ := hs
  have hyle : ∀ f ∈ C, gap pts.length z.i y.i ≤ gap pts.length z.i f.i ∧ y ∈ C := by
    intro f hf
    cases C with
    | nil => simp at hf
    | cons c C =>
      have : c = y := by simpa using hy
      subst this
      rcases List.mem_cons.1 hf with rfl | hf
      · exact ⟨le_refl _, by simp⟩
      · rw [List.map_cons, List.pairwise_cons] at hsC
        exact ⟨le_of_lt (hsC.1 _ (List.mem_map.2 ⟨f, hf, rfl⟩)), by simp⟩
  have hxy : ∀ f ∈ C, gap pts.length z.i x.i < gap pts.length z.i f.i := by
    intro f hf
    exact hAC _ (Or.inr (Or.inl rfl)) _ ⟨f, hf, rfl⟩
  rcases List.mem_append.1 he with he' | he'
  · rcases List.mem_append.1 he' with he' | he'
    · -- before `x`
      exfalso
      have hlt : gap pts.length z.i e.i < gap pts.length z.i x.i := hAB _ ⟨e, he', rfl⟩ _ (Or.inl rfl)
      rw [gap_back hzm.2 hxm.2 hem.2 hlt] at h1
      have hgx := gap_lt hzm.2 hxm.2
      cases C with
      | nil =>
        have : z = y := by simpa using hy
        subst this
        have hne : z.i ≠ x.i := by intro e'; rw [← e', gap_self] at hlt; omega
        rw [gap_compl hzm.2 hxm.2 hne] at h1
        omega
      | cons c C =>
        have : c = y := by simpa using hy
        subst this
        have hcm := h.raw c (by simp)
        have := hxy c (by simp)
        rw [gap_gap hzm.2 hxm.2 hcm.2 (by omega)] at h1
        have := gap_lt hzm.2 hcm.2
        omega
    · rcases List.mem_cons.1 he' with rfl | he'
      · rw [gap_self] at h0; omega
      · exact he'
  · exfalso
    obtain ⟨hle, hyC⟩ := hyle e he'
    have hym := h.raw y (by simp [hyC])
    have h2 := hxy e he'
    have h3 := hxy y hyC
    rw [gap_gap hzm.2 hxm.2 hem.2 (by omega), gap_gap hzm.2 hxm.2 hym.2 (by omega)] at h1
    omega

/-- The initial vertices around the border. -/
theorem Border2.initial (h : Border2 P Q a b g c) {z : Sv} (hz : CycleOrder P z (Verif.Recast.initial P)) (hi : Verif.Recast.initial P = changes P) :
    ∃ s1 s2, Verif.Recast.initial P = s1 ++ eP P a 0 :: s2 ∧ s2.headD z = eP P a g := by
  have hn : 0 < P.length := by have := h.ha; omega
  have e0 : eP P a 0 = rawEntry P a := by unfold eP; rw [Nat.add_zero, Nat.mod_eq_of_lt h.ha]
  have m0 : eP P a 0 ∈ Verif.Recast.initial P := by
    rw [hi, mem_changes, e0]; exact ⟨rfl, h.ha, h.changeP.1⟩
  have mg : eP P a g ∈ Verif.Recast.initial P := by
    rw [hi, mem_changes]; exact ⟨rfl, Nat.mod_lt _ hn, h.changeP.2⟩
  obtain ⟨s1, s2, hs⟩ := List.append_of_mem m0
  refine ⟨s1, s2, hs, ?_⟩
  have hyz : ∀ y, s2.headD z = y → y ∈ Verif.Recast.initial P ∧ y.i ≠ a := by
    intro y hy
    have hs' := hz.sorted
    rw [hs, List.map_append, List.map_cons, List.pairwise_append, List.pairwise_cons] at hs'
    cases s2 with
    | nil =>
      have : z = y := by simpa using hy
      subst this
      refine ⟨List.mem_of_head? hz.head, ?_⟩
      have hlast := hz.last (eP P a 0) (by rw [hs]; simp)
      rw [e0] at hlast
      exact fun e => hlast e.symm
    | cons c s2 =>
      have : c = y := by simpa using hy
      subst this
      refine ⟨by rw [hs]; simp, ?_⟩
      intro e
      have := hs'.2.1.1 (gap P.length z.i c.i) (by simp)
      rw [e, e0] at this
      exact lt_irrefl _ this
  obtain ⟨ym, yne⟩ := hyz _ rfl
  generalize hy : s2.headD z = y at ym yne
  rw [hi, mem_changes] at ym
  have hgle : gap P.length (eP P a 0).i y.i ≤ g := by
    by_contra hlt
    rw [hs, show s1 ++ eP P a 0 :: s2 = s1 ++ (eP P a 0 :: []) ++ s2 by simp] at mg hz
    have := hz.between hy mg (by rw [(h.idxP (Nat.zero_le g) (le_refl g)).2]; have := h.g0; omega) (by
      rw [(h.idxP (Nat.zero_le g) (le_refl g)).2]; omega)
    simp at this
  have hi0 : (eP P a 0).i = a := by rw [e0]; rfl
  rw [hi0] at hgle
  have hpos := gap_pos h.ha ym.2.1 (Ne.symm yne)
  have hadd := add_gap h.ha ym.2.1
  by_cases hgg : gap P.length a y.i = g
  · rw [ym.1]
    unfold eP
    rw [← hgg, hadd]
  · exfalso
    have hc1 := h.codeP (gap P.length a y.i) hpos hgle
    have hc2 := h.codeP (gap P.length a y.i + 1) (by omega) (by omega)
    have hch := ym.2.2
    unfold ChangeAt at hch
    apply hch
    rw [hadd] at hc1
    rw [hc1, ← hc2]
    congr 1
    rw [← Nat.add_assoc]
    conv_lhs => rw [← Nat.mod_add_mod, hadd]

/-- What one side keeps of the border. -/
theorem Border2.kept (h : Border2 P Q a b g c) {F : Type} (o : SegDist F) (M : Int) (wall area : Bool) {l R : List Sv} {rr : List Sv}
    (h1 : Tess (Verif.Recast.splitError o P) (eP P a 0) (eP P a g) l)
    (h2 : (if M > 0 ∧ (wall || area) = true then TessAll (Verif.Recast.splitLong P M wall area) (eP P a g) (eP P a 0 :: l) (eP P a 0 :: R) else R = l))
    (hr : simplifyIdx o M wall area P = some rr) (ht : TwoPlaces P) :
    ∀ k, 0 < k → k < g → (eP P a k ∈ rr ↔ eP P a k ∈ R) := by
  obtain ⟨z, r1, r2, s1, s2, s3, s4, s5, -, s7, s8⟩ := simplifyIdx_spec o M wall area ht
  obtain rfl : r2 = rr := by rw [s1] at hr; exact Option.some.inj hr
  have hreg : ∃ p ∈ P, regOf p ≠ 0 := ⟨_, rawAt_mem (Nat.mod_lt _ (by have := h.ha; omega)), h.regP⟩
  have hi : Verif.Recast.initial P = changes P := by
    obtain ⟨z', _, hh, _⟩ := initial_spec ht
    exact hh ⟨a, h.ha, h.changeP.1⟩ hreg
  obtain ⟨t1, t2, ht, hz⟩ := h.initial s2 hi
  rw [ht] at s5
  obtain ⟨q1, q2, rfl, hq1, hq2⟩ := s5.split_append
  cases hq2 with
  | @cons _ _ l' q3 hl' hq3 =>
    rw [hz] at hl'
    obtain rfl := h1.unique hl'
    have hh3 : q3.headD z = eP P a g := by rw [hq3.head]; exact hz
    have key : ∀ {A C : List Sv}, r2 = A ++ (eP P a 0 :: R) ++ C → C.headD z = eP P a g → ∀ k, 0 < k → k < g → (eP P a k ∈ r2 ↔ eP P a k ∈ R) := by
      intro A C e hC k k0 kg
      constructor
      · intro hk
        rw [e] at hk s4
        refine s4.between hC hk ?_ ?_
        · rw [(h.idxP (Nat.zero_le k) (le_of_lt kg)).2]; omega
        · rw [(h.idxP (Nat.zero_le k) (le_of_lt kg)).2, (h.idxP (Nat.zero_le g) (le_refl g)).2]; omega
      · intro hk
        rw [e]
        simp [hk]
    by_cases hM : M > 0 ∧ (wall || area) = true
    · rw [if_pos hM] at h2
      have h8 := (s8 hM).1
      rw [show q1 ++ eP P a 0 :: (l ++ q3) = q1 ++ ((eP P a 0 :: l) ++ q3) by simp] at h8
      obtain ⟨w1, w2, e1, k1, k2⟩ := h8.split_append
      obtain ⟨w3, w4, e2, k3, k4⟩ := k2.split_append
      rw [hh3] at k3
      have := k3.unique h2
      subst this
      exact key (A := w1) (C := w4) (by rw [e1, e2]; simp) (by rw [k4.head]; exact hh3)
    · rw [if_neg hM] at h2
      subst h2
      exact key (A := q1) (C := q3) (by rw [s7 hM]; simp) hh3

theorem Border2.two (h : Border2 P Q a b g c) : TwoPlaces P := by
  have hn : 0 < P.length := by have := h.ha; omega
  refine ⟨_, rawAt_mem h.ha, _, rawAt_mem (Nat.mod_lt (a + g) hn), ?_⟩
  intro hs
  have hp := h.place g (le_refl g)
  rw [Nat.sub_self, Nat.add_zero, Nat.mod_eq_of_lt h.hb] at hp
  apply h.ends
  unfold Same at hs ⊢
  rw [hs.1, hs.2, hp.1, hp.2]
  exact ⟨rfl, rfl⟩

/-- **C126** The border between two contours is simplified in the same way from both sides: if two raw contours run along a common border
in opposite directions, then a vertex inside the border is kept in the one exactly if it is kept in the other, so that the simplified
contours have no gap and no overlap between them. The arithmetic only has to find the end of a segment near the segment. -/
theorem simplify_mirror (h : Border2 P Q a b g c) {F : Type} (o : SegDist F) (ho : EndsNear o) (M : Int) (wall area : Bool) :
    ∃ outP idxP outQ idxQ, simplifyContour o M wall area P = some outP ∧ List.Forall₂ (SimplifiedOf P) outP idxP ∧
      (idxP.map fun i => gap P.length (idxP.headD 0) i).Pairwise (· < ·) ∧
      simplifyContour o M wall area Q = some outQ ∧ List.Forall₂ (SimplifiedOf Q) outQ idxQ ∧
      (idxQ.map fun i => gap Q.length (idxQ.headD 0) i).Pairwise (· < ·) ∧
      ∀ k ≤ g, ((a + k) % P.length ∈ idxP ↔ (b + (g - k)) % Q.length ∈ idxQ) := by
  have hends : ¬ ((eP P a 0).x = (eP P a g).x ∧ (eP P a 0).z = (eP P a g).z) := by
    rintro ⟨e1, e2⟩
    have hp := h.place g (le_refl g)
    rw [Nat.sub_self, Nat.add_zero, Nat.mod_eq_of_lt h.hb] at hp
    apply h.ends
    have e1' : (rawAt P ((a + 0) % P.length)).x = (rawAt P ((a + g) % P.length)).x := e1
    have e2' : (rawAt P ((a + 0) % P.length)).z = (rawAt P ((a + g) % P.length)).z := e2
    rw [Nat.add_zero, Nat.mod_eq_of_lt h.ha] at e1' e2'
    unfold Same
    exact ⟨by rw [e1', hp.1], by rw [e2', hp.2]⟩
  obtain ⟨L, hLP, hLQ, hLb, hLc⟩ := mirror_tess (A := eP P a) (B := eQ Q b g) (sP := Verif.Recast.splitError o P) (sQ := Verif.Recast.splitError o Q) (g := g)
    (fun u v => ¬ ((eP P a u).x = (eP P a v).x ∧ (eP P a u).z = (eP P a v).z))
    (fun u v h1 h2 h3 => h.splitError o ho h1 h2 h3) g 0 g rfl h.g0 (le_refl g) hends
  obtain ⟨R, hRP, hRQ, hRb⟩ := mirror_tessAll (A := eP P a) (B := eQ Q b g) (sP := Verif.Recast.splitLong P M wall area) (sQ := Verif.Recast.splitLong Q M wall area)
    (fun u v h1 h2 => h.splitLong M wall area h1 h2) (le_refl g) L 0 (hLc.imp fun _ _ h => h.1)
  have eq0 : ∀ k ≤ g, eQ Q b g k = eP Q b (g - k) := fun k hk => rfl
  have twoP := h.two
  have twoQ := h.swap.two
  obtain ⟨zP, -, rP, sP1, iP, -, oP, -⟩ := simplifyIdx_spec o M wall area twoP
  obtain ⟨zQ, -, rQ, sQ1, iQ, -, oQ, -⟩ := simplifyIdx_spec o M wall area twoQ
  have main : ∀ k, 0 < k → k < g → (eP P a k ∈ rP ↔ eQ Q b g k ∈ rQ) := by
    intro k k0 kg
    have inj : ∀ S : List Nat, (∀ w ∈ S, 0 < w ∧ w < g) → (eP P a k ∈ S.map (eP P a) ↔ k ∈ S) := by
      intro S hS
      refine ⟨fun hm => ?_, fun hm => List.mem_map.2 ⟨k, hm, rfl⟩⟩
      obtain ⟨w, hw, he⟩ := List.mem_map.1 hm
      have h1 := (h.idxP (Nat.zero_le w) (le_of_lt (hS w hw).2)).2
      have h2 := (h.idxP (Nat.zero_le k) (le_of_lt kg)).2
      rw [he, h2] at h1
      have : k = w := by omega
      rw [this]; exact hw
    have injQ : ∀ S : List Nat, (∀ w ∈ S, 0 < w ∧ w < g) → (eQ Q b g k ∈ S.reverse.map (eQ Q b g) ↔ k ∈ S) := by
      intro S hS
      refine ⟨fun hm => ?_, fun hm => List.mem_map.2 ⟨k, List.mem_reverse.2 hm, rfl⟩⟩
      obtain ⟨w, hw, he⟩ := List.mem_map.1 hm
      have hw := List.mem_reverse.1 hw
      have h1 := (h.idxQ (le_of_lt (hS w hw).2) (le_refl g)).2
      have h2 := (h.idxQ (le_of_lt kg) (le_refl g)).2
      rw [he, h2] at h1
      have := hS w hw
      have : k = w := by omega
      rw [this]; exact hw
    by_cases hM : M > 0 ∧ (wall || area) = true
    · rw [h.kept o M wall area (l := L.map (eP P a)) (R := R.map (eP P a)) hLP (by rw [if_pos hM]; simpa using hRP) sP1 twoP k k0 kg, inj R hRb]
      have := h.swap.kept o M wall area (l := L.reverse.map (eQ Q b g)) (R := R.reverse.map (eQ Q b g)) (rr := rQ)
        (by have := hLQ; rw [eq0 g (le_refl g), eq0 0 (Nat.zero_le g), Nat.sub_self, Nat.sub_zero] at this; exact this)
        (by
          rw [if_pos hM]
          have := hRQ
          rw [List.map_cons, List.map_cons, eq0 g (le_refl g), eq0 0 (Nat.zero_le g), Nat.sub_self, Nat.sub_zero] at this
          exact this) sQ1 twoQ (g - k) (by omega) (by omega)
      rw [← eq0 k (le_of_lt kg)] at this
      rw [this, injQ R hRb]
    · rw [h.kept o M wall area (l := L.map (eP P a)) (R := L.map (eP P a)) hLP (by rw [if_neg hM]) sP1 twoP k k0 kg, inj L hLb]
      have := h.swap.kept o M wall area (l := L.reverse.map (eQ Q b g)) (R := L.reverse.map (eQ Q b g)) (rr := rQ)
        (by have := hLQ; rw [eq0 g (le_refl g), eq0 0 (Nat.zero_le g), Nat.sub_self, Nat.sub_zero] at this; exact this)
        (by rw [if_neg hM]) sQ1 twoQ (g - k) (by omega) (by omega)
      rw [← eq0 k (le_of_lt kg)] at this
      rw [this, injQ L hLb]
  have mem : ∀ {pts : List Pt} {z : Sv} {r : List Sv}, CycleOrder pts z r → ∀ i, (i ∈ r.map Sv.i ↔ rawEntry pts i ∈ r) := by
    intro pts z r hr i
    constructor
    · intro hi
      obtain ⟨e, he, rfl⟩ := List.mem_map.1 hi
      rw [← (hr.raw e he).1]; exact he
    · intro hi
      exact List.mem_map.2 ⟨_, hi, rfl⟩
  have ends : ∀ {pts : List Pt} {r : List Sv}, TwoPlaces pts → simplifyIdx o M wall area pts = some r → (∃ p ∈ pts, regOf p ≠ 0) →
      ∀ i < pts.length, ChangeAt pts i → rawEntry pts i ∈ r := by
    intro pts r tw hr hreg i hi hc
    obtain ⟨z, r1, r2, s1, s2, s3, s4, s5, -, s7, s8⟩ := simplifyIdx_spec o M wall area tw
    obtain rfl : r2 = r := by rw [s1] at hr; exact Option.some.inj hr
    obtain ⟨z', -, hh, -⟩ := initial_spec tw
    have hm : rawEntry pts i ∈ Verif.Recast.initial pts := by
      rw [hh ⟨i, hi, hc⟩ hreg, mem_changes]; exact ⟨rfl, hi, hc⟩
    have h1 := s5.sublist.subset hm
    by_cases hM : M > 0 ∧ (wall || area) = true
    · exact (s8 hM).1.sublist.subset h1
    · rw [s7 hM]; exact h1
  have form : ∀ {pts : List Pt} {z : Sv} {r : List Sv}, CycleOrder pts z r → List.Forall₂ (SimplifiedOf pts) (r.map (setCode pts)) (r.map Sv.i) ∧
      ((r.map Sv.i).map fun i => gap pts.length ((r.map Sv.i).headD 0) i).Pairwise (· < ·) := by
    intro pts z r hr
    constructor
    · rw [List.forall₂_map_left_iff, List.forall₂_map_right_iff, List.forall₂_same]
      intro e he
      exact setCode_spec (hr.raw e he).1 (hr.raw e he).2
    · have e : (r.map Sv.i).headD 0 = z.i := by
        have := hr.head
        cases r with
        | nil => simp at this
        | cons x r => simp at this; simp [this]
      rw [e, List.map_map]
      exact hr.sorted
  refine ⟨rP.map (setCode P), rP.map Sv.i, rQ.map (setCode Q), rQ.map Sv.i, by unfold simplifyContour; rw [sP1]; rfl, (form oP).1, (form oP).2,
    by unfold simplifyContour; rw [sQ1]; rfl, (form oQ).1, (form oQ).2, ?_⟩
  intro k hk
  rw [mem oP, mem oQ]
  have hnP : 0 < P.length := by have := h.ha; omega
  have hnQ : 0 < Q.length := by have := h.hb; omega
  have regP : ∃ p ∈ P, regOf p ≠ 0 := ⟨_, rawAt_mem (Nat.mod_lt _ hnP), h.regP⟩
  have regQ : ∃ p ∈ Q, regOf p ≠ 0 := ⟨_, rawAt_mem (Nat.mod_lt _ hnQ), h.regQ⟩
  rcases Nat.eq_zero_or_pos k with rfl | k0
  · rw [Nat.add_zero, Nat.sub_zero, Nat.mod_eq_of_lt h.ha]
    exact iff_of_true (ends twoP sP1 regP _ h.ha h.changeP.1) (ends twoQ sQ1 regQ _ (Nat.mod_lt _ hnQ) h.changeQ.2)
  · rcases Nat.lt_or_ge k g with kg | kg
    · exact main k k0 kg
    · obtain rfl : k = g := by omega
      rw [Nat.sub_self, Nat.add_zero, Nat.mod_eq_of_lt h.hb]
      exact iff_of_true (ends twoP sP1 regP _ (Nat.mod_lt _ hnP) h.changeP.2) (ends twoQ sQ1 regQ _ h.hb h.changeQ.1)

end

/-- The hypothesis about the arithmetic holds for exact numbers. -/
theorem exactSeg_endsNear {K : Type} [_root_.Field K] [LinearOrder K] [IsStrictOrderedRing K] (E : K) : EndsNear (exactSeg K E) := by
  intro px pz qx qz
  have htol : 0 ≤ (exactSeg K E).tol := by unfold exactSeg; exact mul_self_nonneg E
  have hgt : ∀ d, d = 0 → (exactSeg K E).gt d (exactSeg K E).tol = false := by
    rintro d rfl
    show decide ((exactSeg K E).tol < 0) = false
    exact decide_eq_false (not_lt.2 htol)
  constructor
  · apply hgt
    unfold exactSeg
    have h10 : ¬ ((1 : K) < 0) := not_lt.2 zero_le_one
    simp [h10]
  · apply hgt
    unfold exactSeg
    dsimp only
    by_cases hd : 0 < (((qx - px : Int) : K) * ((qx - px : Int) : K) + ((qz - pz : Int) : K) * ((qz - pz : Int) : K))
    · simp only [if_pos hd, div_self hd.ne', if_neg (not_lt.2 (zero_le_one (α := K))), lt_irrefl, if_false]
      push_cast
      ring
    · have h0 : ((qx - px : Int) : K) = 0 ∧ ((qz - pz : Int) : K) = 0 := by
        constructor <;> nlinarith [mul_self_nonneg ((qx - px : Int) : K), mul_self_nonneg ((qz - pz : Int) : K)]
      have h1 : (qx : K) = px := by have := h0.1; push_cast at this; linarith
      have h2 : (qz : K) = pz := by have := h0.2; push_cast at this; linarith
      rw [h0.1, h0.2, h1, h2]
      simp

/-! ## Example -/

/-- The western one of two areas, with a bulge to the east. -/
def westArea : List Pt :=
  [⟨0, 0, 0, 0⟩, ⟨0, 0, 4, 0⟩, ⟨2, 0, 4, 0⟩, ⟨2, 0, 3, 0x20002⟩, ⟨4, 0, 3, 0x20002⟩, ⟨4, 0, 2, 0x20002⟩, ⟨4, 0, 1, 0x20002⟩, ⟨2, 0, 1, 0x20002⟩, ⟨2, 0, 0, 0x20002⟩]

/-- The eastern one. -/
def eastArea : List Pt :=
  [⟨2, 0, 0, 0⟩, ⟨2, 0, 1, 0x20001⟩, ⟨4, 0, 1, 0x20001⟩, ⟨4, 0, 2, 0x20001⟩, ⟨4, 0, 3, 0x20001⟩, ⟨2, 0, 3, 0x20001⟩, ⟨2, 0, 4, 0x20001⟩, ⟨6, 0, 4, 0⟩, ⟨6, 0, 0, 0⟩]

/-- The hypotheses hold for the border between the two areas. -/
example : Border2 westArea eastArea 2 0 6 True := by
  refine ⟨by decide, by decide, by decide, by decide, by decide, ?_, by decide, ?_, ?_, by decide, by decide, by decide, by decide, ?_, ?_⟩
  · decide
  · have h : ∀ k < 7, 0 < k → codeAt westArea ((2 + k) % westArea.length) = codeAt westArea ((2 + 1) % westArea.length) := by decide
    exact fun k h0 hk => h k (by omega) h0
  · have h : ∀ k < 7, 0 < k → codeAt eastArea ((0 + k) % eastArea.length) = codeAt eastArea ((0 + 1) % eastArea.length) := by decide
    exact fun k h0 hk => h k (by omega) h0
  · unfold ChangeAt; decide
  · unfold ChangeAt; decide

/-- Both sides keep the same two vertices of the bulge. -/
example : simplifyContour (exactSeg ℚ 1) 0 true true westArea =
      some [⟨2, 0, 4, 0x20002⟩, ⟨4, 0, 3, 0x20002⟩, ⟨4, 0, 1, 0x20002⟩, ⟨2, 0, 0, 0⟩, ⟨0, 0, 0, 0⟩, ⟨0, 0, 4, 0⟩] ∧
    simplifyContour (exactSeg ℚ 1) 0 true true eastArea =
      some [⟨2, 0, 0, 0x20001⟩, ⟨4, 0, 1, 0x20001⟩, ⟨4, 0, 3, 0x20001⟩, ⟨2, 0, 4, 0⟩, ⟨6, 0, 4, 0⟩, ⟨6, 0, 0, 0⟩] := by
  constructor <;> decide +kernel

end Verif.Recast
