/-
All of `mergeRegionHoles` (recast/contour.go:97-175): the rounds over the corners of a hole and over the holes.

Simplifications: those of HoleMerge.lean and HoleBridge.lean. The holes are given in the order that the sort has put them
in; `findLeftMostVertex` is called when a hole is reached and not for all holes first (it reads the hole only).
-/
import Verif.Recast.HoleMerge
import Verif.Recast.HoleBridge

namespace Verif.Recast
open Verif Verif.Detour

/-! ## Model -/

/-- The loop over the corners of the hole `H` with number `hi` (recast/contour.go:119-162), from `bestVertex` = `best`:
`index` and `bestVertex` if a bridge was found, and `diags` afterwards; `none` is a panic. -/
def bridgeSearch (srt : List Diag → List Diag) (P : List Pt) (holes : List (List Pt)) (hi : Nat) (H : List Pt) :
    Nat → Nat → List Diag → Option (Option (Nat × Nat) × List Diag)
  | 0, _, buf => some (none, buf)
  | fuel + 1, best, buf =>
    match bridgeRound srt P holes hi (pt H best) buf with
    | none => none
    | some (some v, d) => some (some (v, best), d)
    | some (none, d) => bridgeSearch srt P holes hi H fuel ((best + 1) % H.length) d

/-- The loop over the holes (recast/contour.go:116-174); `rest` are those from number `hi` on. The outline and the contours of
these holes afterwards; `none` is a panic. -/
def holesLoop (srt : List Diag → List Diag) (holes : List (List Pt)) : List (List Pt) → Nat → List Pt → List Diag →
    Option (List Pt × List (List Pt))
  | [], _, P, _ => some (P, [])
  | H :: rest, hi, P, buf =>
    match findLeftMost H with
    | none => none
    | some lm =>
      match bridgeSearch srt P holes hi H H.length lm.2.2 buf with
      | none => none
      | some (none, d) => (holesLoop srt holes rest (hi + 1) P d).map fun r => (r.1, H :: r.2)
      | some (some (v, b), d) =>
        match mergeContours P H v b with
        | none => none
        | some P' => (holesLoop srt holes rest (hi + 1) P' d).map fun r => (r.1, [] :: r.2)

/-- `mergeRegionHoles` (recast/contour.go:97-175) after the sort of the holes. -/
def mergeRegionHoles (srt : List Diag → List Diag) (P : List Pt) (holes : List (List Pt)) : Option (List Pt × List (List Pt)) :=
  holesLoop srt holes holes 0 P (List.replicate (P.length + (holes.map List.length).sum) (0, 0))

/-! ## Spec -/

/-- Spec: the sum over the edges of a closed contour of what they contribute. -/
def ringSum (f : Pt → Pt → Int) (l : List Pt) : Int := ((ringEdges l).map fun e => f e.1 e.2).sum

/-- Spec: the outline `P'` and the contours `holes'` come from `P` and `holes` by joining some of the holes, whose contours are
empty afterwards, the others being as they were. -/
structure HolesJoined (P P' : List Pt) (holes holes' : List (List Pt)) : Prop where
  same : List.Forall₂ (fun H H' => H' = H ∨ H' = []) holes holes'
  keeps : ∀ e ∈ ringEdges P, e ∈ ringEdges P'
  takes : List.Forall₂ (fun H H' => H' = [] → ∀ e ∈ ringEdges H, e ∈ ringEdges P') holes holes'
  total : ∀ f : Pt → Pt → Int, (∀ p q, f q p = - f p q) →
    ringSum f P' + (holes'.map (ringSum f)).sum = ringSum f P + (holes.map (ringSum f)).sum
  count : P'.length + (holes'.map List.length).sum = P.length + (holes.map List.length).sum + 2 * (holes'.countP fun H => H.isEmpty)

/-! ## Proof -/

theorem bridgeRound_table {srt : List Diag → List Diag} (hs : SortsDiags srt) {P : List Pt} {holes : List (List Pt)} {hi : Nat} {corner : Pt}
    {buf d : List Diag} {r : Option Nat} (hb : ∀ e ∈ buf, e.1 < P.length) (h : bridgeRound srt P holes hi corner buf = some (r, d)) :
    (∀ e ∈ d, e.1 < P.length) ∧ ∀ v, r = some v → v < P.length := by
  unfold bridgeRound at h
  dsimp only at h
  split at h
  · exact absurd h (by simp)
  · split at h
    · exact absurd h (by simp)
    · obtain ⟨h1, h2⟩ := Prod.mk.inj (Option.some.inj h)
      have hd : ∀ e ∈ d, e.1 < P.length := by
        intro e he
        rw [← h2] at he
        rcases List.mem_append.1 ((hs _).1.mem_iff.1 he) with he | he
        · exact (mem_diagCands.1 he).1
        · exact hb e (List.mem_of_mem_drop he)
      refine ⟨hd, ?_⟩
      rintro v rfl
      rw [h2, Option.map_eq_some_iff] at h1
      obtain ⟨e, he, rfl⟩ := h1
      exact hd e (List.mem_of_mem_take (List.mem_of_find?_eq_some he))

theorem bridgeSearch_table {srt : List Diag → List Diag} (hs : SortsDiags srt) {P : List Pt} {holes : List (List Pt)} {hi : Nat} {H : List Pt}
    (fuel : Nat) : ∀ (best : Nat) (buf d : List Diag) (r : Option (Nat × Nat)), best < H.length → (∀ e ∈ buf, e.1 < P.length) →
    bridgeSearch srt P holes hi H fuel best buf = some (r, d) →
    (∀ e ∈ d, e.1 < P.length) ∧ ∀ p, r = some p → p.1 < P.length ∧ p.2 < H.length := by
  induction fuel with
  | zero =>
    intro best buf d r _ hb h
    rw [bridgeSearch] at h
    obtain ⟨h1, h2⟩ := Prod.mk.inj (Option.some.inj h)
    subst h1 h2
    exact ⟨hb, fun p hp => absurd hp (by simp)⟩
  | succ fuel ih =>
    intro best buf d r hbest hb h
    rw [bridgeSearch] at h
    split at h
    · exact absurd h (by simp)
    · rename_i v d' hr
      obtain ⟨h1, h2⟩ := Prod.mk.inj (Option.some.inj h)
      subst h1 h2
      obtain ⟨g1, g2⟩ := bridgeRound_table hs hb hr
      refine ⟨g1, fun p hp => ?_⟩
      rw [← Option.some.inj hp]
      exact ⟨g2 v rfl, hbest⟩
    · rename_i d' hr
      exact ih _ d' d r (Nat.mod_lt _ (by omega)) (bridgeRound_table hs hb hr).1 h

theorem ringSum_merge {P H P' : List Pt} {v b : Nat} (hv : v < P.length) (hb : b < H.length) (h : mergeContours P H v b = some P')
    {f : Pt → Pt → Int} (hf : ∀ p q, f q p = - f p q) : ringSum f P' = ringSum f P + ringSum f H :=
  holeMerge_additive hv hb h f hf

theorem holesLoop_joined {srt : List Diag → List Diag} (hs : SortsDiags srt) (all : List (List Pt)) :
    ∀ (rest : List (List Pt)) (hi : Nat) (P : List Pt) (buf : List Diag) (P' : List Pt) (rest' : List (List Pt)),
      (∀ e ∈ buf, e.1 < P.length) → holesLoop srt all rest hi P buf = some (P', rest') → HolesJoined P P' rest rest' := by
  intro rest
  induction rest with
  | nil =>
    intro hi P buf P' rest' _ h
    rw [holesLoop] at h
    obtain ⟨h1, h2⟩ := Prod.mk.inj (Option.some.inj h)
    subst h1 h2
    exact ⟨List.Forall₂.nil, fun _ h => h, List.Forall₂.nil, fun _ _ => rfl, by simp⟩
  | cons H rest ih =>
    intro hi P buf P' rest' hb h
    rw [holesLoop] at h
    split at h
    · exact absurd h (by simp)
    · rename_i lm hlm
      have hne : H ≠ [] := by rintro rfl; rw [findLeftMost] at hlm; exact absurd hlm (by simp)
      have hlt : lm.2.2 < H.length := by
        obtain ⟨x, z, i, v, h1, h2, -⟩ := leftmost_spec hne
        rw [h1] at hlm
        rw [← Option.some.inj hlm]
        exact (List.getElem?_eq_some_iff.1 h2).1
      split at h
      · exact absurd h (by simp)
      · rename_i d hr
        have ht := (bridgeSearch_table hs _ _ _ _ _ hlt hb hr).1
        rw [Option.map_eq_some_iff] at h
        obtain ⟨⟨Q, R⟩, h1, h2⟩ := h
        obtain ⟨h3, h4⟩ := Prod.mk.inj h2
        dsimp only at h3 h4
        subst h3 h4
        have j := ih _ _ _ _ _ ht h1
        refine ⟨List.Forall₂.cons (Or.inl rfl) j.same, j.keeps, List.Forall₂.cons (fun h => absurd h hne) j.takes, fun f hf => ?_, ?_⟩
        · have := j.total f hf
          simp only [List.map_cons, List.sum_cons]
          linarith
        · have := j.count
          rw [List.countP_cons_of_neg (by simpa using hne)]
          simp only [List.map_cons, List.sum_cons]
          omega
      · rename_i v b d hr
        obtain ⟨ht, hp⟩ := bridgeSearch_table hs _ _ _ _ _ hlt hb hr
        obtain ⟨hv, hbl⟩ := hp _ rfl
        dsimp only at hv hbl
        obtain ⟨Q0, m1, m2, m3⟩ := holeMerge_edges hv hbl
        rw [m1] at h
        dsimp only at h
        rw [Option.map_eq_some_iff] at h
        obtain ⟨⟨Q, R⟩, h1, h2⟩ := h
        obtain ⟨h3, h4⟩ := Prod.mk.inj h2
        dsimp only at h3 h4
        subst h3 h4
        have j := ih _ _ _ _ _ (fun e he => lt_of_lt_of_le (ht e he) (by omega)) h1
        refine ⟨List.Forall₂.cons (Or.inr rfl) j.same, fun e he => j.keeps e (m3.mem_iff.2 (by simp [he])),
          List.Forall₂.cons (fun _ e he => j.keeps e (m3.mem_iff.2 (by simp [he]))) j.takes, fun f hf => ?_, ?_⟩
        · have h5 := j.total f hf
          have h6 := ringSum_merge hv hbl m1 hf
          have h7 : ringSum f [] = 0 := rfl
          simp only [List.map_cons, List.sum_cons]
          linarith
        · have := j.count
          rw [List.countP_cons_of_pos (by rfl)]
          simp only [List.map_cons, List.sum_cons, List.length_nil]
          omega

/-- **C177** When `mergeRegionHoles` returns, each hole is either as it was or empty and joined to the outline. The outline
keeps its edges and has those of the holes joined; and whatever edges contribute with a sign (area, windings around a point)
adds up to the same over all the contours as before. This holds with any bridges found and any sorting function. -/
theorem holes_joined {srt : List Diag → List Diag} (hs : SortsDiags srt) {P P' : List Pt} {holes holes' : List (List Pt)} (hP : P ≠ [])
    (h : mergeRegionHoles srt P holes = some (P', holes')) : HolesJoined P P' holes holes' := by
  refine holesLoop_joined hs holes holes 0 P _ P' holes' (fun e he => ?_) h
  rw [(List.mem_replicate.1 he).2]
  exact List.length_pos_of_ne_nil hP

/-- **C177** The signed area of the outline after `mergeRegionHoles` has joined all the holes is that of the outline plus those of
the holes. -/
theorem holes_area {srt : List Diag → List Diag} (hs : SortsDiags srt) {P P' : List Pt} {holes holes' : List (List Pt)} (hP : P ≠ [])
    (h : mergeRegionHoles srt P holes = some (P', holes')) (hall : ∀ H ∈ holes', H = []) :
    ringArea P' = ringArea P + (holes.map ringArea).sum := by
  have := (holes_joined hs hP h).total (fun p q => p.x * q.z - q.x * p.z) (fun p q => by ring)
  have h0 : (holes'.map (ringSum fun p q => p.x * q.z - q.x * p.z)).sum = 0 := by
    refine List.sum_eq_zero fun x hx => ?_
    obtain ⟨H, hH, rfl⟩ := List.mem_map.1 hx
    rw [hall H hH]
    rfl
  rw [h0, add_zero] at this
  exact this

/-! ## Running -/

theorem bridgeRound_some {srt : List Diag → List Diag} (hs : SortsDiags srt) {P : List Pt} {holes : List (List Pt)} {hi : Nat} {corner : Pt}
    {buf : List Diag} (hP : P.length ≤ buf.length) (hh : hi < buf.length) :
    ∃ r d, bridgeRound srt P holes hi corner buf = some (r, d) ∧ d.length = buf.length := by
  have hc : (diagCands P corner).length ≤ P.length := by
    unfold diagCands
    rw [List.length_map]
    exact le_trans (List.length_filter_le _ _) (by rw [List.length_range])
  have hlen : (srt (diagCands P corner ++ buf.drop (diagCands P corner).length)).length = buf.length := by
    rw [(hs _).1.length_eq, List.length_append, List.length_drop]
    omega
  unfold bridgeRound
  dsimp only
  rw [if_neg (by omega), if_neg (by rw [hlen]; omega)]
  exact ⟨_, _, rfl, hlen⟩

theorem bridgeSearch_some {srt : List Diag → List Diag} (hs : SortsDiags srt) {P : List Pt} {holes : List (List Pt)} {hi : Nat} {H : List Pt}
    (fuel : Nat) : ∀ (best : Nat) (buf : List Diag), P.length ≤ buf.length → hi < buf.length →
    ∃ r d, bridgeSearch srt P holes hi H fuel best buf = some (r, d) ∧ d.length = buf.length := by
  induction fuel with
  | zero => intro best buf _ _; exact ⟨none, buf, rfl, rfl⟩
  | succ fuel ih =>
    intro best buf h1 h2
    obtain ⟨r, d, h3, h4⟩ := bridgeRound_some (holes := holes) (corner := pt H best) hs h1 h2
    rw [bridgeSearch, h3]
    cases r with
    | some v => exact ⟨_, _, rfl, h4⟩
    | none =>
      obtain ⟨r, d', h5, h6⟩ := ih ((best + 1) % H.length) d (by omega) (by omega)
      exact ⟨r, d', h5, by omega⟩

theorem holesLoop_some {srt : List Diag → List Diag} (hs : SortsDiags srt) (all : List (List Pt)) :
    ∀ (rest : List (List Pt)) (hi : Nat) (P : List Pt) (buf : List Diag), (∀ e ∈ buf, e.1 < P.length) → (∀ H ∈ rest, H ≠ []) →
      hi + rest.length ≤ buf.length →
      (∀ pre suf, rest = pre ++ suf → suf ≠ [] → P.length + (pre.map List.length).sum + 2 * pre.length ≤ buf.length) →
      ∃ r, holesLoop srt all rest hi P buf = some r := by
  intro rest
  induction rest with
  | nil => intro hi P buf _ _ _ _; exact ⟨_, rfl⟩
  | cons H rest ih =>
    intro hi P buf hb hne hhi hfit
    have hH := hne H List.mem_cons_self
    have hP : P.length ≤ buf.length := by simpa using hfit [] (H :: rest) rfl (by simp)
    obtain ⟨x, z, i, v, h1, h2, -⟩ := leftmost_spec hH
    have hi' : i < H.length := (List.getElem?_eq_some_iff.1 h2).1
    rw [List.length_cons] at hhi
    obtain ⟨r, d, h3, h4⟩ := bridgeSearch_some (holes := all) (H := H) hs H.length i buf hP (show hi < buf.length by omega)
    obtain ⟨g1, g2⟩ := bridgeSearch_table hs _ _ _ _ _ hi' hb h3
    rw [holesLoop, h1]
    dsimp only
    rw [h3]
    have hfit' : ∀ n, n ≤ P.length + H.length + 2 → ∀ pre suf, rest = pre ++ suf → suf ≠ [] →
        n + (pre.map List.length).sum + 2 * pre.length ≤ d.length := by
      intro n hn pre suf he hsuf
      have := hfit (H :: pre) suf (by rw [he]; rfl) hsuf
      rw [List.map_cons, List.sum_cons, List.length_cons] at this
      omega
    cases r with
    | none =>
      obtain ⟨r, hr⟩ := ih (hi + 1) P d g1 (fun X hX => hne X (List.mem_cons_of_mem _ hX)) (by omega) (hfit' _ (by omega))
      dsimp only
      rw [hr]
      exact ⟨_, rfl⟩
    | some p =>
      obtain ⟨w, b⟩ := p
      obtain ⟨hv, hbl⟩ := g2 _ rfl
      obtain ⟨Q, m1, m2, -⟩ := holeMerge_edges hv hbl
      dsimp only at m1 ⊢
      rw [m1]
      dsimp only
      obtain ⟨r, hr⟩ := ih (hi + 1) Q d (fun e he => lt_of_lt_of_le (g1 e he) (by omega))
        (fun X hX => hne X (List.mem_cons_of_mem _ hX)) (by omega) (hfit' _ (by omega))
      rw [hr]
      exact ⟨_, rfl⟩

/-- **C177** `mergeRegionHoles` returns if every hole has vertices and the holes from any one on have at least twice as many
vertices together as there are holes before it. Partial: with many holes of few vertices the outline can become longer than
the table of candidates (each hole adds two vertices more than it has). -/
theorem holes_runs_partial {srt : List Diag → List Diag} (hs : SortsDiags srt) {P : List Pt} {holes : List (List Pt)} (hP : P ≠ [])
    (hne : ∀ H ∈ holes, H ≠ []) (hfit : ∀ pre suf, holes = pre ++ suf → suf ≠ [] → 2 * pre.length ≤ (suf.map List.length).sum) :
    ∃ P' holes', mergeRegionHoles srt P holes = some (P', holes') ∧ HolesJoined P P' holes holes' := by
  have hlen : ∀ l : List (List Pt), (∀ H ∈ l, H ≠ []) → l.length ≤ (l.map List.length).sum := by
    intro l
    induction l with
    | nil => intro _; simp
    | cons H l ih =>
      intro h
      have := ih fun X hX => h X (List.mem_cons_of_mem _ hX)
      have h0 := List.length_pos_of_ne_nil (h H List.mem_cons_self)
      simp only [List.length_cons, List.map_cons, List.sum_cons]
      omega
  have : ∃ r, mergeRegionHoles srt P holes = some r := by
    refine holesLoop_some hs holes holes 0 P _ (fun e he => ?_) hne ?_ ?_
    · rw [(List.mem_replicate.1 he).2]
      exact List.length_pos_of_ne_nil hP
    · rw [List.length_replicate]
      have := hlen holes hne
      omega
    · intro pre suf he hsuf
      have := hfit pre suf he hsuf
      rw [List.length_replicate, he, List.map_append, List.sum_append]
      omega
  obtain ⟨⟨P', holes'⟩, h⟩ := this
  exact ⟨P', holes', h, holes_joined hs hP h⟩

/-- A stable sort by insertion. -/
def insDiag (x : Diag) : List Diag → List Diag
  | [] => [x]
  | y :: l => if x.2 ≤ y.2 then x :: y :: l else y :: insDiag x l

/-- A square with a square hole, which is joined by the bridge from vertex 0. -/
example : (mergeRegionHoles (fun d => d.foldr insDiag []) [xz 0 0, xz 0 10, xz 10 10, xz 10 0] [[xz 3 3, xz 5 3, xz 5 5, xz 3 5]]).map
    (fun r => (r.1.length, ringArea r.1, r.2)) = some (10, -192, [[]]) := by decide +kernel

/-- The hypothesis on the holes is met by two holes of four vertices. -/
example (A B : List Pt) (hB : B.length = 4) (pre suf : List (List Pt)) (h : [A, B] = pre ++ suf) (hs : suf ≠ []) :
    2 * pre.length ≤ (suf.map List.length).sum := by
  match pre, suf, h, hs with
  | [], _, h, _ => simp
  | [_], _ :: _, h, _ =>
    simp only [List.cons_append, List.nil_append, List.cons.injEq] at h
    obtain ⟨rfl, rfl, rfl⟩ := h
    simp [hB]
  | _ :: _ :: pre, suf, h, hs =>
    have h1 := congrArg List.length h
    have h2 := List.length_pos_of_ne_nil hs
    simp only [List.length_cons, List.length_append, List.length_nil] at h1
    omega

end Verif.Recast
