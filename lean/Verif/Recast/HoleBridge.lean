/-
The bridge between a hole and the outline of its region: one round of the search in `mergeRegionHoles`
(recast/contour.go:97-175).

Simplifications: coordinates are unbounded integers. `sort.Sort` is any function that sorts (the order of entries with equal
distances is not specified by the library).
-/
import Verif.Recast.Triangulate

namespace Verif.Recast
open Verif Verif.Detour

/-! ## Model -/

/-- `inCone4` (recast/contour.go:1028-1040). -/
def inCone4 (P : List Pt) (i : Nat) (pj : Pt) : Bool :=
  let pi := pt P i
  let pi1 := pt P (next i P.length)
  let pin1 := pt P (prev i P.length)
  if leftOn pin1 pi pi1 then left pi pj pin1 && left pj pi pi1
  else !(leftOn pi pj pi1 && leftOn pj pi pin1)

/-- `intersectSegCountour` (recast/contour.go:1007-1026); `skip` is `none` for -1. -/
def segHits (d0 d1 : Pt) (skip : Option Nat) (P : List Pt) : Bool :=
  (List.range P.length).any fun k =>
    let k1 := next k P.length
    if skip = some k ∨ skip = some k1 then false
    else
      let p0 := pt P k
      let p1 := pt P k1
      if vequal d0 p0 || vequal d1 p0 || vequal d0 p1 || vequal d1 p1 then false else intersect d0 d1 p0 p1

/-- An entry of `diags`: vertex and squared distance. -/
abbrev Diag := Nat × Int

/-- The squared distance of the code (recast/contour.go:131-134). -/
def diagDist (p c : Pt) : Int := (p.x - c.x) * (p.x - c.x) + (p.z - c.z) * (p.z - c.z)

/-- The potential diagonals to `corner` (recast/contour.go:129-138). -/
def diagCands (P : List Pt) (corner : Pt) : List Diag :=
  ((List.range P.length).filter fun j => inCone4 P j corner).map fun j => (j, diagDist (pt P j) corner)

/-- One round of the search (recast/contour.go:127-157) for the hole `hi`, with `diags` as the earlier rounds have left it:
the vertex of the outline if a bridge was found, and `diags` afterwards. `none` is a panic. -/
def bridgeRound (srt : List Diag → List Diag) (P : List Pt) (holes : List (List Pt)) (hi : Nat) (corner : Pt) (buf : List Diag) :
    Option (Option Nat × List Diag) :=
  let cs := diagCands P corner
  if buf.length < cs.length then none
  else
    let d := srt (cs ++ buf.drop cs.length)
    if d.length ≤ hi ∧ cs ≠ [] then none
    else
      some (((d.take cs.length).find? fun e =>
        !(segHits (pt P e.1) corner (some (d.getD hi (0, 0)).1) P || (holes.drop hi).any fun H => segHits (pt P e.1) corner none H)).map Prod.fst, d)

/-! ## Spec -/

/-- Spec: a function that sorts by distance. -/
def SortsDiags (srt : List Diag → List Diag) : Prop := ∀ d, (srt d).Perm d ∧ (srt d).Pairwise fun a b => a.2 ≤ b.2

/-- Spec: the segment crosses no edge of the ring `P`, except those that meet vertex `skip` or share an end with the segment. -/
def BridgeFree (d0 d1 : Pt) (skip : Option Nat) (P : List Pt) : Prop := ∀ k < P.length, skip ≠ some k → skip ≠ some (next k P.length) →
  vequal d0 (pt P k) = false → vequal d1 (pt P k) = false → vequal d0 (pt P (next k P.length)) = false → vequal d1 (pt P (next k P.length)) = false →
  intersect d0 d1 (pt P k) (pt P (next k P.length)) = false

theorem segHits_false {d0 d1 : Pt} {skip : Option Nat} {P : List Pt} : segHits d0 d1 skip P = false ↔ BridgeFree d0 d1 skip P := by
  unfold segHits BridgeFree
  rw [List.any_eq_false]
  constructor
  · intro h k hk s1 s2 e1 e2 e3 e4
    have := h k (List.mem_range.2 hk)
    dsimp only at this
    rw [if_neg (by rintro (h | h); exacts [s1 h, s2 h]), e1, e2, e3, e4] at this
    simpa using this
  · intro h k hk
    dsimp only
    split
    · simp
    · rename_i hs
      split
      · simp
      · rename_i he
        simp only [Bool.or_eq_true, not_or, Bool.not_eq_true] at he
        rw [h k (List.mem_range.1 hk) (fun e => hs (Or.inl e)) (fun e => hs (Or.inr e)) he.1.1.1 he.1.1.2 he.1.2 he.2]
        simp

theorem mem_diagCands {P : List Pt} {corner : Pt} {e : Diag} : e ∈ diagCands P corner ↔
    e.1 < P.length ∧ inCone4 P e.1 corner = true ∧ e.2 = diagDist (pt P e.1) corner := by
  unfold diagCands
  rw [List.mem_map]
  constructor
  · rintro ⟨j, hj, rfl⟩
    rw [List.mem_filter, List.mem_range] at hj
    exact ⟨hj.1, hj.2, rfl⟩
  · rintro ⟨h1, h2, h3⟩
    exact ⟨e.1, List.mem_filter.2 ⟨List.mem_range.2 h1, h2⟩, by rw [← h3]⟩

/-- **C176** A bridge that was found crosses none of the holes that are not yet merged, and no edge of the outline apart from
those at the vertex that the code skips and those sharing an end with it. Partial: the vertex skipped is that of entry
number `hi` of the table, not that of the bridge. -/
theorem bridge_clear_partial {srt : List Diag → List Diag} {P : List Pt} {holes : List (List Pt)} {hi : Nat} {corner : Pt} {buf d : List Diag} {v : Nat}
    (h : bridgeRound srt P holes hi corner buf = some (some v, d)) :
    BridgeFree (pt P v) corner (some (d.getD hi (0, 0)).1) P ∧ ∀ H ∈ holes.drop hi, BridgeFree (pt P v) corner none H := by
  unfold bridgeRound at h
  dsimp only at h
  split at h
  · exact absurd h (by simp)
  · split at h
    · exact absurd h (by simp)
    · obtain ⟨h1, h2⟩ := Prod.mk.inj (Option.some.inj h)
      rw [h2] at h1
      rw [Option.map_eq_some_iff] at h1
      obtain ⟨e, he, rfl⟩ := h1
      have := List.find?_some he
      simp only [Bool.not_eq_true', Bool.or_eq_false_iff] at this
      refine ⟨segHits_false.1 this.1, fun H hH => segHits_false.1 ?_⟩
      have h3 := List.any_eq_false.1 this.2 H hH
      simpa using h3

/-- **C176** If the table was exactly as long as the list of candidates, the bridge would be a nearest one: a vertex of the
outline whose cone has the corner in it, and every nearer candidate crosses something. Partial: the table is longer. -/
theorem bridge_nearest_partial {srt : List Diag → List Diag} (hs : SortsDiags srt) {P : List Pt} {holes : List (List Pt)} {hi : Nat} {corner : Pt}
    {buf d : List Diag} (hb : buf.length = (diagCands P corner).length) {r : Option Nat}
    (h : bridgeRound srt P holes hi corner buf = some (r, d)) :
    (∀ v, r = some v → v < P.length ∧ inCone4 P v corner = true) ∧
    ∀ e ∈ diagCands P corner, BridgeFree (pt P e.1) corner (some (d.getD hi (0, 0)).1) P → (∀ H ∈ holes.drop hi, BridgeFree (pt P e.1) corner none H) →
      ∃ v, r = some v ∧ diagDist (pt P v) corner ≤ e.2 := by
  unfold bridgeRound at h
  dsimp only at h
  rw [if_neg (by omega), List.drop_of_length_le (by omega), List.append_nil] at h
  obtain ⟨hp, hsort⟩ := hs (diagCands P corner)
  split at h
  · exact absurd h (by simp)
  · obtain ⟨h1, h2⟩ := Prod.mk.inj (Option.some.inj h)
    rw [h2] at h1 hp hsort
    rw [List.take_of_length_le (by rw [hp.length_eq])] at h1
    constructor
    · rintro v rfl
      rw [Option.map_eq_some_iff] at h1
      obtain ⟨e, he, rfl⟩ := h1
      have := mem_diagCands.1 (hp.mem_iff.1 (List.mem_of_find?_eq_some he))
      exact ⟨this.1, this.2.1⟩
    · intro e he hc hh
      have hed := hp.mem_iff.2 he
      have hok : (!(segHits (pt P e.1) corner (some (d.getD hi (0, 0)).1) P || (holes.drop hi).any fun H => segHits (pt P e.1) corner none H)) = true := by
        rw [segHits_false.2 hc, Bool.false_or, Bool.not_eq_true', List.any_eq_false]
        intro H hH
        rw [segHits_false.2 (hh H hH)]
        simp
      cases hf : d.find? fun e => !(segHits (pt P e.1) corner (some (d.getD hi (0, 0)).1) P || (holes.drop hi).any fun H => segHits (pt P e.1) corner none H) with
      | none => exact absurd hok (List.find?_eq_none.1 hf e hed)
      | some x =>
        rw [hf] at h1
        refine ⟨x.1, h1.symm, ?_⟩
        have hx := mem_diagCands.1 (hp.mem_iff.1 (List.mem_of_find?_eq_some hf))
        rw [← hx.2.2]
        obtain ⟨-, as, bs, hd, hno⟩ := List.find?_eq_some_iff_append.1 hf
        rw [hd] at hed hsort
        rcases List.mem_append.1 hed with hm | hm
        · have := hno e hm
          rw [hok] at this
          exact absurd this (by simp)
        · rcases List.mem_cons.1 hm with rfl | hm
          · exact le_rfl
          · exact (List.pairwise_cons.1 (List.pairwise_append.1 hsort).2.1).1 e hm

theorem sorted_zeros {d : List Diag} (hsort : d.Pairwise fun a b => a.2 ≤ b.2) (hpos : ∀ e ∈ d, 0 ≤ e.2) {n : Nat}
    (hn : n ≤ d.countP fun e => e.2 = 0) : ∀ e ∈ d.take n, e.2 = 0 := by
  intro e he
  by_contra hne
  have hel : e ∈ d := List.mem_of_mem_take he
  have h0 : 0 < e.2 := lt_of_le_of_ne (hpos e hel) (Ne.symm hne)
  rw [← List.take_append_drop n d] at hsort hn
  have hdrop : (d.drop n).countP (fun e => e.2 = 0) = 0 := by
    rw [List.countP_eq_zero]
    intro x hx
    have := (List.pairwise_append.1 hsort).2.2 e he x hx
    simp only [decide_eq_true_eq]
    omega
  rw [List.countP_append, hdrop, Nat.add_zero] at hn
  have hle : (d.take n).length ≤ n := by rw [List.length_take]; omega
  have : (d.take n).countP (fun e => e.2 = 0) = (d.take n).length :=
    le_antisymm List.countP_le_length (le_trans hle hn)
  rw [List.countP_eq_length] at this
  exact hne (by simpa using this e he)

/-- With enough unused entries the part of the table that is looked at holds nothing but unused entries. -/
theorem bridge_table {srt : List Diag → List Diag} (hs : SortsDiags srt) {P : List Pt} {corner : Pt} {m : Nat}
    (hm : 2 * (diagCands P corner).length ≤ m) (hoff : ∀ e ∈ diagCands P corner, e.2 ≠ 0) :
    ∀ e ∈ (srt (diagCands P corner ++ (List.replicate m ((0, 0) : Diag)).drop (diagCands P corner).length)).take (diagCands P corner).length,
      e = (0, 0) := by
  intro e het
  obtain ⟨hp, hsort⟩ := hs (diagCands P corner ++ (List.replicate m ((0, 0) : Diag)).drop (diagCands P corner).length)
  generalize srt (diagCands P corner ++ (List.replicate m ((0, 0) : Diag)).drop (diagCands P corner).length) = d at *
  rw [List.drop_replicate] at hp
  have hnn : ∀ e ∈ d, 0 ≤ e.2 := by
    intro x hx
    rcases List.mem_append.1 (hp.mem_iff.1 hx) with hx | hx
    · rw [(mem_diagCands.1 hx).2.2]
      unfold diagDist
      nlinarith [mul_self_nonneg ((pt P x.1).x - corner.x), mul_self_nonneg ((pt P x.1).z - corner.z)]
    · rw [(List.mem_replicate.1 hx).2]
  have hz := sorted_zeros hsort hnn (n := (diagCands P corner).length) (by
    rw [hp.countP_eq, List.countP_append, List.countP_replicate]
    simp
    omega) e het
  rcases List.mem_append.1 (hp.mem_iff.1 (List.mem_of_mem_take het)) with hx | hx
  · exact absurd hz (hoff e hx)
  · exact (List.mem_replicate.1 hx).2

/-- **C176** (refuted) The code sorts the whole table, unused entries and all. As long as these are at least as many as the
candidates, the only vertex that the first round ever tries is vertex 0 of the outline, whatever the shapes are: whether its
cone has the corner in it or not, and however near other vertices are. -/
theorem bridge_only_zero_refuted {srt : List Diag → List Diag} (hs : SortsDiags srt) {P : List Pt} {holes : List (List Pt)} {hi : Nat} {corner : Pt}
    {m : Nat} (hm : 2 * (diagCands P corner).length ≤ m) (hoff : ∀ e ∈ diagCands P corner, e.2 ≠ 0) {r : Option Nat} {d : List Diag}
    (h : bridgeRound srt P holes hi corner (List.replicate m (0, 0)) = some (r, d)) :
    (r = none ∨ r = some 0) ∧ ∀ e ∈ d.take (diagCands P corner).length, e = (0, 0) := by
  have ht := bridge_table hs hm hoff
  unfold bridgeRound at h
  dsimp only at h
  rw [if_neg (by rw [List.length_replicate]; omega)] at h
  split at h
  · exact absurd h (by simp)
  · obtain ⟨h1, h2⟩ := Prod.mk.inj (Option.some.inj h)
    rw [h2] at h1 ht
    refine ⟨?_, ht⟩
    cases r with
    | none => exact Or.inl rfl
    | some v =>
      right
      rw [Option.map_eq_some_iff] at h1
      obtain ⟨e, he, rfl⟩ := h1
      rw [ht e (List.mem_of_find?_eq_some he)]

/-! ## Cases -/

def xz (x z : Int) : Pt := ⟨x, 0, z, 0⟩

/-- Sorting functions exist. -/
theorem mergeSort_sorts : SortsDiags fun d => d.mergeSort fun a b => decide (a.2 ≤ b.2) := by
  intro d
  refine ⟨List.mergeSort_perm _ _, (List.pairwise_mergeSort ?_ ?_ d).imp fun h => by simpa using h⟩
  · intro a b c h1 h2
    simp only [decide_eq_true_eq] at *
    omega
  · intro a b
    simp only [Bool.or_eq_true, decide_eq_true_eq]
    omega

/-- A square, and a corner next to its vertex 2: four candidates, none of them vertex 0 at distance 0. -/
example : diagCands [xz 0 0, xz 0 10, xz 10 10, xz 10 0] (xz 9 9) = [(0, 162), (1, 82), (2, 2), (3, 82)] := by decide +kernel

/-- An outline of the shape of a U, and a hole in its right arm. -/
def uShape : List Pt := [xz 3 10, xz 3 3, xz 7 3, xz 7 10, xz 10 10, xz 10 0, xz 0 0, xz 0 10]
def armHole : List Pt := [xz 8 8, xz 9 8, xz 9 9, xz 8 9]

theorem uShape_cands : diagCands uShape (xz 8 8) = [(2, 26), (3, 5), (4, 8), (5, 68), (6, 128), (7, 68)] := by decide +kernel

/-- **C176** (refuted) A free bridge is missed: with any sorting function, the first round for the hole in the arm of the U
finds nothing, although the bridge from vertex 3 of the outline, which is nearest, crosses nothing. -/
theorem bridge_missed_refuted {srt : List Diag → List Diag} (hs : SortsDiags srt) :
    (∃ d, bridgeRound srt uShape [armHole] 0 (xz 8 8) (List.replicate 12 (0, 0)) = some (none, d)) ∧
    (3, 5) ∈ diagCands uShape (xz 8 8) ∧ (∀ e ∈ diagCands uShape (xz 8 8), 5 ≤ e.2) ∧
    BridgeFree (pt uShape 3) (xz 8 8) none uShape ∧ BridgeFree (pt uShape 3) (xz 8 8) none armHole := by
  refine ⟨?_, by decide +kernel, by decide +kernel, segHits_false.1 (by decide +kernel), segHits_false.1 (by decide +kernel)⟩
  have hlen : ∀ d, bridgeRound srt uShape [armHole] 0 (xz 8 8) (List.replicate 12 (0, 0)) = some d → d.2.length = 12 := by
    intro d hd
    unfold bridgeRound at hd
    dsimp only at hd
    rw [if_neg (by rw [uShape_cands]; decide)] at hd
    split at hd
    · exact absurd hd (by simp)
    · rw [← Option.some.inj hd]
      dsimp only
      rw [(hs _).1.length_eq, uShape_cands]
      decide
  cases hb : bridgeRound srt uShape [armHole] 0 (xz 8 8) (List.replicate 12 (0, 0)) with
  | none =>
    unfold bridgeRound at hb
    dsimp only at hb
    rw [if_neg (by rw [uShape_cands]; decide), if_neg] at hb
    · exact absurd hb (by simp)
    · rintro ⟨h, -⟩
      rw [(hs _).1.length_eq, uShape_cands] at h
      exact absurd h (by decide)
  | some p =>
    obtain ⟨r, d⟩ := p
    obtain ⟨h1, h2⟩ := bridge_only_zero_refuted hs (by rw [uShape_cands]; decide) (by rw [uShape_cands]; decide) hb
    rcases h1 with rfl | rfl
    · exact ⟨d, rfl⟩
    · exfalso
      have hc := (bridge_clear_partial hb).1
      have hl := hlen _ hb
      dsimp only at hl
      rw [uShape_cands] at h2
      cases d with
      | nil => exact absurd hl (by simp)
      | cons e d =>
        have he := h2 e (by simp)
        subst he
        rw [List.getD_cons_zero] at hc
        have := hc 2 (by decide) (by decide) (by decide) (by decide) (by decide) (by decide) (by decide)
        exact absurd this (by decide +kernel)

/-- The hypotheses of `bridge_nearest_partial` meet, and the nearest vertex is taken. -/
example : (bridgeRound (fun _ => [(3, 5), (4, 8), (2, 26), (5, 68), (7, 68), (6, 128)]) uShape [armHole] 0 (xz 8 8) (List.replicate 6 (0, 0))).map Prod.fst =
    some (some 3) := by decide +kernel

end Verif.Recast
