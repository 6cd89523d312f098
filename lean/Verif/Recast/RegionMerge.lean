/-
The merging passes of `mergeAndFilterRegions` (recast/region.go:1033-1103) and the whole of
`BuildRegionsMonotone`: what the regions of the spans are in the end.
-/
import Verif.Recast.RegionDrop

namespace Verif.Recast
open Verif Verif.Detour

set_option linter.unusedSimpArgs false
set_option linter.unusedVariables false

/-! ## One merge -/

/-- The spans of the class of record `k`: those whose partition region has id `k` now. -/
def Cls (c : Chf) (src : Nat → Nat) (nreg : Nat) (regs : Nat → Region) (k i : Nat) : Prop :=
  i < c.n ∧ src i ≠ 0 ∧ src i < nreg ∧ (regs (src i)).id = k

/-- What one merge of record `b` into record `t` does to the records. -/
structure Merged (nreg : Nat) (regs regs' : Nat → Region) (b t : Nat) : Prop where
  id : ∀ k < nreg, (regs' k).id = if (regs k).id = b then t else (regs k).id
  area : ∀ k, (regs' k).areaType = (regs k).areaType
  overlap : ∀ k, (regs' k).overlap = (regs k).overlap
  conns : ∀ k < nreg, (regs k).id ≠ 0 → ∀ x ∈ (regs' k).conns,
    ∃ e, (e ∈ (regs k).conns ∨ (k = t ∧ e ∈ (regs b).conns)) ∧ x = if e = b then t else e
  dead : ∀ k < nreg, (regs k).id = 0 → (regs' k).conns = (regs k).conns
  floors : ∀ k < nreg, (regs k).id ≠ 0 → k ≠ b → ∀ f, (f ∈ (regs k).floors ∨ (k = t ∧ f ∈ (regs b).floors)) →
    (if f = b then t else f) ∈ (regs' k).floors
  count : ∀ k < nreg, (regs' k).spanCount = if k = b then 0 else if k = t then (regs t).spanCount + (regs b).spanCount else (regs k).spanCount

theorem replace_mem (r : Region) (old new : Nat) :
    (∀ x ∈ (r.replace old new).conns, ∃ e ∈ r.conns, x = if e = old then new else e) ∧
    (r.replace old new).floors = r.floors.map (fun c => if c = old then new else c) ∧
    (r.replace old new).spanCount = r.spanCount ∧ (r.replace old new).id = r.id ∧
    (r.replace old new).areaType = r.areaType ∧ (r.replace old new).overlap = r.overlap := by
  refine ⟨?_, rfl, rfl, rfl, rfl, rfl⟩
  intro x hx
  have : x ∈ r.conns.map fun c => if c = old then new else c := by
    unfold Region.replace at hx
    dsimp only at hx
    split at hx
    · exact ((removeAdjacent_spec _).2.2.2 x).1 hx
    · exact hx
  obtain ⟨e, he, rfl⟩ := List.mem_map.1 this
  exact ⟨e, he, rfl⟩

theorem mergeTwo_overlap {a b a' b' : Region} (h : mergeTwo a b = some (a', b')) : a'.overlap = a.overlap ∧ b'.overlap = b.overlap := by
  unfold mergeTwo at h
  split at h
  · simp only [Option.some.injEq, Prod.mk.injEq] at h
    obtain ⟨rfl, rfl⟩ := h
    exact ⟨rfl, rfl⟩
  · exact absurd h (by simp)

theorem merged_of {nreg : Nat} {regs : Nat → Region} {b t : Nat} {T B : Region} (hn : nreg ≤ 0x8000) (hids : ∀ k < nreg, (regs k).id < nreg)
    (hb : b < nreg) (ht : t < nreg) (hb0 : b ≠ 0) (hbt : b ≠ t) (hbid : (regs b).id = b) (htid : (regs t).id = t) (ht0 : t ≠ 0)
    (hm : mergeTwo (regs t) (regs b) = some (T, B)) :
    Merged nreg regs (fun k => if k < nreg then fixup b t (upd (upd regs t T) b B k) else upd (upd regs t T) b B k) b t := by
  obtain ⟨-, m2, m3, -, m5, m6, m7, m8, m9, m10, m11, m12⟩ := (mergeTwo_spec (regs t) (regs b)).2 T B hm
  obtain ⟨o1, o2⟩ := mergeTwo_overlap hm
  have eB : upd (upd regs t T) b B b = B := upd_same _ _ _
  have eT : upd (upd regs t T) b B t = T := by rw [upd_ne _ _ (Ne.symm hbt), upd_same]
  have eK : ∀ k, k ≠ b → k ≠ t → upd (upd regs t T) b B k = regs k := fun k h1 h2 => by rw [upd_ne _ _ h1, upd_ne _ _ h2]
  generalize hR : upd (upd regs t T) b B = R at *
  have hRid : ∀ k, (R k).id = (regs k).id := by
    intro k
    by_cases h1 : k = b
    · subst h1; rw [eB, m10]
    · by_cases h2 : k = t
      · subst h2; rw [eT, m6]
      · rw [eK k h1 h2]
  have hRarea : ∀ k, (R k).areaType = (regs k).areaType := by
    intro k
    by_cases h1 : k = b
    · subst h1; rw [eB, m11]
    · by_cases h2 : k = t
      · subst h2; rw [eT, m7]
      · rw [eK k h1 h2]
  have hRov : ∀ k, (R k).overlap = (regs k).overlap := by
    intro k
    by_cases h1 : k = b
    · subst h1; rw [eB, o2]
    · by_cases h2 : k = t
      · subst h2; rw [eT, o1]
      · rw [eK k h1 h2]
  have fix0 : ∀ k < nreg, (regs k).id = 0 → fixup b t (R k) = R k := by
    intro k hk h0
    unfold fixup
    rw [if_pos (Or.inl (by rw [hRid]; exact h0))]
  have fix1 : ∀ k < nreg, (regs k).id ≠ 0 → fixup b t (R k) = ({ R k with id := if (regs k).id = b then t else (regs k).id } : Region).replace b t := by
    intro k hk h0
    unfold fixup
    have : isBorder (R k).id = false := isBorder_false.2 (by rw [hRid]; have := hids k hk; omega)
    rw [if_neg (by rw [this, hRid]; simp [h0]), hRid]
  refine ⟨?_, ?_, ?_, ?_, ?_, ?_, ?_⟩
  · intro k hk
    rw [if_pos hk]
    by_cases h0 : (regs k).id = 0
    · rw [fix0 k hk h0, hRid, if_neg (by rw [h0]; exact fun h => hb0 h.symm)]
    · rw [fix1 k hk h0]
      rfl
  · intro k
    split
    · rename_i hk
      by_cases h0 : (regs k).id = 0
      · rw [fix0 k hk h0, hRarea]
      · rw [fix1 k hk h0]
        exact hRarea k
    · exact hRarea k
  · intro k
    split
    · rename_i hk
      by_cases h0 : (regs k).id = 0
      · rw [fix0 k hk h0, hRov]
      · rw [fix1 k hk h0]
        exact hRov k
    · exact hRov k
  · intro k hk h0 x hx
    rw [if_pos hk, fix1 k hk h0] at hx
    obtain ⟨e, he, rfl⟩ := (replace_mem _ b t).1 x hx
    refine ⟨e, ?_, rfl⟩
    have he' : e ∈ (R k).conns := he
    by_cases h1 : k = b
    · subst h1
      rw [eB, m9] at he'
      exact absurd he' (by simp)
    · by_cases h2 : k = t
      · subst h2
        rw [eT] at he'
        rcases (m2 e).1 he' with h | h
        · exact Or.inl (List.mem_of_mem_erase h)
        · exact Or.inr ⟨rfl, List.mem_of_mem_erase h⟩
      · rw [eK k h1 h2] at he'
        exact Or.inl he'
  · intro k hk h0
    rw [if_pos hk, fix0 k hk h0, eK k (fun h => hb0 (by rw [← hbid, ← h, h0])) (fun h => ht0 (by rw [← htid, ← h, h0]))]
  · intro k hk h0 hkb f hf
    rw [if_pos hk, fix1 k hk h0, (replace_mem _ b t).2.1]
    refine List.mem_map.2 ⟨f, ?_, rfl⟩
    show f ∈ (R k).floors
    by_cases h2 : k = t
    · subst h2
      rw [eT, m3]
      exact hf.imp_right And.right
    · rw [eK k hkb h2]
      exact hf.resolve_right fun h => h2 h.1
  · intro k hk
    have hcount : (if k < nreg then fixup b t (R k) else R k).spanCount = (R k).spanCount := by
      rw [if_pos hk]
      by_cases h0 : (regs k).id = 0
      · rw [fix0 k hk h0]
      · rw [fix1 k hk h0]
        rfl
    rw [hcount]
    by_cases h1 : k = b
    · subst h1; rw [eB, m8, if_pos rfl]
    · rw [if_neg h1]
      by_cases h2 : k = t
      · subst h2; rw [eT, m5, if_pos rfl]
      · rw [if_neg h2, eK k h1 h2]

/-! ## The invariant of the passes -/

structure MergeInv (c : Chf) (src : Nat → Nat) (nreg : Nat) (regs : Nat → Region) : Prop where
  zero : (regs 0).id = 0
  lt : ∀ k < nreg, (regs k).id < nreg
  self : ∀ k < nreg, (regs (regs k).id).id = (regs k).id
  own : ∀ k < nreg, (regs k).spanCount ≠ 0 → (regs k).id = k
  range : ∀ k < nreg, ∀ e ∈ (regs k).conns, isBorder e = true ∨ e < nreg
  link : ∀ k < nreg, (regs k).id = k → k ≠ 0 → ∀ e ∈ (regs k).conns, e ≠ 0 → isBorder e = false →
    (regs e).id = 0 ∨ ((regs e).id = e ∧ ∃ i j, Cls c src nreg regs k i ∧ Cls c src nreg regs e j ∧ Linked c i j)
  piece : ∀ k < nreg, k ≠ 0 → OnePiece c (Cls c src nreg regs k)
  area : ∀ k < nreg, (regs k).id = k → k ≠ 0 → ∀ i, Cls c src nreg regs k i → c.area i = (regs k).areaType
  floors : ∀ k < nreg, ∀ f < nreg, k ≠ 0 → f ≠ 0 → (regs k).id = k → f ≠ k →
    ∀ i j, Cls c src nreg regs k i → Cls c src nreg regs f j → Stacked c i j → f ∈ (regs k).floors
  column : ∀ k < nreg, (regs k).id = k → k ≠ 0 → (regs k).overlap = false →
    ∀ i j, Cls c src nreg regs k i → Cls c src nreg regs k j → ¬ Stacked c i j
  alone : ∀ k < nreg, (regs k).id = k → k ≠ 0 → (regs k).overlap = true → ∀ l < nreg, (regs l).id = k → l = k
  last : (regs (nreg - 1)).id = nreg - 1 ∧ (regs (nreg - 1)).conns = [] ∧ (regs (nreg - 1)).spanCount = 0 ∧ ∀ k < nreg, (regs k).id = nreg - 1 → k = nreg - 1

theorem Stacked.symm {c : Chf} {i j : Nat} (h : Stacked c i j) : Stacked c j i :=
  ⟨h.1.symm, let ⟨x, y, h1, h2⟩ := h.2; ⟨x, y, h2, h1⟩⟩

theorem merge_inv {c : Chf} {src : Nat → Nat} {nreg : Nat} {regs regs' : Nat → Region} (hn : nreg ≤ 0x8000) (h : MergeInv c src nreg regs)
    {b t : Nat} (hb : b < nreg) (ht : t < nreg) (hb0 : b ≠ 0) (ht0 : t ≠ 0) (hbt : b ≠ t) (hbid : (regs b).id = b) (htid : (regs t).id = t)
    (hlink : ∃ i j, Cls c src nreg regs b i ∧ Cls c src nreg regs t j ∧ Linked c i j)
    (harea : (regs b).areaType = (regs t).areaType) (hob : (regs b).overlap = false) (hot : (regs t).overlap = false)
    (hfl : t ∉ (regs b).floors) (hbl : b ≠ nreg - 1) (htl : t ≠ nreg - 1)
    (hm : Merged nreg regs regs' b t) : MergeInv c src nreg regs' := by
  have cls : ∀ k i, Cls c src nreg regs' k i ↔ (k ≠ b ∧ Cls c src nreg regs k i) ∨ (k = t ∧ Cls c src nreg regs b i) := by
    intro k i
    unfold Cls
    constructor
    · rintro ⟨h1, h2, h3, h4⟩
      rw [hm.id _ h3] at h4
      by_cases he : (regs (src i)).id = b
      · rw [if_pos he] at h4
        exact Or.inr ⟨h4.symm, h1, h2, h3, he⟩
      · rw [if_neg he] at h4
        exact Or.inl ⟨fun hk => he (by rw [h4, hk]), h1, h2, h3, h4⟩
    · rintro (⟨hk, h1, h2, h3, h4⟩ | ⟨hk, h1, h2, h3, h4⟩)
      · exact ⟨h1, h2, h3, by rw [hm.id _ h3, if_neg (by rw [h4]; exact hk), h4]⟩
      · exact ⟨h1, h2, h3, by rw [hm.id _ h3, if_pos h4, hk]⟩
  have clsf : ∀ k i, Cls c src nreg regs k i → Cls c src nreg regs' (if k = b then t else k) i := by
    intro k i hi
    by_cases hk : k = b
    · rw [if_pos hk]
      exact (cls _ _).2 (Or.inr ⟨rfl, by rw [← hk]; exact hi⟩)
    · rw [if_neg hk]
      exact (cls _ _).2 (Or.inl ⟨hk, hi⟩)
  -- records that keep their own id had it before
  have canon : ∀ k < nreg, (regs' k).id = k → k ≠ b ∧ (regs k).id = k := by
    intro k hk hid
    rw [hm.id k hk] at hid
    by_cases he : (regs k).id = b
    · rw [if_pos he] at hid
      subst hid
      rw [htid] at he
      exact absurd he.symm hbt
    · rw [if_neg he] at hid
      exact ⟨fun hkb => he (by rw [hid, hkb]), hid⟩
  have fcan : ∀ e, e < nreg → (regs e).id = e → (regs' (if e = b then t else e)).id = if e = b then t else e := by
    intro e hel he
    by_cases heb : e = b
    · rw [if_pos heb, hm.id t ht, htid, if_neg (Ne.symm hbt)]
    · rw [if_neg heb, hm.id e hel, he, if_neg heb]
  have clslt : ∀ k i, Cls c src nreg regs k i → k < nreg := fun k i hi => by rw [← hi.2.2.2]; exact h.lt _ hi.2.2.1
  refine ⟨?_, ?_, ?_, ?_, ?_, ?_, ?_, ?_, ?_, ?_, ?_, ?_⟩
  · rw [hm.id 0 (by omega), h.zero, if_neg (Ne.symm hb0)]
  · intro k hk
    rw [hm.id k hk]
    split
    · exact ht
    · exact h.lt k hk
  · intro k hk
    rw [hm.id k hk]
    by_cases he : (regs k).id = b
    · rw [if_pos he, hm.id t ht, htid, if_neg (Ne.symm hbt)]
    · rw [if_neg he, hm.id _ (h.lt k hk), h.self k hk, if_neg he]
  · intro k hk hsc
    rw [hm.count k hk] at hsc
    by_cases hkb : k = b
    · rw [if_pos hkb] at hsc
      exact absurd rfl hsc
    · rw [if_neg hkb] at hsc
      by_cases hkt : k = t
      · subst hkt
        rw [hm.id k hk, htid, if_neg (Ne.symm hbt)]
      · rw [if_neg hkt] at hsc
        have := h.own k hk hsc
        rw [hm.id k hk, this, if_neg hkb]
  · intro k hk e he
    by_cases h0 : (regs k).id = 0
    · rw [hm.dead k hk h0] at he
      exact h.range k hk e he
    · obtain ⟨e', he', rfl⟩ := hm.conns k hk h0 e he
      split
      · exact Or.inr ht
      · rcases he' with he' | ⟨-, he'⟩
        · exact h.range k hk e' he'
        · exact h.range b hb e' he'
  · intro k hk hid hk0 x hx hx0 hxb
    obtain ⟨hkb, hkid⟩ := canon k hk hid
    obtain ⟨e, he, rfl⟩ := hm.conns k hk (by rw [hkid]; exact hk0) x hx
    have hkf : (if k = b then t else k) = k := if_neg hkb
    -- the link of the old entry
    have hold : ∀ m, m < nreg → (regs m).id = m → m ≠ 0 → (if m = b then t else m) = k → e ∈ (regs m).conns → (regs' (if e = b then t else e)).id = 0 ∨
        ((regs' (if e = b then t else e)).id = (if e = b then t else e) ∧ ∃ i j, Cls c src nreg regs' k i ∧
          Cls c src nreg regs' (if e = b then t else e) j ∧ Linked c i j) := by
      intro m hml hmid hm0 hmk hem
      have he0 : e ≠ 0 := by
        rintro rfl
        rw [if_neg (Ne.symm hb0)] at hx0
        exact hx0 rfl
      have heb : isBorder e = false := by
        by_cases h1 : e = b
        · rw [h1]; exact isBorder_false.2 (by omega)
        · rwa [if_neg h1] at hxb
      have hel : e < nreg := (h.range m hml e hem).resolve_left (by rw [heb]; simp)
      rcases h.link m hml hmid hm0 e hem he0 heb with h1 | ⟨h1, i, j, h2, h3, h4⟩
      · left
        rw [if_neg (by rintro rfl; rw [hbid] at h1; exact hb0 h1), hm.id e hel, h1, if_neg (Ne.symm hb0)]
      · right
        refine ⟨fcan e hel h1, i, j, ?_, clsf e j h3, h4⟩
        rw [← hmk]
        exact clsf m i h2
    rcases he with he | ⟨hkt, he⟩
    · exact hold k hk hkid hk0 hkf he
    · exact hold b hb hbid hb0 (by rw [if_pos rfl, hkt]) he
  · intro k hk hk0
    by_cases hkb : k = b
    · intro i j hi hj
      rcases (cls k i).1 hi with h1 | h1
      · exact absurd hkb h1.1
      · exact absurd (hkb ▸ h1.1) hbt
    · by_cases hkt : k = t
      · subst hkt
        obtain ⟨i, j, hi, hj, hl⟩ := hlink
        have har : c.area i = c.area j := by rw [h.area b hb hbid hb0 i hi, h.area k hk htid hk0 j hj, harea]
        refine OnePiece.union (h.piece k hk hk0) (h.piece b hb hb0) ?_ hi hj hl har
        intro m
        rw [cls]
        exact ⟨fun hh => hh.elim (fun h1 => Or.inl h1.2) fun h1 => Or.inr h1.2, fun hh => hh.elim (fun h1 => Or.inl ⟨hkb, h1⟩) fun h1 => Or.inr ⟨rfl, h1⟩⟩
      · refine (h.piece k hk hk0).congr fun i => ?_
        rw [cls]
        exact ⟨fun hh => hh.elim And.right fun h1 => absurd h1.1 hkt, fun hh => Or.inl ⟨hkb, hh⟩⟩
  · intro k hk hid hk0 i hi
    obtain ⟨hkb, hkid⟩ := canon k hk hid
    rw [hm.area]
    rcases (cls k i).1 hi with h1 | ⟨h1, h2⟩
    · exact h.area k hk hkid hk0 i h1.2
    · rw [h.area b hb hbid hb0 i h2, harea, h1]
  · intro k hk f hf hk0 hf0 hid hfk i j hi hj hs
    obtain ⟨hkb, hkid⟩ := canon k hk hid
    have hkn : (regs k).id ≠ 0 := by rw [hkid]; exact hk0
    have hfb : f ≠ b := by
      rintro rfl
      rcases (cls f j).1 hj with h1 | h1
      · exact h1.1 rfl
      · exact hbt h1.1
    -- the old classes of the two spans
    have old : ∀ m i, Cls c src nreg regs' m i → ∃ m0, m0 < nreg ∧ m0 ≠ 0 ∧ (m0 = m ∨ (m0 = b ∧ m = t)) ∧ (if m0 = b then t else m0) = m ∧ Cls c src nreg regs m0 i ∨ m = 0 := by
      intro m i hi
      by_cases hm0 : m = 0
      · exact ⟨0, Or.inr hm0⟩
      · rcases (cls m i).1 hi with ⟨h1, h2⟩ | ⟨h1, h2⟩
        · exact ⟨m, Or.inl ⟨clslt m i h2, hm0, Or.inl rfl, if_neg h1, h2⟩⟩
        · exact ⟨b, Or.inl ⟨hb, hb0, Or.inr ⟨rfl, h1⟩, by rw [if_pos rfl, h1], h2⟩⟩
    obtain ⟨k0, hk1 | hk1⟩ := old k i hi
    · obtain ⟨f0, hf1 | hf1⟩ := old f j hj
      · obtain ⟨a1, a2, a3, a4, a5⟩ := hk1
        obtain ⟨b1, b2, b3, b4, b5⟩ := hf1
        have hne : f0 ≠ k0 := by
          rintro rfl
          exact hfk (by rw [← b4, ← a4])
        have hk0id : (regs k0).id = k0 := by
          rcases a3 with a3 | a3
          · rw [a3, hkid]
          · rw [a3.1, hbid]
        have := h.floors k0 a1 f0 b1 a2 b2 hk0id hne i j a5 b5 hs
        rw [← b4]
        refine hm.floors k hk hkn hkb f0 ?_
        rcases a3 with a3 | ⟨a3, a3'⟩
        · rw [a3] at this; exact Or.inl this
        · rw [a3] at this; exact Or.inr ⟨a3', this⟩
      · exact absurd hf1 hf0
    · exact absurd hk1 hk0
  · intro k hk hid hk0 hov i j hi hj hs
    obtain ⟨hkb, hkid⟩ := canon k hk hid
    rw [hm.overlap] at hov
    have across : ∀ i j, Cls c src nreg regs t i → Cls c src nreg regs b j → ¬ Stacked c i j := by
      intro i j hi hj hs
      exact hfl (h.floors b hb t ht hb0 ht0 hbid (Ne.symm hbt) j i hj hi hs.symm)
    rcases (cls k i).1 hi with ⟨-, hi⟩ | ⟨h1, hi⟩ <;> rcases (cls k j).1 hj with ⟨-, hj⟩ | ⟨h2, hj⟩
    · exact h.column k hk hkid hk0 hov i j hi hj hs
    · subst h2; exact across i j hi hj hs
    · subst h1; exact across j i hj hi hs.symm
    · exact h.column b hb hbid hb0 hob i j hi hj hs
  · intro k hk hid hk0 hov l hl hlk
    obtain ⟨hkb, hkid⟩ := canon k hk hid
    rw [hm.overlap] at hov
    rw [hm.id l hl] at hlk
    by_cases he : (regs l).id = b
    · rw [if_pos he] at hlk
      subst hlk
      rw [hot] at hov
      exact absurd hov (by simp)
    · rw [if_neg he] at hlk
      exact h.alone k hk hkid hk0 hov l hl hlk
  · obtain ⟨l1, l2, l3, l4⟩ := h.last
    have hpos : 0 < nreg := by omega
    refine ⟨?_, ?_, ?_, ?_⟩
    · rw [hm.id _ (by omega), l1, if_neg (Ne.symm hbl)]
    · by_cases h0 : (regs (nreg - 1)).id = 0
      · rw [hm.dead _ (by omega) h0, l2]
      · rw [List.eq_nil_iff_forall_not_mem]
        intro x hx
        obtain ⟨e, he, -⟩ := hm.conns _ (by omega) h0 x hx
        rw [l2] at he
        rcases he with he | he
        · exact absurd he (by simp)
        · exact htl he.1.symm
    · rw [hm.count _ (by omega), if_neg (Ne.symm hbl), if_neg (Ne.symm htl), l3]
    · intro k hk hid
      rw [hm.id k hk] at hid
      by_cases he : (regs k).id = b
      · rw [if_pos he] at hid
        exact absurd hid htl
      · rw [if_neg he] at hid
        exact l4 k hk hid

/-! ## The search for the neighbour -/

theorem best_fold {nreg : Nat} {regs : Nat → Region} (reg : Region) (l : List Nat) : ∀ b : Nat × Nat,
    (∀ e ∈ l, isBorder e = true ∨ e < nreg) → ∃ b', l.foldlM (bestOne nreg regs reg) b = some b' ∧
      (b'.2 = b.2 ∨ ∃ e ∈ l, isBorder e = false ∧ e < nreg ∧ (regs e).id ≠ 0 ∧ (regs e).overlap = false ∧
        reg.canMerge (regs e) = true ∧ (regs e).canMerge reg = true ∧ b'.2 = (regs e).id) := by
  induction l with
  | nil => intro b _; exact ⟨b, rfl, Or.inl rfl⟩
  | cons e l ih =>
    intro b hl
    have hstep : ∃ b1, bestOne nreg regs reg b e = some b1 ∧ (b1.2 = b.2 ∨ (isBorder e = false ∧ e < nreg ∧ (regs e).id ≠ 0 ∧
        (regs e).overlap = false ∧ reg.canMerge (regs e) = true ∧ (regs e).canMerge reg = true ∧ b1.2 = (regs e).id)) := by
      unfold bestOne
      by_cases hb : isBorder e = true
      · rw [if_pos hb]; exact ⟨b, rfl, Or.inl rfl⟩
      · rw [if_neg hb]
        have hlt := (hl e List.mem_cons_self).resolve_left hb
        rw [if_neg (by omega)]
        dsimp only
        by_cases h1 : (regs e).id = 0 ∨ isBorder (regs e).id = true ∨ (regs e).overlap = true
        · rw [if_pos h1]; exact ⟨b, rfl, Or.inl rfl⟩
        · rw [if_neg h1]
          push Not at h1
          by_cases h2 : (regs e).spanCount < b.1 ∧ reg.canMerge (regs e) = true ∧ (regs e).canMerge reg = true
          · rw [if_pos h2]
            exact ⟨_, rfl, Or.inr ⟨by simpa using hb, hlt, h1.1, by simpa using h1.2.2, h2.2.1, h2.2.2, rfl⟩⟩
          · rw [if_neg h2]; exact ⟨b, rfl, Or.inl rfl⟩
    obtain ⟨b1, h1, h2⟩ := hstep
    obtain ⟨b', h3, h4⟩ := ih b1 fun e' he' => hl e' (List.mem_cons_of_mem _ he')
    refine ⟨b', by rw [List.foldlM_cons, h1]; exact h3, ?_⟩
    rcases h4 with h4 | ⟨e', he', h4⟩
    · rcases h2 with h2 | h2
      · exact Or.inl (by rw [h4, h2])
      · exact Or.inr ⟨e, List.mem_cons_self, h2.1, h2.2.1, h2.2.2.1, h2.2.2.2.1, h2.2.2.2.2.1, h2.2.2.2.2.2.1, by rw [h4, h2.2.2.2.2.2.2]⟩
    · exact Or.inr ⟨e', List.mem_cons_of_mem _ he', h4⟩

/-- The number of ids in use. -/
def liveIds (nreg : Nat) (regs : Nat → Region) : Nat :=
  ((List.range nreg).filter fun k => decide ((regs k).id = k) && decide (k ≠ 0)).length

theorem filter_length_lt {l : List Nat} {p q : Nat → Bool} (hpq : ∀ k ∈ l, q k = true → p k = true) {b : Nat} (hb : b ∈ l)
    (h1 : p b = true) (h2 : q b = false) : (l.filter q).length < (l.filter p).length := by
  induction l with
  | nil => simp at hb
  | cons a l ih =>
    have hle : ∀ l : List Nat, (∀ k ∈ l, q k = true → p k = true) → (l.filter q).length ≤ (l.filter p).length := by
      intro l
      induction l with
      | nil => intro _; simp
      | cons a l ih =>
        intro h
        have := ih fun k hk => h k (List.mem_cons_of_mem _ hk)
        have ha := h a List.mem_cons_self
        rw [List.filter_cons, List.filter_cons]
        split
        · rw [if_pos (ha ‹_›)]; simp only [List.length_cons]; omega
        · split
          · simp only [List.length_cons]; omega
          · exact this
    rw [List.filter_cons, List.filter_cons]
    rcases List.mem_cons.1 hb with rfl | hb'
    · rw [h1, h2]
      simp only [if_true, List.length_cons]
      have := hle l fun k hk => hpq k (List.mem_cons_of_mem _ hk)
      simp
      omega
    · have := ih (fun k hk => hpq k (List.mem_cons_of_mem _ hk)) hb'
      have ha := hpq a List.mem_cons_self
      split
      · rw [if_pos (ha ‹_›)]; simp only [List.length_cons]; omega
      · split
        · simp only [List.length_cons]; omega
        · exact this

/-- Dropped records stay dropped, and no others are. -/
def SameZero (nreg : Nat) (regs regs' : Nat → Region) : Prop := ∀ k < nreg, (regs' k).id = 0 ↔ (regs k).id = 0

theorem canMerge_facts {r s : Region} (h : r.canMerge s = true) : r.areaType = s.areaType ∧ s.id ∉ r.floors := by
  unfold Region.canMerge at h
  simp only [Bool.and_eq_true, decide_eq_true_eq, Bool.not_eq_true', List.contains_eq_mem] at h
  exact ⟨h.1.1, by simpa using h.2⟩

theorem mergeOne_inv {c : Chf} {src : Nat → Nat} {nreg : Nat} (hn : nreg ≤ 0x8000) (size : Nat) {st : (Nat → Region) × Nat}
    (h : MergeInv c src nreg st.1) {i : Nat} (hi : i < nreg) :
    ∃ st', mergeOne nreg size st i = some st' ∧ MergeInv c src nreg st'.1 ∧ SameZero nreg st.1 st'.1 ∧
      (st' = st ∨ (st'.2 = st.2 + 1 ∧ liveIds nreg st'.1 < liveIds nreg st.1)) ∧ (∀ k < nreg, ∀ l < nreg, (st.1 k).id = (st.1 l).id → (st'.1 k).id = (st'.1 l).id) := by
  unfold mergeOne
  dsimp only
  by_cases hskip : (st.1 i).id = 0 ∨ isBorder (st.1 i).id = true ∨ (st.1 i).overlap = true ∨ (st.1 i).spanCount = 0 ∨
      (size < (st.1 i).spanCount ∧ (st.1 i).atBorder = true)
  · rw [if_pos hskip]
    exact ⟨st, rfl, h, fun _ _ => Iff.rfl, Or.inl rfl, fun k _ l _ he => he⟩
  · rw [if_neg hskip]
    simp only [not_or] at hskip
    obtain ⟨hs1, -, hs3, hs4, -⟩ := hskip
    have hid : (st.1 i).id = i := h.own i hi hs4
    obtain ⟨b, hb1, hb2⟩ := best_fold (regs := st.1) (st.1 i) (st.1 i).conns (0xfffffff, (st.1 i).id) (h.range i hi)
    rw [hb1]
    dsimp only
    by_cases hbe : b.2 = (st.1 i).id
    · rw [if_pos hbe]
      exact ⟨st, rfl, h, fun _ _ => Iff.rfl, Or.inl rfl, fun k _ l _ he => he⟩
    · rw [if_neg hbe]
      obtain ⟨e, he, hnb, hel, he0, heo, hcm1, hcm2, hbid⟩ := hb2.resolve_left hbe
      have hi0 : i ≠ 0 := by rw [← hid]; exact hs1
      have hez : e ≠ 0 := by rintro rfl; exact he0 h.zero
      obtain ⟨hee, x, y, hx, hy, hl⟩ := (h.link i hi hid hi0 e he hez hnb).resolve_left he0
      rw [hee] at hbid
      rw [hbid, if_neg (by omega), hid]
      rw [hbid, hid] at hbe
      cases hmt : mergeTwo (st.1 e) (st.1 i) with
      | none => exact ⟨st, rfl, h, fun _ _ => Iff.rfl, Or.inl rfl, fun k _ l _ he => he⟩
      | some tr =>
        obtain ⟨T, B⟩ := tr
        dsimp only
        have hm := merged_of hn h.lt hi hel hi0 (Ne.symm hbe) hid hee hez hmt
        have hmem := ((mergeTwo_spec (st.1 e) (st.1 i)).1.1 (by rw [hmt]; rfl)).1
        obtain ⟨l1, l2, l3, l4⟩ := h.last
        refine ⟨_, rfl, ?_, ?_, Or.inr ⟨rfl, ?_⟩, ?_⟩
        · refine merge_inv hn h hi hel hi0 hez (Ne.symm hbe) hid hee ⟨x, y, hx, hy, hl⟩ (canMerge_facts hcm1).1 (by simpa using hs3) heo ?_ ?_ ?_ hm
          · have := (canMerge_facts hcm1).2
            rwa [hee] at this
          · rintro rfl
            exact hs4 l3
          · rintro rfl
            rw [l2] at hmem
            exact absurd hmem (by simp)
        · intro k hk
          rw [hm.id k hk]
          split
          · rename_i h1
            rw [h1]
            exact ⟨fun h => absurd h hez, fun h => absurd h hi0⟩
          · exact Iff.rfl
        · refine filter_length_lt ?_ (List.mem_range.2 hi) (by simp [hid, hi0]) ?_
          · intro k hk hq
            have hk' := List.mem_range.1 hk
            simp only [Bool.and_eq_true, decide_eq_true_eq] at hq ⊢
            rw [hm.id k hk'] at hq
            by_cases h1 : (st.1 k).id = i
            · rw [if_pos h1] at hq
              rw [← hq.1, hee] at h1
              exact absurd h1 hbe
            · rw [if_neg h1] at hq
              exact hq
          · have : _ = _ := hm.id i hi
            rw [hid, if_pos rfl] at this
            simp only [Bool.and_eq_false_iff, decide_eq_false_iff_not]
            left
            rw [this]
            exact hbe
        · intro k hk l hl he
          show ((_ : Nat → Region) k).id = ((_ : Nat → Region) l).id
          rw [hm.id k hk, hm.id l hl, he]

theorem mergePass_inv {c : Chf} {src : Nat → Nat} {nreg : Nat} (hn : nreg ≤ 0x8000) (size : Nat) (l : List Nat) : ∀ st : (Nat → Region) × Nat,
    MergeInv c src nreg st.1 → (∀ i ∈ l, i < nreg) →
    ∃ st', l.foldlM (mergeOne nreg size) st = some st' ∧ MergeInv c src nreg st'.1 ∧ SameZero nreg st.1 st'.1 ∧
      (st' = st ∨ (st.2 < st'.2 ∧ liveIds nreg st'.1 < liveIds nreg st.1)) ∧ (∀ k < nreg, ∀ l < nreg, (st.1 k).id = (st.1 l).id → (st'.1 k).id = (st'.1 l).id) := by
  induction l with
  | nil => intro st h _; exact ⟨st, rfl, h, fun _ _ => Iff.rfl, Or.inl rfl, fun k _ l _ he => he⟩
  | cons i l ih =>
    intro st h hl
    obtain ⟨st1, h1, h2, h3, h4, h5⟩ := mergeOne_inv hn size h (hl i List.mem_cons_self)
    obtain ⟨st', g1, g2, g3, g4, g5⟩ := ih st1 h2 fun j hj => hl j (List.mem_cons_of_mem _ hj)
    refine ⟨st', by rw [List.foldlM_cons, h1]; exact g1, g2, fun k hk => (g3 k hk).trans (h3 k hk), ?_, fun k hk l hl he => g5 k hk l hl (h5 k hk l hl he)⟩
    rcases g4 with rfl | ⟨g4, g4'⟩
    · rcases h4 with rfl | ⟨h4, h4'⟩
      · exact Or.inl rfl
      · exact Or.inr ⟨by omega, h4'⟩
    · rcases h4 with rfl | ⟨h4, h4'⟩
      · exact Or.inr ⟨g4, g4'⟩
      · exact Or.inr ⟨by omega, by omega⟩

theorem mergeLoop_inv {c : Chf} {src : Nat → Nat} {nreg : Nat} (hn : nreg ≤ 0x8000) (size : Nat) (fuel : Nat) : ∀ regs : Nat → Region,
    MergeInv c src nreg regs → liveIds nreg regs < fuel →
    ∃ regs', mergeLoop nreg size fuel regs = some regs' ∧ MergeInv c src nreg regs' ∧ SameZero nreg regs regs' ∧
      (∀ k < nreg, ∀ l < nreg, (regs k).id = (regs l).id → (regs' k).id = (regs' l).id) := by
  induction fuel with
  | zero => intro regs _ h; omega
  | succ fuel ih =>
    intro regs h hf
    obtain ⟨st, h1, h2, h3, h4, h5⟩ := mergePass_inv hn size (List.range nreg) (regs, 0) h fun i hi => List.mem_range.1 hi
    rw [mergeLoop, h1]
    dsimp only
    rcases h4 with rfl | ⟨h4, h4'⟩
    · rw [if_pos rfl]
      exact ⟨_, rfl, h2, h3, h5⟩
    · have h4'' : 0 < st.2 := h4
      rw [if_neg (by omega)]
      have h6 : liveIds nreg st.1 < liveIds nreg regs := h4'
      obtain ⟨regs', g1, g2, g3, g4⟩ := ih st.1 h2 (by omega)
      exact ⟨regs', g1, g2, fun k hk => (g3 k hk).trans (h3 k hk), fun k hk l hl he => g4 k hk l hl (h5 k hk l hl he)⟩

/-! ## The whole filter -/

theorem allSpans_perm {c : Chf} (hc : c.Wf) : ((allSpans c).map Prod.snd).Nodup ∧ ((allSpans c).map Prod.snd).Perm (List.range c.n) := by
  have hnd : ((allSpans c).map Prod.snd).Nodup := by
    unfold List.Nodup
    rw [List.pairwise_map]
    exact (order1_pairwise hc).imp fun h => h.1
  refine ⟨hnd, (List.perm_ext_iff_of_nodup hnd List.nodup_range).2 fun i => ?_⟩
  rw [List.mem_range, List.mem_map]
  constructor
  · rintro ⟨v, hv, rfl⟩
    exact hc.lt _ _ _ ((mem_allSpans c v).1 hv)
  · intro hi
    obtain ⟨x, y, h⟩ := hc.cell i hi
    exact ⟨((x, y), i), (mem_allSpans c _).2 h, rfl⟩

theorem Across.pos {c : Chf} {src : Nat → Nat} {r e : Nat} (h : Across c src r e) (he : e ≠ 0) :
    ∃ i j, i < c.n ∧ j < c.n ∧ src i = r ∧ src j = e ∧ Linked c i j := h.resolve_left he

/-- The regions of the partition: none, below `id`, or of the border. -/
theorem Partitioned.cases {c : Chf} {bs id : Nat} {src : Nat → Nat} (hp : Partitioned c bs id src) {i : Nat} (hi : i < c.n) :
    src i = 0 ∨ (0 < src i ∧ src i < id) ∨ 0x8000 ≤ src i := by
  by_cases ha : c.area i = 0
  · exact Or.inl (hp.null i hi ha)
  · by_cases hin : Inner c bs i
    · exact Or.inr (Or.inl (hp.inner i hin ha))
    · exact Or.inr (Or.inr (hp.outer i hi hin ha).1)

theorem fresh_records {c : Chf} (hc : c.Wf) {bs id : Nat} {src : Nat → Nat} (hp : Partitioned c bs id src) (hid : id < 0x8000) :
    Fresh (id + 1) (records c src (id + 1)) := by
  have hr := records_inv hc src (id + 1)
  refine ⟨by omega, fun k _ => Or.inl (hr.id k), ?_⟩
  intro k hk e he
  by_cases h0 : e = 0
  · exact Or.inr (by omega)
  · obtain ⟨i, j, -, hj, -, rfl, -⟩ := (hr.conns k e he).pos h0
    rcases hp.cases hj with h | h | h
    · exact absurd h h0
    · exact Or.inr (by omega)
    · left
      unfold isBorder
      simpa using h

/-- The invariant of the passes holds after the removal of small groups. -/
theorem start_inv {c : Chf} (hc : c.Wf) {bs id : Nat} {src : Nat → Nat} (hp : Partitioned c bs id src) (hid : id < 0x8000)
    {minArea : Nat} {regs : Nat → Region}
    (h : ∀ k, regs k = records c src (id + 1) k ∨ (regs k = (records c src (id + 1) k).dropped ∧
      (records c src (id + 1) k).spanCount < minArea ∧ k < id + 1 ∧ Used (records c src (id + 1)) k)) :
    MergeInv c src (id + 1) regs := by
  have hr := records_inv hc src (id + 1)
  have hf := fresh_records hc hp hid
  generalize hR : records c src (id + 1) = R at *
  have hconns : ∀ k, (regs k).conns = (R k).conns := by
    intro k
    rcases h k with h | h
    · rw [h]
    · rw [h.1]; rfl
  have hids : ∀ k, (regs k).id = 0 ∨ regs k = R k := by
    intro k
    rcases h k with h | h
    · exact Or.inr h
    · left; rw [h.1]; rfl
  have hidk : ∀ k, (regs k).id ≠ 0 → (regs k).id = k ∧ regs k = R k := by
    intro k hk
    have := (hids k).resolve_left hk
    exact ⟨by rw [this, hr.id], this⟩
  have h00 : (regs 0).id = 0 := by
    rcases hids 0 with h | h
    · exact h
    · rw [h, hr.id]
  have hcls : ∀ k, k ≠ 0 → ∀ i, Cls c src (id + 1) regs k i ↔ (regs k).id = k ∧ k < id + 1 ∧ i < c.n ∧ src i = k := by
    intro k hk i
    unfold Cls
    constructor
    · rintro ⟨h1, h2, h3, h4⟩
      have := (hidk (src i) (by rw [h4]; exact hk)).1
      have he : src i = k := by omega
      exact ⟨by rw [← he]; exact this, by omega, h1, he⟩
    · rintro ⟨h1, h2, h3, h4⟩
      exact ⟨h3, by omega, by omega, by rw [h4, h1]⟩
  have hrow : ∀ i < c.n, ∃ v ∈ allSpans c, v.2 = i := by
    intro i hi
    obtain ⟨x, y, h⟩ := hc.cell i hi
    exact ⟨((x, y), i), (mem_allSpans c _).2 h, rfl⟩
  have hnone : ∀ i < c.n, src i ≠ 0 → src i ≠ id := by
    intro i hi h0
    rcases hp.cases hi with h | h | h <;> omega
  refine ⟨h00, ?_, ?_, ?_, ?_, ?_, ?_, ?_, ?_, ?_, ?_, ?_⟩
  · intro k hk
    by_cases h0 : (regs k).id = 0
    · omega
    · rw [(hidk k h0).1]; exact hk
  · intro k hk
    by_cases h0 : (regs k).id = 0
    · rw [h0]; exact h00
    · rw [(hidk k h0).1, (hidk k h0).1]
  · intro k hk hsc
    rcases h k with h | h
    · rw [h, hr.id]
    · rw [h.1] at hsc
      exact absurd rfl hsc
  · intro k hk
    rw [hconns]
    exact hf.conns k hk
  · intro k hk hkid hk0 e he he0 heb
    rw [hconns] at he
    have hel : e < id + 1 := (hf.conns k hk e he).resolve_left (by rw [heb]; simp)
    by_cases h0 : (regs e).id = 0
    · exact Or.inl h0
    · obtain ⟨i, j, hi, hj, hsi, hsj, hl⟩ := (hr.conns k e he).pos he0
      exact Or.inr ⟨(hidk e h0).1, i, j, (hcls k hk0 i).2 ⟨hkid, hk, hi, hsi⟩, (hcls e he0 j).2 ⟨(hidk e h0).1, hel, hj, hsj⟩, hl⟩
  · intro k hk hk0
    by_cases hkid : (regs k).id = k
    · refine (hp.piece k (by omega) (by omega)).congr fun i => ?_
      rw [hcls k hk0]
      exact ⟨fun h => h.2.2, fun h => ⟨hkid, hk, h⟩⟩
    · intro i j hi
      exact absurd ((hcls k hk0 i).1 hi).1 hkid
  · intro k hk hkid hk0 i hi
    obtain ⟨-, -, hin, hsi⟩ := (hcls k hk0 i).1 hi
    obtain ⟨v, hv, rfl⟩ := hrow i hin
    obtain ⟨u, hu, hsu, hau⟩ := hr.area k hk hk0 ⟨v, hv, hsi⟩
    rw [(hidk k (by rw [hkid]; exact hk0)).2, hau]
    exact (hp.piece k (by omega) (by omega) v.2 u.2 ⟨hin, hsi⟩ ⟨hc.lt _ _ _ ((mem_allSpans c u).1 hu), hsu⟩).1
  · intro k hk f hf' hk0 hf0 hkid hfk i j hi hj hs
    obtain ⟨-, -, hin, hsi⟩ := (hcls k hk0 i).1 hi
    obtain ⟨-, -, hjn, hsj⟩ := (hcls f hf0 j).1 hj
    obtain ⟨v, hv, rfl⟩ := hrow i hin
    have := hr.floors v hv (by omega) (by omega) j hs (by omega) (by omega)
    rw [hsj, hsi] at this
    rw [(hidk k (by rw [hkid]; exact hk0)).2]
    exact this
  · intro k hk hkid hk0 hov i j hi hj hs
    obtain ⟨-, -, hin, hsi⟩ := (hcls k hk0 i).1 hi
    obtain ⟨-, -, hjn, hsj⟩ := (hcls k hk0 j).1 hj
    obtain ⟨v, hv, rfl⟩ := hrow i hin
    have := hr.overlap v hv (by omega) (by omega) j hs (by omega)
    rw [hsi, ← (hidk k (by rw [hkid]; exact hk0)).2, hov] at this
    exact absurd this (by simp)
  · intro k hk hkid hk0 _ l hl hlk
    have := (hidk l (by rw [hlk]; exact hk0)).1
    omega
  · rw [Nat.add_sub_cancel]
    have hnew : R id = newRegion id := by
      refine hr.none id ?_
      by_cases h0 : id = 0
      · exact Or.inl h0
      · right
        intro v hv he
        exact hnone v.2 (hc.lt _ _ _ ((mem_allSpans c v).1 hv)) (by omega) he
    have hreg : regs id = R id := by
      rcases h id with h | ⟨-, -, -, h1, h2⟩
      · exact h
      · exfalso
        rw [hnew] at h1 h2
        rcases h2 with h2 | ⟨j, h2⟩
        · exact h2 rfl
        · obtain ⟨i', j', -, hj', -, hsj, -⟩ := (hr.conns j id h2).pos h1
          exact hnone j' hj' (by rw [hsj]; exact h1) hsj
    refine ⟨by rw [hreg, hr.id], by rw [hreg, hnew]; rfl, by rw [hreg, hnew]; rfl, ?_⟩
    intro k hk hkid
    by_cases h0 : (regs k).id = 0
    · omega
    · have := (hidk k h0).1
      omega

/-- Walkable span. -/
def Walk (c : Chf) (i : Nat) : Prop := i < c.n ∧ c.area i ≠ 0

/-- Spec: all walkable spans that are joined to `i` by walkable spans are on the list `l`, and lie in the inside. -/
def Enclosed (c : Chf) (bs i : Nat) (l : List Nat) : Prop := ∀ j, Joined c (Walk c) i j → j ∈ l ∧ Inner c bs j

/-- What the final regions `reg` have to do with the partition `src`. -/
structure Filtered (c : Chf) (bs minArea id : Nat) (src : Nat → Nat) (m : Nat) (reg : Nat → Nat) : Prop where
  max : m ≤ id
  border : ∀ i < c.n, 0x8000 ≤ src i → reg i = src i
  le : ∀ i < c.n, src i < 0x8000 → reg i ≤ m
  null : ∀ i < c.n, src i = 0 → reg i = 0
  coarse : ∀ i < c.n, ∀ j < c.n, src i = src j → reg i = reg j
  piece : ∀ r, 0 < r → r < 0x8000 → OnePiece c fun i => i < c.n ∧ reg i = r
  column : ∀ i < c.n, ∀ j < c.n, Stacked c i j → 0 < reg i → reg i < 0x8000 → reg i = reg j → ∀ k < c.n, reg k = reg i → src k = src i
  kept : ∀ i < c.n, src i ≠ 0 → reg i = 0 → ((List.range c.n).filter fun j => decide (src j = src i)).length < minArea
  isle : ∀ i l, Walk c i → Enclosed c bs i l → l.length < minArea → reg i = 0
  unused : ∀ i < c.n, 0 < reg i → reg i < 0x8000 → reg i < m

theorem count_eq {c : Chf} (hc : c.Wf) (src : Nat → Nat) (k : Nat) :
    ((allSpans c).filter fun v => decide (src v.2 = k)).length = ((List.range c.n).filter fun j => decide (src j = k)).length := by
  have h := ((allSpans_perm hc).2.filter fun j => decide (src j = k)).length_eq
  rw [← h, List.filter_map, List.length_map]
  rfl

/-- An enclosed span belongs to a group of records that the removal cannot keep. -/
theorem island_of_enclosed {c : Chf} (hc : c.Wf) {bs id : Nat} {src : Nat → Nat} (hp : Partitioned c bs id src) (hid : id < 0x8000)
    {minArea i : Nat} {l : List Nat} (hi : Walk c i) (he : Enclosed c bs i l) (hl : l.length < minArea) :
    Island (id + 1) minArea (records c src (id + 1)) fun k => k ≠ 0 ∧ ∃ a, a < c.n ∧ src a = k ∧ Joined c (Walk c) i a := by
  have hr := records_inv hc src (id + 1)
  have hwalk : ∀ a < c.n, src a ≠ 0 → Walk c a := fun a ha h0 => ⟨ha, fun h => h0 (hp.null a ha h)⟩
  -- the whole region of a joined span is joined
  have hall : ∀ k, k ≠ 0 → k < 0x8000 → ∀ a, a < c.n → src a = k → Joined c (Walk c) i a → ∀ b, b < c.n → src b = k → Joined c (Walk c) i b := by
    intro k hk0 hk a ha hsa hj b hb hsb
    have := (hp.piece k (by omega) hk a b ⟨ha, hsa⟩ ⟨hb, hsb⟩).2
    exact hj.trans (this.mono fun x hx => hwalk x hx.1 (by rw [hx.2]; exact hk0))
  refine ⟨?_, ?_, ?_⟩
  · intro k hk e hek heb hel hid0
    rw [hr.id] at hid0
    obtain ⟨a, b, ha, hb, hsa, hsb, hlk⟩ := (hr.conns k e hek).pos hid0
    have hk0 : k ≠ 0 := by
      rintro rfl
      rw [hr.none 0 (Or.inl rfl)] at hek
      exact absurd hek (by simp [newRegion])
    have hwa := hwalk a ha (by omega)
    have hwb := hwalk b hb (by omega)
    constructor
    · rintro ⟨-, x, hx, hsx, hj⟩
      have := hall k hk0 (by omega) x hx hsx hj a ha hsa
      exact ⟨hid0, b, hb, hsb, this.trans (Joined.one hwa hwb hlk)⟩
    · rintro ⟨-, x, hx, hsx, hj⟩
      have := hall e hid0 (by omega) x hx hsx hj b hb hsb
      exact ⟨hk0, a, ha, hsa, this.trans (Joined.one hwb hwa hlk.symm)⟩
  · rintro k hk ⟨hk0, x, hx, hsx, hj⟩ e hek
    by_cases h0 : e = 0
    · rw [h0]; exact isBorder_false.2 (by omega)
    · obtain ⟨a, b, ha, hb, hsa, hsb, hlk⟩ := (hr.conns k e hek).pos h0
      have h1 := hall k hk0 (by omega) x hx hsx hj a ha hsa
      have hwb := hwalk b hb (by omega)
      have h2 := h1.trans (Joined.one (hwalk a ha (by omega)) hwb hlk)
      have := hp.inner b (he b h2).2 hwb.2
      exact isBorder_false.2 (by omega)
  · intro tr hnd htr
    refine lt_of_le_of_lt ?_ hl
    let L := tr.flatMap fun k => ((allSpans c).filter fun v => decide (src v.2 = k)).map Prod.snd
    have hlen : (tr.map fun k => (records c src (id + 1) k).spanCount).sum = L.length := by
      show _ = (tr.flatMap _).length
      rw [List.length_flatMap]
      congr 1
      refine List.map_congr_left fun k hk => ?_
      rw [hr.count k (htr k hk).2 (htr k hk).1.1, List.length_map]
    rw [hlen]
    have hmem : ∀ a ∈ L, ∃ k ∈ tr, a < c.n ∧ src a = k := by
      intro a ha
      obtain ⟨k, hk, ha⟩ := List.mem_flatMap.1 ha
      obtain ⟨v, hv, rfl⟩ := List.mem_map.1 ha
      obtain ⟨h1, h2⟩ := List.mem_filter.1 hv
      exact ⟨k, hk, hc.lt _ _ _ ((mem_allSpans c v).1 h1), by simpa using h2⟩
    have hLnd : L.Nodup := by
      refine List.nodup_flatMap.2 ⟨?_, ?_⟩
      · intro k _
        exact ((List.filter_sublist (l := allSpans c)).map Prod.snd).nodup (allSpans_perm hc).1
      · refine List.Pairwise.imp_of_mem ?_ hnd
        intro k k' _ _ hne a ha hb
        obtain ⟨v, hv, rfl⟩ := List.mem_map.1 ha
        obtain ⟨w, hw, he⟩ := List.mem_map.1 hb
        have h1 := (List.mem_filter.1 hv).2
        have h2 := (List.mem_filter.1 hw).2
        rw [decide_eq_true_eq] at h1 h2
        exact hne (by rw [← h1, ← h2, he])
    refine (List.subperm_of_subset hLnd ?_).length_le
    intro a ha
    obtain ⟨k, hk, han, hsa⟩ := hmem a ha
    obtain ⟨⟨hk0, x, hx, hsx, hj⟩, hkl⟩ := htr k hk
    exact (he a (hall k hk0 (by omega) x hx hsx hj a han hsa)).1

theorem filter_spec {c : Chf} (hc : c.Wf) {bs id : Nat} {src : Nat → Nat} (hp : Partitioned c bs id src) (hid : id < 0x8000)
    (minArea size : Nat) : ∃ m reg, filterRegions c minArea size id src = some (m, reg) ∧ Filtered c bs minArea id src m reg := by
  have hn : id + 1 ≤ 0x8000 := hid
  have hr := records_inv hc src (id + 1)
  obtain ⟨regs1, d1, d2, d3⟩ := dropSmall_spec (minArea := minArea) (fresh_records hc hp hid)
  have h1 := start_inv hc hp hid d2
  have hlive : liveIds (id + 1) regs1 < id + 1 + 1 := by
    unfold liveIds
    refine lt_of_le_of_lt (List.length_filter_le _ _) ?_
    rw [List.length_range]
    omega
  obtain ⟨regs2, m1, m2, m3, m4⟩ := mergeLoop_inv hn size (id + 1 + 1) regs1 h1 hlive
  have hset : Settled (id + 1) fun k => (regs2 k).id := ⟨m2.zero, m2.lt, m2.self⟩
  obtain ⟨c1, c2, c3, c4⟩ := compress_spec hset hn
  have hmax : (compress (id + 1) fun k => (regs2 k).id).1 ≤ id := (compress_fold hset hn (id + 1) le_rfl).gen
  have hlast : id ≠ 0 → (compress (id + 1) fun k => (regs2 k).id).2 id = (compress (id + 1) fun k => (regs2 k).id).1 := by
    intro h0
    obtain ⟨l1, l2, l3, l4⟩ := m2.last
    rw [Nat.add_sub_cancel] at l1 l4
    refine compress_last hset hn ?_ ?_
    · show (regs2 id).id ≠ 0
      rw [l1]; exact h0
    · intro j hj he
      have he' : (regs2 j).id = (regs2 id).id := he
      rw [l1] at he'
      have := l4 j (by omega) he'
      omega
  generalize hcp : (compress (id + 1) fun k => (regs2 k).id) = cp at *
  have hlt : ∀ i < c.n, src i < 0x8000 → src i < id + 1 := by
    intro i hi h
    rcases hp.cases hi with h | h | h <;> omega
  refine ⟨cp.1, fun i => if isBorder (src i) = true then src i else cp.2 (src i), ?_, ?_⟩
  · unfold filterRegions
    dsimp only
    rw [d1]
    dsimp only
    rw [m1]
    dsimp only
    rw [hcp, if_pos]
    rw [List.all_eq_true]
    intro i hi
    have hi' := List.mem_range.1 hi
    by_cases hb : isBorder (src i) = true
    · rw [hb]; rfl
    · have := hlt i hi' (isBorder_false.1 (by simpa using hb))
      simp [this]
  · have regB : ∀ i, 0x8000 ≤ src i → (if isBorder (src i) = true then src i else cp.2 (src i)) = src i := by
      intro i h
      rw [if_pos (by unfold isBorder; simpa using h)]
    have regN : ∀ i, src i < 0x8000 → (if isBorder (src i) = true then src i else cp.2 (src i)) = cp.2 (src i) := by
      intro i h
      rw [if_neg (by rw [isBorder_false.2 h]; simp)]
    -- a span of a final region below the border ids
    have inner : ∀ i < c.n, ∀ r, 0 < r → r < 0x8000 → (if isBorder (src i) = true then src i else cp.2 (src i)) = r →
        src i < id + 1 ∧ src i ≠ 0 ∧ cp.2 (src i) = r ∧ (regs2 (src i)).id ≠ 0 := by
      intro i hi r h0 hr8 he
      have hs : src i < 0x8000 := by
        by_contra hge
        rw [regB i (by omega)] at he
        omega
      rw [regN i hs] at he
      have hl := hlt i hi hs
      have hz : (regs2 (src i)).id ≠ 0 := fun hz => by
        have := (c3 (src i) hl).2 hz
        omega
      refine ⟨hl, ?_, he, hz⟩
      intro h0'
      rw [h0'] at hz
      exact hz m2.zero
    have cls_of : ∀ r, 0 < r → r < 0x8000 → ∀ k, k < id + 1 → cp.2 k = r → ∀ i,
        (i < c.n ∧ (if isBorder (src i) = true then src i else cp.2 (src i)) = r) ↔ Cls c src (id + 1) regs2 (regs2 k).id i := by
      intro r h0 h8 k hk hkr i
      constructor
      · rintro ⟨hi, he⟩
        obtain ⟨g1, g2, g3, g4⟩ := inner i hi r h0 h8 he
        exact ⟨hi, g2, g1, (c4 (src i) g1 k hk).1 (by rw [g3, hkr])⟩
      · rintro ⟨g1, g2, g3, g4⟩
        refine ⟨g1, ?_⟩
        rw [regN i (by omega), (c4 (src i) g3 k hk).2 g4, hkr]
    refine ⟨hmax, fun i _ h => regB i h, ?_, ?_, ?_, ?_, ?_, ?_, ?_, ?_⟩
    · intro i hi h
      show (if isBorder (src i) = true then src i else cp.2 (src i)) ≤ cp.1
      rw [regN i h]
      exact c1 (src i) (hlt i hi h)
    · intro i hi h
      show (if isBorder (src i) = true then src i else cp.2 (src i)) = 0
      rw [regN i (by omega), h]
      exact (c3 0 (by omega)).2 m2.zero
    · intro i hi j hj h
      show (if isBorder (src i) = true then src i else cp.2 (src i)) = (if isBorder (src j) = true then src j else cp.2 (src j))
      rw [h]
    · intro r h0 h8
      by_cases hex : ∃ i < c.n, (if isBorder (src i) = true then src i else cp.2 (src i)) = r
      · obtain ⟨i, hi, he⟩ := hex
        obtain ⟨g1, g2, g3, g4⟩ := inner i hi r h0 h8 he
        exact (m2.piece _ (m2.lt _ g1) g4).congr (cls_of r h0 h8 (src i) g1 g3)
      · intro i j hi
        exact absurd ⟨i, hi⟩ hex
    · intro i hi j hj hs h0 h8 he k hk hek
      obtain ⟨g1, g2, g3, g4⟩ := inner i hi _ h0 h8 rfl
      have hc' := cls_of _ h0 h8 (src i) g1 g3
      have hI := (hc' i).1 ⟨hi, rfl⟩
      have hJ := (hc' j).1 ⟨hj, he.symm⟩
      have hK := (hc' k).1 ⟨hk, hek⟩
      have hidl := m2.lt _ g1
      have hself := m2.self _ g1
      have hov : (regs2 (regs2 (src i)).id).overlap = true := by
        by_contra hno
        exact m2.column _ hidl hself g4 (by simpa using hno) i j hI hJ hs
      have a1 := m2.alone _ hidl hself g4 hov (src i) g1 hI.2.2.2
      have a2 := m2.alone _ hidl hself g4 hov (src k) hK.2.2.1 hK.2.2.2
      omega
    · intro i hi h0 he
      have he' : (if isBorder (src i) = true then src i else cp.2 (src i)) = 0 := he
      have hs : src i < 0x8000 := by
        by_contra hge
        rw [regB i (by omega)] at he'
        omega
      rw [regN i hs] at he'
      have hl := hlt i hi hs
      have hz := (m3 _ hl).1 ((c3 _ hl).1 he')
      rcases d2 (src i) with h | h
      · rw [h, hr.id] at hz
        exact absurd hz h0
      · have := h.2.1
        rwa [hr.count _ hl h0, count_eq hc src] at this
    · intro i l hw henc hlen
      show (if isBorder (src i) = true then src i else cp.2 (src i)) = 0
      have hin := hp.inner i (henc i Relation.ReflTransGen.refl).2 hw.2
      have hl : src i < id + 1 := by omega
      rw [regN i (by omega), c3 _ hl]
      show (regs2 (src i)).id = 0
      rw [m3 _ hl]
      refine d3 _ (island_of_enclosed hc hp hid hw henc hlen) (src i) hl ⟨by omega, i, hw.1, rfl, Relation.ReflTransGen.refl⟩ ?_
      rw [hr.count _ hl (by omega), count_eq hc src]
      exact Nat.ne_of_gt (List.length_pos_of_mem (List.mem_filter.2 ⟨List.mem_range.2 hw.1, by simp⟩))
    · intro i hi h0 h8
      obtain ⟨g1, g2, g3, g4⟩ := inner i hi _ h0 h8 rfl
      have hsi : src i < id := by
        rcases hp.cases hi with h | h | h <;> omega
      show (if isBorder (src i) = true then src i else cp.2 (src i)) < cp.1
      rw [← g3]
      refine lt_of_le_of_ne (c1 _ g1) fun he => ?_
      rw [← hlast (by omega)] at he
      have he' : (regs2 (src i)).id = (regs2 id).id := (c4 _ g1 id (by omega)).1 he
      obtain ⟨l1, l2, l3, l4⟩ := m2.last
      rw [Nat.add_sub_cancel] at l1 l4
      rw [l1] at he'
      have := l4 _ g1 he'
      omega

end Verif.Recast
