/-
`FindStraightPath` with two buffers (detour/query.go:415-763): the smaller one gets the beginning of the path.
-/
import Verif.Detour.StraightPath

namespace Verif.Detour

section
variable {P F : Type} {g : SGeo P F} {b1 b2 : SBuf} {opts : U32} {endPos : P} {path : List U32}

/-- Two buffers, the first not longer. -/
structure TwoBufs (b1 b2 : SBuf) : Prop where
  ok1 : b1.OK
  ok2 : b2.OK
  le : b1.cap ≤ b2.cap

/-- "Cut": success, and the buffer is too small. -/
def cutStatus : Status := Status.success ||| Status.bufferTooSmall

theorem appendVertex_two (hb : TwoBufs b1 b2) (e : SPoint P) {out : List (SPoint P)} (hl : out.length < b1.cap) :
    ∃ o st1 st2, appendVertex g b1 e out = some (o, st1) ∧ appendVertex g b2 e out = some (o, st2) ∧
      ((st1 = st2 ∧ o.length < b1.cap) ∨ (st1 = cutStatus ∧ o.length = b1.cap)) := by
  have hl2 : out.length < b2.cap := hl.trans_le hb.le
  have hnew : ∃ o st1 st2, appendNew b1 e out = some (o, st1) ∧ appendNew b2 e out = some (o, st2) ∧
      ((st1 = st2 ∧ o.length < b1.cap) ∨ (st1 = cutStatus ∧ o.length = b1.cap)) := by
    refine ⟨_, _, _, if_pos ⟨hl, hb.ok1.side hl⟩, if_pos ⟨hl2, hb.ok2.side hl2⟩, ?_⟩
    by_cases h : b1.cap ≤ out.length + 1
    · exact .inr ⟨if_pos h, by simp only [List.length_cons]; omega⟩
    · refine .inl ⟨?_, by simp only [List.length_cons]; omega⟩
      by_cases h2 : b2.cap ≤ out.length + 1
      · have := hb.le
        omega
      · rw [if_neg h, if_neg h2]
  cases out with
  | nil => exact hnew
  | cons last rest =>
    simp only [appendVertex]
    by_cases ha : g.approx e.pos last.pos = true
    · rw [if_pos ha, if_pos ha, if_pos (hb.ok1.side (by simp only [List.length_cons] at hl; omega)),
        if_pos (hb.ok2.side (by simp only [List.length_cons] at hl2; omega))]
      exact ⟨_, _, _, rfl, rfl, .inl ⟨rfl, by simpa using hl⟩⟩
    · rw [if_neg ha, if_neg ha]
      exact hnew

theorem portals_two (hb : TwoBufs b1 b2) {x y : Nat} (ep : P) {out : List (SPoint P)} (hy : y < path.length)
    (hk : ∀ j, j < y → ∀ a c, path[j]? = some a → path[j + 1]? = some c → g.known a = true ∧ g.known c = true)
    (hne : out ≠ []) (hl : out.length < b1.cap) :
    ∃ o1 st1 o2 st2, appendPortals g b1 path opts x y ep out = some (o1, st1) ∧
      appendPortals g b2 path opts x y ep out = some (o2, st2) ∧
      ((o1 = o2 ∧ st1 = st2 ∧ o1.length < b1.cap) ∨ (st1 = cutStatus ∧ o1.length = b1.cap ∧ Grows o1 o2)) := by
  unfold appendPortals
  by_cases ho : opts &&& 3#32 = 0#32
  · rw [if_pos ho, if_pos ho]
    exact ⟨_, _, _, _, rfl, rfl, .inl ⟨rfl, rfl, hl⟩⟩
  · rw [if_neg ho, if_neg ho]
    obtain ⟨last, rest, rfl⟩ := List.exists_cons_of_ne_nil hne
    dsimp only
    have key : ∀ (js : List Nat) (o : List (SPoint P)) (sp : P) (ao : Bool), (∀ j ∈ js, j < y) → o ≠ [] → o.length < b1.cap →
        ∃ o1 st1 o2 st2, portalsLoop g b1 path ao sp ep js o = some (o1, st1) ∧
          portalsLoop g b2 path ao sp ep js o = some (o2, st2) ∧
          ((o1 = o2 ∧ st1 = st2 ∧ o1.length < b1.cap) ∨ (st1 = cutStatus ∧ o1.length = b1.cap ∧ Grows o1 o2)) := by
      intro js
      induction js with
      | nil => intro o _ _ _ _ ho; exact ⟨_, _, _, _, rfl, rfl, .inl ⟨rfl, rfl, ho⟩⟩
      | cons j js ih =>
        intro o sp ao hjs hno ho
        have hj := hjs j (by simp)
        have ih := fun o => ih o sp ao fun k hk => hjs k (by simp [hk])
        have ha : path[j]? = some path[j] := List.getElem?_eq_getElem (by omega)
        have hc : path[j + 1]? = some path[j + 1] := List.getElem?_eq_getElem (by omega)
        have hkn := hk j hj _ _ ha hc
        rw [portalsLoop, portalsLoop, ha, hc]
        dsimp only
        rw [hkn.1, hkn.2, if_neg (by simp), if_neg (by simp)]
        cases hp : g.portal path[j] path[j + 1] with
        | none => exact ⟨_, _, _, _, rfl, rfl, .inl ⟨rfl, rfl, ho⟩⟩
        | some x =>
          obtain ⟨l, r, ty⟩ := x
          dsimp only
          by_cases hs : ao = true ∧ g.sameArea path[j] path[j + 1] = true
          · rw [if_pos hs, if_pos hs]
            exact ih o hno ho
          · rw [if_neg hs, if_neg hs]
            cases hq : g.cross sp ep l r with
            | none => exact ih o hno ho
            | some q =>
              dsimp only
              obtain ⟨o', st1, st2, e1, e2, hcase⟩ := appendVertex_two (g := g) hb ⟨q, 0#8, path[j + 1]⟩ ho
              have A := appendVertex_spec g b2 e2
              have hne' := (A.grows hno).ne
              rw [e1, e2, Option.bind_some, Option.bind_some]
              dsimp only
              rcases hcase with ⟨rfl, hlt⟩ | ⟨rfl, hfull⟩
              · by_cases hi : st1 ≠ Status.inProgress
                · rw [if_pos hi, if_pos hi]
                  exact ⟨_, _, _, _, rfl, rfl, .inl ⟨rfl, rfl, hlt⟩⟩
                · rw [if_neg hi, if_neg hi]
                  exact ih o' hne' hlt
              · rw [if_pos (by decide)]
                by_cases hi : st2 ≠ Status.inProgress
                · rw [if_pos hi]
                  exact ⟨_, _, _, _, rfl, rfl, .inr ⟨rfl, hfull, .refl hne'⟩⟩
                · rw [if_neg hi]
                  have hlt2 : o'.length < b2.cap := by
                    rcases A.st with h | h | h
                    · exact h.2 (ho.trans_le hb.le)
                    · exact absurd h.2 (show ¬ (0#8 = spEnd) by decide)
                    · rw [h.1] at hi
                      exact absurd hi (by decide)
                  have hk' : ∀ k ∈ js, ∀ a c, path[k]? = some a → path[k + 1]? = some c → g.known a = true ∧ g.known c = true :=
                    fun k hk' => hk k (hjs k (by simp [hk']))
                  obtain ⟨o2, s2, e⟩ := portalsLoop_some g hb.ok2 path ao sp ep hy js (fun k hk => hjs k (by simp [hk])) hlt2
                  rw [e]
                  exact ⟨_, _, _, _, rfl, rfl, .inr ⟨rfl, hfull, (portalsLoop_spec g b2 path ao sp ep js hk' hne' hlt2 e).grows⟩⟩
    exact key _ _ _ _ (fun j hj => by simp only [List.mem_range'_1] at hj; omega) hne hl

/-- A turn with the smaller buffer and one with the larger: the same, or the first is cut (or indexes out of range) and the
second goes on from there. -/
def SNext.Two (t1 t2 : SNext P (SState P)) : Prop :=
  t1 = t2 ∨ t1 = .panic ∨ ∃ o1 st1, t1 = .done o1 st1 ∧ st1.detail Status.bufferTooSmall = true ∧
    match t2 with
    | .go s2 => Grows o1 s2.out
    | .done o2 _ => Grows o1 o2
    | .panic => True

theorem corner_two (hb : TwoBufs b1 b2) (hg : g.OK) {q : P} {idx : Nat} {ref : U32} {ty : Byte} {s : SState P}
    (hne : s.out ≠ []) (hl : s.out.length < b1.cap) (hi : idx < path.length)
    (hseen : ∀ j, j < idx → j + 1 < path.length →
      (g.portal (path[j]?.getD 0#32) (path[j + 1]?.getD 0#32)).isSome = true) :
    SNext.Two (corner g b1 path opts q idx ref ty s) (corner g b2 path opts q idx ref ty s) := by
  obtain ⟨o1, st1, o2, st2, e1, e2, hcase⟩ := portals_two (opts := opts) (x := s.ai) hb q hi (known_of_seen hg hseen) hne hl
  have hne1 : o1 ≠ [] := (appendPortals_spec g b1 path opts s.ai idx q (known_of_seen hg hseen) hne hl e1).grows.ne
  unfold corner
  rw [e1, e2]
  dsimp only
  rcases hcase with ⟨rfl, rfl, hlt⟩ | ⟨rfl, hfull, hgr⟩
  · by_cases hs : st1 ≠ Status.inProgress
    · rw [if_pos hs, if_pos hs]
      exact .inl rfl
    · rw [if_neg hs, if_neg hs]
      obtain ⟨o, t1, t2, f1, f2, hcase⟩ := appendVertex_two (g := g) hb ⟨q, cornerFlags ref ty, ref⟩ hlt
      have hne' := ((appendVertex_spec g b1 f1).grows hne1).ne
      rw [f1, f2]
      dsimp only
      rcases hcase with ⟨rfl, _⟩ | ⟨rfl, _⟩
      · exact .inl rfl
      · rw [if_pos (by decide)]
        refine .inr (.inr ⟨_, _, rfl, by decide, ?_⟩)
        by_cases hs2 : t2 ≠ Status.inProgress
        · rw [if_pos hs2]
          exact .refl hne'
        · rw [if_neg hs2]
          exact .refl hne'
  · rw [if_pos (by decide)]
    refine .inr (.inr ⟨_, _, rfl, by decide, ?_⟩)
    by_cases hs : st2 ≠ Status.inProgress
    · rw [if_pos hs]
      exact hgr
    · rw [if_neg hs]
      cases f2 : appendVertex g b2 ⟨q, cornerFlags ref ty, ref⟩ o2 with
      | none => trivial
      | some x =>
        obtain ⟨o, t2⟩ := x
        have := hgr.trans ((appendVertex_spec g b2 f2).grows hgr.ne)
        dsimp only
        by_cases hs2 : t2 ≠ Status.inProgress
        · rw [if_pos hs2]
          exact this
        · rw [if_neg hs2]
          exact this

theorem leftVertex_two (hb : TwoBufs b1 b2) (hg : g.OK) {l : P} {ty : Byte} {s : SState P}
    (hne : s.out ≠ []) (hl : s.out.length < b1.cap) (hi : s.ri < path.length)
    (hseen : ∀ j, j < s.ri → j + 1 < path.length →
      (g.portal (path[j]?.getD 0#32) (path[j + 1]?.getD 0#32)).isSome = true) :
    SNext.Two (leftVertex g b1 path opts l ty s) (leftVertex g b2 path opts l ty s) := by
  unfold leftVertex
  split
  · split
    · exact .inl rfl
    · exact corner_two hb hg hne hl hi hseen
  · exact .inl rfl

theorem rightVertex_two (hb : TwoBufs b1 b2) (hg : g.OK) {l r : P} {ty : Byte} {s : SState P} (h : SPInv g b1 path s)
    (hi : s.i < path.length) :
    SNext.Two (rightVertex g b1 path opts l r ty s) (rightVertex g b2 path opts l r ty s) := by
  have := h.lle
  have := h.rle
  unfold rightVertex
  split
  · split
    · exact leftVertex_two (s := { s with right := r, rref := refAfter path s.i, rtype := ty, ri := s.i }) hb hg h.ne h.room hi h.seen
    · exact corner_two hb hg h.ne h.room h.li fun j hj hn => h.seen j (by omega) hn
  · exact leftVertex_two hb hg h.ne h.room h.ri fun j hj hn => h.seen j (by omega) hn

theorem partial_bts (p : Prop) [Decidable p] (hp : p) :
    Status.detail (Status.success ||| Status.partialResult ||| if p then Status.bufferTooSmall else 0#32)
      Status.bufferTooSmall = true := by
  rw [if_pos hp]
  decide

theorem stopAt_two (hb : TwoBufs b1 b2) (hg : g.OK) {s : SState P} (h : SPInv g b1 path s) (hi : s.i < path.length) :
    SNext.Two (stopAt g b1 path opts endPos s) (stopAt g b2 path opts endPos s) := by
  unfold stopAt
  cases g.clamp (path[s.i]?.getD 0#32) endPos with
  | none => exact .inl rfl
  | some q =>
    dsimp only
    obtain ⟨o1, st1, o2, st2, e1, e2, hcase⟩ :=
      portals_two (opts := opts) (x := s.ai) hb q hi (known_of_seen hg h.seen) h.ne h.room
    have hne1 : o1 ≠ [] := (appendPortals_spec g b1 path opts s.ai s.i q (known_of_seen hg h.seen) h.ne h.room e1).grows.ne
    rw [e1, e2]
    dsimp only
    rcases hcase with ⟨rfl, rfl, hlt⟩ | ⟨rfl, hfull, hgr⟩
    · obtain ⟨o, t1, t2, f1, f2, hcase⟩ := appendVertex_two (g := g) hb ⟨q, 0#8, path[s.i]?.getD 0#32⟩ hlt
      have hne' := ((appendVertex_spec g b1 f1).grows hne1).ne
      rw [f1, f2]
      dsimp only
      rcases hcase with ⟨rfl, hlt'⟩ | ⟨rfl, hf⟩
      · have := hb.le
        rw [if_neg (by omega), if_neg (by omega)]
        exact .inl rfl
      · exact .inr (.inr ⟨_, _, rfl, partial_bts _ (by omega), .refl hne'⟩)
    · cases f1 : appendVertex g b1 ⟨q, 0#8, path[s.i]?.getD 0#32⟩ o1 with
      | none => exact .inr (.inl rfl)
      | some x =>
        obtain ⟨o, t1⟩ := x
        dsimp only
        obtain ⟨last, rest, rfl⟩ := List.exists_cons_of_ne_nil hne1
        have ho : ∃ last', o = last' :: rest ∧ last'.pos = last.pos := by
          rw [appendVertex] at f1
          split at f1
          · split at f1
            · simp only [Option.some.injEq, Prod.mk.injEq] at f1
              exact ⟨_, f1.1.symm, rfl⟩
            · exact absurd f1 (by simp)
          · unfold appendNew at f1
            rw [if_neg (by omega)] at f1
            exact absurd f1 (by simp)
        obtain ⟨last', rfl, hpos⟩ := ho
        have hgr' : Grows (last' :: rest) o2 := by
          obtain ⟨new, a, a', r, h1, h2, h3⟩ := hgr
          simp only [List.cons.injEq] at h1
          obtain ⟨rfl, rfl⟩ := h1
          exact ⟨new, last', a', rest, rfl, h2, h3.trans hpos.symm⟩
        refine .inr (.inr ⟨_, _, rfl, partial_bts _ (by simp only [List.length_cons] at hfull ⊢; omega), ?_⟩)
        cases f2 : appendVertex g b2 ⟨q, 0#8, path[s.i]?.getD 0#32⟩ o2 with
        | none => trivial
        | some x => exact hgr'.trans ((appendVertex_spec g b2 f2).grows hgr'.ne)

theorem turn_two (hb : TwoBufs b1 b2) (hg : g.OK) {ce : P} {s : SState P} (h : SPInv g b1 path s) (hi : s.i < path.length) :
    SNext.Two (turn g b1 path opts endPos ce s) (turn g b2 path opts endPos ce s) := by
  unfold turn
  split
  · cases g.portal (path[s.i]?.getD 0#32) (path[s.i + 1]?.getD 0#32) with
    | none => exact stopAt_two hb hg h hi
    | some x =>
      dsimp only
      split
      · exact .inl rfl
      · exact rightVertex_two hb hg h hi
  · exact rightVertex_two hb hg h hi

/-- The results with the smaller and with the larger buffer. -/
def SOut.Two (r1 r2 : SOut P) : Prop :=
  r1 = r2 ∨ r1 = .panic ∨ ∃ o1 st1, r1 = .done o1 st1 ∧ st1.detail Status.bufferTooSmall = true ∧
    ∀ o2 st2, r2 = .done o2 st2 → st2.succeed = true → Grows o1.reverse o2.reverse

theorem success_bts (p : Prop) [Decidable p] (hp : p) :
    Status.detail (Status.success ||| if p then Status.bufferTooSmall else 0#32) Status.bufferTooSmall = true := by
  rw [if_pos hp]
  decide

theorem endPath_two (hb : TwoBufs b1 b2) {ce : P} {out : List (SPoint P)} (hne : out ≠ []) (hl : out.length < b1.cap) :
    SOut.Two (endPath g b1 ce out) (endPath g b2 ce out) := by
  unfold endPath
  obtain ⟨o, t1, t2, f1, f2, hcase⟩ := appendVertex_two (g := g) hb ⟨ce, spEnd, 0#32⟩ hl
  have hne' := ((appendVertex_spec g b1 f1).grows hne).ne
  rw [f1, f2]
  dsimp only
  rcases hcase with ⟨rfl, hlt'⟩ | ⟨rfl, hf⟩
  · have := hb.le
    rw [if_neg (by omega), if_neg (by omega)]
    exact .inl rfl
  · refine .inr (.inr ⟨_, _, rfl, success_bts _ (by omega), fun o2 st2 h _ => ?_⟩)
    simp only [SOut.done.injEq] at h
    rw [← h.1, List.reverse_reverse]
    exact .refl hne'

theorem afterLoop_two (hb : TwoBufs b1 b2) (hg : g.OK) {ce : P} {s : SState P} (h : SPInv g b1 path s) (hi : path.length ≤ s.i) :
    SOut.Two (afterLoop g b1 path opts ce s) (afterLoop g b2 path opts ce s) := by
  have hk := known_of_seen (y := path.length - 1) hg fun j hj hn => h.seen j (by omega) hn
  obtain ⟨o1, st1, o2, st2, e1, e2, hcase⟩ :=
    portals_two (opts := opts) (x := s.ai) (y := path.length - 1) hb ce (by have := h.ai; omega) hk h.ne h.room
  have hne1 : o1 ≠ [] := (appendPortals_spec g b1 path opts s.ai _ ce hk h.ne h.room e1).grows.ne
  unfold afterLoop
  rw [e1, e2]
  dsimp only
  rcases hcase with ⟨rfl, rfl, hlt⟩ | ⟨rfl, hfull, hgr⟩
  · by_cases hs : st1 ≠ Status.inProgress
    · rw [if_pos hs, if_pos hs]
      exact .inl rfl
    · rw [if_neg hs, if_neg hs]
      exact endPath_two hb hne1 hlt
  · rw [if_pos (by decide)]
    refine .inr (.inr ⟨_, _, rfl, by decide, fun o st he _ => ?_⟩)
    rw [List.reverse_reverse]
    by_cases hs : st2 ≠ Status.inProgress
    · rw [if_pos hs] at he
      simp only [SOut.done.injEq] at he
      rw [← he.1, List.reverse_reverse]
      exact hgr
    · rw [if_neg hs] at he
      unfold endPath at he
      cases f2 : appendVertex g b2 ⟨ce, spEnd, 0#32⟩ o2 with
      | none => rw [f2] at he; exact absurd he (by simp)
      | some x =>
        rw [f2] at he
        simp only [SOut.done.injEq] at he
        rw [← he.1, List.reverse_reverse]
        exact hgr.trans ((appendVertex_spec g b2 f2).grows hgr.ne)

theorem SPInv.larger (hb : TwoBufs b1 b2) {s : SState P} (h : SPInv g b1 path s) : SPInv g b2 path s :=
  ⟨h.ne, h.room.trans_le hb.le, h.i_le, h.ai, h.li, h.ri, h.refs, h.lle, h.rle, h.seen⟩

theorem straightLoop_two (hb : TwoBufs b1 b2) (hg : g.OK) {ce : P} (h0 : g.known (path[0]?.getD 0#32) = true) (fuel : Nat)
    {s : SState P} (h : SPInv g b1 path s) :
    SOut.Two (straightLoop g b1 path opts endPos ce fuel s) (straightLoop g b2 path opts endPos ce fuel s) := by
  induction fuel generalizing s with
  | zero => exact .inl rfl
  | succ fuel ih =>
    rw [straightLoop, straightLoop]
    by_cases hn : path.length ≤ s.i
    · rw [if_pos hn, if_pos hn]
      exact afterLoop_two hb hg h hn
    · rw [if_neg hn, if_neg hn]
      have hgood1 := turn_good (opts := opts) (endPos := endPos) (ce := ce) hg h h0 (by omega)
      have hgood2 := turn_good (opts := opts) (endPos := endPos) (ce := ce) hg (h.larger hb) h0 (by omega)
      rcases turn_two (opts := opts) (endPos := endPos) (ce := ce) hb hg h (by omega) with he | he | ⟨o1, st1, he, hbts, h2⟩
      · rw [← he]
        cases ht : turn g b1 path opts endPos ce s with
        | go s' =>
          rw [ht] at hgood1
          exact ih hgood1.1
        | done out st => exact .inl rfl
        | panic => exact .inl rfl
      · rw [he]
        exact .inr (.inl rfl)
      · rw [he]
        refine .inr (.inr ⟨_, _, rfl, hbts, fun o st hr _ => ?_⟩)
        rw [List.reverse_reverse]
        cases ht : turn g b2 path opts endPos ce s with
        | go s' =>
          rw [ht] at hr h2 hgood2
          have := straightLoop_good (opts := opts) (endPos := endPos) (ce := ce) hg h0 fuel hgood2.1
          dsimp only at hr
          rw [hr] at this
          exact h2.trans this.2.1
        | done out st =>
          rw [ht] at hr h2
          simp only [SOut.done.injEq] at hr
          rw [← hr.1, List.reverse_reverse]
          exact h2
        | panic =>
          rw [ht] at hr
          exact absurd hr (by simp)

theorem findStraight_two (hb : TwoBufs b1 b2) (hg : g.OK) (startPos : P) (fuel : Nat) (h1 : 0 < b1.cap) :
    SOut.Two (findStraight g b1 startPos endPos path opts fuel) (findStraight g b2 startPos endPos path opts fuel) := by
  have := hb.le
  have hgood2 := findStraight_good (b := b2) hg startPos endPos path opts fuel
  unfold findStraight at hgood2 ⊢
  rw [if_neg (by omega)] at hgood2
  rw [if_neg (by omega), if_neg (by omega)]
  cases path with
  | nil => exact .inl rfl
  | cons r0 rest =>
    dsimp only at hgood2 ⊢
    cases hcs : g.clamp r0 startPos with
    | none => exact .inl rfl
    | some cs =>
      cases hce : g.clamp ((r0 :: rest).getLast (by simp)) endPos with
      | none => exact .inl rfl
      | some ce =>
        rw [hcs, hce] at hgood2
        dsimp only at hgood2 ⊢
        have h0 : g.known r0 = true := by rw [← hg.clamp r0 startPos, hcs]; rfl
        have hnz : r0 ≠ 0#32 := by rintro rfl; rw [hg.null] at h0; exact absurd h0 (by simp)
        obtain ⟨o, t1, t2, f1, f2, hcase⟩ := appendVertex_two (g := g) hb ⟨cs, spStart, r0⟩ (out := []) (by simpa using h1)
        have ho : o = [⟨cs, spStart, r0⟩] := by
          simp only [appendVertex, appendNew] at f1
          split at f1
          · simp only [Option.some.injEq, Prod.mk.injEq] at f1
            exact f1.1.symm
          · exact absurd f1 (by simp)
        subst ho
        rw [f1, f2]
        rw [f2] at hgood2
        dsimp only at hgood2 ⊢
        rcases hcase with ⟨rfl, hlt⟩ | ⟨rfl, hfull⟩
        · by_cases hs : t1 ≠ Status.inProgress
          · rw [if_pos hs, if_pos hs]
            exact .inl rfl
          · rw [if_neg hs, if_neg hs]
            by_cases hr : rest = []
            · rw [if_pos hr, if_pos hr]
              exact endPath_two hb (by simp) hlt
            · rw [if_neg hr, if_neg hr]
              exact straightLoop_two hb hg (by simpa using h0) fuel
                ⟨by simp [firstState], hlt, by simp [firstState], by simp [firstState], by simp [firstState],
                  by simp [firstState], fun _ => ⟨hnz, hnz⟩, le_refl _, le_refl _, fun j hj => absurd hj (by simp [firstState])⟩
        · rw [if_pos (by decide)]
          refine .inr (.inr ⟨_, _, rfl, by decide, fun o st hr hsu => ?_⟩)
          rw [hr] at hgood2
          rcases hgood2 with ⟨cs', ce', r', h3, h4, h5, h6, h7⟩ | ⟨h7, -⟩
          · simp only [List.head?_cons, Option.some.injEq] at h3
            subst h3
            rw [hcs] at h4
            simp only [Option.some.injEq] at h4
            subst h4
            exact h7.2.1
          · simp only [SOut.done.injEq] at h7
            rw [h7.2] at hsu
            exact absurd hsu (by decide)

/-! ## Theorems -/

/-- **C115** (`_partial`): with a smaller buffer, the points are the beginning of those with a larger one; only flags and
reference of the last point may differ. Without `BufferTooSmall` the results are the same. Missing: with `BufferTooSmall`,
that points are missing (`straight_exact_refuted`); broken corridors with crossings (`straight_panic_refuted`). -/
theorem straight_prefix_partial (hg : g.OK) (h1 : b1.OK) (h2 : b2.OK) (hle : b1.cap ≤ b2.cap) {startPos : P} {fuel : Nat}
    {o1 o2 : List (SPoint P)} {st1 st2 : Status}
    (e1 : findStraight g b1 startPos endPos path opts fuel = .done o1 st1) (hs1 : st1.succeed = true)
    (e2 : findStraight g b2 startPos endPos path opts fuel = .done o2 st2) (hs2 : st2.succeed = true) :
    (∃ init last last' more, o1 = init ++ [last] ∧ o2 = init ++ last' :: more ∧ last'.pos = last.pos) ∧
    (st1.detail Status.bufferTooSmall = false → o1 = o2 ∧ st1 = st2) := by
  have hcap : 0 < b1.cap := by
    by_contra hc
    unfold findStraight at e1
    rw [if_pos (by omega)] at e1
    simp only [SOut.done.injEq] at e1
    rw [← e1.2] at hs1
    exact absurd hs1 (by decide)
  have hgr : ∀ {a c : List (SPoint P)}, Grows a.reverse c.reverse →
      ∃ init last last' more, a = init ++ [last] ∧ c = init ++ last' :: more ∧ last'.pos = last.pos := by
    rintro a c ⟨new, l, l', r, ea, ec, hp⟩
    refine ⟨r.reverse, l, l', new.reverse, ?_, ?_, hp⟩
    · have := congrArg List.reverse ea
      simpa using this
    · have := congrArg List.reverse ec
      simpa using this
  have htwo := findStraight_two (endPos := endPos) (path := path) (opts := opts) ⟨h1, h2, hle⟩ hg startPos fuel hcap
  rw [e1, e2] at htwo
  rcases htwo with he | he | ⟨o, st, he, hbts, h⟩
  · simp only [SOut.done.injEq] at he
    obtain ⟨rfl, rfl⟩ := he
    refine ⟨?_, fun _ => ⟨rfl, rfl⟩⟩
    refine hgr (.refl ?_)
    obtain ⟨r0, e, _, hh, _⟩ := (straight_fits hg e1).2 hs1
    intro hn
    rw [List.reverse_eq_nil_iff] at hn
    rw [hn] at hh
    exact absurd hh (by simp)
  · exact absurd he (by simp)
  · simp only [SOut.done.injEq] at he
    obtain ⟨rfl, rfl⟩ := he
    refine ⟨hgr (h o2 st2 rfl hs2), fun hf => ?_⟩
    rw [hf] at hbts
    exact absurd hbts (by simp)

end

/-- A non-trivial case: two points of three. -/
example : findStraight cornerGeo ⟨2, 2, 2⟩ (1, 1) (5, 5) [1, 2, 3, 4] 0#32 100 =
    .done [⟨(1, 1), spStart, 1⟩, ⟨(2, 4), 0#8, 4⟩] (Status.success ||| Status.bufferTooSmall) := by decide +kernel

end Verif.Detour
