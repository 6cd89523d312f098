/-
What the points of `FindStraightPath` are, that they come in the order of the corridor, and that the search for them ends
(detour/query.go:415-657). The model is that of `StraightPath.lean`.
-/
import Verif.Detour.StraightPath
import Mathlib.Data.List.Forall2

namespace Verif.Detour

section
variable {P F : Type}

/-! ## Specification -/

/-- What holds of the arithmetic when no coordinate is infinite or NaN: a point is `Approx` to itself, and the area of a
triangle with twice the same corner is 0. -/
structure SGeo.Plain (g : SGeo P F) : Prop where
  approx : ∀ p, g.approx p p = true
  le0 : ∀ p q, g.le0 (g.area p p q) = true
  ge0 : ∀ p q, g.ge0 (g.area p p q) = true

/-- A point of the result and the number of polygons of the corridor left behind at it: 0 at the start, `k + 1` at the portal
from the polygon `k` to the polygon `k + 1`, the number of all at the end. `pos` is the wanted position, or one within the
tolerance of `Approx` that was written before. -/
inductive Enters (g : SGeo P F) (opts : U32) (startPos endPos : P) (path : List U32) : Nat → SPoint P → Prop
  | start {r : U32} {cs : P} : path.head? = some r → g.clamp r startPos = some cs →
      Enters g opts startPos endPos path 0 ⟨cs, spStart, r⟩
  | corner {k : Nat} {a c : U32} {l r q pos : P} {ty : Byte} : path[k]? = some a → path[k + 1]? = some c →
      g.portal a c = some (l, r, ty) → (q = l ∨ q = r) → (pos = q ∨ g.approx q pos = true) →
      Enters g opts startPos endPos path (k + 1) ⟨pos, if ty = 1#8 then spOffMesh else 0#8, c⟩
  | crossing {k : Nat} {a c : U32} {l r sp ep q pos : P} {ty : Byte} : path[k]? = some a → path[k + 1]? = some c →
      g.portal a c = some (l, r, ty) → opts &&& 3#32 ≠ 0#32 → (opts &&& 1#32 ≠ 0#32 → g.sameArea a c = false) →
      g.cross sp ep l r = some q → (pos = q ∨ g.approx q pos = true) →
      Enters g opts startPos endPos path (k + 1) ⟨pos, 0#8, c⟩
  | cut {k : Nat} {a c : U32} {q pos : P} : path[k]? = some a → path[k + 1]? = some c → g.portal a c = none →
      g.clamp a endPos = some q → (pos = q ∨ g.approx q pos = true) → Enters g opts startPos endPos path (k + 1) ⟨pos, 0#8, a⟩
  | finish {re : U32} {ce pos : P} : path.getLast? = some re → g.clamp re endPos = some ce →
      (pos = ce ∨ g.approx ce pos = true) → Enters g opts startPos endPos path path.length ⟨pos, spEnd, 0#32⟩

/-- The order of the points: along the corridor, and at most one for each portal when no crossings are asked for. -/
def Before (opts : U32) (x y : Nat) : Prop := x ≤ y ∧ (opts &&& 3#32 = 0#32 → x < y)

theorem Before.trans_le {opts : U32} {x y z : Nat} (h : Before opts x y) (h' : y ≤ z) : Before opts x z :=
  ⟨h.1.trans h', fun ho => (h.2 ho).trans_le h'⟩

theorem Before.of_lt {opts : U32} {x y : Nat} (h : x < y) : Before opts x y := ⟨h.le, fun _ => h⟩

variable {g : SGeo P F} {b : SBuf} {opts : U32} {startPos endPos : P} {path : List U32}

/-! ## Appending -/

/-- The points written so far (last first) are those of `ms`. -/
structure Trace (g : SGeo P F) (opts : U32) (startPos endPos : P) (path : List U32) (top : Nat) (ms : List Nat)
    (out : List (SPoint P)) : Prop where
  enters : List.Forall₂ (Enters g opts startPos endPos path) (top :: ms) out
  sorted : (top :: ms).Pairwise fun x y => Before opts y x

theorem Trace.append {top : Nat} {ms : List Nat} {out out' : List (SPoint P)} {st : Status} {e : SPoint P} {m : Nat}
    (h : Trace g opts startPos endPos path top ms out) (hv : appendVertex g b e out = some (out', st))
    (he : ∀ pos, (pos = e.pos ∨ g.approx e.pos pos = true) → Enters g opts startPos endPos path m ⟨pos, e.flags, e.ref⟩)
    (hm : top ≤ m) (hnew : (∀ l, out.head? = some l → g.approx e.pos l.pos = false) → Before opts top m) :
    ∃ ms', Trace g opts startPos endPos path m ms' out' := by
  obtain ⟨hf, hs⟩ := h
  cases hf with
  | @cons _ last _ rest hlast hrest =>
    rw [List.pairwise_cons] at hs
    rw [appendVertex] at hv
    split at hv
    · rename_i ha
      split at hv
      · simp only [Option.some.injEq, Prod.mk.injEq] at hv
        obtain ⟨rfl, rfl⟩ := hv
        exact ⟨ms, .cons (he _ (.inr ha)) hrest, List.pairwise_cons.2 ⟨fun x hx => (hs.1 x hx).trans_le hm, hs.2⟩⟩
      · exact absurd hv (by simp)
    · rename_i ha
      have hb := hnew fun l hl => by
        simp only [List.head?_cons, Option.some.injEq] at hl
        subst hl
        simpa using ha
      unfold appendNew at hv
      split at hv
      · simp only [Option.some.injEq, Prod.mk.injEq] at hv
        obtain ⟨rfl, rfl⟩ := hv
        refine ⟨top :: ms, .cons (he _ (.inl rfl)) (.cons hlast hrest), List.pairwise_cons.2 ⟨?_, List.pairwise_cons.2 hs⟩⟩
        intro x hx
        rcases List.mem_cons.1 hx with rfl | hx
        · exact hb
        · exact (hs.1 x hx).trans_le hm
      · exact absurd hv (by simp)

/-- Crossings from the polygon `x` on, up to the polygon `y`. -/
theorem Trace.portals {top : Nat} {ms : List Nat} {out out' : List (SPoint P)} {st : Status} {x y : Nat} {ep : P}
    (h : Trace g opts startPos endPos path top ms out) (hv : appendPortals g b path opts x y ep out = some (out', st))
    (hx : top ≤ x + 1) :
    ∃ top' ms', Trace g opts startPos endPos path top' ms' out' ∧ (top' ≤ y ∨ (top' = top ∧ out' = out)) := by
  unfold appendPortals at hv
  split at hv
  · simp only [Option.some.injEq, Prod.mk.injEq] at hv
    obtain ⟨rfl, rfl⟩ := hv
    exact ⟨top, ms, h, .inr ⟨rfl, rfl⟩⟩
  · rename_i ho
    split at hv
    · exact absurd hv (by simp)
    · rename_i last rest
      have key : ∀ (len x : Nat) (out : List (SPoint P)) (top : Nat) (ms : List Nat) (sp : P), x + len ≤ y →
          Trace g opts startPos endPos path top ms out → top ≤ x + 1 →
          portalsLoop g b path (opts &&& 1#32 != 0#32) sp ep (List.range' x len) out = some (out', st) →
          ∃ top' ms', Trace g opts startPos endPos path top' ms' out' ∧ (top' ≤ y ∨ (top' = top ∧ out' = out)) := by
        intro len
        induction len with
        | zero =>
          intro x out top ms sp _ h _ hv
          simp only [List.range'_zero, portalsLoop, Option.some.injEq, Prod.mk.injEq] at hv
          obtain ⟨rfl, rfl⟩ := hv
          exact ⟨top, ms, h, .inr ⟨rfl, rfl⟩⟩
        | succ len ih =>
          intro x out top ms sp hy h hx hv
          have next := ih (x + 1) out top ms sp (by omega) h (by omega)
          rw [List.range'_succ, portalsLoop] at hv
          split at hv
          · rename_i a c ha hc
            split at hv
            · simp only [Option.some.injEq, Prod.mk.injEq] at hv
              obtain ⟨rfl, rfl⟩ := hv
              exact ⟨top, ms, h, .inr ⟨rfl, rfl⟩⟩
            · split at hv
              · simp only [Option.some.injEq, Prod.mk.injEq] at hv
                obtain ⟨rfl, rfl⟩ := hv
                exact ⟨top, ms, h, .inr ⟨rfl, rfl⟩⟩
              · rename_i l r ty hp
                split at hv
                · exact next hv
                · rename_i hao
                  split at hv
                  · exact next hv
                  · rename_i q hq
                    rw [Option.bind_eq_some_iff] at hv
                    obtain ⟨⟨o1, s1⟩, h1, hv⟩ := hv
                    obtain ⟨ms1, h2⟩ := h.append (m := x + 1) h1 (fun pos hpos => .crossing ha hc hp ho (fun h1 => by
                        by_contra hne
                        simp only [Bool.not_eq_false] at hne
                        exact hao ⟨by simpa using h1, hne⟩) hq hpos) hx fun _ => ⟨hx, fun h => absurd h ho⟩
                    dsimp only at hv
                    split at hv
                    · simp only [Option.some.injEq, Prod.mk.injEq] at hv
                      obtain ⟨rfl, rfl⟩ := hv
                      exact ⟨_, _, h2, .inl (by omega)⟩
                    · obtain ⟨t3, m3, h3, h4⟩ := ih (x + 1) o1 (x + 1) ms1 sp (by omega) h2 (by omega) hv
                      rcases h4 with h4 | ⟨rfl, rfl⟩
                      · exact ⟨t3, m3, h3, .inl h4⟩
                      · exact ⟨_, m3, h3, .inl (by omega)⟩
          · exact absurd hv (by simp)
      by_cases hxy : x ≤ y
      · exact key (y - x) x _ top ms last.pos (by omega) h hx hv
      · rw [show y - x = 0 by omega] at hv
        simp only [List.range'_zero, portalsLoop, Option.some.injEq, Prod.mk.injEq] at hv
        obtain ⟨rfl, rfl⟩ := hv
        exact ⟨top, ms, h, .inr ⟨rfl, rfl⟩⟩

/-! ## The funnel -/

/-- `q` is an end of the portal out of the polygon `k` (which one says `pick`), or the end position after the last polygon. -/
def EndOf (g : SGeo P F) (path : List U32) (ce : P) (pick : P × P → P) (k : Nat) (q : P) (ref : U32) (ty : Byte) : Prop :=
  (∃ a c l r, path[k]? = some a ∧ path[k + 1]? = some c ∧ g.portal a c = some (l, r, ty) ∧ q = pick (l, r) ∧ ref = c) ∨
  (k + 1 = path.length ∧ q = ce ∧ ref = 0#32)

/-- What holds of the variables before each turn, when areas of flat triangles are 0: after a corner both sides are at the
apex; then both are ends of later portals. `lb` bounds the portals of the next corner from below. -/
structure PInv (g : SGeo P F) (b : SBuf) (opts : U32) (startPos endPos : P) (path : List U32) (ce : P) (lb : Nat)
    (s : SState P) : Prop where
  base : SPInv g b path s
  trace : ∃ top ms, Trace g opts startPos endPos path top ms s.out ∧ top ≤ s.ai + 1 ∧ top ≤ lb ∧
    (top = path.length → ∃ l, s.out.head? = some l ∧ g.approx ce l.pos = true)
  phase : (s.left = s.apex ∧ s.right = s.apex ∧ lb = s.i) ∨
    (lb ≤ s.li ∧ lb ≤ s.ri ∧ s.li < s.i ∧ s.ri < s.i ∧ EndOf g path ce Prod.fst s.li s.left s.lref s.ltype ∧
      EndOf g path ce Prod.snd s.ri s.right s.rref s.rtype)

theorem PInv.lb_le {ce : P} {lb : Nat} {s : SState P} (h : PInv g b opts startPos endPos path ce lb s) : lb ≤ s.i := by
  rcases h.phase with h | h <;> omega

/-- What a turn does, further. -/
def SNext.Fine (g : SGeo P F) (b : SBuf) (opts : U32) (startPos endPos : P) (path : List U32) (ce : P) (lb i : Nat) :
    SNext P (SState P) → Prop
  | .go s' => ∃ lb', PInv g b opts startPos endPos path ce lb' s' ∧ (path.length + 2) * lb + i < (path.length + 2) * lb' + s'.i
  | .done out _ => ∃ top ms, Trace g opts startPos endPos path top ms out
  | .panic => True

/-- The end of the path, written without an end of the search, was there before. -/
theorem appendVertex_end {e : SPoint P} {out out' : List (SPoint P)} (h : appendVertex g b e out = some (out', Status.inProgress))
    (he : e.flags = spEnd) : ∃ l, out'.head? = some l ∧ g.approx e.pos l.pos = true := by
  have hn : appendNew b e out ≠ some (out', Status.inProgress) := by
    intro h
    unfold appendNew at h
    split at h
    · simp only [Option.some.injEq, Prod.mk.injEq] at h
      have h := h.2
      split at h
      · exact absurd h (by decide)
      · exact absurd h (by decide)
    · exact absurd h (by simp)
  cases out with
  | nil => exact absurd h hn
  | cons last rest =>
    rw [appendVertex] at h
    split at h
    · rename_i ha
      split at h
      · simp only [Option.some.injEq, Prod.mk.injEq] at h
        obtain ⟨rfl, _⟩ := h
        exact ⟨_, rfl, ha⟩
      · exact absurd h (by simp)
    · exact absurd h hn

theorem EndOf.enters (hg : g.OK) {ce q : P} {pick : P × P → P} (hpick : ∀ x, pick x = x.1 ∨ pick x = x.2) {k : Nat} {ref : U32}
    {ty : Byte} (h : EndOf g path ce pick k q ref ty) {re : U32} (hre : path.getLast? = some re)
    (hce : g.clamp re endPos = some ce) {pos : P} (hpos : pos = q ∨ g.approx q pos = true) :
    Enters g opts startPos endPos path (k + 1) ⟨pos, cornerFlags ref ty, ref⟩ := by
  rcases h with ⟨a, c, l, r, ha, hc, hp, rfl, rfl⟩ | ⟨hn, rfl, rfl⟩
  · have hnz : ref ≠ 0#32 := by
      rintro rfl
      have := (hg.portal _ _ _ hp).2
      rw [hg.null] at this
      exact absurd this (by simp)
    unfold cornerFlags
    rw [if_neg hnz]
    exact .corner ha hc hp (hpick _) hpos
  · rw [hn]
    exact .finish hre hce hpos

theorem corner_fine (hg : g.OK) {ce q : P} {pick : P × P → P} (hpick : ∀ x, pick x = x.1 ∨ pick x = x.2) {idx lb top i : Nat}
    {ref re : U32} {ty : Byte} {s : SState P} {ms : List Nat} (hre : path.getLast? = some re) (hce : g.clamp re endPos = some ce)
    (ht : Trace g opts startPos endPos path top ms s.out) (hta : top ≤ s.ai + 1) (htl : top ≤ lb) (hidx : lb ≤ idx) (hi : i ≤ path.length)
    (hq : EndOf g path ce pick idx q ref ty)
    (hgood : SNext.Good g b path opts endPos ce s (corner g b path opts q idx ref ty s)) :
    SNext.Fine g b opts startPos endPos path ce lb i (corner g b path opts q idx ref ty s) := by
  have he := fun pos hpos => hq.enters (opts := opts) (startPos := startPos) hg hpick hre hce (pos := pos) hpos
  unfold corner at hgood ⊢
  split
  · trivial
  · rename_i out st hp
    rw [hp] at hgood
    dsimp only at hgood
    obtain ⟨top', ms', ht', htop'⟩ := ht.portals hp hta
    have hlt : top' < idx + 1 := by omega
    split
    · exact ⟨_, _, ht'⟩
    · rename_i hs
      rw [if_neg hs] at hgood
      split
      · trivial
      · rename_i out2 st2 hv
        rw [hv] at hgood
        dsimp only at hgood
        obtain ⟨ms2, ht2⟩ := ht'.append hv he hlt.le fun _ => .of_lt hlt
        split
        · exact ⟨_, _, ht2⟩
        · rename_i hs2
          rw [if_neg hs2] at hgood
          refine ⟨idx + 1, ⟨hgood.1, ⟨idx + 1, ms2, ht2, le_refl _, le_refl _, fun hn => ?_⟩, .inl ⟨rfl, rfl, rfl⟩⟩, ?_⟩
          · rcases hq with ⟨a, c, l, r, ha, hc, _⟩ | ⟨_, rfl, rfl⟩
            · have := (List.getElem?_eq_some_iff.1 hc).1
              omega
            · rw [not_not] at hs2
              rw [hs2] at hv
              exact appendVertex_end hv rfl
          · dsimp only
            have : (path.length + 2) * lb + (path.length + 2) ≤ (path.length + 2) * (idx + 1) := by
              rw [Nat.mul_add, Nat.mul_one]
              exact Nat.add_le_add_right (Nat.mul_le_mul_left _ hidx) _
            omega

theorem leftVertex_fine (hg : g.OK) (hpl : g.Plain) {ce l : P} {lb top : Nat} {re : U32} {ty : Byte} {s : SState P}
    {ms : List Nat} (hre : path.getLast? = some re) (hce : g.clamp re endPos = some ce)
    (ht : Trace g opts startPos endPos path top ms s.out) (hta : top ≤ s.ai + 1) (htl : top ≤ lb)
    (htop : top = path.length → ∃ l, s.out.head? = some l ∧ g.approx ce l.pos = true) (hi : s.i < path.length)
    (hl : EndOf g path ce Prod.fst s.i l (refAfter path s.i) ty)
    (hr : EndOf g path ce Prod.snd s.ri s.right s.rref s.rtype) (hri : lb ≤ s.ri ∧ s.ri ≤ s.i)
    (hphase : (s.left = s.apex ∧ lb = s.i) ∨
      (lb ≤ s.li ∧ s.li < s.i ∧ EndOf g path ce Prod.fst s.li s.left s.lref s.ltype))
    (hgood : SNext.Good g b path opts endPos ce s (leftVertex g b path opts l ty s)) :
    SNext.Fine g b opts startPos endPos path ce lb s.i (leftVertex g b path opts l ty s) := by
  unfold leftVertex at hgood ⊢
  split
  · rename_i h1
    rw [if_pos h1] at hgood
    split
    · rename_i h2
      rw [if_pos h2] at hgood
      refine ⟨lb, ⟨hgood.1, ⟨top, ms, ht, hta, htl, htop⟩, .inr ⟨?_, hri.1, Nat.lt_succ_self _, Nat.lt_succ_of_le hri.2, hl, hr⟩⟩,
        by dsimp only; omega⟩
      dsimp only
      omega
    · rename_i h2
      rw [if_neg h2] at hgood
      exact corner_fine hg (fun _ => .inr rfl) hre hce ht hta htl hri.1 hi.le hr hgood
  · rename_i h1
    rw [if_neg h1] at hgood
    rcases hphase with h2 | h2
    · rw [h2.1, hpl.ge0] at h1
      exact absurd rfl h1
    · exact ⟨lb, ⟨hgood.1, ⟨top, ms, ht, hta, htl, htop⟩, .inr ⟨h2.1, hri.1, Nat.lt_succ_of_lt h2.2.1,
        Nat.lt_succ_of_le hri.2, h2.2.2, hr⟩⟩, by dsimp only; omega⟩

theorem rightVertex_fine (hg : g.OK) (hpl : g.Plain) {ce l r : P} {lb : Nat} {re : U32} {ty : Byte} {s : SState P}
    (h : PInv g b opts startPos endPos path ce lb s) (hre : path.getLast? = some re) (hce : g.clamp re endPos = some ce)
    (hi : s.i < path.length)
    (hl : EndOf g path ce Prod.fst s.i l (refAfter path s.i) ty)
    (hr : EndOf g path ce Prod.snd s.i r (refAfter path s.i) ty)
    (hgood : SNext.Good g b path opts endPos ce s (rightVertex g b path opts l r ty s)) :
    SNext.Fine g b opts startPos endPos path ce lb s.i (rightVertex g b path opts l r ty s) := by
  obtain ⟨top, ms, ht, hta, htl, htop⟩ := h.trace
  have hlb := h.lb_le
  unfold rightVertex at hgood ⊢
  split
  · rename_i h1
    rw [if_pos h1] at hgood
    split
    · rename_i h2
      rw [if_pos h2] at hgood
      refine leftVertex_fine (s := { s with right := r, rref := refAfter path s.i, rtype := ty, ri := s.i }) hg hpl hre hce ht
        hta htl htop hi hl hr ⟨hlb, le_refl _⟩ ?_ hgood
      rcases h.phase with h3 | h3
      · exact .inl ⟨h3.1, h3.2.2⟩
      · exact .inr ⟨h3.1, h3.2.2.1, h3.2.2.2.2.1⟩
    · rename_i h2
      rw [if_neg h2] at hgood
      rcases h.phase with h3 | h3
      · rw [h3.2.1, hpl.approx] at h2
        exact absurd rfl h2
      · exact corner_fine hg (fun _ => .inl rfl) hre hce ht hta htl h3.1 hi.le h3.2.2.2.2.1 hgood
  · rename_i h1
    rw [if_neg h1] at hgood
    rcases h.phase with h3 | h3
    · rw [h3.2.1, hpl.le0] at h1
      exact absurd rfl h1
    · exact leftVertex_fine hg hpl hre hce ht hta htl htop hi hl h3.2.2.2.2.2 ⟨h3.2.1, h3.2.2.2.1.le⟩
        (.inr ⟨h3.1, h3.2.2.1, h3.2.2.2.2.1⟩) hgood

theorem turn_fine (hg : g.OK) (hpl : g.Plain) {ce : P} {lb : Nat} {re : U32} {s : SState P}
    (h : PInv g b opts startPos endPos path ce lb s) (hre : path.getLast? = some re) (hce : g.clamp re endPos = some ce)
    (h0 : g.known (path[0]?.getD 0#32) = true) (hi : s.i < path.length) :
    SNext.Fine g b opts startPos endPos path ce lb s.i (turn g b path opts endPos ce s) := by
  have hgood := turn_good (opts := opts) (endPos := endPos) (ce := ce) hg h.base h0 hi
  have hlb := h.lb_le
  unfold turn at hgood ⊢
  split
  · rename_i hn
    rw [if_pos hn] at hgood
    have ha : path[s.i]? = some path[s.i] := List.getElem?_eq_getElem hi
    have hc : path[s.i + 1]? = some path[s.i + 1] := List.getElem?_eq_getElem hn
    split
    · rename_i hp
      unfold stopAt
      split
      · exact absurd hp (by
          rename_i hcl
          intro _
          unfold stopAt at hgood
          rw [hp] at hgood
          dsimp only at hgood
          rw [hcl] at hgood
          dsimp only at hgood
          exact hgood.2.1.ne rfl)
      · rename_i q hq
        split
        · trivial
        · rename_i out st hpo
          obtain ⟨top, ms, ht, hta, htl, htop⟩ := h.trace
          obtain ⟨top', ms', ht', htop'⟩ := ht.portals hpo hta
          have hlt : top' < s.i + 1 := by omega
          split
          · trivial
          · rename_i out2 st2 hv
            obtain ⟨ms2, ht2⟩ := ht'.append hv (m := s.i + 1) (fun pos hpos => by
              refine .cut (a := path[s.i]?.getD 0#32) (c := path[s.i + 1]?.getD 0#32) ?_ ?_ hp hq hpos
              · rw [ha]; rfl
              · rw [hc]; rfl) hlt.le fun _ => .of_lt hlt
            exact ⟨_, _, ht2⟩
    · rename_i l r ty hp
      rw [hp] at hgood
      dsimp only at hgood
      have hrf : refAfter path s.i = path[s.i + 1] := by unfold refAfter; rw [hc]; rfl
      have hp' : g.portal path[s.i] path[s.i + 1] = some (l, r, ty) := by
        rw [ha, hc] at hp; exact hp
      split
      · rename_i hz
        rw [if_pos hz] at hgood
        obtain ⟨top, ms, ht, hta, htl, htop⟩ := h.trace
        refine ⟨1, ⟨hgood.1, ⟨top, ms, ht, hta, by omega, htop⟩, .inl ?_⟩, by
          have : lb = 0 := by omega
          subst this
          dsimp only
          omega⟩
        rcases h.phase with h3 | h3
        · exact ⟨h3.1, h3.2.1, rfl⟩
        · omega
      · rename_i hz
        rw [if_neg hz] at hgood
        exact rightVertex_fine hg hpl h hre hce hi (.inl ⟨_, _, l, r, ha, hc, hp', rfl, hrf⟩)
          (.inl ⟨_, _, l, r, ha, hc, hp', rfl, hrf⟩) hgood
  · rename_i hn
    rw [if_neg hn] at hgood
    have hn : s.i + 1 = path.length := by omega
    have hrf : refAfter path s.i = 0#32 := by
      unfold refAfter; rw [List.getElem?_eq_none (by omega)]; rfl
    exact rightVertex_fine hg hpl h hre hce hi (.inr ⟨hn, rfl, hrf⟩) (.inr ⟨hn, rfl, hrf⟩) hgood

/-! ## The whole function -/

theorem straightLoop_fine (hg : g.OK) (hpl : g.Plain) {ce : P} {re : U32} (hre : path.getLast? = some re)
    (hce : g.clamp re endPos = some ce) (h0 : g.known (path[0]?.getD 0#32) = true) (fuel : Nat) {lb : Nat} {s : SState P}
    (h : PInv g b opts startPos endPos path ce lb s) :
    ((path.length + 2) * path.length + path.length < fuel + ((path.length + 2) * lb + s.i) →
      straightLoop g b path opts endPos ce fuel s ≠ .hang) ∧
    ∀ out st, straightLoop g b path opts endPos ce fuel s = .done out st →
      ∃ top ms, Trace g opts startPos endPos path top ms out.reverse := by
  induction fuel generalizing lb s with
  | zero =>
    refine ⟨fun hf => absurd hf ?_, fun out st he => absurd he (by simp [straightLoop])⟩
    have := h.lb_le.trans h.base.i_le
    have := Nat.mul_le_mul_left (path.length + 2) this
    have := h.base.i_le
    omega
  | succ fuel ih =>
    rw [straightLoop]
    split
    · rename_i hn
      obtain ⟨top, ms, ht, hta, htl, htop⟩ := h.trace
      have hai := h.base.ai
      unfold afterLoop
      split
      · exact ⟨by simp, by simp⟩
      · rename_i out st hp
        obtain ⟨top', ms', ht', htop'⟩ := ht.portals hp hta
        split
        · refine ⟨by simp, fun o st' he => ?_⟩
          simp only [SOut.done.injEq] at he
          rw [← he.1, List.reverse_reverse]
          exact ⟨_, _, ht'⟩
        · unfold endPath
          split
          · exact ⟨by simp, by simp⟩
          · rename_i out2 st2 hv
            refine ⟨by simp, fun o st' he => ?_⟩
            simp only [SOut.done.injEq] at he
            rw [← he.1, List.reverse_reverse]
            obtain ⟨ms2, ht2⟩ := ht'.append (m := path.length) hv (fun pos hpos => .finish hre hce hpos) (by omega) fun hnew => by
              by_cases hlt : top' < path.length
              · exact .of_lt hlt
              · rcases htop' with h' | ⟨rfl, rfl⟩
                · omega
                · obtain ⟨l, hl, ha⟩ := htop (by omega)
                  have := hnew l hl
                  rw [ha] at this
                  exact absurd this (by simp)
            exact ⟨_, _, ht2⟩
    · rename_i hn
      have := turn_fine hg hpl h hre hce h0 (by omega)
      split
      · rename_i s' hs
        rw [hs] at this
        obtain ⟨lb', h', hlt⟩ := this
        have := ih h'
        exact ⟨fun hf => this.1 (by omega), this.2⟩
      · rename_i out st hs
        rw [hs] at this
        refine ⟨by simp, fun o st' he => ?_⟩
        simp only [SOut.done.injEq] at he
        rw [← he.1, List.reverse_reverse]
        exact this
      · exact ⟨by simp, by simp⟩

/-- The ways `FindStraightPath` can return, further. -/
theorem findStraight_fine (hg : g.OK) (hpl : g.Plain) (fuel : Nat) :
    ((path.length + 2) * path.length + path.length < fuel → findStraight g b startPos endPos path opts fuel ≠ .hang) ∧
    ∀ out st, findStraight g b startPos endPos path opts fuel = .done out st → st.succeed = true →
      ∃ top ms, Trace g opts startPos endPos path top ms out.reverse := by
  have hfail : ∀ out st, (SOut.done [] (Status.failure ||| Status.invalidParam) : SOut P) = .done out st → st.succeed = true →
      ∃ top ms, Trace g opts startPos endPos path top ms out.reverse := by
    intro out st he hs
    simp only [SOut.done.injEq] at he
    rw [← he.2] at hs
    exact absurd hs (by decide)
  unfold findStraight
  split
  · exact ⟨by simp, hfail⟩
  · split
    · exact ⟨by simp, hfail⟩
    · rename_i r0 rest
      split
      · rename_i cs ce hcs hce
        have h0 : g.known r0 = true := by rw [← hg.clamp r0 startPos, hcs]; rfl
        have hnz : r0 ≠ 0#32 := by rintro rfl; rw [hg.null] at h0; exact absurd h0 (by simp)
        have hre : (r0 :: rest).getLast? = some ((r0 :: rest).getLast (by simp)) := List.getLast?_eq_some_getLast (by simp)
        have hst : Enters g opts startPos endPos (r0 :: rest) 0 ⟨cs, spStart, r0⟩ := .start rfl hcs
        have ht : Trace g opts startPos endPos (r0 :: rest) 0 [] [⟨cs, spStart, r0⟩] := ⟨.cons hst .nil, by simp⟩
        split
        · exact ⟨by simp, by simp⟩
        · rename_i out st hv
          have V := appendVertex_spec g b hv
          have ho : out = [⟨cs, spStart, r0⟩] := by
            simp only [appendVertex, appendNew] at hv
            split at hv
            · simp only [Option.some.injEq, Prod.mk.injEq] at hv
              exact hv.1.symm
            · exact absurd hv (by simp)
          subst ho
          split
          · refine ⟨by simp, fun o st' he _ => ?_⟩
            simp only [SOut.done.injEq] at he
            rw [← he.1]
            exact ⟨_, _, ht⟩
          · rename_i hs
            split
            · rename_i hr
              subst hr
              unfold endPath
              split
              · exact ⟨by simp, by simp⟩
              · rename_i out2 st2 hv2
                refine ⟨by simp, fun o st' he _ => ?_⟩
                simp only [SOut.done.injEq] at he
                rw [← he.1, List.reverse_reverse]
                obtain ⟨ms2, ht2⟩ := ht.append (m := 1) hv2 (fun pos hpos => .finish hre hce hpos) (by omega)
                  fun _ => .of_lt (by omega)
                exact ⟨_, _, ht2⟩
            · have hroom : ([⟨cs, spStart, r0⟩] : List (SPoint P)).length < b.cap := by
                rcases V.st with h1 | h1 | h1
                · exact h1.2 (by simp only [List.length_nil]; omega)
                · exact absurd h1.2 (show ¬ (spStart = spEnd) by decide)
                · exact absurd (h1.1 ▸ hs) (by decide)
              have hinv : SPInv g b (r0 :: rest) (firstState r0 cs [⟨cs, spStart, r0⟩]) :=
                ⟨by simp [firstState], hroom, by simp [firstState], by simp [firstState], by simp [firstState],
                  by simp [firstState], fun _ => ⟨hnz, hnz⟩, le_refl _, le_refl _, fun j hj => absurd hj (by simp [firstState])⟩
              have := straightLoop_fine (b := b) (opts := opts) (startPos := startPos) hg hpl hre hce (by simpa using h0) fuel (lb := 0)
                ⟨hinv, ⟨0, [], ht, by omega, by omega, fun h => absurd h (by simp)⟩, .inl ⟨rfl, rfl, rfl⟩⟩
              exact ⟨fun hf => this.1 (by simp only [firstState]; omega), fun o st he _ => this.2 o st he⟩
      · exact ⟨by simp, hfail⟩

/-! ## Theorems -/

/-- **C113**: the points of a straight path are, in the order of the corridor: the start; corners, each an end of a portal, with
the reference of the polygon entered there and flagged when this is an off-mesh connection; crossings, when asked for (at
changes of area only, when so asked); the end. Without crossings no portal has two points. -/
theorem straight_order (hg : g.OK) (hpl : g.Plain) {fuel : Nat} {out : List (SPoint P)} {st : Status}
    (h : findStraight g b startPos endPos path opts fuel = .done out st) (hs : st.succeed = true) :
    ∃ ms : List Nat, List.Forall₂ (Enters g opts startPos endPos path) ms out ∧ ms.Pairwise (Before opts) := by
  obtain ⟨top, ms, ht⟩ := (findStraight_fine hg hpl fuel).2 out st h hs
  refine ⟨(top :: ms).reverse, ?_, List.pairwise_reverse.2 ht.sorted⟩
  have := ht.enters
  rw [← List.forall₂_reverse_iff, List.reverse_reverse] at this
  exact this

/-- **C31** (`_partial`): the first point is flagged as the start when no end of a portal, no crossing and no end position is within the
tolerance of the start. Missing: paths that turn at their start (`straight_start_refuted`). -/
theorem straight_start_partial (hg : g.OK) (hpl : g.Plain) {fuel : Nat} {out : List (SPoint P)} {st : Status} {r0 : U32} {cs : P}
    (h : findStraight g b startPos endPos path opts fuel = .done out st) (hs : st.succeed = true) (hr0 : path.head? = some r0)
    (hcs : g.clamp r0 startPos = some cs)
    (hends : ∀ a c l r ty, g.portal a c = some (l, r, ty) → g.approx l cs = false ∧ g.approx r cs = false)
    (hcross : opts &&& 3#32 ≠ 0#32 → ∀ p q l r x, g.cross p q l r = some x → g.approx x cs = false)
    (hend : ∀ r q, g.clamp r endPos = some q → g.approx q cs = false) :
    out.head? = some ⟨cs, spStart, r0⟩ := by
  obtain ⟨ms, hf, _⟩ := straight_order hg hpl h hs
  obtain ⟨r0', e, hr0', he, hpos⟩ := (straight_fits hg h).2 hs
  rw [hr0] at hr0'
  simp only [Option.some.injEq] at hr0'
  subst hr0'
  rw [hcs] at hpos
  simp only [Option.some.injEq] at hpos
  have hno : ∀ {q : P}, g.approx q cs = false → ¬ (e.pos = q ∨ g.approx q e.pos = true) := by
    intro q hq hc
    rw [← hpos] at hc
    rcases hc with rfl | hc
    · rw [hpl.approx] at hq
      exact absurd hq (by simp)
    · rw [hq] at hc
      exact absurd hc (by simp)
  cases hf with
  | nil => exact absurd he (by simp)
  | cons h1 h2 =>
    simp only [List.head?_cons, Option.some.injEq] at he
    subst he
    cases h1 with
    | start h3 h4 =>
      rw [hr0] at h3
      simp only [Option.some.injEq] at h3
      subst h3
      simp only at hpos
      rw [hpos]
      rfl
    | corner _ _ h5 h6 h7 =>
      rcases h6 with rfl | rfl
      · exact absurd h7 (hno (hends _ _ _ _ _ h5).1)
      · exact absurd h7 (hno (hends _ _ _ _ _ h5).2)
    | crossing _ _ _ ho _ h5 h6 => exact absurd h6 (hno (hcross ho _ _ _ _ _ h5))
    | cut _ _ _ h5 h6 => exact absurd h6 (hno (hend _ _ h5))
    | finish _ h5 h6 => exact absurd h6 (hno (hend _ _ h5))

/-- **C114** (`_partial`): `FindStraightPath` ends, after at most `n² + 3n + 1` turns of its loop for a corridor of `n` polygons,
whatever the corridor and the rounding, when the areas of flat triangles are 0. Missing: infinite coordinates
(`straight_hang_refuted`). -/
theorem straight_ends_partial (hg : g.OK) (hpl : g.Plain) {fuel : Nat} (hf : path.length * path.length + 3 * path.length < fuel) :
    findStraight g b startPos endPos path opts fuel ≠ .hang :=
  (findStraight_fine hg hpl fuel).1 (by rw [Nat.add_mul]; omega)

end

theorem planeGeo_plain (refs : List U32) (portals : List ((U32 × U32) × ((Int × Int) × (Int × Int) × Byte))) :
    (planeGeo refs portals).Plain := by
  refine ⟨fun p => by simp [planeGeo], fun p q => ?_, fun p q => ?_⟩ <;> simp [planeGeo]

/-- A non-trivial case of `straight_order`: a corner and two crossings. -/
example : findStraight cornerGeo buf8 (1, 1) (5, 7) [1, 2, 3, 4] 2#32 100 =
    .done [⟨(1, 1), spStart, 1⟩, ⟨(1, 2), 0#8, 2⟩, ⟨(2, 4), 0#8, 4⟩, ⟨(5, 7), spEnd, 0⟩] Status.success := by decide +kernel

/-- A non-trivial case of `straight_start_partial`. -/
example : ∃ out, findStraight brokenGeo buf8 (1, 1) (1, 5) [1, 2, 3] 0#32 100 = .done out Status.success ∧
    (∀ a c l r ty, brokenGeo.portal a c = some (l, r, ty) → brokenGeo.approx l (1, 1) = false ∧ brokenGeo.approx r (1, 1) = false) ∧
    ∀ r q, brokenGeo.clamp r (1, 5) = some q → brokenGeo.approx q (1, 1) = false := by
  refine ⟨[⟨(1, 1), spStart, 1⟩, ⟨(1, 5), spEnd, 0⟩], by decide +kernel, fun a c l r ty h => ?_, fun r q h => ?_⟩
  · have h : (if [1, 2, 3, 4].contains a && [1, 2, 3, 4].contains c then
      List.lookup (a, c) [(((1 : U32), (2 : U32)), (((0 : Int), (2 : Int)), ((2 : Int), (2 : Int)), (0 : Byte))), ((2, 3), ((0, 4), (2, 4), 0))]
      else none) = some (l, r, ty) := h
    split at h
    · simp only [List.lookup] at h
      split at h
      · simp only [Option.some.injEq, Prod.mk.injEq] at h
        obtain ⟨rfl, rfl, _⟩ := h
        decide
      · split at h
        · simp only [Option.some.injEq, Prod.mk.injEq] at h
          obtain ⟨rfl, rfl, _⟩ := h
          decide
        · exact absurd h (by simp)
    · exact absurd h (by simp)
  · have h : (if [1, 2, 3, 4].contains r then some ((1 : Int), (5 : Int)) else none) = some q := h
    split at h
    · simp only [Option.some.injEq] at h
      subst h
      decide
    · exact absurd h (by simp)

/-- As `planeGeo`, with one more point, infinitely far (`none`): areas with it are NaN (`none`), for infinity times 0 is NaN. -/
def farGeo (refs : List U32) (portals : List ((U32 × U32) × (Option (Int × Int) × Option (Int × Int) × Byte))) :
    SGeo (Option (Int × Int)) (Option Int) where
  known r := refs.contains r
  clamp r p := if refs.contains r then some p else none
  portal a c := if refs.contains a && refs.contains c then portals.lookup (a, c) else none
  sameArea _ _ := false
  cross _ _ _ _ := none
  approx p q := p.isSome && p == q
  near _ _ _ := false
  area a b c := a.bind fun a => b.bind fun b => c.map fun c => (c.1 - a.1) * (b.2 - a.2) - (b.1 - a.1) * (c.2 - a.2)
  le0 x := x.any fun x => decide (x ≤ 0)
  ge0 x := x.any fun x => decide (0 ≤ x)
  lt0 x := x.any fun x => decide (x < 0)
  gt0 x := x.any fun x => decide (0 < x)

/-- Three polygons with a common vertex at infinity, which is the left end of both portals. -/
def hangGeo : SGeo (Option (Int × Int)) (Option Int) :=
  farGeo [1, 2, 3] [((1, 2), (none, some (2, 2), 0)), ((2, 3), (none, some (2, 4), 0))]

theorem hangGeo_ok : hangGeo.OK := by
  refine ⟨by decide, fun r p => ?_, fun a c x hx => ?_⟩
  · simp only [hangGeo, farGeo]
    cases [1, 2, 3].contains r <;> rfl
  · simp only [hangGeo, farGeo] at hx ⊢
    split at hx
    · rename_i hc
      simpa using hc
    · exact absurd hx (by simp)

/-- A state of the loop that comes back after two turns. -/
def hangState : SState (Option (Int × Int)) :=
  ⟨1, some (1, 1), some (1, 1), some (1, 1), 0, 0, 0, 1, 3, 0#8, 0#8, [⟨some (1, 1), 0#8, 1⟩]⟩

/-- **C114**, refuted: when a vertex of the corridor has an infinite coordinate, `FindStraightPath` may not end. -/
theorem straight_hang_refuted :
    ∃ (g : SGeo (Option (Int × Int)) (Option Int)) (b : SBuf), g.OK ∧ b.OK ∧
      ∀ fuel, findStraight g b (some (1, 1)) (some (0, 9)) [1, 2, 3] 0#32 fuel = .hang := by
  refine ⟨hangGeo, buf8, hangGeo_ok, by decide, fun fuel => ?_⟩
  have hloop : ∀ n, straightLoop hangGeo buf8 [1, 2, 3] 0#32 (some (0, 9)) (some (0, 9)) n hangState = .hang ∧
      straightLoop hangGeo buf8 [1, 2, 3] 0#32 (some (0, 9)) (some (0, 9)) (n + 1) hangState = .hang := by
    intro n
    induction n with
    | zero => exact ⟨rfl, rfl⟩
    | succ n ih => exact ⟨ih.2, ih.1⟩
  match fuel with
  | 0 => rfl
  | 1 => rfl
  | 2 => rfl
  | 3 => rfl
  | n + 4 => exact (hloop n).1

end Verif.Detour
