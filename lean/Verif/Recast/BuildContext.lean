/-
The build context: log of at most 1000 messages and performance timers
(recast/buildcontext.go).

Simplifications: message texts are the already formatted strings (`fmt.Sprintf` is outside the
model); the clock is an argument of the timer operations, times are integers (nanoseconds, the zero
`time.Time` being 0); timer labels are below `maxTimers`, as all labels the package defines are.
-/
import Verif.Common.Chain

namespace Verif.Recast

/-! ## Model -/

/-- `maxMessages` (recast/buildcontext.go:19). -/
def maxMessages : Nat := 1000

/-- Log categories (recast/buildcontext.go:13-17). -/
inductive Cat
  | progress | warning | error
deriving DecidableEq

/-- Prefix of a stored message (recast/buildcontext.go:101-108). -/
def Cat.tag : Cat → String
  | .progress => "PROG "
  | .warning => "WARN "
  | .error => "ERR "

/-- `BuildContext` (recast/buildcontext.go:23-36). -/
structure Ctx where
  start : Nat → Int
  acc : Nat → Int
  messages : Nat → String
  num : Nat
  logOn : Bool
  timerOn : Bool

/-- `NewBuildContext` (recast/buildcontext.go:40-45). -/
def Ctx.new (state : Bool) : Ctx := ⟨fun _ => 0, fun _ => 0, fun _ => "", 0, state, state⟩

/-- `log` (recast/buildcontext.go:98-113). Writing outside the array is `none`. -/
def Ctx.log (c : Ctx) (cat : Cat) (text : String) : Option Ctx :=
  if c.logOn && decide (c.num < maxMessages) then
    if c.num < maxMessages then
      some { c with messages := upd c.messages c.num (cat.tag ++ text), num := c.num + 1 }
    else none
  else some c

/-- `ResetLog` (recast/buildcontext.go:57-61). -/
def Ctx.resetLog (c : Ctx) : Ctx := if c.logOn then { c with num := 0 } else c

/-- `ResetTimers` (recast/buildcontext.go:64-70). -/
def Ctx.resetTimers (c : Ctx) : Ctx := if c.timerOn then { c with acc := fun _ => 0 } else c

/-- `StartTimer` (recast/buildcontext.go:141-145). -/
def Ctx.startTimer (c : Ctx) (l : Nat) (now : Int) : Ctx :=
  if c.timerOn then { c with start := upd c.start l now } else c

/-- `StopTimer` (recast/buildcontext.go:148-157). -/
def Ctx.stopTimer (c : Ctx) (l : Nat) (now : Int) : Ctx :=
  if c.timerOn then
    let delta := now - c.start l
    if c.acc l = 0 then { c with acc := upd c.acc l delta }
    else { c with acc := upd c.acc l (c.acc l + delta) }
  else c

/-- `AccumulatedTime` (recast/buildcontext.go:164-169). -/
def Ctx.accumulated (c : Ctx) (l : Nat) : Int := if c.timerOn then c.acc l else 0

/-- `LogCount` (recast/buildcontext.go:131-133). -/
def Ctx.logCount (c : Ctx) : Nat := c.num

/-- `LogText` (recast/buildcontext.go:136-138); out of the array is a panic. -/
def Ctx.logText (c : Ctx) (i : Nat) : Option String :=
  if i < maxMessages then some (c.messages i) else none

/-- `DumpLog` (recast/buildcontext.go:119-128): the lines written, after the header. -/
def Ctx.dumpLog (c : Ctx) : List String := (List.range c.num).map c.messages

/-- The operations. -/
inductive CtxOp
  | enableLog (state : Bool)
  | enableTimer (state : Bool)
  | resetLog
  | resetTimers
  | log (cat : Cat) (text : String)
  | startTimer (l : Nat) (now : Int)
  | stopTimer (l : Nat) (now : Int)

/-- One call. -/
def Ctx.step (c : Ctx) : CtxOp → Option Ctx
  | .enableLog s => some { c with logOn := s }
  | .enableTimer s => some { c with timerOn := s }
  | .resetLog => some c.resetLog
  | .resetTimers => some c.resetTimers
  | .log cat t => c.log cat t
  | .startTimer l now => some (c.startTimer l now)
  | .stopTimer l now => some (c.stopTimer l now)

/-- A sequence of calls. -/
def Ctx.run : Ctx → List CtxOp → Option Ctx
  | c, [] => some c
  | c, o :: os => (c.step o).bind fun c => c.run os

/-! ## Specification -/

/-- The text of an entry: a tag for the category, then the message. -/
def entry : Cat → String → String
  | .progress, t => "PROG " ++ t
  | .warning, t => "WARN " ++ t
  | .error, t => "ERR " ++ t

theorem entry_tag (cat : Cat) (t : String) : entry cat t = cat.tag ++ t := by
  cases cat <;> rfl

/-- The log calls of a history that count, in order: made while logging is on, and after the last
reset made while logging is on. No limit on their number. -/
def counted : Bool → List String → List CtxOp → List String
  | _, l, [] => l
  | _, l, .enableLog s :: os => counted s l os
  | on, l, .resetLog :: os => counted on (if on then [] else l) os
  | on, l, .log cat t :: os => counted on (if on then l ++ [entry cat t] else l) os
  | on, l, _ :: os => counted on l os

/-- Durations of timer `l` that count: for every stop made while timers are on, the time since the
last start made while timers are on; forgotten at a reset made while timers are on. -/
def laps (l : Nat) : Bool → Int → List Int → List CtxOp → List Int
  | _, _, ds, [] => ds
  | _, s, ds, .enableTimer b :: os => laps l b s ds os
  | on, s, ds, .resetTimers :: os => laps l on s (if on then [] else ds) os
  | on, s, ds, .startTimer k now :: os => laps l on (if on ∧ k = l then now else s) ds os
  | on, s, ds, .stopTimer k now :: os =>
    laps l on s (if on ∧ k = l then ds ++ [now - s] else ds) os
  | on, s, ds, _ :: os => laps l on s ds os

/-- Whether timers are on after a history. -/
def timersOn : Bool → List CtxOp → Bool
  | on, [] => on
  | _, .enableTimer b :: os => timersOn b os
  | on, _ :: os => timersOn on os

/-! ## Proofs -/

theorem run_total : ∀ (os : List CtxOp) (c : Ctx), ∃ c', c.run os = some c' := by
  intro os
  induction os with
  | nil => intro c; exact ⟨c, rfl⟩
  | cons o os ih =>
    intro c
    have : ∃ c1, c.step o = some c1 := by
      cases o <;> simp only [Ctx.step, Option.some.injEq, exists_eq'] 
      unfold Ctx.log
      split
      · rename_i h
        simp only [Bool.and_eq_true, decide_eq_true_eq] at h
        rw [if_pos h.2]
        exact ⟨_, rfl⟩
      · exact ⟨_, rfl⟩
    obtain ⟨c1, h1⟩ := this
    obtain ⟨c2, h2⟩ := ih c1
    exact ⟨c2, by simp [Ctx.run, h1, h2]⟩

/-- Relation between a context and the full list of counted messages. -/
def LogInv (c : Ctx) (l : List String) : Prop :=
  c.num = min l.length maxMessages ∧ ∀ i, i < c.num → l[i]? = some (c.messages i)

theorem logInv_step (c c' : Ctx) (o : CtxOp) (l : List String) (h : LogInv c l)
    (hs : c.step o = some c') :
    ∃ l', LogInv c' l' ∧ ∀ os, counted c.logOn l (o :: os) = counted c'.logOn l' os := by
  obtain ⟨h1, h2⟩ := h
  cases o with
  | enableLog s =>
    simp only [Ctx.step, Option.some.injEq] at hs
    subst hs
    exact ⟨l, ⟨h1, h2⟩, fun os => rfl⟩
  | enableTimer s =>
    simp only [Ctx.step, Option.some.injEq] at hs
    subst hs
    exact ⟨l, ⟨h1, h2⟩, fun os => rfl⟩
  | resetLog =>
    simp only [Ctx.step, Option.some.injEq, Ctx.resetLog] at hs
    subst hs
    cases hl : c.logOn
    · exact ⟨l, ⟨h1, h2⟩, fun os => by simp [counted, hl]⟩
    · exact ⟨[], ⟨by simp, by simp⟩, fun os => by simp [counted]⟩
  | resetTimers =>
    simp only [Ctx.step, Option.some.injEq, Ctx.resetTimers] at hs
    subst hs
    refine ⟨l, ?_, fun os => ?_⟩
    · unfold LogInv; split <;> exact ⟨h1, h2⟩
    · rw [counted]
      · split <;> rfl
      all_goals simp
  | startTimer k now =>
    simp only [Ctx.step, Option.some.injEq, Ctx.startTimer] at hs
    subst hs
    refine ⟨l, ?_, fun os => ?_⟩
    · unfold LogInv; split <;> exact ⟨h1, h2⟩
    · rw [counted]
      · split <;> rfl
      all_goals simp
  | stopTimer k now =>
    simp only [Ctx.step, Option.some.injEq, Ctx.stopTimer] at hs
    subst hs
    refine ⟨l, ?_, fun os => ?_⟩
    · unfold LogInv
      split
      · split <;> exact ⟨h1, h2⟩
      · exact ⟨h1, h2⟩
    · rw [counted]
      · split
        · split <;> rfl
        · rfl
      all_goals simp
  | log cat t =>
    simp only [Ctx.step, Ctx.log] at hs
    cases hl : c.logOn
    · simp only [hl, Bool.false_and, Bool.false_eq_true, if_false, Option.some.injEq] at hs
      subst hs
      exact ⟨l, ⟨h1, h2⟩, fun os => by simp [counted, hl]⟩
    · refine ⟨l ++ [cat.tag ++ t], ?_, fun os => ?_⟩
      · by_cases hn : c.num < maxMessages
        · simp only [hl, hn, decide_true, Bool.and_self, if_true, Option.some.injEq] at hs
          subst hs
          have hlen : c.num = l.length := by omega
          refine ⟨by simp only [List.length_append, List.length_singleton]; omega, ?_⟩
          intro i hi
          simp only at hi ⊢
          by_cases he : i = c.num
          · subst he
            rw [upd_same, hlen]; simp
          · rw [upd_ne _ _ he, List.getElem?_append_left (by omega)]
            exact h2 i (by omega)
        · simp only [hl, hn, decide_false, Bool.and_false, Bool.false_eq_true, if_false,
            Option.some.injEq] at hs
          subst hs
          refine ⟨by simp only [List.length_append, List.length_singleton]; omega, ?_⟩
          intro i hi
          rw [List.getElem?_append_left (by omega)]
          exact h2 i hi
      · have : c'.logOn = true := by
          split at hs
          · split at hs
            · simp only [Option.some.injEq] at hs; subst hs; exact hl
            · simp at hs
          · simp only [Option.some.injEq] at hs; subst hs; exact hl
        rw [this]; simp [counted, entry_tag]

theorem logInv_run : ∀ (os : List CtxOp) (c c' : Ctx) (l : List String), LogInv c l →
    c.run os = some c' → LogInv c' (counted c.logOn l os) := by
  intro os
  induction os with
  | nil =>
    intro c c' l h hr
    simp only [Ctx.run, Option.some.injEq] at hr
    subst hr
    exact h
  | cons o os ih =>
    intro c c' l h hr
    simp only [Ctx.run, Option.bind_eq_some_iff] at hr
    obtain ⟨c1, h1, h2⟩ := hr
    obtain ⟨l', hi, hc⟩ := logInv_step c c1 o l h h1
    rw [hc os]
    exact ih c1 c' l' hi h2

/-- **C61** After any sequence of calls the log (its count, its entries, the dump) is the first 1000
messages logged while logging was on since the last effective reset; no call ever panics. -/
theorem log_history (state : Bool) (os : List CtxOp) :
    ∃ c, (Ctx.new state).run os = some c ∧
      c.logCount = min (counted state [] os).length 1000 ∧
      (∀ i, i < c.logCount → c.logText i = (counted state [] os)[i]?) ∧
      c.dumpLog = (counted state [] os).take 1000 := by
  obtain ⟨c, hc⟩ := run_total os (Ctx.new state)
  obtain ⟨h1, h2⟩ := logInv_run os (Ctx.new state) c [] ⟨by simp [Ctx.new], by simp [Ctx.new]⟩ hc
  have hm : maxMessages = 1000 := rfl
  have hn : (Ctx.new state).logOn = state := rfl
  rw [hn] at h1 h2
  rw [hm] at h1
  refine ⟨c, hc, h1, fun i hi => ?_, ?_⟩
  · have hi' : i < c.num := hi
    unfold Ctx.logText
    rw [if_pos (by rw [hm]; omega)]
    exact (h2 i hi).symm
  · unfold Ctx.dumpLog
    apply List.ext_getElem?
    intro i
    by_cases hi : i < c.num
    · rw [List.getElem?_map, List.getElem?_range hi, List.getElem?_take_of_lt (by omega)]
      exact (h2 i hi).symm
    · rw [List.getElem?_eq_none (by simpa using Nat.le_of_not_lt hi),
        List.getElem?_eq_none (by rw [List.length_take]; omega)]

/-- **C61** ResetLog empties the log exactly when logging is on. -/
theorem resetLog_empties (c : Ctx) :
    c.resetLog.dumpLog = if c.logOn then [] else c.dumpLog := by
  unfold Ctx.resetLog
  split <;> rfl

/-- A history with a reset and a message logged while logging is off. -/
example : counted true [] [.log .progress "a", .resetLog, .log .error "b", .enableLog false,
    .log .warning "c", .resetLog, .enableLog true, .log .warning "d"] = ["ERR b", "WARN d"] := by
  decide

theorem timers_run (l : Nat) : ∀ (os : List CtxOp) (c c' : Ctx) (ds : List Int),
    c.acc l = ds.sum → c.run os = some c' →
    c'.acc l = (laps l c.timerOn (c.start l) ds os).sum ∧ c'.timerOn = timersOn c.timerOn os := by
  intro os
  induction os with
  | nil =>
    intro c c' ds h hr
    simp only [Ctx.run, Option.some.injEq] at hr
    subst hr
    exact ⟨h, rfl⟩
  | cons o os ih =>
    intro c c' ds h hr
    simp only [Ctx.run, Option.bind_eq_some_iff] at hr
    obtain ⟨c1, h1, h2⟩ := hr
    cases o with
    | enableLog s =>
      simp only [Ctx.step, Option.some.injEq] at h1
      subst h1
      have := ih _ c' ds (by exact h) h2
      exact this
    | enableTimer s =>
      simp only [Ctx.step, Option.some.injEq] at h1
      subst h1
      have := ih _ c' ds (by exact h) h2
      exact this
    | resetLog =>
      simp only [Ctx.step, Option.some.injEq, Ctx.resetLog] at h1
      subst h1
      rw [laps, timersOn]
      · have := ih _ c' ds (by split <;> exact h) h2
        split at this <;> exact this
      all_goals simp
    | log cat t =>
      simp only [Ctx.step, Ctx.log] at h1
      rw [laps, timersOn]
      · split at h1
        · split at h1
          · simp only [Option.some.injEq] at h1
            subst h1
            have := ih _ c' ds (by exact h) h2
            exact this
          · simp at h1
        · simp only [Option.some.injEq] at h1
          subst h1
          have := ih _ c' ds (by exact h) h2
          exact this
      all_goals simp
    | resetTimers =>
      simp only [Ctx.step, Option.some.injEq, Ctx.resetTimers] at h1
      subst h1
      rw [laps, timersOn]
      · cases ht : c.timerOn
        · simp only [ht, Bool.false_eq_true, if_false] at h2 ⊢
          have := ih _ c' ds (by exact h) h2
          simpa [ht] using this
        · simp only [ht, if_true] at h2 ⊢
          have := ih _ c' [] (by simp) h2
          simpa [ht] using this
      all_goals simp
    | startTimer k now =>
      simp only [Ctx.step, Option.some.injEq, Ctx.startTimer] at h1
      subst h1
      rw [laps, timersOn]
      · cases ht : c.timerOn
        · simp only [ht, Bool.false_eq_true, if_false, false_and] at h2 ⊢
          have := ih _ c' ds (by exact h) h2
          simpa [ht] using this
        · simp only [ht, if_true, true_and] at h2 ⊢
          have := ih _ c' ds (by exact h) h2
          by_cases hk : k = l
          · subst hk
            simp only [upd_same] at this
            rw [if_pos rfl]; simpa [ht] using this
          · simp only [upd_ne _ _ (Ne.symm hk)] at this
            rw [if_neg hk]; simpa [ht] using this
      all_goals simp
    | stopTimer k now =>
      simp only [Ctx.step, Option.some.injEq, Ctx.stopTimer] at h1
      rw [laps, timersOn]
      · cases ht : c.timerOn
        · simp only [ht, Bool.false_eq_true, if_false, false_and] at h1 ⊢
          subst h1
          have := ih _ c' ds (by exact h) h2
          simpa [ht] using this
        · simp only [ht, if_true, true_and] at h1 ⊢
          have e : c1 = { c with acc := upd c.acc k (c.acc k + (now - c.start k)) } := by
            rw [← h1]
            split
            · rename_i h0; rw [h0, Int.zero_add, ht]
            · rw [ht]
          subst e
          by_cases hk : k = l
          · subst hk
            have := ih _ c' (ds ++ [now - c.start k]) (by simp [upd_same, h]) h2
            rw [if_pos rfl]; simpa [ht] using this
          · have := ih _ c' ds (by simp only; rw [upd_ne _ _ (Ne.symm hk)]; exact h) h2
            rw [if_neg hk]; simpa [ht] using this
      all_goals simp

/-- **C90** (partial) The accumulated time of a timer is the sum of its laps since the last reset;
other timers do not matter. With timers disabled it is 0. -/
theorem accumulated_laps_partial (state : Bool) (os : List CtxOp) (l : Nat) :
    ∃ c, (Ctx.new state).run os = some c ∧
      c.accumulated l = if timersOn state os then (laps l state 0 [] os).sum else 0 := by
  obtain ⟨c, hc⟩ := run_total os (Ctx.new state)
  obtain ⟨h1, h2⟩ := timers_run l os (Ctx.new state) c [] rfl hc
  refine ⟨c, hc, ?_⟩
  unfold Ctx.accumulated
  rw [h2, h1]
  rfl

/-- The documentation: "or -1 if timers are disabled or the timer has never been started". -/
def AccumulatedDoc : Prop := ∀ (state : Bool) (os : List CtxOp) (l : Nat) (c : Ctx),
  (Ctx.new state).run os = some c →
  (timersOn state os = false ∨ ∀ now, CtxOp.startTimer l now ∉ os) → c.accumulated l = -1

/-- **C90** The documented -1 is never returned: 0 for a fresh timer. -/
theorem accumulated_documented_refuted : ¬ AccumulatedDoc := by
  intro h
  have := h true [] 0 (Ctx.new true) rfl (.inr (by simp))
  simp [Ctx.accumulated, Ctx.new] at this

/-- Two laps of timer 3 around a reset of nothing. -/
example : laps 3 true 0 [] [.startTimer 3 10, .startTimer 4 11, .stopTimer 4 20, .stopTimer 3 25,
    .startTimer 3 100, .stopTimer 3 101] = [15, 1] := by decide

end Verif.Recast
