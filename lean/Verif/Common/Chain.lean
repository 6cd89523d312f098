/-
Singly linked lists threaded through an array by `next` indices, and the loops that walk them.
Used for the tile table, the node pool, the link pool and the span pool.
-/
import Mathlib.Data.List.Nodup
import Mathlib.Data.List.Perm.Subperm
import Mathlib.Data.List.Range
import Mathlib.Data.Fintype.Card

namespace Verif

/-- Array store on an array seen as a function from indices. -/
def upd {α : Type} (f : Nat → α) (i : Nat) (v : α) : Nat → α := fun j => if j = i then v else f j

@[simp] theorem upd_same {α : Type} (f : Nat → α) (i : Nat) (v : α) : upd f i v i = v := by
  simp [upd]

theorem upd_ne {α : Type} (f : Nat → α) {i j : Nat} (v : α) (h : j ≠ i) : upd f i v j = f j := by
  simp [upd, h]

/-- `Chain next h l`: following `next` from `h` visits exactly the indices `l`, in order, and then
reaches the null pointer. -/
def Chain (next : Nat → Option Nat) : Option Nat → List Nat → Prop
  | h, [] => h = none
  | h, a :: l => h = some a ∧ Chain next (next a) l

namespace Chain

variable {next next' : Nat → Option Nat} {h : Option Nat} {l l' : List Nat}

theorem none_iff : Chain next none l ↔ l = [] := by
  cases l <;> simp [Chain]

theorem some_iff {a : Nat} : Chain next (some a) l ↔ ∃ t, l = a :: t ∧ Chain next (next a) t := by
  cases l with
  | nil => simp [Chain]
  | cons b t =>
    simp only [Chain, Option.some.injEq, List.cons.injEq]
    constructor
    · rintro ⟨rfl, ht⟩
      exact ⟨t, ⟨rfl, rfl⟩, ht⟩
    · rintro ⟨t', ⟨rfl, rfl⟩, ht⟩
      exact ⟨rfl, ht⟩

theorem det (h1 : Chain next h l) (h2 : Chain next h l') : l = l' := by
  induction l generalizing h l' with
  | nil =>
    simp only [Chain] at h1
    subst h1
    exact (none_iff.1 h2).symm
  | cons a l ih =>
    obtain ⟨rfl, h1⟩ := h1
    obtain ⟨t, rfl, h3⟩ := some_iff.1 h2
    rw [ih h1 h3]

theorem congr (hc : Chain next h l) (he : ∀ a ∈ l, next' a = next a) : Chain next' h l := by
  induction l generalizing h with
  | nil => exact hc
  | cons a l ih =>
    refine ⟨hc.1, ?_⟩
    rw [he a (by simp)]
    exact ih hc.2 fun b hb => he b (by simp [hb])

theorem upd_notMem (hc : Chain next h l) {i : Nat} {v : Option Nat} (hi : i ∉ l) :
    Chain (upd next i v) h l :=
  hc.congr fun a ha => upd_ne _ _ (by rintro rfl; exact hi ha)

theorem append_iff {l₁ l₂ : List Nat} {a : Nat} :
    Chain next h (l₁ ++ a :: l₂) → Chain next (some a) (a :: l₂) := by
  intro hc
  induction l₁ generalizing h with
  | nil => obtain ⟨rfl, hc⟩ := hc; exact ⟨rfl, hc⟩
  | cons b l₁ ih => exact ih hc.2

theorem nodup (hc : Chain next h l) : l.Nodup := by
  induction l generalizing h with
  | nil => exact List.nodup_nil
  | cons a l ih =>
    rw [List.nodup_cons]
    refine ⟨?_, ih hc.2⟩
    intro ha
    obtain ⟨l₁, l₂, rfl⟩ := List.append_of_mem ha
    have h2 : Chain next (some a) (a :: l₂) := append_iff hc.2
    have h1 : Chain next (some a) (a :: (l₁ ++ a :: l₂)) := ⟨rfl, hc.2⟩
    have := congrArg List.length (h1.det h2)
    simp at this
    omega

theorem push (hc : Chain next h l) {a : Nat} (ha : a ∉ l) :
    Chain (upd next a h) (some a) (a :: l) := by
  refine ⟨rfl, ?_⟩
  rw [upd_same]
  exact hc.upd_notMem ha

theorem tail {a : Nat} (hc : Chain next h (a :: l)) : Chain next (next a) l := hc.2

/-- Bypassing the element after `p`. -/
theorem bypass {l₁ l₂ : List Nat} {p a : Nat} (hc : Chain next h (l₁ ++ p :: a :: l₂)) :
    Chain (upd next p (next a)) h (l₁ ++ p :: l₂) := by
  have hnd := hc.nodup
  induction l₁ generalizing h with
  | nil =>
    obtain ⟨rfl, h1, h2⟩ := hc
    refine ⟨rfl, ?_⟩
    rw [upd_same]
    apply h2.upd_notMem
    simp only [List.nil_append, List.nodup_cons] at hnd
    intro hp
    exact hnd.1 (by simp [hp])
  | cons b l₁ ih =>
    obtain ⟨rfl, hc⟩ := hc
    simp only [List.cons_append, List.nodup_cons] at hnd
    refine ⟨rfl, ?_⟩
    rw [upd_ne _ _ (by rintro rfl; exact hnd.1 (by simp))]
    exact ih hc hnd.2

theorem length_le (hc : Chain next h l) {n : Nat} (hn : ∀ a ∈ l, a < n) : l.length ≤ n := by
  have hs : l ⊆ List.range n := fun a ha => List.mem_range.2 (hn a ha)
  have := (List.subperm_of_subset hc.nodup hs).length_le
  simpa using this

end Chain

/-! ## Loops over chains

Go's `for p != nil { ...; p = p.next }`. The fuel bounds the number of iterations; running out of
fuel (`none`) stands for a loop that does not terminate within that bound. -/

/-- `for p != nil { if test(p) { return p }; p = next[p] }; return nil`. -/
def walkFind (next : Nat → Option Nat) (test : Nat → Bool) : Nat → Option Nat → Option (Option Nat)
  | _, none => some none
  | 0, some _ => none
  | f + 1, some a => if test a then some (some a) else walkFind next test f (next a)

theorem walkFind_eq {next : Nat → Option Nat} {test : Nat → Bool} {f : Nat} {h : Option Nat}
    {l : List Nat} (hc : Chain next h l) (hf : l.length ≤ f) :
    walkFind next test f h = some (l.find? test) := by
  induction l generalizing f h with
  | nil =>
    simp only [Chain] at hc
    subst hc
    cases f <;> rfl
  | cons a l ih =>
    obtain ⟨rfl, hc⟩ := hc
    cases f with
    | zero => simp at hf
    | succ f =>
      simp only [walkFind, List.find?_cons]
      cases test a with
      | true => rfl
      | false =>
        simp only [Bool.false_eq_true, if_false]
        exact ih hc (by simpa using hf)

/-- `for p != nil { if test(p) { out = append(out, p) }; p = next[p] }`. -/
def walkCollect (next : Nat → Option Nat) (test : Nat → Bool) :
    Nat → Option Nat → Option (List Nat)
  | _, none => some []
  | 0, some _ => none
  | f + 1, some a =>
    (walkCollect next test f (next a)).map fun r => if test a then a :: r else r

theorem walkCollect_eq {next : Nat → Option Nat} {test : Nat → Bool} {f : Nat} {h : Option Nat}
    {l : List Nat} (hc : Chain next h l) (hf : l.length ≤ f) :
    walkCollect next test f h = some (l.filter test) := by
  induction l generalizing f h with
  | nil =>
    simp only [Chain] at hc
    subst hc
    cases f <;> rfl
  | cons a l ih =>
    obtain ⟨rfl, hc⟩ := hc
    cases f with
    | zero => simp at hf
    | succ f =>
      simp only [walkCollect, List.filter_cons]
      rw [ih hc (by simpa using hf)]
      cases test a <;> rfl

/-- `prev := nil; for cur != nil && cur != target { prev = cur; cur = next[cur] }`: the final
`(prev, cur)`. -/
def walkTo (next : Nat → Option Nat) (target : Nat) :
    Nat → Option Nat → Option Nat → Option (Option Nat × Option Nat)
  | _, prev, none => some (prev, none)
  | 0, _, some _ => none
  | f + 1, prev, some a =>
    if a = target then some (prev, some a) else walkTo next target f (some a) (next a)

theorem walkTo_notMem {next : Nat → Option Nat} {t : Nat} {f : Nat} {prev h : Option Nat}
    {l : List Nat} (hc : Chain next h l) (hf : l.length ≤ f) (ht : t ∉ l) :
    ∃ p, walkTo next t f prev h = some (p, none) := by
  induction l generalizing f h prev with
  | nil =>
    simp only [Chain] at hc
    subst hc
    cases f <;> exact ⟨prev, rfl⟩
  | cons a l ih =>
    obtain ⟨rfl, hc⟩ := hc
    cases f with
    | zero => simp at hf
    | succ f =>
      simp only [walkTo]
      rw [if_neg (by rintro rfl; exact ht (by simp))]
      exact ih hc (by simpa using hf) (fun hm => ht (by simp [hm]))

theorem walkTo_mem {next : Nat → Option Nat} {t : Nat} {f : Nat} {prev h : Option Nat}
    {l₁ l₂ : List Nat} (hc : Chain next h (l₁ ++ t :: l₂)) (hf : (l₁ ++ t :: l₂).length ≤ f) :
    walkTo next t f prev h
      = some (match l₁.getLast? with | none => prev | some p => some p, some t) := by
  induction l₁ generalizing f h prev with
  | nil =>
    obtain ⟨rfl, hc⟩ := hc
    cases f with
    | zero => simp at hf
    | succ f => simp [walkTo]
  | cons a l₁ ih =>
    have hnd := hc.nodup
    obtain ⟨rfl, hc⟩ := hc
    cases f with
    | zero => simp at hf
    | succ f =>
      simp only [walkTo]
      have hat : a ≠ t := by
        rintro rfl
        rw [List.cons_append, List.nodup_cons] at hnd
        exact hnd.1 (by simp)
      rw [if_neg hat]
      have := ih (f := f) (prev := some a) hc (by simpa using hf)
      rw [this]
      congr 2
      rw [List.getLast?_cons]
      cases l₁.getLast? <;> rfl

theorem walkTo_mem' {next : Nat → Option Nat} {t : Nat} {f : Nat} {h : Option Nat}
    {l₁ l₂ : List Nat} (hc : Chain next h (l₁ ++ t :: l₂)) (hf : (l₁ ++ t :: l₂).length ≤ f) :
    walkTo next t f none h = some (l₁.getLast?, some t) := by
  rw [walkTo_mem hc hf]
  cases l₁.getLast? <;> rfl

/-- Unlinking a found element: `if prev == nil { head = next[t] } else { next[prev] = next[t] }`. -/
def unlinkAt (next : Nat → Option Nat) (head prev : Option Nat) (t : Nat) :
    (Nat → Option Nat) × Option Nat :=
  match prev with
  | none => (next, next t)
  | some p => (upd next p (next t), head)

theorem unlinkAt_chain {next : Nat → Option Nat} {h : Option Nat} {t : Nat} {l₁ l₂ : List Nat}
    (hc : Chain next h (l₁ ++ t :: l₂)) :
    Chain (unlinkAt next h l₁.getLast? t).1 (unlinkAt next h l₁.getLast? t).2 (l₁ ++ l₂) := by
  rcases List.eq_nil_or_concat l₁ with rfl | ⟨l₀, p, rfl⟩
  · obtain ⟨rfl, hc⟩ := hc
    exact hc
  · simp only [List.concat_eq_append, List.getLast?_append, List.getLast?_singleton,
      Option.some_or, unlinkAt, List.append_assoc, List.singleton_append] at hc ⊢
    exact hc.bypass

/-- Unlinking only writes `next` of elements of the list. -/
theorem unlinkAt_frame {next : Nat → Option Nat} {h : Option Nat} {t : Nat} {l₁ : List Nat}
    {i : Nat} (hi : i ∉ l₁) : (unlinkAt next h l₁.getLast? t).1 i = next i := by
  rcases List.eq_nil_or_concat l₁ with rfl | ⟨l₀, p, rfl⟩
  · rfl
  · simp only [List.concat_eq_append, List.getLast?_append, List.getLast?_singleton,
      Option.some_or, unlinkAt]
    exact upd_ne _ _ (by rintro rfl; exact hi (by simp))

theorem unlinkAt_mono {next : Nat → Option Nat} {h : Option Nat} {t : Nat} {p : Option Nat} :
    (unlinkAt next h p t).1 t = next t ∨ p = some t := by
  cases p with
  | none => exact Or.inl rfl
  | some q =>
    by_cases hq : t = q
    · right; rw [hq]
    · left; exact upd_ne _ _ hq

end Verif
