/-
Byte buffers, little-endian words and bounds-checked writes, as used by detour/structs.go and
detour/tile.go (`binary.LittleEndian.PutUint32(dst[off:], x)` etc.).
-/
import Mathlib.Tactic.Ring
import Mathlib.Data.List.Basic

namespace Verif.Detour

abbrev Byte := BitVec 8
abbrev U16 := BitVec 16
abbrev U32 := BitVec 32
abbrev Bytes := List Byte

/-- Bytes of `binary.LittleEndian.PutUint32` (Go standard library). -/
def le32 (x : U32) : Bytes :=
  [BitVec.ofNat 8 x.toNat, BitVec.ofNat 8 (x.toNat / 2 ^ 8), BitVec.ofNat 8 (x.toNat / 2 ^ 16),
    BitVec.ofNat 8 (x.toNat / 2 ^ 24)]

/-- Bytes of `binary.LittleEndian.PutUint16` (Go standard library). -/
def le16 (x : U16) : Bytes :=
  [BitVec.ofNat 8 x.toNat, BitVec.ofNat 8 (x.toNat / 2 ^ 8)]

/-- `binary.LittleEndian.Uint32(src)`; panics (`none`) on fewer than 4 bytes. -/
def rd32 : Bytes → Option U32
  | a :: b :: c :: d :: _ =>
    some (BitVec.ofNat 32 (a.toNat + b.toNat * 2 ^ 8 + c.toNat * 2 ^ 16 + d.toNat * 2 ^ 24))
  | _ => none

/-- `binary.LittleEndian.Uint16(src)`; panics (`none`) on fewer than 2 bytes. -/
def rd16 : Bytes → Option U16
  | a :: b :: _ => some (BitVec.ofNat 16 (a.toNat + b.toNat * 2 ^ 8))
  | _ => none

/-- `src[off]`; panics (`none`) out of range. -/
def rd8 (src : Bytes) : Option Byte := src.head?

theorem rd32_le32 (x : U32) (r : Bytes) : rd32 (le32 x ++ r) = some x := by
  simp only [le32, List.cons_append, List.nil_append, rd32, BitVec.toNat_ofNat]
  congr 1
  apply BitVec.eq_of_toNat_eq
  rw [BitVec.toNat_ofNat]
  have := x.isLt
  omega

theorem rd16_le16 (x : U16) (r : Bytes) : rd16 (le16 x ++ r) = some x := by
  simp only [le16, List.cons_append, List.nil_append, rd16, BitVec.toNat_ofNat]
  congr 1
  apply BitVec.eq_of_toNat_eq
  rw [BitVec.toNat_ofNat]
  have := x.isLt
  omega

theorem le32_rd32 {s : Bytes} {x : U32} (h : rd32 s = some x) : s = le32 x ++ s.drop 4 := by
  match s, h with
  | a :: b :: c :: d :: r, h =>
    simp only [rd32, Option.some.injEq] at h
    subst h
    simp only [le32, List.drop_succ_cons, List.drop_zero, List.cons_append, List.nil_append,
      List.cons.injEq, and_true]
    have ha := a.isLt
    have hb := b.isLt
    have hc := c.isLt
    have hd := d.isLt
    refine ⟨?_, ?_, ?_, ?_⟩ <;> apply BitVec.eq_of_toNat_eq <;>
      simp only [BitVec.toNat_ofNat] <;> omega

@[simp] theorem length_le32 (x : U32) : (le32 x).length = 4 := rfl
@[simp] theorem length_le16 (x : U16) : (le16 x).length = 2 := rfl

/-- Writing `bs` at `dst[off:]`; a Go slice or index expression out of range panics (`none`). -/
def putAt (dst : Bytes) (off : Nat) (bs : Bytes) : Option Bytes :=
  if off + bs.length ≤ dst.length then some (dst.take off ++ bs ++ dst.drop (off + bs.length))
  else none

theorem putAt_append (pre rest bs : Bytes) (h : bs.length ≤ rest.length) :
    putAt (pre ++ rest) pre.length bs = some (pre ++ bs ++ rest.drop bs.length) := by
  unfold putAt
  have h1 : pre.length + bs.length ≤ (pre ++ rest).length := by simp; omega
  rw [if_pos h1, List.take_left, List.drop_append]
  simp

theorem putAt_append' (pre rest bs : Bytes) (off : Nat) (ho : off = pre.length)
    (h : bs.length ≤ rest.length) :
    putAt (pre ++ rest) off bs = some (pre ++ bs ++ rest.drop bs.length) := by
  subst ho; exact putAt_append pre rest bs h

theorem putAt_length {d o b r} (h : putAt d o b = some r) : r.length = d.length := by
  unfold putAt at h
  split at h
  · rename_i hl
    simp only [Option.some.injEq] at h
    subst h
    simp
    omega
  · simp at h

/-- A run of writes at absolute offsets, in program order. -/
def putAll (dst : Bytes) : List (Nat × Bytes) → Option Bytes
  | [] => some dst
  | (o, b) :: ws => (putAt dst o b).bind fun d => putAll d ws

/-- The writes are laid out back to back starting at `base`. -/
def Consecutive (base : Nat) : List (Nat × Bytes) → Prop
  | [] => True
  | (o, b) :: ws => o = base ∧ Consecutive (base + b.length) ws

/-- The bytes of a list of writes. -/
def payload (ws : List (Nat × Bytes)) : Bytes := ws.flatMap (·.2)

theorem putAll_consecutive (ws : List (Nat × Bytes)) (pre rest : Bytes)
    (hc : Consecutive pre.length ws) (hl : (payload ws).length ≤ rest.length) :
    putAll (pre ++ rest) ws = some (pre ++ payload ws ++ rest.drop (payload ws).length) := by
  induction ws generalizing pre rest with
  | nil => simp [putAll, payload]
  | cons w ws ih =>
    obtain ⟨o, b⟩ := w
    obtain ⟨ho, hc⟩ := hc
    simp only [payload, List.flatMap_cons, List.length_append] at hl
    have hb : b.length ≤ rest.length := by omega
    simp only [putAll]
    rw [putAt_append' pre rest b o ho hb]
    simp only [Option.bind_some]
    rw [ih (pre ++ b) (rest.drop b.length) (by rw [List.length_append]; exact hc)
      (by rw [List.length_drop]; simp only [payload]; omega)]
    simp [payload, List.drop_drop]

theorem putAll_short (ws : List (Nat × Bytes)) (dst r : Bytes) (h : putAll dst ws = some r) :
    r.length = dst.length := by
  induction ws generalizing dst with
  | nil => simp [putAll] at h; rw [h]
  | cons w ws ih =>
    obtain ⟨o, b⟩ := w
    simp only [putAll, Option.bind_eq_some_iff] at h
    obtain ⟨d, h1, h2⟩ := h
    rw [ih d h2, putAt_length h1]

/-- Words written back to back are read back by `rd32` at their offset. -/
theorem rd32_words (ws : List U32) (k : Nat) (w : U32) (r : Bytes) (h : ws[k]? = some w) :
    rd32 ((ws.flatMap le32 ++ r).drop (4 * k)) = some w := by
  induction ws generalizing k with
  | nil => simp at h
  | cons v ws ih =>
    cases k with
    | zero =>
      simp at h
      subst h
      simp only [Nat.mul_zero, List.drop_zero, List.flatMap_cons, List.append_assoc]
      exact rd32_le32 _ _
    | succ k =>
      simp only [List.getElem?_cons_succ] at h
      have := ih k h
      rw [List.flatMap_cons, List.append_assoc]
      have e : 4 * (k + 1) = (le32 v).length + 4 * k := by simp; ring
      rw [e, ← List.drop_drop, List.drop_left]
      exact this

theorem length_words (ws : List U32) : (ws.flatMap le32).length = 4 * ws.length := by
  induction ws with
  | nil => rfl
  | cons w ws ih => simp [ih]; ring

/-- Reading words one after another: any byte string of `4*n` bytes is the encoding of its words. -/
theorem words_of_bytes (n : Nat) (s : Bytes) (h : 4 * n ≤ s.length) :
    ∃ ws : List U32, ws.length = n ∧ s = ws.flatMap le32 ++ s.drop (4 * n) := by
  induction n generalizing s with
  | zero => exact ⟨[], rfl, by simp⟩
  | succ n ih =>
    match s, h with
    | [], h => simp at h
    | [_], h => simp at h; omega
    | [_, _], h => simp at h; omega
    | [_, _, _], h => simp at h; omega
    | a :: b :: c :: d :: r, h =>
      have hr : 4 * n ≤ r.length := by simp at h; omega
      obtain ⟨ws, hl, hw⟩ := ih r hr
      obtain ⟨x, hx⟩ : ∃ x, rd32 (a :: b :: c :: d :: r) = some x := ⟨_, rfl⟩
      have e := le32_rd32 hx
      refine ⟨x :: ws, by simp [hl], ?_⟩
      have e2 : (a :: b :: c :: d :: r).drop 4 = r := rfl
      rw [e2] at e
      conv_lhs => rw [e, hw]
      rw [List.flatMap_cons, List.append_assoc]
      congr 2

end Verif.Detour
