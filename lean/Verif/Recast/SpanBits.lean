/-
Packed neighbour connections and direction tables (recast/recast.go:221-291).

Simplification: `dir` is an int32 whose documented range is 0..3; shifts by `dir * 6` are modelled for
every `dir` below 5 (25 bits and more are still inside the word); the tables take any int32.
-/
import Verif.Detour.Codec
import Mathlib.Data.Fintype.Basic
import Mathlib.Data.List.FinRange

namespace Verif.Recast
open Verif.Detour

/-! ## Model -/

/-- `SetCon` (recast/recast.go:238-242) on the `Con` word; `i` is an int32. -/
def setCon (con : U32) (dir : Nat) (i : U32) : U32 :=
  (con ^^^ (0x3f#32 <<< (dir * 6))) ||| ((i &&& 0x3f#32) <<< (dir * 6))

/-- `GetCon` (recast/recast.go:252-255). -/
def getCon (con : U32) (dir : Nat) : U32 := (con >>> (dir * 6)) &&& 0x3f#32

/-- `notConnected` (recast/constants.go). -/
def notConnected : U32 := 0x3f#32

/-- `xOffset` (recast/recast.go:227) indexed as in `GetDirOffsetX` (recast/recast.go:265-267). -/
def dirX (dir : U32) : Int := match (dir &&& 3#32).toNat with | 0 => -1 | 1 => 0 | 2 => 1 | _ => 0

/-- `yOffset` (recast/recast.go:228) indexed as in `GetDirOffsetY` (recast/recast.go:277-279). -/
def dirY (dir : U32) : Int := match (dir &&& 3#32).toNat with | 0 => 0 | 1 => 1 | 2 => 0 | _ => -1

/-- `dirOffset` indexed as in `GetDirForOffset` (recast/recast.go:229, 289-291); `none` is an index out
of range. `(y+1)<<1` is `2*(y+1)`. -/
def dirFor (x y : Int) : Option Int :=
  if 2 * (y + 1) + x < 0 then none else ([3, 0, -1, 2, 1] : List Int)[(2 * (y + 1) + x).toNat]?

/-! ## Properties -/

theorem and63_testBit (j : Nat) : (0x3f#32).getLsbD j = decide (j < 6) := by
  by_cases h : j < 32
  · have : ∀ k < 32, (0x3f#32).getLsbD k = decide (k < 6) := by decide
    exact this j h
  · rw [BitVec.getLsbD_of_ge _ _ (by omega)]
    simp; omega

theorem getCon_bit (con : U32) (dir j : Nat) :
    (getCon con dir).getLsbD j = (con.getLsbD (dir * 6 + j) && decide (j < 6)) := by
  unfold getCon
  rw [BitVec.getLsbD_and, and63_testBit, BitVec.getLsbD_ushiftRight]

theorem setCon_bit (con : U32) (dir : Nat) (i : U32) (j : Nat) (hj : j < 32) :
    (setCon con dir i).getLsbD j =
      if dir * 6 ≤ j ∧ j < dir * 6 + 6 then (!con.getLsbD j || i.getLsbD (j - dir * 6)) else con.getLsbD j := by
  unfold setCon
  rw [BitVec.getLsbD_or, BitVec.getLsbD_xor, BitVec.getLsbD_shiftLeft, BitVec.getLsbD_shiftLeft,
    BitVec.getLsbD_and, and63_testBit]
  by_cases h1 : j < dir * 6
  · rw [if_neg (by omega)]
    simp [h1]
  · by_cases h2 : j < dir * 6 + 6
    · rw [if_pos (by omega)]
      have : j - dir * 6 < 6 := by omega
      simp [h1, hj, this]
    · rw [if_neg (by omega)]
      have : ¬ j - dir * 6 < 6 := by omega
      simp [h1, this]

/-- What `SetCon` really stores: the old connection is inverted and or-ed with the new one. -/
theorem getCon_setCon (con : U32) {dir : Nat} (hd : dir < 4) (i : U32) :
    getCon (setCon con dir i) dir = (~~~ (getCon con dir) &&& 0x3f#32) ||| (i &&& 0x3f#32) := by
  apply BitVec.eq_of_getLsbD_eq
  intro j hj
  rw [getCon_bit, BitVec.getLsbD_or, BitVec.getLsbD_and, BitVec.getLsbD_and, BitVec.getLsbD_not,
    and63_testBit, getCon_bit]
  by_cases h6 : j < 6
  · rw [setCon_bit _ _ _ _ (by omega), if_pos (by omega)]
    simp [h6, hj]
  · simp [h6]

/-- **C38** (partial). Setting a direction never disturbs the other three, for every word. -/
theorem setCon_other_partial (con : U32) {dir e : Nat} (he : e < 4) (hne : e ≠ dir) (i : U32) :
    getCon (setCon con dir i) e = getCon con e := by
  apply BitVec.eq_of_getLsbD_eq
  intro j hj
  rw [getCon_bit, getCon_bit]
  by_cases h6 : j < 6
  · rw [setCon_bit _ _ _ _ (by omega), if_neg (by omega)]
  · simp [h6]

/-- **C38** (partial). A connection reads back as written when the direction was `notConnected` before
- the state in which `BuildCompactHeightfield` writes it (recast/heightfield.go:336, 364). Missing: the
same for any other old value; that is false, see `setCon_refuted`. -/
theorem setCon_fresh_partial (con : U32) {dir : Nat} (hd : dir < 4) (i : U32)
    (h : getCon con dir = notConnected) : getCon (setCon con dir i) dir = i &&& 0x3f#32 := by
  rw [getCon_setCon con hd i, h]
  have : (~~~ notConnected &&& 0x3f#32) = 0#32 := by decide
  rw [this, BitVec.zero_or]

/-- **C38** (partial). Writing `notConnected` over a zero field (the state of a new span) works too. -/
theorem setCon_reset_partial (con : U32) {dir : Nat} (hd : dir < 4) :
    getCon (setCon con dir notConnected) dir = notConnected := by
  rw [getCon_setCon con hd]
  generalize getCon con dir = g
  apply BitVec.eq_of_getLsbD_eq
  intro j hj
  unfold notConnected
  rw [BitVec.getLsbD_or, BitVec.getLsbD_and, BitVec.getLsbD_and, and63_testBit]
  cases decide (j < 6) <;> simp

/-- **C38** (refuted in full). On a new span (all bits zero) writing connection 0 stores 63, that is
`notConnected`; and overwriting a connection mixes old and new value. -/
theorem setCon_refuted : getCon (setCon 0#32 0 0#32) 0 = notConnected ∧
    ∃ con i : U32, i.toNat < 63 ∧ getCon (setCon (setCon (setCon con 1 notConnected) 1 1#32) 1 i) 1 ≠ i :=
  ⟨by decide, 0#32, 2#32, by decide, by decide⟩

/-- When exactly a written connection reads back. -/
theorem setCon_reads_back_iff (con : U32) {dir : Nat} (hd : dir < 4) (i : U32) :
    getCon (setCon con dir i) dir = i &&& 0x3f#32 ↔ ∀ j < 6, con.getLsbD (dir * 6 + j) = true ∨ i.getLsbD j = true := by
  rw [getCon_setCon con hd i]
  constructor
  · intro h j hj
    have := congrArg (fun w => w.getLsbD j) h
    simp only [BitVec.getLsbD_or, BitVec.getLsbD_and, BitVec.getLsbD_not, and63_testBit, getCon_bit] at this
    have h32 : j < 32 := by omega
    simp only [hj, h32, decide_true, Bool.and_true, Bool.true_and] at this
    cases h1 : con.getLsbD (dir * 6 + j) <;> cases h2 : i.getLsbD j <;> simp_all
  · intro h
    apply BitVec.eq_of_getLsbD_eq
    intro j hj
    simp only [BitVec.getLsbD_or, BitVec.getLsbD_and, BitVec.getLsbD_not, and63_testBit, getCon_bit]
    by_cases h6 : j < 6
    · simp only [hj, h6, decide_true, Bool.and_true, Bool.true_and]
      rcases h j h6 with h | h <;> simp [h]
    · simp [h6]

/-- A fresh connection among other connections. -/
example : getCon (setCon (setCon (setCon 0#32 2 notConnected) 2 17#32) 0 notConnected) 2 = 17#32 := by decide

theorem and3_cases (d : U32) : d &&& 3#32 = 0#32 ∨ d &&& 3#32 = 1#32 ∨ d &&& 3#32 = 2#32 ∨ d &&& 3#32 = 3#32 := by
  have h : (d &&& 3#32).toNat = d.toNat % 4 := by
    rw [BitVec.toNat_and]
    exact Nat.and_two_pow_sub_one_eq_mod d.toNat 2
  have h4 : d.toNat % 4 < 4 := Nat.mod_lt _ (by omega)
  have : (d &&& 3#32).toNat = 0 ∨ (d &&& 3#32).toNat = 1 ∨ (d &&& 3#32).toNat = 2 ∨ (d &&& 3#32).toNat = 3 := by
    omega
  rcases this with h | h | h | h
  · exact Or.inl (BitVec.eq_of_toNat_eq h)
  · exact Or.inr (Or.inl (BitVec.eq_of_toNat_eq h))
  · exact Or.inr (Or.inr (Or.inl (BitVec.eq_of_toNat_eq h)))
  · exact Or.inr (Or.inr (Or.inr (BitVec.eq_of_toNat_eq h)))

theorem add_and3 (d e : U32) : (d + e) &&& 3#32 = ((d &&& 3#32) + e) &&& 3#32 := by
  apply BitVec.eq_of_toNat_eq
  have h3 : ∀ x : U32, (x &&& 3#32).toNat = x.toNat % 4 := fun x => by
    rw [BitVec.toNat_and]; exact Nat.and_two_pow_sub_one_eq_mod x.toNat 2
  rw [h3, h3, BitVec.toNat_add, BitVec.toNat_add, h3]
  omega

/-- **C39.** `GetDirForOffset` inverts the two offset tables, for every direction number (also outside
0..3: directions are taken modulo 4). -/
theorem dirFor_offsets (d : U32) : dirFor (dirX d) (dirY d) = some ((d &&& 3#32).toNat : Int) := by
  unfold dirX dirY
  rcases and3_cases d with h | h | h | h <;> rw [h] <;> rfl

/-- **C39.** Conversely every one-cell step along an axis has a direction, and its offsets are the
step. -/
theorem offsets_dirFor {x y : Int} (h : (x = 0 ∧ (y = 1 ∨ y = -1)) ∨ (y = 0 ∧ (x = 1 ∨ x = -1))) :
    ∃ d : U32, d.toNat < 4 ∧ dirFor x y = some (d.toNat : Int) ∧ dirX d = x ∧ dirY d = y := by
  rcases h with ⟨rfl, rfl | rfl⟩ | ⟨rfl, rfl | rfl⟩
  · exact ⟨1#32, by decide, rfl, rfl, rfl⟩
  · exact ⟨3#32, by decide, rfl, rfl, rfl⟩
  · exact ⟨2#32, by decide, rfl, rfl, rfl⟩
  · exact ⟨0#32, by decide, rfl, rfl, rfl⟩

/-- **C39.** The direction two further (`dir+2`, however often one has turned) has opposite offsets, a
quarter turn (`dir+1`) rotates the offset by a quarter, and four turns change nothing. -/
theorem dir_turns (d : U32) :
    (dirX (d + 2#32) = -dirX d ∧ dirY (d + 2#32) = -dirY d) ∧
    (dirX (d + 1#32) = dirY d ∧ dirY (d + 1#32) = -dirX d) ∧
    (dirX (d + 4#32) = dirX d ∧ dirY (d + 4#32) = dirY d) ∧
    (dirX d).natAbs + (dirY d).natAbs = 1 := by
  unfold dirX dirY
  rw [add_and3 d 2#32, add_and3 d 1#32, add_and3 d 4#32]
  rcases and3_cases d with h | h | h | h <;> rw [h] <;> decide

example : dirX 7#32 = 0 ∧ dirY 7#32 = -1 ∧ dirFor 0 (-1) = some 3 := by decide

end Verif.Recast
