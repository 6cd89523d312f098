/-
The dummy triangles that `CreateNavMeshData` makes for polygons without detail mesh (detour/navmeshcreate.go:864-878).
-/
import Verif.Detour.CreateData

namespace Verif.Detour
open Verif

/-- Spec: corners `a` and `b` of a polygon with `nv` corners are joined by a side of it. -/
def FanSide (nv a b : Nat) : Prop := (a + 1) % nv = b ∨ (b + 1) % nv = a

theorem flatMap_four {α β : Type} (f : α → List β) (hf : ∀ a, (f a).length = 4) : ∀ (l : List α) (k r : Nat), r < 4 →
    (l.flatMap f)[4 * k + r]? = (l[k]?).bind fun a => (f a)[r]?
  | [], k, r, _ => by simp
  | a :: l, 0, r, hr => by
    rw [List.flatMap_cons, List.getElem?_append_left (by rw [hf]; omega)]
    simp
  | a :: l, k + 1, r, hr => by
    rw [List.flatMap_cons, List.getElem?_append_right (by rw [hf]; omega), hf]
    have : 4 * (k + 1) + r - 4 = 4 * k + r := by omega
    rw [this, flatMap_four f hf l k r hr, List.getElem?_cons_succ]

/-- **C105** The dummy triangles of a polygon without detail mesh are the fan of its first corner, and each of their three edges is
flagged exactly if it is a side of the polygon. -/
theorem fan_tris {nv k : Nat} (hk : k + 2 < nv) : ∃ f : BitVec 8,
    (fanTris nv)[4 * k + 0]? = some 0#8 ∧ (fanTris nv)[4 * k + 1]? = some (BitVec.ofNat 8 (k + 1)) ∧
    (fanTris nv)[4 * k + 2]? = some (BitVec.ofNat 8 (k + 2)) ∧ (fanTris nv)[4 * k + 3]? = some f ∧
    (f &&& 3#8 = 1#8 ↔ FanSide nv 0 (k + 1)) ∧ ((f >>> 2) &&& 3#8 = 1#8 ↔ FanSide nv (k + 1) (k + 2)) ∧
    ((f >>> 4) &&& 3#8 = 1#8 ↔ FanSide nv (k + 2) 0) := by
  have hget : ∀ r, r < 4 → (fanTris nv)[4 * k + r]? = ([0#8, BitVec.ofNat 8 (k + 1), BitVec.ofNat 8 (k + 2),
      4#8 ||| (if k = 0 then 1#8 else 0#8) ||| (if k + 3 = nv then 16#8 else 0#8)] : Bytes)[r]? := by
    intro r hr
    unfold fanTris
    rw [flatMap_four _ (fun _ => rfl) _ _ _ hr, List.getElem?_range (by omega)]
    rfl
  refine ⟨_, hget 0 (by omega), hget 1 (by omega), hget 2 (by omega), hget 3 (by omega), ?_, ?_, ?_⟩
  · have h1 : (0 + 1) % nv = 1 := Nat.mod_eq_of_lt (by omega)
    have h2 : (k + 1 + 1) % nv = k + 2 := Nat.mod_eq_of_lt (by omega)
    unfold FanSide
    rw [h1, h2]
    by_cases h : k = 0
    · rw [if_pos h]
      refine ⟨fun _ => by omega, fun _ => ?_⟩
      split <;> decide
    · rw [if_neg h]
      refine ⟨fun hc => absurd hc ?_, fun hc => by omega⟩
      split <;> decide
  · have h2 : (k + 1 + 1) % nv = k + 2 := Nat.mod_eq_of_lt (by omega)
    unfold FanSide
    rw [h2]
    refine ⟨fun _ => Or.inl rfl, fun _ => ?_⟩
    split <;> split <;> decide
  · have h1 : (0 + 1) % nv = 1 := Nat.mod_eq_of_lt (by omega)
    unfold FanSide
    rw [h1]
    by_cases h : k + 3 = nv
    · rw [if_pos h]
      have : (k + 2 + 1) % nv = 0 := by rw [← h]; exact Nat.mod_self _
      refine ⟨fun _ => Or.inl this, fun _ => ?_⟩
      split <;> decide
    · rw [if_neg h]
      have : (k + 2 + 1) % nv = k + 3 := Nat.mod_eq_of_lt (by omega)
      rw [this]
      refine ⟨fun hc => absurd hc ?_, fun hc => by omega⟩
      split <;> decide

/-- A polygon with four corners. -/
example : fanTris 4 = [0#8, 1#8, 2#8, 5#8, 0#8, 2#8, 3#8, 20#8] := by decide

end Verif.Detour
