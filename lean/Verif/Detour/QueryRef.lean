/-
References checked against a filter (`NavMeshQuery.IsValidPolyRef`) and references followed without a check
(`TileAndPolyByRefUnsafe`).

Simplifications: as in TileTable.lean; the filter is the standard one.
-/
import Verif.Detour.RefValidity
import Verif.Detour.Bits

namespace Verif.Detour

/-! ## Model -/

/-- `NavMeshQuery.IsValidPolyRef` (detour/query.go:1368-1383) with a standard filter; `none` is a panic. -/
def Mesh.queryValid (m : Mesh) (f : Filter) (ref : U32) : Option Bool :=
  match m.tileAndPolyByRef ref with
  | none => none
  | some (st, r) =>
    if st.failed then some false
    else match r with
      | none => none
      | some (_, _, p) => if !f.passFilter p.flags then some false else some true

/-- `TileAndPolyByRefUnsafe` (detour/mesh.go:1111-1116) with `DecodePolyID` (1128-1136): the slot, the polygon index and the polygon; `none` is
a panic. `Polys` is nil in an empty slot. -/
def Mesh.polyUnsafe (m : Mesh) (ref : U32) : Option (Nat × Nat × Poly) :=
  let it := (m.bits.decodeTile ref).toNat
  let ip := (m.bits.decodePoly ref).toNat
  if m.maxTiles ≤ it then none
  else match m.tile it with
    | none => none
    | some t => match t.body.polys[ip]? with
      | none => none
      | some p => some (it, ip, p)

/-! ## Properties -/

/-- Spec: the filter lets polygons with these flags be visited. -/
def Filter.Allows (f : Filter) (flags : U16) : Prop :=
  (∃ i, flags.getLsbD i = true ∧ f.includeFlags.getLsbD i = true) ∧ ∀ i, flags.getLsbD i = true → f.excludeFlags.getLsbD i = false

theorem allows_iff (f : Filter) (flags : U16) : f.passFilter flags = true ↔ f.Allows flags := passFilter_iff f f.includeFlags f.excludeFlags flags

/-- **C171**. On every mesh that can be reached the check of a query never panics and accepts a reference exactly if it is the reference of a
polygon in the mesh that has a flag of the include flags and none of the exclude flags. -/
theorem query_valid_iff {m : Mesh} (hr : Reachable m)
    (hfull : m.bits.saltBits.toNat + m.bits.tileBits.toNat + m.bits.polyBits.toNat = 32) (f : Filter) (ref : U32) :
    ∃ b, m.queryValid f ref = some b ∧ (b = true ↔ ref ≠ 0#32 ∧ ∃ i t ip p, Names m ref i t ip ∧ t.body.polys[ip.toNat]? = some p ∧
      f.Allows p.flags) := by
  have hval := valid_ref_iff hr hfull ref
  obtain ⟨l1, l2⟩ := lookup_iff_valid hr ref
  unfold Mesh.queryValid
  cases hv : m.isValidPolyRef ref with
  | false =>
    obtain ⟨st, e, hst⟩ := l2 hv
    refine ⟨false, by rw [e]; simp [hst], ?_⟩
    simp only [Bool.false_eq_true, false_iff]
    rintro ⟨h0, i, t, ip, p, hn, -⟩
    have := hval.2 ⟨h0, i, t, ip, hn⟩
    rw [hv] at this
    simp at this
  | true =>
    obtain ⟨t, p, e, ht, hp⟩ := l1 hv
    obtain ⟨free, bucket, w⟩ := hr.inv
    obtain ⟨h0, h1, t', h2, h3, h4⟩ := valid_iff_decode.1 hv
    rw [ht] at h2
    cases h2
    have hs : Status.failed Status.success = false := by decide
    refine ⟨f.passFilter p.flags, by rw [e]; simp only [hs]; cases f.passFilter p.flags <;> rfl, ?_⟩
    rw [allows_iff]
    constructor
    · intro ha
      refine ⟨h0, _, t, m.bits.decodePoly ref, p, ⟨ht, h4, decodePoly_lt w.wf ref, ?_⟩, hp, ha⟩
      rw [h3, BitVec.ofNat_toNat, BitVec.setWidth_eq]
      exact (IdBits.encode_decode w.wf hfull ref).symm
    · rintro ⟨-, i, t', ip, p', hn, hp', ha⟩
      have hn0 : Names m ref (m.bits.decodeTile ref).toNat t (m.bits.decodePoly ref) := by
        refine ⟨ht, h4, decodePoly_lt w.wf ref, ?_⟩
        rw [h3, BitVec.ofNat_toNat, BitVec.setWidth_eq]
        exact (IdBits.encode_decode w.wf hfull ref).symm
      obtain ⟨rfl, rfl⟩ := (names_unique hr hn hn0).1 rfl
      have := hn.1
      rw [ht] at this
      cases this
      rw [hp] at hp'
      cases hp'
      exact ha

/-- **C171**. A reference that was valid is refused by the check after its tile has been removed, whatever the filter and whatever has been added
since (with the bound of C03). -/
theorem query_stale {m m' : Mesh} (hr : Reachable m) {ops : List Op} {os : List Obs}
    (h : run m ops = .ok (os, m')) (f : Filter) (ref : U32) (hv : m.isValidPolyRef ref = true)
    (hno : NoRestore m.bits (m.bits.decodeTile ref).toNat ops)
    (h1 : 1 ≤ removals m.bits (m.bits.decodeTile ref).toNat ops os)
    (h2 : removals m.bits (m.bits.decodeTile ref).toNat ops os < 2 ^ m.bits.saltBits.toNat - 1) : m'.queryValid f ref = some false := by
  obtain ⟨-, ⟨st, e, hst⟩, -⟩ := stale_ref_rejected hr h ref hv hno h1 h2
  unfold Mesh.queryValid
  rw [e]
  simp [hst]

/-- **C171**. For a valid reference the access without a check gives the same tile and polygon as the one with the check. -/
theorem unsafe_valid {m : Mesh} (hr : Reachable m) {ref : U32} (hv : m.isValidPolyRef ref = true) :
    ∃ x, m.polyUnsafe ref = some x ∧ m.tileAndPolyByRef ref = some (Status.success, some x) := by
  obtain ⟨t, p, e, ht, hp⟩ := (lookup_iff_valid hr ref).1 hv
  obtain ⟨h0, h1, -⟩ := valid_iff_decode.1 hv
  refine ⟨_, ?_, e⟩
  unfold Mesh.polyUnsafe
  simp only
  rw [if_neg (by omega), ht]
  simp only
  rw [hp]

/-- **C171**. On every mesh that can be reached the access without a check panics exactly if the slot of the reference does not exist or is empty
or its tile has too few polygons; otherwise it gives the polygon now at that place. The salt is not looked at. -/
theorem unsafe_iff {m : Mesh} (hr : Reachable m) (ref : U32) :
    (m.polyUnsafe ref = none ↔ ¬ ∃ t, m.tile (m.bits.decodeTile ref).toNat = some t ∧ (m.bits.decodePoly ref).toNat < t.header.polyCount.toNat) ∧
    ∀ i k p, m.polyUnsafe ref = some (i, k, p) → i = (m.bits.decodeTile ref).toNat ∧ k = (m.bits.decodePoly ref).toNat ∧
      ∃ t, m.tile i = some t ∧ t.body.polys[k]? = some p := by
  obtain ⟨free, bucket, w⟩ := hr.inv
  unfold Mesh.polyUnsafe
  simp only
  by_cases h1 : m.maxTiles ≤ (m.bits.decodeTile ref).toNat
  · rw [if_pos h1]
    refine ⟨⟨fun _ => ?_, fun _ => rfl⟩, fun _ _ _ h => by simp at h⟩
    rintro ⟨t, ht, -⟩
    have := w.range _ t ht
    omega
  · rw [if_neg h1]
    cases ht : m.tile (m.bits.decodeTile ref).toNat with
    | none => simp
    | some t =>
      have hlen := unserialize_polys (w.ok _ t ht).body
      simp only [Option.some.injEq, exists_eq_left']
      cases hp : t.body.polys[(m.bits.decodePoly ref).toNat]? with
      | none =>
        rw [List.getElem?_eq_none_iff] at hp
        refine ⟨⟨fun _ => by omega, fun _ => rfl⟩, fun _ _ _ h => by simp at h⟩
      | some p =>
        obtain ⟨hlt, -⟩ := List.getElem?_eq_some_iff.1 hp
        refine ⟨⟨fun h => by simp at h, fun h => absurd (by omega) h⟩, ?_⟩
        intro i k p' h
        simp only [Option.some.injEq, Prod.mk.injEq] at h
        obtain ⟨rfl, rfl, rfl⟩ := h
        exact ⟨rfl, rfl, t, ht, hp⟩

set_option maxRecDepth 100000 in
/-- **C171**. After the tile has been removed and another has taken its slot, the old reference is
refused by the checks, but the access without a check follows it to a polygon of the new tile. -/
theorem unsafe_stale : ∃ m os, run smallMesh [.add (tinyData 5) 0#32, .remove 64#32, .add (tinyData 6) 0#32] = .ok (os, m) ∧
    m.isValidPolyRef 64#32 = false ∧ m.queryValid Filter.new 64#32 = some false ∧ (m.polyUnsafe 64#32).isSome = true :=
  ⟨_, _, rfl, rfl, rfl, rfl⟩

set_option maxRecDepth 100000 in
/-- Hypotheses and both outcomes on a mesh with one polygon. -/
example : ∃ m os, run smallMesh [.add (tinyData 5) 0#32] = .ok (os, m) ∧
    m.bits.saltBits.toNat + m.bits.tileBits.toNat + m.bits.polyBits.toNat = 32 ∧ m.isValidPolyRef 64#32 = true ∧
    (m.polyUnsafe 64#32).map (fun x => x.2.2.flags) = some 0#16 ∧ m.polyUnsafe 65#32 = none ∧ m.queryValid Filter.new 64#32 = some false :=
  ⟨_, _, rfl, rfl, rfl, rfl, rfl, rfl⟩

/-- The data of a tile whose one polygon has flags 3. -/
def flaggedData : Bytes := (tinyHeader 5).words.flatMap le32 ++ zeros 28 ++ [3, 0] ++ zeros 14

set_option maxRecDepth 100000 in
/-- The check depends on the filter: passed by default and with flag 1 included, refused with flag 2 excluded or only flag 4 included. -/
example : ∃ m os, run smallMesh [.add flaggedData 0#32] = .ok (os, m) ∧ m.queryValid Filter.new 64#32 = some true ∧
    m.queryValid ⟨1#16, 0#16⟩ 64#32 = some true ∧ m.queryValid ⟨1#16, 2#16⟩ 64#32 = some false ∧
    m.queryValid ⟨4#16, 0#16⟩ 64#32 = some false ∧ m.queryValid Filter.new 65#32 = some false :=
  ⟨_, _, rfl, rfl, rfl, rfl, rfl, rfl⟩

end Verif.Detour
