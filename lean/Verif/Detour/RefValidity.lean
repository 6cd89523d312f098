/-
Property C76: which polygon references are valid, and what they refer to.
-/
import Verif.Detour.TileTableProps

namespace Verif.Detour

theorem readRecs_length {α : Type} {rd : Bytes → Option α} {stride off n : Nat} {src : Bytes}
    {rs : List α} (h : readRecs rd stride off n src = some rs) : rs.length = n := by
  induction n generalizing off rs with
  | zero =>
    simp only [readRecs, Option.some.injEq] at h
    rw [← h]
    rfl
  | succ n ih =>
    simp only [readRecs, Option.bind_eq_bind, Option.bind_eq_some_iff] at h
    obtain ⟨r, _, rs', h2, h3⟩ := h
    simp only [Option.some.injEq] at h3
    rw [← h3, List.length_cons, ih h2]

theorem mkLen_toNat {n : U32} {k : Nat} (h : mkLen n = some k) : k = n.toNat := by
  unfold mkLen at h
  split at h
  · simp at h
  · rename_i hn
    simp only [Option.some.injEq] at h
    rw [BitVec.toInt_eq_toNat_cond] at h hn
    split at h
    · simpa using h.symm
    · rename_i h2
      rw [if_neg h2] at hn
      have := n.isLt
      omega

/-- A tile read from data has as many polygons as its header says. -/
theorem unserialize_polys {h : MeshHeader} {src : Bytes} {b : TileBody}
    (hb : TileBody.unserialize h src = some b) : b.polys.length = h.polyCount.toNat := by
  unfold TileBody.unserialize at hb
  obtain ⟨nv, _, hb⟩ := Option.bind_eq_some_iff.1 hb
  obtain ⟨verts, _, hb⟩ := Option.bind_eq_some_iff.1 hb
  obtain ⟨np, h1, hb⟩ := Option.bind_eq_some_iff.1 hb
  obtain ⟨polys, h2, hb⟩ := Option.bind_eq_some_iff.1 hb
  obtain ⟨nl, _, hb⟩ := Option.bind_eq_some_iff.1 hb
  obtain ⟨links, _, hb⟩ := Option.bind_eq_some_iff.1 hb
  obtain ⟨nd, _, hb⟩ := Option.bind_eq_some_iff.1 hb
  obtain ⟨dm, _, hb⟩ := Option.bind_eq_some_iff.1 hb
  obtain ⟨ndv, _, hb⟩ := Option.bind_eq_some_iff.1 hb
  obtain ⟨dv, _, hb⟩ := Option.bind_eq_some_iff.1 hb
  obtain ⟨nt, _, hb⟩ := Option.bind_eq_some_iff.1 hb
  obtain ⟨dt, _, hb⟩ := Option.bind_eq_some_iff.1 hb
  obtain ⟨nb, _, hb⟩ := Option.bind_eq_some_iff.1 hb
  obtain ⟨bv, _, hb⟩ := Option.bind_eq_some_iff.1 hb
  obtain ⟨nc, _, hb⟩ := Option.bind_eq_some_iff.1 hb
  obtain ⟨cons, _, h3⟩ := Option.bind_eq_some_iff.1 hb
  simp only [Option.some.injEq] at h3
  rw [← h3]
  simp only
  rw [readRecs_length h2, mkLen_toNat h1]

/-- Spec: `ref` names polygon `ip` of the tile `t` in slot `i`. -/
def Names (m : Mesh) (ref : U32) (i : Nat) (t : Tile) (ip : U32) : Prop :=
  m.tile i = some t ∧ ip.toNat < t.header.polyCount.toNat ∧
    ip.toNat < 2 ^ m.bits.polyBits.toNat ∧ ref = m.bits.encode (m.salt i) (BitVec.ofNat 32 i) ip

/-- The valid references, in terms of decoding. -/
theorem valid_iff_decode {m : Mesh} {ref : U32} : m.isValidPolyRef ref = true ↔ ref ≠ 0#32 ∧
    (m.bits.decodeTile ref).toNat < m.maxTiles ∧ ∃ t, m.tile (m.bits.decodeTile ref).toNat = some t ∧
    m.salt (m.bits.decodeTile ref).toNat = m.bits.decodeSalt ref ∧
    (m.bits.decodePoly ref).toNat < t.header.polyCount.toNat := by
  unfold Mesh.isValidPolyRef
  split
  · rename_i h; simp [h]
  rename_i h0
  simp only
  split
  · rename_i h1
    simp only [Bool.false_eq_true, ne_eq, false_iff, not_and]
    intro _ h2
    omega
  rename_i h1
  cases ht : m.tile (m.bits.decodeTile ref).toNat with
  | none => simp
  | some t =>
    simp only
    split
    · rename_i h2
      simp only [Bool.false_eq_true, ne_eq, Option.some.injEq, exists_eq_left', false_iff, not_and]
      intro _ _ h3
      exact absurd h3 h2
    rename_i h2
    split
    · rename_i h3
      simp only [Bool.false_eq_true, ne_eq, Option.some.injEq, exists_eq_left', false_iff, not_and]
      intro _ _ _
      omega
    · rename_i h3
      simp only [true_iff, ne_eq, Option.some.injEq, exists_eq_left']
      exact ⟨h0, by omega, by simpa using h2, by omega⟩

/-- The decoded polygon index is in range of the polygon bits. -/
theorem decodePoly_lt {b : IdBits} (h : b.WF) (ref : U32) :
    (b.decodePoly ref).toNat < 2 ^ b.polyBits.toNat := by
  unfold IdBits.decodePoly
  rw [IdBits.mask_toNat _ (by have := h.sum; have := h.salt; omega)]
  exact Nat.mod_lt _ (Nat.pow_pos (by omega))

/-- **C76**: `IsValidPolyRef` accepts exactly the references of the polygons of the tiles in the mesh
(all 32 bits in use, as `Init` arranges unless both counts are 1). -/
theorem valid_ref_iff {m : Mesh} (hr : Reachable m)
    (hfull : m.bits.saltBits.toNat + m.bits.tileBits.toNat + m.bits.polyBits.toNat = 32) (ref : U32) :
    m.isValidPolyRef ref = true ↔ ref ≠ 0#32 ∧ ∃ i t ip, Names m ref i t ip := by
  obtain ⟨free, bucket, w⟩ := hr.inv
  rw [valid_iff_decode]
  constructor
  · rintro ⟨h0, h1, t, h2, h3, h4⟩
    refine ⟨h0, _, t, m.bits.decodePoly ref, h2, h4, decodePoly_lt w.wf ref, ?_⟩
    rw [h3, BitVec.ofNat_toNat, BitVec.setWidth_eq]
    exact (IdBits.encode_decode w.wf hfull ref).symm
  · rintro ⟨h0, i, t, ip, h1, h2, h3, rfl⟩
    have hi := w.range i t h1
    have hsz := w.size
    have htb : m.bits.tileBits.toNat ≤ 31 := by have := w.wf.sum; have := w.wf.salt; omega
    have hpow : 2 ^ m.bits.tileBits.toNat ≤ 2 ^ 31 := Nat.pow_le_pow_right (by omega) htb
    have hin : (BitVec.ofNat 32 i).toNat = i := by
      rw [BitVec.toNat_ofNat]
      exact Nat.mod_eq_of_lt (by omega)
    obtain ⟨d1, d2, d3⟩ := IdBits.decode_encode w.wf (m.salt i) (BitVec.ofNat 32 i) ip (w.salt i)
      (by rw [hin]; omega) h3
    rw [d1, d2, d3, hin]
    exact ⟨h0, hi, t, h1, rfl, h2⟩

/-- **C76**: `TileAndPolyByRef` succeeds exactly on valid references, never panics, and then returns
the tile slot and polygon that the reference names. -/
theorem lookup_iff_valid {m : Mesh} (hr : Reachable m) (ref : U32) :
    (m.isValidPolyRef ref = true → ∃ t p,
      m.tileAndPolyByRef ref = some (Status.success,
        some ((m.bits.decodeTile ref).toNat, (m.bits.decodePoly ref).toNat, p)) ∧
      m.tile (m.bits.decodeTile ref).toNat = some t ∧
      t.body.polys[(m.bits.decodePoly ref).toNat]? = some p) ∧
    (m.isValidPolyRef ref = false → ∃ st, m.tileAndPolyByRef ref = some (st, none) ∧
      st.failed = true) := by
  obtain ⟨free, bucket, w⟩ := hr.inv
  constructor
  · intro hv
    obtain ⟨h0, h1, t, h2, h3, h4⟩ := valid_iff_decode.1 hv
    have hlen := unserialize_polys (w.ok _ t h2).body
    have hget : (m.bits.decodePoly ref).toNat < t.body.polys.length := by omega
    refine ⟨t, t.body.polys[(m.bits.decodePoly ref).toNat], ?_, h2, List.getElem?_eq_getElem hget⟩
    unfold Mesh.tileAndPolyByRef
    simp only
    rw [if_neg h0, if_neg (by omega), h2]
    simp only
    rw [if_neg (by simpa using h3), if_neg (by omega), List.getElem?_eq_getElem hget]
  · intro hv
    have hn : ¬ (m.isValidPolyRef ref = true) := by rw [hv]; simp
    rw [valid_iff_decode] at hn
    unfold Mesh.tileAndPolyByRef
    simp only
    split
    · exact ⟨_, rfl, by decide⟩
    rename_i h0
    split
    · exact ⟨_, rfl, by decide⟩
    rename_i h1
    cases ht : m.tile (m.bits.decodeTile ref).toNat with
    | none => exact ⟨_, rfl, by decide⟩
    | some t =>
      simp only
      split
      · exact ⟨_, rfl, by decide⟩
      rename_i h2
      split
      · exact ⟨_, rfl, by decide⟩
      rename_i h3
      exact absurd ⟨h0, by omega, t, ht, by simpa using h2, by omega⟩ hn

/-- **C76**: different valid references name different polygons, and different polygons have
different references. -/
theorem names_unique {m : Mesh} (hr : Reachable m) {ref ref' : U32} {i i' : Nat} {t t' : Tile}
    {ip ip' : U32} (h : Names m ref i t ip) (h' : Names m ref' i' t' ip') :
    ref = ref' ↔ i = i' ∧ ip = ip' := by
  obtain ⟨free, bucket, w⟩ := hr.inv
  obtain ⟨h1, h2, h3, rfl⟩ := h
  obtain ⟨g1, g2, g3, rfl⟩ := h'
  have hsz := w.size
  have htb : m.bits.tileBits.toNat ≤ 31 := by have := w.wf.sum; have := w.wf.salt; omega
  have hpow : 2 ^ m.bits.tileBits.toNat ≤ 2 ^ 31 := Nat.pow_le_pow_right (by omega) htb
  have hin : ∀ i t, m.tile i = some t → (BitVec.ofNat 32 i).toNat = i ∧
      i < 2 ^ m.bits.tileBits.toNat := by
    intro i t ht
    have := w.range i t ht
    rw [BitVec.toNat_ofNat]
    exact ⟨Nat.mod_eq_of_lt (by omega), by omega⟩
  obtain ⟨e1, e2⟩ := hin i t h1
  obtain ⟨f1, f2⟩ := hin i' t' g1
  constructor
  · intro he
    obtain ⟨_, a, b⟩ := IdBits.encode_injective w.wf (w.salt i) (by rw [e1]; exact e2) h3
      (w.salt i') (by rw [f1]; exact f2) g3 he
    refine ⟨?_, b⟩
    rw [← e1, ← f1, a]
  · rintro ⟨rfl, rfl⟩
    rfl

set_option maxRecDepth 100000 in
/-- A mesh with one tile of one polygon: reference 64 is valid, 65 (one past the end) is not. -/
example : ∃ m os, run smallMesh [.add (tinyData 5) 0#32] = .ok (os, m) ∧
    m.bits.saltBits.toNat + m.bits.tileBits.toNat + m.bits.polyBits.toNat = 32 ∧
    m.isValidPolyRef 64#32 = true ∧ m.isValidPolyRef 65#32 = false :=
  ⟨_, _, rfl, rfl, rfl, rfl⟩

end Verif.Detour
