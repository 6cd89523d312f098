/-
Properties of the tile table (C03-C08): statements about every history of `AddTile`/`RemoveTile`.
-/
import Verif.Detour.TileTable
import Mathlib.Logic.Function.Iterate
import Mathlib.Data.Nat.ModEq

namespace Verif.Detour

/-! ## Hypotheses on the starting mesh -/

/-- A mesh freshly made by a successful `Init` on a configuration within the id budget. -/
structure Fresh (p : NavMeshParams) (m : Mesh) : Prop where
  init : ∃ st, Mesh.init p = .ok (st, m) ∧ st.succeed = true
  tiles : 1 ≤ p.maxTiles.toNat
  polys : 1 ≤ p.maxPolys.toNat
  polys' : p.maxPolys.toNat ≤ 2 ^ 31
  budget : Nat.clog 2 p.maxTiles.toNat + Nat.clog 2 p.maxPolys.toNat ≤ 32

theorem Fresh.inv {p : NavMeshParams} {m : Mesh} (h : Fresh p m) :
    InvW m (List.range p.maxTiles.toNat) (fun _ => []) := by
  obtain ⟨st, h1, h2⟩ := h.init
  exact init_inv h1 h2 h.tiles h.polys h.polys' h.budget

theorem Fresh.empty {p : NavMeshParams} {m : Mesh} (h : Fresh p m) (i : Nat) : m.tile i = none := by
  obtain ⟨st, h1, _⟩ := h.init
  unfold Mesh.init at h1
  split at h1
  · simp at h1
  · simp only [Out.ok.injEq, Prod.mk.injEq] at h1
    rw [← h1.2]

theorem Fresh.max {p : NavMeshParams} {m : Mesh} (h : Fresh p m) :
    m.maxTiles = p.maxTiles.toNat := by
  obtain ⟨st, h1, _⟩ := h.init
  unfold Mesh.init at h1
  split at h1
  · simp at h1
  · simp only [Out.ok.injEq, Prod.mk.injEq] at h1
    rw [← h1.2]

/-- Meshes reachable from `Init` by a history of calls that all return. -/
def Reachable (m : Mesh) : Prop :=
  ∃ p m0 ops os, Fresh p m0 ∧ run m0 ops = .ok (os, m)

theorem Reachable.inv {m : Mesh} (h : Reachable m) : Inv m := by
  obtain ⟨p, m0, ops, os, h1, h2⟩ := h
  exact (run_inv ⟨_, _, h1.inv⟩ h2).1

/-! ## Salts -/

/-- The salt arithmetic of `RemoveTile` on numbers: count up to `N`, then restart at 1. -/
def bumpN (N s : Nat) : Nat := if s < N then s + 1 else 1

theorem bumpN_iter (N : Nat) (hN : 1 ≤ N) (s k : Nat) (h1 : 1 ≤ s) (h2 : s ≤ N) :
    (bumpN N)^[k] s = (s - 1 + k) % N + 1 := by
  induction k with
  | zero =>
    simp only [Function.iterate_zero, id_eq, Nat.add_zero]
    rw [Nat.mod_eq_of_lt (by omega)]
    omega
  | succ k ih =>
    rw [Function.iterate_succ_apply', ih]
    unfold bumpN
    have hlt : (s - 1 + k) % N < N := Nat.mod_lt _ hN
    have e : (s - 1 + (k + 1)) % N = ((s - 1 + k) % N + 1) % N := by
      rw [Nat.mod_add_mod]; rfl
    rw [e]
    by_cases h : (s - 1 + k) % N + 1 < N
    · rw [if_pos h, Nat.mod_eq_of_lt h]
    · rw [if_neg h]
      have : (s - 1 + k) % N + 1 = N := by omega
      rw [this, Nat.mod_self]

theorem bumpN_iter_ne (N : Nat) (s k : Nat) (h2 : s ≤ N) (hk1 : 1 ≤ k) (hk2 : k < N) :
    (bumpN N)^[k] s ≠ s := by
  rcases Nat.eq_zero_or_pos s with rfl | h1
  · obtain ⟨j, rfl⟩ : ∃ j, k = j + 1 := ⟨k - 1, by omega⟩
    rw [Function.iterate_succ_apply]
    have : bumpN N 0 = 1 := by unfold bumpN; split <;> rfl
    rw [this, bumpN_iter N (by omega) 1 j (by omega) (by omega)]
    omega
  · rw [bumpN_iter N (by omega) s k h1 h2]
    intro h
    by_cases hlt : s - 1 + k < N
    · rw [Nat.mod_eq_of_lt hlt] at h; omega
    · have : (s - 1 + k) % N = s - 1 + k - N := by
        rw [Nat.mod_eq_sub_mod (by omega), Nat.mod_eq_of_lt (by omega)]
      omega

/-- Number of successful removals of slot `i` in a history. -/
def removals (b : IdBits) (i : Nat) : List Op → List Obs → Nat
  | .remove r :: ops, .removed _ st :: os =>
    (if st.succeed ∧ (b.decodeTile r).toNat = i then 1 else 0) + removals b i ops os
  | _ :: ops, _ :: os => removals b i ops os
  | _, _ => 0

/-- No `AddTile` of the history asks for slot `i` through `lastRef`. -/
def NoRestore (b : IdBits) (i : Nat) (ops : List Op) : Prop :=
  ∀ d r, Op.add d r ∈ ops → r = 0#32 ∨ (b.decodeTile r).toNat ≠ i

theorem salt_run {m m' : Mesh} (hi : Inv m) {ops : List Op} {os : List Obs}
    (h : run m ops = .ok (os, m')) (i : Nat) (hno : NoRestore m.bits i ops) :
    (m'.salt i).toNat
      = (bumpN (2 ^ m.bits.saltBits.toNat - 1))^[removals m.bits i ops os] (m.salt i).toNat := by
  induction ops generalizing m os with
  | nil =>
    simp only [run, Out.ok.injEq, Prod.mk.injEq] at h
    obtain ⟨rfl, rfl⟩ := h
    rfl
  | cons op ops ih =>
    obtain ⟨o, m1, os', h1, h2, rfl⟩ := run_cons h
    obtain ⟨hi1, hc⟩ := step_inv hi h1
    have hno' : NoRestore m1.bits i ops := by
      rw [hc.bits]
      exact fun d r hr => hno d r (by simp [hr])
    have := ih hi1 h2 hno'
    rw [this, hc.bits]
    rcases step_cases hi h1 with ⟨d, r, ref, st, rfl, rfl, h3⟩ | ⟨r, d, st, rfl, rfl, h3⟩
    · simp only [removals]
      congr 2
      rcases h3 with ⟨rfl, _⟩ | ⟨_, j, t, _, ha, _⟩
      · rfl
      · by_cases hj : i = j
        · rcases hno d r (by simp) with h0 | h0
          · rw [hj, ha.salt0 h0]
          · by_cases hr : r = 0#32
            · rw [hj, ha.salt0 hr]
            · exact absurd (hj.trans (ha.saltR hr).1).symm h0
        · rw [ha.salt i hj]
    · simp only [removals]
      rcases h3 with ⟨rfl, hf⟩ | ⟨rfl, j, t, _, ha⟩
      · simp [hf]
      · rw [Nat.add_comm, Function.iterate_add_apply]
        congr 1
        have hidx := ha.idx
        by_cases hj : j = i
        · subst hj
          rw [if_pos ⟨by decide, hidx.symm⟩, ha.salt, upd_same]
          obtain ⟨free, bucket, w⟩ := hi
          rw [bumpSalt_toNat w.wf _ (w.salt j)]
          have hpos : 0 < 2 ^ m.bits.saltBits.toNat := Nat.pow_pos (by omega)
          simp only [Function.iterate_one, bumpN]
          by_cases hlt : (m.salt j).toNat + 1 < 2 ^ m.bits.saltBits.toNat
          · rw [if_pos hlt, if_pos (by omega)]
          · rw [if_neg hlt, if_neg (by omega)]
        · rw [if_neg (fun hc => hj (by rw [hidx]; exact hc.2)), ha.salt,
            upd_ne _ _ (fun hc => hj hc.symm)]
          rfl

/-! ## Properties -/

theorem isValid_salt {m : Mesh} {ref : U32} (h : m.isValidPolyRef ref = true) :
    m.salt (m.bits.decodeTile ref).toNat = m.bits.decodeSalt ref := by
  unfold Mesh.isValidPolyRef at h
  simp only at h
  split at h
  · simp at h
  split at h
  · simp at h
  split at h
  · simp at h
  split at h
  · simp at h
  · rename_i hs
    simpa using hs

/-- **C03**: a polygon reference valid at some point of a history is rejected by `IsValidPolyRef`
and `TileAndPolyByRef`, and refused by `RemoveTile`, after its slot has been removed at least once
and fewer than `2^saltBits - 1` times (with whatever else is added and removed in between), provided
no `AddTile` call asked for that slot through `lastRef`. -/
theorem stale_ref_rejected {m m' : Mesh} (hr : Reachable m) {ops : List Op} {os : List Obs}
    (h : run m ops = .ok (os, m')) (ref : U32) (hv : m.isValidPolyRef ref = true)
    (hno : NoRestore m.bits (m.bits.decodeTile ref).toNat ops)
    (h1 : 1 ≤ removals m.bits (m.bits.decodeTile ref).toNat ops os)
    (h2 : removals m.bits (m.bits.decodeTile ref).toNat ops os < 2 ^ m.bits.saltBits.toNat - 1) :
    m'.isValidPolyRef ref = false ∧
    (∃ st, m'.tileAndPolyByRef ref = some (st, none) ∧ st.failed = true) ∧
    m'.removeTile ref = .ok ([], Status.failure ||| Status.invalidParam, m') := by
  have hi := hr.inv
  have hs := salt_run hi h _ hno
  obtain ⟨hi', hc⟩ := run_inv hi h
  obtain ⟨free, bucket, w⟩ := hi
  have hne : m'.salt (m.bits.decodeTile ref).toNat ≠ m.bits.decodeSalt ref := by
    intro he
    rw [← isValid_salt hv] at he
    rw [he] at hs
    have := w.salt (m.bits.decodeTile ref).toNat
    exact bumpN_iter_ne _ _ _ (by omega) h1 h2 hs.symm
  rw [← hc.bits] at hne
  refine ⟨?_, ?_, ?_⟩
  · unfold Mesh.isValidPolyRef
    simp only
    split
    · rfl
    split
    · rfl
    split
    · rfl
    · rfl
  · unfold Mesh.tileAndPolyByRef
    simp only
    split
    · exact ⟨_, rfl, by decide⟩
    split
    · exact ⟨_, rfl, by decide⟩
    split
    · exact ⟨_, rfl, by decide⟩
    · exact ⟨_, rfl, by decide⟩
  · unfold Mesh.removeTile
    simp only
    split
    · rfl
    split
    · rfl
    · rfl

/-- **C03**: the bound is sharp: `2^saltBits - 1` removals bring the salt of a slot back, so the
oldest reference becomes valid again if the slot is occupied. -/
theorem salt_wraps {m m' : Mesh} (hr : Reachable m) {ops : List Op} {os : List Obs}
    (h : run m ops = .ok (os, m')) (i : Nat) (hno : NoRestore m.bits i ops)
    (h0 : m.salt i ≠ 0#32) (hk : removals m.bits i ops os = 2 ^ m.bits.saltBits.toNat - 1) :
    m'.salt i = m.salt i := by
  have hi := hr.inv
  have hs := salt_run hi h i hno
  obtain ⟨free, bucket, w⟩ := hi
  have hlt := w.salt i
  have h1 : 1 ≤ (m.salt i).toNat := by
    rcases Nat.eq_zero_or_pos (m.salt i).toNat with hz | hz
    · exact absurd (BitVec.eq_of_toNat_eq (by rw [hz]; rfl)) h0
    · exact hz
  apply BitVec.eq_of_toNat_eq
  rw [hs, hk, bumpN_iter _ (by omega) _ _ h1 (by omega), Nat.add_mod_right,
    Nat.mod_eq_of_lt (by omega)]
  omega

/-- **C04**: after any history from a fresh mesh, looking a location up (`TileAt`, reading the
tile's data and reference) gives exactly what the successful calls of the history say: the data and
reference of the last tile added there and not removed since. The walk always ends. -/
theorem lookup_history {p : NavMeshParams} {m0 m : Mesh} (hf : Fresh p m0) {ops : List Op}
    {os : List Obs} (h : run m0 ops = .ok (os, m)) (l : Loc) : m.lookup l = some (spec os l) := by
  refine lookup_run ⟨_, _, hf.inv⟩ h (fun _ => none) ?_ l
  intro l
  refine lookup_ext ⟨_, _, hf.inv⟩ l none ?_
  intro d ref
  simp only [reduceCtorEq, false_iff]
  rintro ⟨i, t, ht, _⟩
  rw [hf.empty i] at ht
  simp at ht

/-- **C04**: `TileRefAt` returns the reference of that tile, and 0 when there is none. -/
theorem tileRefAt_history {p : NavMeshParams} {m0 m : Mesh} (hf : Fresh p m0) {ops : List Op}
    {os : List Obs} (h : run m0 ops = .ok (os, m)) (x y l : U32) :
    m.tileRefAt x y l = some (match spec os (x, y, l) with | none => 0#32 | some v => v.2) := by
  have hl := lookup_history hf h (x, y, l)
  have hi := (run_inv ⟨_, _, hf.inv⟩ h).1
  obtain ⟨r, h1, h2⟩ := tileAt_eq hi x y l
  unfold Mesh.lookup at hl
  unfold Mesh.tileRefAt
  simp only at hl
  rw [h1] at hl ⊢
  simp only [Option.map_some, Option.some.injEq] at hl ⊢
  rw [← hl]
  cases r with
  | none => rfl
  | some i =>
    obtain ⟨t, ht, _⟩ := (h2 i).1 rfl
    simp [ht]

/-- **C04**: `TilesAt` returns each tile of the cell exactly once (all layers), up to the buffer
size. -/
theorem tilesAt_spec {m : Mesh} (hr : Reachable m) (x y : U32) (max : Nat) :
    ∃ l : List Nat, m.tilesAt x y max = some (l.take max) ∧ l.Nodup ∧
      ∀ i, i ∈ l ↔ ∃ t, m.tile i = some t ∧ t.header.x = x ∧ t.header.y = y := by
  obtain ⟨free, bucket, w⟩ := hr.inv
  refine ⟨_, by unfold Mesh.tilesAt; rw [walkCollect_eq (w.cpos _) (w.bucket_len _)]; rfl,
    (w.cpos _).nodup.filter _, ?_⟩
  intro i
  rw [List.mem_filter, w.bucket_iff]
  unfold Mesh.atCell
  constructor
  · rintro ⟨⟨_, t, ht, _⟩, h⟩
    rw [ht] at h
    exact ⟨t, ht, by simpa using h⟩
  · rintro ⟨t, ht, hx, hy⟩
    refine ⟨⟨w.range i t ht, t, ht, by rw [hx, hy]⟩, ?_⟩
    rw [ht]
    simp [hx, hy]

/-- Number of occupied slots. -/
def Mesh.liveCount (m : Mesh) : Nat :=
  ((List.range m.maxTiles).filter fun i => (m.tile i).isSome).length

/-- **C05**: in every reachable mesh each slot is on exactly one list, exactly once: an empty slot on
the free list, an occupied one in the chain of its own bucket and no other. -/
theorem slots_conserved {m : Mesh} (hr : Reachable m) :
    ∃ (free : List Nat) (bucket : Nat → List Nat),
      Chain m.next m.nextFree free ∧ (∀ h, Chain m.next (m.pos h) (bucket h)) ∧
      free.Nodup ∧ (∀ h, (bucket h).Nodup) ∧
      (∀ i, i < m.maxTiles → (i ∈ free ↔ m.tile i = none) ∧
        (∀ h, i ∈ bucket h ↔ ∃ t, m.tile i = some t ∧
          h = tileHash m.lutMask t.header.x t.header.y)) ∧
      free.length + m.liveCount = m.maxTiles := by
  obtain ⟨free, bucket, w⟩ := hr.inv
  refine ⟨free, bucket, w.cfree, w.cpos, w.cfree.nodup, fun h => (w.cpos h).nodup, ?_, ?_⟩
  · intro i hi
    refine ⟨by rw [w.free_iff]; simp [hi], ?_⟩
    intro h
    rw [w.bucket_iff]
    constructor
    · rintro ⟨_, t, ht, e⟩; exact ⟨t, ht, e.symm⟩
    · rintro ⟨t, ht, e⟩; exact ⟨hi, t, ht, e.symm⟩
  · have hp : free.Perm ((List.range m.maxTiles).filter fun i => !(m.tile i).isSome) := by
      rw [List.perm_ext_iff_of_nodup w.cfree.nodup (List.nodup_range.filter _)]
      intro i
      rw [w.free_iff]
      simp
    rw [hp.length_eq]
    unfold Mesh.liveCount
    have := List.length_eq_length_filter_add (l := List.range m.maxTiles)
      (fun i => (m.tile i).isSome)
    rw [List.length_range] at this
    omega

/-- Tile data that `AddTile` can install: complete, right format, at least one link slot. -/
def Installable (data : Bytes) : Prop := ∃ t : Tile, t.data = data ∧ TileOK t

theorem Installable.iff {data : Bytes} (h : Installable data) :
    ∃ hdr body, MeshHeader.unserialize data = some hdr ∧ hdr.magic = navMeshMagic ∧
      hdr.version = navMeshVersion ∧ TileBody.unserialize hdr (data.drop 100) = some body ∧
      hdr.maxLinkCount ≠ 0#32 := by
  obtain ⟨t, rfl, h⟩ := h
  exact ⟨_, _, h.hdr, h.magic, h.version, h.body, h.links⟩

theorem filter_upd_length (n i : Nat) (hi : i < n) (f : Nat → Bool) (hf : f i = false) :
    ((List.range n).filter (upd f i true)).length = ((List.range n).filter f).length + 1 := by
  have key : ∀ l : List Nat, l.Nodup →
      (l.filter (upd f i true)).length = (l.filter f).length + if i ∈ l then 1 else 0 := by
    intro l hl
    induction l with
    | nil => simp
    | cons a l ih =>
      rw [List.nodup_cons] at hl
      rw [List.filter_cons, List.filter_cons]
      by_cases ha : a = i
      · subst ha
        have h0 := ih hl.2
        rw [if_neg hl.1] at h0
        simp [hf, h0]
      · rw [upd_ne _ _ ha]
        have h0 := ih hl.2
        have : (i ∈ a :: l) ↔ i ∈ l := by
          simp only [List.mem_cons]
          exact ⟨fun h => h.resolve_left (fun e => ha e.symm), Or.inr⟩
        simp only [this]
        cases f a <;> simp [h0]; omega
  have := key (List.range n) List.nodup_range
  simpa [hi] using this

/-- **C05**: adding installable data at a free location with `lastRef = 0` succeeds iff fewer than
`MaxTiles` tiles are live, and then exactly one more is live; when the mesh is full the process is
terminated (`log.Fatalln`) instead of the documented failure status. -/
theorem add_capacity {m : Mesh} (hr : Reachable m) (data : Bytes) (hd : Installable data)
    (hfree : ∀ l, locOf data = some l → m.lookup l = some none) :
    (m.liveCount < m.maxTiles → ∃ ref m', m.addTile data 0#32 = .ok (Status.success, ref, m') ∧
      m'.liveCount = m.liveCount + 1) ∧
    (m.liveCount = m.maxTiles → m.addTile data 0#32 = .fatal) := by
  obtain ⟨hdr, body, h1, h2, h3, h4, h5⟩ := hd.iff
  have hi := hr.inv
  obtain ⟨free, bucket, w⟩ := hi
  have hcount : free.length + m.liveCount = m.maxTiles := by
    obtain ⟨free', _, c1, _, _, _, _, hc⟩ := slots_conserved hr
    rw [w.cfree.det c1]
    exact hc
  have hat : m.tileAt hdr.x hdr.y hdr.layer = some none := by
    obtain ⟨r, hr1, hr2⟩ := tileAt_eq ⟨free, bucket, w⟩ hdr.x hdr.y hdr.layer
    have := hfree (hdr.x, hdr.y, hdr.layer) (by unfold locOf; rw [h1]; rfl)
    unfold Mesh.lookup at this
    simp only at this
    rw [hr1] at this ⊢
    cases r with
    | none => rfl
    | some i =>
      obtain ⟨t, ht, _⟩ := (hr2 i).1 rfl
      simp [ht] at this
  have hadd : m.addTile data 0#32 = match m.nextFree with
      | none => .fatal
      | some i => .ok (Status.success,
          (({ m with nextFree := m.next i, next := upd m.next i none } : Mesh).install i hdr body
            data).tileRef i,
          ({ m with nextFree := m.next i, next := upd m.next i none } : Mesh).install i hdr body
            data) := by
    unfold Mesh.addTile
    rw [h1]
    simp only [h2, h3, ne_eq, not_true, if_false, hat]
    unfold Mesh.allocSlot
    rw [if_pos rfl]
    cases m.nextFree with
    | none => rfl
    | some i => simp only [h4, if_neg h5]
  constructor
  · intro hlt
    cases hn : m.nextFree with
    | none =>
      have := w.cfree
      rw [hn, Chain.none_iff] at this
      subst this
      simp at hcount
      omega
    | some i =>
      rw [hn] at hadd
      refine ⟨_, _, hadd, ?_⟩
      have hmem : i ∈ free := by
        have := w.cfree
        rw [hn] at this
        obtain ⟨t, rfl, _⟩ := Chain.some_iff.1 this
        simp
      obtain ⟨hlt', hnone⟩ := (w.free_iff i).1 hmem
      unfold Mesh.liveCount
      rw [← filter_upd_length m.maxTiles i hlt' (fun i => (m.tile i).isSome) (by simp [hnone])]
      congr 1
      apply List.filter_congr
      intro j _
      show (upd m.tile i (some _) j).isSome = _
      by_cases hj : j = i
      · subst hj; simp
      · rw [upd_ne _ _ hj, upd_ne _ _ hj]
  · intro hfull
    have : free = [] := List.length_eq_zero_iff.1 (by omega)
    have hc := w.cfree
    rw [this] at hc
    simp only [Chain] at hc
    rw [hadd, hc]

/-- **C05**: removing a live tile by its reference frees exactly its slot. -/
theorem remove_frees {m : Mesh} (hr : Reachable m) (i : Nat) (t : Tile) (ht : m.tile i = some t)
    (hs : m.salt i ≠ 0#32) :
    ∃ m', m.removeTile (m.tileRef i) = .ok (t.data, Status.success, m') ∧
      m'.tile = upd m.tile i none ∧ m'.nextFree = some i ∧ m'.liveCount + 1 = m.liveCount := by
  obtain ⟨free, bucket, w⟩ := hr.inv
  have hlt := w.range i t ht
  have hsum := w.wf.sum
  have hsalt := w.wf.salt
  have hi32 : (BitVec.ofNat 32 i).toNat = i := by
    rw [BitVec.toNat_ofNat, Nat.mod_eq_of_lt]
    calc i < m.maxTiles := hlt
      _ ≤ 2 ^ m.bits.tileBits.toNat := w.size
      _ ≤ 2 ^ 32 := Nat.pow_le_pow_right (by omega) (by omega)
  have hit : (BitVec.ofNat 32 i).toNat < 2 ^ m.bits.tileBits.toNat := by
    rw [hi32]; exact Nat.lt_of_lt_of_le hlt w.size
  have hp0 : (0#32 : U32).toNat < 2 ^ m.bits.polyBits.toNat := Nat.pow_pos (by omega)
  obtain ⟨d1, d2, _⟩ := IdBits.decode_encode w.wf (m.salt i) (BitVec.ofNat 32 i) 0#32 (w.salt i) hit
    hp0
  have hne := IdBits.encode_ne_zero w.wf (m.salt i) (BitVec.ofNat 32 i) 0#32 (w.salt i) hit hp0 hs
  have hmem : i ∈ bucket (tileHash m.lutMask t.header.x t.header.y) :=
    (w.bucket_iff _ i).2 ⟨hlt, t, ht, rfl⟩
  obtain ⟨l₁, l₂, hl⟩ := List.append_of_mem hmem
  have hc := w.cpos (tileHash m.lutMask t.header.x t.header.y)
  have hlen := w.bucket_len (tileHash m.lutMask t.header.x t.header.y)
  rw [hl] at hc hlen
  have hwalk := walkTo_mem' hc hlen
  refine ⟨{ m with
      pos := upd m.pos (tileHash m.lutMask t.header.x t.header.y)
        (unlinkAt m.next (m.pos (tileHash m.lutMask t.header.x t.header.y)) l₁.getLast? i).2
      tile := upd m.tile i none
      salt := upd m.salt i (Mesh.bumpSalt m.bits (m.salt i))
      next := upd (unlinkAt m.next (m.pos (tileHash m.lutMask t.header.x t.header.y))
        l₁.getLast? i).1 i m.nextFree
      nextFree := some i }, ?_, rfl, rfl, ?_⟩
  · unfold Mesh.removeTile
    unfold Mesh.tileRef
    rw [if_neg hne]
    simp only [d1, d2, hi32]
    rw [if_neg (by omega), if_neg (by simp), ht]
    simp only [hwalk]
  · unfold Mesh.liveCount
    have h0 := filter_upd_length m.maxTiles i hlt (fun j => (upd m.tile i none j).isSome) (by simp)
    rw [← h0]
    congr 1
    apply List.filter_congr
    intro j _
    by_cases hj : j = i
    · subst hj; simp [ht]
    · rw [upd_ne _ _ hj, upd_ne _ _ hj]

/-- **C06**: adding at an occupied location, or data whose magic is not `'D'<<24|'N'<<16|'A'<<8|'V'`
or whose version is not 7, returns a failure
and reference 0 and changes nothing, whatever `lastRef` is. -/
theorem add_refused {m : Mesh} (data : Bytes) (r : U32) (hdr : MeshHeader)
    (hh : MeshHeader.unserialize data = some hdr)
    (h : hdr.magic ≠ 0x444e4156#32 ∨ hdr.version ≠ 7#32 ∨
      ∃ v, m.lookup (hdr.x, hdr.y, hdr.layer) = some (some v)) :
    ∃ st, m.addTile data r = .ok (st, 0#32, m) ∧ st.failed = true := by
  change hdr.magic ≠ navMeshMagic ∨ hdr.version ≠ navMeshVersion ∨
      ∃ v, m.lookup (hdr.x, hdr.y, hdr.layer) = some (some v) at h
  unfold Mesh.addTile
  rw [hh]
  simp only
  by_cases hm : hdr.magic = navMeshMagic
  · rw [if_neg (by simpa using hm)]
    by_cases hv : hdr.version = navMeshVersion
    · rw [if_neg (by simpa using hv)]
      rcases h with h | h | ⟨v, h⟩
      · exact absurd hm h
      · exact absurd hv h
      · unfold Mesh.lookup at h
        simp only at h
        cases hat : m.tileAt hdr.x hdr.y hdr.layer with
        | none => rw [hat] at h; simp at h
        | some o =>
          cases o with
          | none => rw [hat] at h; simp at h
          | some j => exact ⟨_, rfl, by decide⟩
    · rw [if_pos hv]
      exact ⟨_, rfl, by decide⟩
  · rw [if_pos hm]
    exact ⟨_, rfl, by decide⟩

/-- **C07** `_partial`: reference 0, an out-of-range tile index or a salt that is not the slot's
current one are refused without effect; and the only other outcomes are successful removal of the
tile in the slot, or a panic, exactly when the slot is empty but its current salt was guessed.
Missing (false, see `remove_never_crashes_refuted`): that it never crashes. -/
theorem remove_bad_ref_partial {m : Mesh} (hr : Reachable m) (ref : U32) :
    ((ref = 0#32 ∨ m.maxTiles ≤ (m.bits.decodeTile ref).toNat ∨
        m.salt (m.bits.decodeTile ref).toNat ≠ m.bits.decodeSalt ref) →
      m.removeTile ref = .ok ([], Status.failure ||| Status.invalidParam, m)) ∧
    (¬(ref = 0#32 ∨ m.maxTiles ≤ (m.bits.decodeTile ref).toNat ∨
        m.salt (m.bits.decodeTile ref).toNat ≠ m.bits.decodeSalt ref) →
      (m.tile (m.bits.decodeTile ref).toNat = none → m.removeTile ref = .panic) ∧
      (∀ t, m.tile (m.bits.decodeTile ref).toNat = some t →
        ∃ m', m.removeTile ref = .ok (t.data, Status.success, m'))) := by
  constructor
  · intro h
    unfold Mesh.removeTile
    by_cases h0 : ref = 0#32
    · rw [if_pos h0]
    · rw [if_neg h0]
      simp only
      by_cases h1 : m.maxTiles ≤ (m.bits.decodeTile ref).toNat
      · rw [if_pos h1]
      · rw [if_neg h1, if_pos]
        rcases h with h | h | h
        · exact absurd h h0
        · exact absurd h h1
        · exact h
  · intro h
    rw [not_or, not_or] at h
    obtain ⟨h0, h1, h2⟩ := h
    unfold Mesh.removeTile
    rw [if_neg h0]
    simp only
    rw [if_neg h1, if_neg h2]
    constructor
    · intro hn
      rw [hn]
    · intro t ht
      rw [ht]
      simp only
      obtain ⟨free, bucket, w⟩ := hr.inv
      generalize (m.bits.decodeTile ref).toNat = i at *
      have hmem : i ∈ bucket (tileHash m.lutMask t.header.x t.header.y) :=
        (w.bucket_iff _ i).2 ⟨by omega, t, ht, rfl⟩
      obtain ⟨l₁, l₂, hl⟩ := List.append_of_mem hmem
      have hc := w.cpos (tileHash m.lutMask t.header.x t.header.y)
      have hlen := w.bucket_len (tileHash m.lutMask t.header.x t.header.y)
      rw [hl] at hc hlen
      rw [walkTo_mem' hc hlen]
      exact ⟨_, rfl⟩

/-- Parameters of a small mesh used as witness. -/
def smallParams : NavMeshParams := ⟨0, 0, 0, 0, 0, 4#32, 16#32⟩

/-- A fresh mesh with 4 tiles of 16 polygons. -/
def smallMesh : Mesh :=
  { maxTiles := 4, bits := (initBits 4#32 16#32).2, lutMask := lutSize 4#32 - 1#32,
    salt := fun _ => 1#32, next := (initLoop 4 (fun _ => none) none).1, tile := fun _ => none,
    nextFree := (initLoop 4 (fun _ => none) none).2, pos := fun _ => none }

theorem smallMesh_fresh : Fresh smallParams smallMesh := by
  refine ⟨⟨(initBits 4#32 16#32).1, ?_, by decide⟩, by decide, by decide, by decide, by decide⟩
  unfold Mesh.init
  rw [if_neg (by decide)]
  rfl

theorem smallMesh_reachable : Reachable smallMesh :=
  ⟨smallParams, smallMesh, [], [], smallMesh_fresh, rfl⟩

/-- **C07** refuted: on a fresh mesh, `RemoveTile` of the reference of an empty slot panics. -/
theorem remove_never_crashes_refuted :
    ∃ m ref, Reachable m ∧ m.removeTile ref = .panic :=
  ⟨smallMesh, smallMesh.tileRef 0, smallMesh_reachable, rfl⟩

/-- **C08**: if a live tile was removed by its reference, then as long as its slot is still empty and
its location still free, `AddTile` of the returned data with `lastRef` the old reference succeeds,
returns the same reference, and every polygon reference into the tile is valid again exactly as
before (same polygon data). -/
theorem readd_restores {m m' : Mesh} (hr : Reachable m) (i : Nat) (t : Tile)
    (ht : m.tile i = some t) (hs : m.salt i ≠ 0#32) (hr' : Reachable m') (hcfg : SameCfg m m')
    (hempty : m'.tile i = none) (hfree : m'.lookup t.loc = some none) :
    ∃ m'', m'.addTile t.data (m.tileRef i) = .ok (Status.success, m.tileRef i, m'') ∧
      m''.tile i = some t ∧
      ∀ ref, (m.bits.decodeTile ref).toNat = i →
        m''.isValidPolyRef ref = m.isValidPolyRef ref ∧
        m''.tileAndPolyByRef ref = m.tileAndPolyByRef ref := by
  obtain ⟨free, bucket, w⟩ := hr.inv
  obtain ⟨free', bucket', w'⟩ := hr'.inv
  have hlt := w.range i t ht
  have hok := w.ok i t ht
  have hsum := w.wf.sum
  have hsalt := w.wf.salt
  have hi32 : (BitVec.ofNat 32 i).toNat = i := by
    rw [BitVec.toNat_ofNat, Nat.mod_eq_of_lt]
    calc i < m.maxTiles := hlt
      _ ≤ 2 ^ m.bits.tileBits.toNat := w.size
      _ ≤ 2 ^ 32 := Nat.pow_le_pow_right (by omega) (by omega)
  have hit : (BitVec.ofNat 32 i).toNat < 2 ^ m.bits.tileBits.toNat := by
    rw [hi32]; exact Nat.lt_of_lt_of_le hlt w.size
  have hp0 : (0#32 : U32).toNat < 2 ^ m.bits.polyBits.toNat := Nat.pow_pos (by omega)
  obtain ⟨d1, d2, _⟩ := IdBits.decode_encode w.wf (m.salt i) (BitVec.ofNat 32 i) 0#32 (w.salt i) hit
    hp0
  have hne := IdBits.encode_ne_zero w.wf (m.salt i) (BitVec.ofNat 32 i) 0#32 (w.salt i) hit hp0 hs
  have hmem : i ∈ free' := (w'.free_iff i).2 ⟨by rw [hcfg.max]; exact hlt, hempty⟩
  obtain ⟨l₁, l₂, rfl⟩ := List.append_of_mem hmem
  have hwalk := walkTo_mem' w'.cfree w'.free_len
  have hat : m'.tileAt t.header.x t.header.y t.header.layer = some none := by
    obtain ⟨r, hr1, hr2⟩ := tileAt_eq ⟨_, _, w'⟩ t.header.x t.header.y t.header.layer
    unfold Mesh.lookup at hfree
    simp only [Tile.loc] at hfree
    rw [hr1] at hfree ⊢
    cases r with
    | none => rfl
    | some j =>
      obtain ⟨u, hu, _⟩ := (hr2 j).1 rfl
      simp [hu] at hfree
  have halloc : m'.allocSlot (m.tileRef i) = .ok (i, { m' with
      next := (unlinkAt m'.next m'.nextFree l₁.getLast? i).1
      nextFree := (unlinkAt m'.next m'.nextFree l₁.getLast? i).2
      salt := upd m'.salt i (m.salt i) }) := by
    unfold Mesh.allocSlot Mesh.tileRef
    rw [if_neg hne, hcfg.bits]
    simp only [d1, d2, hi32]
    rw [if_neg (by rw [hcfg.max]; omega)]
    simp only [hwalk]
  have hadd : m'.addTile t.data (m.tileRef i) = .ok (Status.success, m.tileRef i, ({ m' with
      next := (unlinkAt m'.next m'.nextFree l₁.getLast? i).1
      nextFree := (unlinkAt m'.next m'.nextFree l₁.getLast? i).2
      salt := upd m'.salt i (m.salt i) } : Mesh).install i t.header t.body t.data) := by
    unfold Mesh.addTile
    rw [hok.hdr]
    simp only [hok.magic, hok.version, ne_eq, not_true, if_false, hat]
    rw [halloc]
    simp only [hok.body, if_neg hok.links]
    congr 3
    show m'.bits.encode (upd m'.salt i (m.salt i) i) _ _ = _
    rw [hcfg.bits, upd_same]
    rfl
  refine ⟨_, hadd, by simp [Mesh.install], ?_⟩
  intro ref href
  have e1 : (({ m' with
      next := (unlinkAt m'.next m'.nextFree l₁.getLast? i).1
      nextFree := (unlinkAt m'.next m'.nextFree l₁.getLast? i).2
      salt := upd m'.salt i (m.salt i) } : Mesh).install i t.header t.body t.data).tile i = some t := by
    simp [Mesh.install]
  constructor
  · unfold Mesh.isValidPolyRef
    simp only [Mesh.install, hcfg.bits, hcfg.max, href, upd_same, ht]
  · unfold Mesh.tileAndPolyByRef
    simp only [Mesh.install, hcfg.bits, hcfg.max, href, upd_same, ht]

/-! ## Non-vacuity: a concrete history -/

/-- Header of a minimal tile at `(x, 0, 0)` with one polygon and one link slot. -/
def tinyHeader (x : U32) : MeshHeader :=
  ⟨navMeshMagic, navMeshVersion, x, 0, 0, 0, 1, 0, 1, 0, 0, 0, 0, 0, 0, 0, 0, 0, 0, 0, 0, 0, 0, 0, 0⟩

/-- Its data: header, one polygon, one link. -/
def tinyData (x : U32) : Bytes := (tinyHeader x).words.flatMap le32 ++ zeros 44

/-- The tile stored for it. -/
def tinyTile (x : U32) : Tile :=
  ⟨tinyHeader x, ⟨[], [⟨0, [0, 0, 0, 0, 0, 0], [0, 0, 0, 0, 0, 0], 0, 0, 0⟩],
    [⟨0, 0, 0, 0, 0, 0⟩], [], [], [], [], []⟩, tinyData x⟩

set_option maxRecDepth 100000 in
theorem tinyTile_ok : TileOK (tinyTile 5) := ⟨rfl, rfl, by decide, rfl, rfl⟩

set_option maxRecDepth 100000 in
/-- Add, then remove, then add again at the same place: all three succeed, the reference of the first
generation is valid after the first call and stale after the others. -/
example : ∃ m₁ m₂ os₂,
    run smallMesh [.add (tinyData 5) 0#32] = .ok ([.added (tinyData 5) 64#32 Status.success], m₁) ∧
    m₁.isValidPolyRef 64#32 = true ∧
    run m₁ [.remove 64#32, .add (tinyData 5) 0#32] = .ok (os₂, m₂) ∧
    removals m₁.bits (m₁.bits.decodeTile 64#32).toNat
      [.remove 64#32, .add (tinyData 5) 0#32] os₂ = 1 ∧
    m₂.lookup (5, 0, 0) = some (some (tinyData 5, 128#32)) ∧
    m₂.isValidPolyRef 64#32 = false :=
  ⟨_, _, _, rfl, rfl, rfl, rfl, rfl, rfl⟩

end Verif.Detour
