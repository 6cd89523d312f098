/-
A mesh of a single tile: `NavMesh.InitForSingleTile` (detour/mesh.go:210-236), as far as the tile table and the references are
concerned. As in Detour/TileTable, links are left out.
-/
import Verif.Detour.TileBuild
import Verif.Detour.RefValidity

namespace Verif.Detour

/-- `params` (detour/mesh.go:222-227); `sub` is the subtraction of floats. -/
def singleParams (sub : U32 → U32 → U32) (h : MeshHeader) : NavMeshParams :=
  ⟨h.bmin0, h.bmin1, h.bmin2, sub h.bmax0 h.bmin0, sub h.bmax2 h.bmin2, 1#32, h.polyCount⟩

/-- `InitForSingleTile` (detour/mesh.go:210-236): the status, and the mesh unless the data was refused before it was touched. Data
shorter than a header makes `unserialize` panic. `flags` is handed to `AddTile` as the last reference. -/
def initSingle (sub : U32 → U32 → U32) (data : Bytes) (flags : U32) : Out (Status × Option Mesh) :=
  match MeshHeader.unserialize data with
  | none => .panic
  | some h =>
    if h.magic ≠ navMeshMagic then .ok (Status.failure ||| Status.wrongMagic, none)
    else if h.version ≠ navMeshVersion then .ok (Status.failure ||| Status.wrongVersion, none)
    else match Mesh.init (singleParams sub h) with
      | .fatal => .fatal
      | .panic => .panic
      | .hang => .hang
      | .ok (st, m) =>
        if st.failed then .ok (st, some m)
        else match m.addTile data flags with
          | .ok (st', _, m') => .ok (st', some m')
          | .fatal => .fatal
          | .panic => .panic
          | .hang => .hang

theorem single_fresh (sub : U32 → U32 → U32) (h : MeshHeader) (h1 : 1 ≤ h.polyCount.toNat) (h2 : h.polyCount.toNat ≤ 2 ^ 24) :
    ∃ m, Mesh.init (singleParams sub h) = .ok (Status.success, m) ∧ Fresh (singleParams sub h) m ∧ m.bits.tileBits.toNat = 0 ∧
      h.polyCount.toNat ≤ 2 ^ m.bits.polyBits.toNat ∧ m.bits.saltBits.toNat = min 31 (32 - Nat.clog 2 h.polyCount.toNat) ∧
      ∀ i, m.salt i = 1#32 := by
  have c1 : Nat.clog 2 (1#32 : U32).toNat = 0 := by decide
  have c2 : Nat.clog 2 h.polyCount.toNat ≤ 24 := Nat.clog_le_of_le_pow h2
  have hs : (initBits 1#32 h.polyCount).1 = Status.success := by
    rw [initBits]
    obtain ⟨-, -, hsalt⟩ := initBits_toNat 1#32 h.polyCount (by decide) (by decide) h1 (by omega) (by omega)
    simp only
    rw [if_neg]
    intro hlt
    have : (initBits 1#32 h.polyCount).2.saltBits < 8#32 := hlt
    rw [BitVec.lt_def, hsalt, c1] at this
    have e8 : (8#32 : U32).toNat = 8 := rfl
    rw [e8] at this
    omega
  obtain ⟨b1, b2, b3⟩ := initBits_toNat 1#32 h.polyCount (by decide) (by decide) h1 (by omega) (by omega)
  rw [c1] at b1 b3
  have hi : Mesh.init (singleParams sub h) = .ok ((initBits 1#32 h.polyCount).1,
      { maxTiles := 1, bits := (initBits 1#32 h.polyCount).2,
        lutMask := lutSize 1#32 - 1#32, salt := fun _ => 1#32,
        next := (initLoop 1 (fun _ => none) none).1, tile := fun _ => none,
        nextFree := (initLoop 1 (fun _ => none) none).2, pos := fun _ => none }) := rfl
  rw [hs] at hi
  refine ⟨_, hi, ⟨⟨_, hi, by decide⟩, le_refl 1, h1, ?_, ?_⟩, b1, ?_, b3, fun _ => rfl⟩
  · show h.polyCount.toNat ≤ 2 ^ 31
    omega
  · show Nat.clog 2 (1#32 : U32).toNat + Nat.clog 2 h.polyCount.toNat ≤ 32
    omega
  · show h.polyCount.toNat ≤ 2 ^ (initBits 1#32 h.polyCount).2.polyBits.toNat
    rw [b2]
    exact Nat.le_pow_clog (by decide) _

/-- **C159** A mesh of a single tile, without flags. Whatever the tile holds (up to 2^24 polygons), the call succeeds; the mesh then holds
the tile at its own location and nothing elsewhere, and every polygon of the tile has a valid reference that leads back to it. -/
theorem single_tile_partial (sub : U32 → U32 → U32) (t : Tile) (ht : TileOK t) (h1 : 1 ≤ t.header.polyCount.toNat)
    (h2 : t.header.polyCount.toNat ≤ 2 ^ 24) :
    ∃ m, initSingle sub t.data 0#32 = .ok (Status.success, some m) ∧ Sound m ∧ HoldsAt m t.loc (some t.data) ∧
      (∀ l, l ≠ t.loc → HoldsAt m l none) ∧
      ∀ ip : U32, ip.toNat < t.header.polyCount.toNat → ∃ p, t.body.polys[ip.toNat]? = some p ∧
        m.isValidPolyRef (m.bits.encode 1#32 0#32 ip) = true ∧
        m.tileAndPolyByRef (m.bits.encode 1#32 0#32 ip) = some (Status.success, some (0, ip.toNat, p)) := by
  obtain ⟨m, hi, hf, b1, b2, -, b4⟩ := single_fresh sub t.header h1 h2
  have hin : Installable t.data := ⟨t, rfl, ht⟩
  have hmax : m.maxTiles = 1 := hf.max
  obtain ⟨⟨ref, m', ha, -⟩, -⟩ := (add_capacity hf.sound.reach t.data hin (fun l _ => hf.lookup l)).imp (fun f => f (by rw [hf.live, hmax]; decide)) id
  obtain ⟨⟨ref', m'', ha', hs, -, -, l1, l2⟩, -⟩ := (add_free hf.sound hin (locOf_tile ht) (hf.lookup _)).imp (fun f => f (by rw [hf.live, hmax]; decide)) id
  have em : m' = m'' := by
    unfold addData at ha'
    rw [ha] at ha'
    cases ha'
    rfl
  subst em
  rcases addTile_cases hf.sound.reach.inv ha with ⟨-, -, hst⟩ | ⟨-, i, t', hd, had, -⟩
  · exact absurd hst (by decide)
  have ei : i = 0 := by have := had.lt; omega
  subst ei
  have et : t'.header = t.header ∧ t'.body = t.body := by
    have e1 : t.header = t'.header := by
      have := had.ok.hdr
      rw [hd, ht.hdr] at this
      exact Option.some.inj this
    have e2 := had.ok.body
    rw [hd, ← e1, ht.body] at e2
    exact ⟨e1.symm, (Option.some.inj e2).symm⟩
  have hbits : m'.bits = m.bits := had.cfg.bits
  have hsalt : m'.salt 0 = 1#32 := by
    rw [had.salt0 rfl, b4]
  have htile : m'.tile 0 = some t' := by rw [had.tile, upd_same]
  refine ⟨m', ?_, hs, ⟨_, l1, rfl⟩, fun l hl => ⟨none, by rw [l2 l hl, hf.lookup], rfl⟩, fun ip hip => ?_⟩
  · unfold initSingle
    rw [ht.hdr]
    simp only [ht.magic, ht.version, ne_eq, not_true_eq_false, if_false, hi]
    rw [if_neg (by decide), ha]
  · obtain ⟨free, bucket, w⟩ := hs.reach.inv
    have hp : ip.toNat < 2 ^ m'.bits.polyBits.toNat := by
      rw [hbits]
      omega
    have hs1 : (1#32 : U32).toNat < 2 ^ m'.bits.saltBits.toNat := by
      have := w.salt 0
      rw [hsalt] at this
      exact this
    have ht0 : (0#32 : U32).toNat < 2 ^ m'.bits.tileBits.toNat := Nat.pow_pos (by decide)
    obtain ⟨d1, d2, d3⟩ := IdBits.decode_encode w.wf 1#32 0#32 ip hs1 ht0 hp
    have hv : m'.isValidPolyRef (m'.bits.encode 1#32 0#32 ip) = true := by
      rw [valid_iff_decode, d1, d2, d3]
      refine ⟨IdBits.encode_ne_zero w.wf _ _ _ hs1 ht0 hp (by decide), ?_, t', htile, hsalt, by rw [et.1]; exact hip⟩
      rw [had.cfg.max, hmax]
      decide
    obtain ⟨u, p, q1, q2, q3⟩ := (lookup_iff_valid hs.reach _).1 hv
    rw [d2, d3] at q1
    rw [d2] at q2
    rw [d3] at q3
    have : u = t' := by
      have e : m'.tile 0 = some u := q2
      rw [htile] at e
      exact (Option.some.inj e).symm
    subst this
    rw [et.2] at q3
    exact ⟨p, q3, hv, q1⟩

/-- Data that is not a tile of this version is refused before the mesh is touched. -/
theorem single_refuses (sub : U32 → U32 → U32) (data : Bytes) (flags : U32) (h : MeshHeader) (hh : MeshHeader.unserialize data = some h)
    (hbad : h.magic ≠ navMeshMagic ∨ h.version ≠ navMeshVersion) :
    ∃ st, initSingle sub data flags = .ok (st, none) ∧ st.failed = true ∧
      (h.magic ≠ navMeshMagic → st.detail Status.wrongMagic = true) ∧ (h.magic = navMeshMagic → st.detail Status.wrongVersion = true) := by
  unfold initSingle
  rw [hh]
  simp only
  by_cases hm : h.magic = navMeshMagic
  · have hv : h.version ≠ navMeshVersion := by tauto
    rw [if_neg (by simpa using hm), if_pos hv]
    exact ⟨_, rfl, by decide, fun h => absurd hm h, fun _ => by decide⟩
  · rw [if_pos hm]
    exact ⟨_, rfl, by decide, fun _ => by decide, fun h => absurd h hm⟩

/-- The size of the tile does not matter here. -/
theorem initSingle_sub (sub sub' : U32 → U32 → U32) (data : Bytes) (flags : U32) : initSingle sub data flags = initSingle sub' data flags := by
  unfold initSingle
  cases MeshHeader.unserialize data <;> rfl

/-- A tile of two polygons. -/
def twoTile : Tile :=
  ⟨⟨navMeshMagic, navMeshVersion, 0, 0, 0, 0, 2, 0, 1, 0, 0, 0, 0, 0, 0, 0, 0, 0, 0, 0, 0, 0, 0, 0, 0⟩,
    ⟨[], [⟨0, [0, 0, 0, 0, 0, 0], [0, 0, 0, 0, 0, 0], 0, 0, 0⟩, ⟨0, [0, 0, 0, 0, 0, 0], [0, 0, 0, 0, 0, 0], 0, 0, 0⟩], [⟨0, 0, 0, 0, 0, 0⟩], [], [], [], [], []⟩,
    (⟨navMeshMagic, navMeshVersion, 0, 0, 0, 0, 2, 0, 1, 0, 0, 0, 0, 0, 0, 0, 0, 0, 0, 0, 0, 0, 0, 0, 0⟩ : MeshHeader).words.flatMap le32 ++ zeros 76⟩

theorem twoTile_ok : TileOK twoTile := ⟨by decide +kernel, by decide +kernel, by decide, rfl, rfl⟩

/-- The mesh of that tile, without flags. -/
example (sub : U32 → U32 → U32) : ∃ m, initSingle sub twoTile.data 0#32 = .ok (Status.success, some m) ∧
    m.isValidPolyRef (m.bits.encode 1#32 0#32 1#32) = true := by
  obtain ⟨m, h, -, -, -, hp⟩ := single_tile_partial sub twoTile twoTile_ok (by decide) (by decide)
  obtain ⟨p, -, hv, -⟩ := hp 1#32 (by decide)
  exact ⟨m, h, hv⟩

/-- **C159** (refuted in full). The flags end up as the last reference: with the flag 1 (the tile owns its data) the tile of two
polygons gets salt 0, so that its reference is 0, the null reference, and its first polygon cannot be referred to. -/
theorem single_tile_refuted (sub : U32 → U32 → U32) : ∃ t : Tile, TileOK t ∧ t.header.polyCount = 2#32 ∧
    ∃ m, initSingle sub t.data 1#32 = .ok (Status.success, some m) ∧ m.lookup t.loc = some (some (t.data, 0#32)) ∧
      m.isValidPolyRef (m.tileRef 0) = false := by
  have key : (match initSingle (fun _ _ => 0#32) twoTile.data 1#32 with
      | .ok (st, some m) => decide (st = Status.success) && decide (m.lookup twoTile.loc = some (some (twoTile.data, 0#32))) &&
          !m.isValidPolyRef (m.tileRef 0)
      | _ => false) = true := by decide +kernel
  have es : initSingle sub twoTile.data 1#32 = initSingle (fun _ _ => 0#32) twoTile.data 1#32 := initSingle_sub _ _ _ _
  rw [← es] at key
  refine ⟨twoTile, twoTile_ok, rfl, ?_⟩
  generalize initSingle sub twoTile.data 1#32 = o at key
  cases o with
  | ok v =>
    obtain ⟨st, _ | m⟩ := v
    · cases key
    · simp only [Bool.and_eq_true, decide_eq_true_eq, Bool.not_eq_true'] at key
      exact ⟨m, by rw [key.1.1], key.1.2, key.2⟩
  | fatal => cases key
  | panic => cases key
  | hang => cases key

end Verif.Detour
