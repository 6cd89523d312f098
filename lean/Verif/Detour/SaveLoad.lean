/-
Saving a mesh with `ToWriter` and loading it with `Decode`, end to end: the byte-level model of
`Stream.lean` with the tile table of `TileTable.lean` plugged in for `Init` and `AddTile`.
-/
import Verif.Detour.TileTableProps

namespace Verif.Detour

/-! ## Model -/

/-- `status := mesh.Init(&hdr.Params); if StatusFailed(status)` (detour/mesh.go:88-91). -/
def initForDecode (p : NavMeshParams) : Option Mesh :=
  match Mesh.init p with
  | .ok (st, m) => if st.failed then none else some m
  | _ => none

/-- `status, _ := mesh.AddTile(...); if status&Failure != 0` (detour/mesh.go:117-120); process exit
and panic are not distinguished here. -/
def addForDecode (m : Mesh) (d : Bytes) (r : U32) : Res Mesh :=
  match m.addTile d r with
  | .ok (st, _, m') => if st.failed then .err else .ok m'
  | _ => .panic

/-- The slot as `ToWriter` sees it; `DataSize = 0` when empty (detour/mesh.go:157-171, 397, 525). -/
def slotOf (m : Mesh) (i : Nat) : Slot :=
  match m.tile i with
  | none => ⟨m.tileRef i, 0#32, ⟨0, 0, 0, 0, 0, 0, 0, 0, 0, 0, 0, 0, 0, 0, 0, 0, 0, 0, 0, 0, 0, 0, 0, 0,
      0⟩, ⟨[], [], [], [], [], [], [], []⟩⟩
  | some t => ⟨m.tileRef i, BitVec.ofNat 32 t.data.length, t.header, t.body⟩

/-- `m.ToWriter` on a mesh initialised with parameters `p`. -/
def saveMesh (p : NavMeshParams) (m : Mesh) : Option Bytes :=
  toWriter p ((List.range m.maxTiles).map (slotOf m))

/-- `Decode` of a file delivered in one piece. -/
def loadMesh (file : Bytes) : Res Mesh := decode initForDecode addForDecode ⟨[file], false⟩

/-! ## Lemmas -/

/-- `AddTile` with `lastRef` naming an empty slot, at a free location, of good data. -/
theorem addTile_lastRef {m : Mesh} (hi : Inv m) (i : Nat) (t : Tile) (hok : TileOK t) (ref : U32)
    (hne : ref ≠ 0#32) (hidx : (m.bits.decodeTile ref).toNat = i) (hlt : i < m.maxTiles)
    (hempty : m.tile i = none)
    (hfree : ∀ j u, m.tile j = some u → u.loc ≠ t.loc) :
    ∃ m', m.addTile t.data ref = .ok (Status.success, m'.tileRef i, m') ∧ Added m m' ref i t := by
  obtain ⟨free, bucket, w⟩ := hi
  have hmem : i ∈ free := (w.free_iff i).2 ⟨hlt, hempty⟩
  obtain ⟨l₁, l₂, rfl⟩ := List.append_of_mem hmem
  have hwalk := walkTo_mem' w.cfree w.free_len
  have hat : m.tileAt t.header.x t.header.y t.header.layer = some none := by
    obtain ⟨r, hr1, hr2⟩ := tileAt_eq ⟨_, _, w⟩ t.header.x t.header.y t.header.layer
    rw [hr1]
    cases r with
    | none => rfl
    | some j =>
      obtain ⟨u, hu, hx, hy, hl⟩ := (hr2 j).1 rfl
      exact absurd (by unfold Tile.loc; rw [hx, hy, hl]) (hfree j u hu)
  have halloc : m.allocSlot ref = .ok (i, { m with
      next := (unlinkAt m.next m.nextFree l₁.getLast? i).1
      nextFree := (unlinkAt m.next m.nextFree l₁.getLast? i).2
      salt := upd m.salt i (m.bits.decodeSalt ref) }) := by
    unfold Mesh.allocSlot
    rw [if_neg hne]
    simp only [hidx]
    rw [if_neg (by omega)]
    simp only [hwalk]
  have hadd : m.addTile t.data ref = .ok (Status.success, (({ m with
      next := (unlinkAt m.next m.nextFree l₁.getLast? i).1
      nextFree := (unlinkAt m.next m.nextFree l₁.getLast? i).2
      salt := upd m.salt i (m.bits.decodeSalt ref) } : Mesh).install i t.header t.body
        t.data).tileRef i, ({ m with
      next := (unlinkAt m.next m.nextFree l₁.getLast? i).1
      nextFree := (unlinkAt m.next m.nextFree l₁.getLast? i).2
      salt := upd m.salt i (m.bits.decodeSalt ref) } : Mesh).install i t.header t.body t.data) := by
    unfold Mesh.addTile
    rw [hok.hdr]
    simp only [hok.magic, hok.version, ne_eq, not_true, if_false, hat]
    rw [halloc]
    simp only [hok.body, if_neg hok.links]
  refine ⟨_, hadd, ?_⟩
  rcases addTile_cases ⟨_, _, w⟩ hadd with ⟨_, _, h⟩ | ⟨_, j, u, hud, ha, _⟩
  · exact absurd h (by decide)
  · have hj : j = i := by rw [(ha.saltR hne).1, hidx]
    subst hj
    have hu : u = t := by
      have h1 := ha.ok.hdr
      have h2 := ha.ok.body
      rw [hud, hok.hdr] at h1
      simp only [Option.some.injEq] at h1
      rw [hud, ← h1, hok.body] at h2
      simp only [Option.some.injEq] at h2
      cases u
      cases t
      simp only [Tile.mk.injEq]
      exact ⟨h1.symm, h2.symm, hud⟩
    rw [hu] at ha
    exact ha

/-- What must hold of the live tiles for a file to be loadable. -/
structure Saveable (m : Mesh) : Prop where
  tiles : ∀ i t, m.tile i = some t → Consistent t.header t.body ∧ t.body.offMeshCons = [] ∧
    100 + t.body.size ≤ t.data.length ∧ t.data.length < 2 ^ 31
  salts : ∀ i t, m.tile i = some t → m.salt i ≠ 0#32

theorem take_drop_header (s : MeshHeader) (n : Nat) (hn : 100 ≤ n) :
    s.serialize (zeros n) = some (s.words.flatMap le32 ++ zeros (n - 100)) := by
  rw [s.serialize_eq _ (by simpa [zeros] using hn), drop_zeros]

/-- Saved data of a live slot parses back to the same header and body. -/
theorem slot_data_ok {m : Mesh} (hi : Inv m) (hs : Saveable m) {i : Nat} {t : Tile}
    (ht : m.tile i = some t) :
    ∃ d, (slotOf m i).data = some d ∧ TileOK ⟨t.header, t.body, d⟩ := by
  obtain ⟨h1, h2, h3, h4⟩ := hs.tiles i t ht
  obtain ⟨free, bucket, w⟩ := hi
  have hok := w.ok i t ht
  have hlen : mkLen (BitVec.ofNat 32 t.data.length) = some t.data.length :=
    mkLen_eq _ _ (by rw [BitVec.toNat_ofNat, Nat.mod_eq_of_lt (by omega)]) h4
  obtain ⟨out, o1, o2, o3⟩ := tile_roundtrip_partial t.header t.body h1 h2 (t.data.length - 100)
    (by omega)
  have hl : (t.header.words.flatMap le32).length = 100 := by rw [length_words]; rfl
  refine ⟨t.header.words.flatMap le32 ++ out, ?_, ?_⟩
  · unfold Slot.data slotOf
    rw [ht]
    simp only [hlen, take_drop_header _ _ (show 100 ≤ t.data.length by omega),
      Option.bind_eq_bind, Option.bind_some]
    rw [List.drop_left' hl, o1]
    simp only [Option.bind_some]
    rw [List.take_left' hl]
  · refine ⟨t.header.unserialize_words out, ?_, hok.links, hok.magic, hok.version⟩
    show TileBody.unserialize t.header ((t.header.words.flatMap le32 ++ out).drop 100) = _
    rw [List.drop_left' hl]
    exact o3

theorem InvW.encode_facts {m : Mesh} {free bucket} (w : InvW m free bucket) {i : Nat}
    (hlt : i < m.maxTiles) :
    m.bits.decodeSalt (m.tileRef i) = m.salt i ∧
    (m.bits.decodeTile (m.tileRef i)).toNat = i ∧ (m.salt i ≠ 0#32 → m.tileRef i ≠ 0#32) := by
  have hsum := w.wf.sum
  have hsalt := w.wf.salt
  have hi32 : (BitVec.ofNat 32 i).toNat = i := by
    rw [BitVec.toNat_ofNat, Nat.mod_eq_of_lt]
    calc i < m.maxTiles := hlt
      _ ≤ 2 ^ m.bits.tileBits.toNat := w.size
      _ ≤ 2 ^ 32 := Nat.pow_le_pow_right (by omega) (by omega)
  have hit : (BitVec.ofNat 32 i).toNat < 2 ^ m.bits.tileBits.toNat := by
    rw [hi32]; exact Nat.lt_of_lt_of_le hlt w.size
  have hp0 : (0#32 : U32).toNat < 2 ^ m.bits.polyBits.toNat := Nat.pow_pos (by omega)
  obtain ⟨d1, d2, _⟩ := IdBits.decode_encode w.wf (m.salt i) (BitVec.ofNat 32 i) 0#32 (w.salt i) hit
    hp0
  refine ⟨d1, ?_, fun hs => IdBits.encode_ne_zero w.wf _ _ _ (w.salt i) hit hp0 hs⟩
  unfold Mesh.tileRef
  rw [d2, hi32]

/-- The tile of slot `i` agrees up to the raw data. -/
def SameTile (a b : Option Tile) : Prop :=
  a.map (fun t => (t.header, t.body)) = b.map (fun t => (t.header, t.body))

theorem load_fold {m : Mesh} (hi : Inv m) (hs : Saveable m) (is : List Nat) (hnd : is.Nodup)
    (hlive : ∀ i ∈ is, ∃ t, m.tile i = some t) (mk : Mesh) (hk : Inv mk) (hcfg : SameCfg m mk)
    (hnone : ∀ i ∈ is, mk.tile i = none)
    (hsub : ∀ j u, mk.tile j = some u → ∃ t, m.tile j = some t ∧ u.header = t.header) :
    ∃ m', (is.map (slotOf m)).foldlM (fun m s => match s.data with
        | none => none
        | some d => match addForDecode m d s.ref with | .ok m => some m | _ => none) mk = some m' ∧
      Inv m' ∧ SameCfg m m' ∧
      (∀ j, j ∉ is → m'.tile j = mk.tile j ∧ m'.salt j = mk.salt j) ∧
      (∀ j ∈ is, SameTile (m'.tile j) (m.tile j) ∧ m'.salt j = m.salt j) := by
  induction is generalizing mk with
  | nil => exact ⟨mk, rfl, hk, hcfg, fun _ _ => ⟨rfl, rfl⟩, by simp⟩
  | cons i is ih =>
    rw [List.nodup_cons] at hnd
    obtain ⟨t, ht⟩ := hlive i (by simp)
    obtain ⟨d, hd, hok⟩ := slot_data_ok hi hs ht
    obtain ⟨free, bucket, w⟩ := hi
    have hlt := w.range i t ht
    obtain ⟨e1, e2, e3⟩ := w.encode_facts hlt
    have href := e3 (hs.salts i t ht)
    have hfree : ∀ j u, mk.tile j = some u → u.loc ≠ (⟨t.header, t.body, d⟩ : Tile).loc := by
      intro j u hu hl
      obtain ⟨t', ht', hh⟩ := hsub j u hu
      unfold Tile.loc at hl
      simp only [Prod.mk.injEq, hh] at hl
      have : j = i := w.uniq j i t' t ht' ht hl.1 hl.2.1 hl.2.2
      subst this
      rw [hnone j (by simp)] at hu
      simp at hu
    obtain ⟨m1, ha, hadd⟩ := addTile_lastRef hk i ⟨t.header, t.body, d⟩ hok (m.tileRef i) href
      (by rw [hcfg.bits]; exact e2) (by rw [hcfg.max]; exact hlt) (hnone i (by simp)) hfree
    have hstep : addForDecode mk d (m.tileRef i) = .ok m1 := by
      unfold addForDecode
      rw [ha]
      rfl
    have hsalt1 : m1.salt i = m.salt i := by
      rw [(hadd.saltR href).2, hcfg.bits, e1]
    obtain ⟨m', f1, f2, f3, f4, f5⟩ := ih hnd.2 (fun j hj => hlive j (by simp [hj])) m1 hadd.inv
      (hcfg.trans hadd.cfg)
      (fun j hj => by
        rw [hadd.tile, upd_ne _ _ (by rintro rfl; exact hnd.1 hj)]
        exact hnone j (by simp [hj]))
      (fun j u hu => by
        rw [hadd.tile] at hu
        by_cases hj : j = i
        · subst hj
          rw [upd_same] at hu
          simp only [Option.some.injEq] at hu
          exact ⟨t, ht, by rw [← hu]⟩
        · rw [upd_ne _ _ hj] at hu
          exact hsub j u hu)
    refine ⟨m', ?_, f2, f3, ?_, ?_⟩
    · rw [List.map_cons, List.foldlM_cons, hd]
      have hr : (slotOf m i).ref = m.tileRef i := by unfold slotOf; rw [ht]
      simp only [hr, hstep]
      exact f1
    · intro j hj
      rw [List.mem_cons, not_or] at hj
      obtain ⟨g1, g2⟩ := f4 j hj.2
      rw [g1, g2, hadd.tile, upd_ne _ _ hj.1, hadd.salt j hj.1]
      exact ⟨rfl, rfl⟩
    · intro j hj
      rcases List.mem_cons.1 hj with rfl | hj
      · obtain ⟨g1, g2⟩ := f4 j hnd.1
        refine ⟨?_, by rw [g2, hsalt1]⟩
        rw [g1, hadd.tile, upd_same, ht]
        rfl
      · exact f5 j hj

theorem live_slots {m : Mesh} (hs : Saveable m) :
    live ((List.range m.maxTiles).map (slotOf m))
      = ((List.range m.maxTiles).filter fun i => (m.tile i).isSome).map (slotOf m) := by
  unfold live
  rw [List.filter_map]
  congr 1
  apply List.filter_congr
  intro i _
  simp only [Function.comp]
  unfold slotOf
  cases ht : m.tile i with
  | none => rfl
  | some t =>
    obtain ⟨_, _, h3, h4⟩ := hs.tiles i t ht
    simp only [Option.isSome_some, ne_eq, decide_eq_true_eq]
    intro hc
    have := congrArg BitVec.toNat hc
    rw [BitVec.toNat_ofNat, Nat.mod_eq_of_lt (by omega)] at this
    simp at this
    rw [this] at h3
    simp at h3

theorem writeSlots_isSome {m : Mesh} (hi : Inv m) (hs : Saveable m) (is : List Nat) :
    ∃ b, writeSlots (is.map (slotOf m)) = some b := by
  induction is with
  | nil => exact ⟨[], rfl⟩
  | cons i is ih =>
    obtain ⟨b, hb⟩ := ih
    simp only [List.map_cons, writeSlots, hb]
    have : ∃ a, writeSlot (slotOf m i) = some a := by
      unfold writeSlot
      split
      · exact ⟨_, rfl⟩
      · rename_i hne
        cases ht : m.tile i with
        | none => unfold slotOf at hne; rw [ht] at hne; simp at hne
        | some t =>
          obtain ⟨d, hd, _⟩ := slot_data_ok hi hs ht
          rw [tileHeader_bytes, hd]
          exact ⟨_, rfl⟩
    obtain ⟨a, ha⟩ := this
    rw [ha]
    exact ⟨_, rfl⟩

theorem initForDecode_fresh {p : NavMeshParams} {m0 : Mesh} (hf : Fresh p m0) :
    initForDecode p = some m0 := by
  obtain ⟨st, h1, h2⟩ := hf.init
  unfold initForDecode
  rw [h1]
  simp only
  rw [if_neg]
  have hst : st = (initBits p.maxTiles p.maxPolys).1 := by
    unfold Mesh.init at h1
    split at h1
    · simp at h1
    · simp only [Out.ok.injEq, Prod.mk.injEq] at h1
      exact h1.1.symm
  have hcase : (initBits p.maxTiles p.maxPolys).1 = (Status.failure ||| Status.invalidParam) ∨
      (initBits p.maxTiles p.maxPolys).1 = Status.success := by
    unfold initBits
    simp only
    generalize (if 31#32 < 32#32 - idBits p.maxTiles - idBits p.maxPolys then 31#32
      else 32#32 - idBits p.maxTiles - idBits p.maxPolys) = sb
    split
    · exact Or.inl rfl
    · exact Or.inr rfl
  rcases hcase with hc | hc
  · rw [hst, hc] at h2
    exact absurd h2 (by decide)
  · rw [hst, hc]
    decide

theorem same_answers {m m' : Mesh} (hi : Inv m) (f2 : Inv m') (f3 : SameCfg m m')
    (hsame : ∀ i, SameTile (m'.tile i) (m.tile i))
    (hsalt : ∀ i t, m.tile i = some t → m'.salt i = m.salt i) :
    (∀ ref, m'.isValidPolyRef ref = m.isValidPolyRef ref) ∧
      (∀ ref, m'.tileAndPolyByRef ref = m.tileAndPolyByRef ref) ∧
      (∀ x y l, m'.tileAt x y l = m.tileAt x y l ∧ m'.tileRefAt x y l = m.tileRefAt x y l) := by
  have htile : ∀ i, (m.tile i = none ∧ m'.tile i = none) ∨
      ∃ t u, m.tile i = some t ∧ m'.tile i = some u ∧ u.header = t.header ∧ u.body = t.body := by
    intro i
    have := hsame i
    unfold SameTile at this
    cases ht : m.tile i with
    | none =>
      rw [ht] at this
      simp only [Option.map_none, Option.map_eq_none_iff] at this
      exact Or.inl ⟨rfl, this⟩
    | some t =>
      rw [ht] at this
      simp only [Option.map_some, Option.map_eq_some_iff, Prod.mk.injEq] at this
      obtain ⟨u, hu, h1, h2⟩ := this
      exact Or.inr ⟨t, u, rfl, hu, h1, h2⟩
  have hat : ∀ x y l, m'.tileAt x y l = m.tileAt x y l := by
    intro x y l
    obtain ⟨r, r1, r2⟩ := tileAt_eq f2 x y l
    obtain ⟨r', r1', r2'⟩ := tileAt_eq hi x y l
    rw [r1, r1']
    congr 1
    apply Option.ext
    intro i
    rw [r2 i, r2' i]
    rcases htile i with ⟨h1, h2⟩ | ⟨t, u, h1, h2, h3, h4⟩
    · rw [h1, h2]
    · rw [h1, h2]
      simp [h3]
  refine ⟨?_, ?_, ?_⟩
  · intro ref
    unfold Mesh.isValidPolyRef
    simp only [f3.bits, f3.max]
    split
    · rfl
    split
    · rfl
    rcases htile (m.bits.decodeTile ref).toNat with ⟨h1, h2⟩ | ⟨t, u, h1, h2, h3, h4⟩
    · rw [h1, h2]
    · rw [h1, h2]
      simp only [h3, hsalt _ t h1]
  · intro ref
    unfold Mesh.tileAndPolyByRef
    simp only [f3.bits, f3.max]
    split
    · rfl
    split
    · rfl
    rcases htile (m.bits.decodeTile ref).toNat with ⟨h1, h2⟩ | ⟨t, u, h1, h2, h3, h4⟩
    · rw [h1, h2]
    · rw [h1, h2]
      simp only [h3, h4, hsalt _ t h1]
  · intro x y l
    refine ⟨hat x y l, ?_⟩
    unfold Mesh.tileRefAt
    rw [hat x y l]
    obtain ⟨r, r1, r2⟩ := tileAt_eq hi x y l
    rw [r1]
    cases r with
    | none => rfl
    | some i =>
      obtain ⟨t, ht, _⟩ := (r2 i).1 rfl
      simp only [Option.map_some, Mesh.tileRef, f3.bits, hsalt i t ht]

/-! ## Properties -/

/-- **C14** (end to end): a reachable mesh whose tiles have no off-mesh connections can be saved, and
`Decode` of the file gives a mesh in which every slot holds the same tile under the same salt, so
that every tile lookup, every polygon reference and every `TileAndPolyByRef` answer is the same. -/
theorem save_load {p : NavMeshParams} {m0 m : Mesh} (hf : Fresh p m0) {ops : List Op}
    {os : List Obs} (h : run m0 ops = .ok (os, m)) (hs : Saveable m) :
    ∃ file m', saveMesh p m = some file ∧ loadMesh file = .ok m' ∧
      BitVec.ofNat 32 file.length = meshSize ((List.range m.maxTiles).map (slotOf m)) ∧
      (∀ i, SameTile (m'.tile i) (m.tile i)) ∧
      (∀ ref, m'.isValidPolyRef ref = m.isValidPolyRef ref) ∧
      (∀ ref, m'.tileAndPolyByRef ref = m.tileAndPolyByRef ref) ∧
      (∀ x y l, m'.tileAt x y l = m.tileAt x y l ∧ m'.tileRefAt x y l = m.tileRefAt x y l) := by
  have hi0 : Inv m0 := ⟨_, _, hf.inv⟩
  obtain ⟨hi, hcfg⟩ := run_inv hi0 h
  obtain ⟨b, hb⟩ := writeSlots_isSome hi hs (List.range m.maxTiles)
  have hsave : ∃ file, saveMesh p m = some file := by
    unfold saveMesh toWriter
    rw [setHeader_bytes, hb]
    exact ⟨_, rfl⟩
  obtain ⟨file, hfile⟩ := hsave
  have hinit := initForDecode_fresh hf
  have hc0 : SameCfg m m0 := ⟨hcfg.bits.symm, hcfg.max.symm, hcfg.mask.symm⟩
  obtain ⟨m', f1, f2, f3, f4, f5⟩ := load_fold hi hs
    ((List.range m.maxTiles).filter fun i => (m.tile i).isSome) (List.nodup_range.filter _)
    (fun i hi' => by
      have := (List.mem_filter.1 hi').2
      exact Option.isSome_iff_exists.1 this)
    m0 hi0 hc0 (fun i _ => hf.empty i) (fun j u hu => by rw [hf.empty j] at hu; simp at hu)
  have hrange : ∀ i t, m.tile i = some t → i < m.maxTiles := by
    obtain ⟨_, _, w⟩ := hi
    exact w.range
  have hmem : ∀ i, i ∈ ((List.range m.maxTiles).filter fun i => (m.tile i).isSome) ↔
      ∃ t, m.tile i = some t := by
    intro i
    rw [List.mem_filter, List.mem_range, Option.isSome_iff_exists]
    exact ⟨fun h => h.2, fun ⟨t, ht⟩ => ⟨hrange i t ht, t, ht⟩⟩
  have hsame : ∀ i, SameTile (m'.tile i) (m.tile i) := by
    intro i
    by_cases hl : ∃ t, m.tile i = some t
    · exact (f5 i ((hmem i).2 hl)).1
    · have hn : m.tile i = none := by
        cases ht : m.tile i with
        | none => rfl
        | some t => exact absurd ⟨t, ht⟩ hl
      rw [(f4 i (fun hc => hl ((hmem i).1 hc))).1, hf.empty i, hn]
      rfl
  have hsalt : ∀ i t, m.tile i = some t → m'.salt i = m.salt i :=
    fun i t ht => (f5 i ((hmem i).2 ⟨t, ht⟩)).2
  obtain ⟨a1, a2, a3⟩ := same_answers hi f2 f3 hsame hsalt
  refine ⟨file, m', hfile, ?_, (toWriter_size p _ file hfile).1, hsame, a1, a2, a3⟩
  · refine decode_toWriter initForDecode addForDecode p _ file hfile ?_ ?_ m0 m' hinit ?_
    · intro s hs'
      rw [live_slots hs, List.mem_map] at hs'
      obtain ⟨i, hi', rfl⟩ := hs'
      obtain ⟨t, ht⟩ := (hmem i).1 hi'
      have : (slotOf m i).ref = m.tileRef i := by unfold slotOf; rw [ht]
      rw [this]
      obtain ⟨_, _, w⟩ := hi
      exact (w.encode_facts (w.range i t ht)).2.2 (hs.salts i t ht)
    · rw [live_slots hs, List.length_map]
      have h1 := List.length_filter_le (fun i => (m.tile i).isSome) (List.range m.maxTiles)
      rw [List.length_range] at h1
      have h2 : m.maxTiles = p.maxTiles.toNat := by rw [hcfg.max, hf.max]
      have h3 := p.maxTiles.isLt
      omega
    · rw [live_slots hs]
      refine Eq.trans (congrArg (fun f => List.foldlM f m0 _) ?_) f1
      funext m s
      cases s.data with
      | none => rfl
      | some d => cases h : addForDecode m d s.ref <;> simp only [h]

set_option maxRecDepth 100000 in
/-- The hypotheses are met by a mesh with one tile. -/
example : ∃ m os, run smallMesh [.add (tinyData 5) 0#32] = .ok (os, m) ∧ Saveable m := by
  refine ⟨_, _, rfl, ?_, ?_⟩
  · intro i t ht
    have ht' : (if i = 0 then some (tinyTile 5) else none) = some t := ht
    split at ht'
    · simp only [Option.some.injEq] at ht'
      rw [← ht']
      refine ⟨⟨rfl, rfl, rfl, rfl, rfl, rfl, rfl, rfl, by decide, by decide, by decide⟩, rfl,
        by decide, by decide⟩
    · simp at ht'
  · intro i t ht
    exact (by decide : (1#32 : U32) ≠ 0#32)

/-! ## Files with a tile the mesh refuses -/

/-- The result, when there is one. -/
def okOf {M : Type} : Res M → Option M
  | .ok m => some m
  | _ => none

/-- The bytes of one tile record of a file: the 8-byte record header, then the data. -/
def fileRecord (r : Slot × Bytes) : Bytes :=
  le32 r.1.ref ++ le32 r.1.dataSize ++ r.2

theorem fileRecord_eq (r : Slot × Bytes) :
    fileRecord r = (TileHeader.mk r.1.ref r.1.dataSize).words.flatMap le32 ++ r.2 := by
  simp [fileRecord, TileHeader.words]

theorem decodeTiles_refused {M : Type} (add : M → Bytes → U32 → Res M) (recs : List (Slot × Bytes))
    (k : Nat) (hd : ∀ r ∈ recs, r.1.data = some r.2) (href : ∀ r ∈ recs, r.1.ref ≠ 0#32)
    (hsz : ∀ r ∈ recs, r.1.dataSize ≠ 0#32) (m m' : M)
    (hadd : recs.foldlM (fun m r => okOf (add m r.2 r.1.ref)) m = some m')
    (s : Slot) (d rest : Bytes) (h1 : s.data = some d) (h2 : s.ref ≠ 0#32)
    (h3 : s.dataSize ≠ 0#32) (hbad : add m' d s.ref = .err) :
    decodeTiles add (recs.length + (k + 1)) m
      ⟨[recs.flatMap fileRecord ++ (fileRecord (s, d) ++ rest)], false⟩ = .err := by
  induction recs generalizing m with
  | nil =>
    simp at hadd
    subst hadd
    rw [List.length_nil, Nat.zero_add, List.flatMap_nil, List.nil_append, fileRecord_eq,
      List.append_assoc, decodeTiles_record add k m s d rest h1 h2 h3, hbad]
  | cons r recs ih =>
    rw [List.foldlM_cons] at hadd
    cases ha : add m r.2 r.1.ref with
    | err => rw [ha] at hadd; simp [okOf] at hadd
    | panic => rw [ha] at hadd; simp [okOf] at hadd
    | ok m1 =>
      rw [ha] at hadd
      simp only [okOf, Option.bind_eq_bind, Option.bind_some] at hadd
      change List.foldlM _ m1 recs = _ at hadd
      rw [List.flatMap_cons, List.length_cons, List.append_assoc, fileRecord_eq r, List.append_assoc,
        show recs.length + 1 + (k + 1) = recs.length + (k + 1) + 1 by omega,
        decodeTiles_step add _ m m1 r.1 r.2 _ (hd r (by simp)) (href r (by simp)) (hsz r (by simp)) ha]
      have hne : oneChunk (recs.flatMap fileRecord ++ (fileRecord (s, d) ++ rest))
          = [recs.flatMap fileRecord ++ (fileRecord (s, d) ++ rest)] := by
        unfold oneChunk
        rw [if_neg]
        intro hc
        have := congrArg List.length hc
        rw [List.length_append, List.length_append, fileRecord_eq, List.length_append,
          length_words] at this
        simp [TileHeader.words] at this
      rw [hne]
      exact ih (fun x hx => hd x (by simp [hx])) (fun x hx => href x (by simp [hx]))
        (fun x hx => hsz x (by simp [hx])) m1 hadd

/-- **C78**: a file whose first tiles load and whose next tile `AddTile` refuses with a failure status
(wrong magic, wrong version, location already taken: `add_refused`) is rejected by `Decode` with an
error, wherever the tile stands in the file and whatever follows it. -/
theorem load_refused (p : NavMeshParams) (m0 m' : Mesh) (hinit : initForDecode p = some m0)
    (recs : List (Slot × Bytes)) (hd : ∀ r ∈ recs, r.1.data = some r.2)
    (href : ∀ r ∈ recs, r.1.ref ≠ 0#32) (hsz : ∀ r ∈ recs, r.1.dataSize ≠ 0#32)
    (hadd : recs.foldlM (fun m r => okOf (addForDecode m r.2 r.1.ref)) m0 = some m')
    (s : Slot) (d rest : Bytes) (h1 : s.data = some d) (h2 : s.ref ≠ 0#32)
    (h3 : s.dataSize ≠ 0#32) (st : Status) (ref : U32) (m'' : Mesh)
    (hbad : m'.addTile d s.ref = .ok (st, ref, m'')) (hst : st.failed = true)
    (num : U32) (hnum : recs.length < num.toNat) :
    loadMesh ((SetHeader.mk 0x4d534554#32 1#32 num p).words.flatMap le32 ++
      (recs.flatMap fileRecord ++ (fileRecord (s, d) ++ rest))) = .err := by
  have hne : recs.flatMap fileRecord ++ (fileRecord (s, d) ++ rest) ≠ [] := by
    intro hc
    have := congrArg List.length hc
    rw [List.length_append, List.length_append, fileRecord_eq, List.length_append,
      length_words] at this
    simp [TileHeader.words] at this
  have herr : addForDecode m' d s.ref = .err := by
    unfold addForDecode
    rw [hbad]
    simp only [hst, if_true]
  unfold loadMesh decode
  simp only
  rw [readFullAux_single SetHeader.size _ _ (by rw [length_words]; rfl)
    (by unfold SetHeader.size; omega), if_neg hne]
  simp only
  have hdec := (SetHeader.mk 0x4d534554#32 1#32 num p).decode_words []
  rw [List.append_nil] at hdec
  rw [hdec]
  simp only
  rw [if_neg (by decide), if_neg (by decide), hinit]
  simp only
  obtain ⟨k, hk⟩ : ∃ k, num.toNat = recs.length + (k + 1) := ⟨num.toNat - recs.length - 1, by omega⟩
  rw [hk]
  exact decodeTiles_refused addForDecode recs k hd href hsz m0 m' hadd s d rest h1 h2 h3 herr

set_option maxRecDepth 100000 in
/-- A file with the same tile twice: the first is accepted, the second refused. -/
example : ∃ m', addForDecode smallMesh (tinyData 5) (1 <<< 20) = .ok m' ∧
    ∃ st ref m'', m'.addTile (tinyData 5) (1 <<< 20) = .ok (st, ref, m'') ∧ st.failed = true :=
  ⟨_, rfl, _, _, _, rfl, by decide⟩

end Verif.Detour
