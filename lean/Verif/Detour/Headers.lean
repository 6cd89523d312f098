/-
Fixed-size headers of the nav mesh file format (detour/structs.go, detour/tile.go:12-41).
Float fields are carried as their IEEE bit pattern (`math.Float32bits`/`Float32frombits`).
-/
import Verif.Detour.Codec

namespace Verif.Detour

/-! ## MeshHeader -/

/-- `MeshHeader` (detour/structs.go:86-108). -/
structure MeshHeader where
  magic : U32
  version : U32
  x : U32
  y : U32
  layer : U32
  userID : U32
  polyCount : U32
  vertCount : U32
  maxLinkCount : U32
  detailMeshCount : U32
  detailVertCount : U32
  detailTriCount : U32
  bvNodeCount : U32
  offMeshConCount : U32
  offMeshBase : U32
  walkableHeight : U32
  walkableRadius : U32
  walkableClimb : U32
  bmin0 : U32
  bmin1 : U32
  bmin2 : U32
  bmax0 : U32
  bmax1 : U32
  bmax2 : U32
  bvQuantFactor : U32
  deriving DecidableEq, Repr

namespace MeshHeader

/-- The writes of `MeshHeader.serialize` (detour/structs.go:124-148), in order. -/
def writes (s : MeshHeader) : List (Nat × Bytes) :=
  [(0, le32 s.magic), (4, le32 s.version), (8, le32 s.x), (12, le32 s.y), (16, le32 s.layer),
   (20, le32 s.userID), (24, le32 s.polyCount), (28, le32 s.vertCount), (32, le32 s.maxLinkCount),
   (36, le32 s.detailMeshCount), (40, le32 s.detailVertCount), (44, le32 s.detailTriCount),
   (48, le32 s.bvNodeCount), (52, le32 s.offMeshConCount), (56, le32 s.offMeshBase),
   (60, le32 s.walkableHeight), (64, le32 s.walkableRadius), (68, le32 s.walkableClimb),
   (72, le32 s.bmin0), (76, le32 s.bmin1), (80, le32 s.bmin2),
   (84, le32 s.bmax0), (88, le32 s.bmax1), (92, le32 s.bmax2), (96, le32 s.bvQuantFactor)]

/-- `MeshHeader.serialize` (detour/structs.go:114-149); panics (`none`) on a short buffer. -/
def serialize (s : MeshHeader) (dst : Bytes) : Option Bytes :=
  if dst.length < 100 then none else putAll dst s.writes

/-- `MeshHeader.unserialize` (detour/structs.go:151-186); panics (`none`) on a short buffer. -/
def unserialize (src : Bytes) : Option MeshHeader :=
  if src.length < 100 then none else do
    let magic ← rd32 (src.drop 0)
    let version ← rd32 (src.drop 4)
    let x ← rd32 (src.drop 8)
    let y ← rd32 (src.drop 12)
    let layer ← rd32 (src.drop 16)
    let userID ← rd32 (src.drop 20)
    let polyCount ← rd32 (src.drop 24)
    let vertCount ← rd32 (src.drop 28)
    let maxLinkCount ← rd32 (src.drop 32)
    let detailMeshCount ← rd32 (src.drop 36)
    let detailVertCount ← rd32 (src.drop 40)
    let detailTriCount ← rd32 (src.drop 44)
    let bvNodeCount ← rd32 (src.drop 48)
    let offMeshConCount ← rd32 (src.drop 52)
    let offMeshBase ← rd32 (src.drop 56)
    let walkableHeight ← rd32 (src.drop 60)
    let walkableRadius ← rd32 (src.drop 64)
    let walkableClimb ← rd32 (src.drop 68)
    let bmin0 ← rd32 (src.drop 72)
    let bmin1 ← rd32 (src.drop 76)
    let bmin2 ← rd32 (src.drop 80)
    let bmax0 ← rd32 (src.drop 84)
    let bmax1 ← rd32 (src.drop 88)
    let bmax2 ← rd32 (src.drop 92)
    let bvQuantFactor ← rd32 (src.drop 96)
    some ⟨magic, version, x, y, layer, userID, polyCount, vertCount, maxLinkCount,
      detailMeshCount, detailVertCount, detailTriCount, bvNodeCount, offMeshConCount, offMeshBase,
      walkableHeight, walkableRadius, walkableClimb, bmin0, bmin1, bmin2, bmax0, bmax1, bmax2,
      bvQuantFactor⟩

/-- The header's 25 words in file order. -/
def words (s : MeshHeader) : List U32 :=
  [s.magic, s.version, s.x, s.y, s.layer, s.userID, s.polyCount, s.vertCount, s.maxLinkCount,
   s.detailMeshCount, s.detailVertCount, s.detailTriCount, s.bvNodeCount, s.offMeshConCount,
   s.offMeshBase, s.walkableHeight, s.walkableRadius, s.walkableClimb, s.bmin0, s.bmin1, s.bmin2,
   s.bmax0, s.bmax1, s.bmax2, s.bvQuantFactor]

theorem serialize_eq (s : MeshHeader) (dst : Bytes) (h : 100 ≤ dst.length) :
    s.serialize dst = some (s.words.flatMap le32 ++ dst.drop 100) := by
  unfold serialize
  rw [if_neg (by omega)]
  have := putAll_consecutive s.writes [] dst
    (by simp only [writes, Consecutive, List.length_nil, length_le32]; simp)
    (by simp only [payload, writes, List.flatMap_cons, List.flatMap_nil, List.length_append,
          length_le32, List.length_nil]; omega)
  simp only [List.nil_append] at this
  rw [this]
  rfl

theorem unserialize_words (s : MeshHeader) (r : Bytes) :
    unserialize (s.words.flatMap le32 ++ r) = some s := by
  unfold unserialize
  have hl : ¬ (s.words.flatMap le32 ++ r).length < 100 := by
    rw [List.length_append, length_words]
    simp only [words, List.length_cons, List.length_nil]; omega
  rw [if_neg hl]
  have hr : ∀ k w, s.words[k]? = some w →
      rd32 ((s.words.flatMap le32 ++ r).drop (4 * k)) = some w :=
    fun k w h => rd32_words s.words k w r h
  rw [hr 0 s.magic rfl, hr 1 s.version rfl, hr 2 s.x rfl, hr 3 s.y rfl, hr 4 s.layer rfl,
    hr 5 s.userID rfl, hr 6 s.polyCount rfl, hr 7 s.vertCount rfl, hr 8 s.maxLinkCount rfl,
    hr 9 s.detailMeshCount rfl, hr 10 s.detailVertCount rfl, hr 11 s.detailTriCount rfl,
    hr 12 s.bvNodeCount rfl, hr 13 s.offMeshConCount rfl, hr 14 s.offMeshBase rfl,
    hr 15 s.walkableHeight rfl, hr 16 s.walkableRadius rfl, hr 17 s.walkableClimb rfl,
    hr 18 s.bmin0 rfl, hr 19 s.bmin1 rfl, hr 20 s.bmin2 rfl, hr 21 s.bmax0 rfl,
    hr 22 s.bmax1 rfl, hr 23 s.bmax2 rfl, hr 24 s.bvQuantFactor rfl]
  rfl

theorem exists_words (ws : List U32) (h : ws.length = 25) : ∃ s : MeshHeader, s.words = ws := by
  match ws, h with
  | [a0, a1, a2, a3, a4, a5, a6, a7, a8, a9, a10, a11, a12, a13, a14, a15, a16, a17, a18, a19, a20,
     a21, a22, a23, a24], _ =>
    exact ⟨⟨a0, a1, a2, a3, a4, a5, a6, a7, a8, a9, a10, a11, a12, a13, a14, a15, a16, a17, a18,
      a19, a20, a21, a22, a23, a24⟩, rfl⟩

end MeshHeader

/-! ## navMeshSetHeader and NavMeshParams -/

/-- `NavMeshParams` (detour/structs.go:50-56). -/
structure NavMeshParams where
  orig0 : U32
  orig1 : U32
  orig2 : U32
  tileWidth : U32
  tileHeight : U32
  maxTiles : U32
  maxPolys : U32
  deriving DecidableEq, Repr

/-- The writes of `NavMeshParams.serialize` (detour/structs.go:76-82) into `dst[base:]`. -/
def NavMeshParams.writes (s : NavMeshParams) (base : Nat) : List (Nat × Bytes) :=
  [(base, le32 s.orig0), (base + 4, le32 s.orig1), (base + 8, le32 s.orig2),
   (base + 12, le32 s.tileWidth), (base + 16, le32 s.tileHeight), (base + 20, le32 s.maxTiles),
   (base + 24, le32 s.maxPolys)]

/-- `navMeshSetHeader` (detour/structs.go:9-14). -/
structure SetHeader where
  magic : U32
  version : U32
  numTiles : U32
  params : NavMeshParams
  deriving DecidableEq, Repr

namespace SetHeader

/-- `navMeshSetHeader.Size` (detour/structs.go:16-18). -/
def size : Nat := 12 + 28

/-- `navMeshSetHeader.serialize` (detour/structs.go:20-34); panics (`none`) on a short buffer. -/
def serialize (s : SetHeader) (dst : Bytes) : Option Bytes :=
  if dst.length < size then none
  else putAll dst
    ([(0, le32 s.magic), (4, le32 s.version), (8, le32 s.numTiles)] ++ s.params.writes 12)

/-- `binary.Read(r, LittleEndian, &hdr)` for `navMeshSetHeader` (detour/mesh.go:75): the fields in
declaration order from exactly 40 bytes. -/
def decode (src : Bytes) : Option SetHeader := do
    let magic ← rd32 (src.drop 0)
    let version ← rd32 (src.drop 4)
    let numTiles ← rd32 (src.drop 8)
    let o0 ← rd32 (src.drop 12)
    let o1 ← rd32 (src.drop 16)
    let o2 ← rd32 (src.drop 20)
    let tw ← rd32 (src.drop 24)
    let th ← rd32 (src.drop 28)
    let mt ← rd32 (src.drop 32)
    let mp ← rd32 (src.drop 36)
    some ⟨magic, version, numTiles, ⟨o0, o1, o2, tw, th, mt, mp⟩⟩

/-- The 10 words in file order. -/
def words (s : SetHeader) : List U32 :=
  [s.magic, s.version, s.numTiles, s.params.orig0, s.params.orig1, s.params.orig2,
   s.params.tileWidth, s.params.tileHeight, s.params.maxTiles, s.params.maxPolys]

theorem serialize_eq (s : SetHeader) (dst : Bytes) (h : size ≤ dst.length) :
    s.serialize dst = some (s.words.flatMap le32 ++ dst.drop 40) := by
  unfold serialize
  unfold size at *
  rw [if_neg (by omega)]
  have := putAll_consecutive
    ([(0, le32 s.magic), (4, le32 s.version), (8, le32 s.numTiles)] ++ s.params.writes 12) [] dst
    (by simp [NavMeshParams.writes, Consecutive])
    (by simp [payload, NavMeshParams.writes]; omega)
  simp only [List.nil_append] at this
  rw [this]
  rfl

theorem decode_words (s : SetHeader) (r : Bytes) :
    decode (s.words.flatMap le32 ++ r) = some s := by
  unfold decode
  have hr : ∀ k w, s.words[k]? = some w →
      rd32 ((s.words.flatMap le32 ++ r).drop (4 * k)) = some w :=
    fun k w h => rd32_words s.words k w r h
  rw [hr 0 _ rfl, hr 1 _ rfl, hr 2 _ rfl, hr 3 _ rfl, hr 4 _ rfl, hr 5 _ rfl, hr 6 _ rfl,
    hr 7 _ rfl, hr 8 _ rfl, hr 9 _ rfl]
  rfl

end SetHeader

/-! ## navMeshTileHeader -/

/-- `navMeshTileHeader` (detour/tile.go:12-15). -/
structure TileHeader where
  tileRef : U32
  dataSize : U32
  deriving DecidableEq, Repr

namespace TileHeader

/-- `navMeshTileHeader.Serialize` (detour/tile.go:29-41); panics (`none`) on a short buffer. -/
def serialize (s : TileHeader) (dst : Bytes) : Option Bytes :=
  if dst.length < 8 then none else putAll dst [(0, le32 s.tileRef), (4, le32 s.dataSize)]

/-- `binary.Read(r, LittleEndian, &tileHdr)` (detour/mesh.go:99). -/
def decode (src : Bytes) : Option TileHeader := do
  let r ← rd32 (src.drop 0)
  let d ← rd32 (src.drop 4)
  some ⟨r, d⟩

/-- The two words in file order. -/
def words (s : TileHeader) : List U32 := [s.tileRef, s.dataSize]

theorem serialize_eq (s : TileHeader) (dst : Bytes) (h : 8 ≤ dst.length) :
    s.serialize dst = some (s.words.flatMap le32 ++ dst.drop 8) := by
  unfold serialize
  rw [if_neg (by omega)]
  have := putAll_consecutive [(0, le32 s.tileRef), (4, le32 s.dataSize)] [] dst
    (by simp [Consecutive]) (by simp [payload]; omega)
  simp only [List.nil_append] at this
  rw [this]
  rfl

theorem decode_words (s : TileHeader) (r : Bytes) :
    decode (s.words.flatMap le32 ++ r) = some s := by
  unfold decode
  have hr : ∀ k w, s.words[k]? = some w →
      rd32 ((s.words.flatMap le32 ++ r).drop (4 * k)) = some w :=
    fun k w h => rd32_words s.words k w r h
  rw [hr 0 _ rfl, hr 1 _ rfl]
  rfl

end TileHeader

/-! ## Properties -/

/-- **C12**: a tile's `MeshHeader` written into any buffer of at least 100 bytes reads back equal,
field by field and bit by bit; bytes after the first 100 are not touched. -/
theorem meshHeader_roundtrip (s : MeshHeader) (dst : Bytes) (h : 100 ≤ dst.length) :
    ∃ out, s.serialize dst = some out ∧ MeshHeader.unserialize out = some s ∧
      out.length = dst.length ∧ out.drop 100 = dst.drop 100 := by
  refine ⟨_, s.serialize_eq dst h, s.unserialize_words _, ?_, ?_⟩
  · rw [List.length_append, length_words, List.length_drop]
    simp only [MeshHeader.words, List.length_cons, List.length_nil]; omega
  · rw [List.drop_append_of_le_length, List.drop_of_length_le]
    · simp
    · rw [length_words]; simp [MeshHeader.words]
    · rw [length_words]; simp [MeshHeader.words]

/-- **C12**, other direction: decoding any 100 bytes succeeds and re-encoding gives those bytes. -/
theorem meshHeader_roundtrip' (src : Bytes) (h : src.length = 100) :
    ∃ s, MeshHeader.unserialize src = some s ∧
      s.serialize (List.replicate 100 0#8) = some src := by
  obtain ⟨ws, hl, hw⟩ := words_of_bytes 25 src (by omega)
  obtain ⟨s, hs⟩ := MeshHeader.exists_words ws hl
  refine ⟨s, ?_, ?_⟩
  · rw [hw, ← hs]; exact s.unserialize_words _
  · rw [s.serialize_eq _ (by simp)]
    congr 1
    rw [hs]
    have : src.drop (4 * 25) = [] := List.drop_of_length_le (by omega)
    rw [this, List.append_nil] at hw
    simp [hw]

/-- **C12**: a buffer shorter than 100 bytes is refused (panic), for writing and for reading. -/
theorem meshHeader_short (s : MeshHeader) (b : Bytes) (h : b.length < 100) :
    s.serialize b = none ∧ MeshHeader.unserialize b = none := by
  unfold MeshHeader.serialize MeshHeader.unserialize
  simp [h]

/-- **C12**: mesh-set header, written by `WriteTo` into its 40-byte buffer, reads back equal
whatever follows. -/
theorem setHeader_roundtrip (s : SetHeader) (rest : Bytes) :
    ∃ out, s.serialize (List.replicate SetHeader.size 0#8) = some out ∧
      out.length = SetHeader.size ∧ SetHeader.decode (out ++ rest) = some s := by
  refine ⟨_, s.serialize_eq _ (by simp), ?_, ?_⟩
  · rw [List.length_append, length_words]
    simp [SetHeader.words, SetHeader.size]
  · rw [List.append_assoc]; exact s.decode_words _

/-- **C12**: tile record header, written by `WriteTo`, reads back equal. -/
theorem tileHeader_roundtrip (s : TileHeader) (rest : Bytes) :
    ∃ out, s.serialize (List.replicate 8 0#8) = some out ∧
      out.length = 8 ∧ TileHeader.decode (out ++ rest) = some s := by
  refine ⟨_, s.serialize_eq _ (by simp), ?_, ?_⟩
  · rw [List.length_append, length_words]
    simp [TileHeader.words]
  · rw [List.append_assoc]; exact s.decode_words _

/-- Non-trivial instance: a signalling-NaN bit pattern in a float field survives. -/
example : TileHeader.decode (le32 0x00c1c064#32 ++ le32 0x7fa00001#32)
    = some ⟨0x00c1c064#32, 0x7fa00001#32⟩ := by decide

end Verif.Detour
