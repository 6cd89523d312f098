/-
Variable-size part of a tile: `MeshTile.serialize`/`serializeTileData` and `MeshTile.unserialize`
(detour/tile.go:101-295). Floats are carried as bit patterns.
-/
import Verif.Detour.Headers

namespace Verif.Detour

/-! ## Records -/

/-- `Poly` (detour/poly.go:6-30); `verts` and `neis` are Go arrays of length 6 (`Poly.WF`). -/
structure Poly where
  firstLink : U32
  verts : List U16
  neis : List U16
  flags : U16
  vertCount : Byte
  areaAndType : Byte
  deriving DecidableEq, Repr

/-- The array lengths fixed by the Go type `[VertsPerPolygon]uint16`. -/
def Poly.WF (p : Poly) : Prop := p.verts.length = 6 ∧ p.neis.length = 6

instance (p : Poly) : Decidable p.WF := inferInstanceAs (Decidable (_ ∧ _))

/-- `Link` (detour/mesh.go:674-681). -/
structure LinkRec where
  ref : U32
  next : U32
  edge : Byte
  side : Byte
  bmin : Byte
  bmax : Byte
  deriving DecidableEq, Repr

/-- `PolyDetail` (detour/mesh.go:684-690). -/
structure PolyDetail where
  vertBase : U32
  triBase : U32
  vertCount : Byte
  triCount : Byte
  deriving DecidableEq, Repr

/-- `BvNode` (detour/mesh.go:695-699). -/
structure BvNode where
  bmin0 : U16
  bmin1 : U16
  bmin2 : U16
  bmax0 : U16
  bmax1 : U16
  bmax2 : U16
  i : U32
  deriving DecidableEq, Repr

/-- `OffMeshConnection` (detour/mesh.go:706-728); `pos` is a Go array of length 6 (`OffMeshCon.WF`). -/
structure OffMeshCon where
  pos : List U32
  rad : U32
  poly : U16
  flags : Byte
  side : Byte
  userID : U32
  deriving DecidableEq, Repr

/-- The array length fixed by the Go type `[6]float32`. -/
def OffMeshCon.WF (o : OffMeshCon) : Prop := o.pos.length = 6

instance (p : OffMeshCon) : Decidable p.WF := inferInstanceAs (Decidable (_ = _))

/-- The data arrays of `MeshTile` (detour/tile.go:55-88). -/
structure TileBody where
  verts : List U32
  polys : List Poly
  links : List LinkRec
  detailMeshes : List PolyDetail
  detailVerts : List U32
  detailTris : Bytes
  bvTree : List BvNode
  offMeshCons : List OffMeshCon
  deriving DecidableEq, Repr

/-! ## Writing -/

/-- A loop writing records `stride` bytes apart; `w off r` are the writes for one record. -/
def recsWrites {α : Type} (w : Nat → α → List (Nat × Bytes)) (stride : Nat) :
    Nat → List α → List (Nat × Bytes)
  | _, [] => []
  | off, r :: rs => w off r ++ recsWrites w stride (off + stride) rs

/-- `PutUint32(dst[off:], f)` for a single word (detour/tile.go:216-219, 265-268). -/
def wordWrites (off : Nat) (x : U32) : List (Nat × Bytes) := [(off, le32 x)]

/-- `PutUint16(dst[off:], v)` (detour/tile.go:226-233). -/
def halfWrites (off : Nat) (x : U16) : List (Nat × Bytes) := [(off, le16 x)]

/-- One polygon (detour/tile.go:220-239). -/
def polyWrites (off : Nat) (p : Poly) : List (Nat × Bytes) :=
  (off, le32 p.firstLink) :: recsWrites halfWrites 2 (off + 4) p.verts
    ++ recsWrites halfWrites 2 (off + 16) p.neis
    ++ [(off + 28, le16 p.flags), (off + 30, [p.vertCount]), (off + 31, [p.areaAndType])]

/-- One link (detour/tile.go:240-251). -/
def linkWrites (off : Nat) (l : LinkRec) : List (Nat × Bytes) :=
  [(off, le32 l.ref), (off + 4, le32 l.next), (off + 8, [l.edge]), (off + 9, [l.side]),
   (off + 10, [l.bmin]), (off + 11, [l.bmax])]

/-- One detail mesh (detour/tile.go:253-261); 10 of its 12 bytes are written. -/
def detailWrites (off : Nat) (m : PolyDetail) : List (Nat × Bytes) :=
  [(off, le32 m.vertBase), (off + 4, le32 m.triBase), (off + 8, [m.vertCount]),
   (off + 9, [m.triCount])]

/-- One BV node (detour/tile.go:269-279). -/
def bvWrites (off : Nat) (t : BvNode) : List (Nat × Bytes) :=
  [(off, le16 t.bmin0), (off + 2, le16 t.bmin1), (off + 4, le16 t.bmin2), (off + 6, le16 t.bmax0),
   (off + 8, le16 t.bmax1), (off + 10, le16 t.bmax2), (off + 12, le32 t.i)]

/-- One off-mesh connection (detour/tile.go:280-294). The `flags` and `side` bytes go to the fixed
positions 30 and 31 of the buffer, as written in the code. -/
def conWrites (off : Nat) (o : OffMeshCon) : List (Nat × Bytes) :=
  recsWrites wordWrites 4 off o.pos
    ++ [(off + 24, le32 o.rad), (off + 28, le16 o.poly), (30, [o.flags]), (31, [o.side]),
        (off + 32, le32 o.userID)]

/-- Offsets at which the sections start (running value of `off`, detour/tile.go:212-279). -/
def TileBody.offPolys (t : TileBody) : Nat := 4 * t.verts.length
def TileBody.offLinks (t : TileBody) : Nat := t.offPolys + 32 * t.polys.length
def TileBody.offDetail (t : TileBody) : Nat := t.offLinks + 12 * t.links.length
def TileBody.offDVerts (t : TileBody) : Nat := t.offDetail + 12 * t.detailMeshes.length
def TileBody.offDTris (t : TileBody) : Nat := t.offDVerts + 4 * t.detailVerts.length
def TileBody.offBv (t : TileBody) : Nat := t.offDTris + t.detailTris.length
def TileBody.offCons (t : TileBody) : Nat := t.offBv + 16 * t.bvTree.length
/-- Bytes needed for all sections. -/
def TileBody.size (t : TileBody) : Nat := t.offCons + 36 * t.offMeshCons.length

/-- The writes of `serializeTileData` (detour/tile.go:201-295). `copy(dst[off:], dtris)` is a write
of all of `dtris`; Go's `copy` truncates silently when `dst` is short, the model panics there, but a
buffer that is large enough for the rest (`size`) never gets into that case. -/
def TileBody.writes (t : TileBody) : List (Nat × Bytes) :=
  recsWrites wordWrites 4 0 t.verts
    ++ recsWrites polyWrites 32 t.offPolys t.polys
    ++ recsWrites linkWrites 12 t.offLinks t.links
    ++ recsWrites detailWrites 12 t.offDetail t.detailMeshes
    ++ recsWrites wordWrites 4 t.offDVerts t.detailVerts
    ++ [(t.offDTris, t.detailTris)]
    ++ recsWrites bvWrites 16 t.offBv t.bvTree
    ++ recsWrites conWrites 36 t.offCons t.offMeshCons

/-- `serializeTileData` (detour/tile.go:201-295); `none` is a panic. -/
def TileBody.serialize (t : TileBody) (dst : Bytes) : Option Bytes := putAll dst t.writes

/-! ## Reading -/

/-- `make([]T, n)` for an int32 `n`: panics when negative. -/
def mkLen (n : U32) : Option Nat := if n.toInt < 0 then none else some n.toInt.toNat

/-- A loop reading `n` records `stride` bytes apart from `src[off:]`. -/
def readRecs {α : Type} (rd : Bytes → Option α) (stride : Nat) :
    Nat → Nat → Bytes → Option (List α)
  | _, 0, _ => some []
  | off, n + 1, src => do
    let r ← rd (src.drop off)
    let rs ← readRecs rd stride (off + stride) n src
    some (r :: rs)

/-- One polygon (detour/tile.go:117-137). -/
def rdPoly (s : Bytes) : Option Poly := do
  let fl ← rd32 s
  let vs ← readRecs rd16 2 4 6 s
  let ns ← readRecs rd16 2 16 6 s
  let f ← rd16 (s.drop 28)
  let vc ← rd8 (s.drop 30)
  let a ← rd8 (s.drop 31)
  some ⟨fl, vs, ns, f, vc, a⟩

/-- One link (detour/tile.go:139-150). -/
def rdLink (s : Bytes) : Option LinkRec := do
  let r ← rd32 s
  let n ← rd32 (s.drop 4)
  let e ← rd8 (s.drop 8)
  let sd ← rd8 (s.drop 9)
  let b0 ← rd8 (s.drop 10)
  let b1 ← rd8 (s.drop 11)
  some ⟨r, n, e, sd, b0, b1⟩

/-- One detail mesh (detour/tile.go:153-161). -/
def rdDetail (s : Bytes) : Option PolyDetail := do
  let vb ← rd32 s
  let tb ← rd32 (s.drop 4)
  let vc ← rd8 (s.drop 8)
  let tc ← rd8 (s.drop 9)
  some ⟨vb, tb, vc, tc⟩

/-- One BV node (detour/tile.go:172-182). -/
def rdBv (s : Bytes) : Option BvNode := do
  let a ← rd16 s
  let b ← rd16 (s.drop 2)
  let c ← rd16 (s.drop 4)
  let d ← rd16 (s.drop 6)
  let e ← rd16 (s.drop 8)
  let f ← rd16 (s.drop 10)
  let i ← rd32 (s.drop 12)
  some ⟨a, b, c, d, e, f, i⟩

/-- One off-mesh connection (detour/tile.go:184-198), reading `src[30]` and `src[31]` of the whole
buffer `src` for flags and side, as the code does. -/
def rdCon (src : Bytes) (s : Bytes) : Option OffMeshCon := do
  let pos ← readRecs rd32 4 0 6 s
  let rad ← rd32 (s.drop 24)
  let p ← rd16 (s.drop 28)
  let f ← rd8 (src.drop 30)
  let sd ← rd8 (src.drop 31)
  let u ← rd32 (s.drop 32)
  some ⟨pos, rad, p, f, sd, u⟩

/-- `copy(make([]uint8, n), src[off:])`: panics if `off > len(src)`, zero-fills if `src` is short. -/
def rdCopy (off n : Nat) (src : Bytes) : Option Bytes :=
  if src.length < off then none
  else some ((src.drop off).take n ++ List.replicate (n - (src.length - off)) 0#8)

/-- `MeshTile.unserialize` (detour/tile.go:105-199). The int32 products `3*VertCount` etc. wrap. -/
def TileBody.unserialize (h : MeshHeader) (src : Bytes) : Option TileBody := do
  let nv ← mkLen (3#32 * h.vertCount)
  let verts ← readRecs rd32 4 0 nv src
  let off := 4 * nv
  let np ← mkLen h.polyCount
  let polys ← readRecs rdPoly 32 off np src
  let off := off + 32 * np
  let nl ← mkLen h.maxLinkCount
  let links ← readRecs rdLink 12 off nl src
  let off := off + 12 * nl
  let nd ← mkLen h.detailMeshCount
  let dm ← readRecs rdDetail 12 off nd src
  let off := off + 12 * nd
  let ndv ← mkLen (3#32 * h.detailVertCount)
  let dv ← readRecs rd32 4 off ndv src
  let off := off + 4 * ndv
  let nt ← mkLen (4#32 * h.detailTriCount)
  let dt ← rdCopy off nt src
  let off := off + nt
  let nb ← mkLen h.bvNodeCount
  let bv ← readRecs rdBv 16 off nb src
  let off := off + 16 * nb
  let nc ← mkLen h.offMeshConCount
  let cons ← readRecs (rdCon src) 36 off nc src
  some ⟨verts, polys, links, dm, dv, dt, bv, cons⟩

/-! ## Lemmas on writing -/

theorem putAll_append (d : Bytes) (a b : List (Nat × Bytes)) :
    putAll d (a ++ b) = (putAll d a).bind fun d' => putAll d' b := by
  induction a generalizing d with
  | nil => rfl
  | cons w a ih =>
    obtain ⟨o, bs⟩ := w
    simp only [List.cons_append, putAll]
    cases h : putAt d o bs with
    | none => rfl
    | some d' => simp only [Option.bind_some]; exact ih d'

theorem payload_append (a b : List (Nat × Bytes)) : payload (a ++ b) = payload a ++ payload b := by
  simp [payload]

theorem consecutive_append (base : Nat) (a b : List (Nat × Bytes)) :
    Consecutive base (a ++ b) ↔ Consecutive base a ∧ Consecutive (base + (payload a).length) b := by
  induction a generalizing base with
  | nil => simp [Consecutive, payload]
  | cons w a ih =>
    obtain ⟨o, bs⟩ := w
    simp only [List.cons_append, Consecutive, ih, payload, List.flatMap_cons, List.length_append,
      Nat.add_assoc]
    tauto

/-- A record writer is regular: it writes `enc r` back to back, `stride` bytes in all. -/
structure Regular {α : Type} (w : Nat → α → List (Nat × Bytes)) (stride : Nat) (enc : α → Bytes)
    (ok : α → Prop) : Prop where
  cons : ∀ off r, ok r → Consecutive off (w off r)
  pay : ∀ off r, ok r → payload (w off r) = enc r
  len : ∀ r, ok r → (enc r).length = stride

theorem Regular.all {α : Type} {w : Nat → α → List (Nat × Bytes)} {stride : Nat} {enc : α → Bytes}
    {ok : α → Prop} (h : Regular w stride enc ok) (rs : List α) (hok : ∀ r ∈ rs, ok r) (off : Nat) :
    Consecutive off (recsWrites w stride off rs) ∧
    payload (recsWrites w stride off rs) = rs.flatMap enc ∧
    (rs.flatMap enc).length = stride * rs.length := by
  induction rs generalizing off with
  | nil => simp [recsWrites, Consecutive, payload]
  | cons r rs ih =>
    have hr := hok r (by simp)
    obtain ⟨h1, h2, h3⟩ := ih (fun x hx => hok x (by simp [hx])) (off + stride)
    refine ⟨?_, ?_, ?_⟩
    · simp only [recsWrites]
      rw [consecutive_append]
      refine ⟨h.cons off r hr, ?_⟩
      rw [h.pay off r hr, h.len r hr]
      exact h1
    · simp only [recsWrites]
      rw [payload_append, h.pay off r hr, h2]; rfl
    · rw [List.flatMap_cons, List.length_append, h3, h.len r hr, List.length_cons]; ring

/-- Zero-filled buffer of `make([]byte, n)`. -/
def zeros (n : Nat) : Bytes := List.replicate n 0#8

theorem drop_zeros (n k : Nat) : (zeros n).drop k = zeros (n - k) := by
  simp [zeros]

theorem zeros_add (n k : Nat) (h : k ≤ n) : zeros n = zeros k ++ zeros (n - k) := by
  unfold zeros
  rw [List.replicate_append_replicate, Nat.add_sub_of_le h]

@[simp] theorem length_zeros (n : Nat) : (zeros n).length = n := by simp [zeros]

theorem putAll_regular {α : Type} {w : Nat → α → List (Nat × Bytes)} {stride : Nat}
    {enc : α → Bytes} {ok : α → Prop} (h : Regular w stride enc ok) (rs : List α)
    (hok : ∀ r ∈ rs, ok r) (pre : Bytes) (off n : Nat) (ho : off = pre.length)
    (hn : stride * rs.length ≤ n) :
    putAll (pre ++ zeros n) (recsWrites w stride off rs)
      = some (pre ++ rs.flatMap enc ++ zeros (n - stride * rs.length)) := by
  subst ho
  obtain ⟨h1, h2, h3⟩ := h.all rs hok pre.length
  rw [putAll_consecutive _ _ _ h1 (by rw [h2, h3, length_zeros]; exact hn), h2, drop_zeros, h3]

theorem regular_word : Regular wordWrites 4 le32 (fun _ => True) :=
  ⟨fun _ _ _ => by simp [wordWrites, Consecutive], fun _ _ _ => by simp [wordWrites, payload],
    fun _ _ => rfl⟩

theorem regular_half : Regular halfWrites 2 le16 (fun _ => True) :=
  ⟨fun _ _ _ => by simp [halfWrites, Consecutive], fun _ _ _ => by simp [halfWrites, payload],
    fun _ _ => rfl⟩

/-- The 32 bytes of a polygon. -/
def encPoly (p : Poly) : Bytes :=
  le32 p.firstLink ++ p.verts.flatMap le16 ++ p.neis.flatMap le16 ++ le16 p.flags
    ++ [p.vertCount] ++ [p.areaAndType]

theorem regular_poly : Regular polyWrites 32 encPoly Poly.WF := by
  have hv := fun (rs : List U16) off => regular_half.all rs (fun _ _ => trivial) off
  refine ⟨?_, ?_, ?_⟩
  · intro off p hp
    unfold polyWrites
    rw [consecutive_append, consecutive_append]
    simp only [Consecutive]
    refine ⟨⟨⟨trivial, ?_⟩, ?_⟩, ?_⟩
    · exact (hv p.verts (off + 4)).1
    · have e : payload ((off, le32 p.firstLink) :: recsWrites halfWrites 2 (off + 4) p.verts)
          = le32 p.firstLink ++ p.verts.flatMap le16 := by
        rw [← (hv p.verts (off + 4)).2.1]; rfl
      rw [e, List.length_append, (hv p.verts 0).2.2, hp.1]
      exact (hv p.neis (off + 16)).1
    · have e : payload ((off, le32 p.firstLink) :: recsWrites halfWrites 2 (off + 4) p.verts
            ++ recsWrites halfWrites 2 (off + 16) p.neis)
          = le32 p.firstLink ++ p.verts.flatMap le16 ++ p.neis.flatMap le16 := by
        rw [payload_append, (hv p.neis (off + 16)).2.1, ← (hv p.verts (off + 4)).2.1]; rfl
      rw [e, List.length_append, List.length_append, (hv p.verts 0).2.2, (hv p.neis 0).2.2, hp.1,
        hp.2]
      simp
  · intro off p _
    unfold polyWrites encPoly
    rw [payload_append, payload_append, (hv p.neis (off + 16)).2.1, ← (hv p.verts (off + 4)).2.1]
    simp [payload]
  · intro p hp
    unfold encPoly
    simp only [List.length_append, (hv p.verts 0).2.2, (hv p.neis 0).2.2, hp.1, hp.2, length_le32,
      length_le16, List.length_cons, List.length_nil]

/-- The 12 bytes of a link. -/
def encLink (l : LinkRec) : Bytes :=
  le32 l.ref ++ (le32 l.next ++ ([l.edge] ++ ([l.side] ++ ([l.bmin] ++ [l.bmax]))))

theorem regular_link : Regular linkWrites 12 encLink (fun _ => True) :=
  ⟨fun _ _ _ => by simp [linkWrites, Consecutive], fun _ _ _ => by
    simp [linkWrites, payload, encLink], fun _ _ => rfl⟩

/-- The 16 bytes of a BV node. -/
def encBv (t : BvNode) : Bytes :=
  le16 t.bmin0 ++ (le16 t.bmin1 ++ (le16 t.bmin2 ++ (le16 t.bmax0 ++ (le16 t.bmax1 ++
    (le16 t.bmax2 ++ le32 t.i)))))

theorem regular_bv : Regular bvWrites 16 encBv (fun _ => True) :=
  ⟨fun _ _ _ => by simp [bvWrites, Consecutive], fun _ _ _ => by
    simp [bvWrites, payload, encBv], fun _ _ => rfl⟩

/-- The 12 bytes of a detail mesh in a fresh buffer: 10 written, 2 left zero. -/
def encDetail (m : PolyDetail) : Bytes :=
  le32 m.vertBase ++ (le32 m.triBase ++ ([m.vertCount] ++ ([m.triCount] ++ zeros 2)))

theorem putAll_detail (rs : List PolyDetail) (pre : Bytes) (off n : Nat) (ho : off = pre.length)
    (hn : 12 * rs.length ≤ n) :
    putAll (pre ++ zeros n) (recsWrites detailWrites 12 off rs)
      = some (pre ++ rs.flatMap encDetail ++ zeros (n - 12 * rs.length)) := by
  induction rs generalizing pre off n with
  | nil => simp [recsWrites, putAll]
  | cons r rs ih =>
    subst ho
    simp only [List.length_cons] at hn
    simp only [recsWrites]
    rw [putAll_append]
    have hpay : payload (detailWrites pre.length r)
        = le32 r.vertBase ++ (le32 r.triBase ++ ([r.vertCount] ++ [r.triCount])) := by
      simp [detailWrites, payload]
    have hlen : (payload (detailWrites pre.length r)).length = 10 := by rw [hpay]; rfl
    rw [putAll_consecutive _ _ _ (by simp [detailWrites, Consecutive])
      (by rw [hlen, length_zeros]; omega)]
    simp only [Option.bind_some]
    rw [drop_zeros, hlen]
    have e : pre ++ payload (detailWrites pre.length r) ++ zeros (n - 10)
        = (pre ++ encDetail r) ++ zeros (n - 12) := by
      rw [hpay, zeros_add (n - 10) 2 (by omega), show n - 10 - 2 = n - 12 by omega]
      simp [encDetail, List.append_assoc]
    rw [e, ih (pre ++ encDetail r) (pre.length + 12) (n - 12) (by simp [encDetail])
      (by omega)]
    rw [List.flatMap_cons, List.length_cons, List.append_assoc pre,
      show n - 12 - 12 * rs.length = n - 12 * (rs.length + 1) by omega]

/-! ## Lemmas on reading -/

theorem readRecs_enc {α : Type} (rd : Bytes → Option α) (stride : Nat) (enc : α → Bytes)
    (rs : List α) (off : Nat) (pre rest : Bytes)
    (hrd : ∀ r ∈ rs, ∀ t, rd (enc r ++ t) = some r)
    (hlen : ∀ r ∈ rs, (enc r).length = stride) (ho : off = pre.length) :
    readRecs rd stride off rs.length (pre ++ rs.flatMap enc ++ rest) = some rs := by
  induction rs generalizing off pre with
  | nil => rfl
  | cons r rs ih =>
    subst ho
    simp only [List.length_cons, readRecs]
    have e : pre ++ (r :: rs).flatMap enc ++ rest
        = (pre ++ enc r) ++ rs.flatMap enc ++ rest := by
      simp [List.append_assoc]
    have h1 : rd ((pre ++ (r :: rs).flatMap enc ++ rest).drop pre.length) = some r := by
      rw [List.append_assoc, List.drop_left, List.flatMap_cons, List.append_assoc]
      exact hrd r (by simp) _
    rw [h1]
    have h2 := ih (pre.length + stride) (pre ++ enc r) (fun x hx => hrd x (by simp [hx]))
      (fun x hx => hlen x (by simp [hx])) (by rw [List.length_append, hlen r (by simp)])
    rw [← e] at h2
    rw [h2]
    rfl

theorem readRecs_enc' {α : Type} (rd : Bytes → Option α) (stride : Nat) (enc : α → Bytes)
    (rs : List α) (off n : Nat) (src pre rest : Bytes)
    (hsrc : src = pre ++ rs.flatMap enc ++ rest)
    (hrd : ∀ r ∈ rs, ∀ t, rd (enc r ++ t) = some r)
    (hlen : ∀ r ∈ rs, (enc r).length = stride) (ho : off = pre.length) (hn : n = rs.length) :
    readRecs rd stride off n src = some rs := by
  subst hsrc hn
  exact readRecs_enc rd stride enc rs off pre rest hrd hlen ho

theorem rdPoly_enc (p : Poly) (hp : p.WF) (t : Bytes) : rdPoly (encPoly p ++ t) = some p := by
  have hv : ∀ vs : List U16, (vs.flatMap le16).length = 2 * vs.length := fun vs =>
    (regular_half.all vs (fun _ _ => trivial) 0).2.2
  unfold rdPoly encPoly
  have h1 : rd32 (le32 p.firstLink ++ p.verts.flatMap le16 ++ p.neis.flatMap le16 ++ le16 p.flags
    ++ [p.vertCount] ++ [p.areaAndType] ++ t) = some p.firstLink := by
    simp only [List.append_assoc]; exact rd32_le32 _ _
  have h2 := readRecs_enc' rd16 2 le16 p.verts 4 6
    (le32 p.firstLink ++ p.verts.flatMap le16 ++ p.neis.flatMap le16 ++ le16 p.flags
      ++ [p.vertCount] ++ [p.areaAndType] ++ t) (le32 p.firstLink)
    (p.neis.flatMap le16 ++ le16 p.flags ++ [p.vertCount] ++ [p.areaAndType] ++ t)
    (by simp [List.append_assoc]) (fun r _ t => rd16_le16 r t) (fun _ _ => rfl) rfl hp.1.symm
  have h3 := readRecs_enc' rd16 2 le16 p.neis 16 6
    (le32 p.firstLink ++ p.verts.flatMap le16 ++ p.neis.flatMap le16 ++ le16 p.flags
      ++ [p.vertCount] ++ [p.areaAndType] ++ t) (le32 p.firstLink ++ p.verts.flatMap le16)
    (le16 p.flags ++ [p.vertCount] ++ [p.areaAndType] ++ t)
    (by simp [List.append_assoc]) (fun r _ t => rd16_le16 r t) (fun _ _ => rfl)
    (by rw [List.length_append, hv, hp.1]; rfl) hp.2.symm
  have hd : (le32 p.firstLink ++ p.verts.flatMap le16 ++ p.neis.flatMap le16 ++ le16 p.flags
    ++ [p.vertCount] ++ [p.areaAndType] ++ t).drop 28
      = le16 p.flags ++ ([p.vertCount] ++ ([p.areaAndType] ++ t)) := by
    have hl : (le32 p.firstLink ++ p.verts.flatMap le16 ++ p.neis.flatMap le16).length = 28 := by
      rw [List.length_append, List.length_append, hv, hv, hp.1, hp.2]; rfl
    have : (le32 p.firstLink ++ p.verts.flatMap le16 ++ p.neis.flatMap le16 ++ le16 p.flags
      ++ [p.vertCount] ++ [p.areaAndType] ++ t)
        = (le32 p.firstLink ++ p.verts.flatMap le16 ++ p.neis.flatMap le16) ++
          (le16 p.flags ++ ([p.vertCount] ++ ([p.areaAndType] ++ t))) := by
      simp [List.append_assoc]
    rw [this, ← hl, List.drop_left]
  have hd30 : ∀ k, (le32 p.firstLink ++ p.verts.flatMap le16 ++ p.neis.flatMap le16
      ++ le16 p.flags ++ [p.vertCount] ++ [p.areaAndType] ++ t).drop (28 + k)
      = (le16 p.flags ++ ([p.vertCount] ++ ([p.areaAndType] ++ t))).drop k := by
    intro k
    rw [← List.drop_drop, hd]
  rw [h1, h2, h3, hd, rd16_le16, hd30 2, hd30 3]
  rfl

theorem rdLink_enc (l : LinkRec) (t : Bytes) : rdLink (encLink l ++ t) = some l := by
  have e0 : encLink l ++ t = le32 l.ref ++ (le32 l.next ++ (l.edge :: l.side :: l.bmin :: l.bmax ::
    t)) := by simp [encLink]
  have e1 : (encLink l ++ t).drop 4 = le32 l.next ++ (l.edge :: l.side :: l.bmin :: l.bmax :: t) :=
    rfl
  unfold rdLink
  rw [e1, rd32_le32]
  conv in rd32 (encLink l ++ t) => rw [e0]
  rw [rd32_le32]
  rfl

theorem rdDetail_enc (m : PolyDetail) (t : Bytes) : rdDetail (encDetail m ++ t) = some m := by
  have e0 : encDetail m ++ t = le32 m.vertBase ++ (le32 m.triBase ++ (m.vertCount :: m.triCount ::
    (zeros 2 ++ t))) := by simp [encDetail]
  have e1 : (encDetail m ++ t).drop 4 = le32 m.triBase ++ (m.vertCount :: m.triCount ::
    (zeros 2 ++ t)) := rfl
  unfold rdDetail
  rw [e1, rd32_le32]
  conv in rd32 (encDetail m ++ t) => rw [e0]
  rw [rd32_le32]
  rfl

theorem rdBv_enc (b : BvNode) (t : Bytes) : rdBv (encBv b ++ t) = some b := by
  have e0 : encBv b ++ t = le16 b.bmin0 ++ (le16 b.bmin1 ++ (le16 b.bmin2 ++ (le16 b.bmax0 ++
    (le16 b.bmax1 ++ (le16 b.bmax2 ++ (le32 b.i ++ t)))))) := by simp [encBv]
  have e1 : (encBv b ++ t).drop 2 = le16 b.bmin1 ++ (le16 b.bmin2 ++ (le16 b.bmax0 ++
    (le16 b.bmax1 ++ (le16 b.bmax2 ++ (le32 b.i ++ t))))) := rfl
  have e2 : (encBv b ++ t).drop 4 = le16 b.bmin2 ++ (le16 b.bmax0 ++
    (le16 b.bmax1 ++ (le16 b.bmax2 ++ (le32 b.i ++ t)))) := rfl
  have e3 : (encBv b ++ t).drop 6 = le16 b.bmax0 ++
    (le16 b.bmax1 ++ (le16 b.bmax2 ++ (le32 b.i ++ t))) := rfl
  have e4 : (encBv b ++ t).drop 8 = le16 b.bmax1 ++ (le16 b.bmax2 ++ (le32 b.i ++ t)) := rfl
  have e5 : (encBv b ++ t).drop 10 = le16 b.bmax2 ++ (le32 b.i ++ t) := rfl
  have e6 : (encBv b ++ t).drop 12 = le32 b.i ++ t := rfl
  unfold rdBv
  rw [e1, e2, e3, e4, e5, e6, rd16_le16, rd16_le16, rd16_le16, rd16_le16, rd16_le16, rd32_le32]
  conv in rd16 (encBv b ++ t) => rw [e0]
  rw [rd16_le16]
  rfl

/-! ## Off-mesh connections: writes at fixed positions 30 and 31 -/

/-- Overwrite bytes 30 and 31. -/
def patch (f s : Byte) (pre : Bytes) : Bytes := pre.take 30 ++ [f, s] ++ pre.drop 32

theorem patch_append (f s : Byte) (a b : Bytes) (h : 32 ≤ a.length) :
    patch f s (a ++ b) = patch f s a ++ b := by
  unfold patch
  rw [List.take_append_of_le_length (by omega), List.drop_append_of_le_length (by omega)]
  simp [List.append_assoc]

theorem patch_length (f s : Byte) (a : Bytes) (h : 32 ≤ a.length) :
    (patch f s a).length = a.length := by
  unfold patch
  simp
  omega

theorem patch_patch (f s f' s' : Byte) (a : Bytes) (h : 32 ≤ a.length) :
    patch f s (patch f' s' a) = patch f s a := by
  unfold patch
  have h30 : (a.take 30).length = 30 := by simp; omega
  congr 1
  · congr 1
    rw [List.append_assoc, List.take_append_of_le_length (by omega), List.take_take]
    simp
  · rw [List.append_assoc, List.drop_append, h30]
    rw [List.drop_of_length_le (by omega)]
    rfl

theorem putAt_inside (a b : Bytes) (off : Nat) (bs : Bytes) (h : off + bs.length ≤ a.length) :
    putAt (a ++ b) off bs = some (a.take off ++ bs ++ a.drop (off + bs.length) ++ b) := by
  unfold putAt
  rw [if_pos (by rw [List.length_append]; omega), List.take_append_of_le_length (by omega),
    List.drop_append_of_le_length (by omega)]
  simp [List.append_assoc]

theorem putAt_patch (a b : Bytes) (f s : Byte) (h : 32 ≤ a.length) :
    putAll (a ++ b) [(30, [f]), (31, [s])] = some (patch f s a ++ b) := by
  simp only [putAll]
  rw [putAt_inside a b 30 [f] (by simp; omega)]
  simp only [Option.bind_some]
  have h30 : (a.take 30).length = 30 := by simp; omega
  rw [putAt_inside _ b 31 [s] (by simp; omega)]
  simp only [Option.bind_some]
  congr 2
  unfold patch
  have e1 : (a.take 30 ++ [f] ++ a.drop (30 + [f].length)).take 31 = a.take 30 ++ [f] := by
    have : (a.take 30 ++ [f]).length = 31 := by simp; omega
    rw [← this, List.take_left]
  have e2 : (a.take 30 ++ [f] ++ a.drop (30 + [f].length)).drop (31 + [s].length) = a.drop 32 := by
    have : (a.take 30 ++ [f]).length = 31 := by simp; omega
    rw [← this, ← List.drop_drop, List.drop_left, List.drop_drop]
    rfl
  rw [e1, e2]
  simp [List.append_assoc]

/-- The bytes a connection leaves in its own 36-byte record of a fresh buffer. -/
def encCon (o : OffMeshCon) : Bytes :=
  o.pos.flatMap le32 ++ le32 o.rad ++ le16 o.poly ++ zeros 2 ++ le32 o.userID

theorem length_encCon (o : OffMeshCon) (h : o.WF) : (encCon o).length = 36 := by
  unfold encCon
  simp only [List.length_append, length_words, length_le32, length_le16, length_zeros]
  have : o.pos.length = 6 := h
  omega

theorem putAll_con1 (o : OffMeshCon) (ho : o.WF) (pre : Bytes) (n : Nat) (hp : 32 ≤ pre.length)
    (hn : 36 ≤ n) :
    putAll (pre ++ zeros n) (conWrites pre.length o)
      = some (patch o.flags o.side pre ++ encCon o ++ zeros (n - 36)) := by
  have hpos : o.pos.length = 6 := ho
  unfold conWrites
  have hA := regular_word.all o.pos (fun _ _ => trivial) pre.length
  have split : recsWrites wordWrites 4 pre.length o.pos
      ++ [(pre.length + 24, le32 o.rad), (pre.length + 28, le16 o.poly), (30, [o.flags]),
          (31, [o.side]), (pre.length + 32, le32 o.userID)]
      = (recsWrites wordWrites 4 pre.length o.pos
        ++ [(pre.length + 24, le32 o.rad), (pre.length + 28, le16 o.poly)])
        ++ ([(30, [o.flags]), (31, [o.side])] ++ [(pre.length + 32, le32 o.userID)]) := by
    simp
  rw [split, putAll_append]
  have hpay : payload (recsWrites wordWrites 4 pre.length o.pos
        ++ [(pre.length + 24, le32 o.rad), (pre.length + 28, le16 o.poly)])
      = o.pos.flatMap le32 ++ le32 o.rad ++ le16 o.poly := by
    rw [payload_append, hA.2.1]; simp [payload]
  have hlen : (o.pos.flatMap le32 ++ le32 o.rad ++ le16 o.poly).length = 30 := by
    simp only [List.length_append, length_words, hpos, length_le32, length_le16]
  rw [putAll_consecutive _ _ _
    (by
      rw [consecutive_append]
      refine ⟨hA.1, ?_⟩
      rw [hA.2.1, hA.2.2, hpos]
      simp [Consecutive])
    (by rw [hpay, hlen, length_zeros]; omega)]
  simp only [Option.bind_some]
  rw [hpay, hlen, drop_zeros, putAll_append, List.append_assoc, putAt_patch _ _ _ _ hp]
  simp only [Option.bind_some, putAll]
  have e : patch o.flags o.side pre ++ (o.pos.flatMap le32 ++ le32 o.rad ++ le16 o.poly
        ++ zeros (n - 30))
      = (patch o.flags o.side pre ++ (o.pos.flatMap le32 ++ le32 o.rad ++ le16 o.poly ++ zeros 2))
        ++ zeros (n - 32) := by
    rw [zeros_add (n - 30) 2 (by omega), show n - 30 - 2 = n - 32 by omega]
    simp [List.append_assoc]
  rw [e, putAt_append' _ _ _ _ (by
    rw [List.length_append, patch_length _ _ _ hp, List.length_append, hlen, length_zeros])
    (by simp; omega)]
  simp only [Option.bind_some, drop_zeros, length_le32]
  rw [show n - 32 - 4 = n - 36 by omega]
  simp [encCon, List.append_assoc]

/-- What the connections' writes do to the bytes before them. -/
def patchAll (cs : List OffMeshCon) (pre : Bytes) : Bytes :=
  match cs.getLast? with
  | none => pre
  | some o => patch o.flags o.side pre

theorem putAll_cons (cs : List OffMeshCon) (hok : ∀ o ∈ cs, o.WF) (pre : Bytes) (off n : Nat)
    (ho : off = pre.length) (hp : cs = [] ∨ 32 ≤ pre.length) (hn : 36 * cs.length ≤ n) :
    putAll (pre ++ zeros n) (recsWrites conWrites 36 off cs)
      = some (patchAll cs pre ++ cs.flatMap encCon ++ zeros (n - 36 * cs.length)) := by
  induction cs generalizing pre off n with
  | nil => simp [recsWrites, putAll, patchAll]
  | cons o cs ih =>
    subst ho
    have hp' : 32 ≤ pre.length := by simpa using hp
    simp only [List.length_cons] at hn
    have hwf := hok o (by simp)
    simp only [recsWrites]
    rw [putAll_append, putAll_con1 o hwf pre n hp' (by omega)]
    simp only [Option.bind_some]
    have hl : (patch o.flags o.side pre).length = pre.length := patch_length _ _ _ hp'
    rw [ih (fun x hx => hok x (by simp [hx])) _ (pre.length + 36) (n - 36)
      (by rw [List.length_append, hl, length_encCon o hwf])
      (by right; rw [List.length_append]; omega) (by omega)]
    have e : patchAll cs (patch o.flags o.side pre ++ encCon o)
        = patchAll (o :: cs) pre ++ encCon o := by
      unfold patchAll
      rw [List.getLast?_cons]
      cases hc : cs.getLast? with
      | none => simp
      | some q =>
        simp only [Option.getD_some]
        rw [patch_append _ _ _ _ (by omega), patch_patch _ _ _ _ _ hp']
    rw [e, List.length_cons, show n - 36 - 36 * cs.length = n - 36 * (cs.length + 1) by omega]
    simp [List.append_assoc]

theorem rdCon_enc (src : Bytes) (o : OffMeshCon) (ho : o.WF) (f s : Byte)
    (hf : rd8 (src.drop 30) = some f) (hs : rd8 (src.drop 31) = some s) (t : Bytes) :
    rdCon src (encCon o ++ t) = some { o with flags := f, side := s } := by
  have hpos : o.pos.length = 6 := ho
  unfold rdCon
  have h1 := readRecs_enc' rd32 4 le32 o.pos 0 6 (encCon o ++ t) []
    (le32 o.rad ++ le16 o.poly ++ zeros 2 ++ le32 o.userID ++ t)
    (by simp [encCon, List.append_assoc]) (fun r _ t => rd32_le32 r t) (fun _ _ => rfl) rfl
    hpos.symm
  have hl : (o.pos.flatMap le32).length = 24 := by rw [length_words, hpos]
  have hd : (encCon o ++ t).drop 24
      = le32 o.rad ++ (le16 o.poly ++ (zeros 2 ++ (le32 o.userID ++ t))) := by
    have : encCon o ++ t = o.pos.flatMap le32 ++
        (le32 o.rad ++ (le16 o.poly ++ (zeros 2 ++ (le32 o.userID ++ t)))) := by
      simp [encCon, List.append_assoc]
    rw [this, ← hl, List.drop_left]
  have hd28 : (encCon o ++ t).drop 28 = le16 o.poly ++ (zeros 2 ++ (le32 o.userID ++ t)) := by
    rw [show 28 = 24 + 4 by rfl, ← List.drop_drop, hd]; rfl
  have hd32 : (encCon o ++ t).drop 32 = le32 o.userID ++ t := by
    rw [show 32 = 24 + 8 by rfl, ← List.drop_drop, hd]; rfl
  rw [h1, hd, hd28, hd32, rd32_le32, rd16_le16, rd32_le32, hf, hs]
  rfl

/-- The third vertex's y coordinate (word 7) after its upper half was overwritten. -/
def patchWord (f s : Byte) (x : U32) : U32 :=
  BitVec.ofNat 32 (x.toNat % 2 ^ 16 + f.toNat * 2 ^ 16 + s.toNat * 2 ^ 24)

theorem patch_words (f s : Byte) (ws : List U32) (h : 8 ≤ ws.length) :
    patch f s (ws.flatMap le32) = (ws.modify 7 (patchWord f s)).flatMap le32 := by
  match ws, h with
  | a0 :: a1 :: a2 :: a3 :: a4 :: a5 :: a6 :: a7 :: r, _ =>
    have e : le32 (patchWord f s a7)
        = [BitVec.ofNat 8 a7.toNat, BitVec.ofNat 8 (a7.toNat / 2 ^ 8), f, s] := by
      unfold le32 patchWord
      have hf := f.isLt
      have hs := s.isLt
      have ha := a7.isLt
      simp only [List.cons.injEq, and_true]
      refine ⟨?_, ?_, ?_, ?_⟩ <;> apply BitVec.eq_of_toNat_eq <;>
        simp only [BitVec.toNat_ofNat] <;> omega
    have e2 : (a0 :: a1 :: a2 :: a3 :: a4 :: a5 :: a6 :: a7 :: r).modify 7 (patchWord f s)
        = a0 :: a1 :: a2 :: a3 :: a4 :: a5 :: a6 :: patchWord f s a7 :: r := rfl
    rw [e2]
    simp only [List.flatMap_cons, e]
    rfl

/-! ## Properties -/

/-- Spec: the header's counts describe the body, and the int32 lengths do not overflow. -/
structure Consistent (h : MeshHeader) (t : TileBody) : Prop where
  verts : t.verts.length = 3 * h.vertCount.toNat
  polys : t.polys.length = h.polyCount.toNat
  links : t.links.length = h.maxLinkCount.toNat
  dmeshes : t.detailMeshes.length = h.detailMeshCount.toNat
  dverts : t.detailVerts.length = 3 * h.detailVertCount.toNat
  dtris : t.detailTris.length = 4 * h.detailTriCount.toNat
  bv : t.bvTree.length = h.bvNodeCount.toNat
  cons : t.offMeshCons.length = h.offMeshConCount.toNat
  small : t.size < 2 ^ 31
  polysWF : ∀ p ∈ t.polys, p.WF
  consWF : ∀ o ∈ t.offMeshCons, o.WF

theorem mkLen_eq (x : U32) (n : Nat) (h : x.toNat = n) (hs : n < 2 ^ 31) : mkLen x = some n := by
  unfold mkLen
  have : x.toInt = (n : Int) := by
    rw [BitVec.toInt_eq_toNat_cond]
    rw [if_pos (by omega), h]
  rw [this, if_neg (by omega)]
  simp

/-- Spec: what the pinned code makes of a tile with off-mesh connections: the last connection's
flags and side overwrite the upper half of the third vertex's y coordinate and are read back for all
connections. -/
def corrupted (t : TileBody) : TileBody :=
  match t.offMeshCons.getLast? with
  | none => t
  | some o => { t with
      verts := t.verts.modify 7 (patchWord o.flags o.side)
      offMeshCons := t.offMeshCons.map fun c => { c with flags := o.flags, side := o.side } }

/-- The bytes `serializeTileData` leaves in a fresh buffer. -/
def TileBody.image (t : TileBody) : Bytes :=
  (corrupted t).verts.flatMap le32 ++ t.polys.flatMap encPoly ++ t.links.flatMap encLink
    ++ t.detailMeshes.flatMap encDetail ++ t.detailVerts.flatMap le32 ++ t.detailTris
    ++ t.bvTree.flatMap encBv ++ t.offMeshCons.flatMap encCon

theorem length_flatMap_const {α : Type} (rs : List α) (enc : α → Bytes) (k : Nat)
    (h : ∀ r ∈ rs, (enc r).length = k) : (rs.flatMap enc).length = k * rs.length := by
  induction rs with
  | nil => rfl
  | cons r rs ih =>
    rw [List.flatMap_cons, List.length_append, h r (by simp), ih (fun x hx => h x (by simp [hx])),
      List.length_cons]
    ring

theorem serialize_image (h : MeshHeader) (t : TileBody) (hc : Consistent h t)
    (hv : t.offMeshCons = [] ∨ 8 ≤ t.verts.length) (n : Nat) (hn : t.size ≤ n) :
    t.serialize (zeros n) = some (t.image ++ zeros (n - t.size)) := by
  unfold TileBody.size TileBody.offCons TileBody.offBv TileBody.offDTris TileBody.offDVerts
    TileBody.offDetail TileBody.offLinks TileBody.offPolys at hn
  have lP := (regular_poly.all t.polys hc.polysWF 0).2.2
  have lL := (regular_link.all t.links (fun _ _ => trivial) 0).2.2
  have lD : (t.detailMeshes.flatMap encDetail).length = 12 * t.detailMeshes.length :=
    length_flatMap_const _ _ _ (fun _ _ => rfl)
  have lB := (regular_bv.all t.bvTree (fun _ _ => trivial) 0).2.2
  unfold TileBody.serialize TileBody.writes
  have s1 := putAll_regular regular_word t.verts (fun _ _ => trivial) [] 0 n rfl (by omega)
  simp only [List.nil_append] at s1
  simp only [putAll_append]
  rw [s1]
  simp only [Option.bind_some]
  rw [putAll_regular regular_poly t.polys hc.polysWF _ t.offPolys _
    (by rw [length_words]; rfl) (by omega)]
  simp only [Option.bind_some]
  rw [putAll_regular regular_link t.links (fun _ _ => trivial) _ t.offLinks _
    (by rw [List.length_append, length_words, lP]; rfl) (by omega)]
  simp only [Option.bind_some]
  rw [putAll_detail t.detailMeshes _ t.offDetail _
    (by rw [List.length_append, List.length_append, length_words, lP, lL]; rfl) (by omega)]
  simp only [Option.bind_some]
  rw [putAll_regular regular_word t.detailVerts (fun _ _ => trivial) _ t.offDVerts _
    (by simp only [List.length_append, length_words, lP, lL, lD]; rfl) (by omega)]
  simp only [Option.bind_some, putAll]
  rw [putAt_append' _ _ _ t.offDTris
    (by simp only [List.length_append, length_words, lP, lL, lD]; rfl)
    (by rw [length_zeros]; omega), drop_zeros]
  simp only [Option.bind_some]
  rw [putAll_regular regular_bv t.bvTree (fun _ _ => trivial) _ t.offBv _
    (by simp only [List.length_append, length_words, lP, lL, lD]; rfl) (by omega)]
  simp only [Option.bind_some]
  rw [putAll_cons t.offMeshCons hc.consWF _ t.offCons _
    (by simp only [List.length_append, length_words, lP, lL, lD, lB]; rfl)
    (by
      rcases hv with hv | hv
      · exact Or.inl hv
      · right
        simp only [List.length_append, length_words]
        omega)
    (by omega)]
  congr 1
  have hz : n - 4 * t.verts.length - 32 * t.polys.length - 12 * t.links.length
      - 12 * t.detailMeshes.length - 4 * t.detailVerts.length - t.detailTris.length
      - 16 * t.bvTree.length - 36 * t.offMeshCons.length = n - t.size := by
    unfold TileBody.size TileBody.offCons TileBody.offBv TileBody.offDTris TileBody.offDVerts
      TileBody.offDetail TileBody.offLinks TileBody.offPolys
    omega
  rw [hz]
  congr 1
  unfold TileBody.image corrupted patchAll
  cases hl : t.offMeshCons.getLast? with
  | none => rfl
  | some o =>
    simp only
    have h8 : 8 ≤ t.verts.length := by
      rcases hv with hv | hv
      · rw [hv] at hl; simp at hl
      · exact hv
    rw [← patch_words _ _ _ h8]
    have h32 : 32 ≤ (t.verts.flatMap le32).length := by rw [length_words]; omega
    simp only [List.append_assoc]
    rw [patch_append _ _ _ _ h32]
    simp only [List.append_assoc]

theorem corrupted_lengths (t : TileBody) : (corrupted t).verts.length = t.verts.length := by
  unfold corrupted
  cases t.offMeshCons.getLast? with
  | none => rfl
  | some o => simp

theorem readRecs_zero {α : Type} (rd : Bytes → Option α) (st off : Nat) (s : Bytes) :
    readRecs rd st off 0 s = some [] := rfl

theorem image_bytes30 (t : TileBody) (r : Bytes) (o : OffMeshCon)
    (hl : t.offMeshCons.getLast? = some o) (h8 : 8 ≤ t.verts.length) :
    rd8 ((t.image ++ r).drop 30) = some o.flags ∧ rd8 ((t.image ++ r).drop 31) = some o.side := by
  have e : ∃ r', t.image ++ r = patch o.flags o.side (t.verts.flatMap le32) ++ r' := by
    unfold TileBody.image corrupted
    rw [hl]
    simp only [List.append_assoc]
    rw [← patch_words _ _ _ h8]
    exact ⟨_, rfl⟩
  obtain ⟨r', e⟩ := e
  rw [e]
  unfold patch
  have h30 : ((t.verts.flatMap le32).take 30).length = 30 := by
    rw [List.length_take, length_words]; omega
  have hd : ((t.verts.flatMap le32).take 30 ++ [o.flags, o.side] ++ (t.verts.flatMap le32).drop 32
      ++ r').drop 30 = [o.flags, o.side] ++ ((t.verts.flatMap le32).drop 32 ++ r') := by
    rw [List.append_assoc, List.append_assoc]
    exact List.drop_left' h30
  refine ⟨by rw [hd]; rfl, ?_⟩
  rw [show 31 = 30 + 1 by rfl, ← List.drop_drop, hd]
  rfl

/-- **C13**, exact behaviour of the pinned code: writing a tile whose header counts are consistent
into a fresh buffer and reading it back yields the tile with its off-mesh data corrupted as
described by `corrupted` (so: unchanged if there is no off-mesh connection). The tile has at least
3 vertices or no off-mesh connection. -/
theorem tile_roundtrip_exact (h : MeshHeader) (t : TileBody) (hc : Consistent h t)
    (hv : t.offMeshCons = [] ∨ 8 ≤ t.verts.length) (n : Nat) (hn : t.size ≤ n) :
    ∃ out, t.serialize (zeros n) = some out ∧ out.length = n ∧
      TileBody.unserialize h out = some (corrupted t) := by
  refine ⟨_, serialize_image h t hc hv n hn, ?_, ?_⟩
  · have := putAll_short _ _ _ (serialize_image h t hc hv n hn)
    rw [this, length_zeros]
  have hs := hc.small
  have hsize := hs
  unfold TileBody.size TileBody.offCons TileBody.offBv TileBody.offDTris TileBody.offDVerts
    TileBody.offDetail TileBody.offLinks TileBody.offPolys at hs
  have lP := (regular_poly.all t.polys hc.polysWF 0).2.2
  have lL := (regular_link.all t.links (fun _ _ => trivial) 0).2.2
  have lD : (t.detailMeshes.flatMap encDetail).length = 12 * t.detailMeshes.length :=
    length_flatMap_const _ _ _ (fun _ _ => rfl)
  have lB := (regular_bv.all t.bvTree (fun _ _ => trivial) 0).2.2
  have lV : ((corrupted t).verts.flatMap le32).length = 4 * t.verts.length := by
    rw [length_words, corrupted_lengths]
  have c1 := hc.verts
  have c5 := hc.dverts
  have c6 := hc.dtris
  have v3 := h.vertCount.isLt
  unfold TileBody.unserialize
  rw [mkLen_eq (3#32 * h.vertCount) t.verts.length
    (by rw [BitVec.toNat_mul]; simp only [BitVec.toNat_ofNat]; omega) (by omega)]
  rw [mkLen_eq h.polyCount t.polys.length hc.polys.symm (by omega)]
  rw [mkLen_eq h.maxLinkCount t.links.length hc.links.symm (by omega)]
  rw [mkLen_eq h.detailMeshCount t.detailMeshes.length hc.dmeshes.symm (by omega)]
  rw [mkLen_eq (3#32 * h.detailVertCount) t.detailVerts.length
    (by rw [BitVec.toNat_mul]; simp only [BitVec.toNat_ofNat]; omega) (by omega)]
  rw [mkLen_eq (4#32 * h.detailTriCount) t.detailTris.length
    (by rw [BitVec.toNat_mul]; simp only [BitVec.toNat_ofNat]; omega) (by omega)]
  rw [mkLen_eq h.bvNodeCount t.bvTree.length hc.bv.symm (by omega)]
  rw [mkLen_eq h.offMeshConCount t.offMeshCons.length hc.cons.symm (by omega)]
  simp only [Option.bind_eq_bind, Option.bind_some]
  generalize hsrc : t.image ++ zeros (n - t.size) = src
  have hsrc' := hsrc
  unfold TileBody.image at hsrc'
  rw [readRecs_enc' rd32 4 le32 (corrupted t).verts 0 _ src []
    (t.polys.flatMap encPoly ++ t.links.flatMap encLink
    ++ t.detailMeshes.flatMap encDetail ++ t.detailVerts.flatMap le32 ++ t.detailTris
    ++ t.bvTree.flatMap encBv ++ t.offMeshCons.flatMap encCon ++ zeros (n - t.size))
    (by rw [← hsrc']; simp [List.append_assoc]) (fun r _ t => rd32_le32 r t) (fun _ _ => rfl) rfl
    (corrupted_lengths t).symm]
  simp only [Option.bind_some]
  rw [readRecs_enc' rdPoly 32 encPoly t.polys _ _ src ((corrupted t).verts.flatMap le32)
    (t.links.flatMap encLink
    ++ t.detailMeshes.flatMap encDetail ++ t.detailVerts.flatMap le32 ++ t.detailTris
    ++ t.bvTree.flatMap encBv ++ t.offMeshCons.flatMap encCon ++ zeros (n - t.size))
    (by rw [← hsrc']; simp [List.append_assoc]) (fun r hr t => rdPoly_enc r (hc.polysWF r hr) t)
    (fun r hr => regular_poly.len r (hc.polysWF r hr)) (by rw [lV]) rfl]
  simp only [Option.bind_some]
  rw [readRecs_enc' rdLink 12 encLink t.links _ _ src
    ((corrupted t).verts.flatMap le32 ++ t.polys.flatMap encPoly)
    (t.detailMeshes.flatMap encDetail ++ t.detailVerts.flatMap le32 ++ t.detailTris
    ++ t.bvTree.flatMap encBv ++ t.offMeshCons.flatMap encCon ++ zeros (n - t.size))
    (by rw [← hsrc']; simp [List.append_assoc]) (fun r _ t => rdLink_enc r t)
    (fun _ _ => rfl) (by simp only [List.length_append, lV, lP]) rfl]
  simp only [Option.bind_some]
  rw [readRecs_enc' rdDetail 12 encDetail t.detailMeshes _ _ src
    ((corrupted t).verts.flatMap le32 ++ t.polys.flatMap encPoly ++ t.links.flatMap encLink)
    (t.detailVerts.flatMap le32 ++ t.detailTris
    ++ t.bvTree.flatMap encBv ++ t.offMeshCons.flatMap encCon ++ zeros (n - t.size))
    (by rw [← hsrc']; simp [List.append_assoc]) (fun r _ t => rdDetail_enc r t)
    (fun _ _ => rfl) (by simp only [List.length_append, lV, lP, lL]) rfl]
  simp only [Option.bind_some]
  rw [readRecs_enc' rd32 4 le32 t.detailVerts _ _ src
    ((corrupted t).verts.flatMap le32 ++ t.polys.flatMap encPoly ++ t.links.flatMap encLink
      ++ t.detailMeshes.flatMap encDetail)
    (t.detailTris
    ++ t.bvTree.flatMap encBv ++ t.offMeshCons.flatMap encCon ++ zeros (n - t.size))
    (by rw [← hsrc']; simp [List.append_assoc]) (fun r _ t => rd32_le32 r t)
    (fun _ _ => rfl) (by simp only [List.length_append, lV, lP, lL, lD]) rfl]
  simp only [Option.bind_some]
  have hcopy : rdCopy (4 * t.verts.length + 32 * t.polys.length + 12 * t.links.length
      + 12 * t.detailMeshes.length + 4 * t.detailVerts.length) t.detailTris.length src
      = some t.detailTris := by
    unfold rdCopy
    have e : src = ((corrupted t).verts.flatMap le32 ++ t.polys.flatMap encPoly
        ++ t.links.flatMap encLink ++ t.detailMeshes.flatMap encDetail
        ++ t.detailVerts.flatMap le32) ++ (t.detailTris
        ++ (t.bvTree.flatMap encBv ++ t.offMeshCons.flatMap encCon ++ zeros (n - t.size))) := by
      rw [← hsrc']; simp [List.append_assoc]
    have hl : ((corrupted t).verts.flatMap le32 ++ t.polys.flatMap encPoly
        ++ t.links.flatMap encLink ++ t.detailMeshes.flatMap encDetail
        ++ t.detailVerts.flatMap le32).length = 4 * t.verts.length + 32 * t.polys.length
        + 12 * t.links.length + 12 * t.detailMeshes.length + 4 * t.detailVerts.length := by
      simp only [List.length_append, lV, lP, lL, lD, length_words]
    rw [e, ← hl]
    rw [if_neg (by rw [List.length_append]; omega), List.drop_left, List.take_left]
    rw [List.length_append, List.length_append, Nat.add_sub_cancel_left]
    simp
  rw [hcopy]
  simp only [Option.bind_some]
  rw [readRecs_enc' rdBv 16 encBv t.bvTree _ _ src
    ((corrupted t).verts.flatMap le32 ++ t.polys.flatMap encPoly ++ t.links.flatMap encLink
      ++ t.detailMeshes.flatMap encDetail ++ t.detailVerts.flatMap le32 ++ t.detailTris)
    (t.offMeshCons.flatMap encCon ++ zeros (n - t.size))
    (by rw [← hsrc']; simp [List.append_assoc]) (fun r _ t => rdBv_enc r t)
    (fun _ _ => rfl) (by simp only [List.length_append, lV, lP, lL, lD, length_words]) rfl]
  simp only [Option.bind_some]
  cases hl : t.offMeshCons.getLast? with
  | none =>
    have hnil : t.offMeshCons = [] := List.getLast?_eq_none_iff.1 hl
    have hcor : corrupted t = t := by unfold corrupted; rw [hl]
    rw [hnil, hcor]
    simp only [List.length_nil, readRecs_zero, Option.bind_some]
    rw [← hnil]
  | some o =>
    have h8 : 8 ≤ t.verts.length := by
      rcases hv with hv | hv
      · rw [hv] at hl; simp at hl
      · exact hv
    have hb := image_bytes30 t (zeros (n - t.size)) o hl h8
    rw [hsrc] at hb
    have hcor : (corrupted t).offMeshCons
        = t.offMeshCons.map fun c => { c with flags := o.flags, side := o.side } := by
      unfold corrupted; rw [hl]
    have hfm : (t.offMeshCons.map fun c => ({ c with flags := o.flags, side := o.side }
        : OffMeshCon)).flatMap encCon = t.offMeshCons.flatMap encCon := by
      rw [List.flatMap_map]
      rfl
    rw [readRecs_enc' (rdCon src) 36 encCon
      (t.offMeshCons.map fun c => { c with flags := o.flags, side := o.side }) _ _ src
      ((corrupted t).verts.flatMap le32 ++ t.polys.flatMap encPoly ++ t.links.flatMap encLink
      ++ t.detailMeshes.flatMap encDetail ++ t.detailVerts.flatMap le32 ++ t.detailTris
      ++ t.bvTree.flatMap encBv)
      (zeros (n - t.size))
      (by rw [← hsrc', hfm])
      (by
        intro r hr t'
        rw [List.mem_map] at hr
        obtain ⟨c, hcm, rfl⟩ := hr
        exact rdCon_enc src c (hc.consWF c hcm) o.flags o.side hb.1 hb.2 t')
      (by
        intro r hr
        rw [List.mem_map] at hr
        obtain ⟨c, hcm, rfl⟩ := hr
        exact length_encCon c (hc.consWF c hcm))
      (by simp only [List.length_append, lV, lP, lL, lD, lB, length_words])
      (by simp)]
    simp only [Option.bind_some]
    rw [← hcor]
    unfold corrupted
    rw [hl]

/-- **C13** `_partial`: a tile without off-mesh connections survives writing and reading unchanged.
Missing from the full statement: tiles with off-mesh connections, for which it is false
(`tile_roundtrip_refuted`); what happens to those is `tile_roundtrip_exact`. -/
theorem tile_roundtrip_partial (h : MeshHeader) (t : TileBody) (hc : Consistent h t)
    (hno : t.offMeshCons = []) (n : Nat) (hn : t.size ≤ n) :
    ∃ out, t.serialize (zeros n) = some out ∧ out.length = n ∧
      TileBody.unserialize h out = some t := by
  obtain ⟨out, h1, h2, h3⟩ := tile_roundtrip_exact h t hc (Or.inl hno) n hn
  refine ⟨out, h1, h2, ?_⟩
  rw [h3]
  unfold corrupted
  rw [hno]
  rfl

/-- A tile with one triangle and two off-mesh connections, one of them bidirectional. -/
def exampleTile : TileBody :=
  { verts := List.replicate 9 0x3f800000#32
    polys := [⟨0xffffffff#32, [0, 1, 2, 0, 0, 0], [0, 0, 0, 0, 0, 0], 1, 3, 1⟩]
    links := [⟨0, 0, 0, 0, 0, 0⟩]
    detailMeshes := [⟨0, 0, 0, 1⟩]
    detailVerts := []
    detailTris := [0, 1, 2, 0]
    bvTree := [⟨0, 0, 0, 1, 1, 1, 0⟩]
    offMeshCons := [⟨[0, 0, 0, 1, 1, 1], 0x3f000000#32, 1, 1, 0xff, 7⟩,
      ⟨[0, 0, 0, 1, 1, 1], 0x3f000000#32, 1, 0, 2, 8⟩] }

/-- Its header. -/
def exampleHeader : MeshHeader :=
  ⟨0x444e4156#32, 7, 0, 0, 0, 0, 1, 3, 1, 1, 0, 1, 1, 2, 1, 0, 0, 0, 0, 0, 0, 0, 0, 0, 0⟩

theorem example_consistent : Consistent exampleHeader exampleTile :=
  ⟨by decide, by decide, by decide, by decide, by decide, by decide, by decide, by decide,
    by decide, by decide, by decide⟩

/-- **C13** refuted in full: a consistent tile with off-mesh connections does not survive; a vertex
coordinate changes and a bidirectional connection becomes unidirectional. -/
theorem tile_roundtrip_refuted :
    ∃ (h : MeshHeader) (t : TileBody), Consistent h t ∧
      ∃ out t', t.serialize (zeros t.size) = some out ∧ TileBody.unserialize h out = some t' ∧
        t'.verts ≠ t.verts ∧
        t'.offMeshCons.map (·.flags) ≠ t.offMeshCons.map (·.flags) := by
  refine ⟨exampleHeader, exampleTile, example_consistent, ?_⟩
  obtain ⟨out, h1, _, h3⟩ := tile_roundtrip_exact exampleHeader exampleTile example_consistent
    (Or.inr (by decide)) exampleTile.size (Nat.le_refl _)
  exact ⟨out, _, h1, h3, by decide, by decide⟩

/-- Non-trivial instance of the partial theorem's hypotheses. -/
example : Consistent { exampleHeader with offMeshConCount := 0 }
    { exampleTile with offMeshCons := [] } :=
  ⟨by decide, by decide, by decide, by decide, by decide, by decide, by decide, by decide,
    by decide, by decide, by decide⟩

end Verif.Detour
