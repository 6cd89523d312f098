/-
`CreateNavMeshData` (detour/navmeshcreate.go:547-925).

Simplifications. Counts are the lengths of the slices they describe (so "nil" and "count 0" coincide for vertices and
polygons), and no int32 computation overflows. Results of float computations are given: the world coordinates of a vertex
(`world`), the classes of the two end points of an off-mesh connection after the height test (detour/navmeshcreate.go:573-629)
and the quantized boxes of the polygons (detour/navmeshcreate.go:262-292). Floats are bit patterns.
-/
import Verif.Detour.TileData
import Verif.Detour.Stream
import Verif.Detour.Bits
import Verif.Detour.BvTree
import Mathlib.Data.Nat.Bitwise

namespace Verif.Detour
open Verif

set_option linter.unusedSimpArgs false
set_option linter.unusedVariables false

/-! ## Model -/

/-- Three floats. -/
abbrev W3 := U32 × U32 × U32

/-- Their place in a flat slice. -/
def flat3 (w : W3) : List U32 := [w.1, w.2.1, w.2.2]

/-- A polygon of `NavMeshCreateParams` (detour/navmeshcreate.go:401-413): `2*nvp` numbers, flags and area. -/
structure CreatePoly where
  verts : List U16
  neis : List U16
  flags : U16
  area : Byte

/-- An entry of `DetailMeshes` (detour/navmeshcreate.go:418-422). -/
structure CreateDetail where
  vertBase : Nat
  vertCount : Nat
  triBase : Nat
  triCount : Nat

/-- An off-mesh connection (detour/navmeshcreate.go:440-478) with the classes of its end points. -/
structure CreateCon where
  a : W3
  b : W3
  rad : U32
  flags : U16
  area : Byte
  bidir : Bool
  userID : U32
  startClass : Byte
  endClass : Byte

/-- `NavMeshCreateParams` (detour/navmeshcreate.go:391-534); `details = none` is a nil `DetailMeshes`. `hdr` carries the header
fields that are copied (position, agent, bounds). -/
structure CreateParams where
  nvp : Nat
  verts : List (U16 × U16 × U16)
  polys : List CreatePoly
  details : Option (List CreateDetail)
  detailVerts : List W3
  detailTris : List (Byte × Byte × Byte × Byte)
  cons : List CreateCon
  buildBv : Bool
  world : U16 × U16 × U16 → W3
  boxes : List QBox
  srt : Nat → List BvItem → List BvItem
  hdr : MeshHeader

/-- Vertices of a row before the first `meshNullIdx` (the loops at detour/navmeshcreate.go:650-653, 677-682, 785-788). -/
def usedVerts (row : List U16) : List U16 := row.takeWhile fun v => v != 0xffff#16

/-- `dir := p[nvp+j] & 0xf; if dir != 0xf` for a border edge (detour/navmeshcreate.go:656-661). -/
def countsPortal (n : U16) : Bool := (n &&& 0x8000#16) != 0#16 && (n &&& 0xf#16) != 0xf#16

/-- The stored neighbour (detour/navmeshcreate.go:790-809); the array is zero before. -/
def storedNei (n : U16) : U16 :=
  if (n &&& 0x8000#16) != 0#16 then
    if n &&& 0xf#16 = 0xf#16 then 0#16
    else if n &&& 0xf#16 = 0#16 then 0x8004#16
    else if n &&& 0xf#16 = 1#16 then 0x8002#16
    else if n &&& 0xf#16 = 2#16 then 0x8000#16
    else if n &&& 0xf#16 = 3#16 then 0x8006#16
    else 0#16
  else n + 1#16

/-- A Go array of six numbers with the given first entries. -/
def pad6 (l : List U16) : List U16 := l ++ List.replicate (6 - l.length) 0#16

/-- A ground polygon (detour/navmeshcreate.go:778-814). -/
def groundPoly (p : CreatePoly) : Poly :=
  let u := usedVerts p.verts
  { firstLink := 0#32
    verts := pad6 u
    neis := pad6 ((p.neis.take u.length).map storedNei)
    flags := p.flags
    vertCount := BitVec.ofNat 8 u.length
    areaAndType := setType (setArea 0#8 p.area) 0#8 }

/-- The polygon of the `n`th stored off-mesh connection (detour/navmeshcreate.go:817-830). -/
def conPoly (vertBase n : Nat) (c : CreateCon) : Poly :=
  { firstLink := 0#32
    verts := pad6 [BitVec.ofNat 16 (vertBase + n * 2), BitVec.ofNat 16 (vertBase + n * 2 + 1)]
    neis := pad6 []
    flags := c.flags
    vertCount := 2#8
    areaAndType := setType (setArea 0#8 c.area) 1#8 }

/-- The record of the `n`th stored off-mesh connection (detour/navmeshcreate.go:887-913). -/
def conRec (polyBase n : Nat) (c : CreateCon) : OffMeshCon :=
  { pos := flat3 c.a ++ flat3 c.b
    rad := c.rad
    poly := BitVec.ofNat 16 (polyBase + n)
    flags := if c.bidir then 1#8 else 0#8
    side := c.endClass
    userID := c.userID }

/-- "Only store connections which start from this tile". -/
def storedCons (p : CreateParams) : List CreateCon := p.cons.filter fun c => c.startClass == 0xff#8

/-- The links set aside for off-mesh connections (detour/navmeshcreate.go:617-623). -/
def conLinks (p : CreateParams) : Nat :=
  (p.cons.map fun c => (if c.startClass == 0xff#8 then 1 else 0) + (if c.endClass == 0xff#8 then 1 else 0)).sum

/-- `maxLinkCount` (detour/navmeshcreate.go:639-666). -/
def createLinks (p : CreateParams) : Nat :=
  (p.polys.map fun q => (usedVerts q.verts).length).sum +
    (p.polys.map fun q => ((q.neis.take (usedVerts q.verts).length).filter countsPortal).length).sum * 2 + conLinks p * 2

/-- State of the loop over detail meshes: `vbase`, `navDVerts`, `navDMeshes`. -/
structure DetailState where
  vbase : U16
  dverts : List U32
  meshes : List PolyDetail

/-- `copy(dst[pos:], src)`: `none` if `pos` is past the end. -/
def copyAt (dst : List U32) (pos : Nat) (src : List U32) : Option (List U32) :=
  if dst.length < pos then none
  else some (dst.take pos ++ src.take (dst.length - pos) ++ dst.drop (pos + src.length))

/-- One detail mesh (detour/navmeshcreate.go:836-850) of a polygon with `nv` vertices; `vbase*3` is a `uint16`. With `ndv < nv` the
slice of the source has its bounds reversed. -/
def detailStep (src : List W3) (nv : Nat) (d : CreateDetail) (s : DetailState) : Option DetailState :=
  if d.vertCount < nv then none
  else
    let k := d.vertCount - nv
    let rec1 : PolyDetail := ⟨s.vbase.setWidth 32, BitVec.ofNat 32 d.triBase, BitVec.ofNat 8 k, BitVec.ofNat 8 d.triCount⟩
    if k = 0 then some ⟨s.vbase, s.dverts, s.meshes ++ [rec1]⟩
    else if src.length < d.vertBase + d.vertCount then none
    else
      (copyAt s.dverts (s.vbase * 3#16).toNat (((src.drop (d.vertBase + nv)).take k).flatMap flat3)).map fun dv =>
        ⟨s.vbase + BitVec.ofNat 16 k, dv, s.meshes ++ [rec1]⟩

/-- The loop over the detail meshes; `none` is an index out of range. -/
def detailLoop (src : List W3) : List CreatePoly → List CreateDetail → DetailState → Option DetailState
  | [], _, s => some s
  | _ :: _, [], _ => none
  | p :: ps, d :: ds, s => (detailStep src (usedVerts p.verts).length d s).bind (detailLoop src ps ds)

/-- `uniqueDetailVertCount` (detour/navmeshcreate.go:668-687). -/
def uniqueCount : List CreatePoly → List CreateDetail → Int
  | [], _ => 0
  | _ :: _, [] => 0
  | p :: ps, d :: ds => ((d.vertCount : Int) - (usedVerts p.verts).length) + uniqueCount ps ds

/-- A node as it is stored. -/
def storedNode (b : BNode) : BvNode :=
  ⟨b.box.lo0, b.box.lo1, b.box.lo2, b.box.hi0, b.box.hi1, b.box.hi2, BitVec.ofInt 32 b.i⟩

/-- `navBvtree` (detour/navmeshcreate.go:727, 882-885): always `2*PolyCount` nodes, filled only if a tree is to be built, which
panics without detail meshes (detour/navmeshcreate.go:293). -/
def createNodes (p : CreateParams) : Option (List BvNode) :=
  if p.buildBv then
    if p.details.getD [] = [] then none
    else (createBVTree p.srt p.boxes).map fun r => (List.range (2 * p.polys.length)).map fun j => storedNode (r.2 j)
  else some (List.replicate (2 * p.polys.length) (storedNode .zero))

/-- The dummy triangles of one polygon without detail mesh (detour/navmeshcreate.go:864-878). -/
def fanTris (nv : Nat) : Bytes :=
  (List.range (nv - 2)).flatMap fun k =>
    [0#8, BitVec.ofNat 8 (k + 1), BitVec.ofNat 8 (k + 2),
     4#8 ||| (if k = 0 then 1#8 else 0#8) ||| (if k + 3 = nv then 16#8 else 0#8)]

/-- The dummy detail meshes (detour/navmeshcreate.go:855-863, 877). -/
def fanMeshes : List CreatePoly → Nat → List PolyDetail
  | [], _ => []
  | p :: ps, tbase =>
    let nv := (usedVerts p.verts).length
    ⟨0#32, BitVec.ofNat 32 tbase, 0#8, BitVec.ofNat 8 (nv - 2)⟩ :: fanMeshes ps (tbase + (nv - 2))

/-- Detail meshes, vertices and triangles (detour/navmeshcreate.go:722-726, 832-880); also the two counts of the header. `none` is
a panic: a negative length or an index out of range. An empty but non-nil slice is an index out of range at line 675. -/
def createDetail (p : CreateParams) : Option (List PolyDetail × List U32 × Bytes × Nat × Nat) :=
  match p.details with
  | some ds =>
    if ds.length < p.polys.length then none
    else if uniqueCount p.polys ds < 0 then none
    else
      let n := (uniqueCount p.polys ds).toNat
      (detailLoop p.detailVerts p.polys ds ⟨0#16, List.replicate (3 * n) 0#32, []⟩).map fun s =>
        (s.meshes, s.dverts, p.detailTris.flatMap fun t => [t.1, t.2.1, t.2.2.1, t.2.2.2], n, p.detailTris.length)
  | none =>
    if p.polys.all fun q => 2 ≤ (usedVerts q.verts).length then
      some (fanMeshes p.polys 0, [], p.polys.flatMap fun q => fanTris (usedVerts q.verts).length, 0,
        (p.polys.map fun q => (usedVerts q.verts).length - 2).sum)
    else none

/-- The header and the sections of the tile (detour/navmeshcreate.go:731-913). -/
def assemble (p : CreateParams) (dm : List PolyDetail) (dv : List U32) (dt : Bytes) (ndv ndt : Nat) (bv : List BvNode) :
    MeshHeader × TileBody :=
  let cs := storedCons p
  let np := p.polys.length
  let nv := p.verts.length
  ({ p.hdr with
      magic := 0x444e4156#32, version := 7#32
      polyCount := BitVec.ofNat 32 (np + cs.length), vertCount := BitVec.ofNat 32 (nv + cs.length * 2)
      maxLinkCount := BitVec.ofNat 32 (createLinks p), detailMeshCount := BitVec.ofNat 32 np
      detailVertCount := BitVec.ofNat 32 ndv, detailTriCount := BitVec.ofNat 32 ndt
      bvNodeCount := if p.buildBv then BitVec.ofNat 32 (np * 2) else 0#32
      offMeshConCount := BitVec.ofNat 32 cs.length, offMeshBase := BitVec.ofNat 32 np },
   { verts := (p.verts.map p.world).flatMap flat3 ++ cs.flatMap fun c => flat3 c.a ++ flat3 c.b
     polys := p.polys.map groundPoly ++ cs.zipIdx.map fun c => conPoly nv c.2 c.1
     links := List.replicate (createLinks p) ⟨0#32, 0#32, 0#8, 0#8, 0#8, 0#8⟩
     detailMeshes := dm
     detailVerts := dv
     detailTris := dt
     bvTree := bv
     offMeshCons := cs.zipIdx.map fun c => conRec np c.2 c.1 })

/-- Header and tile, or a panic. -/
def createTile (p : CreateParams) : Option (MeshHeader × TileBody) :=
  (createDetail p).bind fun d => (createNodes p).bind fun bv =>
    some (assemble p d.1 d.2.1 d.2.2.1 d.2.2.2.1 d.2.2.2.2 bv)

/-- `dataSize` (detour/navmeshcreate.go:704-720). -/
def createSize (p : CreateParams) (h : MeshHeader) : Nat :=
  100 + 4 * 3 * h.vertCount.toNat + 32 * h.polyCount.toNat + 12 * h.maxLinkCount.toNat + 12 * p.polys.length +
    4 * 3 * h.detailVertCount.toNat + 4 * h.detailTriCount.toNat + (if p.buildBv then 16 * (p.polys.length * 2) else 0) +
    36 * h.offMeshConCount.toNat

/-- `CreateNavMeshData` (detour/navmeshcreate.go:547-925). -/
def createNavMeshData (p : CreateParams) : Res Bytes :=
  if p.nvp > 6 then .err
  else if p.verts.length ≥ 0xffff then .err
  else if p.verts = [] then .err
  else if p.polys = [] then .err
  else
    match (do
      let (h, t) ← createTile p
      let buf ← h.serialize (zeros (createSize p h))
      let out ← t.serialize (buf.drop 100)
      some (buf.take 100 ++ out)) with
    | some b => .ok b
    | none => .panic

/-! ## Refused input -/

/-- Input that `CreateNavMeshData` may refuse. -/
def Unusable (p : CreateParams) : Prop :=
  6 < p.nvp ∨ 65535 ≤ p.verts.length ∨ p.verts = [] ∨ p.polys = []

/-- **C34** (first half): the call returns an error exactly for polygons of more than six vertices, too many or no vertices, or
no polygons. -/
theorem create_error_iff (p : CreateParams) : createNavMeshData p = .err ↔ Unusable p := by
  unfold createNavMeshData Unusable
  by_cases h1 : p.nvp > 6
  · rw [if_pos h1]; simp; omega
  · rw [if_neg h1]
    by_cases h2 : p.verts.length ≥ 0xffff
    · rw [if_pos h2]; simp; omega
    · rw [if_neg h2]
      by_cases h3 : p.verts = []
      · rw [if_pos h3]; simp [h3]
      · rw [if_neg h3]
        by_cases h4 : p.polys = []
        · rw [if_pos h4]; simp [h4]
        · rw [if_neg h4]
          constructor
          · intro h
            split at h <;> cases h
          · rintro (h | h | h | h)
            · omega
            · omega
            · exact absurd h h3
            · exact absurd h h4

/-! ## Detail meshes -/

/-- The detail meshes fit the polygons and the detail vertices. -/
def DetailFits (src : List W3) : List CreatePoly → List CreateDetail → Prop
  | [], [] => True
  | p :: ps, d :: ds =>
    ((usedVerts p.verts).length ≤ d.vertCount ∧ d.vertBase + d.vertCount ≤ src.length) ∧ DetailFits src ps ds
  | _, _ => False

/-- The detail vertices of one polygon that are not its corners. -/
def extraVerts (src : List W3) (p : CreatePoly) (d : CreateDetail) : List W3 :=
  (src.drop (d.vertBase + (usedVerts p.verts).length)).take (d.vertCount - (usedVerts p.verts).length)

theorem DetailFits.len {src : List W3} : ∀ {ps : List CreatePoly} {ds : List CreateDetail}, DetailFits src ps ds → ds.length = ps.length
  | [], [], _ => rfl
  | [], _ :: _, h => h.elim
  | _ :: _, [], h => h.elim
  | _ :: _, _ :: _, h => by simpa using DetailFits.len h.2

theorem DetailFits.unique {src : List W3} : ∀ {ps : List CreatePoly} {ds : List CreateDetail}, DetailFits src ps ds →
    uniqueCount ps ds = (((ps.zip ds).flatMap fun x => extraVerts src x.1 x.2).length : Nat)
  | [], [], _ => rfl
  | [], _ :: _, h => h.elim
  | _ :: _, [], h => h.elim
  | p :: ps, d :: ds, h => by
    have ih := DetailFits.unique h.2
    obtain ⟨⟨h1, h2⟩, -⟩ := h
    rw [uniqueCount, ih, List.zip_cons_cons, List.flatMap_cons, List.length_append]
    unfold extraVerts
    simp only [List.length_take, List.length_drop]
    push_cast
    omega

theorem copyAt_length {dst src out : List U32} {pos : Nat} (h : copyAt dst pos src = some out) : out.length = dst.length := by
  unfold copyAt at h
  split at h
  · cases h
  · cases h
    simp only [List.length_append, List.length_take, List.length_drop]
    omega

/-- The loop does not fail, and the number of entries is right, whatever the sizes. -/
theorem detailLoop_ok {src : List W3} : ∀ (ps : List CreatePoly) (ds : List CreateDetail) (s : DetailState) (b : Nat),
    DetailFits src ps ds → s.vbase.toNat = b % 65536 →
    3 * (b + ((ps.zip ds).flatMap fun x => extraVerts src x.1 x.2).length) ≤ s.dverts.length →
    ∃ s', detailLoop src ps ds s = some s' ∧ s'.dverts.length = s.dverts.length ∧ s'.meshes.length = s.meshes.length + ps.length
  | [], [], s, b, _, _, _ => ⟨s, rfl, rfl, rfl⟩
  | [], _ :: _, _, _, h, _, _ => h.elim
  | _ :: _, [], _, _, h, _, _ => h.elim
  | p :: ps, d :: ds, s, b, h, hb, hl => by
    obtain ⟨⟨h1, h2⟩, h⟩ := h
    rw [List.zip_cons_cons, List.flatMap_cons, List.length_append] at hl
    dsimp only at hl
    have he : (extraVerts src p d).length = d.vertCount - (usedVerts p.verts).length := by
      unfold extraVerts
      simp only [List.length_take, List.length_drop]
      omega
    rw [detailLoop, detailStep, if_neg (by omega)]
    dsimp only
    by_cases hk : d.vertCount - (usedVerts p.verts).length = 0
    · rw [if_pos hk, Option.bind_some]
      obtain ⟨s', e, e1, e2⟩ := detailLoop_ok ps ds
        ⟨s.vbase, s.dverts, s.meshes ++ [⟨s.vbase.setWidth 32, BitVec.ofNat 32 d.triBase,
          BitVec.ofNat 8 (d.vertCount - (usedVerts p.verts).length), BitVec.ofNat 8 d.triCount⟩]⟩ b h hb (by simp only; omega)
      refine ⟨s', e, e1, ?_⟩
      rw [e2]
      simp only [List.length_append, List.length_cons, List.length_nil]
      omega
    · rw [if_neg hk, if_neg (by omega)]
      have hpos : (s.vbase * 3#16).toNat ≤ 3 * b := by
        rw [BitVec.toNat_mul, hb]
        simp only [BitVec.toNat_ofNat]
        have : b % 65536 * (3 % 2 ^ 16) % 2 ^ 16 ≤ b % 65536 * 3 := Nat.mod_le _ _
        omega
      obtain ⟨dv, hdv⟩ : ∃ dv, copyAt s.dverts (s.vbase * 3#16).toNat
          (((src.drop (d.vertBase + (usedVerts p.verts).length)).take (d.vertCount - (usedVerts p.verts).length)).flatMap flat3) = some dv := by
        unfold copyAt
        rw [if_neg (by omega)]
        exact ⟨_, rfl⟩
      rw [hdv, Option.map_some, Option.bind_some]
      have hlen := copyAt_length hdv
      obtain ⟨s', e, e1, e2⟩ := detailLoop_ok ps ds
        ⟨s.vbase + BitVec.ofNat 16 (d.vertCount - (usedVerts p.verts).length), dv, s.meshes ++ [⟨s.vbase.setWidth 32, BitVec.ofNat 32 d.triBase,
          BitVec.ofNat 8 (d.vertCount - (usedVerts p.verts).length), BitVec.ofNat 8 d.triCount⟩]⟩
        (b + (d.vertCount - (usedVerts p.verts).length)) h
        (by rw [BitVec.toNat_add, hb, BitVec.toNat_ofNat]; omega) (by simp only [hlen]; omega)
      refine ⟨s', e, by rw [e1]; exact hlen, ?_⟩
      rw [e2]
      simp only [List.length_append, List.length_cons, List.length_nil]
      omega

theorem length_flat3 (l : List W3) : (l.flatMap flat3).length = 3 * l.length :=
  length_flatMap_three l
where
  length_flatMap_three : ∀ l : List W3, (l.flatMap flat3).length = 3 * l.length
    | [] => rfl
    | a :: l => by
      rw [List.flatMap_cons, List.length_append, length_flatMap_three l]
      simp [flat3]
      omega

/-- What the loop stores while the extra vertices number less than 21846: each mesh starts where the one before ends, and its
vertices are there. -/
theorem detailLoop_exact {src : List W3} : ∀ (ps : List CreatePoly) (ds : List CreateDetail) (s s' : DetailState) (done : List W3) (n : Nat),
    DetailFits src ps ds → detailLoop src ps ds s = some s' → s.vbase.toNat = done.length →
    s.dverts = done.flatMap flat3 ++ List.replicate (3 * n) 0#32 →
    ((ps.zip ds).flatMap fun x => extraVerts src x.1 x.2).length ≤ n → done.length + n ≤ 21845 →
    s'.dverts = (done ++ (ps.zip ds).flatMap fun x => extraVerts src x.1 x.2).flatMap flat3 ++
        List.replicate (3 * (n - ((ps.zip ds).flatMap fun x => extraVerts src x.1 x.2).length)) 0#32 ∧
      (∀ i, i < s.meshes.length → s'.meshes[i]? = s.meshes[i]?) ∧
      ∀ i p d, ps[i]? = some p → ds[i]? = some d →
        s'.meshes[s.meshes.length + i]? = some ⟨BitVec.ofNat 32 (done.length +
            (((ps.zip ds).take i).flatMap fun x => extraVerts src x.1 x.2).length), BitVec.ofNat 32 d.triBase,
          BitVec.ofNat 8 (extraVerts src p d).length, BitVec.ofNat 8 d.triCount⟩
  | [], [], s, s', done, n, _, e, _, hd, _, _ => by
    rw [detailLoop] at e
    cases e
    refine ⟨by simpa using hd, fun _ _ => rfl, fun i p d h _ => by simp at h⟩
  | [], _ :: _, _, _, _, _, h, _, _, _, _, _ => h.elim
  | _ :: _, [], _, _, _, _, h, _, _, _, _, _ => h.elim
  | p :: ps, d :: ds, s, s', done, n, h, e, hb, hd, hn, hs => by
    obtain ⟨⟨h1, h2⟩, h⟩ := h
    rw [List.zip_cons_cons, List.flatMap_cons, List.length_append] at hn
    dsimp only at hn
    have he : (extraVerts src p d).length = d.vertCount - (usedVerts p.verts).length := by
      unfold extraVerts
      simp only [List.length_take, List.length_drop]
      omega
    have hvb : s.vbase.setWidth 32 = BitVec.ofNat 32 done.length := by
      apply BitVec.eq_of_toNat_eq
      rw [BitVec.toNat_setWidth, hb, BitVec.toNat_ofNat]
    rw [detailLoop] at e
    obtain ⟨s1, e1, e⟩ := Option.bind_eq_some_iff.1 e
    -- the state after one mesh
    have key : s1.vbase.toNat = (done ++ extraVerts src p d).length ∧
        s1.dverts = (done ++ extraVerts src p d).flatMap flat3 ++ List.replicate (3 * (n - (extraVerts src p d).length)) 0#32 ∧
        s1.meshes = s.meshes ++ [⟨BitVec.ofNat 32 done.length, BitVec.ofNat 32 d.triBase, BitVec.ofNat 8 (extraVerts src p d).length,
          BitVec.ofNat 8 d.triCount⟩] := by
      rw [detailStep, if_neg (by omega)] at e1
      dsimp only at e1
      by_cases hk : d.vertCount - (usedVerts p.verts).length = 0
      · rw [if_pos hk] at e1
        cases e1
        have hnil : extraVerts src p d = [] := List.eq_nil_of_length_eq_zero (by omega)
        refine ⟨by rw [hnil]; simpa using hb, by rw [hnil]; simpa using hd, ?_⟩
        dsimp only
        rw [hvb, he]
      · rw [if_neg hk, if_neg (by omega)] at e1
        obtain ⟨dv, hdv, rfl⟩ := Option.map_eq_some_iff.1 e1
        refine ⟨?_, ?_, ?_⟩
        · dsimp only
          rw [BitVec.toNat_add, hb, BitVec.toNat_ofNat, List.length_append, he]
          omega
        · have hpos : (s.vbase * 3#16).toNat = (done.flatMap flat3).length := by
            rw [BitVec.toNat_mul, hb, length_flat3]
            simp only [BitVec.toNat_ofNat]
            omega
          dsimp only
          unfold copyAt at hdv
          rw [hpos, hd, if_neg (by simp)] at hdv
          cases hdv
          rw [List.take_left]
          have hx : (src.drop (d.vertBase + (usedVerts p.verts).length)).take (d.vertCount - (usedVerts p.verts).length) = extraVerts src p d := rfl
          rw [hx, List.take_of_length_le (by
            rw [length_flat3, List.length_append, List.length_replicate]; omega), ← List.drop_drop, List.drop_left, List.drop_replicate,
            List.flatMap_append, length_flat3]
          congr 2
          omega
        · dsimp only
          rw [hvb, he]
    obtain ⟨k1, k2, k3⟩ := key
    obtain ⟨r1, r2, r3⟩ := detailLoop_exact ps ds s1 s' (done ++ extraVerts src p d) (n - (extraVerts src p d).length) h e k1 k2
      (by omega) (by rw [List.length_append]; omega)
    refine ⟨?_, ?_, ?_⟩
    · rw [r1, List.zip_cons_cons, List.flatMap_cons, ← List.append_assoc, List.length_append, Nat.sub_sub]
    · intro i hi
      rw [r2 i (by rw [k3]; simp; omega), k3, List.getElem?_append_left hi]
    · intro i q c hq hc
      cases i with
      | zero =>
        simp only [List.getElem?_cons_zero, Option.some.injEq] at hq hc
        subst hq
        subst hc
        rw [Nat.add_zero, r2 _ (by rw [k3]; simp), k3, List.getElem?_append_right (Nat.le_refl _), Nat.sub_self]
        simp
      | succ i =>
        simp only [List.getElem?_cons_succ] at hq hc
        have := r3 i q c hq hc
        rw [k3, List.length_append, List.length_singleton, Nat.add_assoc, Nat.add_comm 1 i] at this
        rw [this, List.zip_cons_cons, List.take_succ_cons, List.flatMap_cons, List.length_append, List.length_append, Nat.add_assoc]

/-! ## Accepted input -/

/-- Input with a detail mesh for each polygon and a tree to be built. -/
structure Complete (p : CreateParams) (ds : List CreateDetail) : Prop where
  usable : ¬ Unusable p
  rows : ∀ q ∈ p.polys, q.verts.length = p.nvp ∧ q.neis.length = p.nvp
  details : p.details = some ds
  fits : DetailFits p.detailVerts p.polys ds
  tree : p.buildBv = true
  boxes : p.boxes.length = p.polys.length
  sorts : ∀ a l, (p.srt a l).Perm l

/-- The detail vertices other than corners. -/
def extraCount (p : CreateParams) (ds : List CreateDetail) : Nat :=
  ((p.polys.zip ds).flatMap fun x => extraVerts p.detailVerts x.1 x.2).length

/-- Spec: the sizes of the sections, in the order of the file: header, vertices, polygons, links, detail meshes, detail vertices,
detail triangles, tree nodes, off-mesh connections. -/
def sections (p : CreateParams) (ds : List CreateDetail) : List Nat :=
  [100, 12 * (p.verts.length + 2 * (storedCons p).length), 32 * (p.polys.length + (storedCons p).length), 12 * createLinks p,
   12 * p.polys.length, 12 * extraCount p ds, 4 * p.detailTris.length, 16 * (2 * p.polys.length), 36 * (storedCons p).length]

theorem length_flat6 : ∀ l : List CreateCon, (l.flatMap fun c => flat3 c.a ++ flat3 c.b).length = 6 * l.length
  | [] => rfl
  | a :: l => by
    rw [List.flatMap_cons, List.length_append, length_flat6 l]
    simp [flat3]
    omega

theorem length_tris : ∀ l : List (Byte × Byte × Byte × Byte), (l.flatMap fun t => [t.1, t.2.1, t.2.2.1, t.2.2.2]).length = 4 * l.length
  | [] => rfl
  | a :: l => by
    rw [List.flatMap_cons, List.length_append, length_tris l]
    simp
    omega

theorem usedVerts_length (row : List U16) : (usedVerts row).length ≤ row.length := by
  unfold usedVerts
  exact (List.takeWhile_sublist _).length_le

theorem pad6_length {l : List U16} (h : l.length ≤ 6) : (pad6 l).length = 6 := by
  unfold pad6
  rw [List.length_append, List.length_replicate]
  omega

/-- The tile built from complete input. -/
theorem createTile_complete {p : CreateParams} {ds : List CreateDetail} (hc : Complete p ds) :
    ∃ (s : DetailState) (bv : List BvNode) (h : MeshHeader) (t : TileBody),
      detailLoop p.detailVerts p.polys ds ⟨0#16, List.replicate (3 * extraCount p ds) 0#32, []⟩ = some s ∧
      createNodes p = some bv ∧ createTile p = some (h, t) ∧
      t.detailMeshes = s.meshes ∧ t.detailVerts = s.dverts ∧ t.bvTree = bv ∧
      s.dverts.length = 3 * extraCount p ds ∧ s.meshes.length = p.polys.length ∧ bv.length = 2 * p.polys.length ∧
      h.detailVertCount = BitVec.ofNat 32 (extraCount p ds) ∧ h.detailTriCount = BitVec.ofNat 32 p.detailTris.length ∧
      h.polyCount = BitVec.ofNat 32 (p.polys.length + (storedCons p).length) ∧
      h.vertCount = BitVec.ofNat 32 (p.verts.length + (storedCons p).length * 2) ∧
      h.maxLinkCount = BitVec.ofNat 32 (createLinks p) ∧ h.detailMeshCount = BitVec.ofNat 32 p.polys.length ∧
      h.bvNodeCount = BitVec.ofNat 32 (p.polys.length * 2) ∧ h.offMeshConCount = BitVec.ofNat 32 (storedCons p).length ∧
      h.offMeshBase = BitVec.ofNat 32 p.polys.length ∧
      t.verts = (p.verts.map p.world).flatMap flat3 ++ (storedCons p).flatMap (fun c => flat3 c.a ++ flat3 c.b) ∧
      t.polys = p.polys.map groundPoly ++ (storedCons p).zipIdx.map (fun c => conPoly p.verts.length c.2 c.1) ∧
      t.links.length = createLinks p ∧
      t.detailTris = p.detailTris.flatMap (fun t => [t.1, t.2.1, t.2.2.1, t.2.2.2]) ∧
      t.offMeshCons = (storedCons p).zipIdx.map fun c => conRec p.polys.length c.2 c.1 := by
  have hu := hc.fits.unique
  have hds := hc.fits.len
  have hpne : p.polys ≠ [] := fun h => hc.usable (.inr (.inr (.inr h)))
  obtain ⟨s, e, e1, e2⟩ := detailLoop_ok p.polys ds ⟨0#16, List.replicate (3 * extraCount p ds) 0#32, []⟩ 0 hc.fits rfl
    (by simp only [List.length_replicate]; unfold extraCount; omega)
  simp only [List.length_replicate] at e1
  simp only [List.length_nil, Nat.zero_add] at e2
  obtain ⟨sh, nodes, hb, -⟩ := createBVTree_spec hc.sorts (boxes := p.boxes) (by
    intro h
    have := hc.boxes
    rw [h] at this
    exact hpne (List.eq_nil_of_length_eq_zero this.symm))
  have hdne : p.details.getD [] ≠ [] := by
    rw [hc.details]
    intro h
    simp only [Option.getD_some] at h
    rw [h] at hds
    exact hpne (List.eq_nil_of_length_eq_zero hds.symm)
  have hn : createNodes p = some ((List.range (2 * p.polys.length)).map fun j => storedNode (nodes j)) := by
    unfold createNodes
    rw [if_pos hc.tree, if_neg hdne, hb, Option.map_some]
  have hd : createDetail p = some (s.meshes, s.dverts, p.detailTris.flatMap (fun t => [t.1, t.2.1, t.2.2.1, t.2.2.2]), extraCount p ds,
      p.detailTris.length) := by
    unfold createDetail
    rw [hc.details]
    dsimp only
    rw [if_neg (by omega), if_neg (by rw [hu]; omega), hu, Int.toNat_natCast]
    unfold extraCount at e ⊢
    rw [e, Option.map_some]
  have ht : createTile p = some (assemble p s.meshes s.dverts (p.detailTris.flatMap fun t => [t.1, t.2.1, t.2.2.1, t.2.2.2])
      (extraCount p ds) p.detailTris.length ((List.range (2 * p.polys.length)).map fun j => storedNode (nodes j))) := by
    unfold createTile
    rw [hd, Option.bind_some, hn, Option.bind_some]
  exact ⟨s, _, _, _, e, hn, ht, rfl, rfl, rfl, e1, e2, by simp, rfl, rfl, rfl, rfl, rfl, rfl, if_pos hc.tree, rfl, rfl, rfl, rfl,
    by simp [assemble], rfl, rfl⟩

/-- **C34** (second half, `_partial`): for input with a detail mesh for every polygon and a tree to be built, the call returns data
whose length is the sum of the sizes of its sections; header and tile read back from it (the off-mesh flags damaged as in C13).
Missing: input without detail meshes or without a tree, for which the call panics (`create_no_tree_refuted`,
`create_no_detail_refuted`). -/
theorem create_data_partial {p : CreateParams} {ds : List CreateDetail} (hc : Complete p ds) (hsmall : (sections p ds).sum < 2 ^ 31) :
    ∃ data h t, createNavMeshData p = .ok data ∧ data.length = (sections p ds).sum ∧ createTile p = some (h, t) ∧
      MeshHeader.unserialize data = some h ∧ Consistent h t ∧ TileBody.unserialize h (data.drop 100) = some (corrupted t) := by
  obtain ⟨s, bv, h, t, -, -, ht, q1, q2, q3, l1, l2, l3, c1, c2, c3, c4, c5, c6, c7, c8, -, t1, t2, t3, t4, t5⟩ := createTile_complete hc
  have hu := hc.usable
  unfold Unusable at hu
  push Not at hu
  obtain ⟨u1, u2, u3, u4⟩ := hu
  have hsum : (sections p ds).sum = 100 + 12 * (p.verts.length + 2 * (storedCons p).length) + 32 * (p.polys.length + (storedCons p).length) +
      12 * createLinks p + 12 * p.polys.length + 12 * extraCount p ds + 4 * p.detailTris.length + 16 * (2 * p.polys.length) +
      36 * (storedCons p).length := by
    unfold sections
    simp only [List.sum_cons, List.sum_nil]
    omega
  have z1 : t.verts.length = 3 * (p.verts.length + (storedCons p).length * 2) := by
    rw [t1, List.length_append, length_flat3, length_flat6, List.length_map]
    omega
  have z2 : t.polys.length = p.polys.length + (storedCons p).length := by rw [t2]; simp
  have z4 : t.detailTris.length = 4 * p.detailTris.length := by rw [t4, length_tris]
  have z5 : t.offMeshCons.length = (storedCons p).length := by rw [t5]; simp
  have tn : ∀ n, n < 2 ^ 31 → (BitVec.ofNat 32 n).toNat = n := fun n hn => by rw [BitVec.toNat_ofNat]; omega
  have hsz : t.size + 100 = (sections p ds).sum := by
    unfold TileBody.size TileBody.offCons TileBody.offBv TileBody.offDTris TileBody.offDVerts TileBody.offDetail TileBody.offLinks
      TileBody.offPolys
    rw [z1, z2, t3, q1, l2, q2, l1, z4, q3, l3, z5, hsum]
    omega
  have hcons : Consistent h t := by
    refine ⟨?_, ?_, ?_, ?_, ?_, ?_, ?_, ?_, by omega, ?_, ?_⟩
    · rw [z1, c4, tn _ (by omega)]
    · rw [z2, c3, tn _ (by omega)]
    · rw [t3, c5, tn _ (by omega)]
    · rw [q1, l2, c6, tn _ (by omega)]
    · rw [q2, l1, c1, tn _ (by omega)]
    · rw [z4, c2, tn _ (by omega)]
    · rw [q3, l3, c7, tn _ (by omega)]; omega
    · rw [z5, c8, tn _ (by omega)]
    · intro x hx
      rw [t2] at hx
      rcases List.mem_append.1 hx with hx | hx
      · obtain ⟨y, hy, rfl⟩ := List.mem_map.1 hx
        obtain ⟨r1, r2⟩ := hc.rows y hy
        have := usedVerts_length y.verts
        exact ⟨pad6_length (by omega), pad6_length (by simp; omega)⟩
      · obtain ⟨y, hy, rfl⟩ := List.mem_map.1 hx
        exact ⟨pad6_length (by simp), pad6_length (by simp)⟩
    · intro x hx
      rw [t5] at hx
      obtain ⟨y, hy, rfl⟩ := List.mem_map.1 hx
      rfl
  have hcs : createSize p h = 100 + t.size := by
    unfold createSize
    rw [c1, c2, c3, c4, c5, c8, if_pos hc.tree, tn _ (by omega), tn _ (by omega), tn _ (by omega), tn _ (by omega), tn _ (by omega),
      tn _ (by omega)]
    omega
  have hv : t.offMeshCons = [] ∨ 8 ≤ t.verts.length := by
    by_cases h0 : (storedCons p).length = 0
    · left
      exact List.eq_nil_of_length_eq_zero (by omega)
    · right
      have := List.length_pos_of_ne_nil u3
      omega
  obtain ⟨out, o1, o2, o3⟩ := tile_roundtrip_exact h t hcons hv t.size (Nat.le_refl _)
  have hh := MeshHeader.serialize_eq h (zeros (createSize p h)) (by rw [length_zeros]; omega)
  have hw : (h.words.flatMap le32).length = 100 := by rw [length_words]; rfl
  refine ⟨h.words.flatMap le32 ++ out, h, t, ?_, ?_, ht, ?_, hcons, ?_⟩
  · unfold createNavMeshData
    rw [if_neg (by omega), if_neg (by omega), if_neg u3, if_neg u4, ht]
    dsimp only [Option.bind_eq_bind, Option.bind_some]
    rw [hh]
    dsimp only [Option.bind_some]
    rw [List.drop_left' hw, List.take_left' hw, drop_zeros, hcs, Nat.add_sub_cancel_left, o1]
    rfl
  · rw [List.length_append, hw, o2]
    omega
  · exact MeshHeader.unserialize_words h out
  · rw [List.drop_left' hw, o3]

/-! ## Input on which the call panics -/

theorem detailLoop_lengths {src : List W3} : ∀ (ps : List CreatePoly) (ds : List CreateDetail) (s s' : DetailState),
    detailLoop src ps ds s = some s' → s'.dverts.length = s.dverts.length ∧ s'.meshes.length = s.meshes.length + ps.length
  | [], _, s, s', e => by
    rw [detailLoop] at e
    cases e
    exact ⟨rfl, rfl⟩
  | _ :: _, [], _, _, e => by
    rw [detailLoop] at e
    cases e
  | p :: ps, d :: ds, s, s', e => by
    rw [detailLoop] at e
    obtain ⟨s1, e1, e⟩ := Option.bind_eq_some_iff.1 e
    obtain ⟨h1, h2⟩ := detailLoop_lengths ps ds s1 s' e
    have : s1.dverts.length = s.dverts.length ∧ s1.meshes.length = s.meshes.length + 1 := by
      unfold detailStep at e1
      dsimp only at e1
      split at e1
      · cases e1
      · split at e1
        · cases e1
          simp
        · split at e1
          · cases e1
          · obtain ⟨dv, hdv, rfl⟩ := Option.map_eq_some_iff.1 e1
            exact ⟨copyAt_length hdv, by simp⟩
    refine ⟨by omega, ?_⟩
    rw [h2, this.2, List.length_cons]
    omega

theorem fanMeshes_length : ∀ (ps : List CreatePoly) (b : Nat), (fanMeshes ps b).length = ps.length
  | [], _ => rfl
  | p :: ps, b => by rw [fanMeshes, List.length_cons, fanMeshes_length ps, List.length_cons]

theorem fanTris_length (nv : Nat) : (fanTris nv).length = 4 * (nv - 2) := by
  unfold fanTris
  rw [length_flatMap_const _ _ 4 (fun _ _ => rfl), List.length_range]

theorem createDetail_lengths {p : CreateParams} {d : List PolyDetail × List U32 × Bytes × Nat × Nat} (h : createDetail p = some d) :
    d.1.length = p.polys.length ∧ d.2.1.length = 3 * d.2.2.2.1 ∧ d.2.2.1.length = 4 * d.2.2.2.2 := by
  unfold createDetail at h
  split at h
  · rename_i ds hds
    split at h
    · cases h
    · split at h
      · cases h
      · dsimp only at h
        obtain ⟨s, hs, rfl⟩ := Option.map_eq_some_iff.1 h
        obtain ⟨h1, h2⟩ := detailLoop_lengths _ _ _ _ hs
        refine ⟨by simpa using h2, by simpa using h1, ?_⟩
        dsimp only
        rw [length_tris]
  · split at h
    · cases h
      refine ⟨fanMeshes_length _ _, rfl, ?_⟩
      dsimp only
      have : ∀ l : List CreatePoly, (l.flatMap fun q => fanTris (usedVerts q.verts).length).length =
          4 * (l.map fun q => (usedVerts q.verts).length - 2).sum := by
        intro l
        induction l with
        | nil => rfl
        | cons a l ih =>
          rw [List.flatMap_cons, List.length_append, ih, fanTris_length, List.map_cons, List.sum_cons]
          omega
      exact this _
    · cases h

theorem putAll_bound {ws : List (Nat × Bytes)} : ∀ {dst r : Bytes}, putAll dst ws = some r → ∀ w ∈ ws, w.1 + w.2.length ≤ dst.length := by
  induction ws with
  | nil => intro dst r h w hw; cases hw
  | cons a ws ih =>
    intro dst r h w hw
    obtain ⟨o, b⟩ := a
    rw [putAll] at h
    obtain ⟨d, h1, h2⟩ := Option.bind_eq_some_iff.1 h
    rcases List.mem_cons.1 hw with rfl | hw
    · unfold putAt at h1
      split at h1
      · assumption
      · cases h1
    · rw [← putAt_length h1]
      exact ih h2 w hw

theorem recsWrites_last {α : Type} {w : Nat → α → List (Nat × Bytes)} {stride : Nat} : ∀ (l : List α) (off : Nat) (hl : l ≠ []),
    ∀ x ∈ w (off + stride * (l.length - 1)) (l.getLast hl), x ∈ recsWrites w stride off l
  | [], _, hl => absurd rfl hl
  | [a], off, _ => fun x hx => by simpa [recsWrites] using hx
  | a :: b :: l, off, _ => fun x hx => by
    rw [recsWrites]
    apply List.mem_append_right
    apply recsWrites_last (b :: l) (off + stride) (by simp)
    rw [List.getLast_cons (by simp)] at hx
    have : off + stride * ((a :: b :: l).length - 1) = off + stride + stride * ((b :: l).length - 1) := by
      simp only [List.length_cons, Nat.add_sub_cancel]
      ring
    rw [this] at hx
    exact hx

/-- A tile with tree nodes is not written to a buffer that is shorter than its sections. -/
theorem serialize_short {t : TileBody} {dst : Bytes} (h : dst.length < t.size) (hb : t.bvTree ≠ []) : t.serialize dst = none := by
  cases hs : t.serialize dst with
  | none => rfl
  | some out =>
    exfalso
    have hb' := putAll_bound (ws := t.writes) hs
    have hbp := List.length_pos_of_ne_nil hb
    by_cases hc : t.offMeshCons = []
    · have := hb' (t.offBv + 16 * (t.bvTree.length - 1) + 12, le32 (t.bvTree.getLast hb).i) (by
        unfold TileBody.writes
        apply List.mem_append_left
        apply List.mem_append_right
        apply recsWrites_last t.bvTree _ hb
        simp [bvWrites])
      rw [length_le32] at this
      dsimp only at this
      unfold TileBody.size TileBody.offCons at h
      rw [hc] at h
      simp only [List.length_nil, Nat.mul_zero, Nat.add_zero] at h
      omega
    · have hcp := List.length_pos_of_ne_nil hc
      have := hb' (t.offCons + 36 * (t.offMeshCons.length - 1) + 32, le32 (t.offMeshCons.getLast hc).userID) (by
        unfold TileBody.writes
        apply List.mem_append_right
        apply recsWrites_last t.offMeshCons _ hc
        simp [conWrites])
      rw [length_le32] at this
      dsimp only at this
      unfold TileBody.size at h
      omega

/-- **C34** (refuted): without `BuildBvTree` the call panics on every input it does not refuse: nodes are written that the buffer
has no room for. -/
theorem create_no_tree_refuted {p : CreateParams} (hu : ¬ Unusable p) (ht : p.buildBv = false)
    (hsmall : ∀ h t, createTile p = some (h, t) → t.size < 2 ^ 31) : createNavMeshData p = .panic := by
  unfold Unusable at hu
  push Not at hu
  obtain ⟨u1, u2, u3, u4⟩ := hu
  unfold createNavMeshData
  rw [if_neg (by omega), if_neg (by omega), if_neg u3, if_neg u4]
  cases hc : createTile p with
  | none => rfl
  | some x =>
    obtain ⟨h, t⟩ := x
    have hs := hsmall h t hc
    dsimp only [Option.bind_eq_bind, Option.bind_some]
    cases hh : h.serialize (zeros (createSize p h)) with
    | none => rfl
    | some buf =>
      dsimp only [Option.bind_some]
      have hbl : buf.length = createSize p h := by
        unfold MeshHeader.serialize at hh
        split at hh
        · cases hh
        · rw [putAll_short _ _ _ hh, length_zeros]
      unfold createTile at hc
      obtain ⟨d, hd, hc⟩ := Option.bind_eq_some_iff.1 hc
      obtain ⟨bv, hbv, hc⟩ := Option.bind_eq_some_iff.1 hc
      simp only [Option.some.injEq, assemble, Prod.mk.injEq] at hc
      obtain ⟨rfl, rfl⟩ := hc
      obtain ⟨l1, l2, l3⟩ := createDetail_lengths hd
      unfold createNodes at hbv
      rw [ht, if_neg (by simp)] at hbv
      cases hbv
      have hnp := List.length_pos_of_ne_nil u4
      unfold TileBody.size TileBody.offCons TileBody.offBv TileBody.offDTris TileBody.offDVerts TileBody.offDetail TileBody.offLinks
        TileBody.offPolys at hs
      simp only [List.length_append, length_flat3, length_flat6, List.length_map, List.length_zipIdx, List.length_replicate] at hs
      rw [serialize_short]
      · rfl
      · rw [List.length_drop, hbl]
        unfold TileBody.size TileBody.offCons TileBody.offBv TileBody.offDTris TileBody.offDVerts TileBody.offDetail TileBody.offLinks
          TileBody.offPolys createSize
        simp only [List.length_append, length_flat3, length_flat6, List.length_map, List.length_zipIdx, List.length_replicate,
          BitVec.toNat_ofNat, ht]
        rw [Nat.mod_eq_of_lt (by omega), Nat.mod_eq_of_lt (by omega), Nat.mod_eq_of_lt (by omega), Nat.mod_eq_of_lt (by omega),
          Nat.mod_eq_of_lt (by omega), Nat.mod_eq_of_lt (by omega)]
        simp only [Bool.false_eq_true, if_false]
        omega
      · dsimp only
        intro h0
        have := congrArg List.length h0
        simp at this
        exact u4 (by simpa using this)

/-- **C34** (refuted): without detail meshes the call panics, although the code for such input exists. -/
theorem create_no_detail_refuted {p : CreateParams} (hu : ¬ Unusable p) (ht : p.buildBv = true) (hd : p.details = none) :
    createNavMeshData p = .panic := by
  unfold Unusable at hu
  push Not at hu
  obtain ⟨u1, u2, u3, u4⟩ := hu
  have hn : createNodes p = none := by
    unfold createNodes
    rw [if_pos ht, hd]
    rfl
  have hc : createTile p = none := by
    unfold createTile
    rw [hn]
    cases createDetail p <;> rfl
  unfold createNavMeshData
  rw [if_neg (by omega), if_neg (by omega), if_neg u3, if_neg u4, hc]
  rfl

/-! ## What the tile holds -/

/-- Spec: the neighbour numbers of a stored polygon. `0` is no neighbour, `k + 1` polygon `k`, and `0x8000 + side` a portal on that
side of the tile (sides count from x+ in steps of an eighth turn). -/
def NeiMeans (input stored : U16) : Prop :=
  (input.toNat < 0x8000 → stored.toNat = input.toNat + 1) ∧
  (0x8000 ≤ input.toNat → input.toNat % 16 = 15 → stored.toNat = 0) ∧
  (0x8000 ≤ input.toNat → input.toNat % 16 = 0 → stored.toNat = 0x8000 + 4) ∧
  (0x8000 ≤ input.toNat → input.toNat % 16 = 1 → stored.toNat = 0x8000 + 2) ∧
  (0x8000 ≤ input.toNat → input.toNat % 16 = 2 → stored.toNat = 0x8000 + 0) ∧
  (0x8000 ≤ input.toNat → input.toNat % 16 = 3 → stored.toNat = 0x8000 + 6)

theorem high_bit (n : U16) : ((n &&& 0x8000#16) != 0#16) = decide (0x8000 ≤ n.toNat) := by
  have h1 : ∀ m : Nat, m < 65536 → (m &&& 0x8000 = 0 ↔ m < 0x8000) := by
    intro m hm
    have := Nat.and_two_pow m 15
    norm_num at this
    rw [this]
    cases hb : m.testBit 15
    · simp
      by_contra hge
      have := Nat.testBit_two_pow_add_eq (m - 32768) 15
      norm_num at this
      rw [Nat.add_sub_cancel' (by omega)] at this
      rw [hb] at this
      have h2 : (m - 32768).testBit 15 = false := Nat.testBit_lt_two_pow (by omega)
      rw [h2] at this
      simp at this
    · simp
      by_contra hlt
      have h2 : m.testBit 15 = false := Nat.testBit_lt_two_pow (by omega)
      rw [h2] at hb
      cases hb
  rw [Bool.eq_iff_iff, bne_iff_ne, decide_eq_true_iff, Ne, ← BitVec.toNat_inj, BitVec.toNat_and]
  have := h1 n.toNat n.isLt
  simp only [BitVec.toNat_ofNat]
  norm_num
  omega

theorem low_bits (n k : U16) : n &&& 0xf#16 = k ↔ n.toNat % 16 = k.toNat := by
  rw [← BitVec.toNat_inj, BitVec.toNat_and]
  have : n.toNat &&& 15 = n.toNat % 16 := Nat.and_two_pow_sub_one_eq_mod n.toNat 4
  simp only [BitVec.toNat_ofNat]
  norm_num
  rw [this]

/-- The stored neighbour means what the input says. -/
theorem storedNei_means (n : U16) : NeiMeans n (storedNei n) := by
  unfold NeiMeans storedNei
  rw [high_bit]
  simp only [low_bits, decide_eq_true_iff]
  refine ⟨fun h => ?_, fun h h' => ?_, fun h h' => ?_, fun h h' => ?_, fun h h' => ?_, fun h h' => ?_⟩
  · rw [if_neg (by omega), BitVec.toNat_add]
    have : (1#16).toNat = 1 := rfl
    omega
  all_goals
    rw [if_pos h]
    simp [h']

theorem polyType_set (a t : Byte) (h : t.toNat < 4) : polyType (setType (setArea 0#8 a) t) = t ∧ area (setType (setArea 0#8 a) t) = a &&& 0x3f#8 := by
  revert a t
  decide +kernel

/-- **C105** (ground polygons): each input polygon is stored at its own number with its vertices, neighbours, flags, area (six
bits) and as ground. -/
theorem create_polys {p : CreateParams} {h : MeshHeader} {t : TileBody} (ht : createTile p = some (h, t)) (hn : p.nvp ≤ 6)
    (hrows : ∀ q ∈ p.polys, q.verts.length = p.nvp ∧ q.neis.length = p.nvp) (i : Nat) (q : CreatePoly) (hq : p.polys[i]? = some q) :
    ∃ r, t.polys[i]? = some r ∧ r.vertCount.toNat = (usedVerts q.verts).length ∧ r.flags = q.flags ∧ area r.areaAndType = q.area &&& 0x3f#8 ∧
      polyType r.areaAndType = 0#8 ∧
      ∀ j, j < (usedVerts q.verts).length → r.verts[j]? = q.verts[j]? ∧ ∃ a b, q.neis[j]? = some a ∧ r.neis[j]? = some b ∧ NeiMeans a b := by
  unfold createTile at ht
  obtain ⟨d, hd, ht⟩ := Option.bind_eq_some_iff.1 ht
  obtain ⟨bv, hbv, ht⟩ := Option.bind_eq_some_iff.1 ht
  simp only [Option.some.injEq, assemble, Prod.mk.injEq] at ht
  obtain ⟨-, rfl⟩ := ht
  have hi : i < p.polys.length := (List.getElem?_eq_some_iff.1 hq).1
  obtain ⟨r1, r2⟩ := hrows q (List.mem_of_getElem? hq)
  have hu := usedVerts_length q.verts
  refine ⟨groundPoly q, ?_, ?_, rfl, (polyType_set q.area 0#8 (by decide)).2, (polyType_set q.area 0#8 (by decide)).1, ?_⟩
  · dsimp only
    rw [List.getElem?_append_left (by simpa using hi), List.getElem?_map, hq]
    rfl
  · unfold groundPoly
    rw [BitVec.toNat_ofNat]
    omega
  · intro j hj
    constructor
    · unfold groundPoly pad6
      dsimp only
      rw [List.getElem?_append_left hj]
      have hp : (usedVerts q.verts) <+: q.verts := List.takeWhile_prefix _
      rw [List.getElem?_eq_getElem hj, hp.getElem hj, List.getElem?_eq_getElem (by omega)]
    · have hjn : j < q.neis.length := by omega
      refine ⟨q.neis[j], storedNei q.neis[j], List.getElem?_eq_getElem hjn, ?_, storedNei_means _⟩
      unfold groundPoly pad6
      dsimp only
      rw [List.getElem?_append_left (by simp; omega), List.getElem?_map, List.getElem?_take_of_lt hj, List.getElem?_eq_getElem hjn]
      rfl

/-- Reading three words back. -/
theorem flat3_get : ∀ (l : List W3) (i : Nat) (w : W3) (rest : List U32), l[i]? = some w →
    ((l.flatMap flat3 ++ rest).drop (3 * i)).take 3 = flat3 w
  | [], i, w, _, h => by simp at h
  | a :: l, 0, w, rest, h => by
    simp only [List.getElem?_cons_zero, Option.some.injEq] at h
    subst h
    rfl
  | a :: l, i + 1, w, rest, h => by
    simp only [List.getElem?_cons_succ] at h
    rw [show 3 * (i + 1) = 3 + 3 * i by omega, ← List.drop_drop]
    exact flat3_get l i w rest h

theorem flat6_eq (l : List CreateCon) : (l.flatMap fun c => flat3 c.a ++ flat3 c.b) = (l.flatMap fun c => [c.a, c.b]).flatMap flat3 := by
  induction l with
  | nil => rfl
  | cons a l ih =>
    rw [List.flatMap_cons, ih, List.flatMap_cons, List.flatMap_append]
    simp

theorem pairs_get : ∀ (l : List CreateCon) (k : Nat) (c : CreateCon), l[k]? = some c →
    (l.flatMap fun c => [c.a, c.b])[2 * k]? = some c.a ∧ (l.flatMap fun c => [c.a, c.b])[2 * k + 1]? = some c.b
  | [], k, c, h => by simp at h
  | a :: l, 0, c, h => by
    simp only [List.getElem?_cons_zero, Option.some.injEq] at h
    subst h
    exact ⟨rfl, rfl⟩
  | a :: l, k + 1, c, h => by
    simp only [List.getElem?_cons_succ] at h
    have := pairs_get l k c h
    rw [show 2 * (k + 1) = 2 * k + 2 by omega, show 2 * k + 2 + 1 = 2 * k + 1 + 2 by omega]
    exact this

/-- **C105** (vertices): vertex `i` of the tile has the world coordinates of vertex `i` of the input. -/
theorem create_verts {p : CreateParams} {h : MeshHeader} {t : TileBody} (ht : createTile p = some (h, t)) (i : Nat) (v : U16 × U16 × U16)
    (hv : p.verts[i]? = some v) : (t.verts.drop (3 * i)).take 3 = flat3 (p.world v) := by
  unfold createTile at ht
  obtain ⟨d, hd, ht⟩ := Option.bind_eq_some_iff.1 ht
  obtain ⟨bv, hbv, ht⟩ := Option.bind_eq_some_iff.1 ht
  simp only [Option.some.injEq, assemble, Prod.mk.injEq] at ht
  obtain ⟨-, rfl⟩ := ht
  dsimp only
  exact flat3_get _ i _ _ (by rw [List.getElem?_map, hv]; rfl)

/-- **C105** (off-mesh connections): the connections that start in the tile are stored in order, each with its radius, side,
direction and user number, as a polygon of its own with two vertices of its own, as long as vertices and polygons number at most
65536. -/
theorem create_cons_partial {p : CreateParams} {h : MeshHeader} {t : TileBody} (ht : createTile p = some (h, t)) (k : Nat) (c : CreateCon)
    (hk : (p.cons.filter fun c => c.startClass == 0xff#8)[k]? = some c)
    (hv : p.verts.length + 2 * (k + 1) ≤ 65536) (hp : p.polys.length + k < 65536) :
    ∃ o r, t.offMeshCons[k]? = some o ∧ o.poly.toNat = p.polys.length + k ∧ o.rad = c.rad ∧ o.side = c.endClass ∧ o.userID = c.userID ∧
      (o.flags = 1#8 ↔ c.bidir = true) ∧ o.pos = flat3 c.a ++ flat3 c.b ∧
      t.polys[o.poly.toNat]? = some r ∧ r.vertCount = 2#8 ∧ r.flags = c.flags ∧ area r.areaAndType = c.area &&& 0x3f#8 ∧ polyType r.areaAndType = 1#8 ∧
      ∃ v0 v1, r.verts[0]? = some v0 ∧ r.verts[1]? = some v1 ∧ (t.verts.drop (3 * v0.toNat)).take 3 = flat3 c.a ∧
        (t.verts.drop (3 * v1.toNat)).take 3 = flat3 c.b := by
  unfold createTile at ht
  obtain ⟨d, hd, ht⟩ := Option.bind_eq_some_iff.1 ht
  obtain ⟨bv, hbv, ht⟩ := Option.bind_eq_some_iff.1 ht
  simp only [Option.some.injEq, assemble, Prod.mk.injEq] at ht
  obtain ⟨-, rfl⟩ := ht
  have hk' : (storedCons p)[k]? = some c := hk
  have hz : (storedCons p).zipIdx[k]? = some (c, k) := by
    rw [List.getElem?_zipIdx, hk']
    simp
  have hpn : (conRec p.polys.length k c).poly.toNat = p.polys.length + k := by
    unfold conRec
    rw [BitVec.toNat_ofNat]
    omega
  refine ⟨conRec p.polys.length k c, conPoly p.verts.length k c, ?_, hpn, rfl, rfl, rfl, ?_, rfl, ?_, rfl, rfl,
    (polyType_set c.area 1#8 (by decide)).2, (polyType_set c.area 1#8 (by decide)).1, BitVec.ofNat 16 (p.verts.length + k * 2),
    BitVec.ofNat 16 (p.verts.length + k * 2 + 1), rfl, rfl, ?_, ?_⟩
  · dsimp only
    rw [List.getElem?_map, hz]
    rfl
  · unfold conRec
    cases c.bidir <;> simp
  · dsimp only
    rw [hpn, List.getElem?_append_right (by simp), List.length_map, Nat.add_sub_cancel_left, List.getElem?_map, hz]
    rfl
  all_goals
    dsimp only
    rw [flat6_eq, ← List.flatMap_append, ← List.append_nil (List.flatMap flat3 _)]
    apply flat3_get
    rw [BitVec.toNat_ofNat, Nat.mod_eq_of_lt (by omega), List.getElem?_append_right (by rw [List.length_map]; omega), List.length_map]
  · rw [show p.verts.length + k * 2 - p.verts.length = 2 * k by omega]
    exact (pairs_get _ k c hk').1
  · rw [show p.verts.length + k * 2 + 1 - p.verts.length = 2 * k + 1 by omega]
    exact (pairs_get _ k c hk').2

/-- Where the extra vertices of polygon `i` start. -/
def extraBefore (p : CreateParams) (ds : List CreateDetail) (i : Nat) : Nat :=
  (((p.polys.zip ds).take i).flatMap fun x => extraVerts p.detailVerts x.1 x.2).length

/-- **C105** (detail meshes, `_partial`): polygon `i` has its detail mesh, with as many extra vertices and triangles as in the input
(below 256), the triangles where the input has them, and its extra vertices are the input's. Missing: tiles with more than 21845 extra
vertices (`create_detail_refuted`). -/
theorem create_detail_partial {p : CreateParams} {ds : List CreateDetail} (hc : Complete p ds) (hsmall : extraCount p ds ≤ 21845)
    {h : MeshHeader} {t : TileBody} (ht : createTile p = some (h, t)) (i : Nat) (q : CreatePoly) (d : CreateDetail)
    (hq : p.polys[i]? = some q) (hd : ds[i]? = some d) (hn : d.vertCount < 256) (hm : d.triCount < 256) (hb : d.triBase < 2 ^ 32) :
    ∃ m, t.detailMeshes[i]? = some m ∧ m.triBase.toNat = d.triBase ∧ m.triCount.toNat = d.triCount ∧
      m.vertCount.toNat = d.vertCount - (usedVerts q.verts).length ∧
      (t.detailVerts.drop (3 * m.vertBase.toNat)).take (3 * m.vertCount.toNat) =
        ((p.detailVerts.drop (d.vertBase + (usedVerts q.verts).length)).take (d.vertCount - (usedVerts q.verts).length)).flatMap flat3 := by
  obtain ⟨s, bv, h', t', hs, -, ht', q1, q2, -, l1, -⟩ := createTile_complete hc
  rw [ht] at ht'
  cases ht'
  obtain ⟨r1, -, r3⟩ := detailLoop_exact p.polys ds _ s [] (extraCount p ds) hc.fits hs rfl (by simp) (Nat.le_refl _) (by simpa using hsmall)
  have he : (extraVerts p.detailVerts q d).length = d.vertCount - (usedVerts q.verts).length := by
    have hfit : ∀ (ps : List CreatePoly) (es : List CreateDetail), DetailFits p.detailVerts ps es → ∀ (i : Nat) (q : CreatePoly) (d : CreateDetail), ps[i]? = some q → es[i]? = some d →
        d.vertBase + d.vertCount ≤ p.detailVerts.length := by
      intro ps
      induction ps with
      | nil => intro es _ i q d hq _; simp at hq
      | cons a ps ih =>
        intro es hf i q d hq hd
        cases es with
        | nil => simp at hd
        | cons b es =>
          cases i with
          | zero =>
            simp only [List.getElem?_cons_zero, Option.some.injEq] at hq hd
            subst hd
            exact hf.1.2
          | succ i =>
            simp only [List.getElem?_cons_succ] at hq hd
            exact ih es hf.2 i q d hq hd
    have := hfit _ _ hc.fits i q d hq hd
    unfold extraVerts
    simp only [List.length_take, List.length_drop]
    omega
  have hm' := r3 i q d hq hd
  simp only [List.length_nil, Nat.zero_add] at hm'
  have hz : (p.polys.zip ds)[i]? = some (q, d) := by rw [List.getElem?_zip_eq_some]; exact ⟨hq, hd⟩
  have hsplit : (p.polys.zip ds).flatMap (fun x => extraVerts p.detailVerts x.1 x.2) =
      ((p.polys.zip ds).take i).flatMap (fun x => extraVerts p.detailVerts x.1 x.2) ++ (extraVerts p.detailVerts q d ++
        ((p.polys.zip ds).drop (i + 1)).flatMap fun x => extraVerts p.detailVerts x.1 x.2) := by
    conv_lhs => rw [← List.take_append_drop i (p.polys.zip ds)]
    rw [List.flatMap_append]
    congr 1
    have hlt : i < (p.polys.zip ds).length := (List.getElem?_eq_some_iff.1 hz).1
    rw [List.drop_eq_getElem_cons hlt, List.flatMap_cons]
    rw [List.getElem?_eq_getElem hlt, Option.some.injEq] at hz
    rw [hz]
  have hle : extraBefore p ds i ≤ 21845 := by
    have : extraCount p ds = extraBefore p ds i + ((extraVerts p.detailVerts q d ++
        ((p.polys.zip ds).drop (i + 1)).flatMap fun x => extraVerts p.detailVerts x.1 x.2)).length := by
      unfold extraCount extraBefore
      rw [hsplit, List.length_append]
    omega
  refine ⟨_, by rw [q1]; exact hm', ?_, ?_, ?_, ?_⟩
  · dsimp only; rw [BitVec.toNat_ofNat]; omega
  · dsimp only; rw [BitVec.toNat_ofNat]; omega
  · dsimp only; rw [BitVec.toNat_ofNat, he]; omega
  · dsimp only
    rw [q2, r1, BitVec.toNat_ofNat, BitVec.toNat_ofNat, he]
    rw [show (((p.polys.zip ds).take i).flatMap fun x => extraVerts p.detailVerts x.1 x.2).length = extraBefore p ds i from rfl,
      Nat.mod_eq_of_lt (by omega), Nat.mod_eq_of_lt (by omega), List.nil_append, hsplit, List.flatMap_append, List.append_assoc]
    have e3 : 3 * extraBefore p ds i =
        ((((p.polys.zip ds).take i).flatMap fun x => extraVerts p.detailVerts x.1 x.2).flatMap flat3).length := by
      rw [length_flat3]
      rfl
    rw [e3, List.drop_left, List.flatMap_append, List.append_assoc, ← he, ← length_flat3, List.take_left, he]
    rfl

/-- Nothing is ever stored past word `65536 + 3K`, if each detail mesh has at most `K` extra vertices. -/
theorem detailLoop_far {src : List W3} {K : Nat} : ∀ (ps : List CreatePoly) (ds : List CreateDetail) (s s' : DetailState),
    detailLoop src ps ds s = some s' → (∀ d ∈ ds, d.vertCount ≤ K) → ∀ j, 65535 + 3 * K ≤ j → s'.dverts[j]? = s.dverts[j]?
  | [], _, s, s', e, _, j, _ => by
    rw [detailLoop] at e
    cases e
    rfl
  | _ :: _, [], _, _, e, _, _, _ => by
    rw [detailLoop] at e
    cases e
  | p :: ps, d :: ds, s, s', e, hK, j, hj => by
    rw [detailLoop] at e
    obtain ⟨s1, e1, e⟩ := Option.bind_eq_some_iff.1 e
    rw [detailLoop_far ps ds s1 s' e (fun x hx => hK x (List.mem_cons_of_mem _ hx)) j hj]
    have hd := hK d (List.mem_cons_self ..)
    unfold detailStep at e1
    dsimp only at e1
    split at e1
    · cases e1
    · split at e1
      · cases e1
        rfl
      · split at e1
        · cases e1
        · obtain ⟨dv, hdv, rfl⟩ := Option.map_eq_some_iff.1 e1
          dsimp only
          unfold copyAt at hdv
          split at hdv
          · cases hdv
          · rename_i hlen
            cases hdv
            have hpos := (s.vbase * 3#16).isLt
            generalize (s.vbase * 3#16).toNat = pos at *
            have hl : (((src.drop (d.vertBase + (usedVerts p.verts).length)).take (d.vertCount - (usedVerts p.verts).length)).flatMap
                flat3).length ≤ 3 * K := by
              rw [length_flat3, List.length_take]
              omega
            generalize ((src.drop (d.vertBase + (usedVerts p.verts).length)).take (d.vertCount - (usedVerts p.verts).length)).flatMap
              flat3 = w at *
            by_cases hjl : j < s.dverts.length
            · rw [List.getElem?_append_right (by simp only [List.length_append, List.length_take]; omega), List.getElem?_drop]
              congr 1
              simp only [List.length_append, List.length_take]
              omega
            · rw [List.getElem?_eq_none (by simp only [List.length_append, List.length_take, List.length_drop]; omega),
                List.getElem?_eq_none (by omega)]

/-- **C105** (refuted for many detail vertices): the extra vertices of a polygon that come after 22101 others (with at most 255 vertices
per detail mesh) are not stored in their place; there are zeros instead. -/
theorem create_detail_refuted {p : CreateParams} {ds : List CreateDetail} (hc : Complete p ds) {h : MeshHeader} {t : TileBody}
    (ht : createTile p = some (h, t)) (hK : ∀ d ∈ ds, d.vertCount ≤ 255) (i : Nat) (hi : 22101 ≤ extraBefore p ds i) :
    ∀ j, 3 * extraBefore p ds i ≤ j → j < 3 * extraCount p ds → t.detailVerts[j]? = some 0#32 := by
  obtain ⟨s, bv, h', t', hs, -, ht', q1, q2, -, l1, -⟩ := createTile_complete hc
  rw [ht] at ht'
  cases ht'
  intro j h1 h2
  rw [q2, detailLoop_far p.polys ds _ s hs hK j (by omega)]
  simp [List.getElem?_replicate, h2]

/-! ## Examples -/

/-- `n` triangles that share their vertices, each with a detail mesh of `3 + k` vertices, and one connection that starts in the tile. -/
def sampleParams (n k : Nat) : CreateParams :=
  { nvp := 4
    verts := [(0, 0, 0), (4, 0, 0), (0, 0, 4)]
    polys := List.replicate n ⟨[0, 1, 2, 0xffff], [0x800f, 1, 0x8002, 0xffff], 1, 63⟩
    details := some (List.replicate n ⟨0, 3 + k, 0, 1⟩)
    detailVerts := List.replicate (3 + k) (7, 7, 7)
    detailTris := [(0, 1, 2, 0)]
    cons := [⟨(1, 1, 1), (2, 2, 2), 1, 1, 5, true, 9, 0xff, 0xff⟩, ⟨(1, 1, 1), (2, 2, 2), 1, 1, 5, true, 9, 0, 0xff⟩]
    buildBv := true
    world := fun v => (v.1.setWidth 32, v.2.1.setWidth 32, v.2.2.setWidth 32)
    boxes := List.replicate n ⟨0, 0, 0, 4, 4, 4⟩
    srt := fun _ l => l
    hdr := exampleHeader }

theorem sample_complete (n k : Nat) (hn : 0 < n) : Complete (sampleParams n k) (List.replicate n ⟨0, 3 + k, 0, 1⟩) := by
  refine ⟨?_, ?_, rfl, ?_, rfl, ?_, fun _ _ => List.Perm.refl _⟩
  · rintro (h | h | h | h)
    · simp [sampleParams] at h
    · simp [sampleParams] at h
    · simp [sampleParams] at h
    · simp only [sampleParams, List.replicate_eq_nil_iff] at h
      omega
  · intro q hq
    rw [List.eq_of_mem_replicate hq]
    exact ⟨rfl, rfl⟩
  · have : ∀ n, DetailFits (List.replicate (3 + k) (7, 7, 7)) (List.replicate n ⟨[0, 1, 2, 0xffff], [0x800f, 1, 0x8002, 0xffff], 1, 63⟩)
        (List.replicate n ⟨0, 3 + k, 0, 1⟩) := by
      intro n
      induction n with
      | zero => exact trivial
      | succ n ih => exact ⟨⟨by simp [usedVerts], by simp⟩, ih⟩
    exact this n
  · simp [sampleParams]

/-- The hypotheses of `create_data_partial` and `create_detail_partial` for two triangles. -/
example : (sections (sampleParams 2 1) (List.replicate 2 ⟨0, 4, 0, 1⟩)).sum = 600 := by decide +kernel
example : extraCount (sampleParams 2 1) (List.replicate 2 ⟨0, 4, 0, 1⟩) = 2 := by decide +kernel
example : ((createTile (sampleParams 2 1)).map fun x => (x.2.polys.map fun q => (q.verts, q.neis), x.2.offMeshCons.map (·.poly))) =
    some ([([0, 1, 2, 0, 0, 0], [0, 2, 0x8000, 0, 0, 0]), ([0, 1, 2, 0, 0, 0], [0, 2, 0x8000, 0, 0, 0]),
      ([3, 4, 0, 0, 0, 0], [0, 0, 0, 0, 0, 0])], [2]) := by decide +kernel

/-- The hypothesis of `create_detail_refuted`: 200 polygons with 200 extra vertices each. -/
example : 22101 ≤ extraBefore (sampleParams 200 200) (List.replicate 200 ⟨0, 3 + 200, 0, 1⟩) 199 := by
  have : ∀ m, ((List.replicate m ((⟨[0, 1, 2, 0xffff], [0x800f, 1, 0x8002, 0xffff], 1, 63⟩ : CreatePoly), (⟨0, 3 + 200, 0, 1⟩ : CreateDetail))).flatMap
      fun x => extraVerts (List.replicate (3 + 200) (7, 7, 7)) x.1 x.2).length = 200 * m := by
    intro m
    induction m with
    | zero => rfl
    | succ m ih =>
      rw [List.replicate_succ (n := m), List.flatMap_cons, List.length_append, ih]
      have h3 : (usedVerts ([0, 1, 2, 0xffff] : List U16)).length = 3 := by decide
      unfold extraVerts
      simp only [h3, List.length_take, List.length_drop, List.length_replicate]
      omega
  unfold extraBefore
  simp only [sampleParams, List.zip_replicate', List.take_replicate]
  rw [this]
  decide

end Verif.Detour
