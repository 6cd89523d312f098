/-
Links across a whole mesh: the link building of `AddTile` (detour/mesh.go:384-435) and the link
removal of `RemoveTile` (detour/mesh.go:470-511), on top of the tile table.

Geometry is left open: whether two border edges touch (`findConnectingPolys`, float arithmetic) and on
which polygon an off-mesh connection lands (`FindNearestPolyInTile`) are arbitrary functions of the
whole state (`Geo`), and every theorem holds for all of them. Vertex coordinates moved by
`baseOffMeshLinks` and `connectExtOffMeshLinks` are therefore not tracked.
-/
import Verif.Detour.Links
import Verif.Detour.RefValidity

namespace Verif.Detour

/-! ## Model -/

/-- A nav mesh with the link pools of its tiles. -/
structure LMesh where
  mesh : Mesh
  lk : Nat → LTile

/-- The geometric decisions. `touch s a i j b k`: does portal edge `j` of polygon `i` of tile `a` touch
polygon `k` of tile `b` (detour/mesh.go:1346-1372), and with which compressed limits
(detour/mesh.go:1300-1316). `land s a b c e`: index of the polygon of tile `a` on which end `e` of
off-mesh connection `c` of tile `b` lands (detour/mesh.go:799-813, 1166-1180). -/
structure Geo where
  touch : LMesh → Nat → Nat → Nat → Nat → Nat → Option (Byte × Byte)
  land : LMesh → Nat → Nat → Nat → Bool → Option Nat

/-- `tile.Polys` of slot `a`. -/
def Mesh.polysOf (m : Mesh) (a : Nat) : List Poly :=
  match m.tile a with
  | none => []
  | some t => t.body.polys

/-- `tile.OffMeshCons` of slot `a`. -/
def Mesh.consOf (m : Mesh) (a : Nat) : List OffMeshCon :=
  match m.tile a with
  | none => []
  | some t => t.body.offMeshCons

/-- Create a link at polygon `p` of tile `a`. -/
def LMesh.pushAt (s : LMesh) (a p : Nat) (l : LinkInfo) : Option LMesh :=
  ((s.lk a).push p l).map fun t => ⟨s.mesh, upd s.lk a t⟩

/-- `oppositeTile` (detour/common.go:204-206), -1 (`none`) staying -1 as the callers arrange. -/
def oppSide : Option Nat → Option Nat
  | none => none
  | some d => some ((d + 4) % 8)

/-- The byte stored in `Link.Side`: 0xff for -1. -/
def sideByte : Option Nat → Byte
  | none => 0xff#8
  | some d => BitVec.ofNat 8 d

/-- One connection of `baseOffMeshLinks` (detour/mesh.go:795-850). -/
def baseOne (g : Geo) (i : Nat) (s : LMesh) (cc : OffMeshCon × Nat) : Option LMesh :=
  if (s.mesh.polysOf i).length ≤ cc.1.poly.toNat then none
  else match g.land s i i cc.2 false with
    | none => some s
    | some k =>
      (s.pushAt i cc.1.poly.toNat
        ⟨s.mesh.tileRef i ||| BitVec.ofNat 32 k, 0#8, 0xff#8, 0#8, 0#8⟩).bind fun s =>
      if (s.mesh.polysOf i).length ≤ k then none
      else s.pushAt i k
        ⟨s.mesh.tileRef i ||| cc.1.poly.setWidth 32, 0xff#8, 0xff#8, 0#8, 0#8⟩

/-- `baseOffMeshLinks` (detour/mesh.go:781-851). -/
def baseOff (g : Geo) (i : Nat) (s : LMesh) : Option LMesh :=
  (s.mesh.consOf i).zipIdx.foldlM (baseOne g i) s

/-- One connection of `connectExtOffMeshLinks(tile a, target b, side)` (detour/mesh.go:1154-1219). -/
def offOne (g : Geo) (a b : Nat) (side : Option Nat) (s : LMesh) (cc : OffMeshCon × Nat) :
    Option LMesh :=
  if cc.1.side ≠ sideByte (oppSide side) then some s
  else if (s.mesh.polysOf b).length ≤ cc.1.poly.toNat then none
  else match (s.lk b).first cc.1.poly.toNat with
    | none => some s
    | some _ => match g.land s a b cc.2 true with
      | none => some s
      | some k =>
        (s.pushAt b cc.1.poly.toNat
          ⟨s.mesh.tileRef a ||| BitVec.ofNat 32 k, 1#8, sideByte (oppSide side), 0#8, 0#8⟩).bind
        fun s =>
        if cc.1.flags &&& 1#8 = 0#8 then some s
        else if (s.mesh.polysOf a).length ≤ k then none
        else s.pushAt a k
          ⟨s.mesh.tileRef b ||| cc.1.poly.setWidth 32, 0xff#8, sideByte side, 0#8, 0#8⟩

/-- `connectExtOffMeshLinks` (detour/mesh.go:1139-1221). -/
def offExt (g : Geo) (a b : Nat) (side : Option Nat) (s : LMesh) : Option LMesh :=
  (s.mesh.consOf b).zipIdx.foldlM (offOne g a b side) s

/-- `findConnectingPolys` (detour/mesh.go:1323-1388): at most 4 polygons of tile `b`, each once, in
index order. -/
def findConnecting (g : Geo) (s : LMesh) (a i j b : Nat) : List (Nat × Byte × Byte) :=
  ((List.range (s.mesh.polysOf b).length).filterMap fun k =>
    (g.touch s a i j b k).map fun bb => (k, bb)).take 4

/-- Edge `j` of polygon `i` in `connectExtLinks(tile a, target b, side)` (detour/mesh.go:1267-1317). -/
def extEdge (g : Geo) (a b : Nat) (side : Option Nat) (p : Poly) (i : Nat) (s : LMesh) (j : Nat) :
    Option LMesh :=
  match p.neis[j]? with
  | none => none
  | some ne =>
    if ne &&& 0x8000#16 = 0#16 then some s
    else
      let dir := (ne &&& 0xff#16).toNat
      if side ≠ none ∧ side ≠ some dir then some s
      else (findConnecting g s a i j b).foldlM (fun s kb => s.pushAt a i
        ⟨s.mesh.tileRef b ||| BitVec.ofNat 32 kb.1, BitVec.ofNat 8 j, BitVec.ofNat 8 dir, kb.2.1,
          kb.2.2⟩) s

/-- `connectExtLinks` (detour/mesh.go:1254-1319). -/
def connectExt (g : Geo) (a b : Nat) (side : Option Nat) (s : LMesh) : Option LMesh :=
  (s.mesh.polysOf a).zipIdx.foldlM (fun s pi =>
    (List.range pi.1.vertCount.toNat).foldlM (extEdge g a b side pi.1 pi.2) s) s

/-- The four calls for a neighbour `j` (detour/mesh.go:418-421, 428-431). -/
def linkPair (g : Geo) (i : Nat) (side : Option Nat) (s : LMesh) (j : Nat) : Option LMesh :=
  (connectExt g i j side s).bind fun s => (connectExt g j i (oppSide side) s).bind fun s =>
    (offExt g i j side s).bind fun s => offExt g j i (oppSide side) s

/-- Offsets of `neighbourTilesAt` (detour/mesh.go:1496-1519). -/
def sideX : Nat → U32
  | 0 => 1#32 | 1 => 1#32 | 2 => 0#32 | 3 => -1#32 | 4 => -1#32 | 5 => -1#32 | 6 => 0#32 | 7 => 1#32
  | _ => 0#32
def sideY : Nat → U32
  | 0 => 0#32 | 1 => 1#32 | 2 => 1#32 | 3 => 1#32 | 4 => 0#32 | 5 => -1#32 | 6 => -1#32
  | 7 => -1#32 | _ => 0#32

/-- `neighbourTilesAt` (detour/mesh.go:1495-1522). -/
def Mesh.neighboursAt (m : Mesh) (x y : U32) (d : Nat) (max : Nat) : Option (List Nat) :=
  m.tilesAt (x + sideX d) (y + sideY d) max

/-- Link building of `AddTile` after `connectIntLinks` (detour/mesh.go:401-435). -/
def linkAll (g : Geo) (i : Nat) (x y : U32) (s : LMesh) : Option LMesh :=
  (baseOff g i s).bind fun s => (offExt g i i none s).bind fun s =>
    (s.mesh.tilesAt x y 32).bind fun neis =>
    (neis.foldlM (fun s j => if j = i then some s else linkPair g i none s j) s).bind fun s =>
    (List.range 8).foldlM (fun s d =>
      (s.mesh.neighboursAt x y d 32).bind fun neis => neis.foldlM (linkPair g i (some d)) s) s

/-- Pool contents stored in the tile data. -/
def Tile.infoOf (t : Tile) (k : Nat) : LinkInfo :=
  match t.body.links[k]? with
  | none => ⟨0, 0, 0, 0, 0⟩
  | some l => ⟨l.ref, l.edge, l.side, l.bmin, l.bmax⟩

/-- `FirstLink` fields stored in the tile data. -/
def Tile.firstOf (t : Tile) (k : Nat) : Option Nat :=
  match t.body.polys[k]? with
  | none => none
  | some p => if p.firstLink = 0xffffffff#32 then none else some p.firstLink.toNat

/-- `AddTile` with its links (detour/mesh.go:310-438). The slot used is the one named by the returned
reference. -/
def LMesh.addTile (g : Geo) (s : LMesh) (data : Bytes) (lastRef : U32) :
    Out (Status × U32 × LMesh) :=
  match s.mesh.addTile data lastRef with
  | .ok (st, ref, m') =>
    if st = Status.success then
      let i := (m'.bits.decodeTile ref).toNat
      match m'.tile i with
      | none => .panic
      | some t =>
        match connectInt (m'.tileRef i) t.body.polys 0
            (.fresh t.header.maxLinkCount.toNat t.infoOf t.firstOf) with
        | none => .panic
        | some lt =>
          match linkAll g i t.header.x t.header.y ⟨m', upd s.lk i lt⟩ with
          | none => .panic
          | some s' => .ok (st, ref, s')
    else .ok (st, ref, ⟨m', s.lk⟩)
  | .fatal => .fatal
  | .panic => .panic
  | .hang => .hang

/-- "Remove tile from hash lookup" (detour/mesh.go:470-487). -/
def Mesh.unhash (m : Mesh) (i : Nat) (t : Tile) : Option Mesh :=
  let h := tileHash m.lutMask t.header.x t.header.y
  match walkTo m.next i m.maxTiles none (m.pos h) with
  | none => none
  | some (prev, cur) =>
    let u := match cur with
      | none => (m.next, m.pos h)
      | some c => unlinkAt m.next (m.pos h) prev c
    some { m with pos := upd m.pos h u.2, next := u.1 }

/-- `m.unconnectLinks(neis[j], tile)` (detour/mesh.go:1390-1419). -/
def unconnect (m : Mesh) (i : Nat) (lk : Nat → LTile) (j : Nat) : Option (Nat → LTile) :=
  ((lk j).cut (fun l => m.bits.decodeTile l.ref == m.bits.decodeTile (m.tileRef i))
    (m.polysOf j).length).map (upd lk j)

/-- Disconnecting a removed tile (detour/mesh.go:489-511). -/
def unlinkAll (m : Mesh) (i : Nat) (t : Tile) (lk : Nat → LTile) : Option (Nat → LTile) :=
  (m.tilesAt t.header.x t.header.y 32).bind fun neis =>
  (neis.foldlM (fun lk j => if j = i then some lk else unconnect m i lk j) lk).bind fun lk =>
  (List.range 8).foldlM (fun lk d =>
    (m.neighboursAt t.header.x t.header.y d 32).bind fun neis => neis.foldlM (unconnect m i) lk) lk

/-- `RemoveTile` with its links (detour/mesh.go:453-538). -/
def LMesh.removeTile (s : LMesh) (ref : U32) : Out (Bytes × Status × LMesh) :=
  match s.mesh.removeTile ref with
  | .ok (d, st, m') =>
    if st = Status.success then
      let i := (s.mesh.bits.decodeTile ref).toNat
      match s.mesh.tile i with
      | none => .panic
      | some t => match s.mesh.unhash i t with
        | none => .hang
        | some mid => match unlinkAll mid i t s.lk with
          | none => .panic
          | some lk => .ok (d, st, ⟨m', lk⟩)
    else .ok (d, st, ⟨m', s.lk⟩)
  | .fatal => .fatal
  | .panic => .panic
  | .hang => .hang

/-- A call, with the geometric decisions taken during it. -/
inductive LMOp where
  | add (g : Geo) (data : Bytes) (lastRef : U32)
  | remove (ref : U32)

/-- The call as seen by the tile table. -/
def LMOp.op : LMOp → Op
  | .add _ d r => .add d r
  | .remove r => .remove r

def LMesh.step (s : LMesh) : LMOp → Out LMesh
  | .add g d r => match s.addTile g d r with
    | .ok (_, _, s') => .ok s'
    | .fatal => .fatal
    | .panic => .panic
    | .hang => .hang
  | .remove r => match s.removeTile r with
    | .ok (_, _, s') => .ok s'
    | .fatal => .fatal
    | .panic => .panic
    | .hang => .hang

/-- A history of calls. -/
def LMesh.run : List LMOp → LMesh → Out LMesh
  | [], s => .ok s
  | op :: ops, s => match s.step op with
    | .ok s' => LMesh.run ops s'
    | .fatal => .fatal
    | .panic => .panic
    | .hang => .hang

/-! ## Hypotheses on the data -/

/-- The geometry only ever answers with polygons that exist: `FindNearestPolyInTile` returns a
reference made from a leaf of the tile's BV tree or from a polygon index, so this says that BV leaves
hold indices of existing polygons. -/
def Geo.OK (g : Geo) : Prop :=
  ∀ s a b c e k, g.land s a b c e = some k → k < (s.mesh.polysOf a).length

/-- Tile data as `CreateNavMeshData` produces it: at most as many polygons as the polygon bits allow,
1 to 6 vertices per polygon, internal neighbour entries and off-mesh connections naming existing
polygons, and a layer number below 32 (`AddTile` and `RemoveTile` look at no more than 32 tiles per
grid cell). -/
structure GoodTile (b : IdBits) (t : Tile) : Prop where
  count : t.body.polys.length ≤ 2 ^ b.polyBits.toNat
  edges : ∀ p ∈ t.body.polys, EdgesOK p
  verts : ∀ p ∈ t.body.polys, p.vertCount.toNat ≤ 6
  neis : ∀ p ∈ t.body.polys, ∀ ne ∈ p.neis, internal ne → ne.toNat ≤ t.body.polys.length
  cons : ∀ c ∈ t.body.offMeshCons, c.poly.toNat < t.body.polys.length
  layer : t.header.layer.toNat < 32

/-- Admissible call: the geometry and the tile data are good, and a `lastRef` has a non-zero salt. -/
def GoodOp (b : IdBits) : LMOp → Prop
  | .add g d r => g.OK ∧ (r = 0#32 ∨ b.decodeSalt r ≠ 0#32) ∧
      ∀ t : Tile, t.data = d → TileOK t → GoodTile b t
  | .remove _ => True

/-! ## Invariant -/

/-- Spec: tile `u` is in the cell of `t` (`none`) or in the cell on side `d` of it. -/
def At : Option Nat → Tile → Tile → Prop
  | none, t, u => u.header.x = t.header.x ∧ u.header.y = t.header.y
  | some d, t, u => d < 8 ∧ u.header.x = t.header.x + sideX d ∧ u.header.y = t.header.y + sideY d

/-- Same grid cell or one of the eight around it. -/
def Near (t u : Tile) : Prop := ∃ side, At side t u

theorem side_opp : ∀ d : Fin 8, sideX ((d.val + 4) % 8) = -sideX d ∧
    sideY ((d.val + 4) % 8) = -sideY d := by decide

theorem At.symm {t u : Tile} {side : Option Nat} (h : At side t u) : At (oppSide side) u t := by
  cases side with
  | none => exact ⟨h.1.symm, h.2.symm⟩
  | some d =>
    obtain ⟨hd, h1, h2⟩ := h
    refine ⟨by omega, ?_, ?_⟩
    · rw [h1, (side_opp ⟨d, hd⟩).1, BitVec.add_assoc, BitVec.add_right_neg, BitVec.add_zero]
    · rw [h2, (side_opp ⟨d, hd⟩).2, BitVec.add_assoc, BitVec.add_right_neg, BitVec.add_zero]

theorem At.opp {t u : Tile} {side : Option Nat} (h : At side t u) : oppSide (oppSide side) = side := by
  cases side with
  | none => rfl
  | some d =>
    have := h.1
    simp only [oppSide, Option.some.injEq]
    omega

theorem Near.symm {t u : Tile} : Near t u → Near u t
  | ⟨_, h⟩ => ⟨_, h.symm⟩

/-- Spec: why polygon `p` of tile `t` may have link `l` to polygon `k` of tile `u`; `same` says that
the two are the same tile.
`internal`: an edge with an internal neighbour. `border`: a portal edge, towards the side it faces.
`conStart`, `conStartBack`: an off-mesh connection and the polygon under its start. `conEnd`,
`conEndBack`: an off-mesh connection and the polygon under its end, back only if it is bidirectional. -/
inductive Origin (same : Prop) (t : Tile) (p : Nat) (u : Tile) (k : Nat) (l : LinkInfo) : Prop
  | internal (P : Poly) (j : Nat) (ne : U16) (hs : same) (hp : t.body.polys[p]? = some P)
      (ho : polyType P.areaAndType ≠ 1#8) (hj : j < P.vertCount.toNat) (hn : P.neis[j]? = some ne)
      (hb : ne.toNat < 0x8000) (hk : ne.toNat = k + 1) (he : l.edge = BitVec.ofNat 8 j)
      (hd : l.side = 0xff#8)
  | border (P : Poly) (j : Nat) (ne : U16) (side : Option Nat) (hp : t.body.polys[p]? = some P)
      (hj : j < P.vertCount.toNat) (hn : P.neis[j]? = some ne) (hb : 0x8000 ≤ ne.toNat)
      (he : l.edge = BitVec.ofNat 8 j) (hd : l.side = BitVec.ofNat 8 (ne.toNat % 256))
      (hside : side = none ∨ side = some (ne.toNat % 256)) (hat : At side t u)
  | conStart (c : OffMeshCon) (hs : same) (hc : c ∈ t.body.offMeshCons) (hp : c.poly.toNat = p)
      (he : l.edge = 0#8) (hd : l.side = 0xff#8)
  | conStartBack (c : OffMeshCon) (hs : same) (hc : c ∈ t.body.offMeshCons) (hk : c.poly.toNat = k)
      (he : l.edge = 0xff#8) (hd : l.side = 0xff#8)
  | conEnd (c : OffMeshCon) (side : Option Nat) (hc : c ∈ t.body.offMeshCons)
      (hp : c.poly.toNat = p) (he : l.edge = 1#8) (hd : l.side = c.side)
      (hside : c.side = sideByte side) (hat : At side t u)
  | conEndBack (c : OffMeshCon) (side : Option Nat) (hc : c ∈ u.body.offMeshCons)
      (hk : c.poly.toNat = k) (hbidir : c.flags &&& 1#8 ≠ 0#8) (he : l.edge = 0xff#8)
      (hd : l.side = sideByte side) (hside : c.side = sideByte (oppSide side)) (hat : At side t u)

/-- A link of polygon `p` of tile `a` that leads to a polygon of a tile in reach, for a reason. -/
def GoodLink (m : Mesh) (a p : Nat) (l : LinkInfo) : Prop :=
  ∃ ta b u k, m.tile a = some ta ∧ m.tile b = some u ∧ Near ta u ∧ k < u.body.polys.length ∧
    l.ref = m.tileRef b ||| BitVec.ofNat 32 k ∧ Origin (a = b) ta p u k l

/-- The pool of tile `a` is intact and all its links are good. -/
def PoolOK (m : Mesh) (a : Nat) (t : Tile) (lt : LTile) : Prop :=
  ∃ n c, Holds lt t.body.polys.length n c ∧
    ∀ p, p < t.body.polys.length → ∀ l ∈ c p, GoodLink m a p l

/-- All pools are intact and their lists satisfy `R`. -/
def Good (m : Mesh) (R : Nat → Nat → List LinkInfo → Prop) (s : LMesh) : Prop :=
  s.mesh = m ∧ ∀ a t, m.tile a = some t → ∃ n c, Holds (s.lk a) t.body.polys.length n c ∧
    ∀ p, p < t.body.polys.length → R a p (c p)

/-- A link of polygon `p` of tile `a` that `AddTile` may create when it adds tile `i`: it starts or ends there. -/
def NewLink (m : Mesh) (i a p : Nat) (l : LinkInfo) : Prop :=
  GoodLink m a p l ∧ (a = i ∨ ∃ k t, m.tile i = some t ∧ k < t.body.polys.length ∧
    l.ref = m.tileRef i ||| BitVec.ofNat 32 k)

/-- `R` survives the links made when tile `i` is added. -/
def Closed (m : Mesh) (i : Nat) (R : Nat → Nat → List LinkInfo → Prop) : Prop :=
  ∀ a p ls l, NewLink m i a p l → R a p ls → R a p (l :: ls)

theorem foldlM_pres {α σ : Type} {Q : σ → Prop} {f : σ → α → Option σ} (l : List α)
    (h : ∀ s x, x ∈ l → Q s → ∃ s', f s x = some s' ∧ Q s') :
    ∀ s, Q s → ∃ s', l.foldlM f s = some s' ∧ Q s' := by
  induction l with
  | nil => intro s hs; exact ⟨s, rfl, hs⟩
  | cons a l ih =>
    intro s hs
    obtain ⟨s1, e1, h1⟩ := h s a (by simp) hs
    obtain ⟨s2, e2, h2⟩ := ih (fun s x hx => h s x (by simp [hx])) s1 h1
    exact ⟨s2, by rw [List.foldlM_cons, e1]; exact e2, h2⟩

theorem bind_pres {σ : Type} {Q R : σ → Prop} {o : Option σ} {f : σ → Option σ}
    (h1 : ∃ s, o = some s ∧ Q s) (h2 : ∀ s, Q s → ∃ s', f s = some s' ∧ R s') :
    ∃ s', o.bind f = some s' ∧ R s' := by
  obtain ⟨s, rfl, hs⟩ := h1
  exact h2 s hs

theorem pushAt_good {m : Mesh} {i : Nat} {R} (hR : Closed m i R) {s : LMesh} (h : Good m R s)
    {a p : Nat} {t : Tile} (ht : m.tile a = some t) (hp : p < t.body.polys.length) {l : LinkInfo}
    (hl : NewLink m i a p l) : ∃ s', s.pushAt a p l = some s' ∧ Good m R s' := by
  obtain ⟨rfl, hs⟩ := h
  obtain ⟨n, c, hh, hc⟩ := hs a t ht
  obtain ⟨t', e, h'⟩ := hh.push hp l
  refine ⟨⟨s.mesh, upd s.lk a t'⟩, by unfold LMesh.pushAt; rw [e]; rfl, rfl, ?_⟩
  intro b u hu
  by_cases hb : b = a
  · subst hb
    rw [ht] at hu
    simp only [Option.some.injEq] at hu
    subst hu
    simp only [upd_same]
    refine ⟨n, _, h', ?_⟩
    intro q hq
    simp only [specLink]
    split
    · by_cases hqp : q = p
      · subst hqp
        rw [upd_same]
        exact hR _ _ _ _ hl (hc q hq)
      · rw [upd_ne _ _ hqp]
        exact hc q hq
    · exact hc q hq
  · simp only [upd_ne _ _ hb]
    exact hs b u hu

theorem polysOf_eq {m : Mesh} {a : Nat} {t : Tile} (h : m.tile a = some t) :
    m.polysOf a = t.body.polys := by
  unfold Mesh.polysOf; rw [h]

theorem consOf_eq {m : Mesh} {a : Nat} {t : Tile} (h : m.tile a = some t) :
    m.consOf a = t.body.offMeshCons := by
  unfold Mesh.consOf; rw [h]

theorem zipIdx_mem {α : Type} {l : List α} {x : α × Nat} (h : x ∈ l.zipIdx) :
    x.1 ∈ l ∧ x.2 < l.length := by
  obtain ⟨a, i⟩ := x
  rw [List.mem_zipIdx_iff_getElem?] at h
  exact ⟨List.mem_of_getElem? h, by
    by_contra hc
    rw [List.getElem?_eq_none (by omega)] at h
    simp at h⟩

/-- `PolyRef(con.Poly)` as a link target. -/
theorem conRef (x : U16) : (x.setWidth 32 : U32) = BitVec.ofNat 32 x.toNat := by
  apply BitVec.eq_of_toNat_eq
  rw [BitVec.toNat_setWidth, BitVec.toNat_ofNat]

theorem near_refl (t : Tile) : Near t t := ⟨none, rfl, rfl⟩

theorem newLink_of {m : Mesh} {a b i : Nat} {ta tb : Tile} (hta : m.tile a = some ta)
    (htb : m.tile b = some tb) (hn : Near ta tb) {k : Nat} (hk : k < tb.body.polys.length)
    (hab : a = i ∨ b = i) {l : LinkInfo} (hl : l.ref = m.tileRef b ||| BitVec.ofNat 32 k) {p : Nat}
    (ho : Origin (a = b) ta p tb k l) : NewLink m i a p l := by
  refine ⟨⟨ta, b, tb, k, hta, htb, hn, hk, hl, ho⟩, hab.imp_right ?_⟩
  rintro rfl
  exact ⟨k, tb, htb, hk, hl⟩

theorem baseOff_good {g : Geo} (hg : g.OK) {m : Mesh} {i : Nat} {R} (hR : Closed m i R) {s : LMesh}
    (h : Good m R s) {t : Tile} (ht : m.tile i = some t) (hgt : GoodTile m.bits t) :
    ∃ s', baseOff g i s = some s' ∧ Good m R s' := by
  unfold baseOff
  refine foldlM_pres (Q := Good m R) _ ?_ s h
  intro s cc hcc hs
  rw [h.1, consOf_eq ht] at hcc
  have hcon := hgt.cons cc.1 (zipIdx_mem hcc).1
  unfold baseOne
  rw [hs.1, polysOf_eq ht, if_neg (by omega)]
  cases hk : g.land s i i cc.2 false with
  | none => exact ⟨s, rfl, hs⟩
  | some k =>
    have hkl := hg _ _ _ _ _ _ hk
    rw [hs.1, polysOf_eq ht] at hkl
    simp only
    refine bind_pres (pushAt_good hR hs ht hcon
      ⟨⟨t, i, t, k, ht, ht, near_refl t, hkl, rfl,
        .conStart cc.1 rfl (zipIdx_mem hcc).1 rfl rfl rfl⟩, Or.inl rfl⟩) ?_
    intro s' hs'
    rw [hs'.1, polysOf_eq ht, if_neg (by omega)]
    exact pushAt_good hR hs' ht hkl
      ⟨⟨t, i, t, _, ht, ht, near_refl t, hcon, by simp only [conRef],
        .conStartBack cc.1 rfl (zipIdx_mem hcc).1 rfl rfl rfl⟩, Or.inl rfl⟩

theorem offExt_good {g : Geo} (hg : g.OK) {m : Mesh} {a b : Nat} {ta tb : Tile}
    (hta : m.tile a = some ta) (htb : m.tile b = some tb) (hgt : GoodTile m.bits tb)
    (side : Option Nat) (hat : At side ta tb) {i : Nat} (hab : a = i ∨ b = i) {R} (hR : Closed m i R)
    {s : LMesh} (h : Good m R s) : ∃ s', offExt g a b side s = some s' ∧ Good m R s' := by
  unfold offExt
  refine foldlM_pres (Q := Good m R) _ ?_ s h
  intro s cc hcc hs
  rw [h.1, consOf_eq htb] at hcc
  have hcon := hgt.cons cc.1 (zipIdx_mem hcc).1
  have hn : Near ta tb := ⟨side, hat⟩
  unfold offOne
  split
  · exact ⟨s, rfl, hs⟩
  rename_i hcs
  have hcs : cc.1.side = sideByte (oppSide side) := by simpa using hcs
  rw [hs.1, polysOf_eq htb, if_neg (by omega)]
  cases (s.lk b).first cc.1.poly.toNat with
  | none => exact ⟨s, rfl, hs⟩
  | some _ =>
    simp only
    cases hk : g.land s a b cc.2 true with
    | none => exact ⟨s, rfl, hs⟩
    | some k =>
      have hkl := hg _ _ _ _ _ _ hk
      rw [hs.1, polysOf_eq hta] at hkl
      simp only
      refine bind_pres (pushAt_good hR hs htb hcon
        (newLink_of htb hta hn.symm hkl hab.symm rfl
          (.conEnd cc.1 (oppSide side) (zipIdx_mem hcc).1 rfl rfl hcs.symm hcs hat.symm))) ?_
      intro s' hs'
      split
      · exact ⟨s', rfl, hs'⟩
      · rename_i hfl
        rw [hs'.1, polysOf_eq hta, if_neg (by omega)]
        exact pushAt_good hR hs' hta hkl (newLink_of hta htb hn hcon hab (by simp only [conRef])
          (.conEndBack cc.1 side (zipIdx_mem hcc).1 rfl hfl rfl rfl hcs hat))

theorem ext_dir (ne : U16) : (ne &&& 0xff#16).toNat = ne.toNat % 256 := by
  rw [BitVec.toNat_and]
  exact Nat.and_two_pow_sub_one_eq_mod ne.toNat 8

theorem ext_bit (ne : U16) : ne &&& 0x8000#16 ≠ 0#16 ↔ 0x8000 ≤ ne.toNat := by
  have h : (ne &&& 0x8000#16 = 0#16) ↔ ne.getLsbD 15 = false := by
    constructor
    · intro h
      have := congrArg (fun x => x.getLsbD 15) h
      simpa using this
    · intro h
      apply BitVec.eq_of_getLsbD_eq
      intro j hj
      rw [BitVec.getLsbD_and]
      by_cases h15 : j = 15
      · subst h15; rw [h]; rfl
      · have : (0x8000#16).getLsbD j = false := by
          have : ∀ j : Fin 16, j.val ≠ 15 → (0x8000#16).getLsbD j.val = false := by decide
          exact this ⟨j, hj⟩ h15
        simp [this]
  have h2 : ne.getLsbD 15 = true ↔ 0x8000 ≤ ne.toNat := by
    have hlt := ne.isLt
    rw [BitVec.getLsbD, Nat.testBit_eq_decide_div_mod_eq, decide_eq_true_eq]
    omega
  rw [ne_eq, h, ← h2]
  simp

theorem ext_high {ne : U16} (h : ¬ ne &&& 0x8000#16 = 0#16) : 0x8000 ≤ ne.toNat := (ext_bit ne).1 h

theorem connectExt_good {g : Geo} {m : Mesh} {a b : Nat} {ta tb : Tile}
    (hta : m.tile a = some ta) (htb : m.tile b = some tb) (hgt : GoodTile m.bits ta)
    (side : Option Nat) (hat : At side ta tb) {i : Nat} (hab : a = i ∨ b = i) {R} (hR : Closed m i R)
    {s : LMesh} (h : Good m R s) : ∃ s', connectExt g a b side s = some s' ∧ Good m R s' := by
  unfold connectExt
  refine foldlM_pres (Q := Good m R) _ ?_ s h
  intro s pi hpi hs
  rw [h.1, polysOf_eq hta] at hpi
  obtain ⟨hp, hi'⟩ := zipIdx_mem hpi
  refine foldlM_pres (Q := Good m R) _ ?_ s hs
  intro s j hj hs
  have hj := List.mem_range.1 hj
  have hlen := (hgt.edges pi.1 hp).1
  have hv := hgt.verts pi.1 hp
  unfold extEdge
  cases hne : pi.1.neis[j]? with
  | none => rw [List.getElem?_eq_none_iff] at hne; omega
  | some ne =>
  simp only
  split
  · exact ⟨s, rfl, hs⟩
  rename_i hext
  split
  · exact ⟨s, rfl, hs⟩
  rename_i hside
  have hpp : ta.body.polys[pi.2]? = some pi.1 := by
    obtain ⟨q, n⟩ := pi
    exact List.mem_zipIdx_iff_getElem?.1 hpi
  have hside' : side = none ∨ side = some (ne.toNat % 256) := by
    rw [← ext_dir]
    rcases side with _ | d
    · exact Or.inl rfl
    · right
      by_contra hc
      exact hside ⟨by simp, hc⟩
  refine foldlM_pres (Q := Good m R) _ ?_ s hs
  intro s' kb hkb hs'
  have hk : kb.1 < tb.body.polys.length := by
    unfold findConnecting at hkb
    have := List.mem_of_mem_take hkb
    rw [List.mem_filterMap] at this
    obtain ⟨k, h1, h2⟩ := this
    rw [hs.1, polysOf_eq htb] at h1
    have h1 := List.mem_range.1 h1
    rw [Option.map_eq_some_iff] at h2
    obtain ⟨bb, _, rfl⟩ := h2
    exact h1
  rw [hs'.1]
  refine pushAt_good hR hs' hta hi' (newLink_of hta htb ⟨side, hat⟩ hk hab rfl
    (.border pi.1 j ne side hpp hj hne (ext_high hext) rfl ?_ hside' hat))
  simp only [ext_dir]

theorem linkPair_good {g : Geo} (hg : g.OK) {m : Mesh} {i j : Nat} {ti tj : Tile}
    (hti : m.tile i = some ti) (htj : m.tile j = some tj) (hgi : GoodTile m.bits ti)
    (hgj : GoodTile m.bits tj) (side : Option Nat) (hn : At side ti tj) {R} (hR : Closed m i R)
    {s : LMesh} (h : Good m R s) : ∃ s', linkPair g i side s j = some s' ∧ Good m R s' := by
  unfold linkPair
  refine bind_pres (connectExt_good hti htj hgi side hn (Or.inl rfl) hR h) fun s hs => ?_
  refine bind_pres (connectExt_good htj hti hgj _ hn.symm (Or.inr rfl) hR hs) fun s hs => ?_
  refine bind_pres (offExt_good hg hti htj hgj side hn (Or.inl rfl) hR hs) fun s hs => ?_
  exact offExt_good hg htj hti hgi _ hn.symm (Or.inr rfl) hR hs

/-! ### Tiles of a cell -/

theorem tilesAt_inv {m : Mesh} (hi : Inv m) (x y : U32) (max : Nat) :
    ∃ l : List Nat, m.tilesAt x y max = some (l.take max) ∧ l.Nodup ∧
      ∀ i, i ∈ l ↔ ∃ t, m.tile i = some t ∧ t.header.x = x ∧ t.header.y = y := by
  obtain ⟨free, bucket, w⟩ := hi
  refine ⟨_, by unfold Mesh.tilesAt; rw [walkCollect_eq (w.cpos _) (w.bucket_len _)]; rfl,
    (w.cpos _).nodup.filter _, ?_⟩
  intro i
  rw [List.mem_filter, w.bucket_iff]
  unfold Mesh.atCell
  constructor
  · rintro ⟨⟨_, t, ht, _⟩, h⟩
    rw [ht] at h
    exact ⟨t, ht, by simpa using h⟩
  · rintro ⟨t, ht, hx, hy⟩
    refine ⟨⟨w.range i t ht, t, ht, by rw [hx, hy]⟩, ?_⟩
    rw [ht]
    simp [hx, hy]

theorem linkAll_good {g : Geo} (hg : g.OK) {m : Mesh} (hi : Inv m)
    (hall : ∀ a t, m.tile a = some t → GoodTile m.bits t) {i : Nat} {t : Tile}
    (ht : m.tile i = some t) {R} (hR : Closed m i R) {s : LMesh} (h : Good m R s) :
    ∃ s', linkAll g i t.header.x t.header.y s = some s' ∧ Good m R s' := by
  unfold linkAll
  refine bind_pres (baseOff_good hg hR h ht (hall i t ht)) fun s hs => ?_
  refine bind_pres (offExt_good hg ht ht (hall i t ht) none ⟨rfl, rfl⟩ (Or.inl rfl)
    hR hs) fun s hs => ?_
  obtain ⟨l, e, _, hl⟩ := tilesAt_inv hi t.header.x t.header.y 32
  rw [hs.1, e, Option.bind_some]
  refine bind_pres (Q := Good m R) (foldlM_pres (Q := Good m R) _ ?_ s hs) fun s hs => ?_
  · intro s j hj hs
    obtain ⟨u, hu, hx, hy⟩ := (hl j).1 (List.mem_of_mem_take hj)
    split
    · exact ⟨s, rfl, hs⟩
    · exact linkPair_good hg ht hu (hall i t ht) (hall j u hu) none ⟨hx, hy⟩ hR hs
  · refine foldlM_pres (Q := Good m R) _ ?_ s hs
    intro s d hd hs
    have hd := List.mem_range.1 hd
    unfold Mesh.neighboursAt
    obtain ⟨l, e, _, hl⟩ := tilesAt_inv hi (t.header.x + sideX d) (t.header.y + sideY d) 32
    rw [hs.1, e, Option.bind_some]
    refine foldlM_pres (Q := Good m R) _ ?_ s hs
    intro s j hj hs
    obtain ⟨u, hu, hx, hy⟩ := (hl j).1 (List.mem_of_mem_take hj)
    exact linkPair_good hg ht hu (hall i t ht) (hall j u hu) (some d) ⟨hd, hx, hy⟩ hR hs

/-! ### Adding -/

/-- State invariant of a mesh with links. -/
structure LMInv (s : LMesh) : Prop where
  inv : Inv s.mesh
  tiles : ∀ a t, s.mesh.tile a = some t → GoodTile s.mesh.bits t
  salts : ∀ i, s.mesh.salt i ≠ 0#32
  good : ∀ a t, s.mesh.tile a = some t → PoolOK s.mesh a t (s.lk a)

theorem encode_index {m : Mesh} (hi : Inv m) {i : Nat} (h : i < m.maxTiles) (k : Nat)
    (hk : k < 2 ^ m.bits.polyBits.toNat) :
    (m.bits.decodeTile (m.tileRef i ||| BitVec.ofNat 32 k)).toNat = i ∧
    m.bits.decodeSalt (m.tileRef i ||| BitVec.ofNat 32 k) = m.salt i ∧
    (m.bits.decodePoly (m.tileRef i ||| BitVec.ofNat 32 k)).toNat = k ∧
    (m.salt i ≠ 0#32 → m.tileRef i ||| BitVec.ofNat 32 k ≠ 0#32) := by
  obtain ⟨free, bucket, w⟩ := hi
  have hsz := w.size
  have hw := w.wf
  have htb : m.bits.tileBits.toNat ≤ 31 := by have := hw.sum; have := hw.salt; omega
  have hpb : m.bits.polyBits.toNat ≤ 31 := by have := hw.sum; have := hw.salt; omega
  have hpow : 2 ^ m.bits.tileBits.toNat ≤ 2 ^ 31 := Nat.pow_le_pow_right (by omega) htb
  have hpow' : 2 ^ m.bits.polyBits.toNat ≤ 2 ^ 31 := Nat.pow_le_pow_right (by omega) hpb
  have hin : (BitVec.ofNat 32 i).toNat = i := by
    rw [BitVec.toNat_ofNat]; exact Nat.mod_eq_of_lt (by omega)
  have hkn : (BitVec.ofNat 32 k).toNat = k := by
    rw [BitVec.toNat_ofNat]; exact Nat.mod_eq_of_lt (by omega)
  unfold Mesh.tileRef
  rw [IdBits.base_or]
  obtain ⟨d1, d2, d3⟩ := IdBits.decode_encode hw (m.salt i) (BitVec.ofNat 32 i) (BitVec.ofNat 32 k)
    (w.salt i) (by rw [hin]; omega) (by rw [hkn]; exact hk)
  refine ⟨by rw [d2, hin], d1, by rw [d3, hkn], fun h0 => ?_⟩
  exact IdBits.encode_ne_zero hw _ _ _ (w.salt i) (by rw [hin]; omega) (by rw [hkn]; exact hk) h0

theorem decodeTile_tileRef {m : Mesh} (hi : Inv m) {i : Nat} (h : i < m.maxTiles) :
    (m.bits.decodeTile (m.tileRef i)).toNat = i := by
  have := (encode_index hi h 0 (Nat.pow_pos (by omega))).1
  rwa [BitVec.or_zero] at this

theorem bumpSalt_ne {b : IdBits} (s : U32) : Mesh.bumpSalt b s ≠ 0#32 := by
  unfold Mesh.bumpSalt
  simp only
  split
  · rename_i h; rw [h]; decide
  · assumption

/-- Growing the mesh by a tile in an empty slot keeps good links good. -/
theorem GoodLink.mono {m m' : Mesh} {a p : Nat} {l : LinkInfo} (h : GoodLink m a p l)
    (ht : ∀ j t, m.tile j = some t → m'.tile j = some t)
    (hr : ∀ j t, m.tile j = some t → m'.tileRef j = m.tileRef j) : GoodLink m' a p l := by
  obtain ⟨ta, b, u, k, h1, h2, h3, h4, h5, h6⟩ := h
  exact ⟨ta, b, u, k, ht _ _ h1, ht _ _ h2, h3, h4, by rw [hr b u h2]; exact h5, h6⟩

/-- The internal links of a good tile are good. -/
theorem internal_good {m : Mesh} {i : Nat} {t : Tile} (ht : m.tile i = some t)
    (hg : GoodTile m.bits t) {q : Nat} {p : Poly} (hq : t.body.polys[q]? = some p) {l : LinkInfo}
    (hl : l ∈ internalLinks (m.tileRef i) p) : GoodLink m i q l := by
  have hp := List.mem_of_getElem? hq
  unfold internalLinks at hl
  split at hl
  · simp at hl
  rename_i hoff
  obtain ⟨j, ne, hj, hne, hint, rfl⟩ := mem_intLinksOf.1 hl
  have hle := hg.neis p hp ne (List.mem_of_getElem? hne) hint
  have hpos : ne.toNat ≠ 0 := fun h0 => hint.1 (BitVec.eq_of_toNat_eq (by simpa using h0))
  have hlow : ne.toNat < 0x8000 := by
    by_contra hc
    exact (ext_bit ne).2 (by omega) hint.2
  refine ⟨t, i, t, ne.toNat - 1, ht, ht, near_refl t, by omega, ?_,
    .internal p j ne rfl hq hoff hj hne hlow (by omega) rfl rfl⟩
  simp only [intLink]
  congr 1
  apply BitVec.eq_of_toNat_eq
  have := ne.isLt
  rw [BitVec.toNat_setWidth, BitVec.toNat_sub, BitVec.toNat_ofNat, BitVec.toNat_ofNat]
  omega

/-- Spec: in going from `s` to `s'` every polygon of every tile of `s` has kept its links, in order,
and only got links into the tile of `ref` in front of them. -/
def Grown (s s' : LMesh) (ref : U32) : Prop :=
  ∀ a t p, s.mesh.tile a = some t → p < t.body.polys.length →
    ∃ old new, (s.lk a).links p = some old ∧ (s'.lk a).links p = some (new ++ old) ∧
      ∀ l ∈ new, s'.mesh.bits.decodeTile l.ref = s'.mesh.bits.decodeTile ref

theorem addTile_links {s : LMesh} (h : LMInv s) {g : Geo} {d : Bytes} {r ref : U32} {st : Status}
    {m' : Mesh} (hop : GoodOp s.mesh.bits (.add g d r)) (ha : s.mesh.addTile d r = .ok (st, ref, m')) :
    ∃ s', s.addTile g d r = .ok (st, ref, s') ∧ s'.mesh = m' ∧ LMInv s' ∧ Grown s s' ref := by
  obtain ⟨hg, hr, hd⟩ := hop
  unfold LMesh.addTile
  rw [ha]
  rcases addTile_cases h.inv ha with ⟨rfl, _, h2⟩ | ⟨rfl, i, t, htd, had, rfl⟩
  · simp only
    rw [if_neg (by rintro rfl; exact absurd h2 (by decide))]
    refine ⟨_, rfl, rfl, h, ?_⟩
    intro a t p ht hp
    obtain ⟨n, c, h1, _⟩ := h.good a t ht
    exact ⟨c p, [], h1.links hp, h1.links hp, by simp⟩
  · simp only
    rw [if_true, decodeTile_tileRef had.inv (by rw [had.cfg.max]; exact had.lt)]
    have hti : m'.tile i = some t := by rw [had.tile, upd_same]
    rw [hti]
    simp only
    have hgt : GoodTile m'.bits t := by rw [had.cfg.bits]; exact hd t htd had.ok
    have hmax : 0 < t.header.maxLinkCount.toNat := by
      have := had.ok.links
      rcases Nat.eq_zero_or_pos t.header.maxLinkCount.toNat with h0 | h0
      · exact absurd (BitVec.eq_of_toNat_eq (by simpa using h0)) this
      · exact h0
    obtain ⟨lt, c, e, hh, hc⟩ := connectInt_some (m'.tileRef i) t.body.polys hgt.edges
      (fresh_holds t.header.maxLinkCount.toNat hmax t.infoOf t.firstOf fun _ => [])
    rw [Nat.zero_add] at hh hc
    rw [e]
    simp only
    have hold : ∀ j u, s.mesh.tile j = some u → m'.tile j = some u ∧ j ≠ i := by
      intro j u hu
      have hji : j ≠ i := by rintro rfl; rw [had.empty] at hu; simp at hu
      exact ⟨by rw [had.tile, upd_ne _ _ hji]; exact hu, hji⟩
    have href : ∀ j u, s.mesh.tile j = some u → m'.tileRef j = s.mesh.tileRef j := by
      intro j u hu
      unfold Mesh.tileRef
      rw [had.cfg.bits, had.salt j (hold j u hu).2]
    have hnew : ∀ j u, m'.tile j = some u → j = i ∧ u = t ∨ j ≠ i ∧ s.mesh.tile j = some u := by
      intro j u hu
      by_cases hji : j = i
      · subst hji
        rw [hti] at hu
        exact Or.inl ⟨rfl, by simpa using hu.symm⟩
      · rw [had.tile, upd_ne _ _ hji] at hu
        exact Or.inr ⟨hji, hu⟩
    let R : Nat → Nat → List LinkInfo → Prop := fun a p ls => (∀ l ∈ ls, GoodLink m' a p l) ∧
      (a ≠ i → ∃ old new, (s.lk a).links p = some old ∧ ls = new ++ old ∧
        ∀ l ∈ new, (m'.bits.decodeTile l.ref).toNat = i)
    have hR : Closed m' i R := by
      rintro a p ls l ⟨hl1, hl2⟩ ⟨h1, h2⟩
      refine ⟨?_, fun hai => ?_⟩
      · intro x hx
        rcases List.mem_cons.1 hx with rfl | hx
        · exact hl1
        · exact h1 x hx
      · obtain ⟨old, new, e1, rfl, e3⟩ := h2 hai
        refine ⟨old, l :: new, e1, rfl, ?_⟩
        intro x hx
        rcases List.mem_cons.1 hx with rfl | hx
        · obtain ⟨k, u, hu, hk, e⟩ := hl2.resolve_left hai
          rw [hti] at hu
          simp only [Option.some.injEq] at hu
          subst hu
          rw [e]
          exact (encode_index had.inv (by rw [had.cfg.max]; exact had.lt) k
            (by have := hgt.count; omega)).1
        · exact e3 x hx
    have hgood : Good m' R ⟨m', upd s.lk i lt⟩ := by
      refine ⟨rfl, fun j u hu => ?_⟩
      rcases hnew j u hu with ⟨rfl, rfl⟩ | ⟨hji, hu'⟩
      · simp only [upd_same]
        refine ⟨_, c, hh, fun p hp => ⟨fun l hl => ?_, fun hne => absurd rfl hne⟩⟩
        rcases hc p l hp hl with ⟨h0, _⟩ | ⟨k, q, hk, hq, hl⟩
        · omega
        · rw [Nat.zero_add] at hk
          subst hk
          exact internal_good hti hgt hq hl
      · simp only [upd_ne _ _ hji]
        obtain ⟨n, c, h1, h2⟩ := h.good j u hu'
        exact ⟨n, c, h1, fun p hp => ⟨fun l hl =>
          (h2 p hp l hl).mono (fun j t ht => (hold j t ht).1) href,
          fun _ => ⟨c p, [], h1.links hp, rfl, by simp⟩⟩⟩
    have htiles : ∀ a u, m'.tile a = some u → GoodTile m'.bits u := by
      intro a u hu
      rcases hnew a u hu with ⟨rfl, rfl⟩ | ⟨_, hu'⟩
      · exact hgt
      · rw [had.cfg.bits]; exact h.tiles a u hu'
    obtain ⟨s', e', hs'⟩ := linkAll_good hg had.inv htiles hti hR hgood
    rw [e']
    refine ⟨s', rfl, hs'.1, ?_⟩
    obtain ⟨rfl, hs'⟩ := hs'
    refine ⟨⟨had.inv, htiles, fun j => ?_, fun a u hu => ?_⟩, fun a u p hu hp => ?_⟩
    · by_cases hji : j = i
      · subst hji
        by_cases h0 : r = 0#32
        · rw [had.salt0 h0]; exact h.salts j
        · rw [(had.saltR h0).2]; exact hr.resolve_left h0
      · rw [had.salt j hji]; exact h.salts j
    · obtain ⟨n, c, h1, h2⟩ := hs' a u hu
      exact ⟨n, c, h1, fun p hp => (h2 p hp).1⟩
    · obtain ⟨n, c, h1, h2⟩ := hs' a u (hold a u hu).1
      obtain ⟨old, new, e1, e2, e3⟩ := (h2 p hp).2 (hold a u hu).2
      refine ⟨old, new, e1, by rw [h1.links hp, e2], fun l hl => ?_⟩
      apply BitVec.eq_of_toNat_eq
      rw [e3 l hl, decodeTile_tileRef had.inv (by rw [had.cfg.max]; exact had.lt)]

/-! ### Removing -/

theorem good_valid {s : LMesh} (h : LMInv s) {a p : Nat} {l : LinkInfo} (hl : GoodLink s.mesh a p l) :
    s.mesh.isValidPolyRef l.ref = true := by
  obtain ⟨ta, b, u, k, h1, h2, h3, h4, h5, _⟩ := hl
  have hbl : b < s.mesh.maxTiles := by
    obtain ⟨_, _, w⟩ := h.inv; exact w.range b u h2
  obtain ⟨d1, d2, d3, d4⟩ := encode_index h.inv hbl k (by have := (h.tiles b u h2).count; omega)
  rw [valid_iff_decode, h5, d1, d2, d3]
  refine ⟨d4 (h.salts b), hbl, u, h2, rfl, ?_⟩
  obtain ⟨_, _, w⟩ := h.inv
  rw [← unserialize_polys (w.ok b u h2).body]
  exact h4


/-- The table just after the tile has left its hash chain. -/
theorem unhash_tilesAt {m : Mesh} (hi : Inv m) {i : Nat} {t : Tile} (ht : m.tile i = some t) :
    ∃ mid, m.unhash i t = some mid ∧ mid.bits = m.bits ∧ mid.salt = m.salt ∧ mid.tile = m.tile ∧
      ∀ x y, ∃ l : List Nat, mid.tilesAt x y 32 = some (l.take 32) ∧ l.Nodup ∧
        ∀ j, j ∈ l ↔ j ≠ i ∧ ∃ u, m.tile j = some u ∧ u.header.x = x ∧ u.header.y = y := by
  obtain ⟨free, bucket, w⟩ := hi
  unfold Mesh.unhash
  simp only
  generalize hg : tileHash m.lutMask t.header.x t.header.y = g at *
  have hmem : i ∈ bucket g := (w.bucket_iff g i).2 ⟨w.range i t ht, t, ht, hg⟩
  obtain ⟨l₁, l₂, hl⟩ := List.append_of_mem hmem
  have hc := w.cpos g
  have hlen := w.bucket_len g
  rw [hl] at hc hlen
  rw [walkTo_mem' hc hlen]
  simp only
  refine ⟨_, rfl, rfl, rfl, rfl, ?_⟩
  intro x y
  have hl1 : ∀ a ∈ l₁, a ∈ bucket g := fun a ha => by rw [hl]; simp [ha]
  have hnd := hc.nodup
  have hni : i ∉ l₁ ++ l₂ := by
    intro hk'
    rw [List.nodup_append] at hnd
    rcases List.mem_append.1 hk' with hk' | hk'
    · exact hnd.2.2 i hk' i (by simp) rfl
    · exact (List.nodup_cons.1 hnd.2.1).1 hk'
  have hchain : ∀ h, Chain (unlinkAt m.next (m.pos g) l₁.getLast? i).1
      (upd m.pos g (unlinkAt m.next (m.pos g) l₁.getLast? i).2 h) (upd bucket g (l₁ ++ l₂) h) := by
    intro h
    by_cases hh : h = g
    · subst hh
      simp only [upd_same]
      exact unlinkAt_chain hc
    · simp only [upd_ne _ _ hh]
      exact (w.cpos h).congr fun a ha => unlinkAt_frame fun h1 => w.disj' (hl1 a h1) hh ha
  have hmem' : ∀ h j, j ∈ upd bucket g (l₁ ++ l₂) h ↔ j ∈ bucket h ∧ j ≠ i := by
    intro h j
    by_cases hh : h = g
    · subst hh
      rw [upd_same, hl]
      constructor
      · intro hj
        refine ⟨?_, by rintro rfl; exact hni hj⟩
        rcases List.mem_append.1 hj with h | h <;> simp [h]
      · rintro ⟨hj, hne⟩
        simpa [hne] using hj
    · rw [upd_ne _ _ hh]
      exact ⟨fun hj => ⟨hj, by rintro rfl; exact w.disj' hmem hh hj⟩, fun h => h.1⟩
  refine ⟨_, by
    unfold Mesh.tilesAt
    simp only
    rw [walkCollect_eq (hchain _) ((hchain _).length_le fun a ha =>
      ((w.bucket_iff _ a).1 ((hmem' _ a).1 ha).1).1)]
    rfl, (hchain _).nodup.filter _, ?_⟩
  intro j
  rw [List.mem_filter, hmem', w.bucket_iff]
  unfold Mesh.atCell
  constructor
  · rintro ⟨⟨⟨_, u, hu, _⟩, hne⟩, h⟩
    simp only [hu] at h
    exact ⟨hne, u, hu, by simpa using h⟩
  · rintro ⟨hne, u, hu, hx, hy⟩
    refine ⟨⟨⟨w.range j u hu, u, hu, by rw [hx, hy]⟩, hne⟩, ?_⟩
    simp only [hu]
    simp [hx, hy]

/-- With layer numbers below 32 no cell has more than 32 tiles. -/
theorem cell_le {m : Mesh} (hi : Inv m) (hall : ∀ a t, m.tile a = some t → t.header.layer.toNat < 32)
    (l : List Nat) (hnd : l.Nodup) (x y : U32)
    (hl : ∀ j ∈ l, ∃ u, m.tile j = some u ∧ u.header.x = x ∧ u.header.y = y) : l.length ≤ 32 := by
  obtain ⟨free, bucket, w⟩ := hi
  let f : Nat → Nat := fun j => match m.tile j with | none => 0 | some u => u.header.layer.toNat
  have hf : (l.map f).Nodup := by
    rw [List.nodup_map_iff_inj_on hnd]
    intro a ha b hb hab
    obtain ⟨u, hu, hx, hy⟩ := hl a ha
    obtain ⟨v, hv, hx', hy'⟩ := hl b hb
    simp only [f, hu, hv] at hab
    exact w.uniq a b u v hu hv (hx.trans hx'.symm) (hy.trans hy'.symm) (BitVec.eq_of_toNat_eq hab)
  have hsub : l.map f ⊆ List.range 32 := by
    intro k hk
    obtain ⟨a, ha, rfl⟩ := List.mem_map.1 hk
    obtain ⟨u, hu, _⟩ := hl a ha
    rw [List.mem_range]
    simp only [f, hu]
    exact hall a u hu
  have := (List.subperm_of_subset hf hsub).length_le
  simpa using this

/-- Links that do not lead into slot `i`. -/
def keeps (b : IdBits) (i : Nat) (l : LinkInfo) : Bool := decide ((b.decodeTile l.ref).toNat ≠ i)

/-- Progress of `unlinkAll` from the lists `base`: pools intact, each list untouched or rid of its
links to slot `i`, and surely rid of them for the tiles in `V`. -/
def Cutting (m : Mesh) (base : Nat → Nat → List LinkInfo) (i : Nat) (V : Nat → Prop)
    (lk : Nat → LTile) : Prop :=
  ∀ a t, m.tile a = some t → ∃ n c, Holds (lk a) t.body.polys.length n c ∧
    ∀ p, p < t.body.polys.length →
      (c p = base a p ∨ c p = (base a p).filter (keeps m.bits i)) ∧
      (V a → c p = (base a p).filter (keeps m.bits i))

theorem unconnect_cutting {m : Mesh} (hi : Inv m) {base : Nat → Nat → List LinkInfo} {i : Nat}
    (hil : i < m.maxTiles) {V : Nat → Prop} {lk : Nat → LTile} (h : Cutting m base i V lk) {mid : Mesh} (hb : mid.bits = m.bits)
    (hs : mid.salt = m.salt) (ht : mid.tile = m.tile) {j : Nat} {t : Tile}
    (hj : m.tile j = some t) :
    ∃ lk', unconnect mid i lk j = some lk' ∧ Cutting m base i (fun a => V a ∨ a = j) lk' := by
  obtain ⟨n, c, hh, hc⟩ := h j t hj
  have hP : mid.polysOf j = t.body.polys := by unfold Mesh.polysOf; rw [ht, hj]
  have href : mid.tileRef i = m.tileRef i := by unfold Mesh.tileRef; rw [hb, hs]
  obtain ⟨t', e, h'⟩ := hh.cut fun l => mid.bits.decodeTile l.ref == mid.bits.decodeTile (mid.tileRef i)
  refine ⟨upd lk j t', by unfold unconnect; rw [hP, e]; rfl, ?_⟩
  intro a u hu
  by_cases haj : a = j
  · subst haj
    rw [hj] at hu
    simp only [Option.some.injEq] at hu
    subst hu
    rw [upd_same]
    have hkeep : (fun l : LinkInfo =>
        !(mid.bits.decodeTile l.ref == mid.bits.decodeTile (mid.tileRef i))) = keeps m.bits i := by
      funext l
      rw [hb, href]
      unfold keeps
      rw [Bool.eq_iff_iff]
      simp only [Bool.not_eq_true', beq_eq_false_iff_ne, decide_eq_true_eq, ne_eq]
      rw [not_iff_not]
      constructor
      · intro e; rw [e, decodeTile_tileRef hi hil]
      · intro e
        apply BitVec.eq_of_toNat_eq
        rw [e, decodeTile_tileRef hi hil]
    have key : ∀ p, p < t.body.polys.length →
        specLink n t.body.polys.length c (.cut fun l =>
          mid.bits.decodeTile l.ref == mid.bits.decodeTile (mid.tileRef i)) p =
          (base a p).filter (keeps m.bits i) := by
      intro p hp
      simp only [specLink]
      rw [hkeep]
      rcases (hc p hp).1 with e | e <;> rw [e]
      rw [List.filter_filter]
      simp
    exact ⟨n, _, h', fun p hp => ⟨Or.inr (key p hp), fun _ => key p hp⟩⟩
  · rw [upd_ne _ _ haj]
    obtain ⟨n, c, h1, h2⟩ := h a u hu
    exact ⟨n, c, h1, fun p hp => ⟨(h2 p hp).1, fun hv => (h2 p hp).2 (hv.resolve_right haj)⟩⟩

theorem Cutting.mono {m : Mesh} {base : Nat → Nat → List LinkInfo} {i : Nat} {V W : Nat → Prop} {lk : Nat → LTile}
    (h : Cutting m base i V lk) (hw : ∀ a, W a → V a) : Cutting m base i W lk := by
  intro a t ht
  obtain ⟨n, c, h1, h2⟩ := h a t ht
  exact ⟨n, c, h1, fun p hp => ⟨(h2 p hp).1, fun hv => (h2 p hp).2 (hw a hv)⟩⟩

theorem unconnect_list {m : Mesh} (hi : Inv m) {base : Nat → Nat → List LinkInfo} {i : Nat} (hil : i < m.maxTiles)
    {mid : Mesh} (hb : mid.bits = m.bits) (hs : mid.salt = m.salt) (ht : mid.tile = m.tile)
    (l : List Nat) : ∀ {V : Nat → Prop} {lk : Nat → LTile},
      (∀ j ∈ l, ∃ u, m.tile j = some u) → Cutting m base i V lk →
      ∃ lk', l.foldlM (unconnect mid i) lk = some lk' ∧ Cutting m base i (fun a => V a ∨ a ∈ l) lk' := by
  induction l with
  | nil => intro V lk _ h; exact ⟨lk, rfl, h.mono fun a ha => by simpa using ha⟩
  | cons j l ih =>
    intro V lk hl h
    obtain ⟨u, hu⟩ := hl j (by simp)
    obtain ⟨lk1, e1, h1⟩ := unconnect_cutting hi hil h hb hs ht hu
    obtain ⟨lk2, e2, h2⟩ := ih (fun x hx => hl x (by simp [hx])) h1
    refine ⟨lk2, by rw [List.foldlM_cons, e1]; exact e2, h2.mono fun a ha => ?_⟩
    rcases ha with ha | ha
    · exact Or.inl (Or.inl ha)
    · rcases List.mem_cons.1 ha with rfl | ha
      · exact Or.inl (Or.inr rfl)
      · exact Or.inr ha

/-- Cells visited by `unlinkAll` in its side loop. -/
theorem unlink_sides {m : Mesh} (hi : Inv m) {base : Nat → Nat → List LinkInfo}
    (hall : ∀ a t, m.tile a = some t → t.header.layer.toNat < 32) {i : Nat} {t : Tile}
    (hti : m.tile i = some t) {mid : Mesh} (hb : mid.bits = m.bits) (hs : mid.salt = m.salt)
    (ht : mid.tile = m.tile)
    (hat : ∀ x y, ∃ l : List Nat, mid.tilesAt x y 32 = some (l.take 32) ∧ l.Nodup ∧
        ∀ j, j ∈ l ↔ j ≠ i ∧ ∃ u, m.tile j = some u ∧ u.header.x = x ∧ u.header.y = y)
    (ds : List Nat) : ∀ {V : Nat → Prop} {lk : Nat → LTile}, Cutting m base i V lk →
      ∃ lk', ds.foldlM (fun lk d => (mid.neighboursAt t.header.x t.header.y d 32).bind fun neis =>
          neis.foldlM (unconnect mid i) lk) lk = some lk' ∧
        Cutting m base i (fun a => V a ∨ (a ≠ i ∧ ∃ u d, d ∈ ds ∧ m.tile a = some u ∧
          u.header.x = t.header.x + sideX d ∧ u.header.y = t.header.y + sideY d)) lk' := by
  have hil : i < m.maxTiles := by obtain ⟨_, _, w⟩ := hi; exact w.range i t hti
  induction ds with
  | nil => intro V lk h; exact ⟨lk, rfl, h.mono fun a ha => by simpa using ha⟩
  | cons d ds ih =>
    intro V lk h
    obtain ⟨l, e, hnd, hl⟩ := hat (t.header.x + sideX d) (t.header.y + sideY d)
    have hlen : l.length ≤ 32 := cell_le hi hall l hnd _ _ fun j hj => ((hl j).1 hj).2
    rw [List.take_of_length_le hlen] at e
    obtain ⟨lk1, e1, h1⟩ := unconnect_list hi hil hb hs ht l
      (fun j hj => by obtain ⟨_, u, hu, _⟩ := (hl j).1 hj; exact ⟨u, hu⟩) h
    obtain ⟨lk2, e2, h2⟩ := ih h1
    refine ⟨lk2, ?_, h2.mono fun a ha => ?_⟩
    · rw [List.foldlM_cons]
      unfold Mesh.neighboursAt
      rw [e, Option.bind_some, e1]
      exact e2
    · rcases ha with ha | ⟨hne, u, d', hd', hu, hx, hy⟩
      · exact Or.inl (Or.inl ha)
      · rcases List.mem_cons.1 hd' with rfl | hd'
        · exact Or.inl (Or.inr ((hl a).2 ⟨hne, u, hu, hx, hy⟩))
        · exact Or.inr ⟨hne, u, d', hd', hu, hx, hy⟩

/-- A link that led somewhere valid still does, unless it led to the removed tile. -/
theorem GoodLink.keep {s : LMesh} (h : LMInv s) {m' : Mesh} {ref : U32} {i : Nat} {t : Tile}
    (hr : Removed s.mesh m' ref i t) {a p : Nat} {u : Tile} (hu : m'.tile a = some u) {l : LinkInfo}
    (hl : GoodLink s.mesh a p l) (hk : keeps s.mesh.bits i l = true) : GoodLink m' a p l := by
  have hai : a ≠ i := by rintro rfl; simp [hr.tile] at hu
  rw [hr.tile, upd_ne _ _ hai] at hu
  obtain ⟨ta, b, v, k, k1, k2, k3, k4, k5, k6⟩ := hl
  have hbl : b < s.mesh.maxTiles := by
    obtain ⟨_, _, w⟩ := h.inv; exact w.range b v k2
  have hdec : (s.mesh.bits.decodeTile l.ref).toNat = b := by
    rw [k5]
    exact (encode_index h.inv hbl k (by have := (h.tiles b v k2).count; omega)).1
  have hbi : b ≠ i := by
    unfold keeps at hk
    rw [hdec] at hk
    simpa using hk
  refine ⟨ta, b, v, k, ?_, ?_, k3, k4, ?_, k6⟩
  · rw [hr.tile, upd_ne _ _ hai]; exact k1
  · rw [hr.tile, upd_ne _ _ hbi]; exact k2
  · rw [k5]
    unfold Mesh.tileRef
    rw [hr.cfg.bits, hr.salt, upd_ne _ _ hbi]

/-- Spec: in going from `s` to `s'`, the polygons of the tiles that are still there have lost the
links that are no longer valid references, and nothing else. -/
def Shrunk (s s' : LMesh) : Prop :=
  ∀ a t p, s'.mesh.tile a = some t → p < t.body.polys.length →
    ∃ old, (s.lk a).links p = some old ∧
      (s'.lk a).links p = some (old.filter fun l => s'.mesh.isValidPolyRef l.ref)

theorem removeTile_links {s : LMesh} (h : LMInv s) {ref : U32} {d : Bytes} {st : Status} {m' : Mesh}
    (ha : s.mesh.removeTile ref = .ok (d, st, m')) :
    ∃ s', s.removeTile ref = .ok (d, st, s') ∧ s'.mesh = m' ∧ LMInv s' ∧ Shrunk s s' := by
  unfold LMesh.removeTile
  rw [ha]
  rcases removeTile_cases h.inv ha with ⟨rfl, rfl⟩ | ⟨rfl, i, t, _, hr⟩
  · simp only
    rw [if_neg (by decide)]
    refine ⟨_, rfl, rfl, h, ?_⟩
    intro a t p ht hp
    obtain ⟨n, c, h1, h2⟩ := h.good a t ht
    refine ⟨c p, h1.links hp, ?_⟩
    rw [h1.links hp, List.filter_eq_self.2 fun l hl => good_valid h (h2 p hp l hl)]
  · simp only
    rw [if_true, ← hr.idx, hr.old]
    simp only
    obtain ⟨mid, e, hb, hs, ht, hat⟩ := unhash_tilesAt h.inv hr.old
    rw [e]
    simp only
    have hlay : ∀ a t, s.mesh.tile a = some t → t.header.layer.toNat < 32 :=
      fun a t ht => (h.tiles a t ht).layer
    let base : Nat → Nat → List LinkInfo := fun a p => ((s.lk a).links p).getD []
    have hbase : ∀ a u, s.mesh.tile a = some u → ∀ p, p < u.body.polys.length →
        (s.lk a).links p = some (base a p) ∧ ∀ l ∈ base a p, GoodLink s.mesh a p l := by
      intro a u hu p hp
      obtain ⟨n, c, h1, h2⟩ := h.good a u hu
      simp only [base, h1.links hp, Option.getD_some]
      exact ⟨trivial, h2 p hp⟩
    have h0 : Cutting s.mesh base i (fun _ => False) s.lk := by
      intro a u hu
      obtain ⟨n, c, h1, h2⟩ := h.good a u hu
      refine ⟨n, c, h1, fun p hp => ⟨Or.inl ?_, fun hf => hf.elim⟩⟩
      simp only [base, h1.links hp, Option.getD_some]
    obtain ⟨l, el, hnd, hl⟩ := hat t.header.x t.header.y
    have hlen : l.length ≤ 32 := cell_le h.inv hlay l hnd _ _ fun j hj => ((hl j).1 hj).2
    rw [List.take_of_length_le hlen] at el
    obtain ⟨lk1, e1, h1⟩ := unconnect_list h.inv hr.lt hb hs ht l
      (fun j hj => by obtain ⟨_, u, hu, _⟩ := (hl j).1 hj; exact ⟨u, hu⟩) h0
    have e1' : l.foldlM (fun lk j => if j = i then some lk else unconnect mid i lk j) s.lk
        = some lk1 := by
      rw [← e1]
      clear e1 el hlen hnd h1
      generalize s.lk = lk0
      have hni : ∀ j ∈ l, j ≠ i := fun j hj => ((hl j).1 hj).1
      clear hl
      induction l generalizing lk0 with
      | nil => rfl
      | cons j l ih =>
        rw [List.foldlM_cons, List.foldlM_cons, if_neg (hni j (by simp))]
        cases unconnect mid i lk0 j with
        | none => rfl
        | some lk => exact ih lk fun x hx => hni x (by simp [hx])
    obtain ⟨lk2, e2, h2⟩ := unlink_sides h.inv hlay hr.old hb hs ht hat (List.range 8) h1
    have eall : unlinkAll mid i t s.lk = some lk2 := by
      unfold unlinkAll
      rw [el, Option.bind_some, e1', Option.bind_some]
      exact e2
    rw [eall]
    have hfin : ∀ a u, m'.tile a = some u → s.mesh.tile a = some u ∧ ∃ n c,
        Holds (lk2 a) u.body.polys.length n c ∧ ∀ p, p < u.body.polys.length →
          c p = (base a p).filter (keeps s.mesh.bits i) := by
      intro a u hu'
      have hai : a ≠ i := by rintro rfl; simp [hr.tile] at hu'
      have hu := hu'
      rw [hr.tile, upd_ne _ _ hai] at hu
      obtain ⟨n, c, c1, c2⟩ := h2 a u hu
      refine ⟨hu, n, c, c1, fun p hp => ?_⟩
      by_cases hnear : Near t u
      · apply (c2 p hp).2
        rcases hnear with ⟨_ | d, hn⟩
        · obtain ⟨hx, hy⟩ := hn
          exact Or.inl (Or.inr ((hl a).2 ⟨hai, u, hu, hx, hy⟩))
        · obtain ⟨hd, hx, hy⟩ := hn
          exact Or.inr ⟨hai, u, d, List.mem_range.2 hd, hu, hx, hy⟩
      · rcases (c2 p hp).1 with e | e
        · rw [e, List.filter_eq_self.2]
          intro x hx
          obtain ⟨ta, b, v, k, k1, k2, k3, k4, k5, _⟩ := (hbase a u hu p hp).2 x hx
          rw [hu] at k1
          simp only [Option.some.injEq] at k1
          subst k1
          have hbl : b < s.mesh.maxTiles := by
            obtain ⟨_, _, w⟩ := h.inv; exact w.range b v k2
          unfold keeps
          rw [k5, (encode_index h.inv hbl k (by have := (h.tiles b v k2).count; omega)).1]
          rw [decide_eq_true_eq]
          rintro rfl
          rw [hr.old] at k2
          simp only [Option.some.injEq] at k2
          subst k2
          exact hnear k3.symm
        · exact e
    have hinv : LMInv ⟨m', lk2⟩ := by
      refine ⟨hr.inv, ?_, ?_, ?_⟩
      · intro a u hu
        rw [hr.cfg.bits]
        exact h.tiles a u (hfin a u hu).1
      · intro j
        simp only [hr.salt]
        by_cases hji : j = i
        · subst hji; rw [upd_same]; exact bumpSalt_ne _
        · rw [upd_ne _ _ hji]; exact h.salts j
      · intro a u hu
        obtain ⟨hu', n, c, c1, c2⟩ := hfin a u hu
        refine ⟨n, c, c1, fun p hp x hx => ?_⟩
        rw [c2 p hp, List.mem_filter] at hx
        exact ((hbase a u hu' p hp).2 x hx.1).keep h hr hu hx.2
    refine ⟨⟨m', lk2⟩, rfl, rfl, hinv, ?_⟩
    intro a u p hu hp
    obtain ⟨hu', n, c, c1, c2⟩ := hfin a u hu
    refine ⟨base a p, (hbase a u hu' p hp).1, ?_⟩
    rw [c1.links hp, c2 p hp]
    congr 1
    apply List.filter_congr
    intro x hx
    have hgl := (hbase a u hu' p hp).2 x hx
    by_cases hk : keeps s.mesh.bits i x = true
    · rw [hk]
      exact (good_valid hinv (hgl.keep h hr hu hk)).symm
    · have hk' : (s.mesh.bits.decodeTile x.ref).toNat = i := by
        unfold keeps at hk; simpa using hk
      rw [Bool.eq_false_iff.2 hk]
      symm
      rw [Bool.eq_false_iff]
      intro hv
      rw [valid_iff_decode] at hv
      obtain ⟨_, _, v, hv, _⟩ := hv
      rw [hr.cfg.bits, hk', hr.tile, upd_same] at hv
      simp at hv

/-! ## Property -/

theorem run_links {s : LMesh} (h : LMInv s) (ops : List LMOp) :
    ∀ {os m'}, (∀ op ∈ ops, GoodOp s.mesh.bits op) → Detour.run s.mesh (ops.map LMOp.op) = .ok (os, m') →
      ∃ s', LMesh.run ops s = .ok s' ∧ s'.mesh = m' ∧ LMInv s' := by
  induction ops generalizing s with
  | nil =>
    intro os m' _ hr
    simp only [List.map_nil, Detour.run, Out.ok.injEq, Prod.mk.injEq] at hr
    exact ⟨s, rfl, hr.2, h⟩
  | cons op ops ih =>
    intro os m' hg hr
    rw [List.map_cons] at hr
    obtain ⟨o, m1, os', h1, h2, _⟩ := run_cons hr
    have hcfg := (step_inv h.inv h1).2
    have hstep : ∃ s1, s.step op = .ok s1 ∧ s1.mesh = m1 ∧ LMInv s1 := by
      cases op with
      | add g d r =>
        simp only [LMOp.op, Detour.step] at h1
        split at h1 <;> try (simp at h1; done)
        rename_i st ref m2 ha
        simp only [Out.ok.injEq, Prod.mk.injEq] at h1
        obtain ⟨_, rfl⟩ := h1
        obtain ⟨s1, e, hm, hi, _⟩ := addTile_links h (hg (.add g d r) (by simp)) ha
        exact ⟨s1, by simp only [LMesh.step, e], hm, hi⟩
      | remove r =>
        simp only [LMOp.op, Detour.step] at h1
        split at h1 <;> try (simp at h1; done)
        rename_i d st m2 ha
        simp only [Out.ok.injEq, Prod.mk.injEq] at h1
        obtain ⟨_, rfl⟩ := h1
        obtain ⟨s1, e, hm, hi, _⟩ := removeTile_links h ha
        exact ⟨s1, by simp only [LMesh.step, e], hm, hi⟩
    obtain ⟨s1, e1, rfl, hi1⟩ := hstep
    obtain ⟨s2, e2, hm2, hi2⟩ := ih hi1
      (fun op hop => by rw [hcfg.bits]; exact hg op (by simp [hop])) h2
    exact ⟨s2, by rw [LMesh.run, e1]; exact e2, hm2, hi2⟩

/-- A mesh with links that comes from a fresh one by admissible calls. -/
def LReach (s : LMesh) : Prop :=
  ∃ p m0 lk0 ops os, Fresh p m0 ∧ (∀ op ∈ ops, GoodOp m0.bits op) ∧
    Detour.run m0 (ops.map LMOp.op) = .ok (os, s.mesh) ∧ LMesh.run ops ⟨m0, lk0⟩ = .ok s

theorem fresh_links {p : NavMeshParams} {m0 : Mesh} (hf : Fresh p m0) (lk0 : Nat → LTile) :
    LMInv ⟨m0, lk0⟩ := by
  refine ⟨⟨_, _, hf.inv⟩, ?_, ?_, ?_⟩
  · intro a t ht
    have := hf.empty a
    simp only at ht
    rw [this] at ht; simp at ht
  · intro i
    obtain ⟨st, h1, _⟩ := hf.init
    unfold Mesh.init at h1
    split at h1
    · simp at h1
    · simp only [Out.ok.injEq, Prod.mk.injEq] at h1
      rw [← h1.2]
      exact (by decide : (1#32 : U32) ≠ 0#32)
  · intro a t ht
    have := hf.empty a
    simp only at ht
    rw [this] at ht; simp at ht

theorem LReach.inv {s : LMesh} (h : LReach s) : LMInv s := by
  obtain ⟨p, m0, lk0, ops, os, hf, hg, hr, he⟩ := h
  obtain ⟨s', e, _, hs⟩ := run_links (fresh_links hf lk0) ops hg hr
  rw [he] at e
  simp only [Out.ok.injEq] at e
  rw [e]; exact hs

/-- **C80**: take any history of `AddTile` and `RemoveTile` calls that the tile table accepts, with
well-formed tiles of fewer than 32 layers and whatever geometric decisions are made on the way. Then
link building and removal never crash, and in the resulting mesh every link of every polygon leads to
a reference that `IsValidPolyRef` accepts; in particular no link to a removed tile survives. -/
theorem links_valid_partial {p : NavMeshParams} {m0 m : Mesh} (hf : Fresh p m0) (lk0 : Nat → LTile)
    (ops : List LMOp) (hg : ∀ op ∈ ops, GoodOp m0.bits op) {os : List Obs}
    (hrun : Detour.run m0 (ops.map LMOp.op) = .ok (os, m)) :
    ∃ s, LMesh.run ops ⟨m0, lk0⟩ = .ok s ∧ s.mesh = m ∧
      ∀ a t i, m.tile a = some t → i < t.body.polys.length →
        ∃ ls, (s.lk a).links i = some ls ∧ ∀ l ∈ ls, m.isValidPolyRef l.ref = true := by
  obtain ⟨s, e, rfl, hs⟩ := run_links (fresh_links hf lk0) ops hg hrun
  refine ⟨s, e, rfl, fun a t i ht hi => ?_⟩
  obtain ⟨n, c, h1, h2⟩ := hs.good a t ht
  exact ⟨c i, h1.links hi, fun l hl => good_valid hs (h2 i hi l hl)⟩

/-- **C81**: after any such history, every link of every polygon `p` of a tile `t` has one of the
reasons of `Origin` to be there: its target is a polygon of a populated slot, and it comes from the
polygon's own internal or portal edge of that number (then the target lies on the side that edge
faces), or from an off-mesh connection of one of the two tiles that starts or ends there, in the
direction from the end back to the connection only if the connection is bidirectional. -/
theorem links_have_reason {s : LMesh} (h : LReach s) {a i : Nat} {t : Tile} {ls : List LinkInfo}
    (ht : s.mesh.tile a = some t) (hi : i < t.body.polys.length) (hls : (s.lk a).links i = some ls)
    {l : LinkInfo} (hl : l ∈ ls) :
    ∃ b u k, s.mesh.tile b = some u ∧ k < u.body.polys.length ∧
      l.ref = s.mesh.tileRef b ||| BitVec.ofNat 32 k ∧ Origin (a = b) t i u k l := by
  obtain ⟨n, c, h1, h2⟩ := h.inv.good a t ht
  rw [h1.links hi] at hls
  simp only [Option.some.injEq] at hls
  subst hls
  obtain ⟨ta, b, u, k, k1, k2, k3, k4, k5, k6⟩ := h2 i hi l hl
  rw [ht] at k1
  simp only [Option.some.injEq] at k1
  subst k1
  exact ⟨b, u, k, k2, k4, k5, k6⟩

/-- **C79**: `AddTile` leaves the links that are there alone: in every polygon that existed before,
the old links are still there in the same order, and the links put in front of them all lead into the
new tile. -/
theorem add_keeps_links {s : LMesh} (h : LReach s) {g : Geo} {d : Bytes} {r ref : U32} {st : Status}
    {m' : Mesh} (hop : GoodOp s.mesh.bits (.add g d r))
    (ha : s.mesh.addTile d r = .ok (st, ref, m')) :
    ∃ s', s.addTile g d r = .ok (st, ref, s') ∧
      ∀ a t p, s.mesh.tile a = some t → p < t.body.polys.length →
        ∃ old new, (s.lk a).links p = some old ∧ (s'.lk a).links p = some (new ++ old) ∧
          ∀ l ∈ new, s'.mesh.bits.decodeTile l.ref = s'.mesh.bits.decodeTile ref := by
  obtain ⟨s', e, _, _, hgr⟩ := addTile_links h.inv hop ha
  exact ⟨s', e, hgr⟩

/-- **C10**: `RemoveTile` takes away exactly the links that are no longer valid: in every polygon of
every remaining tile the links afterwards are the old links, in order, without those whose reference
`IsValidPolyRef` now rejects. -/
theorem remove_drops_links {s : LMesh} (h : LReach s) {ref : U32} {d : Bytes} {st : Status}
    {m' : Mesh} (ha : s.mesh.removeTile ref = .ok (d, st, m')) :
    ∃ s', s.removeTile ref = .ok (d, st, s') ∧ s'.mesh = m' ∧
      ∀ a t p, m'.tile a = some t → p < t.body.polys.length →
        ∃ old, (s.lk a).links p = some old ∧
          (s'.lk a).links p = some (old.filter fun l => m'.isValidPolyRef l.ref) := by
  obtain ⟨s', e, rfl, _, hsh⟩ := removeTile_links h.inv ha
  exact ⟨s', e, rfl, hsh⟩

/-! ## Witnesses -/

theorem TileOK.unique {t u : Tile} (ht : TileOK t) (hu : TileOK u) (h : t.data = u.data) : t = u := by
  have h1 := ht.hdr
  rw [h, hu.hdr] at h1
  simp only [Option.some.injEq] at h1
  have h2 := ht.body
  rw [h, ← h1, hu.body] at h2
  simp only [Option.some.injEq] at h2
  cases t; cases u
  simp_all

theorem goodOp_of {b : IdBits} {g : Geo} {d : Bytes} {t : Tile} (hg : g.OK) (hd : t.data = d)
    (ht : TileOK t) (hgt : GoodTile b t) : GoodOp b (.add g d 0#32) :=
  ⟨hg, Or.inl rfl, fun u hu hok => by rw [hok.unique ht (hu.trans hd.symm)]; exact hgt⟩

/-- Header of a tile at `(x, 0, layer)` with one polygon and four link slots. -/
def edgeHeader (x layer : U32) : MeshHeader :=
  ⟨navMeshMagic, navMeshVersion, x, 0, layer, 0, 1, 0, 4, 0, 0, 0, 0, 0, 0, 0, 0, 0, 0, 0, 0, 0, 0, 0, 0⟩

/-- A triangle with one portal edge per given side. -/
def edgePoly (n0 n1 : U16) : Poly := ⟨0, [0, 0, 0, 0, 0, 0], [n0, n1, 0, 0, 0, 0], 0, 3, 0⟩

def edgeData (x layer : U32) (n0 n1 : U16) : Bytes :=
  (edgeHeader x layer).words.flatMap le32 ++ encPoly (edgePoly n0 n1) ++ zeros 48

def edgeTile (x layer : U32) (n0 n1 : U16) : Tile :=
  ⟨edgeHeader x layer, ⟨[], [edgePoly n0 n1], List.replicate 4 ⟨0, 0, 0, 0, 0, 0⟩, [], [], [], [], []⟩,
    edgeData x layer n0 n1⟩

/-- Every portal edge touches everything; connections land nowhere. -/
def allTouch : Geo := ⟨fun _ _ _ _ _ _ => some (0, 255), fun _ _ _ _ _ => none⟩

theorem allTouch_ok : allTouch.OK := by intro s a b c e k h; simp [allTouch] at h

set_option maxRecDepth 100000 in
theorem edgeTile_ok : TileOK (edgeTile 5 0 0x8000 0x8004) ∧ TileOK (edgeTile 6 0 0x8000 0x8004) :=
  ⟨⟨rfl, rfl, by decide, rfl, rfl⟩, ⟨rfl, rfl, by decide, rfl, rfl⟩⟩

theorem edgeTile_good (x : U32) : GoodTile smallMesh.bits (edgeTile x 0 0x8000 0x8004) := by
  refine ⟨by show 1 ≤ _; decide, ?_, ?_, ?_, ?_, by show (0#32 : U32).toNat < 32; decide⟩
  · intro p hp
    simp only [edgeTile, List.mem_singleton] at hp
    subst hp
    exact ⟨rfl, by decide⟩
  · intro p hp
    simp only [edgeTile, List.mem_singleton] at hp
    subst hp
    decide
  · intro p hp ne hne hi
    simp only [edgeTile, List.mem_singleton] at hp
    subst hp
    simp only [edgePoly, List.mem_cons, List.not_mem_nil, or_false] at hne
    rcases hne with rfl | rfl | rfl | rfl | rfl | rfl <;> simp [internal] at hi
  · intro c hc; simp [edgeTile] at hc

/-- Two neighbouring tiles that touch, one of them removed again. -/
def edgeOps : List LMOp :=
  [.add allTouch (edgeData 5 0 0x8000 0x8004) 0#32, .add allTouch (edgeData 6 0 0x8000 0x8004) 0#32]

theorem edgeOps_good : ∀ op ∈ edgeOps, GoodOp smallMesh.bits op := by
  intro op hop
  simp only [edgeOps, List.mem_cons, List.not_mem_nil, or_false] at hop
  rcases hop with rfl | rfl
  · exact goodOp_of allTouch_ok rfl edgeTile_ok.1 (edgeTile_good 5)
  · exact goodOp_of allTouch_ok rfl edgeTile_ok.2 (edgeTile_good 6)

set_option maxRecDepth 100000 in
/-- The hypotheses of C10, C79, C80 and C81 are met by a history in which links are built in both
tiles and removed with their target: tile 0 has one link, to tile 1, and none once tile 1 is removed. -/
example : ∃ s s', LReach s ∧
    (s.lk 0).links 0 = some [⟨80#32, 0, 0, 0, 255⟩] ∧
    (s.lk 1).links 0 = some [⟨64#32, 1, 4, 0, 255⟩] ∧
    s.removeTile 80#32 = .ok (edgeData 6 0 0x8000 0x8004, Status.success, s') ∧
    (s'.lk 0).links 0 = some [] :=
  ⟨_, _, ⟨smallParams, smallMesh, fun _ => .fresh 0 (fun _ => ⟨0, 0, 0, 0, 0⟩) fun _ => none, edgeOps, _,
    smallMesh_fresh, edgeOps_good, rfl, rfl⟩, rfl, rfl, rfl, rfl⟩

/-- A fresh mesh with 64 tiles of 16 polygons. -/
def bigMesh : Mesh :=
  { maxTiles := 64, bits := (initBits 64#32 16#32).2, lutMask := lutSize 64#32 - 1#32,
    salt := fun _ => 1#32, next := (initLoop 64 (fun _ => none) none).1, tile := fun _ => none,
    nextFree := (initLoop 64 (fun _ => none) none).2, pos := fun _ => none }

theorem bigMesh_fresh : Fresh ⟨0, 0, 0, 0, 0, 64#32, 16#32⟩ bigMesh := by
  refine ⟨⟨(initBits 64#32 16#32).1, ?_, by decide⟩, by decide, by decide, by decide, by decide⟩
  unfold Mesh.init
  rw [if_neg (by decide)]
  rfl

/-- Only the tiles in slots 0 and 1 touch. -/
def pairTouch : Geo :=
  ⟨fun _ a _ _ b _ => if a + b = 1 then some (0, 255) else none, fun _ _ _ _ _ => none⟩

/-- 34 layers in one cell, then the second one removed. -/
def layerOps : List LMOp :=
  (List.range 34).map (fun l => .add pairTouch (edgeData 0 (BitVec.ofNat 32 l) 0x8000 0) 0#32)
    ++ [.remove 1040#32]

set_option maxRecDepth 1000000 in
/-- **C10**, **C80** refuted in full generality: `AddTile` accepts any number of layers in one grid cell, but
`RemoveTile` looks at no more than 32 of them (detour/mesh.go:489-500). With 34 layers, of which 0 and
1 are connected, removing layer 1 leaves layer 0 with a link to an invalid reference. -/
theorem links_valid_refuted : ∃ p m0 lk0 ops os m s a t l, Fresh p m0 ∧
    Detour.run m0 (ops.map LMOp.op) = .ok (os, m) ∧ LMesh.run ops ⟨m0, lk0⟩ = .ok s ∧ s.mesh = m ∧
    m.tile a = some t ∧ 0 < t.body.polys.length ∧ (s.lk a).links 0 = some [l] ∧
    m.isValidPolyRef l.ref = false :=
  ⟨_, bigMesh, fun _ => .fresh 0 (fun _ => ⟨0, 0, 0, 0, 0⟩) fun _ => none, layerOps, _, _, _, 0,
    edgeTile 0 0 0x8000 0, ⟨1040#32, 0, 0, 0, 255⟩, bigMesh_fresh, rfl, rfl, rfl, rfl, by decide, rfl,
    rfl⟩

end Verif.Detour
