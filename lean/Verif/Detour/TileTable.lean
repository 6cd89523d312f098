/-
The tile table of a nav mesh: slots, salts, the free list and the position hash chains
(`Init`, `AddTile`, `RemoveTile`, `TileAt`, `TilesAt`, `TileRefAt`, `TileByRef`, `TileRef`,
`IsValidPolyRef`, `TileAndPolyByRef` of detour/mesh.go).

Simplification: link building and unlinking (mesh.go:384-435 and 489-511) only touches the link
arrays and the polygons' `FirstLink` fields, which do not influence the table; it is modelled in
`Links.lean` and left out here. Pointers to tiles are slot indices.
-/
import Verif.Common.Chain
import Verif.Detour.PolyRef
import Verif.Detour.TileData
import Verif.Detour.Bits
import Verif.Detour.Stream

namespace Verif.Detour

/-! ## Model -/

/-- Content of an occupied slot: `Header`, the unserialized arrays and `Data`
(detour/mesh.go:377-397). -/
structure Tile where
  header : MeshHeader
  body : TileBody
  data : Bytes
  deriving DecidableEq

/-- The fields of `NavMesh` concerned with the tile table (detour/mesh.go:24-47). `tile i = none`
is a nil `Header`. -/
structure Mesh where
  maxTiles : Nat
  bits : IdBits
  lutMask : U32
  salt : Nat → U32
  next : Nat → Option Nat
  tile : Nat → Option Tile
  nextFree : Option Nat
  pos : Nat → Option Nat

/-- Outcome of a call: normal return, process exit through `log.Fatalln`, panic, or a pointer walk
that does not end. -/
inductive Out (α : Type) where
  | ok (a : α)
  | fatal
  | panic
  | hang

/-- `computeTileHash` (detour/mesh.go:633-640). -/
def tileHash (mask x y : U32) : Nat :=
  let n := 0x8da6b343#64 * x.signExtend 64 + 0xd8163841#64 * y.signExtend 64
  (n.setWidth 32 &&& mask).toNat

/-- `'D'<<24 | 'N'<<16 | 'A'<<8 | 'V'` (detour/mesh.go:732). -/
def navMeshMagic : U32 := 0x444e4156#32
/-- detour/mesh.go:735 -/
def navMeshVersion : U32 := 7#32

/-- The loop of `Init` threading the free list (detour/mesh.go:261-265), `k` slots remaining. -/
def initLoop : Nat → (Nat → Option Nat) → Option Nat → (Nat → Option Nat) × Option Nat
  | 0, nx, fr => (nx, fr)
  | k + 1, nx, fr => initLoop k (upd nx k fr) (some k)

/-- `NavMesh.Init` (detour/mesh.go:244-283): the mesh and the status. `make` panics on a negative
`int32(MaxTiles)`. -/
def Mesh.init (p : NavMeshParams) : Out (Status × Mesh) :=
  if p.maxTiles.toInt < 0 then .panic
  else
    let n := p.maxTiles.toNat
    let ib := initBits p.maxTiles p.maxPolys
    let fl := initLoop n (fun _ => none) none
    .ok (ib.1,
      { maxTiles := n, bits := ib.2, lutMask := lutSize p.maxTiles - 1#32,
        salt := fun _ => 1#32, next := fl.1, tile := fun _ => none, nextFree := fl.2,
        pos := fun _ => none })

namespace Mesh

variable (m : Mesh)

/-- `TileRef` (detour/mesh.go:1585-1592). -/
def tileRef (i : Nat) : U32 := m.bits.encode (m.salt i) (BitVec.ofNat 32 i) 0#32

/-- The comparison in `TileAt` (detour/mesh.go:558-561). -/
def atLoc (x y l : U32) (i : Nat) : Bool :=
  match m.tile i with
  | none => false
  | some t => t.header.x = x ∧ t.header.y = y ∧ t.header.layer = l

/-- `TileAt` (detour/mesh.go:548-567). -/
def tileAt (x y l : U32) : Option (Option Nat) :=
  walkFind m.next (m.atLoc x y l) m.maxTiles (m.pos (tileHash m.lutMask x y))

/-- `TileRefAt` (detour/mesh.go:1534-1548). -/
def tileRefAt (x y l : U32) : Option U32 :=
  (m.tileAt x y l).map fun r => match r with | none => 0#32 | some i => m.tileRef i

/-- The comparison in `TilesAt` (detour/mesh.go:1242). -/
def atCell (x y : U32) (i : Nat) : Bool :=
  match m.tile i with
  | none => false
  | some t => t.header.x = x ∧ t.header.y = y

/-- `TilesAt` (detour/mesh.go:1235-1251) with room for `max` results. -/
def tilesAt (x y : U32) (max : Nat) : Option (List Nat) :=
  (walkCollect m.next (m.atCell x y) m.maxTiles (m.pos (tileHash m.lutMask x y))).map (·.take max)

/-- Slot allocation of `AddTile` (detour/mesh.go:327-370). -/
def allocSlot (lastRef : U32) : Out (Nat × Mesh) :=
  if lastRef = 0#32 then
    match m.nextFree with
    | none => .fatal
    | some i => .ok (i, { m with nextFree := m.next i, next := upd m.next i none })
  else
    let i := (m.bits.decodeTile lastRef).toNat
    if m.maxTiles ≤ i then .fatal
    else match walkTo m.next i m.maxTiles none m.nextFree with
      | none => .hang
      | some (_, none) => .fatal
      | some (prev, some t) =>
        let u := unlinkAt m.next m.nextFree prev t
        .ok (t, { m with next := u.1, nextFree := u.2, salt := upd m.salt t (m.bits.decodeSalt lastRef) })

/-- Insertion into the position table and filling of the slot (detour/mesh.go:372-398). -/
def install (i : Nat) (hdr : MeshHeader) (body : TileBody) (data : Bytes) : Mesh :=
  let h := tileHash m.lutMask hdr.x hdr.y
  { m with next := upd m.next i (m.pos h), pos := upd m.pos h (some i),
           tile := upd m.tile i (some ⟨hdr, body, data⟩) }

/-- `AddTile` (detour/mesh.go:310-438): status, reference and new mesh. -/
def addTile (data : Bytes) (lastRef : U32) : Out (Status × U32 × Mesh) :=
  match MeshHeader.unserialize data with
  | none => .panic
  | some hdr =>
    if hdr.magic ≠ navMeshMagic then .ok (Status.failure ||| Status.wrongMagic, 0#32, m)
    else if hdr.version ≠ navMeshVersion then
      .ok (Status.failure ||| Status.wrongVersion, 0#32, m)
    else match m.tileAt hdr.x hdr.y hdr.layer with
      | none => .hang
      | some (some _) => .ok (Status.failure, 0#32, m)
      | some none =>
        match m.allocSlot lastRef with
        | .fatal => .fatal
        | .panic => .panic
        | .hang => .hang
        | .ok (i, m1) =>
          match TileBody.unserialize hdr (data.drop 100) with
          | none => .panic
          | some body =>
            if hdr.maxLinkCount = 0#32 then .panic
            else
              let m2 := m1.install i hdr body data
              .ok (Status.success, m2.tileRef i, m2)

/-- The salt update of `RemoveTile` (detour/mesh.go:527-531). -/
def bumpSalt (b : IdBits) (s : U32) : U32 :=
  let s' := (s + 1#32) &&& ((1#32 <<< b.saltBits.toNat) - 1#32)
  if s' = 0#32 then s' + 1#32 else s'

/-- `RemoveTile` (detour/mesh.go:453-538): returned data, status and new mesh. -/
def removeTile (ref : U32) : Out (Bytes × Status × Mesh) :=
  if ref = 0#32 then .ok ([], Status.failure ||| Status.invalidParam, m)
  else
    let i := (m.bits.decodeTile ref).toNat
    if m.maxTiles ≤ i then .ok ([], Status.failure ||| Status.invalidParam, m)
    else if m.salt i ≠ m.bits.decodeSalt ref then
      .ok ([], Status.failure ||| Status.invalidParam, m)
    else match m.tile i with
      | none => .panic
      | some t =>
        let h := tileHash m.lutMask t.header.x t.header.y
        match walkTo m.next i m.maxTiles none (m.pos h) with
        | none => .hang
        | some (prev, cur) =>
          let u := match cur with
            | none => (m.next, m.pos h)
            | some c => unlinkAt m.next (m.pos h) prev c
          .ok (t.data, Status.success,
            { m with pos := upd m.pos h u.2, tile := upd m.tile i none,
                     salt := upd m.salt i (bumpSalt m.bits (m.salt i)),
                     next := upd u.1 i m.nextFree, nextFree := some i })

/-- `IsValidPolyRef` (detour/mesh.go:1595-1611). -/
def isValidPolyRef (ref : U32) : Bool :=
  if ref = 0#32 then false
  else
    let i := (m.bits.decodeTile ref).toNat
    if m.maxTiles ≤ i then false
    else match m.tile i with
      | none => false
      | some t =>
        if m.salt i ≠ m.bits.decodeSalt ref then false
        else if t.header.polyCount.toNat ≤ (m.bits.decodePoly ref).toNat then false
        else true

/-- `TileAndPolyByRef` (detour/mesh.go:1622-1640): the slot, polygon index and polygon on success;
outer `none` is a panic. -/
def tileAndPolyByRef (ref : U32) : Option (Status × Option (Nat × Nat × Poly)) :=
  if ref = 0#32 then some (Status.failure, none)
  else
    let i := (m.bits.decodeTile ref).toNat
    let ip := (m.bits.decodePoly ref).toNat
    if m.maxTiles ≤ i then some (Status.failure ||| Status.invalidParam, none)
    else match m.tile i with
      | none => some (Status.failure ||| Status.invalidParam, none)
      | some t =>
        if m.salt i ≠ m.bits.decodeSalt ref then
          some (Status.failure ||| Status.invalidParam, none)
        else if t.header.polyCount.toNat ≤ ip then
          some (Status.failure ||| Status.invalidParam, none)
        else match t.body.polys[ip]? with
          | none => none
          | some p => some (Status.success, some (i, ip, p))

end Mesh

/-! ## Invariant -/

/-- What `AddTile` guarantees about a stored tile. -/
structure TileOK (t : Tile) : Prop where
  hdr : MeshHeader.unserialize t.data = some t.header
  body : TileBody.unserialize t.header (t.data.drop 100) = some t.body
  links : t.header.maxLinkCount ≠ 0#32
  magic : t.header.magic = navMeshMagic
  version : t.header.version = navMeshVersion

/-- The table invariant with its witnesses: `free` is the free list, `bucket h` the chain of bucket
`h`. -/
structure InvW (m : Mesh) (free : List Nat) (bucket : Nat → List Nat) : Prop where
  wf : m.bits.WF
  size : m.maxTiles ≤ 2 ^ m.bits.tileBits.toNat
  cfree : Chain m.next m.nextFree free
  cpos : ∀ h, Chain m.next (m.pos h) (bucket h)
  free_iff : ∀ i, i ∈ free ↔ i < m.maxTiles ∧ m.tile i = none
  bucket_iff : ∀ h i, i ∈ bucket h ↔
    i < m.maxTiles ∧ ∃ t, m.tile i = some t ∧ tileHash m.lutMask t.header.x t.header.y = h
  uniq : ∀ i j t u, m.tile i = some t → m.tile j = some u → t.header.x = u.header.x →
    t.header.y = u.header.y → t.header.layer = u.header.layer → i = j
  range : ∀ i t, m.tile i = some t → i < m.maxTiles
  ok : ∀ i t, m.tile i = some t → TileOK t
  salt : ∀ i, (m.salt i).toNat < 2 ^ m.bits.saltBits.toNat

/-- The table invariant. -/
def Inv (m : Mesh) : Prop := ∃ free bucket, InvW m free bucket

theorem InvW.free_len {m : Mesh} {free bucket} (w : InvW m free bucket) :
    free.length ≤ m.maxTiles :=
  w.cfree.length_le fun a ha => ((w.free_iff a).1 ha).1

theorem InvW.bucket_len {m : Mesh} {free bucket} (w : InvW m free bucket) (h : Nat) :
    (bucket h).length ≤ m.maxTiles :=
  (w.cpos h).length_le fun a ha => ((w.bucket_iff h a).1 ha).1

theorem InvW.disj {m : Mesh} {free bucket} (w : InvW m free bucket) {i h : Nat} (hi : i ∈ free) :
    i ∉ bucket h := by
  intro hb
  obtain ⟨_, t, ht, _⟩ := (w.bucket_iff h i).1 hb
  rw [((w.free_iff i).1 hi).2] at ht
  simp at ht

theorem InvW.disj' {m : Mesh} {free bucket} (w : InvW m free bucket) {i h h' : Nat}
    (hi : i ∈ bucket h) (hne : h' ≠ h) : i ∉ bucket h' := by
  intro hb
  obtain ⟨_, t, ht, e⟩ := (w.bucket_iff h i).1 hi
  obtain ⟨_, u, hu, e'⟩ := (w.bucket_iff h' i).1 hb
  rw [ht] at hu
  simp only [Option.some.injEq] at hu
  subst hu
  exact hne (e'.symm.trans e)

/-! ### Init establishes the invariant -/

theorem initLoop_chain (k : Nat) (nx : Nat → Option Nat) (fr : Option Nat) (l : List Nat)
    (hc : Chain nx fr l) (hl : ∀ a ∈ l, k ≤ a) :
    Chain (initLoop k nx fr).1 (initLoop k nx fr).2 (List.range k ++ l) := by
  induction k generalizing nx fr l with
  | zero => simpa [initLoop] using hc
  | succ k ih =>
    simp only [initLoop]
    have := ih (upd nx k fr) (some k) (k :: l)
      (hc.push (fun hk => by have := hl k hk; omega))
      (fun a ha => by
        rcases List.mem_cons.1 ha with rfl | ha
        · omega
        · have := hl a ha; omega)
    rw [List.range_succ, List.append_assoc]
    exact this

theorem init_inv {p : NavMeshParams} {st : Status} {m : Mesh}
    (h : Mesh.init p = .ok (st, m)) (hst : st.succeed = true)
    (ht : 1 ≤ p.maxTiles.toNat) (hp1 : 1 ≤ p.maxPolys.toNat) (hp2 : p.maxPolys.toNat ≤ 2 ^ 31)
    (hsum : Nat.clog 2 p.maxTiles.toNat + Nat.clog 2 p.maxPolys.toNat ≤ 32) :
    InvW m (List.range p.maxTiles.toNat) (fun _ => []) := by
  unfold Mesh.init at h
  split at h
  · simp at h
  rename_i hneg
  simp only [Out.ok.injEq, Prod.mk.injEq] at h
  obtain ⟨h1, rfl⟩ := h
  have hmt : p.maxTiles.toNat ≤ 2 ^ 31 := by
    rw [BitVec.toInt_eq_toNat_cond] at hneg
    have := p.maxTiles.isLt
    split at hneg <;> omega
  have hw := IdBits.wf_of_init p.maxTiles p.maxPolys ht hmt hp1 hp2 hsum (by rw [h1]; exact hst)
  refine ⟨hw, ?_, ?_, ?_, ?_, ?_, ?_, ?_, ?_, ?_⟩
  · show p.maxTiles.toNat ≤ 2 ^ (idBits p.maxTiles).toNat
    rw [idBits_eq _ ht hmt]
    exact Nat.le_pow_clog (by omega) _
  · have := initLoop_chain p.maxTiles.toNat (fun _ => none) none [] rfl (by simp)
    simpa using this
  · intro h
    exact rfl
  · intro i; simp
  · intro h i; simp
  · intro i j t u hi; simp at hi
  · intro i t hi; simp at hi
  · intro i t hi; simp at hi
  · intro i
    have h1 : (1#32 : U32).toNat = 1 := by decide
    show (1#32 : U32).toNat < _
    rw [h1]
    have := hw.salt
    calc 1 < 2 ^ 1 := by decide
      _ ≤ _ := Nat.pow_le_pow_right (by omega) this

/-! ### Lookup -/

theorem atLoc_iff (m : Mesh) (x y l : U32) (i : Nat) :
    m.atLoc x y l i = true ↔
      ∃ t, m.tile i = some t ∧ t.header.x = x ∧ t.header.y = y ∧ t.header.layer = l := by
  unfold Mesh.atLoc
  cases m.tile i with
  | none => simp
  | some t => simp

theorem tileAt_eq {m : Mesh} (hi : Inv m) (x y l : U32) :
    ∃ r, m.tileAt x y l = some r ∧
      (∀ i, r = some i ↔ ∃ t, m.tile i = some t ∧ t.header.x = x ∧ t.header.y = y ∧
        t.header.layer = l) := by
  obtain ⟨free, bucket, w⟩ := hi
  refine ⟨_, walkFind_eq (w.cpos _) (w.bucket_len _), ?_⟩
  intro i
  constructor
  · intro h
    exact (atLoc_iff m x y l i).1 (List.find?_some h)
  · rintro ⟨t, ht, hx, hy, hl⟩
    have hmem : i ∈ bucket (tileHash m.lutMask x y) :=
      (w.bucket_iff _ i).2 ⟨w.range i t ht, t, ht, by rw [hx, hy]⟩
    cases hf : (bucket (tileHash m.lutMask x y)).find? (m.atLoc x y l) with
    | none =>
      exact absurd ((atLoc_iff m x y l i).2 ⟨t, ht, hx, hy, hl⟩) (List.find?_eq_none.1 hf i hmem)
    | some j =>
      obtain ⟨u, hu, ux, uy, ul⟩ := (atLoc_iff m x y l j).1 (List.find?_some hf)
      rw [w.uniq i j t u ht hu (by rw [hx, ux]) (by rw [hy, uy]) (by rw [hl, ul])]

/-! ### Allocation -/

/-- State after a slot has been taken from the free list but not yet filled. -/
structure AllocW (m m1 : Mesh) (i : Nat) (free : List Nat) (bucket : Nat → List Nat) : Prop where
  wf : m1.bits = m.bits
  max : m1.maxTiles = m.maxTiles
  mask : m1.lutMask = m.lutMask
  tile : m1.tile = m.tile
  pos : m1.pos = m.pos
  mem : i < m.maxTiles ∧ m.tile i = none
  cfree : Chain m1.next m1.nextFree free
  notFree : i ∉ free
  free_iff : ∀ j, j ∈ free ↔ j < m.maxTiles ∧ m.tile j = none ∧ j ≠ i
  cpos : ∀ h, Chain m1.next (m1.pos h) (bucket h)
  salt : ∀ j, j ≠ i → m1.salt j = m.salt j
  salt' : (m1.salt i).toNat < 2 ^ m.bits.saltBits.toNat

theorem decodeSalt_lt {b : IdBits} (h : b.WF) (r : U32) :
    (b.decodeSalt r).toNat < 2 ^ b.saltBits.toNat := by
  unfold IdBits.decodeSalt
  rw [IdBits.mask_toNat _ (by have := h.salt'; omega)]
  exact Nat.mod_lt _ (Nat.pow_pos (by omega))

theorem allocSlot_ok {m m1 : Mesh} {free bucket} (w : InvW m free bucket) {r : U32} {i : Nat}
    (h : m.allocSlot r = .ok (i, m1)) :
    ∃ free', AllocW m m1 i free' bucket ∧
      (r = 0#32 → m1.salt = m.salt) ∧
      (r ≠ 0#32 → i = (m.bits.decodeTile r).toNat ∧ m1.salt i = m.bits.decodeSalt r) := by
  unfold Mesh.allocSlot at h
  split at h
  · rename_i hr
    split at h
    · simp at h
    rename_i j hj
    simp only [Out.ok.injEq, Prod.mk.injEq] at h
    obtain ⟨rfl, rfl⟩ := h
    have hc := w.cfree
    rw [hj] at hc
    obtain ⟨l, rfl, hc'⟩ := Chain.some_iff.1 hc
    have hnd := hc.nodup
    rw [List.nodup_cons] at hnd
    have hjm := (w.free_iff j).1 (by simp)
    refine ⟨l, ⟨rfl, rfl, rfl, rfl, rfl, hjm, hc'.upd_notMem hnd.1, hnd.1, ?_, ?_, fun _ _ => rfl,
      w.salt j⟩, fun _ => rfl, fun hne => absurd hr hne⟩
    · intro k
      have := w.free_iff k
      constructor
      · intro hk
        have := this.1 (by simp [hk])
        exact ⟨this.1, this.2, by rintro rfl; exact hnd.1 hk⟩
      · rintro ⟨a, b, c⟩
        have := this.2 ⟨a, b⟩
        simp only [List.mem_cons] at this
        rcases this with rfl | this
        · exact absurd rfl c
        · exact this
    · intro h
      exact (w.cpos h).upd_notMem (w.disj (by simp))
  · rename_i hr
    simp only at h
    split at h
    · simp at h
    rename_i hlt
    by_cases hmem : (m.bits.decodeTile r).toNat ∈ free
    · obtain ⟨l₁, l₂, rfl⟩ := List.append_of_mem hmem
      generalize hi : (m.bits.decodeTile r).toNat = k at *
      have hw := walkTo_mem' w.cfree w.free_len
      rw [hw] at h
      simp only [Out.ok.injEq, Prod.mk.injEq] at h
      obtain ⟨rfl, rfl⟩ := h
      have hnd := w.cfree.nodup
      have hk : k ∉ l₁ ++ l₂ := by
        intro hk
        rw [List.nodup_append] at hnd
        rcases List.mem_append.1 hk with hk | hk
        · exact hnd.2.2 k hk k (by simp) rfl
        · have := hnd.2.1
          rw [List.nodup_cons] at this
          exact this.1 hk
      refine ⟨l₁ ++ l₂, ⟨rfl, rfl, rfl, rfl, rfl, (w.free_iff k).1 (by simp), ?_, hk, ?_, ?_, ?_, ?_⟩,
        fun h0 => absurd h0 hr, fun _ => ⟨rfl, by simp⟩⟩
      · exact unlinkAt_chain w.cfree
      · intro j
        have := w.free_iff j
        constructor
        · intro hj
          have h2 := this.1 (by
            rcases List.mem_append.1 hj with hj | hj
            · simp [hj]
            · simp [hj])
          exact ⟨h2.1, h2.2, by rintro rfl; exact hk hj⟩
        · rintro ⟨a, b, c⟩
          have := this.2 ⟨a, b⟩
          simp only [List.mem_append, List.mem_cons] at this ⊢
          rcases this with h1 | rfl | h1
          · exact Or.inl h1
          · exact absurd rfl c
          · exact Or.inr h1
      · intro h
        refine (w.cpos h).congr fun a ha => unlinkAt_frame ?_
        intro hl
        exact w.disj (h := h) (i := a) (by simp [hl]) ha
      · intro j hj
        exact upd_ne _ _ hj
      · simp only [upd_same]
        exact decodeSalt_lt w.wf r
    · obtain ⟨p, hp⟩ := walkTo_notMem (prev := none) w.cfree w.free_len hmem
      rw [hp] at h
      simp at h

/-! ### Install -/

theorem install_inv {m m1 : Mesh} {free free' bucket} {i : Nat} (w : InvW m free bucket)
    (a : AllocW m m1 i free' bucket) (t : Tile) (hok : TileOK t)
    (hfree : ∀ j u, m.tile j = some u → ¬(u.header.x = t.header.x ∧ u.header.y = t.header.y ∧
      u.header.layer = t.header.layer)) :
    InvW (m1.install i t.header t.body t.data) free'
      (upd bucket (tileHash m.lutMask t.header.x t.header.y)
        (i :: bucket (tileHash m.lutMask t.header.x t.header.y))) := by
  unfold Mesh.install
  rw [a.mask]
  generalize hh : tileHash m.lutMask t.header.x t.header.y = h
  have hnb : ∀ h, i ∉ bucket h := fun h => w.disj ((w.free_iff i).2 a.mem)
  refine ⟨?_, ?_, ?_, ?_, ?_, ?_, ?_, ?_, ?_, ?_⟩
  · show m1.bits.WF; rw [a.wf]; exact w.wf
  · show m1.maxTiles ≤ 2 ^ m1.bits.tileBits.toNat
    rw [a.wf, a.max]; exact w.size
  · exact a.cfree.upd_notMem a.notFree
  · intro g
    by_cases hg : g = h
    · subst hg
      simp only [upd_same]
      exact (a.cpos _).push (hnb _)
    · simp only [upd_ne _ _ hg]
      exact (a.cpos _).upd_notMem (hnb _)
  · intro j
    show j ∈ free' ↔ j < m1.maxTiles ∧ upd m1.tile i (some t) j = none
    rw [a.max, a.tile, a.free_iff]
    by_cases hj : j = i
    · subst hj; simp
    · rw [upd_ne _ _ hj]
      exact ⟨fun ⟨p, q, _⟩ => ⟨p, q⟩, fun ⟨p, q⟩ => ⟨p, q, hj⟩⟩
  · intro g j
    show j ∈ upd bucket h (i :: bucket h) g ↔ j < m1.maxTiles ∧ ∃ u, upd m1.tile i (some t) j = some u
      ∧ tileHash m.lutMask u.header.x u.header.y = g
    rw [a.max, a.tile]
    by_cases hj : j = i
    · subst hj
      simp only [upd_same, Option.some.injEq]
      by_cases hg : g = h
      · subst hg
        simp only [upd_same, List.mem_cons, true_or, true_iff]
        exact ⟨a.mem.1, t, rfl, hh⟩
      · rw [upd_ne _ _ hg]
        constructor
        · intro hm; exact absurd hm (hnb _)
        · rintro ⟨_, u, rfl, hu⟩
          exact absurd (hh.symm.trans hu).symm hg
    · rw [upd_ne _ _ hj]
      by_cases hg : g = h
      · subst hg
        simp only [upd_same, List.mem_cons, hj, false_or]
        exact w.bucket_iff g j
      · rw [upd_ne _ _ hg]
        exact w.bucket_iff g j
  · intro j k u v hu hv hx hy hl
    simp only [a.tile] at hu hv
    by_cases hj : j = i
    · by_cases hk : k = i
      · rw [hj, hk]
      · subst hj
        rw [upd_same] at hu
        rw [upd_ne _ _ hk] at hv
        simp only [Option.some.injEq] at hu
        subst hu
        exact absurd ⟨hx.symm, hy.symm, hl.symm⟩ (hfree k v hv)
    · rw [upd_ne _ _ hj] at hu
      by_cases hk : k = i
      · subst hk
        rw [upd_same] at hv
        simp only [Option.some.injEq] at hv
        subst hv
        exact absurd ⟨hx, hy, hl⟩ (hfree j u hu)
      · rw [upd_ne _ _ hk] at hv
        exact w.uniq j k u v hu hv hx hy hl
  · intro j u hu
    simp only [a.tile] at hu
    show j < m1.maxTiles
    rw [a.max]
    by_cases hj : j = i
    · rw [hj]; exact a.mem.1
    · rw [upd_ne _ _ hj] at hu
      exact w.range j u hu
  · intro j u hu
    simp only [a.tile] at hu
    by_cases hj : j = i
    · subst hj
      rw [upd_same] at hu
      simp only [Option.some.injEq] at hu
      rw [← hu]; exact hok
    · rw [upd_ne _ _ hj] at hu
      exact w.ok j u hu
  · intro j
    show (m1.salt j).toNat < 2 ^ m1.bits.saltBits.toNat
    rw [a.wf]
    by_cases hj : j = i
    · rw [hj]; exact a.salt'
    · rw [a.salt j hj]; exact w.salt j

/-! ### The two operations -/

/-- What is the same in every mesh derived from `m`. -/
structure SameCfg (m m' : Mesh) : Prop where
  bits : m'.bits = m.bits
  max : m'.maxTiles = m.maxTiles
  mask : m'.lutMask = m.lutMask

theorem SameCfg.refl (m : Mesh) : SameCfg m m := ⟨rfl, rfl, rfl⟩

theorem SameCfg.trans {a b c : Mesh} (h : SameCfg a b) (g : SameCfg b c) : SameCfg a c :=
  ⟨g.bits.trans h.bits, g.max.trans h.max, g.mask.trans h.mask⟩

/-- Effect of a successful `AddTile` filling slot `i` with `t`. -/
structure Added (m m' : Mesh) (lastRef : U32) (i : Nat) (t : Tile) : Prop where
  inv : Inv m'
  cfg : SameCfg m m'
  lt : i < m.maxTiles
  empty : m.tile i = none
  tile : m'.tile = upd m.tile i (some t)
  salt : ∀ j, j ≠ i → m'.salt j = m.salt j
  salt0 : lastRef = 0#32 → m'.salt i = m.salt i
  saltR : lastRef ≠ 0#32 →
    i = (m.bits.decodeTile lastRef).toNat ∧ m'.salt i = m.bits.decodeSalt lastRef
  ok : TileOK t
  free : ∀ j u, m.tile j = some u → ¬(u.header.x = t.header.x ∧ u.header.y = t.header.y ∧
      u.header.layer = t.header.layer)

theorem addTile_cases {m m' : Mesh} (hi : Inv m) {data : Bytes} {r ref : U32} {st : Status}
    (h : m.addTile data r = .ok (st, ref, m')) :
    (m' = m ∧ ref = 0#32 ∧ st.succeed = false) ∨
    (st = Status.success ∧ ∃ i t, t.data = data ∧ Added m m' r i t ∧ ref = m'.tileRef i) := by
  unfold Mesh.addTile at h
  split at h
  · simp at h
  rename_i hdr hh
  split at h
  · simp only [Out.ok.injEq, Prod.mk.injEq] at h
    obtain ⟨rfl, rfl, rfl⟩ := h
    exact Or.inl ⟨rfl, rfl, by decide⟩
  rename_i hmagic
  split at h
  · simp only [Out.ok.injEq, Prod.mk.injEq] at h
    obtain ⟨rfl, rfl, rfl⟩ := h
    exact Or.inl ⟨rfl, rfl, by decide⟩
  rename_i hver
  obtain ⟨res, hat, hres⟩ := tileAt_eq hi hdr.x hdr.y hdr.layer
  rw [hat] at h
  cases res with
  | some j =>
    simp only [Out.ok.injEq, Prod.mk.injEq] at h
    obtain ⟨rfl, rfl, rfl⟩ := h
    exact Or.inl ⟨rfl, rfl, by decide⟩
  | none =>
    simp only at h
    obtain ⟨free, bucket, w⟩ := hi
    cases ha : m.allocSlot r with
    | fatal => rw [ha] at h; simp at h
    | panic => rw [ha] at h; simp at h
    | hang => rw [ha] at h; simp at h
    | ok p =>
      obtain ⟨i, m1⟩ := p
      rw [ha] at h
      simp only at h
      split at h
      · simp at h
      rename_i body hb
      split at h
      · simp at h
      rename_i hlinks
      simp only [Out.ok.injEq, Prod.mk.injEq] at h
      obtain ⟨rfl, rfl, rfl⟩ := h
      right
      refine ⟨rfl, i, ⟨hdr, body, data⟩, rfl, ?_, rfl⟩
      obtain ⟨free', a, s0, sr⟩ := allocSlot_ok w ha
      have hok : TileOK ⟨hdr, body, data⟩ :=
        ⟨hh, hb, hlinks, by simpa using hmagic, by simpa using hver⟩
      have hfree : ∀ j u, m.tile j = some u → ¬(u.header.x = hdr.x ∧ u.header.y = hdr.y ∧
          u.header.layer = hdr.layer) := by
        rintro j u hu ⟨hx, hy, hl⟩
        have := (hres j).2 ⟨u, hu, hx, hy, hl⟩
        simp at this
      have hinv := install_inv w a ⟨hdr, body, data⟩ hok hfree
      exact ⟨⟨_, _, hinv⟩, ⟨a.wf, a.max, a.mask⟩, a.mem.1, a.mem.2,
        by simp only [Mesh.install, a.tile], a.salt,
        fun h0 => by show m1.salt i = _; rw [s0 h0], fun h0 => sr h0, hok, hfree⟩

/-- Effect of a successful `RemoveTile` emptying slot `i`, which held `t`. -/
structure Removed (m m' : Mesh) (ref : U32) (i : Nat) (t : Tile) : Prop where
  inv : Inv m'
  cfg : SameCfg m m'
  idx : i = (m.bits.decodeTile ref).toNat
  lt : i < m.maxTiles
  old : m.tile i = some t
  oldSalt : m.salt i = m.bits.decodeSalt ref
  tile : m'.tile = upd m.tile i none
  salt : m'.salt = upd m.salt i (Mesh.bumpSalt m.bits (m.salt i))

theorem bumpSalt_toNat {b : IdBits} (h : b.WF) (s : U32) (hs : s.toNat < 2 ^ b.saltBits.toNat) :
    (Mesh.bumpSalt b s).toNat
      = if s.toNat + 1 < 2 ^ b.saltBits.toNat then s.toNat + 1 else 1 := by
  have h31 := h.salt'
  have hp : 2 ^ b.saltBits.toNat ≤ 2 ^ 31 := Nat.pow_le_pow_right (by omega) h31
  have e : ((s + 1#32) &&& ((1#32 <<< b.saltBits.toNat) - 1#32)).toNat
      = (s.toNat + 1) % 2 ^ b.saltBits.toNat := by
    rw [IdBits.mask_toNat _ (by omega), BitVec.toNat_add]
    have : (1#32 : U32).toNat = 1 := by decide
    rw [this, Nat.mod_eq_of_lt (a := s.toNat + 1) (by omega)]
  unfold Mesh.bumpSalt
  simp only
  by_cases hlt : s.toNat + 1 < 2 ^ b.saltBits.toNat
  · rw [if_pos hlt]
    rw [Nat.mod_eq_of_lt hlt] at e
    rw [if_neg]
    · exact e
    · intro hc
      rw [hc] at e
      simp at e
  · rw [if_neg hlt]
    have : s.toNat + 1 = 2 ^ b.saltBits.toNat := by omega
    rw [this, Nat.mod_self] at e
    rw [if_pos (BitVec.eq_of_toNat_eq (by rw [e]; rfl)), BitVec.toNat_add, e]
    decide

theorem bumpSalt_lt {b : IdBits} (h : b.WF) (s : U32) (hs : s.toNat < 2 ^ b.saltBits.toNat) :
    (Mesh.bumpSalt b s).toNat < 2 ^ b.saltBits.toNat := by
  rw [bumpSalt_toNat h s hs]
  split
  · assumption
  · have := h.salt
    calc 1 < 2 ^ 1 := by decide
      _ ≤ _ := Nat.pow_le_pow_right (by omega) this

theorem removeTile_cases {m m' : Mesh} (hi : Inv m) {d : Bytes} {ref : U32} {st : Status}
    (h : m.removeTile ref = .ok (d, st, m')) :
    (m' = m ∧ st = Status.failure ||| Status.invalidParam) ∨
    (st = Status.success ∧ ∃ i t, d = t.data ∧ Removed m m' ref i t) := by
  unfold Mesh.removeTile at h
  split at h
  · simp only [Out.ok.injEq, Prod.mk.injEq] at h
    exact Or.inl ⟨h.2.2.symm, h.2.1.symm⟩
  simp only at h
  generalize hk : (m.bits.decodeTile ref).toNat = i at *
  split at h
  · simp only [Out.ok.injEq, Prod.mk.injEq] at h
    exact Or.inl ⟨h.2.2.symm, h.2.1.symm⟩
  rename_i hlt
  split at h
  · simp only [Out.ok.injEq, Prod.mk.injEq] at h
    exact Or.inl ⟨h.2.2.symm, h.2.1.symm⟩
  rename_i hsalt
  split at h
  · simp at h
  rename_i t ht
  obtain ⟨free, bucket, w⟩ := hi
  generalize hg : tileHash m.lutMask t.header.x t.header.y = g at *
  have hmem : i ∈ bucket g := (w.bucket_iff g i).2 ⟨by omega, t, ht, hg⟩
  obtain ⟨l₁, l₂, hl⟩ := List.append_of_mem hmem
  have hc := w.cpos g
  have hlen := w.bucket_len g
  rw [hl] at hc hlen
  rw [walkTo_mem' hc hlen] at h
  simp only [Out.ok.injEq, Prod.mk.injEq] at h
  obtain ⟨rfl, rfl, rfl⟩ := h
  right
  have hnd := hc.nodup
  have hni : i ∉ l₁ ++ l₂ := by
    intro hk'
    rw [List.nodup_append] at hnd
    rcases List.mem_append.1 hk' with hk' | hk'
    · exact hnd.2.2 i hk' i (by simp) rfl
    · have := hnd.2.1
      rw [List.nodup_cons] at this
      exact this.1 hk'
  have hnf : i ∉ free := fun hf => w.disj (h := g) hf hmem
  have hl1 : ∀ a ∈ l₁, a ∈ bucket g := fun a ha => by rw [hl]; simp [ha]
  refine ⟨rfl, i, t, rfl, ⟨free.cons i, upd bucket g (l₁ ++ l₂), ?_⟩, ⟨rfl, rfl, rfl⟩, hk.symm,
    by omega, ht, by simpa using hsalt, rfl, rfl⟩
  refine ⟨w.wf, w.size, ?_, ?_, ?_, ?_, ?_, ?_, ?_, ?_⟩
  · refine Chain.push ?_ hnf
    exact w.cfree.congr fun a ha => unlinkAt_frame (fun h1 => w.disj ha (hl1 a h1))
  · intro h
    by_cases hh : h = g
    · subst hh
      simp only [upd_same]
      exact (unlinkAt_chain hc).upd_notMem hni
    · simp only [upd_ne _ _ hh]
      refine Chain.upd_notMem ?_ (w.disj' hmem hh)
      exact (w.cpos h).congr fun a ha => unlinkAt_frame fun h1 => w.disj' (hl1 a h1) hh ha
  · intro j
    show j ∈ i :: free ↔ j < m.maxTiles ∧ upd m.tile i none j = none
    by_cases hj : j = i
    · subst hj
      simp only [List.mem_cons, true_or, upd_same, and_true, true_iff]
      omega
    · rw [upd_ne _ _ hj, List.mem_cons, w.free_iff]
      simp [hj]
  · intro h j
    show j ∈ upd bucket g (l₁ ++ l₂) h ↔ j < m.maxTiles ∧ ∃ u, upd m.tile i none j = some u ∧
      tileHash m.lutMask u.header.x u.header.y = h
    by_cases hj : j = i
    · subst hj
      simp only [upd_same]
      constructor
      · intro hm
        by_cases hh : h = g
        · subst hh; rw [upd_same] at hm; exact absurd hm hni
        · rw [upd_ne _ _ hh] at hm; exact absurd hm (w.disj' hmem hh)
      · rintro ⟨_, u, hu, _⟩; simp at hu
    · rw [upd_ne _ _ hj, ← w.bucket_iff]
      by_cases hh : h = g
      · subst hh
        rw [upd_same, hl]
        simp [hj]
      · rw [upd_ne _ _ hh]
  · intro j k u v hu hv
    have hj : j ≠ i := by rintro rfl; simp at hu
    have hk : k ≠ i := by rintro rfl; simp at hv
    simp only [upd_ne _ _ hj] at hu
    simp only [upd_ne _ _ hk] at hv
    exact w.uniq j k u v hu hv
  · intro j u hu
    have hj : j ≠ i := by rintro rfl; simp at hu
    simp only [upd_ne _ _ hj] at hu
    exact w.range j u hu
  · intro j u hu
    have hj : j ≠ i := by rintro rfl; simp at hu
    simp only [upd_ne _ _ hj] at hu
    exact w.ok j u hu
  · intro j
    by_cases hj : j = i
    · subst hj
      simp only [upd_same]
      exact bumpSalt_lt w.wf _ (w.salt j)
    · simp only [upd_ne _ _ hj]
      exact w.salt j

/-! ## Histories -/

/-- A call of the table API. -/
inductive Op where
  | add (data : Bytes) (lastRef : U32)
  | remove (ref : U32)

/-- What the caller sees of a call. -/
inductive Obs where
  | added (data : Bytes) (ref : U32) (st : Status)
  | removed (data : Bytes) (st : Status)

def step (m : Mesh) : Op → Out (Obs × Mesh)
  | .add d r => match m.addTile d r with
    | .ok (st, ref, m') => .ok (.added d ref st, m')
    | .fatal => .fatal
    | .panic => .panic
    | .hang => .hang
  | .remove r => match m.removeTile r with
    | .ok (d, st, m') => .ok (.removed d st, m')
    | .fatal => .fatal
    | .panic => .panic
    | .hang => .hang

/-- A history of calls, with the observations made. -/
def run (m : Mesh) : List Op → Out (List Obs × Mesh)
  | [] => .ok ([], m)
  | op :: ops => match step m op with
    | .ok (o, m') => match run m' ops with
      | .ok (os, m'') => .ok (o :: os, m'')
      | .fatal => .fatal
      | .panic => .panic
      | .hang => .hang
    | .fatal => .fatal
    | .panic => .panic
    | .hang => .hang

theorem run_cons {m m' : Mesh} {op : Op} {ops : List Op} {os : List Obs}
    (h : run m (op :: ops) = .ok (os, m')) :
    ∃ o m1 os', step m op = .ok (o, m1) ∧ run m1 ops = .ok (os', m') ∧ os = o :: os' := by
  simp only [run] at h
  split at h <;> try (simp at h; done)
  rename_i o m1 hs
  split at h <;> try (simp at h; done)
  rename_i os' m2 hr
  simp only [Out.ok.injEq, Prod.mk.injEq] at h
  obtain ⟨rfl, rfl⟩ := h
  exact ⟨o, m1, os', hs, hr, rfl⟩

/-- One step, in terms of its effect. -/
theorem step_cases {m m' : Mesh} (hi : Inv m) {op : Op} {o : Obs} (h : step m op = .ok (o, m')) :
    (∃ d r ref st, op = .add d r ∧ o = .added d ref st ∧
      ((m' = m ∧ st.succeed = false) ∨
        (st = Status.success ∧ ∃ i t, t.data = d ∧ Added m m' r i t ∧ ref = m'.tileRef i))) ∨
    (∃ r d st, op = .remove r ∧ o = .removed d st ∧
      ((m' = m ∧ st.succeed = false) ∨
        (st = Status.success ∧ ∃ i t, d = t.data ∧ Removed m m' r i t))) := by
  cases op with
  | add d r =>
    simp only [step] at h
    split at h <;> try (simp at h; done)
    rename_i st ref m1 ha
    simp only [Out.ok.injEq, Prod.mk.injEq] at h
    obtain ⟨rfl, rfl⟩ := h
    refine Or.inl ⟨d, r, ref, st, rfl, rfl, ?_⟩
    rcases addTile_cases hi ha with ⟨h1, _, h2⟩ | h1
    · exact Or.inl ⟨h1, h2⟩
    · exact Or.inr h1
  | remove r =>
    simp only [step] at h
    split at h <;> try (simp at h; done)
    rename_i d st m1 ha
    simp only [Out.ok.injEq, Prod.mk.injEq] at h
    obtain ⟨rfl, rfl⟩ := h
    refine Or.inr ⟨r, d, st, rfl, rfl, ?_⟩
    rcases removeTile_cases hi ha with ⟨h1, h2⟩ | h1
    · exact Or.inl ⟨h1, by rw [h2]; decide⟩
    · exact Or.inr h1

theorem step_inv {m m' : Mesh} (hi : Inv m) {op : Op} {o : Obs} (h : step m op = .ok (o, m')) :
    Inv m' ∧ SameCfg m m' := by
  rcases step_cases hi h with ⟨d, r, ref, st, _, _, h1⟩ | ⟨r, d, st, _, _, h1⟩
  · rcases h1 with ⟨rfl, _⟩ | ⟨_, i, t, _, ha, _⟩
    · exact ⟨hi, SameCfg.refl _⟩
    · exact ⟨ha.inv, ha.cfg⟩
  · rcases h1 with ⟨rfl, _⟩ | ⟨_, i, t, _, ha⟩
    · exact ⟨hi, SameCfg.refl _⟩
    · exact ⟨ha.inv, ha.cfg⟩

theorem run_inv {m m' : Mesh} (hi : Inv m) {ops : List Op} {os : List Obs}
    (h : run m ops = .ok (os, m')) : Inv m' ∧ SameCfg m m' := by
  induction ops generalizing m os with
  | nil =>
    simp only [run, Out.ok.injEq, Prod.mk.injEq] at h
    obtain ⟨_, rfl⟩ := h
    exact ⟨hi, SameCfg.refl _⟩
  | cons op ops ih =>
    obtain ⟨o, m1, os', h1, h2, _⟩ := run_cons h
    obtain ⟨a, b⟩ := step_inv hi h1
    obtain ⟨c, d⟩ := ih a h2
    exact ⟨c, b.trans d⟩

/-! ## Specification of lookups: a map driven by what the caller sees -/

abbrev Loc := U32 × U32 × U32

/-- The grid location stored in tile data. -/
def locOf (data : Bytes) : Option Loc :=
  (MeshHeader.unserialize data).map fun h => (h.x, h.y, h.layer)

/-- The map from locations to (data, reference), updated by successful calls only. -/
def specStep (M : Loc → Option (Bytes × U32)) : Obs → Loc → Option (Bytes × U32)
  | .added d ref st, l => if st.succeed ∧ locOf d = some l then some (d, ref) else M l
  | .removed d st, l => if st.succeed ∧ locOf d = some l then none else M l

/-- The map after a history. -/
def spec (os : List Obs) : Loc → Option (Bytes × U32) := os.foldl specStep fun _ => none

/-- What `TileAt` followed by reading `Data` and `TileRef` gives; outer `none`: the walk hangs. -/
def Mesh.lookup (m : Mesh) (l : Loc) : Option (Option (Bytes × U32)) :=
  (m.tileAt l.1 l.2.1 l.2.2).map fun r =>
    r.bind fun i => (m.tile i).map fun t => (t.data, m.tileRef i)

/-- Location of a stored tile. -/
def Tile.loc (t : Tile) : Loc := (t.header.x, t.header.y, t.header.layer)

theorem locOf_tile {t : Tile} (h : TileOK t) : locOf t.data = some t.loc := by
  unfold locOf
  rw [h.hdr]
  rfl

theorem lookup_eq {m : Mesh} (hi : Inv m) (l : Loc) :
    ∃ r, m.lookup l = some r ∧
      ∀ d ref, r = some (d, ref) ↔ ∃ i t, m.tile i = some t ∧ t.loc = l ∧ t.data = d ∧
        ref = m.tileRef i := by
  obtain ⟨r, h1, h2⟩ := tileAt_eq hi l.1 l.2.1 l.2.2
  refine ⟨_, by unfold Mesh.lookup; rw [h1]; rfl, ?_⟩
  intro d ref
  constructor
  · intro h
    obtain ⟨i, hi', h3⟩ := Option.bind_eq_some_iff.1 h
    obtain ⟨t, ht, hx, hy, hl⟩ := (h2 i).1 hi'
    rw [ht] at h3
    simp only [Option.map_some, Option.some.injEq, Prod.mk.injEq] at h3
    refine ⟨i, t, ht, ?_, h3.1, h3.2.symm⟩
    unfold Tile.loc
    rw [hx, hy, hl]
  · rintro ⟨i, t, ht, hl, hd, hr⟩
    have : r = some i := (h2 i).2 ⟨t, ht, by rw [← hl]; rfl, by rw [← hl]; rfl, by rw [← hl]; rfl⟩
    rw [this]
    simp [ht, hd, hr]

/-- Two invariant-satisfying lookups agree when their defining property does. -/
theorem lookup_ext {m : Mesh} (hi : Inv m) (l : Loc) (v : Option (Bytes × U32))
    (h : ∀ d ref, v = some (d, ref) ↔ ∃ i t, m.tile i = some t ∧ t.loc = l ∧ t.data = d ∧
        ref = m.tileRef i) : m.lookup l = some v := by
  obtain ⟨r, h1, h2⟩ := lookup_eq hi l
  rw [h1]
  congr 1
  apply Option.ext
  rintro ⟨d, ref⟩
  exact (h2 d ref).trans (h d ref).symm

theorem lookup_step {m m' : Mesh} (hi : Inv m) {op : Op} {o : Obs}
    (h : step m op = .ok (o, m')) (M : Loc → Option (Bytes × U32))
    (hM : ∀ l, m.lookup l = some (M l)) : ∀ l, m'.lookup l = some (specStep M o l) := by
  have hMl : ∀ l d ref, M l = some (d, ref) ↔ ∃ i t, m.tile i = some t ∧ t.loc = l ∧ t.data = d ∧
        ref = m.tileRef i := by
    intro l d ref
    obtain ⟨r, h1, h2⟩ := lookup_eq hi l
    rw [hM l] at h1
    simp only [Option.some.injEq] at h1
    rw [h1]
    exact h2 d ref
  intro l
  rcases step_cases hi h with ⟨d, r, ref, st, _, rfl, h1⟩ | ⟨r, d, st, _, rfl, h1⟩
  · rcases h1 with ⟨rfl, hf⟩ | ⟨rfl, i, t, rfl, ha, rfl⟩
    · simp only [specStep, hf, Bool.false_eq_true, false_and, if_false]
      exact hM l
    · refine lookup_ext ha.inv l _ ?_
      intro d ref
      have href : ∀ j, j ≠ i → m'.tileRef j = m.tileRef j := by
        intro j hj
        unfold Mesh.tileRef
        rw [ha.cfg.bits, ha.salt j hj]
      simp only [specStep, locOf_tile ha.ok, Option.some.injEq]
      rw [ha.tile]
      by_cases hl : t.loc = l
      · rw [if_pos ⟨by decide, hl⟩]
        simp only [Option.some.injEq, Prod.mk.injEq]
        constructor
        · rintro ⟨rfl, rfl⟩
          exact ⟨i, t, by simp, hl, rfl, rfl⟩
        · rintro ⟨j, u, hu, hul, rfl, rfl⟩
          by_cases hj : j = i
          · subst hj
            simp only [upd_same, Option.some.injEq] at hu
            subst hu
            exact ⟨rfl, rfl⟩
          · rw [upd_ne _ _ hj] at hu
            exfalso
            have e : u.loc = t.loc := hul.trans hl.symm
            unfold Tile.loc at e
            simp only [Prod.mk.injEq] at e
            exact ha.free j u hu e
      · rw [if_neg (fun hc => hl hc.2), hMl]
        constructor
        · rintro ⟨j, u, hu, hul, hd, hr⟩
          have hj : j ≠ i := by rintro rfl; rw [ha.empty] at hu; simp at hu
          exact ⟨j, u, by rw [upd_ne _ _ hj]; exact hu, hul, hd, by rw [href j hj]; exact hr⟩
        · rintro ⟨j, u, hu, hul, hd, hr⟩
          have hj : j ≠ i := by
            rintro rfl
            simp only [upd_same, Option.some.injEq] at hu
            exact hl (by rw [hu]; exact hul)
          exact ⟨j, u, by rw [upd_ne _ _ hj] at hu; exact hu, hul, hd, by rw [← href j hj]; exact hr⟩
  · rcases h1 with ⟨rfl, hf⟩ | ⟨rfl, i, t, rfl, ha⟩
    · simp only [specStep, hf, Bool.false_eq_true, false_and, if_false]
      exact hM l
    · refine lookup_ext ha.inv l _ ?_
      intro d ref
      have href : ∀ j, j ≠ i → m'.tileRef j = m.tileRef j := by
        intro j hj
        unfold Mesh.tileRef
        rw [ha.cfg.bits, ha.salt, upd_ne _ _ hj]
      obtain ⟨free, bucket, w⟩ := hi
      simp only [specStep, locOf_tile (w.ok i t ha.old), Option.some.injEq]
      rw [ha.tile]
      by_cases hl : t.loc = l
      · rw [if_pos ⟨by decide, hl⟩]
        simp only [reduceCtorEq, false_iff]
        rintro ⟨j, u, hu, hul, _, _⟩
        have hj : j ≠ i := by rintro rfl; simp at hu
        rw [upd_ne _ _ hj] at hu
        have e : u.loc = t.loc := hul.trans hl.symm
        unfold Tile.loc at e
        simp only [Prod.mk.injEq] at e
        exact hj (w.uniq j i u t hu ha.old e.1 e.2.1 e.2.2)
      · rw [if_neg (fun hc => hl hc.2), hMl]
        constructor
        · rintro ⟨j, u, hu, hul, hd, hr⟩
          have hj : j ≠ i := by
            rintro rfl
            rw [ha.old] at hu
            simp only [Option.some.injEq] at hu
            exact hl (by rw [hu]; exact hul)
          exact ⟨j, u, by rw [upd_ne _ _ hj]; exact hu, hul, hd, by rw [href j hj]; exact hr⟩
        · rintro ⟨j, u, hu, hul, hd, hr⟩
          have hj : j ≠ i := by rintro rfl; simp at hu
          exact ⟨j, u, by rw [upd_ne _ _ hj] at hu; exact hu, hul, hd, by rw [← href j hj]; exact hr⟩

theorem lookup_run {m m' : Mesh} (hi : Inv m) {ops : List Op} {os : List Obs}
    (h : run m ops = .ok (os, m')) (M : Loc → Option (Bytes × U32))
    (hM : ∀ l, m.lookup l = some (M l)) : ∀ l, m'.lookup l = some (os.foldl specStep M l) := by
  induction ops generalizing m os M with
  | nil =>
    simp only [run, Out.ok.injEq, Prod.mk.injEq] at h
    obtain ⟨rfl, rfl⟩ := h
    exact hM
  | cons op ops ih =>
    obtain ⟨o, m1, os', h1, h2, rfl⟩ := run_cons h
    exact ih (step_inv hi h1).1 h2 (specStep M o) (lookup_step hi h1 M hM)

end Verif.Detour
