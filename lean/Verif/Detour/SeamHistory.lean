/-
The links across tile borders after any sequence of `AddTile` and `RemoveTile` (detour/mesh.go:310-538): they are exactly those the
geometry of the two tiles asks for, so they do not depend on the order of the calls, on the slots the tiles got, or on tiles that
came and went. Geometry as in `LinkComplete.lean`, but a contact depends on the two tiles only (`findConnectingPolys`,
detour/mesh.go:1323-1388, reads vertices and polygons of `fromTile` and `toTile`).
-/
import Verif.Detour.LinkComplete

namespace Verif.Detour

/-! ## Specification -/

/-- The contact of an edge and a polygon depends on the two tiles only. -/
def Geo.Local (g : Geo) : Prop :=
  ∀ (s s' : LMesh) (a b a' b' : Nat), s.mesh.tile a = s'.mesh.tile a' → s.mesh.tile b = s'.mesh.tile b' →
    ∀ i j k, g.touch s a i j b k = g.touch s' a' i j b' k

/-- Spec: polygon `p` of tile `t` is no off-mesh connection. -/
def GroundIn (t : Tile) (p : Nat) : Prop := ∀ c ∈ t.body.offMeshCons, c.poly.toNat ≠ p

/-- Spec: the link that polygon `p` of tile `a` must have for touching polygon `k` of tile `b` with portal edge `j`: the edge faces
the cell of `b` (or the tiles share a cell). -/
def SeamLink (g : Geo) (s : LMesh) (a p b k : Nat) (l : LinkInfo) : Prop :=
  ∃ ta tb P j ne bb, s.mesh.tile a = some ta ∧ s.mesh.tile b = some tb ∧ ta.body.polys[p]? = some P ∧ j < P.vertCount.toNat ∧
    P.neis[j]? = some ne ∧ 0x8000 ≤ ne.toNat ∧ (At none ta tb ∨ At (some (ne.toNat % 256)) ta tb) ∧ Touches g s a p j b k bb ∧
    l = ⟨polyRefOf s.mesh b k, BitVec.ofNat 8 j, BitVec.ofNat 8 (ne.toNat % 256), bb.1, bb.2⟩

/-- Spec: a mesh that comes from a fresh one by admissible `AddTile` and `RemoveTile` calls, no link table ever being full after an
`AddTile`. -/
inductive TileHistory (g : Geo) : LMesh → Prop
  | fresh {p : NavMeshParams} {m0 : Mesh} (hf : Fresh p m0) (lk0 : Nat → LTile) : TileHistory g ⟨m0, lk0⟩
  | add {s s' : LMesh} {d : Bytes} {r ref : U32} {st : Status} (h : TileHistory g s) (hop : GoodOp s.mesh.bits (.add g d r))
      (ha : s.addTile g d r = .ok (st, ref, s')) (hroom : ∀ a t, s'.mesh.tile a = some t → ¬ Full a s') : TileHistory g s'
  | remove {s s' : LMesh} {d : Bytes} {ref : U32} {st : Status} (h : TileHistory g s) (ha : s.removeTile ref = .ok (d, st, s')) :
      TileHistory g s'

/-! ## Which links `AddTile` creates -/

/-- `s'` comes from `s` by creating links satisfying `Q` at existing polygons. -/
inductive PushesOf (Q : Nat → Nat → LinkInfo → Prop) : LMesh → LMesh → Prop
  | refl (s) : PushesOf Q s s
  | step {s s1 s2 : LMesh} {a p : Nat} {l : LinkInfo} (hp : p < (s.mesh.polysOf a).length) (hq : Q a p l)
      (h1 : s.pushAt a p l = some s1) (h2 : PushesOf Q s1 s2) : PushesOf Q s s2

theorem PushesOf.trans {Q} {s s1 s2 : LMesh} (h : PushesOf Q s s1) (h' : PushesOf Q s1 s2) : PushesOf Q s s2 := by
  induction h with
  | refl => exact h'
  | step hp hq h1 _ ih => exact .step hp hq h1 (ih h')

theorem PushesOf.mesh {Q} {s s1 : LMesh} (h : PushesOf Q s s1) : s1.mesh = s.mesh := by
  induction h with
  | refl => rfl
  | step _ _ h1 _ ih => rw [ih, pushAt_mesh h1]

theorem pushAt_only {s s1 : LMesh} {a p a' p' : Nat} {l l' : LinkInfo} (hs : Pools s) (hp' : p' < (s.mesh.polysOf a').length)
    (h : s.pushAt a' p' l' = some s1) (hp : p < (s.mesh.polysOf a).length) (hh : HasLink a p l s1) :
    HasLink a p l s ∨ (a = a' ∧ p = p' ∧ l = l') := by
  obtain ⟨v, hv, hpv⟩ := polys_tile hp
  obtain ⟨n, c, hc⟩ := hs a v hv
  unfold LMesh.pushAt at h
  obtain ⟨t, h1, rfl⟩ := Option.map_eq_some_iff.1 h
  unfold HasLink at hh ⊢
  by_cases ha : a' = a
  · subst ha
    have hpv' : p' < v.body.polys.length := by
      rw [polysOf_eq hv] at hp'
      exact hp'
    simp only [upd_same] at hh
    rcases push_links hc hpv' h1 hpv with ⟨_, rfl⟩ | h2
    · exact .inl hh
    · obtain ⟨ls, h3, h4⟩ := hh
      rw [h2] at h3
      cases h3
      split at h4
      · rename_i hpp
        rcases List.mem_cons.1 h4 with rfl | h4
        · exact .inr ⟨rfl, hpp, rfl⟩
        · exact .inl ⟨_, hc.links hpv, h4⟩
      · exact .inl ⟨_, hc.links hpv, h4⟩
  · simp only [upd_ne _ _ (Ne.symm ha)] at hh
    exact .inl hh

theorem PushesOf.links {Q} {s s1 : LMesh} (h : PushesOf Q s s1) : Pools s → ∀ {a p l}, p < (s.mesh.polysOf a).length →
    HasLink a p l s1 → HasLink a p l s ∨ Q a p l := by
  induction h with
  | refl => intro _ a p l _ hh; exact .inl hh
  | step hp hq h1 _ ih =>
    intro hs a p l hpp hh
    rcases ih (pushAt_pools hs hp h1) (by rw [pushAt_mesh h1]; exact hpp) hh with h2 | h2
    · rcases pushAt_only hs hp h1 hpp h2 with h3 | ⟨rfl, rfl, rfl⟩
      · exact .inl h3
      · exact .inr hq
    · exact .inr h2

theorem foldlM_pushesOf {α : Type} {Q} {f : LMesh → α → Option LMesh} {m : Mesh} : ∀ (l : List α) {s s' : LMesh},
    (∀ s x s', x ∈ l → s.mesh = m → f s x = some s' → PushesOf Q s s') → s.mesh = m → l.foldlM f s = some s' → PushesOf Q s s'
  | [], s, s', _, _, h => by cases h; exact .refl _
  | x :: l, s, s', hf, hm, h => by
    rw [List.foldlM_cons] at h
    obtain ⟨s1, h1, h2⟩ := Option.bind_eq_some_iff.1 h
    have p1 := hf s x s1 (by simp) hm h1
    exact p1.trans (foldlM_pushesOf l (fun s x s' hx => hf s x s' (by simp [hx])) (p1.mesh.trans hm) h2)

/-- Whatever `findConnectingPolys` returns touches. -/
theorem findConnecting_touches {g : Geo} {s : LMesh} {a p j b k : Nat} {bb : Byte × Byte}
    (h : (k, bb) ∈ findConnecting g s a p j b) : Touches g s a p j b k bb := by
  unfold findConnecting at h
  have h0 := List.mem_of_mem_take h
  rw [List.mem_filterMap] at h0
  obtain ⟨k', hk', h1⟩ := h0
  rw [Option.map_eq_some_iff] at h1
  obtain ⟨bb', h1, h2⟩ := h1
  cases h2
  have hk := List.mem_range.1 hk'
  refine ⟨hk, h1, ?_⟩
  by_contra hc
  obtain ⟨r, hr⟩ : ∃ r, (s.mesh.polysOf b).length = k + r := ⟨_, (Nat.add_sub_cancel' (by omega)).symm⟩
  rw [hr, List.range_add, List.filterMap_append] at h
  have hlen : ((List.range k).filterMap fun k => (g.touch s a p j b k).map fun bb => (k, bb)).length
      = ((List.range k).filter fun k' => (g.touch s a p j b k').isSome).length := by
    rw [List.length_filterMap_eq_countP, ← List.countP_eq_length_filter]
    congr 1
    funext k
    simp
  rw [List.take_append_of_le_length (by rw [hlen]; omega)] at h
  have h3 := List.mem_of_mem_take h
  rw [List.mem_filterMap] at h3
  obtain ⟨k'', h4, h5⟩ := h3
  rw [Option.map_eq_some_iff] at h5
  obtain ⟨_, _, h5⟩ := h5
  have := List.mem_range.1 h4
  have e := congrArg Prod.fst h5
  dsimp only at e
  omega

/-- What a link created by the linking part of `AddTile` may be. -/
def SeamNew (g : Geo) (s0 : LMesh) (a p : Nat) (l : LinkInfo) : Prop :=
  ∀ ta, s0.mesh.tile a = some ta → GroundIn ta p → l.edge ≠ 0xff#8 → ∃ b k, SeamLink g s0 a p b k l

theorem connectExt_of {g : Geo} (hg : g.Blind) {a b : Nat} {side : Option Nat} {s0 s s' : LMesh} (hm : s.mesh = s0.mesh)
    {ta tb : Tile} (hta : s0.mesh.tile a = some ta) (htb : s0.mesh.tile b = some tb) (hat : At side ta tb)
    (h : connectExt g a b side s = some s') : PushesOf (SeamNew g s0) s s' := by
  unfold connectExt at h
  refine foldlM_pushesOf (m := s0.mesh) _ ?_ hm h
  intro s1 x s2 hx hm1 h
  rw [hm, polysOf_eq hta] at hx
  have hP : ta.body.polys[x.2]? = some x.1 := by
    obtain ⟨q, n⟩ := x
    exact List.mem_zipIdx_iff_getElem?.1 hx
  refine foldlM_pushesOf (m := s0.mesh) _ ?_ hm1 h
  intro s3 j s4 hj hm3 h
  have hj := List.mem_range.1 hj
  unfold extEdge at h
  split at h
  · cases h
  rename_i ne hne
  split at h
  · cases h; exact .refl _
  rename_i hext
  dsimp only at h
  split at h
  · cases h; exact .refl _
  rename_i hside
  rw [ext_dir] at hside h
  refine foldlM_pushesOf (m := s0.mesh) _ ?_ hm3 h
  intro s5 kb s6 hkb hm5 h
  refine .step (by rw [hm5, polysOf_eq hta]; exact (zipIdx_mem hx).2) ?_ h (.refl _)
  intro ta' hta' _ _
  rw [hta] at hta'
  cases hta'
  refine ⟨b, kb.1, ta, tb, x.1, j, ne, kb.2, hta, htb, hP, hj, hne, ext_high hext, ?_,
    (findConnecting_touches hkb).blind hg hm3, by rw [hm5]; rfl⟩
  cases side with
  | none => exact .inl hat
  | some d =>
    right
    have : some d = some (ne.toNat % 256) := by
      by_contra hc
      exact hside ⟨by simp, hc⟩
    rw [this] at hat
    exact hat

/-- A link at an off-mesh connection, or with the mark of a link back to one. -/
theorem seamNew_con {g : Geo} {s0 : LMesh} {a : Nat} {ta : Tile} (hta : s0.mesh.tile a = some ta) {c : OffMeshCon}
    (hc : c ∈ ta.body.offMeshCons) (l : LinkInfo) : SeamNew g s0 a c.poly.toNat l := by
  intro ta' hta' hgr
  rw [hta] at hta'
  cases hta'
  exact absurd rfl (hgr c hc)

theorem seamNew_back {g : Geo} {s0 : LMesh} {a p : Nat} {r : U32} {x y z : Byte} : SeamNew g s0 a p ⟨r, 0xff#8, x, y, z⟩ :=
  fun _ _ _ h => absurd rfl h

theorem offExt_of {g : Geo} {a b : Nat} {side : Option Nat} {s0 s s' : LMesh} (hm : s.mesh = s0.mesh) {tb : Tile}
    (htb : s0.mesh.tile b = some tb) (h : offExt g a b side s = some s') : PushesOf (SeamNew g s0) s s' := by
  unfold offExt at h
  refine foldlM_pushesOf (m := s0.mesh) _ ?_ hm h
  intro s1 cc s2 hcc hm1 h
  rw [hm, consOf_eq htb] at hcc
  unfold offOne at h
  split at h
  · cases h; exact .refl _
  split at h
  · cases h
  rename_i hp
  split at h
  · cases h; exact .refl _
  split at h
  · cases h; exact .refl _
  obtain ⟨s3, h1, h2⟩ := Option.bind_eq_some_iff.1 h
  refine .step (by omega) (seamNew_con htb (zipIdx_mem hcc).1 _) h1 ?_
  split at h2
  · cases h2; exact .refl _
  split at h2
  · cases h2
  rename_i hk
  exact .step (by omega) seamNew_back h2 (.refl _)

theorem baseOff_of {g : Geo} {i : Nat} {s0 s s' : LMesh} (hm : s.mesh = s0.mesh) {t : Tile}
    (ht : s0.mesh.tile i = some t) (h : baseOff g i s = some s') : PushesOf (SeamNew g s0) s s' := by
  unfold baseOff at h
  refine foldlM_pushesOf (m := s0.mesh) _ ?_ hm h
  intro s1 cc s2 hcc hm1 h
  rw [hm, consOf_eq ht] at hcc
  unfold baseOne at h
  split at h
  · cases h
  rename_i hp
  split at h
  · cases h; exact .refl _
  obtain ⟨s3, h1, h2⟩ := Option.bind_eq_some_iff.1 h
  refine .step (by omega) (seamNew_con ht (zipIdx_mem hcc).1 _) h1 ?_
  split at h2
  · cases h2
  rename_i hk
  exact .step (by omega) seamNew_back h2 (.refl _)

theorem linkPair_of {g : Geo} (hg : g.Blind) {i j : Nat} {side : Option Nat} {s0 s s' : LMesh} (hm : s.mesh = s0.mesh) {ti tj : Tile}
    (hti : s0.mesh.tile i = some ti) (htj : s0.mesh.tile j = some tj) (hat : At side ti tj) (h : linkPair g i side s j = some s') :
    PushesOf (SeamNew g s0) s s' := by
  unfold linkPair at h
  obtain ⟨s1, h1, h⟩ := Option.bind_eq_some_iff.1 h
  obtain ⟨s2, h2, h⟩ := Option.bind_eq_some_iff.1 h
  obtain ⟨s3, h3, h⟩ := Option.bind_eq_some_iff.1 h
  have p1 := connectExt_of hg hm hti htj hat h1
  have m1 := p1.mesh.trans hm
  have p2 := connectExt_of hg m1 htj hti hat.symm h2
  have m2 := p2.mesh.trans m1
  have p3 := offExt_of m2 htj h3
  exact p1.trans (p2.trans (p3.trans (offExt_of (p3.mesh.trans m2) hti h)))

theorem linkAll_of {g : Geo} (hg : g.Blind) {i : Nat} {s0 s s' : LMesh} (hi : Inv s0.mesh) (hm : s.mesh = s0.mesh) {t : Tile}
    (ht : s0.mesh.tile i = some t) (h : linkAll g i t.header.x t.header.y s = some s') : PushesOf (SeamNew g s0) s s' := by
  unfold linkAll at h
  obtain ⟨s1, h1, h⟩ := Option.bind_eq_some_iff.1 h
  obtain ⟨s2, h2, h⟩ := Option.bind_eq_some_iff.1 h
  obtain ⟨neis, hn, h⟩ := Option.bind_eq_some_iff.1 h
  obtain ⟨s3, h3, h4⟩ := Option.bind_eq_some_iff.1 h
  have cell : ∀ {x y : U32} {neis : List Nat}, s0.mesh.tilesAt x y 32 = some neis → ∀ j ∈ neis, ∃ u, s0.mesh.tile j = some u ∧
      u.header.x = x ∧ u.header.y = y := by
    intro x y neis hn j hj
    obtain ⟨l, e, _, hl⟩ := tilesAt_inv hi x y 32
    rw [e] at hn
    cases hn
    exact (hl j).1 (List.mem_of_mem_take hj)
  have p1 := baseOff_of hm ht h1
  have m1 := p1.mesh.trans hm
  have p2 := offExt_of m1 ht h2
  have m2 := p2.mesh.trans m1
  have p3 : PushesOf (SeamNew g s0) s2 s3 := by
    refine foldlM_pushesOf (m := s0.mesh) _ ?_ m2 h3
    intro s4 j s5 hj hm4 h
    split at h
    · cases h; exact .refl _
    · rw [m2] at hn
      obtain ⟨u, hu, hx, hy⟩ := cell hn j hj
      exact linkPair_of (side := none) hg hm4 ht hu ⟨hx, hy⟩ h
  refine p1.trans (p2.trans (p3.trans (foldlM_pushesOf (m := s0.mesh) _ ?_ (p3.mesh.trans m2) h4)))
  intro s4 d s5 hd hm4 h
  obtain ⟨neis', hn', h⟩ := Option.bind_eq_some_iff.1 h
  refine foldlM_pushesOf (m := s0.mesh) _ ?_ hm4 h
  intro s6 j s7 hj hm6 h
  rw [hm4] at hn'
  obtain ⟨u, hu, hx, hy⟩ := cell hn' j hj
  exact linkPair_of (side := some d) hg hm6 ht hu ⟨List.mem_range.1 hd, hx, hy⟩ h

/-! ## The invariant -/

/-- Contacts move with the tiles. -/
theorem SeamLink.move {g : Geo} (hg : g.Local) {s s' : LMesh} {a p b k a' b' : Nat} {l : LinkInfo} (h : SeamLink g s a p b k l)
    (ha : s'.mesh.tile a' = s.mesh.tile a) (hb : s'.mesh.tile b' = s.mesh.tile b) :
    SeamLink g s' a' p b' k ⟨polyRefOf s'.mesh b' k, l.edge, l.side, l.bmin, l.bmax⟩ := by
  obtain ⟨ta, tb, P, j, ne, bb, hta, htb, hP, hj, hne, hext, hat, ht, rfl⟩ := h
  refine ⟨ta, tb, P, j, ne, bb, ha.trans hta, hb.trans htb, hP, hj, hne, hext, hat, ?_, rfl⟩
  unfold Touches at ht ⊢
  rw [polysOf_eq (hb.trans htb)]
  rw [polysOf_eq htb] at ht
  simpa only [hg s s' a b a' b' ha.symm hb.symm] using ht

theorem SeamLink.same {g : Geo} (hg : g.Local) {s s' : LMesh} {a p b k : Nat} {l : LinkInfo} (h : SeamLink g s a p b k l)
    (ha : s'.mesh.tile a = s.mesh.tile a) (hb : s'.mesh.tile b = s.mesh.tile b) (hr : s'.mesh.tileRef b = s.mesh.tileRef b) :
    SeamLink g s' a p b k l := by
  have := h.move hg ha hb
  have e : polyRefOf s'.mesh b k = l.ref := by
    obtain ⟨ta, tb, P, j, ne, bb, hta, htb, hP, hj, hne, hext, hat, ht, rfl⟩ := h
    unfold polyRefOf
    rw [hr]
  rw [e] at this
  exact this

theorem SeamLink.decode {g : Geo} {s : LMesh} (hs : LMInv s) {a p b k : Nat} {l : LinkInfo} (h : SeamLink g s a p b k l) :
    (s.mesh.bits.decodeTile l.ref).toNat = b := by
  obtain ⟨ta, tb, P, j, ne, bb, hta, htb, hP, hj, hne, hext, hat, ht, rfl⟩ := h
  have hbl : b < s.mesh.maxTiles := by
    obtain ⟨_, _, w⟩ := hs.inv; exact w.range b tb htb
  have hk := ht.1
  rw [polysOf_eq htb] at hk
  exact (encode_index hs.inv hbl k (by have := (hs.tiles b tb htb).count; omega)).1

theorem SeamLink.good {g : Geo} {s : LMesh} {a p b k : Nat} {l : LinkInfo} (h : SeamLink g s a p b k l) : GoodLink s.mesh a p l := by
  obtain ⟨ta, tb, P, j, ne, bb, hta, htb, hP, hj, hne, hext, hat, ht, rfl⟩ := h
  have hk := ht.1
  rw [polysOf_eq htb] at hk
  rcases hat with hat | hat
  · exact ⟨ta, b, tb, k, hta, htb, ⟨_, hat⟩, hk, rfl, .border P j ne none hP hj hne hext rfl rfl (.inl rfl) hat⟩
  · exact ⟨ta, b, tb, k, hta, htb, ⟨_, hat⟩, hk, rfl, .border P j ne _ hP hj hne hext rfl rfl (.inr rfl) hat⟩

theorem SeamLink.lt {g : Geo} {s : LMesh} {a p b k : Nat} {l : LinkInfo} (h : SeamLink g s a p b k l) {ta : Tile}
    (hta : s.mesh.tile a = some ta) : p < ta.body.polys.length := by
  obtain ⟨ta', tb, P, j, ne, bb, hta', htb, hP, _⟩ := h
  rw [hta] at hta'
  cases hta'
  exact (List.getElem?_eq_some_iff.1 hP).1

/-- The links from ground polygons into other tiles are the ones the geometry asks for. -/
structure SeamInv (g : Geo) (s : LMesh) : Prop where
  inv : LMInv s
  sound : ∀ a ta p l, s.mesh.tile a = some ta → p < ta.body.polys.length → HasLink a p l s → GroundIn ta p → l.edge ≠ 0xff#8 →
    (s.mesh.bits.decodeTile l.ref).toNat ≠ a → ∃ b k, SeamLink g s a p b k l
  complete : ∀ a b p k l, a ≠ b → SeamLink g s a p b k l → HasLink a p l s

theorem SeamInv.add {g : Geo} (hg : g.Blind) (hl : g.Local) {s s' : LMesh} (h : SeamInv g s) {d : Bytes} {r ref : U32} {st : Status}
    (hop : GoodOp s.mesh.bits (.add g d r)) (ha : s.addTile g d r = .ok (st, ref, s'))
    (hroom : ∀ a t, s'.mesh.tile a = some t → ¬ Full a s') : SeamInv g s' := by
  cases hm : s.mesh.addTile d r with
  | fatal => unfold LMesh.addTile at ha; rw [hm] at ha; cases ha
  | panic => unfold LMesh.addTile at ha; rw [hm] at ha; cases ha
  | hang => unfold LMesh.addTile at ha; rw [hm] at ha; cases ha
  | ok x =>
    obtain ⟨st', ref', m'⟩ := x
    obtain ⟨s2, e, hsm, hs2, hgrown⟩ := addTile_links h.inv hop hm
    have e' := e
    rw [ha] at e
    simp only [Out.ok.injEq, Prod.mk.injEq] at e
    obtain ⟨rfl, rfl, rfl⟩ := e
    rcases addTile_cases h.inv.inv hm with ⟨rfl, _, h2⟩ | ⟨rfl, i, t, htd, had, href⟩
    · have : s' = s := by
        unfold LMesh.addTile at ha
        rw [hm] at ha
        simp only at ha
        rw [if_neg (by rintro rfl; exact absurd h2 (by decide))] at ha
        simp only [Out.ok.injEq, Prod.mk.injEq, true_and] at ha
        exact ha.symm
      rw [this]
      exact h
    obtain ⟨i', t', s1, hti, hrefi, hdec, hm1, _, hs1, hold, hnew, hlk⟩ := addTile_start_int h.inv hop ha
    have hii : i' = i := by
      have : (m'.bits.decodeTile (m'.tileRef i)).toNat = i :=
        decodeTile_tileRef had.inv (by rw [had.cfg.max]; exact had.lt)
      rw [← hdec, hsm, href]
      exact this
    subst hii
    have tile_old : ∀ b, b ≠ i' → s'.mesh.tile b = s.mesh.tile b := by
      intro b hb
      rw [hsm, had.tile, upd_ne _ _ hb]
    have ref_old : ∀ b, b ≠ i' → s'.mesh.tileRef b = s.mesh.tileRef b := by
      intro b hb
      rw [hsm]
      unfold Mesh.tileRef
      rw [had.cfg.bits, had.salt b hb]
    have bits_eq : s'.mesh.bits = s.mesh.bits := by rw [hsm, had.cfg.bits]
    have hpush := linkAll_of hg (s0 := s') hs2.inv hm1 hti hlk
    refine ⟨hs2, ?_, ?_⟩
    · intro a ta p l hta hp hh hgr hed hne
      rcases hpush.links hs1 (by rw [hm1, polysOf_eq hta]; exact hp) hh with h3 | h3
      · by_cases hai : a = i'
        · subst hai
          rw [hti] at hta
          cases hta
          obtain ⟨P, hP, hint⟩ := hnew p l hp h3
          exfalso
          have hgt := hs2.tiles _ _ hti
          unfold internalLinks at hint
          split at hint
          · simp at hint
          obtain ⟨j, ne', hj, hne', hint', rfl⟩ := mem_intLinksOf.1 hint
          have hle := hgt.neis P (List.mem_of_getElem? hP) ne' (List.mem_of_getElem? hne') hint'
          have hpos : ne'.toNat ≠ 0 := fun h0 => hint'.1 (BitVec.eq_of_toNat_eq (by simpa using h0))
          have er : (intLink (s'.mesh.tileRef a) j ne').ref = s'.mesh.tileRef a ||| BitVec.ofNat 32 (ne'.toNat - 1) := by
            simp only [intLink]
            congr 1
            apply BitVec.eq_of_toNat_eq
            have := ne'.isLt
            rw [BitVec.toNat_setWidth, BitVec.toNat_sub, BitVec.toNat_ofNat, BitVec.toNat_ofNat]
            omega
          rw [er] at hne
          have hal : a < s'.mesh.maxTiles := by
            rw [hsm, had.cfg.max]; exact had.lt
          exact hne (encode_index hs2.inv hal _ (by have := hgt.count; omega)).1
        · have hta' : s.mesh.tile a = some ta := by rw [← tile_old a hai]; exact hta
          have h4 : HasLink a p l s := by
            unfold HasLink at h3 ⊢
            rw [hold a hai] at h3
            exact h3
          obtain ⟨b, k, h5⟩ := h.sound a ta p l hta' hp h4 hgr hed (by rw [← bits_eq]; exact hne)
          have hbi : b ≠ i' := by
            rintro rfl
            obtain ⟨_, tb, _, _, _, _, _, htb, _⟩ := h5
            rw [had.empty] at htb
            cases htb
          exact ⟨b, k, h5.same hl (tile_old a hai) (tile_old b hbi) (ref_old b hbi)⟩
      · exact h3 ta hta hgr hed
    · intro a b p k l hab hsl
      by_cases hone : i' = a ∨ i' = b
      · have hsl' := hsl
        obtain ⟨ta, tb, P, j, ne, bb, hta, htb, hP, hj, hne, hext, hat, ht, rfl⟩ := hsl'
        exact (border_links_inv h.inv hg hop ha hta htb hab (by rw [hdec]; exact hone) hP hj hne hext hat ht).resolve_left (hroom a ta hta)
      · have hai : a ≠ i' := fun hx => hone (.inl hx.symm)
        have hbi : b ≠ i' := fun hx => hone (.inr hx.symm)
        have hs0 := hsl.same hl (tile_old a hai).symm (tile_old b hbi).symm (ref_old b hbi).symm
        have hh := h.complete a b p k l hab hs0
        obtain ⟨ta, _, _, _, _, _, hta, _⟩ := id hs0
        obtain ⟨old, new, h1, h2, _⟩ := hgrown a ta p hta (hs0.lt hta)
        obtain ⟨ls, h3, h4⟩ := hh
        rw [h1] at h3
        cases h3
        exact ⟨_, h2, List.mem_append_right _ h4⟩

theorem SeamInv.remove {g : Geo} (hl : g.Local) {s s' : LMesh} (h : SeamInv g s) {d : Bytes} {ref : U32} {st : Status}
    (ha : s.removeTile ref = .ok (d, st, s')) : SeamInv g s' := by
  cases hm : s.mesh.removeTile ref with
  | fatal => unfold LMesh.removeTile at ha; rw [hm] at ha; cases ha
  | panic => unfold LMesh.removeTile at ha; rw [hm] at ha; cases ha
  | hang => unfold LMesh.removeTile at ha; rw [hm] at ha; cases ha
  | ok x =>
    obtain ⟨d', st', m'⟩ := x
    obtain ⟨s2, e, hsm, hs2, hshrunk⟩ := removeTile_links h.inv hm
    rw [ha] at e
    simp only [Out.ok.injEq, Prod.mk.injEq] at e
    obtain ⟨rfl, rfl, rfl⟩ := e
    rcases removeTile_cases h.inv.inv hm with ⟨rfl, rfl⟩ | ⟨rfl, i, t, _, hr⟩
    · have : s' = s := by
        unfold LMesh.removeTile at ha
        rw [hm] at ha
        simp only at ha
        rw [if_neg (by decide)] at ha
        simp only [Out.ok.injEq, Prod.mk.injEq, true_and] at ha
        exact ha.symm
      rw [this]
      exact h
    have tile_old : ∀ b, b ≠ i → s'.mesh.tile b = s.mesh.tile b := by
      intro b hb
      rw [hsm, hr.tile, upd_ne _ _ hb]
    have tile_gone : s'.mesh.tile i = none := by rw [hsm, hr.tile, upd_same]
    have ref_old : ∀ b, b ≠ i → s'.mesh.tileRef b = s.mesh.tileRef b := by
      intro b hb
      rw [hsm]
      unfold Mesh.tileRef
      rw [hr.cfg.bits, hr.salt, upd_ne _ _ hb]
    have bits_eq : s'.mesh.bits = s.mesh.bits := by rw [hsm, hr.cfg.bits]
    have ne_i : ∀ {a ta}, s'.mesh.tile a = some ta → a ≠ i := by
      rintro a ta hta rfl
      rw [tile_gone] at hta
      cases hta
    refine ⟨hs2, ?_, ?_⟩
    · intro a ta p l hta hp hh hgr hed hne
      have hai := ne_i hta
      obtain ⟨old, h1, h2⟩ := hshrunk a ta p hta hp
      obtain ⟨ls, h3, h4⟩ := hh
      rw [h2] at h3
      cases h3
      obtain ⟨h5, h6⟩ := List.mem_filter.1 h4
      obtain ⟨b, k, h7⟩ := h.sound a ta p l (by rw [← tile_old a hai]; exact hta) hp ⟨old, h1, h5⟩ hgr hed (by rw [← bits_eq]; exact hne)
      have hbi : b ≠ i := by
        rintro rfl
        have hd := h7.decode h.inv
        obtain ⟨_, _, u, hu, _⟩ := valid_iff_decode.1 h6
        rw [bits_eq, hd, tile_gone] at hu
        cases hu
      exact ⟨b, k, h7.same hl (tile_old a hai) (tile_old b hbi) (ref_old b hbi)⟩
    · intro a b p k l hab hsl
      obtain ⟨ta, tb, _, _, _, _, hta, htb, _⟩ := id hsl
      have hai := ne_i hta
      have hbi := ne_i htb
      have hs0 := hsl.same hl (tile_old a hai).symm (tile_old b hbi).symm (ref_old b hbi).symm
      obtain ⟨ls, h3, h4⟩ := h.complete a b p k l hab hs0
      obtain ⟨old, h1, h2⟩ := hshrunk a ta p hta (hsl.lt hta)
      rw [h1] at h3
      cases h3
      exact ⟨_, h2, List.mem_filter.2 ⟨h4, good_valid hs2 hsl.good⟩⟩

theorem TileHistory.seams {g : Geo} (hg : g.Blind) (hl : g.Local) {s : LMesh} (h : TileHistory g s) : SeamInv g s := by
  induction h with
  | fresh hf lk0 =>
    refine ⟨fresh_links hf lk0, ?_, ?_⟩
    · intro a ta p l hta
      rw [hf.empty a] at hta
      cases hta
    · rintro a b p k l _ ⟨ta, _, _, _, _, _, hta, _⟩
      rw [hf.empty a] at hta
      cases hta
  | add _ hop ha hroom ih => exact ih.add hg hl hop ha hroom
  | remove _ ha ih => exact ih.remove hl ha

/-! ## The property -/

/-- **C168** (exact): after any history of calls, a polygon of tile `a` that is no off-mesh connection has a link into another tile
`b` (other than the links back to off-mesh connections, which carry edge 0xff) exactly where one of its portal edges that faces the
cell of `b` touches a polygon of `b` — one of the first four in index order — and the link then carries the reference of that
polygon, the number of the edge, the side and the limits of the contact. -/
theorem seams_exact {g : Geo} (hg : g.Blind) (hl : g.Local) {s : LMesh} (h : TileHistory g s) {a b p : Nat} {ta : Tile}
    (hta : s.mesh.tile a = some ta) (hp : p < ta.body.polys.length) (hgr : GroundIn ta p) (hab : a ≠ b) {l : LinkInfo}
    (hed : l.edge ≠ 0xff#8) :
    (HasLink a p l s ∧ (s.mesh.bits.decodeTile l.ref).toNat = b) ↔ ∃ k, SeamLink g s a p b k l := by
  have hi := h.seams hg hl
  constructor
  · rintro ⟨hh, hb⟩
    obtain ⟨b', k, hs⟩ := hi.sound a ta p l hta hp hh hgr hed (by rw [hb]; exact Ne.symm hab)
    have := hs.decode hi.inv
    rw [hb] at this
    subst this
    exact ⟨k, hs⟩
  · rintro ⟨k, hs⟩
    exact ⟨hi.complete a b p k l hab hs, hs.decode hi.inv⟩

/-- **C168** (order): take two meshes, each with any history of calls — other orders, other tiles added and removed in between,
replaced tiles — that hold the same two tiles, in whatever slots. Then the links from ground polygons of the first tile to
polygons of the second correspond: same polygons, edges, sides and limits. -/
theorem seams_order_free {g : Geo} (hg : g.Blind) (hl : g.Local) {s s' : LMesh} (h : TileHistory g s) (h' : TileHistory g s')
    {a b a' b' : Nat} {ta tb : Tile} (hta : s.mesh.tile a = some ta) (htb : s.mesh.tile b = some tb)
    (hta' : s'.mesh.tile a' = some ta) (htb' : s'.mesh.tile b' = some tb) (hab : a ≠ b) (hab' : a' ≠ b') {p k : Nat}
    (hp : p < ta.body.polys.length) (hk : k < tb.body.polys.length) (hgr : GroundIn ta p) {e sd lo hi : Byte} (he : e ≠ 0xff#8) :
    HasLink a p ⟨polyRefOf s.mesh b k, e, sd, lo, hi⟩ s ↔ HasLink a' p ⟨polyRefOf s'.mesh b' k, e, sd, lo, hi⟩ s' := by
  have key : ∀ {s s' : LMesh} (_ : TileHistory g s) (_ : TileHistory g s')
      {a b a' b' : Nat} (_ : s.mesh.tile a = some ta) (_ : s.mesh.tile b = some tb)
      (_ : s'.mesh.tile a' = some ta) (_ : s'.mesh.tile b' = some tb) (_ : a ≠ b) (_ : a' ≠ b'),
      HasLink a p ⟨polyRefOf s.mesh b k, e, sd, lo, hi⟩ s → HasLink a' p ⟨polyRefOf s'.mesh b' k, e, sd, lo, hi⟩ s' := by
    intro s s' h h' a b a' b' hta htb hta' htb' hab hab' hh
    have hi := (h.seams hg hl).inv
    have hbl : b < s.mesh.maxTiles := by
      obtain ⟨_, _, w⟩ := hi.inv; exact w.range b tb htb
    have hd := encode_index hi.inv hbl k (by have := (hi.tiles b tb htb).count; omega)
    obtain ⟨k', hs⟩ := (seams_exact hg hl h hta hp hgr hab he).1 ⟨hh, hd.1⟩
    have hkk : k' = k := by
      obtain ⟨_, tb', _, _, _, _, _, htb2, _, _, _, _, _, ht, hl⟩ := id hs
      have e1 := congrArg LinkInfo.ref hl
      dsimp only [polyRefOf] at e1
      have hk' := ht.1
      rw [polysOf_eq htb] at hk'
      have hd' := encode_index hi.inv hbl k' (by have := (hi.tiles b tb htb).count; omega)
      rw [← hd.2.2.1, ← hd'.2.2.1, e1]
    subst hkk
    have hm := hs.move hl (hta'.trans hta.symm) (htb'.trans htb.symm)
    exact ((seams_exact hg hl h' hta' hp hgr hab' he).2 ⟨_, hm⟩).1
  exact ⟨key h h' hta htb hta' htb' hab hab', key h' h hta' htb' hta htb hab' hab⟩

/-! ## Witness -/

theorem allTouch_local : allTouch.Local := fun _ _ _ _ _ _ _ _ _ _ _ => rfl

/-- The mesh after a list of calls. -/
def edgeRun (ops : List LMOp) : LMesh :=
  match LMesh.run ops ⟨smallMesh, fun _ => .fresh 0 (fun _ => ⟨0, 0, 0, 0, 0⟩) fun _ => none⟩ with
  | .ok s => s
  | _ => ⟨smallMesh, fun _ => .fresh 0 (fun _ => ⟨0, 0, 0, 0, 0⟩) fun _ => none⟩

def edgeAdd (x : U32) : LMOp := .add allTouch (edgeData x 0 0x8000 0x8004) 0#32

theorem edgeAdd_good {x : U32} (hx : x = 5 ∨ x = 6) : GoodOp smallMesh.bits (edgeAdd x) := by
  rcases hx with rfl | rfl
  · exact edgeOps_good _ (by simp [edgeOps, edgeAdd])
  · exact edgeOps_good _ (by simp [edgeOps, edgeAdd])

set_option maxRecDepth 100000 in
theorem edge_history1 : TileHistory allTouch (edgeRun [edgeAdd 5, edgeAdd 6]) := by
  refine .add (s := edgeRun [edgeAdd 5]) (.add (s := edgeRun []) (.fresh smallMesh_fresh _) (edgeAdd_good (.inl rfl)) rfl ?_)
    (edgeAdd_good (.inr rfl)) rfl ?_
  · rintro (_ | a) t ht hf
    · cases (show (some 0 : Option Nat) = none from hf)
    · cases (show (none : Option Tile) = some t from ht)
  · rintro (_ | _ | a) t ht hf
    · cases (show (some 1 : Option Nat) = none from hf)
    · cases (show (some 1 : Option Nat) = none from hf)
    · cases (show (none : Option Tile) = some t from ht)

set_option maxRecDepth 100000 in
theorem edge_history2 : TileHistory allTouch (edgeRun [edgeAdd 6, edgeAdd 5, .remove 80#32, edgeAdd 5]) := by
  refine .add (s := edgeRun [edgeAdd 6, edgeAdd 5, .remove 80#32]) (.remove (s := edgeRun [edgeAdd 6, edgeAdd 5]) (ref := 80#32)
    (.add (s := edgeRun [edgeAdd 6]) (.add (s := edgeRun []) (.fresh smallMesh_fresh _) (edgeAdd_good (.inr rfl)) rfl ?_)
    (edgeAdd_good (.inl rfl)) rfl ?_) rfl) (edgeAdd_good (.inl rfl)) rfl ?_
  · rintro (_ | a) t ht hf
    · cases (show (some 0 : Option Nat) = none from hf)
    · cases (show (none : Option Tile) = some t from ht)
  · rintro (_ | _ | a) t ht hf
    · cases (show (some 1 : Option Nat) = none from hf)
    · cases (show (some 1 : Option Nat) = none from hf)
    · cases (show (none : Option Tile) = some t from ht)
  · rintro (_ | _ | a) t ht hf
    · cases (show (some 1 : Option Nat) = none from hf)
    · cases (show (some 1 : Option Nat) = none from hf)
    · cases (show (none : Option Tile) = some t from ht)

set_option maxRecDepth 100000 in
/-- The hypotheses of C168 are met: the left tile first, or the right tile first and the left one added, removed and added again.
Slots and references differ; the link of the left tile's polygon is there in both, and it is a seam link. -/
example : TileHistory allTouch (edgeRun [edgeAdd 5, edgeAdd 6]) ∧
    TileHistory allTouch (edgeRun [edgeAdd 6, edgeAdd 5, .remove 80#32, edgeAdd 5]) ∧
    (edgeRun [edgeAdd 5, edgeAdd 6]).mesh.tile 0 = some (edgeTile 5 0 0x8000 0x8004) ∧
    (edgeRun [edgeAdd 5, edgeAdd 6]).mesh.tile 1 = some (edgeTile 6 0 0x8000 0x8004) ∧
    (edgeRun [edgeAdd 6, edgeAdd 5, .remove 80#32, edgeAdd 5]).mesh.tile 1 = some (edgeTile 5 0 0x8000 0x8004) ∧
    (edgeRun [edgeAdd 6, edgeAdd 5, .remove 80#32, edgeAdd 5]).mesh.tile 0 = some (edgeTile 6 0 0x8000 0x8004) ∧
    GroundIn (edgeTile 5 0 0x8000 0x8004) 0 ∧
    HasLink 0 0 ⟨80#32, 0#8, 0#8, 0#8, 255#8⟩ (edgeRun [edgeAdd 5, edgeAdd 6]) ∧
    HasLink 1 0 ⟨64#32, 0#8, 0#8, 0#8, 255#8⟩ (edgeRun [edgeAdd 6, edgeAdd 5, .remove 80#32, edgeAdd 5]) ∧
    SeamLink allTouch (edgeRun [edgeAdd 5, edgeAdd 6]) 0 0 1 0 ⟨80#32, 0#8, 0#8, 0#8, 255#8⟩ :=
  ⟨edge_history1, edge_history2, rfl, rfl, rfl, rfl, fun c hc => by simp [edgeTile] at hc, ⟨_, rfl, by decide⟩, ⟨_, rfl, by decide⟩,
    ⟨_, _, _, 0, 0x8000, (0, 255), rfl, rfl, rfl, by decide, rfl, by decide, .inr ⟨by decide, rfl, rfl⟩,
      ⟨by show 0 < 1; decide, rfl, by decide⟩, rfl⟩⟩

end Verif.Detour
