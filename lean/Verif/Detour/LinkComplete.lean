/-
Which links `AddTile` makes (detour/mesh.go:401-435): the converse of "every link has a reason". Geometry is an arbitrary function
of the mesh (`Geo`), as in `MeshLinks.lean`, but does not look at links (`findConnectingPolys` and `FindNearestPolyInTile` read
vertices, polygons, detail meshes and BV trees only).
-/
import Verif.Detour.MeshLinks

namespace Verif.Detour

/-! ## Specification -/

/-- Spec: the link table of tile `a` has no free entry. -/
def Full (a : Nat) (s : LMesh) : Prop := (s.lk a).free = none

/-- Spec: polygon `p` of tile `a` has the link. -/
def HasLink (a p : Nat) (l : LinkInfo) (s : LMesh) : Prop := ∃ ls, (s.lk a).links p = some ls ∧ l ∈ ls

/-- Spec: polygon `p` of tile `a` has the link, or the link table of the tile is full. -/
def Has (a p : Nat) (l : LinkInfo) (s : LMesh) : Prop := Full a s ∨ HasLink a p l s

/-- Spec: the reference of polygon `k` of tile `b`. -/
def polyRefOf (m : Mesh) (b k : Nat) : U32 := m.tileRef b ||| BitVec.ofNat 32 k

/-- Spec: portal edge `j` of polygon `p` of tile `a` touches polygon `k` of tile `b`, with the limits `bb`, and fewer than four
polygons before `k`. -/
def Touches (g : Geo) (s : LMesh) (a p j b k : Nat) (bb : Byte × Byte) : Prop :=
  k < (s.mesh.polysOf b).length ∧ g.touch s a p j b k = some bb ∧
    ((List.range k).filter fun k' => (g.touch s a p j b k').isSome).length < 4

/-- The geometry does not depend on links. -/
def Geo.Blind (g : Geo) : Prop :=
  ∀ s s' : LMesh, s.mesh = s'.mesh → (∀ a i j b k, g.touch s a i j b k = g.touch s' a i j b k) ∧
    ∀ a b c e, g.land s a b c e = g.land s' a b c e

/-! ## Sequences of link creations -/

/-- `s'` comes from `s` by creating links at existing polygons. -/
inductive Pushes : LMesh → LMesh → Prop
  | refl (s) : Pushes s s
  | step {s s1 s2 : LMesh} {a p : Nat} {l : LinkInfo} (hp : p < (s.mesh.polysOf a).length) (h1 : s.pushAt a p l = some s1)
      (h2 : Pushes s1 s2) : Pushes s s2

theorem Pushes.trans {s s1 s2 : LMesh} (h : Pushes s s1) (h' : Pushes s1 s2) : Pushes s s2 := by
  induction h with
  | refl => exact h'
  | step hp h1 _ ih => exact .step hp h1 (ih h')

theorem Pushes.one {s s1 : LMesh} {a p : Nat} {l : LinkInfo} (hp : p < (s.mesh.polysOf a).length) (h1 : s.pushAt a p l = some s1) :
    Pushes s s1 := .step hp h1 (.refl _)

theorem pushAt_mesh {s s1 : LMesh} {a p : Nat} {l : LinkInfo} (h : s.pushAt a p l = some s1) : s1.mesh = s.mesh := by
  unfold LMesh.pushAt at h
  obtain ⟨t, _, rfl⟩ := Option.map_eq_some_iff.1 h
  rfl

theorem Pushes.mesh {s s1 : LMesh} (h : Pushes s s1) : s1.mesh = s.mesh := by
  induction h with
  | refl => rfl
  | step _ h1 _ ih => rw [ih, pushAt_mesh h1]

/-- All pools are intact. -/
def Pools (s : LMesh) : Prop := ∀ a t, s.mesh.tile a = some t → ∃ n c, Holds (s.lk a) t.body.polys.length n c

theorem polys_tile {m : Mesh} {a p : Nat} (h : p < (m.polysOf a).length) : ∃ t, m.tile a = some t ∧ p < t.body.polys.length := by
  unfold Mesh.polysOf at h
  split at h
  · simp at h
  · rename_i t ht
    exact ⟨t, ht, h⟩

theorem pushAt_pools {s s1 : LMesh} {a p : Nat} {l : LinkInfo} (hs : Pools s) (hp : p < (s.mesh.polysOf a).length)
    (h : s.pushAt a p l = some s1) : Pools s1 := by
  have hm := pushAt_mesh h
  unfold LMesh.pushAt at h
  obtain ⟨t, h1, rfl⟩ := Option.map_eq_some_iff.1 h
  intro b u hu
  by_cases hb : b = a
  · subst hb
    obtain ⟨n, c, hh⟩ := hs b u hu
    obtain ⟨v, hv, hpv⟩ := polys_tile hp
    have : v = u := by
      have hu' : s.mesh.tile b = some u := hu
      rw [hv] at hu'
      exact Option.some.inj hu'
    subst this
    obtain ⟨t', e, h'⟩ := hh.push hpv l
    rw [h1] at e
    cases e
    simp only [upd_same]
    exact ⟨n, _, h'⟩
  · simp only [upd_ne _ _ hb]
    exact hs b u hu

theorem Pushes.pools {s s1 : LMesh} (h : Pushes s s1) (hs : Pools s) : Pools s1 := by
  induction h with
  | refl => exact hs
  | step hp h1 _ ih => exact ih (pushAt_pools hs hp h1)

/-- What creating a link does to the list of a polygon of the same tile. -/
theorem push_links {t t' : LTile} {P n : Nat} {c : Nat → List LinkInfo} (h : Holds t P n c) {p : Nat} (hp : p < P) {l : LinkInfo}
    (e : t.push p l = some t') {q : Nat} (hq : q < P) :
    (t.free = none ∧ t' = t) ∨ t'.links q = some (if q = p then l :: c q else c q) := by
  obtain ⟨F, L, w, hn, hc⟩ := h
  obtain ⟨t1, F', L', e1, w', hn', h0, h1⟩ := push_inv w hp l
  rw [e] at e1
  cases e1
  by_cases hF : F = []
  · left
    obtain ⟨h2, _, _⟩ := h0 hF
    refine ⟨?_, h2⟩
    have := w.cfree
    rw [hF] at this
    exact this
  · right
    rw [w'.links_eq hq, (h1 hF).2 q hq]
    by_cases hqp : q = p
    · subst hqp
      rw [upd_same, if_pos rfl, hc q hq]
    · rw [upd_ne _ _ hqp, if_neg hqp, hc q hq]

theorem pushAt_has {s s1 : LMesh} {a p : Nat} {l : LinkInfo} (hs : Pools s) (hp : p < (s.mesh.polysOf a).length)
    (h : s.pushAt a p l = some s1) : Has a p l s1 := by
  obtain ⟨v, hv, hpv⟩ := polys_tile hp
  obtain ⟨n, c, hh⟩ := hs a v hv
  unfold LMesh.pushAt at h
  obtain ⟨t, h1, rfl⟩ := Option.map_eq_some_iff.1 h
  unfold Has Full HasLink
  simp only [upd_same]
  rcases push_links hh hpv h1 hpv with ⟨h2, rfl⟩ | h2
  · exact .inl h2
  · rw [if_pos rfl] at h2
    exact .inr ⟨_, h2, by simp⟩

theorem pushAt_full {s s1 : LMesh} {a a' p' : Nat} {l' : LinkInfo} (h : s.pushAt a' p' l' = some s1) (hh : Full a s) : Full a s1 := by
  unfold LMesh.pushAt at h
  obtain ⟨t, h1, rfl⟩ := Option.map_eq_some_iff.1 h
  unfold Full at hh ⊢
  by_cases ha : a' = a
  · subst ha
    simp only [upd_same]
    unfold LTile.push at h1
    rw [hh] at h1
    cases h1
    exact hh
  · simp only [upd_ne _ _ (Ne.symm ha)]
    exact hh

theorem pushAt_keep {s s1 : LMesh} {a p a' p' : Nat} {l l' : LinkInfo} (hs : Pools s) (hp' : p' < (s.mesh.polysOf a').length)
    (h : s.pushAt a' p' l' = some s1) (hp : p < (s.mesh.polysOf a).length) (hh : HasLink a p l s) : HasLink a p l s1 := by
  obtain ⟨v, hv, hpv⟩ := polys_tile hp
  obtain ⟨n, c, hc⟩ := hs a v hv
  unfold LMesh.pushAt at h
  obtain ⟨t, h1, rfl⟩ := Option.map_eq_some_iff.1 h
  unfold HasLink at hh ⊢
  by_cases ha : a' = a
  · subst ha
    have hpv' : p' < v.body.polys.length := by
      rw [polysOf_eq hv] at hp'
      exact hp'
    simp only [upd_same]
    rcases push_links hc hpv' h1 hpv with ⟨_, rfl⟩ | h2
    · exact hh
    · obtain ⟨ls, h3, h4⟩ := hh
      rw [hc.links hpv] at h3
      cases h3
      refine ⟨_, h2, ?_⟩
      split
      · simp [h4]
      · exact h4
  · simp only [upd_ne _ _ (Ne.symm ha)]
    exact hh

theorem Pushes.full {s s1 : LMesh} (h : Pushes s s1) {a : Nat} : Full a s → Full a s1 := by
  induction h with
  | refl => exact id
  | step _ h1 _ ih => exact fun hf => ih (pushAt_full h1 hf)

theorem Pushes.hasLink {s s1 : LMesh} (h : Pushes s s1) : Pools s → ∀ {a p l}, p < (s.mesh.polysOf a).length → HasLink a p l s →
    HasLink a p l s1 := by
  induction h with
  | refl => intro _ a p l _ hh; exact hh
  | step hp h1 _ ih =>
    intro hs a p l hpp hh
    exact ih (pushAt_pools hs hp h1) (by rw [pushAt_mesh h1]; exact hpp) (pushAt_keep hs hp h1 hpp hh)

theorem Pushes.keep {s s1 : LMesh} (h : Pushes s s1) (hs : Pools s) {a p l} (hp : p < (s.mesh.polysOf a).length) (hh : Has a p l s) :
    Has a p l s1 :=
  hh.imp h.full (h.hasLink hs hp)

theorem foldlM_pushes {α : Type} {f : LMesh → α → Option LMesh} : ∀ (l : List α) {s s' : LMesh},
    (∀ s x s', x ∈ l → f s x = some s' → Pushes s s') → l.foldlM f s = some s' → Pushes s s'
  | [], s, s', _, h => by cases h; exact .refl _
  | x :: l, s, s', hf, h => by
    rw [List.foldlM_cons] at h
    obtain ⟨s1, h1, h2⟩ := Option.bind_eq_some_iff.1 h
    exact (hf s x s1 (by simp) h1).trans (foldlM_pushes l (fun s x s' hx => hf s x s' (by simp [hx])) h2)

/-! ## Every step only creates links -/

theorem extEdge_pushes {g : Geo} {a b : Nat} {side : Option Nat} {p : Poly} {i j : Nat} {s s' : LMesh} (hi : i < (s.mesh.polysOf a).length)
    (h : extEdge g a b side p i s j = some s') : Pushes s s' := by
  unfold extEdge at h
  split at h
  · cases h
  split at h
  · cases h; exact .refl _
  dsimp only at h
  split at h
  · cases h; exact .refl _
  have key : ∀ (l : List (Nat × Byte × Byte)) {s s' : LMesh} {mk : LMesh → Nat × Byte × Byte → LinkInfo}, i < (s.mesh.polysOf a).length →
      l.foldlM (fun s kb => s.pushAt a i (mk s kb)) s = some s' → Pushes s s' := by
    intro l
    induction l with
    | nil => intro s s' mk _ h; cases h; exact .refl _
    | cons x l ih =>
      intro s s' mk hi h
      rw [List.foldlM_cons] at h
      obtain ⟨s1, h1, h2⟩ := Option.bind_eq_some_iff.1 h
      exact .step hi h1 (ih (by rw [pushAt_mesh h1]; exact hi) h2)
  exact key _ hi h

/-- As `foldlM_pushes`, where a step may rely on the mesh. -/
theorem foldlM_pushes' {α : Type} {f : LMesh → α → Option LMesh} {m : Mesh} : ∀ (l : List α) {s s' : LMesh},
    (∀ s x s', x ∈ l → s.mesh = m → f s x = some s' → Pushes s s') → s.mesh = m → l.foldlM f s = some s' → Pushes s s'
  | [], s, s', _, _, h => by cases h; exact .refl _
  | x :: l, s, s', hf, hm, h => by
    rw [List.foldlM_cons] at h
    obtain ⟨s1, h1, h2⟩ := Option.bind_eq_some_iff.1 h
    have p1 := hf s x s1 (by simp) hm h1
    exact p1.trans (foldlM_pushes' l (fun s x s' hx => hf s x s' (by simp [hx])) (p1.mesh.trans hm) h2)

theorem foldlM_at {α : Type} {f : LMesh → α → Option LMesh} {m : Mesh} {x : α} :
    ∀ (xs : List α) {s s' : LMesh}, (∀ s x s', x ∈ xs → s.mesh = m → f s x = some s' → Pushes s s') → x ∈ xs → s.mesh = m →
    xs.foldlM f s = some s' → ∃ s1 s2, Pushes s s1 ∧ f s1 x = some s2 ∧ Pushes s2 s'
  | y :: xs, s, s', hf, hx, hme, h => by
    rw [List.foldlM_cons] at h
    obtain ⟨s1, h1, h2⟩ := Option.bind_eq_some_iff.1 h
    have p1 := hf s y s1 (by simp) hme h1
    have hm1 : s1.mesh = m := p1.mesh.trans hme
    rcases List.mem_cons.1 hx with rfl | hx
    · exact ⟨s, s1, .refl _, h1, foldlM_pushes' xs (fun s x s' hx => hf s x s' (by simp [hx])) hm1 h2⟩
    · obtain ⟨s2, s3, h3, h4, h5⟩ := foldlM_at xs (fun s x s' hx => hf s x s' (by simp [hx])) hx hm1 h2
      exact ⟨s2, s3, p1.trans h3, h4, h5⟩

theorem connectExt_poly_pushes {g : Geo} {a b : Nat} {side : Option Nat} {s s' : LMesh} {x : Poly × Nat} {m : Mesh}
    (hx : x ∈ (m.polysOf a).zipIdx) (hm : s.mesh = m)
    (h : (List.range x.1.vertCount.toNat).foldlM (extEdge g a b side x.1 x.2) s = some s') : Pushes s s' := by
  refine foldlM_pushes' (m := m) _ ?_ hm h
  intro s j s' _ hm h
  exact extEdge_pushes (by rw [hm]; exact (zipIdx_mem hx).2) h

theorem connectExt_pushes {g : Geo} {a b : Nat} {side : Option Nat} {s s' : LMesh} (h : connectExt g a b side s = some s') :
    Pushes s s' := by
  unfold connectExt at h
  refine foldlM_pushes' (m := s.mesh) _ ?_ rfl h
  intro s1 x s' hx hm h
  exact connectExt_poly_pushes hx hm h

theorem offOne_pushes {g : Geo} {a b : Nat} {side : Option Nat} {s s' : LMesh} {cc : OffMeshCon × Nat}
    (h : offOne g a b side s cc = some s') : Pushes s s' := by
  unfold offOne at h
  split at h
  · cases h; exact .refl _
  split at h
  · cases h
  rename_i hp
  split at h
  · cases h; exact .refl _
  split at h
  · cases h; exact .refl _
  obtain ⟨s1, h1, h2⟩ := Option.bind_eq_some_iff.1 h
  refine .step (by omega) h1 ?_
  split at h2
  · cases h2; exact .refl _
  split at h2
  · cases h2
  rename_i hk
  exact .one (by omega) h2

theorem offExt_pushes {g : Geo} {a b : Nat} {side : Option Nat} {s s' : LMesh} (h : offExt g a b side s = some s') : Pushes s s' :=
  foldlM_pushes _ (fun _ _ _ _ h => offOne_pushes h) h

theorem baseOne_pushes {g : Geo} {i : Nat} {s s' : LMesh} {cc : OffMeshCon × Nat} (h : baseOne g i s cc = some s') : Pushes s s' := by
  unfold baseOne at h
  split at h
  · cases h
  rename_i hp
  split at h
  · cases h; exact .refl _
  obtain ⟨s1, h1, h2⟩ := Option.bind_eq_some_iff.1 h
  refine .step (by omega) h1 ?_
  split at h2
  · cases h2
  rename_i hk
  exact .one (by omega) h2

theorem baseOff_pushes {g : Geo} {i : Nat} {s s' : LMesh} (h : baseOff g i s = some s') : Pushes s s' :=
  foldlM_pushes _ (fun _ _ _ _ h => baseOne_pushes h) h

theorem linkPair_pushes {g : Geo} {i j : Nat} {side : Option Nat} {s s' : LMesh} (h : linkPair g i side s j = some s') : Pushes s s' := by
  unfold linkPair at h
  obtain ⟨s1, h1, h⟩ := Option.bind_eq_some_iff.1 h
  obtain ⟨s2, h2, h⟩ := Option.bind_eq_some_iff.1 h
  obtain ⟨s3, h3, h⟩ := Option.bind_eq_some_iff.1 h
  exact (connectExt_pushes h1).trans ((connectExt_pushes h2).trans ((offExt_pushes h3).trans (offExt_pushes h)))

theorem linkAll_pushes {g : Geo} {i : Nat} {x y : U32} {s s' : LMesh} (h : linkAll g i x y s = some s') : Pushes s s' := by
  unfold linkAll at h
  obtain ⟨s1, h1, h⟩ := Option.bind_eq_some_iff.1 h
  obtain ⟨s2, h2, h⟩ := Option.bind_eq_some_iff.1 h
  obtain ⟨neis, _, h⟩ := Option.bind_eq_some_iff.1 h
  obtain ⟨s3, h3, h4⟩ := Option.bind_eq_some_iff.1 h
  refine (baseOff_pushes h1).trans ((offExt_pushes h2).trans (Pushes.trans (foldlM_pushes _ ?_ h3) (foldlM_pushes _ ?_ h4)))
  · intro s j s' _ h
    split at h
    · cases h; exact .refl _
    · exact linkPair_pushes h
  · intro s d s' _ h
    obtain ⟨neis, _, h⟩ := Option.bind_eq_some_iff.1 h
    exact foldlM_pushes _ (fun _ _ _ _ h => linkPair_pushes h) h

/-! ## Which calls are made -/

/-- The calls for a pair of tiles, one of them the new one. -/
theorem linkAll_pair {g : Geo} {m : Mesh} (hi : Inv m) (hall : ∀ a t, m.tile a = some t → t.header.layer.toNat < 32) {i j : Nat}
    {ti tj : Tile} (htj : m.tile j = some tj) (hij : j ≠ i) {side : Option Nat} (hat : At side ti tj)
    {s s' : LMesh} (hm : s.mesh = m) (h : linkAll g i ti.header.x ti.header.y s = some s') :
    ∃ s1 s2 s3, baseOff g i s = some s1 ∧ Pushes s1 s2 ∧ linkPair g i side s2 j = some s3 ∧ Pushes s3 s' := by
  unfold linkAll at h
  obtain ⟨s1, h1, h⟩ := Option.bind_eq_some_iff.1 h
  obtain ⟨s2, h2, h⟩ := Option.bind_eq_some_iff.1 h
  obtain ⟨neis, hn, h⟩ := Option.bind_eq_some_iff.1 h
  obtain ⟨s3, h3, h4⟩ := Option.bind_eq_some_iff.1 h
  have p2 := offExt_pushes h2
  have m2 : s2.mesh = m := by rw [p2.mesh, (baseOff_pushes h1).mesh, hm]
  have pcell : Pushes s2 s3 := by
    refine foldlM_pushes _ ?_ h3
    intro s j s' _ h
    split at h
    · cases h; exact .refl _
    · exact linkPair_pushes h
  have m3 : s3.mesh = m := pcell.mesh.trans m2
  have whole : ∀ x y : U32, tj.header.x = x → tj.header.y = y → ∃ l : List Nat, m.tilesAt x y 32 = some l ∧ j ∈ l := by
    intro x y hx hy
    obtain ⟨l, e, hnd, hl⟩ := tilesAt_inv hi x y 32
    have hle := cell_le hi hall l hnd x y fun k hk => (hl k).1 hk
    rw [List.take_of_length_le hle] at e
    exact ⟨l, e, (hl j).2 ⟨tj, htj, hx, hy⟩⟩
  cases side with
  | none =>
    obtain ⟨l, e, hjl⟩ := whole _ _ hat.1 hat.2
    rw [m2, e] at hn
    cases hn
    obtain ⟨s4, s5, h5, h6, h7⟩ := foldlM_at (m := m) _ (fun s k s' _ _ h => by
      split at h
      · cases h; exact .refl _
      · exact linkPair_pushes h) hjl m2 h3
    rw [if_neg hij] at h6
    refine ⟨s1, s4, s5, h1, p2.trans h5, h6, h7.trans (foldlM_pushes _ ?_ h4)⟩
    intro s d s' _ h
    obtain ⟨neis, _, h⟩ := Option.bind_eq_some_iff.1 h
    exact foldlM_pushes _ (fun _ _ _ _ h => linkPair_pushes h) h
  | some d =>
    obtain ⟨hd, hx, hy⟩ := hat
    obtain ⟨s4, s5, h5, h6, h7⟩ := foldlM_at (m := m) (x := d) _ (fun s k s' _ _ h => by
      obtain ⟨neis, _, h⟩ := Option.bind_eq_some_iff.1 h
      exact foldlM_pushes _ (fun _ _ _ _ h => linkPair_pushes h) h) (List.mem_range.2 hd) m3 h4
    have m4 : s4.mesh = m := h5.mesh.trans m3
    obtain ⟨l, e, hjl⟩ := whole _ _ hx hy
    obtain ⟨neis', hn', h6⟩ := Option.bind_eq_some_iff.1 h6
    rw [m4] at hn'
    unfold Mesh.neighboursAt at hn'
    rw [e] at hn'
    cases hn'
    obtain ⟨s6, s7, h8, h9, h10⟩ := foldlM_at (m := m) _ (fun s k s' _ _ h => linkPair_pushes h) hjl m4 h6
    exact ⟨s1, s6, s7, h1, p2.trans (pcell.trans (h5.trans h8)), h9, h10.trans h7⟩

/-- Both directions of both kinds of call. -/
theorem linkAll_calls {g : Geo} {m : Mesh} (hi : Inv m) (hall : ∀ a t, m.tile a = some t → t.header.layer.toNat < 32) {i a b : Nat}
    {ti ta tb : Tile} (hti : m.tile i = some ti) (hta : m.tile a = some ta) (htb : m.tile b = some tb) (hab : a ≠ b)
    (hone : a = i ∨ b = i) {side : Option Nat} (hat : At side ta tb)
    {s s' : LMesh} (hm : s.mesh = m) (h : linkAll g i ti.header.x ti.header.y s = some s') :
    (∃ s1 s2, Pushes s s1 ∧ connectExt g a b side s1 = some s2 ∧ Pushes s2 s') ∧
    ∃ s0 s1 s2, baseOff g i s = some s0 ∧ Pushes s0 s1 ∧ offExt g a b side s1 = some s2 ∧ Pushes s2 s' := by
  rcases hone with rfl | rfl
  · rw [hti] at hta
    cases hta
    obtain ⟨s1, s2, s3, h1, h2, h3, h4⟩ := linkAll_pair hi hall htb (Ne.symm hab) hat hm h
    unfold linkPair at h3
    obtain ⟨u1, k1, h3⟩ := Option.bind_eq_some_iff.1 h3
    obtain ⟨u2, k2, h3⟩ := Option.bind_eq_some_iff.1 h3
    obtain ⟨u3, k3, k4⟩ := Option.bind_eq_some_iff.1 h3
    have q1 := connectExt_pushes k1
    have q2 := connectExt_pushes k2
    have q3 := offExt_pushes k3
    have q4 := offExt_pushes k4
    exact ⟨⟨s2, u1, (baseOff_pushes h1).trans h2, k1, q2.trans (q3.trans (q4.trans h4))⟩,
      s1, u2, u3, h1, h2.trans (q1.trans q2), k3, q4.trans h4⟩
  · rw [hti] at htb
    cases htb
    obtain ⟨s1, s2, s3, h1, h2, h3, h4⟩ := linkAll_pair hi hall hta hab hat.symm hm h
    unfold linkPair at h3
    rw [hat.opp] at h3
    obtain ⟨u1, k1, h3⟩ := Option.bind_eq_some_iff.1 h3
    obtain ⟨u2, k2, h3⟩ := Option.bind_eq_some_iff.1 h3
    obtain ⟨u3, k3, k4⟩ := Option.bind_eq_some_iff.1 h3
    have q1 := connectExt_pushes k1
    have q2 := connectExt_pushes k2
    have q3 := offExt_pushes k3
    have q4 := offExt_pushes k4
    exact ⟨⟨u1, u2, (baseOff_pushes h1).trans (h2.trans q1), k2, q3.trans (q4.trans h4)⟩,
      s1, u3, s3, h1, h2.trans (q1.trans (q2.trans q3)), k4, h4⟩

/-! ## What the calls make -/

theorem findConnecting_mem {g : Geo} {s : LMesh} {a p j b k : Nat} {bb : Byte × Byte} (h : Touches g s a p j b k bb) :
    (k, bb) ∈ findConnecting g s a p j b := by
  obtain ⟨hk, ht, hc⟩ := h
  unfold findConnecting
  obtain ⟨r, hr⟩ : ∃ r, (s.mesh.polysOf b).length = k + 1 + r := ⟨_, (Nat.add_sub_cancel' hk).symm⟩
  rw [hr, List.range_add, List.range_succ, List.filterMap_append, List.filterMap_append]
  have hlen : ((List.range k).filterMap fun k => (g.touch s a p j b k).map fun bb => (k, bb)).length
      = ((List.range k).filter fun k' => (g.touch s a p j b k').isSome).length := by
    rw [List.length_filterMap_eq_countP, ← List.countP_eq_length_filter]
    congr 1
    funext k
    simp
  rw [List.append_assoc, List.take_append, List.mem_append]
  right
  rw [hlen]
  obtain ⟨n, hn⟩ : ∃ n, 4 - ((List.range k).filter fun k' => (g.touch s a p j b k').isSome).length = n + 1 :=
    ⟨_, (Nat.sub_add_cancel (by omega : 1 ≤ 4 - _)).symm⟩
  rw [hn]
  simp [ht]

theorem findConnecting_blind {g : Geo} (hg : g.Blind) {s s' : LMesh} (h : s.mesh = s'.mesh) (a p j b : Nat) :
    findConnecting g s a p j b = findConnecting g s' a p j b := by
  unfold findConnecting
  rw [h]
  simp only [(hg s s' h).1]

theorem connectExt_has {g : Geo} (hg : g.Blind) {a b : Nat} {side : Option Nat} {s s' : LMesh} (hs : Pools s)
    (h : connectExt g a b side s = some s') {p j : Nat} {P : Poly} {ne : U16} (hP : (s.mesh.polysOf a)[p]? = some P)
    (hj : j < P.vertCount.toNat) (hne : P.neis[j]? = some ne) (hext : 0x8000 ≤ ne.toNat)
    (hside : side = none ∨ side = some (ne.toNat % 256)) {k : Nat} {bb : Byte × Byte} (hk : (k, bb) ∈ findConnecting g s a p j b) :
    Has a p ⟨polyRefOf s.mesh b k, BitVec.ofNat 8 j, BitVec.ofNat 8 (ne.toNat % 256), bb.1, bb.2⟩ s' := by
  have hp : p < (s.mesh.polysOf a).length := (List.getElem?_eq_some_iff.1 hP).1
  have hpm : (P, p) ∈ (s.mesh.polysOf a).zipIdx := by
    rw [List.mem_zipIdx_iff_getElem?]
    exact hP
  unfold connectExt at h
  obtain ⟨s1, s2, h1, h2, h3⟩ := foldlM_at (m := s.mesh) _ (fun s x s' hx hm h => connectExt_poly_pushes hx hm h) hpm rfl h
  dsimp only at h2
  have m1 : s1.mesh = s.mesh := h1.mesh
  obtain ⟨s3, s4, h4, h5, h6⟩ := foldlM_at (m := s.mesh) (x := j) _
    (fun s x s' _ hm h => extEdge_pushes (by rw [hm]; exact hp) h) (List.mem_range.2 hj) m1 h2
  have m3 : s3.mesh = s.mesh := h4.mesh.trans m1
  have hs3 : Pools s3 := (h1.trans h4).pools hs
  unfold extEdge at h5
  rw [hne] at h5
  dsimp only at h5
  rw [if_neg ((ext_bit ne).2 hext), ext_dir, if_neg (by rintro ⟨x, y⟩; exact hside.elim x y),
    findConnecting_blind hg m3] at h5
  obtain ⟨s5, s6, h7, h8, h9⟩ := foldlM_at (m := s.mesh) (x := (k, bb)) _
    (fun s x s' _ hm h => Pushes.one (by rw [hm]; exact hp) h) hk m3 h5
  have m5 : s5.mesh = s.mesh := h7.mesh.trans m3
  have hs5 := h7.pools hs3
  have hp5 : p < (s5.mesh.polysOf a).length := by rw [m5]; exact hp
  have p6 := Pushes.one hp5 h8
  have := pushAt_has hs5 hp5 h8
  rw [m5] at this
  exact (h9.trans (h6.trans h3)).keep (p6.pools hs5) (by rw [p6.mesh]; exact hp5) this

theorem baseOff_has {g : Geo} (hg : g.Blind) {i : Nat} {s s' : LMesh} (hs : Pools s) (h : baseOff g i s = some s') {c : OffMeshCon}
    {ci k : Nat} (hc : (s.mesh.consOf i)[ci]? = some c) (hk : g.land s i i ci false = some k) :
    Has i c.poly.toNat ⟨polyRefOf s.mesh i k, 0#8, 0xff#8, 0#8, 0#8⟩ s' ∧
    Has i k ⟨polyRefOf s.mesh i c.poly.toNat, 0xff#8, 0xff#8, 0#8, 0#8⟩ s' := by
  have hcm : (c, ci) ∈ (s.mesh.consOf i).zipIdx := by
    rw [List.mem_zipIdx_iff_getElem?]
    exact hc
  obtain ⟨s1, s2, h1, h2, h3⟩ := foldlM_at (m := s.mesh) _ (fun _ _ _ _ _ h => baseOne_pushes h) hcm rfl h
  have m1 : s1.mesh = s.mesh := h1.mesh
  unfold baseOne at h2
  split at h2
  · cases h2
  rename_i hp
  simp only [(hg s1 s m1).2, hk] at h2
  obtain ⟨s3, h4, h5⟩ := Option.bind_eq_some_iff.1 h2
  split at h5
  · cases h5
  rename_i hk'
  have hs1 := h1.pools hs
  dsimp only at hp h4 h5
  have p1 := Pushes.one (by omega) h4
  have hs3 := p1.pools hs1
  have p2 := Pushes.one (by omega) h5
  have e1 := pushAt_has hs1 (by omega) h4
  have e2 := pushAt_has hs3 (by omega) h5
  have m3 : s3.mesh = s.mesh := p1.mesh.trans m1
  rw [m1] at e1
  rw [m3, conRef] at e2
  exact ⟨(p2.trans h3).keep hs3 (by rw [p1.mesh]; omega) e1, h3.keep (p2.pools hs3) (by rw [p2.mesh]; omega) e2⟩

theorem first_of_link {a p : Nat} {l : LinkInfo} {s : LMesh} (hs : Pools s) (hp : p < (s.mesh.polysOf a).length) (h : HasLink a p l s) :
    (s.lk a).first p ≠ none := by
  obtain ⟨t, ht, hpt⟩ := polys_tile hp
  obtain ⟨n, c, F, L, w, hn, hc⟩ := hs a t ht
  obtain ⟨ls, h1, h2⟩ := h
  rw [w.links_eq hpt] at h1
  cases h1
  intro h0
  have hch := w.cpoly p hpt
  rw [h0] at hch
  rw [Chain.none_iff.1 hch] at h2
  simp at h2

theorem offExt_has {g : Geo} (hg : g.Blind) {a b : Nat} {side : Option Nat} {s s' : LMesh} (hs : Pools s)
    (h : offExt g a b side s = some s') {c : OffMeshCon} {ci k : Nat} (hc : (s.mesh.consOf b)[ci]? = some c)
    (hcs : c.side = sideByte (oppSide side)) {l0 : LinkInfo} (hl : HasLink b c.poly.toNat l0 s)
    (hk : g.land s a b ci true = some k) :
    Has b c.poly.toNat ⟨polyRefOf s.mesh a k, 1#8, c.side, 0#8, 0#8⟩ s' ∧
    (c.flags &&& 1#8 ≠ 0#8 → Has a k ⟨polyRefOf s.mesh b c.poly.toNat, 0xff#8, sideByte side, 0#8, 0#8⟩ s') := by
  have hcm : (c, ci) ∈ (s.mesh.consOf b).zipIdx := by
    rw [List.mem_zipIdx_iff_getElem?]
    exact hc
  obtain ⟨s1, s2, h1, h2, h3⟩ := foldlM_at (m := s.mesh) _ (fun _ _ _ _ _ h => offOne_pushes h) hcm rfl h
  have m1 : s1.mesh = s.mesh := h1.mesh
  unfold offOne at h2
  rw [if_neg (by simp [hcs])] at h2
  split at h2
  · cases h2
  rename_i hp
  dsimp only at hp h2
  have hs1 := h1.pools hs
  have hf := first_of_link hs1 (by omega) (h1.hasLink hs (by rw [← m1]; omega) hl)
  split at h2
  · exact absurd (by assumption) hf
  simp only [(hg s1 s m1).2, hk] at h2
  obtain ⟨s3, h4, h5⟩ := Option.bind_eq_some_iff.1 h2
  have p1 := Pushes.one (by omega) h4
  have hs3 := p1.pools hs1
  have m3 : s3.mesh = s.mesh := p1.mesh.trans m1
  have e1 := pushAt_has hs1 (by omega) h4
  rw [m1, ← hcs] at e1
  split at h5
  · rename_i hfl
    cases h5
    exact ⟨h3.keep hs3 (by rw [p1.mesh]; omega) e1, fun hx => absurd hfl hx⟩
  split at h5
  · cases h5
  have p2 := Pushes.one (by omega) h5
  have e2 := pushAt_has hs3 (by omega) h5
  rw [m3, conRef] at e2
  exact ⟨(p2.trans h3).keep hs3 (by rw [p1.mesh]; omega) e1, fun _ => h3.keep (p2.pools hs3) (by rw [p2.mesh]; omega) e2⟩

/-! ## The property -/

/-- The state in which `AddTile` starts linking; the new tile has its internal links. -/
theorem addTile_start_int {s s' : LMesh} (h : LMInv s) {g : Geo} {d : Bytes} {r ref : U32} (hop : GoodOp s.mesh.bits (.add g d r))
    (ha : s.addTile g d r = .ok (Status.success, ref, s')) :
    ∃ i t s1, s'.mesh.tile i = some t ∧ ref = s'.mesh.tileRef i ∧ (s'.mesh.bits.decodeTile ref).toNat = i ∧ s1.mesh = s'.mesh ∧ LMInv s' ∧
      Pools s1 ∧ (∀ b, b ≠ i → s1.lk b = s.lk b) ∧
      (∀ p l, p < t.body.polys.length → HasLink i p l s1 → ∃ P, t.body.polys[p]? = some P ∧ l ∈ internalLinks (s'.mesh.tileRef i) P) ∧
      linkAll g i t.header.x t.header.y s1 = some s' := by
  cases hm : s.mesh.addTile d r with
  | fatal => unfold LMesh.addTile at ha; rw [hm] at ha; cases ha
  | panic => unfold LMesh.addTile at ha; rw [hm] at ha; cases ha
  | hang => unfold LMesh.addTile at ha; rw [hm] at ha; cases ha
  | ok x =>
    obtain ⟨st, ref', m'⟩ := x
    obtain ⟨s2, e, hsm, hs2, _⟩ := addTile_links h hop hm
    rw [ha] at e
    simp only [Out.ok.injEq, Prod.mk.injEq] at e
    obtain ⟨rfl, rfl, rfl⟩ := e
    rcases addTile_cases h.inv hm with ⟨_, _, h2⟩ | ⟨_, i, t, htd, had, href⟩
    · exact absurd h2 (by decide)
    have hti : m'.tile i = some t := by rw [had.tile, upd_same]
    have hdec : (m'.bits.decodeTile ref).toNat = i := by
      rw [href]; exact decodeTile_tileRef had.inv (by rw [had.cfg.max]; exact had.lt)
    unfold LMesh.addTile at ha
    rw [hm] at ha
    simp only at ha
    rw [if_true, hdec, hti] at ha
    simp only at ha
    split at ha
    · cases ha
    rename_i lt hlt
    split at ha
    · cases ha
    rename_i s3 hl
    simp only [Out.ok.injEq, Prod.mk.injEq, true_and] at ha
    subst ha
    have hgt : GoodTile m'.bits t := by rw [had.cfg.bits]; exact hop.2.2 t htd had.ok
    have hmax : 0 < t.header.maxLinkCount.toNat := by
      have := had.ok.links
      rcases Nat.eq_zero_or_pos t.header.maxLinkCount.toNat with h0 | h0
      · exact absurd (BitVec.eq_of_toNat_eq (by simpa using h0)) this
      · exact h0
    obtain ⟨lt', c, e, hh, hint⟩ := connectInt_some (m'.tileRef i) t.body.polys hgt.edges
      (fresh_holds t.header.maxLinkCount.toNat hmax t.infoOf t.firstOf fun _ => [])
    rw [hlt] at e
    cases e
    rw [Nat.zero_add] at hh hint
    refine ⟨i, t, ⟨m', upd s.lk i lt⟩, by rw [hsm]; exact hti, by rw [hsm]; exact href, by rw [hsm]; exact hdec, hsm.symm, hs2, ?_,
      fun b hb => upd_ne _ _ hb, ?_, hl⟩
    rotate_left
    · intro p l hp hll
      obtain ⟨ls, h1, h2⟩ := hll
      simp only [upd_same] at h1
      rw [hh.links hp] at h1
      cases h1
      rcases hint p l hp h2 with ⟨h3, _⟩ | ⟨k, P, h3, h4, h5⟩
      · exact absurd h3 (Nat.not_lt_zero _)
      · rw [Nat.zero_add] at h3
        subst h3
        exact ⟨P, h4, by rw [hsm]; exact h5⟩
    intro b u hu
    by_cases hb : b = i
    · subst hb
      have hu' : m'.tile b = some u := hu
      rw [hti] at hu'
      cases hu'
      simp only [upd_same]
      exact ⟨_, c, hh⟩
    · simp only [upd_ne _ _ hb]
      have hu' : m'.tile b = some u := hu
      rw [had.tile, upd_ne _ _ hb] at hu'
      obtain ⟨n, c, h1, _⟩ := h.good b u hu'
      exact ⟨n, c, h1⟩

/-- The state in which `AddTile` starts linking. -/
theorem addTile_start {s s' : LMesh} (h : LMInv s) {g : Geo} {d : Bytes} {r ref : U32} (hop : GoodOp s.mesh.bits (.add g d r))
    (ha : s.addTile g d r = .ok (Status.success, ref, s')) :
    ∃ i t s1, s'.mesh.tile i = some t ∧ ref = s'.mesh.tileRef i ∧ (s'.mesh.bits.decodeTile ref).toNat = i ∧ s1.mesh = s'.mesh ∧ LMInv s' ∧
      Pools s1 ∧ (∀ b, b ≠ i → s1.lk b = s.lk b) ∧ linkAll g i t.header.x t.header.y s1 = some s' := by
  obtain ⟨i, t, s1, h1, h2, h3, h4, h5, h6, h7, _, h8⟩ := addTile_start_int h hop ha
  exact ⟨i, t, s1, h1, h2, h3, h4, h5, h6, h7, h8⟩

theorem Touches.blind {g : Geo} (hg : g.Blind) {s s' : LMesh} (h : s.mesh = s'.mesh) {a p j b k : Nat} {bb : Byte × Byte}
    (ht : Touches g s a p j b k bb) : Touches g s' a p j b k bb := by
  unfold Touches at ht ⊢
  rw [← h]
  simpa only [(hg s s' h).1] using ht

theorem border_links_inv {s s' : LMesh} (h : LMInv s) {g : Geo} (hg : g.Blind) {d : Bytes} {r ref : U32}
    (hop : GoodOp s.mesh.bits (.add g d r)) (ha : s.addTile g d r = .ok (Status.success, ref, s')) {a b : Nat} {ta tb : Tile}
    (hta : s'.mesh.tile a = some ta) (htb : s'.mesh.tile b = some tb) (hab : a ≠ b)
    (hone : (s'.mesh.bits.decodeTile ref).toNat = a ∨ (s'.mesh.bits.decodeTile ref).toNat = b)
    {p j : Nat} {P : Poly} {ne : U16} (hP : ta.body.polys[p]? = some P) (hj : j < P.vertCount.toNat) (hne : P.neis[j]? = some ne)
    (hext : 0x8000 ≤ ne.toNat) (hat : At none ta tb ∨ At (some (ne.toNat % 256)) ta tb) {k : Nat} {bb : Byte × Byte}
    (ht : Touches g s' a p j b k bb) :
    Has a p ⟨polyRefOf s'.mesh b k, BitVec.ofNat 8 j, BitVec.ofNat 8 (ne.toNat % 256), bb.1, bb.2⟩ s' := by
  obtain ⟨i, t, s1, hti, _, hdec, hm1, hinv, hs1, _, hl⟩ := addTile_start h hop ha
  rw [hdec] at hone
  have main : ∀ side : Option Nat, (side = none ∨ side = some (ne.toNat % 256)) → At side ta tb → Has a p
      ⟨polyRefOf s'.mesh b k, BitVec.ofNat 8 j, BitVec.ofNat 8 (ne.toNat % 256), bb.1, bb.2⟩ s' := by
    intro side hside hat
    obtain ⟨⟨s2, s3, h2, h3, h4⟩, _⟩ := linkAll_calls hinv.inv (fun a t ht => (hinv.tiles a t ht).layer) hti hta htb hab
      (hone.imp Eq.symm Eq.symm) hat hm1 hl
    have m2 : s2.mesh = s'.mesh := h2.mesh.trans hm1
    have hs2 := h2.pools hs1
    have hP2 : (s2.mesh.polysOf a)[p]? = some P := by rw [m2, polysOf_eq hta]; exact hP
    have e := connectExt_has hg hs2 h3 hP2 hj hne hext hside (findConnecting_mem (ht.blind hg m2.symm))
    have p3 := connectExt_pushes h3
    rw [m2] at e
    exact h4.keep (p3.pools hs2) (by rw [p3.mesh]; exact (List.getElem?_eq_some_iff.1 hP2).1) e
  rcases hat with hat | hat
  · exact main none (.inl rfl) hat
  · exact main _ (.inr rfl) hat

/-- **C112** (borders): after `AddTile`, take the new tile and any other tile `b` in its cell or one of the eight around, in either
order, and a portal edge of the first that faces the second (any portal edge if they share a cell). For the first four polygons of
the second that touch the edge, the edge's polygon has a link with the polygon's reference, the number of the edge, the side and the
limits of the contact, unless the link table of the edge's tile is full. -/
theorem border_links {s s' : LMesh} (h : LReach s) {g : Geo} (hg : g.Blind) {d : Bytes} {r ref : U32}
    (hop : GoodOp s.mesh.bits (.add g d r)) (ha : s.addTile g d r = .ok (Status.success, ref, s')) {a b : Nat} {ta tb : Tile}
    (hta : s'.mesh.tile a = some ta) (htb : s'.mesh.tile b = some tb) (hab : a ≠ b)
    (hone : (s'.mesh.bits.decodeTile ref).toNat = a ∨ (s'.mesh.bits.decodeTile ref).toNat = b)
    {p j : Nat} {P : Poly} {ne : U16} (hP : ta.body.polys[p]? = some P) (hj : j < P.vertCount.toNat) (hne : P.neis[j]? = some ne)
    (hext : 0x8000 ≤ ne.toNat) (hat : At none ta tb ∨ At (some (ne.toNat % 256)) ta tb) {k : Nat} {bb : Byte × Byte}
    (ht : Touches g s' a p j b k bb) :
    Has a p ⟨polyRefOf s'.mesh b k, BitVec.ofNat 8 j, BitVec.ofNat 8 (ne.toNat % 256), bb.1, bb.2⟩ s' :=
  border_links_inv h.inv hg hop ha hta htb hab hone hP hj hne hext hat ht

/-- **C112** (starts of connections): after `AddTile`, an off-mesh connection of the new tile whose start lands on polygon `k` of the
tile is linked with `k` in both directions, unless the link table is full. -/
theorem start_links {s s' : LMesh} (h : LReach s) {g : Geo} (hg : g.Blind) {d : Bytes} {r ref : U32}
    (hop : GoodOp s.mesh.bits (.add g d r)) (ha : s.addTile g d r = .ok (Status.success, ref, s')) {i : Nat} {t : Tile}
    (hi : (s'.mesh.bits.decodeTile ref).toNat = i) (hti : s'.mesh.tile i = some t) {ci k : Nat} {c : OffMeshCon}
    (hc : t.body.offMeshCons[ci]? = some c) (hk : g.land s' i i ci false = some k) :
    Has i c.poly.toNat ⟨polyRefOf s'.mesh i k, 0#8, 0xff#8, 0#8, 0#8⟩ s' ∧
    Has i k ⟨polyRefOf s'.mesh i c.poly.toNat, 0xff#8, 0xff#8, 0#8, 0#8⟩ s' := by
  obtain ⟨i', t', s1, hti', _, hdec, hm1, hinv, hs1, _, hl⟩ := addTile_start h.inv hop ha
  rw [hdec] at hi
  subst hi
  rw [hti] at hti'
  cases hti'
  have hgt := hinv.tiles _ _ hti
  have hlen := hop.1 s' _ _ _ _ _ hk
  have hcp : c.poly.toNat < (s'.mesh.polysOf i').length := by
    rw [polysOf_eq hti]; exact hgt.cons c (List.mem_of_getElem? hc)
  have hl' := hl
  unfold linkAll at hl'
  obtain ⟨s2, h2, h3⟩ := Option.bind_eq_some_iff.1 hl'
  have p2 := baseOff_pushes h2
  have m2 : s2.mesh = s'.mesh := p2.mesh.trans hm1
  obtain ⟨e1, e2⟩ := baseOff_has hg hs1 h2 (c := c) (ci := ci) (k := k) (by rw [hm1, consOf_eq hti]; exact hc)
    (by rw [(hg s1 s' hm1).2]; exact hk)
  rw [hm1] at e1 e2
  have p3 : Pushes s2 s' := by
    obtain ⟨s3, h4, h5⟩ := Option.bind_eq_some_iff.1 h3
    obtain ⟨neis, _, h5⟩ := Option.bind_eq_some_iff.1 h5
    obtain ⟨s4, h6, h7⟩ := Option.bind_eq_some_iff.1 h5
    refine (offExt_pushes h4).trans (Pushes.trans (foldlM_pushes _ ?_ h6) (foldlM_pushes _ ?_ h7))
    · intro s j s' _ h
      split at h
      · cases h; exact .refl _
      · exact linkPair_pushes h
    · intro s d s' _ h
      obtain ⟨neis, _, h⟩ := Option.bind_eq_some_iff.1 h
      exact foldlM_pushes _ (fun _ _ _ _ h => linkPair_pushes h) h
  have hs2 := p2.pools hs1
  exact ⟨p3.keep hs2 (by rw [m2]; exact hcp) e1, p3.keep hs2 (by rw [m2]; exact hlen) e2⟩

/-- **C112** (ends of connections): after `AddTile`, take a tile `b` and a tile `a` on side `e` of it (or in the same cell), at least
one of them the new tile, and an off-mesh connection of `b` that leaves on that side and whose end lands on polygon `k` of `a`. If its
start is linked — it lands in the new tile, or `b` is an old tile and the connection had a link before — the connection has a link to
`k`, and `k` has one back if the connection is bidirectional; unless the link table concerned is full (of `b`, if `b` is new). -/
theorem end_links {s s' : LMesh} (h : LReach s) {g : Geo} (hg : g.Blind) {d : Bytes} {r ref : U32}
    (hop : GoodOp s.mesh.bits (.add g d r)) (ha : s.addTile g d r = .ok (Status.success, ref, s')) {i a b : Nat} {ta tb : Tile}
    (hi : (s'.mesh.bits.decodeTile ref).toNat = i) (hone : i = a ∨ i = b)
    (hta : s'.mesh.tile a = some ta) (htb : s'.mesh.tile b = some tb) {e : Option Nat} (hat : At e tb ta)
    {ci k : Nat} {c : OffMeshCon} (hc : tb.body.offMeshCons[ci]? = some c) (hcs : c.side = sideByte e)
    (hk : g.land s' a b ci true = some k)
    (hstart : (b = i ∧ ∃ k0, g.land s' i i ci false = some k0) ∨ (b ≠ i ∧ ∃ l, HasLink b c.poly.toNat l s)) :
    Has b c.poly.toNat ⟨polyRefOf s'.mesh a k, 1#8, c.side, 0#8, 0#8⟩ s' ∧
    (c.flags &&& 1#8 ≠ 0#8 →
      Has a k ⟨polyRefOf s'.mesh b c.poly.toNat, 0xff#8, sideByte (oppSide e), 0#8, 0#8⟩ s' ∨ (b = i ∧ Full i s')) := by
  obtain ⟨i', t', s1, hti, _, hdec, hm1, hinv, hs1, hold, hl⟩ := addTile_start h.inv hop ha
  rw [hdec] at hi
  subst hi
  have hall := fun a t (ht : s'.mesh.tile a = some t) => (hinv.tiles a t ht).layer
  have hcp : c.poly.toNat < (s'.mesh.polysOf b).length := by
    rw [polysOf_eq htb]; exact (hinv.tiles _ _ htb).cons c (List.mem_of_getElem? hc)
  have hlen := hop.1 s' _ _ _ _ _ hk
  -- the call that handles the connection
  obtain ⟨s2, s3, s4, h2, h3, h4, h5⟩ : ∃ s2 s3 s4, baseOff g i' s1 = some s2 ∧ Pushes s2 s3 ∧
      offExt g a b (oppSide e) s3 = some s4 ∧ Pushes s4 s' := by
    by_cases hab : a = b
    · subst hab
      have hai : i' = a := hone.elim id id
      subst hai
      rw [hti] at htb hta
      cases htb
      have he : e = none := by
        cases e with
        | none => rfl
        | some d =>
          obtain ⟨hd, hx, hy⟩ := hat
          cases hta
          exfalso
          have key : ∀ d : Fin 8, sideX d ≠ 0#32 ∨ sideY d ≠ 0#32 := by decide
          have zero : ∀ u v : U32, u = u + v → v = 0#32 := by
            intro u v h
            exact (BitVec.add_right_eq_self.1 h.symm)
          exact (key ⟨d, hd⟩).elim (fun hn => hn (zero _ _ hx)) fun hn => hn (zero _ _ hy)
      subst he
      have hl' := hl
      unfold linkAll at hl'
      obtain ⟨s2, h2, h3⟩ := Option.bind_eq_some_iff.1 hl'
      obtain ⟨s3, h4, h5⟩ := Option.bind_eq_some_iff.1 h3
      obtain ⟨neis, _, h5⟩ := Option.bind_eq_some_iff.1 h5
      obtain ⟨s4, h6, h7⟩ := Option.bind_eq_some_iff.1 h5
      refine ⟨s2, s2, s3, h2, .refl _, h4, Pushes.trans (foldlM_pushes _ ?_ h6) (foldlM_pushes _ ?_ h7)⟩
      · intro s j s' _ h
        split at h
        · cases h; exact .refl _
        · exact linkPair_pushes h
      · intro s d s' _ h
        obtain ⟨neis, _, h⟩ := Option.bind_eq_some_iff.1 h
        exact foldlM_pushes _ (fun _ _ _ _ h => linkPair_pushes h) h
    · exact (linkAll_calls hinv.inv hall hti hta htb hab (hone.imp Eq.symm Eq.symm) hat.symm hm1 hl).2
  have p2 := baseOff_pushes h2
  have m2 : s2.mesh = s'.mesh := p2.mesh.trans hm1
  have m3 : s3.mesh = s'.mesh := h3.mesh.trans m2
  have hs2 := p2.pools hs1
  have hs3 := h3.pools hs2
  have p4 := offExt_pushes h4
  -- the start of the connection is linked when its end is looked at
  have hfirst : (∃ l, HasLink b c.poly.toNat l s3) ∨ (b = i' ∧ Full i' s3) := by
    rcases hstart with ⟨rfl, k0, hk0⟩ | ⟨hb, l, hl0⟩
    · obtain ⟨e1, _⟩ := baseOff_has hg hs1 h2 (c := c) (ci := ci) (k := k0) (by rw [hm1, consOf_eq htb]; exact hc)
        (by rw [(hg s1 s' hm1).2]; exact hk0)
      rcases h3.keep hs2 (by rw [m2]; exact hcp) e1 with hf | hl0
      · exact .inr ⟨rfl, hf⟩
      · exact .inl ⟨_, hl0⟩
    · have : HasLink b c.poly.toNat l s1 := by
        unfold HasLink
        rw [hold b hb]
        exact hl0
      exact .inl ⟨l, (p2.trans h3).hasLink hs1 (by rw [hm1]; exact hcp) this⟩
  rcases hfirst with ⟨l, hl0⟩ | ⟨rfl, hf⟩
  · obtain ⟨e1, e2⟩ := offExt_has hg hs3 h4 (c := c) (ci := ci) (k := k) (by rw [m3, consOf_eq htb]; exact hc)
      (by rw [hat.opp]; exact hcs) hl0 (by rw [(hg s3 s' m3).2]; exact hk)
    rw [m3] at e1 e2
    have m4 : s4.mesh = s'.mesh := p4.mesh.trans m3
    have hs4 := p4.pools hs3
    exact ⟨h5.keep hs4 (by rw [m4]; exact hcp) e1, fun hb => .inl (h5.keep hs4 (by rw [m4]; exact hlen) (e2 hb))⟩
  · have hf' := (p4.trans h5).full hf
    exact ⟨.inl hf', fun _ => .inr ⟨rfl, hf'⟩⟩

/-! ## Witnesses -/

theorem allTouch_blind : allTouch.Blind := fun _ _ _ => ⟨fun _ _ _ _ _ => rfl, fun _ _ _ _ => rfl⟩

/-- A mesh with the first of the two tiles. -/
def edgeFirst : LMesh :=
  match LMesh.run [.add allTouch (edgeData 5 0 0x8000 0x8004) 0#32] ⟨smallMesh, fun _ => .fresh 0 (fun _ => ⟨0, 0, 0, 0, 0⟩) fun _ => none⟩ with
  | .ok s => s
  | _ => ⟨smallMesh, fun _ => .fresh 0 (fun _ => ⟨0, 0, 0, 0, 0⟩) fun _ => none⟩

set_option maxRecDepth 100000 in
theorem edge_reach : LReach edgeFirst :=
  ⟨smallParams, smallMesh, fun _ => .fresh 0 (fun _ => ⟨0, 0, 0, 0, 0⟩) fun _ => none, [.add allTouch (edgeData 5 0 0x8000 0x8004) 0#32], _, smallMesh_fresh,
    fun op hop => edgeOps_good op (by rw [List.mem_singleton.1 hop]; simp [edgeOps]), rfl, rfl⟩

set_option maxRecDepth 100000 in
/-- The hypotheses of `border_links` are met: of two tiles that touch, the second one is added. Its edge 1 gets its link to the first
tile, in a table with room left, and edge 0 of the first tile the link back. -/
example : ∃ s s' : LMesh, LReach s ∧ allTouch.Blind ∧ GoodOp s.mesh.bits (.add allTouch (edgeData 6 0 0x8000 0x8004) 0#32) ∧
    s.addTile allTouch (edgeData 6 0 0x8000 0x8004) 0#32 = .ok (Status.success, 80#32, s') ∧
    s'.mesh.tile 0 = some (edgeTile 5 0 0x8000 0x8004) ∧ s'.mesh.tile 1 = some (edgeTile 6 0 0x8000 0x8004) ∧
    At (some 0) (edgeTile 5 0 0x8000 0x8004) (edgeTile 6 0 0x8000 0x8004) ∧
    Touches allTouch s' 0 0 0 1 0 (0, 255) ∧ Touches allTouch s' 1 0 1 0 0 (0, 255) ∧ (s'.lk 0).free = some 1 ∧ (s'.lk 1).free = some 1 :=
  ⟨_, _, edge_reach, allTouch_blind, edgeOps_good _ (by simp [edgeOps]), rfl, rfl, rfl, ⟨by decide, rfl, rfl⟩,
    ⟨by show 0 < 1; decide, rfl, by decide⟩, ⟨by show 0 < 1; decide, rfl, by decide⟩, rfl, rfl⟩

/-- A tile with one triangle, a bidirectional connection from it to the tile on side 0, and eight link slots. (Flags and side
of the connection are read from bytes 30 and 31 of the body, see `rdCon`.) -/
def conHeader (x : U32) : MeshHeader :=
  ⟨navMeshMagic, navMeshVersion, x, 0, 0, 0, 2, 0, 8, 0, 0, 0, 0, 1, 1, 0, 0, 0, 0, 0, 0, 0, 0, 0, 0⟩

def conPolys : List Poly := [edgePoly 0x8000 0x8004, ⟨0, [0, 0, 0, 0, 0, 0], [0, 0, 0, 0, 0, 0], 0, 2, 0x40⟩]

def conData (x : U32) : Bytes :=
  (conHeader x).words.flatMap le32 ++ conPolys.flatMap encPoly ++ zeros 96 ++
    (zeros 28 ++ le16 1#16 ++ [1#8, 0#8] ++ le32 0#32)

def conTile (x : U32) : Tile :=
  ⟨conHeader x, ⟨[], conPolys, List.replicate 8 ⟨0, 0, 0, 0, 0, 0⟩, [], [], [], [], [⟨[0, 0, 0, 0, 0, 0], 0, 1, 3, 0, 0⟩]⟩, conData x⟩

/-- Every connection starts and ends on polygon 0 of whichever tile is asked. -/
def allLand : Geo := ⟨fun _ _ _ _ _ _ => none, fun s a _ _ _ => if 0 < (s.mesh.polysOf a).length then some 0 else none⟩

theorem allLand_ok : allLand.OK := by
  intro s a b c e k h
  simp only [allLand] at h
  split at h
  · cases h; assumption
  · cases h

theorem allLand_blind : allLand.Blind := fun s s' h => ⟨fun _ _ _ _ _ => rfl, fun _ _ _ _ => by simp only [allLand, h]⟩

set_option maxRecDepth 100000 in
theorem conTile_ok : TileOK (conTile 5) ∧ TileOK (conTile 6) :=
  ⟨⟨rfl, rfl, by decide, rfl, rfl⟩, ⟨rfl, rfl, by decide, rfl, rfl⟩⟩

theorem conTile_good (x : U32) : GoodTile smallMesh.bits (conTile x) := by
  refine ⟨by show 2 ≤ _; decide, ?_, ?_, ?_, ?_, by show (0#32 : U32).toNat < 32; decide⟩
  · intro p hp
    simp only [conTile, conPolys, List.mem_cons, List.not_mem_nil, or_false] at hp
    rcases hp with rfl | rfl <;> exact ⟨rfl, by decide⟩
  · intro p hp
    simp only [conTile, conPolys, List.mem_cons, List.not_mem_nil, or_false] at hp
    rcases hp with rfl | rfl <;> decide
  · intro p hp ne hne hi
    simp only [conTile, conPolys, List.mem_cons, List.not_mem_nil, or_false] at hp
    rcases hp with rfl | rfl <;> simp only [edgePoly, List.mem_cons, List.not_mem_nil, or_false] at hne <;>
      rcases hne with rfl | rfl | rfl | rfl | rfl | rfl <;> simp [internal] at hi
  · intro c hc
    simp only [conTile, List.mem_singleton] at hc
    subst hc
    show 1 < 2
    decide

def conOps : List LMOp := [.add allLand (conData 5) 0#32, .add allLand (conData 6) 0#32]

theorem conOps_good : ∀ op ∈ conOps, GoodOp smallMesh.bits op := by
  intro op hop
  simp only [conOps, List.mem_cons, List.not_mem_nil, or_false] at hop
  rcases hop with rfl | rfl
  · exact goodOp_of allLand_ok rfl conTile_ok.1 (conTile_good 5)
  · exact goodOp_of allLand_ok rfl conTile_ok.2 (conTile_good 6)

/-- A mesh with the first of the two tiles. -/
def conFirst : LMesh :=
  match LMesh.run [.add allLand (conData 5) 0#32] ⟨smallMesh, fun _ => .fresh 0 (fun _ => ⟨0, 0, 0, 0, 0⟩) fun _ => none⟩ with
  | .ok s => s
  | _ => ⟨smallMesh, fun _ => .fresh 0 (fun _ => ⟨0, 0, 0, 0, 0⟩) fun _ => none⟩

set_option maxRecDepth 100000 in
theorem con_reach : LReach conFirst :=
  ⟨smallParams, smallMesh, fun _ => .fresh 0 (fun _ => ⟨0, 0, 0, 0, 0⟩) fun _ => none, [.add allLand (conData 5) 0#32], _, smallMesh_fresh,
    fun op hop => conOps_good op (by rw [List.mem_singleton.1 hop]; simp [conOps]), rfl, rfl⟩

set_option maxRecDepth 100000 in
/-- The hypotheses of `start_links` and `end_links` are met: the tile to the right of a tile with a connection to the right is added.
The old connection, whose start was linked, gets its link to the new tile, the new tile one back, and the start of the new tile's own
connection is linked too. -/
example : ∃ s s' : LMesh, LReach s ∧ allLand.Blind ∧ GoodOp s.mesh.bits (.add allLand (conData 6) 0#32) ∧
    s.addTile allLand (conData 6) 0#32 = .ok (Status.success, 80#32, s') ∧
    s'.mesh.tile 0 = some (conTile 5) ∧ s'.mesh.tile 1 = some (conTile 6) ∧ At (some 0) (conTile 5) (conTile 6) ∧
    (conTile 5).body.offMeshCons[0]? = some ⟨[0, 0, 0, 0, 0, 0], 0, 1, 3, 0, 0⟩ ∧ allLand.land s' 1 0 0 true = some 0 ∧
    allLand.land s' 1 1 0 false = some 0 ∧ HasLink 0 1 ⟨64#32, 0, 255, 0, 0⟩ s ∧ (s'.lk 0).free = some 3 ∧ (s'.lk 1).free = some 3 ∧
    (s'.lk 0).links 1 = some [⟨80#32, 1, 0, 0, 0⟩, ⟨64#32, 0, 255, 0, 0⟩] ∧
    (s'.lk 1).links 0 = some [⟨65#32, 255, 4, 0, 0⟩, ⟨81#32, 255, 255, 0, 0⟩] :=
  ⟨_, _, con_reach, allLand_blind, conOps_good _ (by simp [conOps]), rfl, rfl, rfl, ⟨by decide, rfl, rfl⟩, rfl, rfl, rfl,
    ⟨_, rfl, by decide⟩, rfl, rfl, rfl, rfl⟩

end Verif.Detour
