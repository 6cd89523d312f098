/-
Building all tiles of a mesh, and one at a time (`Build`, `buildAllTiles`, `BuildTile` and `RemoveTile` of
sample/tilemesh/builder.go), as far as the tile table is concerned.

What `buildTileMesh` returns is a parameter: data for every location, or none. As in Detour/TileTable, links are left out.
-/
import Verif.Detour.TileTableProps

namespace Verif.Detour

set_option linter.unusedSimpArgs false
set_option linter.unusedVariables false

/-! ## Model -/

/-- `tileBits` of `Build` (sample/tilemesh/builder.go:89) for a number of tiles that fits an int32. -/
def layoutTileBits (n : Nat) : Nat := min (idBits (BitVec.ofNat 32 n)).toNat 14

/-- `params` of `Build` (sample/tilemesh/builder.go:90-103), `p` giving the fields that do not matter here. -/
def layoutParams (p : NavMeshParams) (n : Nat) : NavMeshParams :=
  { p with maxTiles := 1#32 <<< layoutTileBits n, maxPolys := 1#32 <<< (22 - layoutTileBits n) }

/-- `tm.navMesh.RemoveTile(tm.navMesh.TileRefAt(x, y, 0))` (sample/tilemesh/builder.go:143, 556, 591). -/
def clearAt (m : Mesh) (x y : U32) : Out Mesh :=
  match m.tileRefAt x y 0#32 with
  | none => .hang
  | some r => match m.removeTile r with
    | .ok (_, _, m') => .ok m'
    | .fatal => .fatal
    | .panic => .panic
    | .hang => .hang

/-- `tm.navMesh.AddTile(data, detour.TileRef(0))`, whatever its status (sample/tilemesh/builder.go:145, 561). -/
def addData (m : Mesh) (d : Bytes) : Out Mesh :=
  match m.addTile d 0#32 with
  | .ok (_, _, m') => .ok m'
  | .fatal => .fatal
  | .panic => .panic
  | .hang => .hang

/-- The calls on the mesh in `BuildTile` (sample/tilemesh/builder.go:555-565): clear the location, then add the tile unless there
is none. -/
def rebuildAt (m : Mesh) (x y : U32) (data : Option Bytes) : Out Mesh :=
  match clearAt m x y with
  | .ok m' => match data with
    | none => .ok m'
    | some d => addData m' d
  | .fatal => .fatal
  | .panic => .panic
  | .hang => .hang

/-- The loops of `buildAllTiles` over the locations (sample/tilemesh/builder.go:130-148): only locations with data are touched. -/
def buildAll (data : U32 → U32 → Option Bytes) : List (U32 × U32) → Mesh → Out Mesh
  | [], m => .ok m
  | c :: cs, m => match data c.1 c.2 with
    | none => buildAll data cs m
    | some d => match rebuildAt m c.1 c.2 (some d) with
      | .ok m' => buildAll data cs m'
      | .fatal => .fatal
      | .panic => .panic
      | .hang => .hang

/-- The locations in order: `y` outside, `x` inside (sample/tilemesh/builder.go:130-131). -/
def layoutCells (tw th : Nat) : List (U32 × U32) :=
  (List.range th).flatMap fun y => (List.range tw).map fun x => (BitVec.ofNat 32 x, BitVec.ofNat 32 y)

/-! ## Meshes of a builder -/

/-- A mesh reached by calls, none of its salts being 0: so after calls without `lastRef` (`Sound.step`). -/
structure Sound (m : Mesh) : Prop where
  reach : Reachable m
  salt : ∀ i, m.salt i ≠ 0#32

theorem run_snoc {ops : List Op} : ∀ {m0 m m' : Mesh} {os : List Obs} {op : Op} {o : Obs}, run m0 ops = .ok (os, m) →
    step m op = .ok (o, m') → run m0 (ops ++ [op]) = .ok (os ++ [o], m') := by
  induction ops with
  | nil =>
    intro m0 m m' os op o h1 h2
    simp only [run, Out.ok.injEq, Prod.mk.injEq] at h1
    obtain ⟨rfl, rfl⟩ := h1
    simp only [List.nil_append, run, h2]
  | cons a ops ih =>
    intro m0 m m' os op o h1 h2
    obtain ⟨o', m1, os', h3, h4, rfl⟩ := run_cons h1
    have := ih h4 h2
    simp only [List.cons_append, run, h3, this]

theorem Sound.step {m m' : Mesh} {op : Op} {o : Obs} (h : Sound m) (hs : step m op = .ok (o, m')) (h0 : ∀ d r, op = .add d r → r = 0#32) :
    Sound m' := by
  obtain ⟨⟨p, m0, ops, os, hf, hr⟩, hsalt⟩ := id h
  refine ⟨⟨p, m0, ops ++ [op], os ++ [o], hf, run_snoc hr hs⟩, ?_⟩
  intro i
  rcases step_cases h.reach.inv hs with ⟨d, r, ref, st, e, -, h1⟩ | ⟨r, d, st, e, -, h1⟩
  · rcases h1 with ⟨rfl, -⟩ | ⟨-, j, t, -, ha, -⟩
    · exact hsalt i
    · by_cases hj : i = j
      · subst hj
        rw [ha.salt0 (h0 d r e)]
        exact hsalt i
      · rw [ha.salt i hj]
        exact hsalt i
  · rcases h1 with ⟨rfl, -⟩ | ⟨-, j, t, -, ha⟩
    · exact hsalt i
    · rw [ha.salt]
      by_cases hj : i = j
      · subst hj
        rw [upd_same]
        obtain ⟨free, bucket, w⟩ := h.reach.inv
        intro hz
        have := bumpSalt_toNat w.wf (m.salt i) (w.salt i)
        rw [hz] at this
        split at this <;> simp at this
      · rw [upd_ne _ _ hj]
        exact hsalt i

theorem Fresh.sound {p : NavMeshParams} {m : Mesh} (h : Fresh p m) : Sound m := by
  refine ⟨⟨p, m, [], [], h, rfl⟩, fun i => ?_⟩
  obtain ⟨st, h1, -⟩ := h.init
  unfold Mesh.init at h1
  split at h1
  · simp at h1
  · simp only [Out.ok.injEq, Prod.mk.injEq] at h1
    rw [← h1.2]
    show (1#32 : U32) ≠ 0#32
    decide

theorem Fresh.lookup {p : NavMeshParams} {m : Mesh} (h : Fresh p m) (l : Loc) : m.lookup l = some none :=
  lookup_history h (ops := []) (os := []) rfl l

theorem Fresh.live {p : NavMeshParams} {m : Mesh} (h : Fresh p m) : m.liveCount = 0 := by
  unfold Mesh.liveCount
  rw [List.length_eq_zero_iff, List.filter_eq_nil_iff]
  intro i _
  simp [h.empty i]

/-- The lookups of a mesh, as a map. -/
theorem Sound.map {m : Mesh} (h : Sound m) : ∃ M : Loc → Option (Bytes × U32), ∀ l, m.lookup l = some (M l) := by
  have : ∀ l, ∃ r, m.lookup l = some r := fun l => by
    obtain ⟨r, hr, -⟩ := lookup_eq h.reach.inv l
    exact ⟨r, hr⟩
  exact ⟨fun l => (this l).choose, fun l => (this l).choose_spec⟩

theorem clear_free {m : Mesh} (h : Sound m) {x y : U32} (hl : m.lookup (x, y, 0#32) = some none) : clearAt m x y = .ok m := by
  obtain ⟨r, h1, h2⟩ := tileAt_eq h.reach.inv x y 0#32
  have hr : r = none := by
    cases r with
    | none => rfl
    | some i =>
      obtain ⟨t, ht, -⟩ := (h2 i).1 rfl
      unfold Mesh.lookup at hl
      simp only at hl
      rw [h1] at hl
      simp [ht] at hl
  unfold clearAt Mesh.tileRefAt
  rw [h1, hr]
  simp only [Option.map_some]
  unfold Mesh.removeTile
  rw [if_pos rfl]

theorem clear_used {m : Mesh} (h : Sound m) {x y : U32} {v : Bytes × U32} (hl : m.lookup (x, y, 0#32) = some (some v)) :
    ∃ m', clearAt m x y = .ok m' ∧ Sound m' ∧ m'.maxTiles = m.maxTiles ∧ m'.liveCount + 1 = m.liveCount ∧
      m'.lookup (x, y, 0#32) = some none ∧ ∀ l, l ≠ (x, y, 0#32) → m'.lookup l = m.lookup l := by
  obtain ⟨r, h1, h2⟩ := tileAt_eq h.reach.inv x y 0#32
  have hr : ∃ i t, r = some i ∧ m.tile i = some t ∧ t.header.x = x ∧ t.header.y = y ∧ t.header.layer = 0#32 := by
    cases r with
    | none =>
      unfold Mesh.lookup at hl
      simp only at hl
      rw [h1] at hl
      simp at hl
    | some i =>
      obtain ⟨t, ht, q⟩ := (h2 i).1 rfl
      exact ⟨i, t, rfl, ht, q⟩
  obtain ⟨i, t, rfl, ht, e1, e2, e3⟩ := hr
  obtain ⟨m', hm, -, -, hlive⟩ := remove_frees h.reach i t ht (h.salt i)
  have hstep : step m (.remove (m.tileRef i)) = .ok (.removed t.data Status.success, m') := by
    simp only [Verif.Detour.step, hm]
  obtain ⟨M, hM⟩ := h.map
  have hlk := lookup_step h.reach.inv hstep M hM
  have hloc : locOf t.data = some (x, y, 0#32) := by
    obtain ⟨free, bucket, w⟩ := h.reach.inv
    rw [locOf_tile (w.ok i t ht)]
    unfold Tile.loc
    rw [e1, e2, e3]
  refine ⟨m', ?_, h.step hstep (fun d r e => by cases e), (step_inv h.reach.inv hstep).2.max, hlive, ?_, ?_⟩
  · unfold clearAt Mesh.tileRefAt
    rw [h1]
    simp only [Option.map_some, hm]
  · rw [hlk]
    simp only [specStep]
    rw [if_pos ⟨by decide, hloc⟩]
  · intro l hne
    rw [hlk, hM]
    simp only [specStep]
    rw [if_neg (fun hc => hne (by have := hc.2; rw [hloc] at this; exact (Option.some.inj this).symm))]

theorem add_free {m : Mesh} (h : Sound m) {d : Bytes} (hd : Installable d) {l : Loc} (hloc : locOf d = some l)
    (hl : m.lookup l = some none) :
    (m.liveCount < m.maxTiles → ∃ ref m', addData m d = .ok m' ∧ Sound m' ∧ m'.maxTiles = m.maxTiles ∧ m'.liveCount = m.liveCount + 1 ∧
      m'.lookup l = some (some (d, ref)) ∧ ∀ l', l' ≠ l → m'.lookup l' = m.lookup l') ∧
    (m.liveCount = m.maxTiles → addData m d = .fatal) := by
  obtain ⟨c1, c2⟩ := add_capacity h.reach d hd (fun l' hl' => by
    rw [hloc] at hl'; cases hl'; exact hl)
  constructor
  · intro hlt
    obtain ⟨ref, m', hm, hlive⟩ := c1 hlt
    have hstep : step m (.add d 0#32) = .ok (.added d ref Status.success, m') := by
      simp only [Verif.Detour.step, hm]
    obtain ⟨M, hM⟩ := h.map
    have hlk := lookup_step h.reach.inv hstep M hM
    refine ⟨ref, m', ?_, h.step hstep (fun d r e => by cases e; rfl), (step_inv h.reach.inv hstep).2.max, hlive, ?_, ?_⟩
    · unfold addData
      rw [hm]
    · rw [hlk]
      simp only [specStep]
      rw [if_pos ⟨by decide, hloc⟩]
    · intro l' hne
      rw [hlk, hM]
      simp only [specStep]
      rw [if_neg (fun hc => hne (by have := hc.2; rw [hloc] at this; exact (Option.some.inj this).symm))]
  · intro hfull
    unfold addData
    rw [c2 hfull]

/-! ## One tile -/

/-- Spec: what is found at a location is the data, or nothing. -/
def HoldsAt (m : Mesh) (l : Loc) (data : Option Bytes) : Prop := ∃ v, m.lookup l = some v ∧ v.map Prod.fst = data

/-- **C158** Building one tile again replaces exactly the tile at its location: afterwards the location holds the new data - or
nothing, if there is none - and every other location what it held before, with the same reference. It succeeds unless the
location was free and the mesh full; then the process ends. Removing a tile is the case without data. -/
theorem rebuild_spec {m : Mesh} (h : Sound m) (x y : U32) (data : Option Bytes)
    (hd : ∀ d, data = some d → Installable d ∧ locOf d = some (x, y, 0#32)) :
    (∃ m', rebuildAt m x y data = .ok m' ∧ Sound m' ∧ m'.maxTiles = m.maxTiles ∧ HoldsAt m' (x, y, 0#32) data ∧
      ∀ l, l ≠ (x, y, 0#32) → m'.lookup l = m.lookup l) ∨
    (rebuildAt m x y data = .fatal ∧ data ≠ none ∧ m.lookup (x, y, 0#32) = some none ∧ m.liveCount = m.maxTiles) := by
  have hlive : ∀ m : Mesh, Sound m → m.liveCount ≤ m.maxTiles := by
    intro m hm
    obtain ⟨_, _, _, _, _, _, _, hc⟩ := slots_conserved hm.reach
    omega
  obtain ⟨M, hM⟩ := h.map
  cases hv : M (x, y, 0#32) with
  | none =>
    have hl : m.lookup (x, y, 0#32) = some none := by rw [hM, hv]
    unfold rebuildAt
    rw [clear_free h hl]
    cases data with
    | none => exact Or.inl ⟨m, rfl, h, rfl, ⟨none, hl, rfl⟩, fun _ _ => rfl⟩
    | some d =>
      obtain ⟨a1, a2⟩ := hd d rfl
      obtain ⟨c1, c2⟩ := add_free h a1 a2 hl
      by_cases hfull : m.liveCount = m.maxTiles
      · exact Or.inr ⟨c2 hfull, by simp, hl, hfull⟩
      · obtain ⟨ref, m', e, hs, hmax, -, h1, h2⟩ := c1 (by have := hlive m h; omega)
        exact Or.inl ⟨m', e, hs, hmax, ⟨_, h1, rfl⟩, h2⟩
  | some v =>
    have hl : m.lookup (x, y, 0#32) = some (some v) := by rw [hM, hv]
    obtain ⟨m1, e1, s1, mx1, lv1, z1, o1⟩ := clear_used h hl
    unfold rebuildAt
    rw [e1]
    cases data with
    | none => exact Or.inl ⟨m1, rfl, s1, mx1, ⟨none, z1, rfl⟩, o1⟩
    | some d =>
      obtain ⟨a1, a2⟩ := hd d rfl
      obtain ⟨c1, c2⟩ := add_free s1 a1 a2 z1
      obtain ⟨ref, m', e, hs, hmax, -, h1, h2⟩ := c1 (by have := hlive m h; omega)
      exact Or.inl ⟨m', e, hs, hmax.trans mx1, ⟨_, h1, rfl⟩, fun l hne => (h2 l hne).trans (o1 l hne)⟩

/-! ## All tiles -/

theorem cell_of_loc {a b : U32 × U32} {z : U32} (e : (a.1, a.2, z) = (b.1, b.2, z)) : a = b := by
  simp only [Prod.mk.injEq] at e
  exact Prod.ext e.1 e.2.1

theorem buildAll_spec {data : U32 → U32 → Option Bytes} (hd : ∀ x y d, data x y = some d → Installable d ∧ locOf d = some (x, y, 0#32))
    (cs : List (U32 × U32)) : ∀ {m : Mesh}, Sound m → cs.Nodup → (∀ c ∈ cs, m.lookup (c.1, c.2, 0#32) = some none) →
    (m.liveCount + (cs.filter fun c => (data c.1 c.2).isSome).length ≤ m.maxTiles →
      ∃ m', buildAll data cs m = .ok m' ∧ Sound m' ∧ m'.maxTiles = m.maxTiles ∧ (∀ c ∈ cs, HoldsAt m' (c.1, c.2, 0#32) (data c.1 c.2)) ∧
        ∀ l, (∀ c ∈ cs, l ≠ (c.1, c.2, 0#32)) → m'.lookup l = m.lookup l) ∧
    (m.liveCount ≤ m.maxTiles → m.maxTiles < m.liveCount + (cs.filter fun c => (data c.1 c.2).isSome).length →
      buildAll data cs m = .fatal) := by
  induction cs with
  | nil =>
    intro m h hn hf
    refine ⟨fun _ => ⟨m, rfl, h, rfl, fun c hc => by simp at hc, fun _ _ => rfl⟩, fun h1 h2 => ?_⟩
    simp only [List.filter_nil, List.length_nil] at h2
    omega
  | cons c cs ih =>
    intro m h hn hf
    rw [List.nodup_cons] at hn
    cases hc : data c.1 c.2 with
    | none =>
      obtain ⟨i1, i2⟩ := ih h hn.2 (fun c' hc' => hf c' (by simp [hc']))
      rw [List.filter_cons_of_neg (by simp [hc]), buildAll, hc]
      refine ⟨fun hle => ?_, i2⟩
      obtain ⟨m', e, s, mx, hin, hout⟩ := i1 hle
      refine ⟨m', e, s, mx, fun c' hc' => ?_, fun l hl => hout l fun c' hc' => hl c' (by simp [hc'])⟩
      rcases List.mem_cons.1 hc' with rfl | hc'
      · rw [hc]
        refine ⟨none, ?_, rfl⟩
        rw [hout _ (fun c'' h'' e => hn.1 (by
          have : c' = c'' := cell_of_loc e
          rw [this]; exact h''))]
        exact hf c' (by simp)
      · exact hin c' hc'
    | some d =>
      have hl := hf c (by simp)
      obtain ⟨a1, a2⟩ := hd _ _ d hc
      obtain ⟨c1, c2⟩ := add_free h a1 a2 hl
      rw [List.filter_cons_of_pos (by simp [hc]), buildAll, hc]
      simp only [List.length_cons]
      unfold rebuildAt
      rw [clear_free h hl]
      simp only
      by_cases hfull : m.liveCount < m.maxTiles
      · obtain ⟨ref, m1, e, hs, hmax, hlv, h1, h2⟩ := c1 hfull
        rw [e]
        simp only
        have hne : ∀ c' ∈ cs, (c'.1, c'.2, (0#32 : U32)) ≠ (c.1, c.2, 0#32) := fun c' hc' e => hn.1 (by
          have : c' = c := cell_of_loc e
          rw [← this]; exact hc')
        obtain ⟨i1, i2⟩ := ih hs hn.2 (fun c' hc' => by rw [h2 _ (hne c' hc')]; exact hf c' (by simp [hc']))
        refine ⟨fun hle => ?_, fun _ hlt => i2 (by omega) (by omega)⟩
        obtain ⟨m', e', s, mx, hin, hout⟩ := i1 (by omega)
        refine ⟨m', e', s, mx.trans hmax, fun c' hc' => ?_, fun l hl' => ?_⟩
        · rcases List.mem_cons.1 hc' with rfl | hc'
          · rw [hc]
            exact ⟨_, (hout _ (fun c'' h'' => (hne c'' h'').symm)).trans h1, rfl⟩
          · exact hin c' hc'
        · rw [hout l (fun c' hc' => hl' c' (by simp [hc'])), h2 l (hl' c (by simp))]
      · refine ⟨fun hle => by omega, fun hle _ => ?_⟩
        rw [c2 (by omega)]

theorem mem_layoutCells {tw th : Nat} (h1 : tw ≤ 2 ^ 31) (h2 : th ≤ 2 ^ 31) {c : U32 × U32} :
    c ∈ layoutCells tw th ↔ c.1.toNat < tw ∧ c.2.toNat < th := by
  unfold layoutCells
  simp only [List.mem_flatMap, List.mem_map, List.mem_range]
  constructor
  · rintro ⟨y, hy, x, hx, rfl⟩
    simp only [BitVec.toNat_ofNat]
    omega
  · rintro ⟨hx, hy⟩
    refine ⟨c.2.toNat, hy, c.1.toNat, hx, Prod.ext ?_ ?_⟩ <;> simp

theorem layoutCells_nodup {tw th : Nat} (h1 : tw ≤ 2 ^ 31) (h2 : th ≤ 2 ^ 31) : (layoutCells tw th).Nodup := by
  have inj : ∀ {n a b : Nat}, n ≤ 2 ^ 31 → a < n → b < n → BitVec.ofNat 32 a = BitVec.ofNat 32 b → a = b := by
    intro n a b hn ha hb e
    have := congrArg BitVec.toNat e
    simp only [BitVec.toNat_ofNat] at this
    omega
  unfold layoutCells
  rw [List.nodup_flatMap]
  refine ⟨fun y _ => ?_, ?_⟩
  · refine List.Nodup.map_on ?_ List.nodup_range
    intro a ha b hb e
    rw [List.mem_range] at ha hb
    exact inj h1 ha hb (congrArg Prod.fst e)
  · refine (List.nodup_range (n := th)).imp_of_mem ?_
    intro a b ha hb hne
    rw [List.mem_range] at ha hb
    rw [Function.onFun, List.disjoint_left]
    intro c hc hc'
    rw [List.mem_map] at hc hc'
    obtain ⟨x, -, rfl⟩ := hc
    obtain ⟨x', -, e⟩ := hc'
    exact hne (inj h2 hb ha (congrArg Prod.snd e)).symm

theorem layoutCells_length (tw th : Nat) : (layoutCells tw th).length = tw * th := by
  unfold layoutCells
  rw [List.length_flatMap]
  simp [Nat.mul_comm]

theorem layoutBits_eq {n : Nat} (h1 : 1 ≤ n) (h2 : n ≤ 2 ^ 31) : layoutTileBits n = min (Nat.clog 2 n) 14 := by
  have e : (BitVec.ofNat 32 n).toNat = n := by
    simp only [BitVec.toNat_ofNat]
    omega
  unfold layoutTileBits
  rw [idBits_eq _ (by rw [e]; exact h1) (by rw [e]; exact h2), e]

theorem layout_bits : ∀ k : Fin 15, initBits (1#32 <<< k.val) (1#32 <<< (22 - k.val)) =
      (Status.success, ⟨10#32, BitVec.ofNat 32 k.val, BitVec.ofNat 32 (22 - k.val)⟩) ∧
    (1#32 <<< k.val : U32).toNat = 2 ^ k.val ∧ (1#32 <<< (22 - k.val) : U32).toNat = 2 ^ (22 - k.val) ∧
    ¬ (1#32 <<< k.val : U32).toInt < 0 := by decide

/-- **C157** The parameters that `Build` chooses are accepted by `Init`, with 10 bits of salt; there are slots for all tiles up to
16384 of them. -/
theorem layout_fresh (p : NavMeshParams) {n : Nat} (h1 : 1 ≤ n) (h2 : n ≤ 2 ^ 31) :
    ∃ m, Mesh.init (layoutParams p n) = .ok (Status.success, m) ∧ Fresh (layoutParams p n) m ∧ m.bits.saltBits.toNat = 10 ∧
      m.maxTiles ≤ 2 ^ 14 ∧ (n ≤ 2 ^ 14 → n ≤ m.maxTiles) ∧ (2 ^ 14 < n → m.maxTiles = 2 ^ 14) := by
  have hk : layoutTileBits n < 15 := by unfold layoutTileBits; omega
  obtain ⟨b1, b2, b3, b4⟩ := layout_bits ⟨layoutTileBits n, hk⟩
  simp only at b1 b2 b3 b4
  have hi : Mesh.init (layoutParams p n) = .ok (Status.success,
      { maxTiles := (1#32 <<< layoutTileBits n : U32).toNat, bits := (initBits (1#32 <<< layoutTileBits n) (1#32 <<< (22 - layoutTileBits n))).2,
        lutMask := lutSize (1#32 <<< layoutTileBits n) - 1#32, salt := fun _ => 1#32,
        next := (initLoop (1#32 <<< layoutTileBits n : U32).toNat (fun _ => none) none).1, tile := fun _ => none,
        nextFree := (initLoop (1#32 <<< layoutTileBits n : U32).toNat (fun _ => none) none).2, pos := fun _ => none }) := by
    unfold Mesh.init
    have : ¬ (layoutParams p n).maxTiles.toInt < 0 := b4
    rw [if_neg this]
    show Out.ok ((initBits (1#32 <<< layoutTileBits n) (1#32 <<< (22 - layoutTileBits n))).1, _) = _
    have e : (initBits (1#32 <<< layoutTileBits n) (1#32 <<< (22 - layoutTileBits n))).1 = Status.success := by rw [b1]
    rw [e]
    rfl
  have p1 : 0 < 2 ^ layoutTileBits n := Nat.pow_pos (by decide)
  have p2 : 0 < 2 ^ (22 - layoutTileBits n) := Nat.pow_pos (by decide)
  have p3 : 2 ^ layoutTileBits n ≤ 2 ^ 14 := Nat.pow_le_pow_right (by decide) (by omega)
  have p4 : 2 ^ (22 - layoutTileBits n) ≤ 2 ^ 31 := Nat.pow_le_pow_right (by decide) (by omega)
  refine ⟨_, hi, ⟨⟨_, hi, by decide⟩, ?_, ?_, ?_, ?_⟩, ?_, ?_, ?_, ?_⟩
  · show 1 ≤ (1#32 <<< layoutTileBits n : U32).toNat
    omega
  · show 1 ≤ (1#32 <<< (22 - layoutTileBits n) : U32).toNat
    omega
  · show (1#32 <<< (22 - layoutTileBits n) : U32).toNat ≤ 2 ^ 31
    omega
  · show Nat.clog 2 (1#32 <<< layoutTileBits n : U32).toNat + Nat.clog 2 (1#32 <<< (22 - layoutTileBits n) : U32).toNat ≤ 32
    rw [b2, b3, Nat.clog_pow 2 _ (by decide), Nat.clog_pow 2 _ (by decide)]
    omega
  · show (initBits (1#32 <<< layoutTileBits n) (1#32 <<< (22 - layoutTileBits n))).2.saltBits.toNat = 10
    rw [b1]
    rfl
  · show (1#32 <<< layoutTileBits n : U32).toNat ≤ 2 ^ 14
    omega
  · intro hn
    show n ≤ (1#32 <<< layoutTileBits n : U32).toNat
    rw [b2, layoutBits_eq h1 h2, min_eq_left (Nat.clog_le_of_le_pow hn)]
    exact Nat.le_pow_clog (by decide) n
  · intro hn
    show (1#32 <<< layoutTileBits n : U32).toNat = 2 ^ 14
    have : 14 < Nat.clog 2 n := (Nat.lt_clog_iff_pow_lt (b := 2) (by decide)).2 hn
    rw [b2, layoutBits_eq h1 h2, min_eq_right (by omega)]

/-- **C157** Building all tiles. If no more than 16384 locations have data, the mesh afterwards holds at every location of the grid
the data made for it, and nothing anywhere else. With more, the process ends in the middle. -/
theorem build_all_partial (p : NavMeshParams) (tw th : Nat) (h1 : 1 ≤ tw * th) (h2 : tw * th ≤ 2 ^ 31)
    (data : U32 → U32 → Option Bytes) (hd : ∀ x y d, data x y = some d → Installable d ∧ locOf d = some (x, y, 0#32)) :
    ∃ m, Mesh.init (layoutParams p (tw * th)) = .ok (Status.success, m) ∧
      (((layoutCells tw th).filter fun c => (data c.1 c.2).isSome).length ≤ 2 ^ 14 →
        ∃ m', buildAll data (layoutCells tw th) m = .ok m' ∧ Sound m' ∧
          (∀ x y : U32, x.toNat < tw → y.toNat < th → HoldsAt m' (x, y, 0#32) (data x y)) ∧
          ∀ l : Loc, ¬ (l.1.toNat < tw ∧ l.2.1.toNat < th ∧ l.2.2 = 0#32) → HoldsAt m' l none) ∧
      (2 ^ 14 < ((layoutCells tw th).filter fun c => (data c.1 c.2).isSome).length → buildAll data (layoutCells tw th) m = .fatal) := by
  have ht : tw ≤ 2 ^ 31 := le_trans (Nat.le_mul_of_pos_right tw (Nat.pos_of_ne_zero fun e => by rw [e, Nat.mul_zero] at h1; omega)) h2
  have hh : th ≤ 2 ^ 31 := le_trans (Nat.le_mul_of_pos_left th (Nat.pos_of_ne_zero fun e => by rw [e, Nat.zero_mul] at h1; omega)) h2
  obtain ⟨m, hi, hf, -, m1, m2, m3⟩ := layout_fresh p h1 h2
  have hlen := List.length_filter_le (fun c : U32 × U32 => (data c.1 c.2).isSome) (layoutCells tw th)
  rw [layoutCells_length] at hlen
  obtain ⟨b1, b2⟩ := buildAll_spec hd (layoutCells tw th) hf.sound (layoutCells_nodup ht hh) (fun c _ => hf.lookup _)
  rw [hf.live, Nat.zero_add] at b1 b2
  refine ⟨m, hi, fun hc => ?_, fun hc => b2 (Nat.zero_le _) (by omega)⟩
  obtain ⟨m', e, s, -, q1, q2⟩ := b1 (by
    by_cases hn : tw * th ≤ 2 ^ 14
    · have := m2 hn; omega
    · have := m3 (by omega); omega)
  refine ⟨m', e, s, fun x y hx hy => q1 (x, y) ((mem_layoutCells ht hh).2 ⟨hx, hy⟩), fun l hl => ⟨none, ?_, rfl⟩⟩
  rw [q2 l (fun c hc e => hl ?_), hf.lookup]
  obtain ⟨c1, c2⟩ := (mem_layoutCells ht hh).1 hc
  rw [e]
  exact ⟨c1, c2, rfl⟩

/-! ## Cases -/

/-- Header of a tile at `(x, y, 0)` with one polygon and one link slot. -/
def gridHeader (x y u : U32) : MeshHeader :=
  ⟨navMeshMagic, navMeshVersion, x, y, 0, u, 1, 0, 1, 0, 0, 0, 0, 0, 0, 0, 0, 0, 0, 0, 0, 0, 0, 0, 0⟩

/-- Its data: header, one polygon, one link. -/
def gridData (x y u : U32) : Bytes := (gridHeader x y u).words.flatMap le32 ++ zeros 44

theorem gridData_ok (x y u : U32) : Installable (gridData x y u) ∧ locOf (gridData x y u) = some (x, y, 0#32) := by
  have hh := MeshHeader.unserialize_words (gridHeader x y u) (zeros 44)
  refine ⟨⟨⟨gridHeader x y u, ⟨[], [⟨0, [0, 0, 0, 0, 0, 0], [0, 0, 0, 0, 0, 0], 0, 0, 0⟩], [⟨0, 0, 0, 0, 0, 0⟩], [], [], [], [], []⟩,
    gridData x y u⟩, rfl, ⟨hh, ?_, ?_, rfl, rfl⟩⟩, ?_⟩
  · show TileBody.unserialize (gridHeader x y u) ((gridData x y u).drop 100) = _
    have : (gridData x y u).drop 100 = zeros 44 := by
      unfold gridData
      exact List.drop_left' (by rw [length_words]; rfl)
    rw [this]
    rfl
  · show (1 : U32) ≠ 0#32
    decide
  · unfold locOf gridData
    rw [hh]
    rfl

/-- A grid of 3 by 2 tiles, the one at `(1, 1)` without data, is built completely. -/
example (p : NavMeshParams) : ∃ m m', Mesh.init (layoutParams p (3 * 2)) = .ok (Status.success, m) ∧
    buildAll (fun x y => if x = 1 ∧ y = 1 then none else some (gridData x y 0)) (layoutCells 3 2) m = .ok m' ∧
    HoldsAt m' (2, 1, 0) (some (gridData 2 1 0)) ∧ HoldsAt m' (1, 1, 0) none := by
  obtain ⟨m, h1, h2, -⟩ := build_all_partial p 3 2 (by decide) (by decide)
    (fun x y => if x = 1 ∧ y = 1 then none else some (gridData x y 0)) (by
      intro x y d e
      by_cases hc : x = 1 ∧ y = 1
      · rw [if_pos hc] at e
        cases e
      · rw [if_neg hc] at e
        cases e
        exact gridData_ok x y 0)
  obtain ⟨m', e, -, q, -⟩ := h2 (le_trans (List.length_filter_le _ _) (by rw [layoutCells_length]; decide))
  exact ⟨m, m', h1, e, q 2 1 (by decide) (by decide), q 1 1 (by decide) (by decide)⟩

/-- **C157** (refuted in full). With 129 by 128 tiles, all with data, `Build` ends the process. -/
theorem build_all_refuted (p : NavMeshParams) : ∃ (data : U32 → U32 → Option Bytes) (m : Mesh),
    (∀ x y d, data x y = some d → Installable d ∧ locOf d = some (x, y, 0#32)) ∧
    Mesh.init (layoutParams p (129 * 128)) = .ok (Status.success, m) ∧ buildAll data (layoutCells 129 128) m = .fatal := by
  have hd : ∀ x y d, (fun x y => some (gridData x y 0) : U32 → U32 → Option Bytes) x y = some d → Installable d ∧ locOf d = some (x, y, 0#32) := by
    intro x y d e
    cases e
    exact gridData_ok x y 0
  obtain ⟨m, h1, -, h2⟩ := build_all_partial p 129 128 (by decide) (by decide) _ hd
  refine ⟨_, m, hd, h1, h2 ?_⟩
  have e : (layoutCells 129 128).filter (fun c => (some (gridData c.1 c.2 0)).isSome) = layoutCells 129 128 :=
    List.filter_eq_self.2 fun _ _ => rfl
  rw [e, layoutCells_length]
  decide

/-- A tile is replaced in a mesh that is full. -/
example (p : NavMeshParams) : ∃ m m' m'', Mesh.init (layoutParams p 1) = .ok (Status.success, m) ∧
    rebuildAt m 0 0 (some (gridData 0 0 7)) = .ok m' ∧ HoldsAt m' (0, 0, 0) (some (gridData 0 0 7)) ∧
    rebuildAt m' 0 0 (some (gridData 0 0 8)) = .ok m'' ∧ HoldsAt m'' (0, 0, 0) (some (gridData 0 0 8)) := by
  obtain ⟨m, h1, hf, -, -, h2, -⟩ := layout_fresh p (n := 1) (by decide) (by decide)
  have hd : ∀ u d, some (gridData 0 0 u) = some d → Installable d ∧ locOf d = some (0, 0, 0#32) := by
    intro u d e
    cases e
    exact gridData_ok 0 0 u
  rcases rebuild_spec hf.sound 0 0 (some (gridData 0 0 7)) (hd 7) with ⟨m', e, hs, -, hh, -⟩ | ⟨-, -, -, hl⟩
  · rcases rebuild_spec hs 0 0 (some (gridData 0 0 8)) (hd 8) with ⟨m'', e', -, -, hh', -⟩ | ⟨-, -, hn, -⟩
    · exact ⟨m, m', m'', h1, e, hh, e', hh'⟩
    · obtain ⟨v, q1, q2⟩ := hh
      rw [hn] at q1
      cases q1
      cases q2
  · rw [hf.live] at hl
    have := h2 (by decide)
    omega

end Verif.Detour
