/-
Portal edges of a tile: the end of `BuildPolyMesh` (recast/polymesh.go:266-300).

Simplifications: as in `Adjacency`; the vertex array is a function from offsets to coordinates.
-/
import Verif.Recast.Adjacency

namespace Verif.Recast
open Verif Verif.Detour

set_option linter.unusedSimpArgs false
set_option linter.unusedVariables false

/-- The side that both ends lie on, in the order of the tests (recast/polymesh.go:288-297): `va*3` is a `uint16`. -/
def portalSide (verts : Nat → Nat) (w h : Int) (a b : Nat) : Option Nat :=
  if (verts (off16 a) : Int) = 0 ∧ (verts (off16 b) : Int) = 0 then some 0
  else if (verts (off16 a + 2) : Int) = h ∧ (verts (off16 b + 2) : Int) = h then some 1
  else if (verts (off16 a) : Int) = w ∧ (verts (off16 b) : Int) = w then some 2
  else if (verts (off16 a + 2) : Int) = 0 ∧ (verts (off16 b + 2) : Int) = 0 then some 3
  else none

/-- One edge (recast/polymesh.go:274-297). -/
def markPortal (verts : Nat → Nat) (w h : Int) (adj : Nat × Nat → Nat) (x : Half) : Nat × Nat → Nat :=
  if adj (x.p, x.j) ≠ meshNull then adj
  else
    match portalSide verts w h x.v0 x.v1 with
    | some d => fun k => if k = (x.p, x.j) then 0x8000 ||| d else adj k
    | none => adj

/-- The portal pass (recast/polymesh.go:266-300). -/
def markPortals (nvp : Nat) (verts : Nat → Nat) (w h border : Int) (polys : List (List Nat)) (adj : Nat × Nat → Nat) : Nat × Nat → Nat :=
  if 0 < border then (halves nvp polys).foldl (markPortal verts w h) adj else adj

/-! ## Spec -/

/-- Spec: a point of the mesh lies on side `d` of a tile of `w` by `h` cells: west (0), north (1), east (2), south (3). -/
def OnSide (w h : Int) (d : Nat) (x z : Int) : Prop :=
  match d with
  | 0 => x = 0
  | 1 => z = h
  | 2 => x = w
  | _ => z = 0

instance (w h : Int) (d : Nat) (x z : Int) : Decidable (OnSide w h d x z) := by unfold OnSide; split <;> infer_instance

/-- Spec: both vertices lie on side `d`. -/
def EdgeOn (verts : Nat → Nat) (w h : Int) (d a b : Nat) : Prop :=
  OnSide w h d (verts (a * 3)) (verts (a * 3 + 2)) ∧ OnSide w h d (verts (b * 3)) (verts (b * 3 + 2))

/-- Spec: `d` is the first side, in the order west, north, east, south, that the edge lies on. -/
def FirstSide (verts : Nat → Nat) (w h : Int) (d a b : Nat) : Prop :=
  d < 4 ∧ EdgeOn verts w h d a b ∧ ∀ c < d, ¬ EdgeOn verts w h c a b

theorem off16_lt {v : Nat} (h : v < 21846) : off16 v = v * 3 := Nat.mod_eq_of_lt (by omega)

theorem portalSide_some {verts : Nat → Nat} {w h : Int} {a b d : Nat} (ha : a < 21846) (hb : b < 21846) :
    portalSide verts w h a b = some d ↔ FirstSide verts w h d a b := by
  unfold portalSide
  rw [off16_lt ha, off16_lt hb]
  unfold FirstSide
  constructor
  · intro hp
    split at hp
    case isTrue e0 => cases hp; exact ⟨by omega, e0, by omega⟩
    case isFalse e0 =>
      split at hp
      case isTrue e1 =>
        cases hp
        refine ⟨by omega, e1, ?_⟩
        intro c hc
        have : c = 0 := by omega
        subst this; exact e0
      case isFalse e1 =>
        split at hp
        case isTrue e2 =>
          cases hp
          refine ⟨by omega, e2, ?_⟩
          intro c hc
          have : c = 0 ∨ c = 1 := by omega
          rcases this with rfl | rfl
          · exact e0
          · exact e1
        case isFalse e2 =>
          split at hp
          case isTrue e3 =>
            cases hp
            refine ⟨by omega, e3, ?_⟩
            intro c hc
            have : c = 0 ∨ c = 1 ∨ c = 2 := by omega
            rcases this with rfl | rfl | rfl
            · exact e0
            · exact e1
            · exact e2
          case isFalse => cases hp
  · rintro ⟨hd, hon, hno⟩
    have : d = 0 ∨ d = 1 ∨ d = 2 ∨ d = 3 := by omega
    rcases this with rfl | rfl | rfl | rfl
    · exact if_pos hon
    · exact (if_neg (hno 0 (by omega))).trans (if_pos hon)
    · exact (if_neg (hno 0 (by omega))).trans ((if_neg (hno 1 (by omega))).trans (if_pos hon))
    · exact (if_neg (hno 0 (by omega))).trans ((if_neg (hno 1 (by omega))).trans ((if_neg (hno 2 (by omega))).trans (if_pos hon)))

theorem portalSide_none {verts : Nat → Nat} {w h : Int} {a b : Nat} (ha : a < 21846) (hb : b < 21846) :
    portalSide verts w h a b = none ↔ ∀ d < 4, ¬ EdgeOn verts w h d a b := by
  constructor
  · intro hn d hd hon
    -- the first side it lies on
    obtain ⟨d', h1, h2⟩ : ∃ d', EdgeOn verts w h d' a b ∧ ∀ c < d', ¬ EdgeOn verts w h c a b := by
      classical
      have hex : ∃ d, EdgeOn verts w h d a b := ⟨d, hon⟩
      exact ⟨Nat.find hex, Nat.find_spec hex, fun c hc => Nat.find_min hex hc⟩
    have : d' < 4 := by
      by_contra hc
      exact h2 d (by omega) hon
    rw [(portalSide_some ha hb).2 ⟨this, h1, h2⟩] at hn
    cases hn
  · intro hno
    cases hp : portalSide verts w h a b with
    | none => rfl
    | some d =>
      obtain ⟨h1, h2, -⟩ := (portalSide_some ha hb).1 hp
      exact absurd h2 (hno d h1)

/-- The value of one entry after the pass. -/
theorem markPortals_get (verts : Nat → Nat) (w h : Int) (l : List Half) (adj : Nat × Nat → Nat)
    (hnd : (l.map fun x => (x.p, x.j)).Nodup) :
    (∀ x ∈ l, l.foldl (markPortal verts w h) adj (x.p, x.j) =
      if adj (x.p, x.j) ≠ meshNull then adj (x.p, x.j)
      else match portalSide verts w h x.v0 x.v1 with
        | some d => 0x8000 ||| d
        | none => meshNull) ∧
    ∀ k, (∀ x ∈ l, (x.p, x.j) ≠ k) → l.foldl (markPortal verts w h) adj k = adj k := by
  induction l generalizing adj with
  | nil => simp
  | cons x l ih =>
    rw [List.map_cons, List.nodup_cons] at hnd
    obtain ⟨i1, i2⟩ := ih (markPortal verts w h adj x) hnd.2
    have hother : ∀ k, (x.p, x.j) ≠ k → markPortal verts w h adj x k = adj k := by
      intro k hk
      unfold markPortal
      split
      · rfl
      · cases portalSide verts w h x.v0 x.v1 with
        | some d => exact if_neg fun hc => hk hc.symm
        | none => rfl
    constructor
    · intro y hy
      rw [List.foldl_cons]
      rcases List.mem_cons.1 hy with rfl | hy
      · rw [i2 _ fun z hz hc => hnd.1 (List.mem_map.2 ⟨z, hz, hc⟩)]
        unfold markPortal
        by_cases e : adj (y.p, y.j) ≠ meshNull
        · rw [if_pos e, if_pos e]
        · rw [if_neg e, if_neg e]
          cases portalSide verts w h y.v0 y.v1 with
          | some d => simp
          | none => simpa using e
      · rw [i1 y hy, hother _ fun hc => hnd.1 (List.mem_map.2 ⟨y, hy, hc.symm⟩)]
    · intro k hk
      rw [List.foldl_cons, i2 k fun z hz => hk z (List.mem_cons_of_mem _ hz), hother k (hk x (List.mem_cons_self ..))]

/-- **C98**: in a tile with a border, an edge without a neighbour whose two ends lie on a side of the tile becomes a
portal to that side (the first in the order west, north, east, south); every other edge stays as it was. (Proved for
vertex indices below 21846.) -/
theorem portal_spec_partial {nvp : Nat} {verts : Nat → Nat} {w h border : Int} {polys : List (List Nat)} {adj : Nat × Nat → Nat}
    (hs : Slots nvp polys) (hb : 0 < border) {p e u v : Nat} (he : EdgeAt nvp polys p e u v) (hu : u < 21846) (hv : v < 21846) :
    (adj (p, e) ≠ meshNull → markPortals nvp verts w h border polys adj (p, e) = adj (p, e)) ∧
    (adj (p, e) = meshNull → ∀ d, FirstSide verts w h d u v → markPortals nvp verts w h border polys adj (p, e) = 0x8000 + d) ∧
    (adj (p, e) = meshNull → (∀ d < 4, ¬ EdgeOn verts w h d u v) → markPortals nvp verts w h border polys adj (p, e) = meshNull) := by
  have h1 := (markPortals_get verts w h (halves nvp polys) adj (halves_nodup nvp polys)).1 ⟨p, e, u, v⟩ ((mem_halves hs _).2 he)
  dsimp only at h1
  unfold markPortals
  rw [if_pos hb, h1]
  refine ⟨fun hc => by rw [if_pos hc], ?_, ?_⟩
  · intro hc d hd
    rw [if_neg (by simpa using hc), (portalSide_some hu hv).2 hd]
    have := hd.1
    have : d = 0 ∨ d = 1 ∨ d = 2 ∨ d = 3 := by omega
    rcases this with rfl | rfl | rfl | rfl <;> rfl
  · intro hc hd
    rw [if_neg (by simpa using hc), (portalSide_none hu hv).2 hd]

/-- **C98**: without a border nothing is marked. -/
theorem portal_no_border {nvp : Nat} {verts : Nat → Nat} {w h border : Int} {polys : List (List Nat)} {adj : Nat × Nat → Nat}
    (hb : border ≤ 0) : markPortals nvp verts w h border polys adj = adj := by
  unfold markPortals
  rw [if_neg (by omega)]

/-- **C98** (refuted from vertex 21846 on): `p[j]*3` is a `uint16`; vertex 21846 is looked up at offset 2, so an edge
in the middle of the tile may be marked as a portal. -/
theorem portal_index_refuted : ∃ (verts : Nat → Nat) (polys : List (List Nat)), Slots 3 polys ∧
    EdgeAt 3 polys 0 0 21846 21847 ∧ (∀ d < 4, ¬ EdgeOn verts 100 100 d 21846 21847) ∧
    markPortals 3 verts 100 100 1 polys (fun _ => meshNull) (0, 0) = 0x8000 := by
  refine ⟨fun k => if k < 65538 then 0 else 50, [[21846, 21847, 21848]], ?_, ?_, ?_, by decide +kernel⟩
  · intro t ht
    rw [List.mem_singleton.1 ht]
    exact ⟨by decide +kernel, by decide +kernel, by decide +kernel⟩
  · exact ⟨[21846, 21847, 21848], rfl, by decide +kernel, by decide +kernel, by decide +kernel⟩
  · intro d hd
    have : d = 0 ∨ d = 1 ∨ d = 2 ∨ d = 3 := by omega
    rcases this with rfl | rfl | rfl | rfl <;> (unfold EdgeOn OnSide; norm_num)

/-- **C98** (refuted from polygon 32768 on): a neighbour's number may have the bit set that marks portals: the entry
0x8000 of the mesh below is the neighbour 32768, not a portal to the west. -/
theorem portal_ambiguous_refuted : ∃ polys : List (List Nat), Slots 3 polys ∧ polys.length ≤ 65535 ∧
    adjacency 3 polys (0, 0) = 0x8000 := by
  obtain ⟨polys, h1, h2, -, h3, -⟩ := adjacency_wrap_refuted
  exact ⟨polys, h1, h2, h3⟩

/-- A square on the west side, cut into two triangles. -/
def westVerts : Nat → Nat := fun k => [0, 0, 10, 0, 0, 20, 10, 0, 20, 10, 0, 10].getD k 0

example : FirstSide westVerts 100 100 0 0 1 ∧
    (List.range 3).map (fun e => markPortals 3 westVerts 100 100 4 [[0, 1, 2], [0, 2, 3]] (adjacency 3 [[0, 1, 2], [0, 2, 3]]) (0, e)) =
      [0x8000, 0xffff, 1] := by
  refine ⟨⟨by omega, ⟨by decide +kernel, by decide +kernel⟩, by omega⟩, by decide +kernel⟩

end Verif.Recast
