/-
From the size of an agent in the world to the room it has: the builders turn the height, the climb height and the radius of the agent
into voxels (sample/solomesh/builder.go:91-96, sample/tilemesh/builder.go:196-201). Together with `Headroom` this gives what a user
wants to know: where the mesh is walkable, an agent of that size fits.
-/
import Verif.Recast.Headroom

namespace Verif.Recast
open Verif Verif.Detour

variable {K : Type} [_root_.Field K] [LinearOrder K] [IsStrictOrderedRing K] [FloorRing K]

/-! ## Model -/

/-- `AgentHeight`, `AgentMaxClimb`, `AgentRadius` of `BuildSettings` (recast/inputgeom.go:26-36, sample/solomesh/builder.go:68-71). -/
structure Agent (K : Type) where
  height : K
  climb : K
  radius : K

/-- `WalkableHeight = ceil(agentHeight / Ch)` (sample/solomesh/builder.go:94, sample/tilemesh/builder.go:199), in exact arithmetic. -/
def Agent.walkableHeight (a : Agent K) (ch : K) : Int := ⌈a.height / ch⌉

/-- `WalkableClimb = floor(agentMaxClimb / Ch)` (sample/solomesh/builder.go:95, sample/tilemesh/builder.go:200). -/
def Agent.walkableClimb (a : Agent K) (ch : K) : Int := ⌊a.climb / ch⌋

/-- `WalkableRadius = ceil(agentRadius / Cs)` (sample/solomesh/builder.go:96, sample/tilemesh/builder.go:201). Negative radii are not
modelled: the theorems on the ground ask for a radius that is not negative. -/
def Agent.walkableRadius (a : Agent K) (cs : K) : Nat := ⌈a.radius / cs⌉.toNat

/-! ## Specification -/

/-- The height in the world of a floor at `floor` voxels. -/
def Grid.floorY (g : Grid K) (floor : Nat) : K := g.bmin.y + floor * g.ch

/-- Over the cell, no point of the input is higher than the floor but less than the height of the agent above it. -/
def AgentFits (g : Grid K) (verts : List (V3 K)) (tris : List (Nat × Nat × Nat)) (areas : List Nat) (a : Agent K) (c : Nat × Nat × GSpan) : Prop :=
  ∀ i v0 v1 v2 area, TriAt verts tris areas i v0 v1 v2 area → ∀ p, InTri v0 v1 v2 p → g.Over c.1 c.2.1 p → g.InBox p →
    p.y ≤ g.floorY c.2.2.y ∨ g.floorY c.2.2.y + a.height < p.y

/-- The floors of two spans are at most the climb height of the agent apart. -/
def AgentSteps (g : Grid K) (a : Agent K) (s t : GSpan) : Prop :=
  g.floorY s.y ≤ g.floorY t.y + a.climb ∧ g.floorY t.y ≤ g.floorY s.y + a.climb

/-! ## Voxels -/

/-- **C164.** The settings are never too small for the agent, and waste less than one voxel. -/
theorem agent_voxels (a : Agent K) {ch cs : K} (hch : 0 < ch) (hcs : 0 < cs) :
    (a.height ≤ a.walkableHeight ch * ch ∧ a.walkableHeight ch * ch < a.height + ch) ∧
    (a.walkableClimb ch * ch ≤ a.climb ∧ a.climb < a.walkableClimb ch * ch + ch) ∧
    (a.radius ≤ a.walkableRadius cs * cs ∧ (0 ≤ a.radius → a.walkableRadius cs * cs < a.radius + cs)) := by
  have h1 := Int.le_ceil (a.height / ch)
  have h2 := Int.ceil_lt_add_one (a.height / ch)
  have h3 := Int.floor_le (a.climb / ch)
  have h4 := Int.lt_floor_add_one (a.climb / ch)
  have h5 := Int.le_ceil (a.radius / cs)
  have h6 := Int.ceil_lt_add_one (a.radius / cs)
  have e1 : a.height / ch * ch = a.height := div_mul_cancel₀ _ hch.ne'
  have e2 : a.climb / ch * ch = a.climb := div_mul_cancel₀ _ hch.ne'
  have e3 : a.radius / cs * cs = a.radius := div_mul_cancel₀ _ hcs.ne'
  unfold Agent.walkableHeight Agent.walkableClimb Agent.walkableRadius
  have h7 : ((⌈a.radius / cs⌉ : Int) : K) ≤ ((⌈a.radius / cs⌉.toNat : Nat) : K) := by
    rw [← Int.cast_natCast (R := K)]
    exact Int.cast_le.2 (Int.self_le_toNat _)
  refine ⟨⟨?_, ?_⟩, ⟨?_, ?_⟩, ?_, fun h0 => ?_⟩
  · have := mul_le_mul_of_nonneg_right h1 hch.le
    linarith
  · have := mul_lt_mul_of_pos_right h2 hch
    linarith
  · have := mul_le_mul_of_nonneg_right h3 hch.le
    linarith
  · have := mul_lt_mul_of_pos_right h4 hch
    linarith
  · have := mul_le_mul_of_nonneg_right (h5.trans h7) hcs.le
    linarith
  · have h8 : 0 ≤ ⌈a.radius / cs⌉ := Int.ceil_nonneg (div_nonneg h0 hcs.le)
    have h9 : ((⌈a.radius / cs⌉.toNat : Nat) : K) = ((⌈a.radius / cs⌉ : Int) : K) := by
      rw [← Int.cast_natCast (R := K), Int.toNat_of_nonneg h8]
    rw [h9]
    have := mul_lt_mul_of_pos_right h6 hcs
    linarith

/-! ## The agent fits -/

theorem agent_fits {g : Grid K} (hg : g.Ok) {verts : List (V3 K)} {tris : List (Nat × Nat × Nat)} {areas : List Nat} (a : Agent K)
    {c : Nat × Nat × GSpan} (h : FreeAbove g verts tris areas c.1 c.2.1 c.2.2.y (a.walkableHeight g.ch)) :
    AgentFits g verts tris areas a c := by
  intro i v0 v1 v2 area ht p hp ho hb
  have hch := hg.ch
  have e : g.level p * g.ch = p.y - g.bmin.y := div_mul_cancel₀ _ hch.ne'
  unfold Grid.floorY
  rcases h i v0 v1 v2 area ht p hp ho hb with h | h
  · left
    have := mul_le_mul_of_nonneg_right h hch.le
    linarith
  · right
    have h1 := (agent_voxels a hch hg.cs).1.1
    have h2 := mul_lt_mul_of_pos_right h hch
    push_cast at h2
    linarith

/-- **C164.** Whatever the input: an agent can stand on every span of the ground. -/
theorem agent_stands {g : Grid K} (hg : g.Ok) (verts : List (V3 K)) (tris : List (Nat × Nat × Nat)) (areas : List Nat) (thr : Int)
    (hidx : ∀ t ∈ tris, t.1 < verts.length ∧ t.2.1 < verts.length ∧ t.2.2 < verts.length) (hlen : tris.length ≤ areas.length) (a : Agent K)
    (_hr : 0 ≤ a.radius) :
    ∃ ops v, rasterizeTriangles g verts tris areas thr = some ops ∧
      tileGround (a.walkableHeight g.ch) (a.walkableClimb g.ch) (a.walkableRadius g.cs) (fieldOf g ops) = some v ∧
      ∀ x < g.w, ∀ y < g.h, ∀ s ∈ v x y, AgentFits g verts tris areas a (x, y, s) := by
  obtain ⟨ops, v, e1, e2, h⟩ := ground_headroom hg verts tris areas thr hidx hlen (a.walkableHeight g.ch) (a.walkableClimb g.ch)
    (a.walkableRadius g.cs)
  exact ⟨ops, v, e1, e2, fun x hx y hy s hs => agent_fits hg a (h x hx y hy s hs).1⟩

/-- **C164** (partial). From every walkable span an agent can go at least its radius far in each of the four directions: over each
cell on the way it fits, and no step is higher than it can climb. Missing: radii of more than 127 cells (`ground_corridor_refuted`)
and columns of more than 255 spans. -/
theorem agent_room_partial {g : Grid K} (hg : g.Ok) (verts : List (V3 K)) (tris : List (Nat × Nat × Nat)) (areas : List Nat) (thr : Int)
    (hidx : ∀ t ∈ tris, t.1 < verts.length ∧ t.2.1 < verts.length ∧ t.2.2 < verts.length) (hlen : tris.length ≤ areas.length) (a : Agent K)
    (_hr : 0 ≤ a.radius) (hr : a.radius ≤ 127 * g.cs) :
    ∃ ops v, rasterizeTriangles g verts tris areas thr = some ops ∧
      tileGround (a.walkableHeight g.ch) (a.walkableClimb g.ch) (a.walkableRadius g.cs) (fieldOf g ops) = some v ∧
      ((∀ i, (columnOf i ops).length ≤ 255) → ∀ x < g.w, ∀ y < g.h, ∀ s ∈ v x y, s.area ≠ 0 → ∀ d < 4,
        ∃ (n : Nat) (path : Nat → Nat × Nat × GSpan), a.radius ≤ n * g.cs ∧ path 0 = (x, y, s) ∧
          (∀ m ≤ n, (path m).1 < g.w ∧ (path m).2.1 < g.h ∧ AgentFits g verts tris areas a (path m)) ∧
          ∀ m < n, GNext v d (path m) (path (m + 1)) ∧ AgentSteps g a (path m).2.2 (path (m + 1)).2.2) := by
  have hv := agent_voxels a hg.ch hg.cs
  have h127 : a.walkableRadius g.cs ≤ 127 := by
    have : ⌈a.radius / g.cs⌉ ≤ 127 := by
      refine Int.ceil_le.2 ?_
      rw [div_le_iff₀ hg.cs]
      exact_mod_cast hr
    unfold Agent.walkableRadius
    omega
  obtain ⟨ops, v, e1, e2, h⟩ := mesh_corridor_partial hg verts tris areas thr hidx hlen (a.walkableHeight g.ch) (a.walkableClimb g.ch)
    (a.walkableRadius g.cs) h127
  refine ⟨ops, v, e1, e2, fun hc x hx y hy s hs ha d hd => ?_⟩
  obtain ⟨path, p0, p1, p2⟩ := h hc x hx y hy s hs ha d hd
  refine ⟨a.walkableRadius g.cs, path, hv.2.2.1, p0, fun m hm => ?_, fun m hm => ⟨(p2 m hm).1, ?_⟩⟩
  · obtain ⟨q1, q2, q3⟩ := p1 m hm
    exact ⟨q1, q2, agent_fits hg a q3⟩
  · obtain ⟨q1, -⟩ := (p2 m hm).2
    have hcl := hv.2.1.1
    rw [abs_le] at q1
    have key : ∀ b c : Nat, (b : Int) ≤ c + a.walkableClimb g.ch → g.floorY b ≤ g.floorY c + a.climb := by
      intro b c hb
      have h1 : ((b : Int) : K) ≤ ((c + a.walkableClimb g.ch : Int) : K) := Int.cast_le.2 hb
      push_cast at h1
      have := mul_le_mul_of_nonneg_right h1 hg.ch.le
      unfold Grid.floorY
      linarith
    exact ⟨key _ _ (by omega), key _ _ (by omega)⟩

/-! ## Cases -/

/-- The agent of the samples, 2 high, 0.9 climbing and 0.6 wide, in their voxels of 0.3 and 0.2 (sample/solomesh/settings.go:10-26). -/
example : let a : Agent ℚ := ⟨2, 9 / 10, 3 / 5⟩
    a.walkableHeight (1 / 5) = 10 ∧ a.walkableClimb (1 / 5) = 4 ∧ a.walkableRadius (3 / 10) = 2 := by decide +kernel

/-- In the room with the shelf (floor at a height of 1, shelf at 2.5) an agent of height 3 can stand beside the shelf, not under it. -/
example : let a : Agent ℚ := ⟨14 / 5, 1, 0⟩
    roomGrid.Ok ∧ 0 ≤ a.radius ∧ a.radius ≤ 127 * roomGrid.cs ∧
    ((rasterizeTriangles roomGrid roomVerts [(0, 1, 2), (3, 4, 5)] [63, 0] 1).bind fun ops =>
      (tileGround (a.walkableHeight roomGrid.ch) (a.walkableClimb roomGrid.ch) (a.walkableRadius roomGrid.cs) (fieldOf roomGrid ops)).map fun v =>
        ((v 1 1).map GSpan.y, (v 2 1).map GSpan.y)) = some ([1], []) :=
  ⟨⟨by decide +kernel, by decide +kernel, by decide, by decide, by decide +kernel, by decide +kernel⟩, by decide +kernel, by decide +kernel, by decide +kernel⟩

end Verif.Recast
