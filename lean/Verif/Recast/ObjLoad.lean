/-
Loading an OBJ file into a `MeshLoaderOBJ` (recast/meshloaderobj.go): vertices, triangles and normals, and what a second `Load` on the
same loader does. The decoder of the file format (package gobj) is not part of the repository: a file is given by its vertices and
polygons. Arithmetic is exact; the square root is a parameter. More than 2^31 / 3 vertices are not modelled.
-/
import Verif.Recast.Inputs
import Mathlib.Tactic.LinearCombination
import Mathlib.Tactic.FieldSimp
import Mathlib.Tactic.Linarith

namespace Verif.Recast
open Verif

variable {K : Type} [_root_.Field K] [LinearOrder K] [IsStrictOrderedRing K]

set_option linter.unusedSectionVars false

/-! ## Model -/

/-- What `gobj.Decode` reads from a file: `Verts` and `Polys`. -/
structure ObjFile (K : Type) where
  verts : List (V3 K)
  polys : List (List Int)

/-- `MeshLoaderOBJ` (recast/meshloaderobj.go:10-15), without the scale. -/
structure ObjMesh (K : Type) where
  verts : List (V3 K)
  tris : List (Int × Int × Int)
  normals : List (V3 K)

/-- `NewMeshLoaderOBJ` (recast/meshloaderobj.go:17-24). -/
def ObjMesh.new : ObjMesh K := ⟨[], [], []⟩

/-- A vertex by the index in a triangle: `verts[i*3 : 3+i*3]` (recast/meshloaderobj.go:63-65); `none` is a panic. -/
def objVert (verts : List (V3 K)) (i : Int) : Option (V3 K) := if i < 0 then none else verts[i.toNat]?

/-- The normal of a triangle (recast/meshloaderobj.go:66-80). -/
def triNormal (sq : K → K) (v0 v1 v2 : V3 K) : V3 K :=
  let e0 := v1.sub v0
  let e1 := v2.sub v0
  let n : V3 K := ⟨e0.y * e1.z - e0.z * e1.y, e0.z * e1.x - e0.x * e1.z, e0.x * e1.y - e0.y * e1.x⟩
  let d := sq (n.x * n.x + n.y * n.y + n.z * n.z)
  if 0 < d then ⟨n.x * (1 / d), n.y * (1 / d), n.z * (1 / d)⟩ else n

/-- The loop over the triangles that computes the normals (recast/meshloaderobj.go:62-81). -/
def objNormals (sq : K → K) (verts : List (V3 K)) : List (Int × Int × Int) → Option (List (V3 K))
  | [] => some []
  | (a, b, c) :: ts =>
    (objVert verts a).bind fun v0 => (objVert verts b).bind fun v1 => (objVert verts c).bind fun v2 =>
      (objNormals sq verts ts).map fun ns => triNormal sq v0 v1 v2 :: ns

/-- `Load` (recast/meshloaderobj.go:26-84) of a file that can be decoded; `none` is a panic. The vertices are replaced (36-43), the triangles
appended to those the loader has (46-56), the normals computed for all of them (61-81). -/
def ObjMesh.load (sq : K → K) (scale : K) (m : ObjMesh K) (f : ObjFile K) : Option (ObjMesh K) :=
  let verts := f.verts.map fun v => (⟨v.x * scale, v.y * scale, v.z * scale⟩ : V3 K)
  let tris := m.tris ++ objTris f.verts.length f.polys
  (objNormals sq verts tris).map fun normals => ⟨verts, tris, normals⟩

/-! ## Specification -/

/-- The product of all three coordinates. -/
def dot3 (a b : V3 K) : K := a.x * b.x + a.y * b.y + a.z * b.z

/-- The three points lie on a line. -/
def Flat (v0 v1 v2 : V3 K) : Prop := ∃ s t : K, (s ≠ 0 ∨ t ≠ 0) ∧
  s * (v1.x - v0.x) + t * (v2.x - v0.x) = 0 ∧ s * (v1.y - v0.y) + t * (v2.y - v0.y) = 0 ∧ s * (v1.z - v0.z) + t * (v2.z - v0.z) = 0

/-- The volume spanned by three vectors, positive if they are right-handed. -/
def det3 (a b c : V3 K) : K :=
  a.x * (b.y * c.z - b.z * c.y) + a.y * (b.z * c.x - b.x * c.z) + a.z * (b.x * c.y - b.y * c.x)

/-- The normal of a triangle: perpendicular to its sides, of length 1 unless the triangle is flat, and on the side from which the corners
go counterclockwise. -/
def NormalOf (v0 v1 v2 n : V3 K) : Prop :=
  dot3 n (v1.sub v0) = 0 ∧ dot3 n (v2.sub v0) = 0 ∧
    (dot3 n n = 1 ∧ 0 < det3 (v1.sub v0) (v2.sub v0) n ∨ Flat v0 v1 v2 ∧ n = ⟨0, 0, 0⟩)

/-- The loader holds exactly the file: its vertices, the triangles of its polygons, and a normal for each. -/
structure HoldsFile (scale : K) (f : ObjFile K) (m : ObjMesh K) : Prop where
  verts : m.verts.length = f.verts.length ∧ ∀ (k : Nat) (v : V3 K), f.verts[k]? = some v →
    m.verts[k]? = some ⟨v.x * scale, v.y * scale, v.z * scale⟩
  tris : m.tris = objTris f.verts.length f.polys
  normals : m.normals.length = m.tris.length ∧ ∀ (k : Nat) (a b c : Int), m.tris[k]? = some (a, b, c) → ∃ v0 v1 v2 n,
    m.verts[a.toNat]? = some v0 ∧ m.verts[b.toNat]? = some v1 ∧ m.verts[c.toNat]? = some v2 ∧ m.normals[k]? = some n ∧ NormalOf v0 v1 v2 n

/-- The indices of a triangle are those of `n` vertices. -/
def TriIn (n : Nat) (t : Int × Int × Int) : Prop :=
  (0 ≤ t.1 ∧ t.1 < n) ∧ (0 ≤ t.2.1 ∧ t.2.1 < n) ∧ (0 ≤ t.2.2 ∧ t.2.2 < n)

/-! ## Normals -/

theorem flat_of_cross {v0 v1 v2 : V3 K}
    (hx : (v1.y - v0.y) * (v2.z - v0.z) - (v1.z - v0.z) * (v2.y - v0.y) = 0)
    (hy : (v1.z - v0.z) * (v2.x - v0.x) - (v1.x - v0.x) * (v2.z - v0.z) = 0)
    (hz : (v1.x - v0.x) * (v2.y - v0.y) - (v1.y - v0.y) * (v2.x - v0.x) = 0) : Flat v0 v1 v2 := by
  by_cases h1 : v1.x - v0.x = 0
  · by_cases h2 : v1.y - v0.y = 0
    · by_cases h3 : v1.z - v0.z = 0
      · exact ⟨1, 0, Or.inl one_ne_zero, by rw [h1]; ring, by rw [h2]; ring, by rw [h3]; ring⟩
      · exact ⟨v2.z - v0.z, -(v1.z - v0.z), Or.inr (neg_ne_zero.2 h3), by linear_combination -hy, by linear_combination hx, by ring⟩
    · exact ⟨v2.y - v0.y, -(v1.y - v0.y), Or.inr (neg_ne_zero.2 h2), by linear_combination hz, by ring, by linear_combination -hx⟩
  · exact ⟨v2.x - v0.x, -(v1.x - v0.x), Or.inr (neg_ne_zero.2 h1), by ring, by linear_combination -hz, by linear_combination hy⟩

theorem triNormal_spec (sq : K → K) (hsq : ∀ a, 0 ≤ a → 0 ≤ sq a ∧ sq a * sq a = a) (v0 v1 v2 : V3 K) :
    NormalOf v0 v1 v2 (triNormal sq v0 v1 v2) := by
  unfold triNormal
  obtain ⟨nx, hx⟩ : ∃ nx, (v1.y - v0.y) * (v2.z - v0.z) - (v1.z - v0.z) * (v2.y - v0.y) = nx := ⟨_, rfl⟩
  obtain ⟨ny, hy⟩ : ∃ ny, (v1.z - v0.z) * (v2.x - v0.x) - (v1.x - v0.x) * (v2.z - v0.z) = ny := ⟨_, rfl⟩
  obtain ⟨nz, hz⟩ : ∃ nz, (v1.x - v0.x) * (v2.y - v0.y) - (v1.y - v0.y) * (v2.x - v0.x) = nz := ⟨_, rfl⟩
  simp only [V3.sub, hx, hy, hz]
  have hpos : 0 ≤ nx * nx + ny * ny + nz * nz := by nlinarith [mul_self_nonneg nx, mul_self_nonneg ny, mul_self_nonneg nz]
  obtain ⟨s0, s1⟩ := hsq _ hpos
  set d := sq (nx * nx + ny * ny + nz * nz) with hd
  have p1 : nx * (v1.x - v0.x) + ny * (v1.y - v0.y) + nz * (v1.z - v0.z) = 0 := by rw [← hx, ← hy, ← hz]; ring
  have p2 : nx * (v2.x - v0.x) + ny * (v2.y - v0.y) + nz * (v2.z - v0.z) = 0 := by rw [← hx, ← hy, ← hz]; ring
  split
  · rename_i h
    refine ⟨?_, ?_, Or.inl ⟨?_, ?_⟩⟩
    · simp only [dot3, V3.sub]
      linear_combination (1 / d) * p1
    · simp only [dot3, V3.sub]
      linear_combination (1 / d) * p2
    · simp only [dot3]
      have e : nx * (1 / d) * (nx * (1 / d)) + ny * (1 / d) * (ny * (1 / d)) + nz * (1 / d) * (nz * (1 / d)) =
          (nx * nx + ny * ny + nz * nz) / (d * d) := by
        field_simp
      rw [e, ← s1, div_self (mul_ne_zero h.ne' h.ne')]
    · simp only [det3, V3.sub]
      have e : (v1.x - v0.x) * ((v2.y - v0.y) * (nz * (1 / d)) - (v2.z - v0.z) * (ny * (1 / d))) +
          (v1.y - v0.y) * ((v2.z - v0.z) * (nx * (1 / d)) - (v2.x - v0.x) * (nz * (1 / d))) +
          (v1.z - v0.z) * ((v2.x - v0.x) * (ny * (1 / d)) - (v2.y - v0.y) * (nx * (1 / d))) =
          (nx * nx + ny * ny + nz * nz) * (1 / d) := by
        linear_combination (1 / d) * (nx * hx + ny * hy + nz * hz)
      rw [e, ← s1]
      positivity
  · rename_i h
    have d0 : d = 0 := le_antisymm (not_lt.1 h) s0
    rw [d0, mul_zero] at s1
    have x0 : nx = 0 := by nlinarith [mul_self_nonneg nx, mul_self_nonneg ny, mul_self_nonneg nz]
    have y0 : ny = 0 := by nlinarith [mul_self_nonneg nx, mul_self_nonneg ny, mul_self_nonneg nz]
    have z0 : nz = 0 := by nlinarith [mul_self_nonneg nx, mul_self_nonneg ny, mul_self_nonneg nz]
    refine ⟨p1, p2, Or.inr ⟨flat_of_cross (hx.trans x0) (hy.trans y0) (hz.trans z0), by rw [x0, y0, z0]⟩⟩

theorem objVert_some {verts : List (V3 K)} {i : Int} : (∃ v, objVert verts i = some v) ↔ 0 ≤ i ∧ i < verts.length := by
  unfold objVert
  split
  · simp only [reduceCtorEq, exists_false, false_iff]
    omega
  · constructor
    · rintro ⟨v, h⟩
      have := (List.getElem?_eq_some_iff.1 h).1
      omega
    · rintro ⟨h1, h2⟩
      exact ⟨_, List.getElem?_eq_getElem (by omega)⟩

theorem objVert_get {verts : List (V3 K)} {i : Int} {v : V3 K} (h : objVert verts i = some v) : verts[i.toNat]? = some v := by
  unfold objVert at h
  split at h
  · cases h
  · exact h

theorem objNormals_iff (sq : K → K) (verts : List (V3 K)) (ts : List (Int × Int × Int)) :
    (∃ ns, objNormals sq verts ts = some ns) ↔ ∀ t ∈ ts, TriIn verts.length t := by
  induction ts with
  | nil => simp [objNormals]
  | cons t ts ih =>
    obtain ⟨a, b, c⟩ := t
    rw [objNormals]
    constructor
    · rintro ⟨ns, h⟩
      obtain ⟨v0, e0, h⟩ := Option.bind_eq_some_iff.1 h
      obtain ⟨v1, e1, h⟩ := Option.bind_eq_some_iff.1 h
      obtain ⟨v2, e2, h⟩ := Option.bind_eq_some_iff.1 h
      obtain ⟨ns', e3, -⟩ := Option.map_eq_some_iff.1 h
      intro t ht
      rcases List.mem_cons.1 ht with rfl | ht
      · exact ⟨objVert_some.1 ⟨_, e0⟩, objVert_some.1 ⟨_, e1⟩, objVert_some.1 ⟨_, e2⟩⟩
      · exact ih.1 ⟨ns', e3⟩ t ht
    · intro h
      obtain ⟨q0, q1, q2⟩ := h (a, b, c) List.mem_cons_self
      obtain ⟨v0, e0⟩ := objVert_some.2 q0
      obtain ⟨v1, e1⟩ := objVert_some.2 q1
      obtain ⟨v2, e2⟩ := objVert_some.2 q2
      obtain ⟨ns, e3⟩ := ih.2 fun t ht => h t (List.mem_cons_of_mem _ ht)
      exact ⟨_, by rw [e0, e1, e2, e3]; rfl⟩

theorem objNormals_get (sq : K → K) (verts : List (V3 K)) (ts : List (Int × Int × Int)) : ∀ ns, objNormals sq verts ts = some ns →
    ns.length = ts.length ∧ ∀ (k : Nat) (a b c : Int), ts[k]? = some (a, b, c) → ∃ v0 v1 v2, verts[a.toNat]? = some v0 ∧ verts[b.toNat]? = some v1 ∧
      verts[c.toNat]? = some v2 ∧ ns[k]? = some (triNormal sq v0 v1 v2) := by
  induction ts with
  | nil => intro ns h; cases h; exact ⟨rfl, fun k a b c h => by simp at h⟩
  | cons t ts ih =>
    obtain ⟨a, b, c⟩ := t
    intro ns h
    rw [objNormals] at h
    obtain ⟨v0, e0, h⟩ := Option.bind_eq_some_iff.1 h
    obtain ⟨v1, e1, h⟩ := Option.bind_eq_some_iff.1 h
    obtain ⟨v2, e2, h⟩ := Option.bind_eq_some_iff.1 h
    obtain ⟨ns', e3, rfl⟩ := Option.map_eq_some_iff.1 h
    obtain ⟨h1, h2⟩ := ih ns' e3
    refine ⟨by simp [h1], fun k a' b' c' hk => ?_⟩
    cases k with
    | zero =>
      rw [List.getElem?_cons_zero, Option.some.injEq] at hk
      cases hk
      exact ⟨v0, v1, v2, objVert_get e0, objVert_get e1, objVert_get e2, rfl⟩
    | succ k => exact h2 k a' b' c' hk

/-! ## Loading -/

/-- **C165.** What `Load` does, for every loader and file: it succeeds exactly if all triangles the loader had already are triangles over
the vertices of the new file; then the triangles are the old ones, followed by those of the file. -/
theorem obj_load_iff (sq : K → K) (scale : K) (m : ObjMesh K) (f : ObjFile K) :
    ((∃ m', m.load sq scale f = some m') ↔ ∀ t ∈ m.tris, TriIn f.verts.length t) ∧
    ∀ m', m.load sq scale f = some m' → m'.tris = m.tris ++ objTris f.verts.length f.polys := by
  refine ⟨?_, fun m' h => ?_⟩
  · have e : (∃ m', m.load sq scale f = some m') ↔ ∃ ns, objNormals sq (f.verts.map fun v => (⟨v.x * scale, v.y * scale, v.z * scale⟩ : V3 K))
        (m.tris ++ objTris f.verts.length f.polys) = some ns := by
      unfold ObjMesh.load
      simp only [Option.map_eq_some_iff]
      exact ⟨fun ⟨_, ns, h, _⟩ => ⟨ns, h⟩, fun ⟨ns, h⟩ => ⟨_, ns, h, rfl⟩⟩
    rw [e, objNormals_iff, List.length_map]
    refine ⟨fun h t ht => h t (List.mem_append_left _ ht), fun h t ht => ?_⟩
    rcases List.mem_append.1 ht with ht | ht
    · exact h t ht
    · exact obj_in_range _ _ t ht
  · unfold ObjMesh.load at h
    simp only [Option.map_eq_some_iff] at h
    obtain ⟨ns, -, rfl⟩ := h
    rfl

/-- **C165** (partial). `Load` on a loader without triangles, in particular a new one, succeeds for every file, and then the loader holds
exactly the file. Missing: loaders that hold triangles, see `obj_reload_refuted`. -/
theorem obj_load_partial (sq : K → K) (hsq : ∀ a, 0 ≤ a → 0 ≤ sq a ∧ sq a * sq a = a) (scale : K) (m : ObjMesh K) (hm : m.tris = [])
    (f : ObjFile K) : ∃ m', m.load sq scale f = some m' ∧ HoldsFile scale f m' := by
  obtain ⟨m', h⟩ := (obj_load_iff sq scale m f).1.2 fun t ht => by rw [hm] at ht; cases ht
  have ht := (obj_load_iff sq scale m f).2 m' h
  rw [hm, List.nil_append] at ht
  unfold ObjMesh.load at h
  simp only [Option.map_eq_some_iff] at h
  obtain ⟨ns, hn, rfl⟩ := h
  obtain ⟨n1, n2⟩ := objNormals_get sq _ _ ns hn
  refine ⟨_, by unfold ObjMesh.load; simp only; rw [hn]; rfl, ⟨⟨by simp, fun k v hv => by simp [hv]⟩, ht, n1, fun k a b c hk => ?_⟩⟩
  obtain ⟨v0, v1, v2, q0, q1, q2, q3⟩ := n2 k a b c hk
  exact ⟨v0, v1, v2, _, q0, q1, q2, q3, triNormal_spec sq hsq v0 v1 v2⟩

/-- **C165** (refuted in full). A second `Load` on the same loader keeps the triangles of the first file, now over the vertices of
the second; if the second file has fewer vertices it panics. -/
theorem obj_reload_refuted (sq : K → K) : ∃ f g e : ObjFile K, ∃ m, ObjMesh.new.load sq 1 f = some m ∧
    (∃ m', m.load sq 1 g = some m' ∧ g.polys = [] ∧ m'.tris = [(0, 1, 2)]) ∧ m.load sq 1 e = none :=
  ⟨⟨[⟨0, 0, 0⟩, ⟨1, 0, 0⟩, ⟨0, 0, 1⟩], [[0, 1, 2]]⟩, ⟨[⟨5, 0, 5⟩, ⟨6, 0, 5⟩, ⟨5, 0, 6⟩], []⟩, ⟨[⟨5, 0, 5⟩], []⟩, _, rfl, ⟨_, rfl, rfl, rfl⟩, rfl⟩

/-! ## Cases -/

/-- A quad of a file, scaled by 2: two triangles, both with the normal pointing up. -/
example : (ObjMesh.new.load (fun a => if a = 16 then 4 else 0) 2 (⟨[⟨0, 0, 0⟩, ⟨0, 0, 1⟩, ⟨1, 0, 1⟩, ⟨1, 0, 0⟩], [[0, 1, 2, 3], [0, 1, 4]]⟩ : ObjFile ℚ)).map
    (fun m => (m.verts.length, m.tris, m.normals)) = some (4, [(0, 1, 2), (0, 2, 3)], [⟨0, 1, 0⟩, ⟨0, 1, 0⟩]) := by decide +kernel

end Verif.Recast
