/-
Adding interior points to a detail polygon: the sampling loop of `buildPolyDetail` (recast/meshdetail.go:90-115, 164-179, 979-1037).

Simplifications: exact arithmetic in an ordered field; `math.MaxFloat32` and -1 as distances are `none`. The jittered position of a
sample depends on its index only, so samples are given by their positions. A triangle without area is over no point: the code
divides by zero there, and no comparison with the quotients holds.
-/
import Verif.Common.Vec
import Verif.Recast.DetailDelaunay
import Mathlib.Tactic.FieldSimp

namespace Verif.Recast
open Verif Verif.Detour

set_option linter.unusedSimpArgs false
set_option linter.unusedVariables false
set_option linter.unusedSectionVars false

section
variable {K : Type} [_root_.Field K] [LinearOrder K]

/-- `distPtTri` (recast/meshdetail.go:90-115). -/
def distTri (p a b c : V3 K) : Option K :=
  let v0 := (c.x - a.x, c.z - a.z)
  let v1 := (b.x - a.x, b.z - a.z)
  let v2 := (p.x - a.x, p.z - a.z)
  let dot (u w : K × K) : K := u.1 * w.1 + u.2 * w.2
  let den := dot v0 v0 * dot v1 v1 - dot v0 v1 * dot v0 v1
  if den = 0 then none
  else
    let u := (dot v1 v1 * dot v0 v2 - dot v0 v1 * dot v1 v2) / den
    let v := (dot v0 v0 * dot v1 v2 - dot v0 v1 * dot v0 v2) / den
    if -(1 / 10000) ≤ u ∧ -(1 / 10000) ≤ v ∧ u + v ≤ 1 + 1 / 10000 then some |a.y + (c.y - a.y) * u + (b.y - a.y) * v - p.y| else none

/-- The vertex of an index; beyond the array the code panics, here it is the origin. -/
def vertAt (verts : List (V3 K)) (i : Nat) : V3 K := verts.getD i ⟨0, 0, 0⟩

/-- The smaller of two distances (recast/meshdetail.go:171-173). -/
def lesser (m d : Option K) : Option K :=
  match d with
  | none => m
  | some d => match m with
    | none => some d
    | some m => if d < m then some d else some m

/-- `distToTriMesh` (recast/meshdetail.go:164-179). -/
def distMesh (verts : List (V3 K)) (tris : List Tri3) (p : V3 K) : Option K :=
  tris.foldl (fun m t => lesser m (distTri p (vertAt verts t.1) (vertAt verts t.2.1) (vertAt verts t.2.2))) none

/-- The error of the best sample so far; none yet is 0 (recast/meshdetail.go:991-993). -/
def bestErr : Option (Nat × V3 K × K) → K
  | none => 0
  | some b => b.2.2

/-- One sample of the search (recast/meshdetail.go:994-1014). -/
def moreError (dist : V3 K → Option K) (i : Nat) (s : V3 K × Bool) (best : Option (Nat × V3 K × K)) : Option (Nat × V3 K × K) :=
  if s.2 then best
  else match dist s.1 with
    | none => best
    | some d => if bestErr best < d then some (i, s.1, d) else best

/-- The sample with most error (recast/meshdetail.go:988-1014): `none` is index -1; the first argument counts the samples. -/
def mostError (dist : V3 K → Option K) : Nat → List (V3 K × Bool) → Option (Nat × V3 K × K) → Option (Nat × V3 K × K)
  | _, [], best => best
  | i, s :: ss, best => mostError dist (i + 1) ss (moreError dist i s best)

/-- The mesh under construction: vertices, triangles, and samples with the mark of those added. -/
structure DPatch (K : Type) where
  verts : List (V3 K)
  tris : List Tri3
  samples : List (V3 K × Bool)

/-- `delaunayHull` over the vertices so far (recast/meshdetail.go:1026-1030). -/
def retri (hull : List Nat) (verts : List (V3 K)) : Option (List Tri3) :=
  delaunayHull (fun i => ((vertAt verts i).x, (vertAt verts i).z)) verts.length hull

/-- The loop that adds samples (recast/meshdetail.go:982-1031); `none` is a panic. -/
def sampleLoop (hull : List Nat) (err : K) : Nat → DPatch K → Option (DPatch K)
  | 0, S => some S
  | k + 1, S =>
    if 127 ≤ S.verts.length then some S
    else match mostError (distMesh S.verts S.tris) 0 S.samples none with
      | none => some S
      | some (i, pt, d) =>
        if d ≤ err then some S
        else (retri hull (S.verts ++ [pt])).bind fun tris =>
          sampleLoop hull err k ⟨S.verts ++ [pt], tris, S.samples.modify i fun s => (s.1, true)⟩

/-- The interior points of a detail polygon (recast/meshdetail.go:979-1043): the samples are added in turn, and more than 255
triangles are a panic. -/
def addSamples (hull : List Nat) (err : K) (verts : List (V3 K)) (tris : List Tri3) (samples : List (V3 K)) : Option (DPatch K) :=
  (sampleLoop hull err samples.length ⟨verts, tris, samples.map fun p => (p, false)⟩).bind fun S =>
    if 255 < S.tris.length then none else some S

end

/-! ## Distances -/

section
variable {K : Type} [_root_.Field K] [LinearOrder K] [IsStrictOrderedRing K]

/-- Spec: the point lies over the triangle, up to the tolerance, at a vertical distance `d` from it. -/
def OverTri (p a b c : V3 K) (d : K) : Prop :=
  cross2 (a.x, a.z) (b.x, b.z) (c.x, c.z) ≠ 0 ∧ ∃ u v : K, -(1 / 10000) ≤ u ∧ -(1 / 10000) ≤ v ∧ u + v ≤ 1 + 1 / 10000 ∧
    p.x = a.x + u * (c.x - a.x) + v * (b.x - a.x) ∧ p.z = a.z + u * (c.z - a.z) + v * (b.z - a.z) ∧
    d = |a.y + u * (c.y - a.y) + v * (b.y - a.y) - p.y|

theorem distTri_spec (p a b c : V3 K) (d : K) : distTri p a b c = some d ↔ OverTri p a b c d := by
  unfold distTri OverTri
  simp only
  set D := cross2 (a.x, a.z) (b.x, b.z) (c.x, c.z) with hD
  have hden : ((c.x - a.x) * (c.x - a.x) + (c.z - a.z) * (c.z - a.z)) * ((b.x - a.x) * (b.x - a.x) + (b.z - a.z) * (b.z - a.z)) -
      ((c.x - a.x) * (b.x - a.x) + (c.z - a.z) * (b.z - a.z)) * ((c.x - a.x) * (b.x - a.x) + (c.z - a.z) * (b.z - a.z)) = D * D := by
    rw [hD]; unfold cross2; ring
  rw [hden]
  by_cases h0 : D = 0
  · rw [if_pos (by rw [h0]; ring)]
    constructor
    · intro h; cases h
    · intro h; exact absurd h0 h.1
  · have hDD : D * D ≠ 0 := mul_ne_zero h0 h0
    rw [if_neg hDD]
    -- the quotients solve the two equations
    have huv : ∀ u v : K, (p.x = a.x + u * (c.x - a.x) + v * (b.x - a.x) ∧ p.z = a.z + u * (c.z - a.z) + v * (b.z - a.z)) ↔
        (((b.x - a.x) * (b.x - a.x) + (b.z - a.z) * (b.z - a.z)) * ((c.x - a.x) * (p.x - a.x) + (c.z - a.z) * (p.z - a.z)) -
          ((c.x - a.x) * (b.x - a.x) + (c.z - a.z) * (b.z - a.z)) * ((b.x - a.x) * (p.x - a.x) + (b.z - a.z) * (p.z - a.z))) / (D * D) = u ∧
        (((c.x - a.x) * (c.x - a.x) + (c.z - a.z) * (c.z - a.z)) * ((b.x - a.x) * (p.x - a.x) + (b.z - a.z) * (p.z - a.z)) -
          ((c.x - a.x) * (b.x - a.x) + (c.z - a.z) * (b.z - a.z)) * ((c.x - a.x) * (p.x - a.x) + (c.z - a.z) * (p.z - a.z))) / (D * D) = v := by
      intro u v
      constructor
      · rintro ⟨h1, h2⟩
        refine ⟨?_, ?_⟩ <;> rw [div_eq_iff hDD, h1, h2, hD] <;> unfold cross2 <;> ring
      · rintro ⟨rfl, rfl⟩
        constructor <;> rw [eq_comm] <;> field_simp <;> rw [hD] <;> unfold cross2 <;> ring
    constructor
    · intro h
      split at h
      · rename_i hc
        cases h
        refine ⟨h0, _, _, hc.1, hc.2.1, hc.2.2, ((huv _ _).2 ⟨rfl, rfl⟩).1, ((huv _ _).2 ⟨rfl, rfl⟩).2, ?_⟩
        congr 1; ring
      · cases h
    · rintro ⟨_, u, v, h1, h2, h3, h4, h5, rfl⟩
      obtain ⟨e1, e2⟩ := (huv u v).1 ⟨h4, h5⟩
      rw [e1, e2, if_pos ⟨h1, h2, h3⟩]
      congr 2; ring

/-- Spec: the point lies over some triangle of the mesh at a vertical distance `d`. -/
def OverMesh (verts : List (V3 K)) (tris : List Tri3) (p : V3 K) (d : K) : Prop :=
  ∃ t ∈ tris, OverTri p (vertAt verts t.1) (vertAt verts t.2.1) (vertAt verts t.2.2) d

theorem distMesh_spec (verts : List (V3 K)) (tris : List Tri3) (p : V3 K) :
    (distMesh verts tris p = none → ∀ d, ¬ OverMesh verts tris p d) ∧ (∀ d, distMesh verts tris p = some d → OverMesh verts tris p d) := by
  unfold distMesh
  have key : ∀ (ts : List Tri3) (m : Option K),
      (ts.foldl (fun m t => lesser m (distTri p (vertAt verts t.1) (vertAt verts t.2.1) (vertAt verts t.2.2))) m = none →
        m = none ∧ ∀ d, ¬ OverMesh verts ts p d) ∧
      (∀ d, ts.foldl (fun m t => lesser m (distTri p (vertAt verts t.1) (vertAt verts t.2.1) (vertAt verts t.2.2))) m = some d →
        m = some d ∨ OverMesh verts ts p d) := by
    intro ts
    induction ts with
    | nil => exact fun m => ⟨fun h => ⟨h, fun d hd => by obtain ⟨t, ht, _⟩ := hd; cases ht⟩, fun d h => .inl h⟩
    | cons t ts ih =>
      intro m
      rw [List.foldl_cons]
      obtain ⟨i1, i2⟩ := ih (lesser m (distTri p (vertAt verts t.1) (vertAt verts t.2.1) (vertAt verts t.2.2)))
      constructor
      · intro h
        obtain ⟨j1, j2⟩ := i1 h
        cases hd : distTri p (vertAt verts t.1) (vertAt verts t.2.1) (vertAt verts t.2.2) with
        | none =>
          rw [hd] at j1
          refine ⟨j1, ?_⟩
          rintro d ⟨t', ht', ho⟩
          rcases List.mem_cons.1 ht' with rfl | ht'
          · rw [(distTri_spec _ _ _ _ _).2 ho] at hd; cases hd
          · exact j2 d ⟨t', ht', ho⟩
        | some x =>
          rw [hd] at j1
          unfold lesser at j1
          cases m with
          | none => cases j1
          | some m => simp only at j1; split at j1 <;> cases j1
      · intro d h
        rcases i2 d h with h' | ⟨t', ht', ho⟩
        · cases hd : distTri p (vertAt verts t.1) (vertAt verts t.2.1) (vertAt verts t.2.2) with
          | none => rw [hd] at h'; exact .inl h'
          | some x =>
            rw [hd] at h'
            have hx : OverMesh verts (t :: ts) p x := ⟨t, by simp, (distTri_spec _ _ _ _ _).1 hd⟩
            unfold lesser at h'
            cases m with
            | none => cases h'; exact .inr hx
            | some m =>
              simp only at h'
              split at h'
              · cases h'; exact .inr hx
              · exact .inl h'
        · exact .inr ⟨t', by simp [ht'], ho⟩
  obtain ⟨k1, k2⟩ := key tris none
  exact ⟨fun h => (k1 h).2, fun d h => by rcases k2 d h with h | h; cases h; exact h⟩

/-! ## The worst sample -/

theorem moreError_cases (dist : V3 K → Option K) (i : Nat) (s : V3 K × Bool) (best : Option (Nat × V3 K × K)) :
    (moreError dist i s best = best ∧ (s.2 = true ∨ dist s.1 = none ∨ ∃ d, dist s.1 = some d ∧ d ≤ bestErr best)) ∨
    ∃ d, moreError dist i s best = some (i, s.1, d) ∧ s.2 = false ∧ dist s.1 = some d ∧ bestErr best < d := by
  unfold moreError
  by_cases hs : s.2 = true
  · rw [if_pos hs]; exact .inl ⟨rfl, .inl hs⟩
  · rw [if_neg hs]
    split
    · rename_i hd; exact .inl ⟨rfl, .inr (.inl hd)⟩
    · rename_i d hd
      by_cases hlt : bestErr best < d
      · rw [if_pos hlt]; exact .inr ⟨d, rfl, by simpa using hs, hd, hlt⟩
      · rw [if_neg hlt]; exact .inl ⟨rfl, .inr (.inr ⟨d, hd, not_lt.1 hlt⟩)⟩

theorem mostError_spec (dist : V3 K → Option K) (ss : List (V3 K × Bool)) (i : Nat) (best : Option (Nat × V3 K × K))
    (hb : ∀ b, best = some b → 0 < b.2.2) :
    (mostError dist i ss best = none → best = none ∧ ∀ s ∈ ss, s.2 = false → ∀ d, dist s.1 = some d → d ≤ 0) ∧
    (∀ b, mostError dist i ss best = some b → 0 < b.2.2 ∧ (best = some b ∨ ∃ k, b.1 = i + k ∧ ss[k]? = some (b.2.1, false)) ∧
      (∀ b', best = some b' → b'.2.2 ≤ b.2.2) ∧ ∀ s ∈ ss, s.2 = false → ∀ d, dist s.1 = some d → d ≤ b.2.2) := by
  induction ss generalizing i best with
  | nil => exact ⟨fun h => ⟨h, by simp⟩, fun b h => ⟨hb b h, .inl h, fun b' h' => by rw [mostError] at h; rw [h] at h'; cases h'; exact le_refl _, by simp⟩⟩
  | cons s ss ih =>
    rw [mostError]
    generalize hn : moreError dist i s best = best'
    -- the step: positive, new or old, at least the old and the sample's
    have hstep : (∀ b, best' = some b → 0 < b.2.2) ∧ (best' = none → best = none ∧ (s.2 = false → ∀ d, dist s.1 = some d → d ≤ 0)) ∧
        (∀ b, best' = some b → (best = some b ∨ (b.1 = i ∧ s = (b.2.1, false))) ∧ (∀ b', best = some b' → b'.2.2 ≤ b.2.2) ∧
          (s.2 = false → ∀ d, dist s.1 = some d → d ≤ b.2.2)) := by
      rcases moreError_cases dist i s best with ⟨he, hd⟩ | ⟨d, he, hs, hd, hlt⟩
      · rw [hn] at he
        subst he
        have hle : s.2 = false → ∀ d, dist s.1 = some d → d ≤ bestErr best' := by
          intro hs d hd'
          rcases hd with hd | hd | ⟨d', hd, hle⟩
          · rw [hs] at hd; cases hd
          · rw [hd] at hd'; cases hd'
          · rw [hd] at hd'; cases hd'; exact hle
        refine ⟨hb, fun h => ⟨h, fun hs d hd' => ?_⟩, fun b h => ⟨.inl h, fun b' h' => ?_, fun hs d hd' => ?_⟩⟩
        · have := hle hs d hd'
          rw [h] at this
          exact this
        · rw [h] at h'; cases h'; exact le_refl _
        · have := hle hs d hd'
          rw [h] at this
          exact this
      · rw [hn] at he
        subst he
        have h0 : 0 ≤ bestErr best := by
          cases best with
          | none => exact le_refl _
          | some b => exact (hb b rfl).le
        refine ⟨fun b h => ?_, (fun h => by cases h), fun b h => ?_⟩
        · cases h; exact lt_of_le_of_lt h0 hlt
        · cases h
          refine ⟨.inr ⟨rfl, by rw [← hs]⟩, fun b' h' => ?_, fun _ d' hd' => ?_⟩
          · rw [h'] at hlt; exact hlt.le
          · rw [hd] at hd'; cases hd'; exact le_refl _
    obtain ⟨s1, s2, s3⟩ := hstep
    obtain ⟨i1, i2⟩ := ih (i + 1) best' s1
    constructor
    · intro h
      obtain ⟨j1, j2⟩ := i1 h
      obtain ⟨k1, k2⟩ := s2 j1
      refine ⟨k1, fun s' hs' => ?_⟩
      rcases List.mem_cons.1 hs' with rfl | hs'
      · exact k2
      · exact j2 s' hs'
    · intro b h
      obtain ⟨j1, j2, j3, j4⟩ := i2 b h
      refine ⟨j1, ?_, ?_, ?_⟩
      · rcases j2 with j2 | ⟨k, k1, k2⟩
        · rcases (s3 b j2).1 with h1 | ⟨h1, h2⟩
          · exact .inl h1
          · exact .inr ⟨0, by omega, by rw [h2]; rfl⟩
        · exact .inr ⟨k + 1, by omega, by simpa using k2⟩
      · intro b' hb'
        cases hbest : best' with
        | none => rw [(s2 hbest).1] at hb'; cases hb'
        | some b1 => exact le_trans ((s3 b1 hbest).2.1 b' hb') (j3 b1 hbest)
      · intro s' hs' hf d hd
        rcases List.mem_cons.1 hs' with rfl | hs'
        · cases hbest : best' with
          | none => exact le_trans ((s2 hbest).2 hf d hd) j1.le
          | some b1 => exact le_trans ((s3 b1 hbest).2.2 hf d hd) (j3 b1 hbest)
        · exact j4 s' hs' hf d hd

theorem mostError_dist (dist : V3 K → Option K) (ss : List (V3 K × Bool)) (i : Nat) (best : Option (Nat × V3 K × K))
    (hb : ∀ b, best = some b → dist b.2.1 = some b.2.2) (b : Nat × V3 K × K) (h : mostError dist i ss best = some b) : dist b.2.1 = some b.2.2 := by
  induction ss generalizing i best with
  | nil => exact hb b h
  | cons s ss ih =>
    rw [mostError] at h
    refine ih (i + 1) _ ?_ h
    intro b' hb'
    rcases moreError_cases dist i s best with ⟨he, _⟩ | ⟨d, he, _, hd, _⟩
    · rw [he] at hb'; exact hb b' hb'
    · rw [he] at hb'; cases hb'; exact hd

/-! ## The loop -/

/-- The positions of the added samples. -/
def taken (ss : List (V3 K × Bool)) : List (V3 K) := (ss.filter (·.2)).map (·.1)

/-- The number of samples not added. -/
def waiting (ss : List (V3 K × Bool)) : Nat := ss.countP fun s => !s.2

theorem take_one (ss : List (V3 K × Bool)) (k : Nat) (p : V3 K) (h : ss[k]? = some (p, false)) :
    (taken (ss.modify k fun s => (s.1, true))).Perm (taken ss ++ [p]) ∧ waiting (ss.modify k fun s => (s.1, true)) + 1 = waiting ss ∧
      (ss.modify k fun s => (s.1, true)).map (·.1) = ss.map (·.1) := by
  induction ss generalizing k with
  | nil => simp at h
  | cons s ss ih =>
    cases k with
    | zero =>
      simp only [List.getElem?_cons_zero, Option.some.injEq] at h
      subst h
      refine ⟨?_, ?_, ?_⟩
      · rw [List.modify_zero_cons]
        unfold taken
        simp only [List.filter_cons, if_true, Bool.false_eq_true, if_false, List.map_cons]
        exact (List.perm_append_singleton _ _).symm
      · rw [List.modify_zero_cons]; unfold waiting; simp
      · rw [List.modify_zero_cons]; simp
    | succ k =>
      obtain ⟨h1, h2, h3⟩ := ih k (by simpa using h)
      rw [List.modify_succ_cons]
      refine ⟨?_, ?_, ?_⟩
      · unfold taken at h1 ⊢
        rw [List.filter_cons, List.filter_cons]
        split
        · rw [List.map_cons, List.map_cons, List.cons_append]
          exact h1.cons _
        · exact h1
      · unfold waiting at h2 ⊢
        rw [List.countP_cons, List.countP_cons]
        omega
      · rw [List.map_cons, List.map_cons, h3]

/-- What the loop leaves. -/
structure Sampled (hull : List Nat) (err : K) (S R : DPatch K) (fuel : Nat) : Prop where
  verts : ∃ new, R.verts = S.verts ++ new ∧ (taken R.samples).Perm (taken S.samples ++ new) ∧ (new = [] → R.tris = S.tris) ∧
    (new ≠ [] → retri hull R.verts = some R.tris) ∧ R.verts.length ≤ max 127 S.verts.length
  kept : R.samples.map (·.1) = S.samples.map (·.1)
  within : R.verts.length < 127 → waiting S.samples ≤ fuel → ∀ s ∈ R.samples, s.2 = false →
    (∀ d, ¬ OverMesh R.verts R.tris s.1 d) ∨ ∃ d ≤ err, OverMesh R.verts R.tris s.1 d

theorem sampleLoop_spec (hull : List Nat) (err : K) (herr : 0 ≤ err) (fuel : Nat) (S R : DPatch K) (h : sampleLoop hull err fuel S = some R) :
    Sampled hull err S R fuel := by
  have hend : ∀ (S : DPatch K) (fuel : Nat), (S.verts.length < 127 → waiting S.samples ≤ fuel → ∀ s ∈ S.samples, s.2 = false →
      (∀ d, ¬ OverMesh S.verts S.tris s.1 d) ∨ ∃ d ≤ err, OverMesh S.verts S.tris s.1 d) → Sampled hull err S S fuel :=
    fun S fuel hw => ⟨⟨[], by simp, by simp, fun _ => rfl, fun h => absurd rfl h, le_max_right _ _⟩, rfl, hw⟩
  induction fuel generalizing S with
  | zero =>
    rw [sampleLoop] at h
    cases h
    refine hend _ _ fun _ hw s hs hf => ?_
    exfalso
    have : 0 < waiting R.samples := List.countP_pos_iff.2 ⟨s, hs, by simp [hf]⟩
    omega
  | succ fuel ih =>
    rw [sampleLoop] at h
    split at h
    · rename_i hc
      cases h
      exact hend _ _ fun h127 => by omega
    · rename_i hc
      have hm := mostError_spec (distMesh S.verts S.tris) S.samples 0 none (by intro b hb; cases hb)
      have hov := distMesh_spec S.verts S.tris
      -- all distances at most the permitted error
      have hstop : (∀ s ∈ S.samples, s.2 = false → ∀ d, distMesh S.verts S.tris s.1 = some d → d ≤ err) → Sampled hull err S S (fuel + 1) := by
        intro hall
        refine hend _ _ fun _ _ s hs hf => ?_
        cases hd : distMesh S.verts S.tris s.1 with
        | none => exact .inl ((hov s.1).1 hd)
        | some d => exact .inr ⟨d, hall s hs hf d hd, (hov s.1).2 d hd⟩
      split at h
      · rename_i hb
        cases h
        exact hstop fun s hs hf d hd => le_trans ((hm.1 hb).2 s hs hf d hd) herr
      · rename_i i pt d hb
        obtain ⟨m1, m2, m3, m4⟩ := hm.2 _ hb
        split at h
        · rename_i hle
          cases h
          exact hstop fun s hs hf d' hd' => le_trans (m4 s hs hf d' hd') hle
        · rename_i hle
          cases hr : retri hull (S.verts ++ [pt]) with
          | none => rw [hr] at h; cases h
          | some tris =>
            rw [hr] at h
            have hIH := ih ⟨S.verts ++ [pt], tris, S.samples.modify i fun s => (s.1, true)⟩ h
            obtain ⟨⟨new, n1, n2, n3, n4, n5⟩, k, w⟩ := hIH
            have hk : S.samples[i]? = some (pt, false) := by
              rcases m2 with m2 | ⟨k, k1, k2⟩
              · cases m2
              · simp only at k1 k2
                rw [k1, Nat.zero_add]; exact k2
            obtain ⟨t1, t2, t3⟩ := take_one S.samples i pt hk
            refine ⟨⟨pt :: new, ?_, ?_, (fun h => by cases h), fun _ => ?_, ?_⟩, ?_, ?_⟩
            · rw [n1]; simp
            · refine n2.trans ?_
              have := t1.append_right new
              simpa using this
            · by_cases hnew : new = []
              · rw [n3 hnew, n1, hnew]
                simpa using hr
              · exact n4 hnew
            · refine le_trans n5 ?_
              simp only [List.length_append, List.length_singleton]
              omega
            · rw [k]; exact t3
            · intro h127 hw
              exact w h127 (by simp only; omega)

/-- **C148** what the sampling of a detail polygon leaves, whenever it returns: the outline vertices stay as they are, followed by the
positions of the samples added, each once; there are at most 127 vertices unless there were more before; the triangles are the
triangulation of all vertices; and unless 127 vertices are reached, every other sample lies over no triangle or within the permitted
error of one. -/
theorem samples_within (hull : List Nat) (err : K) (herr : 0 ≤ err) (verts : List (V3 K)) (tris : List Tri3) (samples : List (V3 K)) (R : DPatch K)
    (h : addSamples hull err verts tris samples = some R) :
    (∃ new rest, R.verts = verts ++ new ∧ (new ++ rest).Perm samples ∧ R.verts.length ≤ max 127 verts.length ∧
      (R.verts.length < 127 → ∀ p ∈ rest, (∀ d, ¬ OverMesh R.verts R.tris p d) ∨ ∃ d ≤ err, OverMesh R.verts R.tris p d) ∧
      (new = [] → R.tris = tris) ∧ (new ≠ [] → retri hull R.verts = some R.tris)) ∧ R.tris.length ≤ 255 := by
  unfold addSamples at h
  cases hl : sampleLoop hull err samples.length ⟨verts, tris, samples.map fun p => (p, false)⟩ with
  | none => rw [hl] at h; cases h
  | some S =>
    rw [hl] at h
    simp only [Option.bind_some] at h
    split at h
    · cases h
    · rename_i h255
      cases h
      obtain ⟨⟨new, n1, n2, n3, n4, n5⟩, k, w⟩ := sampleLoop_spec hull err herr _ _ _ hl
      simp only at n1 n2 n3 n4 n5 k w
      have ht0 : taken (samples.map fun p => (p, false)) = [] := by
        unfold taken; simp
      rw [ht0, List.nil_append] at n2
      refine ⟨⟨new, (R.samples.filter fun s => !s.2).map (·.1), n1, ?_, n5, ?_, n3, n4⟩, by omega⟩
      · have h1 : (taken R.samples ++ (R.samples.filter fun s => !s.2).map (·.1)).Perm (R.samples.map (·.1)) := by
          unfold taken
          rw [← List.map_append]
          exact (List.filter_append_perm _ _).map _
        have h2 : R.samples.map (·.1) = samples := by
          rw [k, List.map_map]
          exact List.map_id _
        rw [h2] at h1
        exact (n2.symm.append_right _).trans h1
      · intro h127 p hp
        obtain ⟨s, hs, rfl⟩ := List.mem_map.1 hp
        rw [List.mem_filter] at hs
        have hwait : waiting (samples.map fun p => (p, false)) ≤ samples.length := by
          unfold waiting
          exact le_trans List.countP_le_length (by simp)
        exact w h127 hwait s hs.1 (by simpa using hs.2)

theorem distMesh_least (verts : List (V3 K)) (tris : List Tri3) (p : V3 K) (d : K) (h : OverMesh verts tris p d) :
    ∃ d' ≤ d, distMesh verts tris p = some d' := by
  unfold distMesh
  have keep : ∀ (ts : List Tri3) (x : K),
      ∃ d' ≤ x, ts.foldl (fun m t => lesser m (distTri p (vertAt verts t.1) (vertAt verts t.2.1) (vertAt verts t.2.2))) (some x) = some d' := by
    intro ts
    induction ts with
    | nil => exact fun x => ⟨x, le_refl _, rfl⟩
    | cons t ts ih =>
      intro x
      rw [List.foldl_cons]
      have hl : ∃ y ≤ x, lesser (some x) (distTri p (vertAt verts t.1) (vertAt verts t.2.1) (vertAt verts t.2.2)) = some y := by
        unfold lesser
        split
        · exact ⟨x, le_refl _, rfl⟩
        · rename_i d0 _
          by_cases hlt : d0 < x
          · exact ⟨d0, hlt.le, by simp [hlt]⟩
          · exact ⟨x, le_refl _, by simp [hlt]⟩
      obtain ⟨y, y1, y2⟩ := hl
      rw [y2]
      obtain ⟨d', e1, e2⟩ := ih y
      exact ⟨d', le_trans e1 y1, e2⟩
  obtain ⟨t, ht, ho⟩ := h
  have hd := (distTri_spec _ _ _ _ _).2 ho
  have key : ∀ (ts : List Tri3) (m : Option K), t ∈ ts →
      ∃ d' ≤ d, ts.foldl (fun m t => lesser m (distTri p (vertAt verts t.1) (vertAt verts t.2.1) (vertAt verts t.2.2))) m = some d' := by
    intro ts
    induction ts with
    | nil => intro m hm; cases hm
    | cons a ts ih =>
      intro m hm
      rw [List.foldl_cons]
      rcases List.mem_cons.1 hm with rfl | hm
      · rw [hd]
        have hl : ∃ y ≤ d, lesser m (some d) = some y := by
          unfold lesser
          cases m with
          | none => exact ⟨d, le_refl _, rfl⟩
          | some x =>
            by_cases hlt : d < x
            · exact ⟨d, le_refl _, by simp [hlt]⟩
            · exact ⟨x, not_lt.1 hlt, by simp [hlt]⟩
        obtain ⟨y, y1, y2⟩ := hl
        rw [y2]
        obtain ⟨d', e1, e2⟩ := keep ts y
        exact ⟨d', le_trans e1 y1, e2⟩
      · exact ih _ hm
  exact key tris none ht

/-- **C148** nothing is added when every sample lies over no triangle of the outline or within the permitted error of one. -/
theorem samples_needed (hull : List Nat) (err : K) (verts : List (V3 K)) (tris : List Tri3) (htris : tris.length ≤ 255) (samples : List (V3 K))
    (h : ∀ p ∈ samples, (∀ d, ¬ OverMesh verts tris p d) ∨ ∃ d ≤ err, OverMesh verts tris p d) :
    addSamples hull err verts tris samples = some ⟨verts, tris, samples.map fun p => (p, false)⟩ := by
  unfold addSamples
  have hloop : sampleLoop hull err samples.length ⟨verts, tris, samples.map fun p => (p, false)⟩ = some ⟨verts, tris, samples.map fun p => (p, false)⟩ := by
    cases samples.length with
    | zero => rfl
    | succ k =>
      rw [sampleLoop]
      simp only
      split
      · rfl
      · have hm := mostError_spec (distMesh verts tris) (samples.map fun p => (p, false)) 0 none (by intro b hb; cases hb)
        split
        · rfl
        · rename_i i pt d hb
          obtain ⟨m1, m2, m3, m4⟩ := hm.2 _ hb
          -- the worst sample is within the error
          have hk : ∃ k : Nat, (samples.map fun p => (p, false))[k]? = some (pt, false) := by
            rcases m2 with m2 | ⟨k, _, k2⟩
            · cases m2
            · exact ⟨k, k2⟩
          obtain ⟨k, hk⟩ := hk
          rw [List.getElem?_map] at hk
          obtain ⟨p, hp, hpt⟩ := Option.map_eq_some_iff.1 hk
          cases hpt
          have hdist : distMesh verts tris pt = some d := mostError_dist _ _ _ _ (by intro b hb; cases hb) _ hb
          rcases h pt (List.mem_of_getElem? hp) with h1 | ⟨d0, h1, h2⟩
          · exact absurd ((distMesh_spec verts tris pt).2 d hdist) (h1 d)
          · obtain ⟨d', e1, e2⟩ := distMesh_least verts tris pt d0 h2
            rw [hdist] at e2
            cases e2
            rw [if_pos (le_trans e1 h1)]
  rw [hloop]
  simp only [Option.bind_some]
  rw [if_neg (by omega)]

/-- Triangles of a detail polygon with interior points: sound by C146. -/
theorem samples_sound (hull : List Nat) (err : K) (herr : 0 ≤ err) (verts : List (V3 K)) (hh : ∀ v ∈ hull, v < verts.length) (tris : List Tri3)
    (samples : List (V3 K)) (R : DPatch K) (h : addSamples hull err verts tris samples = some R) (hne : R.verts ≠ verts) :
    ∀ t ∈ R.tris, (t.1 < R.verts.length ∧ t.2.1 < R.verts.length ∧ t.2.2 < R.verts.length) ∧ (t.1 ≠ t.2.1 ∧ t.2.1 ≠ t.2.2 ∧ t.2.2 ≠ t.1) ∧
      cross2 ((vertAt R.verts t.1).x, (vertAt R.verts t.1).z) ((vertAt R.verts t.2.1).x, (vertAt R.verts t.2.1).z)
        ((vertAt R.verts t.2.2).x, (vertAt R.verts t.2.2).z) < -(1 / 100000) := by
  obtain ⟨⟨new, rest, h1, -, -, -, -, h6⟩, -⟩ := samples_within hull err herr verts tris samples R h
  have hnew : new ≠ [] := by rintro rfl; exact hne (by rw [h1]; simp)
  exact delaunay_sound _ _ hull (fun v hv => lt_of_lt_of_le (hh v hv) (by rw [h1]; simp)) _ (h6 hnew)

end

/-! ## Cases -/

/-- A triangle at height 0. -/
def flat3 : List (V3 ℚ) := [⟨0, 0, 0⟩, ⟨30, 0, 60⟩, ⟨60, 0, 0⟩]

-- samples at heights 4 and 5 over the triangle, and one beside it: only the second is added with a permitted error of 2
example : ((addSamples [0, 1, 2] 2 flat3 [(0, 1, 2)] [⟨31, 4, 22⟩, ⟨31, 5, 20⟩, ⟨100, 9, 100⟩]).map fun R =>
    (R.verts.length, R.tris.length, R.samples.map (·.2))) = some (4, 3, [false, true, false]) := by decide +kernel
-- a sample that is too far below the mesh afterwards is added as well
example : ((addSamples [0, 1, 2] 2 flat3 [(0, 1, 2)] [⟨31, 1, 22⟩, ⟨31, 5, 20⟩]).map fun R => R.verts.length) = some 5 := by decide +kernel
example : OverTri (K := ℚ) ⟨1, 5, 1⟩ ⟨0, 0, 0⟩ ⟨0, 0, 4⟩ ⟨4, 8, 0⟩ 3 :=
  ⟨by decide +kernel, 1 / 4, 1 / 4, by decide +kernel, by decide +kernel, by decide +kernel, by decide +kernel, by decide +kernel, by decide +kernel⟩

end Verif.Recast
