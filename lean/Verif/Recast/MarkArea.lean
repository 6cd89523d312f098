/-
Marking a convex polygon in the compact heightfield (`MarkConvexPolyArea`, recast/area.go:215-289), and
the way both sample builders call it for the stored volumes (sample/solomesh/builder.go:176-181,
sample/tilemesh/builder.go:340-345).

Exact arithmetic over a linearly ordered field with floor; float to int32 conversion truncates.
-/
import Verif.Recast.Erode
import Verif.Recast.PointInPoly
import Verif.Recast.Rasterize
import Verif.Recast.Inputs

namespace Verif.Recast
open Verif Verif.Detour

set_option linter.unusedSectionVars false
set_option linter.unusedSimpArgs false

section
variable {K : Type} [_root_.Field K] [LinearOrder K] [IsStrictOrderedRing K] [FloorRing K]

/-! ## Model -/

/-- `verts[i*3:]`, read at 0 and 2; `none` is a panic. `verts[i*3:]` itself panics only for
`i*3 > len(verts)`, the reads then panic for `i*3+2 >= len(verts)`. -/
def readV (verts : List K) (i : Nat) : Option (Q2 K) :=
  match verts[3 * i]?, verts[3 * i + 2]? with
  | some x, some z => some ⟨x, z⟩
  | _, _ => none

/-- The first `n` vertices; all of them are read. -/
def readPoly (verts : List K) (n : Nat) : Option (List (Q2 K)) := (List.range n).mapM (readV verts)

/-- Number of vertices that the bounding box loop looks at: vertex 0, then
`for i := 1; i*3 < nverts; i++` (recast/area.go:223-229). -/
def boxCount (nverts : Nat) : Nat := max 1 ((nverts + 2) / 3)

/-- Least and greatest value of a coordinate (`d3.Vec3Min`, `d3.Vec3Max`). -/
def leastOf (f : Q2 K → K) : List (Q2 K) → K
  | [] => 0
  | q :: l => l.foldl (fun m r => min m (f r)) (f q)
def greatestOf (f : Q2 K → K) : List (Q2 K) → K
  | [] => 0
  | q :: l => l.foldl (fun m r => max m (f r)) (f q)

/-- `chf.BMin`, `chf.Cs`, `chf.Ch` (recast/heightfield.go:208-227). -/
structure Scale (K : Type) where
  bx : K
  byy : K
  bz : K
  cs : K
  ch : K

/-- The centre of a cell (recast/area.go:277-279). -/
def centre (g : Scale K) (p : Nat × Nat) : Q2 K := ⟨g.bx + ((p.1 : K) + 1 / 2) * g.cs, g.bz + ((p.2 : K) + 1 / 2) * g.cs⟩

/-- The body of the innermost loop (recast/area.go:271-284). -/
def markSpan (g : Scale K) (verts : List K) (nverts : Nat) (miny maxy : Int) (areaID : Nat) (ys : Nat → Nat)
    (a : Nat → Nat) (v : (Nat × Nat) × Nat) : Option (Nat → Nat) :=
  if a v.2 = nullArea then some a
  else if miny ≤ ys v.2 ∧ (ys v.2 : Int) ≤ maxy then
    (readPoly verts nverts).map fun l => if pointInPoly l (centre g v.1) then upd a v.2 areaID else a
  else some a

/-- The cells of the loops `for z := z0; z <= z1; z++`, `for x := x0; x <= x1; x++`. -/
def boxCells (x0 x1 z0 z1 : Int) : List (Nat × Nat) :=
  (intRange z0 z1).flatMap fun z => (intRange x0 x1).map fun x => (x.toNat, z.toNat)

/-- `MarkConvexPolyArea` (recast/area.go:215-289); `none` is a panic. `ys` are the `Y` of the spans. -/
def markArea (g : Scale K) (verts : List K) (nverts : Nat) (hmin hmax : K) (areaID : Nat) (ys : Nat → Nat) (c : Chf) :
    Option (Nat → Nat) :=
  (readPoly verts (boxCount nverts)).bind fun b =>
    let minx := truncI ((leastOf Q2.u b - g.bx) / g.cs)
    let miny := truncI ((hmin - g.byy) / g.ch)
    let minz := truncI ((leastOf Q2.v b - g.bz) / g.cs)
    let maxx := truncI ((greatestOf Q2.u b - g.bx) / g.cs)
    let maxy := truncI ((hmax - g.byy) / g.ch)
    let maxz := truncI ((greatestOf Q2.v b - g.bz) / g.cs)
    if maxx < 0 ∨ (c.w : Int) ≤ minx ∨ maxz < 0 ∨ (c.h : Int) ≤ minz then some c.area
    else
      let minx := if minx < 0 then 0 else minx
      let maxx := if (c.w : Int) ≤ maxx then (c.w : Int) - 1 else maxx
      let minz := if minz < 0 then 0 else minz
      let maxz := if (c.h : Int) ≤ maxz then (c.h : Int) - 1 else maxz
      (c.spansOf (boxCells minx maxx minz maxz)).foldlM (markSpan g verts nverts miny maxy areaID ys) c.area

/-- How both builders mark a stored volume: all 36 coordinates of `Verts`, `NVerts` as stored
(sample/solomesh/builder.go:180, sample/tilemesh/builder.go:344). -/
def markVolume (g : Scale K) (vol : Volume K) (ys : Nat → Nat) (c : Chf) : Option (Nat → Nat) :=
  markArea g vol.verts vol.nverts vol.hmin vol.hmax (vol.area % 256) ys c

/-! ## Facts -/

theorem leastOf_spec (f : Q2 K → K) (l : List (Q2 K)) : (∀ q ∈ l, leastOf f l ≤ f q) ∧ (l ≠ [] → ∃ q ∈ l, leastOf f l = f q) := by
  cases l with
  | nil => simp
  | cons a l =>
    unfold leastOf
    have gen : ∀ (l : List (Q2 K)) (m : K), (∀ q ∈ l, l.foldl (fun m r => min m (f r)) m ≤ f q) ∧
        l.foldl (fun m r => min m (f r)) m ≤ m ∧
        (l.foldl (fun m r => min m (f r)) m = m ∨ ∃ q ∈ l, l.foldl (fun m r => min m (f r)) m = f q) := by
      intro l
      induction l with
      | nil => intro m; simp
      | cons b l ih =>
        intro m
        rw [List.foldl_cons]
        obtain ⟨h1, h2, h3⟩ := ih (min m (f b))
        refine ⟨fun q hq => ?_, h2.trans (min_le_left _ _), ?_⟩
        · rcases List.mem_cons.1 hq with rfl | hq
          · exact h2.trans (min_le_right _ _)
          · exact h1 q hq
        · rcases h3 with h3 | ⟨q, hq, h3⟩
          · rcases min_choice m (f b) with e | e
            · left; rw [h3, e]
            · right; exact ⟨b, by simp, by rw [h3, e]⟩
          · right; exact ⟨q, by simp [hq], h3⟩
    obtain ⟨h1, h2, h3⟩ := gen l (f a)
    refine ⟨fun q hq => ?_, fun _ => ?_⟩
    · rcases List.mem_cons.1 hq with rfl | hq
      · exact h2
      · exact h1 q hq
    · rcases h3 with h3 | ⟨q, hq, h3⟩
      · exact ⟨a, by simp, h3⟩
      · exact ⟨q, by simp [hq], h3⟩

theorem greatestOf_spec (f : Q2 K → K) (l : List (Q2 K)) :
    (∀ q ∈ l, f q ≤ greatestOf f l) ∧ (l ≠ [] → ∃ q ∈ l, greatestOf f l = f q) := by
  cases l with
  | nil => simp
  | cons a l =>
    unfold greatestOf
    have gen : ∀ (l : List (Q2 K)) (m : K), (∀ q ∈ l, f q ≤ l.foldl (fun m r => max m (f r)) m) ∧
        m ≤ l.foldl (fun m r => max m (f r)) m ∧
        (l.foldl (fun m r => max m (f r)) m = m ∨ ∃ q ∈ l, l.foldl (fun m r => max m (f r)) m = f q) := by
      intro l
      induction l with
      | nil => intro m; simp
      | cons b l ih =>
        intro m
        rw [List.foldl_cons]
        obtain ⟨h1, h2, h3⟩ := ih (max m (f b))
        refine ⟨fun q hq => ?_, (le_max_left _ _).trans h2, ?_⟩
        · rcases List.mem_cons.1 hq with rfl | hq
          · exact (le_max_right _ _).trans h2
          · exact h1 q hq
        · rcases h3 with h3 | ⟨q, hq, h3⟩
          · rcases max_choice m (f b) with e | e
            · left; rw [h3, e]
            · right; exact ⟨b, by simp, by rw [h3, e]⟩
          · right; exact ⟨q, by simp [hq], h3⟩
    obtain ⟨h1, h2, h3⟩ := gen l (f a)
    refine ⟨fun q hq => ?_, fun _ => ?_⟩
    · rcases List.mem_cons.1 hq with rfl | hq
      · exact h2
      · exact h1 q hq
    · rcases h3 with h3 | ⟨q, hq, h3⟩
      · exact ⟨a, by simp, h3⟩
      · exact ⟨q, by simp [hq], h3⟩

theorem mem_boxCells (x0 x1 z0 z1 : Int) (hx : 0 ≤ x0) (hz : 0 ≤ z0) (p : Nat × Nat) :
    p ∈ boxCells x0 x1 z0 z1 ↔ x0 ≤ p.1 ∧ (p.1 : Int) ≤ x1 ∧ z0 ≤ p.2 ∧ (p.2 : Int) ≤ z1 := by
  obtain ⟨x, z⟩ := p
  simp only [boxCells, List.mem_flatMap, List.mem_map, mem_intRange, Prod.mk.injEq]
  constructor
  · rintro ⟨b, ⟨h1, h2⟩, a, ⟨h3, h4⟩, rfl, rfl⟩
    omega
  · rintro ⟨h1, h2, h3, h4⟩
    exact ⟨z, ⟨h3, h4⟩, x, ⟨h1, h2⟩, by simp, by simp⟩

theorem intRange_pairwise (lo hi : Int) : (intRange lo hi).Pairwise (· < ·) := by
  unfold intRange
  rw [List.pairwise_map]
  refine List.Pairwise.imp ?_ List.pairwise_lt_range
  intro a b h
  omega

theorem boxCells_pairwise (x0 x1 z0 z1 : Int) (hx : 0 ≤ x0) (hz : 0 ≤ z0) : (boxCells x0 x1 z0 z1).Pairwise (· ≠ ·) := by
  unfold boxCells
  rw [List.pairwise_flatMap]
  constructor
  · intro z _
    rw [List.pairwise_map]
    refine List.Pairwise.imp_of_mem ?_ (intRange_pairwise x0 x1)
    intro a b ha hb h e
    have ha := mem_intRange.1 ha
    simp only [Prod.mk.injEq] at e
    omega
  · refine List.Pairwise.imp_of_mem ?_ (intRange_pairwise z0 z1)
    intro a b ha hb h u hu v hv e
    have ha := mem_intRange.1 ha
    simp only [List.mem_map] at hu hv
    obtain ⟨_, -, rfl⟩ := hu
    obtain ⟨_, -, rfl⟩ := hv
    simp only [Prod.mk.injEq] at e
    omega

/-- What the loops do to one span, when the polygon can be read. -/
theorem mark_fold (g : Scale K) (verts : List K) (nverts : Nat) (miny maxy : Int) (areaID : Nat) (ys : Nat → Nat)
    (poly : List (Q2 K)) (hp : readPoly verts nverts = some poly) (l : List ((Nat × Nat) × Nat)) :
    ∀ a : Nat → Nat, l.Pairwise (fun u v => u.2 ≠ v.2) →
    ∃ a', l.foldlM (markSpan g verts nverts miny maxy areaID ys) a = some a' ∧
      (∀ v ∈ l, a' v.2 = if a v.2 ≠ 0 ∧ miny ≤ ys v.2 ∧ (ys v.2 : Int) ≤ maxy ∧ pointInPoly poly (centre g v.1) = true
        then areaID else a v.2) ∧
      (∀ i, (∀ v ∈ l, v.2 ≠ i) → a' i = a i) := by
  induction l with
  | nil => intro a _; exact ⟨a, rfl, by simp, fun _ _ => rfl⟩
  | cons v l ih =>
    intro a hpw
    rw [List.pairwise_cons] at hpw
    obtain ⟨a1, h1, h2, h3⟩ : ∃ a1, markSpan g verts nverts miny maxy areaID ys a v = some a1 ∧
        (a1 v.2 = if a v.2 ≠ 0 ∧ miny ≤ ys v.2 ∧ (ys v.2 : Int) ≤ maxy ∧ pointInPoly poly (centre g v.1) = true
          then areaID else a v.2) ∧ ∀ i, i ≠ v.2 → a1 i = a i := by
      unfold markSpan
      by_cases h0 : a v.2 = nullArea
      · rw [if_pos h0]
        exact ⟨a, rfl, by rw [if_neg (fun h => h.1 h0)], fun _ _ => rfl⟩
      · rw [if_neg h0]
        by_cases hy : miny ≤ ys v.2 ∧ (ys v.2 : Int) ≤ maxy
        · rw [if_pos hy, hp, Option.map_some]
          by_cases hin : pointInPoly poly (centre g v.1) = true
          · rw [if_pos hin]
            refine ⟨_, rfl, ?_, fun i hi => upd_ne _ _ hi⟩
            rw [upd_same, if_pos ⟨h0, hy.1, hy.2, hin⟩]
          · rw [if_neg hin]
            exact ⟨a, rfl, by rw [if_neg (fun h => hin h.2.2.2)], fun _ _ => rfl⟩
        · rw [if_neg hy]
          exact ⟨a, rfl, by rw [if_neg (fun h => hy ⟨h.2.1, h.2.2.1⟩)], fun _ _ => rfl⟩
    obtain ⟨a', g1, g2, g3⟩ := ih a1 hpw.2
    refine ⟨a', ?_, ?_, ?_⟩
    · rw [List.foldlM_cons, h1]; exact g1
    · intro w hw
      rcases List.mem_cons.1 hw with rfl | hw
      · rw [g3 _ (fun u hu => (hpw.1 u hu).symm), h2]
      · rw [g2 w hw, h3 _ (hpw.1 w hw).symm]
    · intro i hi
      rw [g3 i (fun u hu => hi u (by simp [hu])), h3 i (fun e => hi v (by simp) e.symm)]

/-- Spec: the cells the loops visit: those between the truncated corners of the box of the vertices `b`. -/
def InBox (g : Scale K) (b : List (Q2 K)) (x z : Nat) : Prop :=
  truncI ((leastOf Q2.u b - g.bx) / g.cs) ≤ x ∧ (x : Int) ≤ truncI ((greatestOf Q2.u b - g.bx) / g.cs) ∧
  truncI ((leastOf Q2.v b - g.bz) / g.cs) ≤ z ∧ (z : Int) ≤ truncI ((greatestOf Q2.v b - g.bz) / g.cs)

/-- Spec: the heights the loops accept. -/
def InHeight (g : Scale K) (hmin hmax : K) (y : Nat) : Prop :=
  truncI ((hmin - g.byy) / g.ch) ≤ y ∧ (y : Int) ≤ truncI ((hmax - g.byy) / g.ch)

/-- What `MarkConvexPolyArea` does, exactly: the spans it marks are the walkable ones in height range,
in the box of the first `boxCount nverts` vertices, and in the polygon by the crossing test. -/
theorem markArea_spec (g : Scale K) (verts : List K) (nverts : Nat) (hmin hmax : K) (areaID : Nat) (ys : Nat → Nat)
    {c : Chf} (hc : c.Wf) {poly b : List (Q2 K)} (hp : readPoly verts nverts = some poly)
    (hb : readPoly verts (boxCount nverts) = some b) :
    ∃ a', markArea g verts nverts hmin hmax areaID ys c = some a' ∧
      ∀ x z i, c.At x z i →
        ((c.area i ≠ 0 ∧ InHeight g hmin hmax (ys i) ∧ InBox g b x z ∧ pointInPoly poly (centre g (x, z)) = true) →
          a' i = areaID) ∧
        (¬ (c.area i ≠ 0 ∧ InHeight g hmin hmax (ys i) ∧ InBox g b x z ∧ pointInPoly poly (centre g (x, z)) = true) →
          a' i = c.area i) := by
  unfold markArea InBox InHeight
  rw [hb, Option.bind_some]
  simp only
  generalize truncI ((leastOf Q2.u b - g.bx) / g.cs) = minx
  generalize truncI ((hmin - g.byy) / g.ch) = miny
  generalize truncI ((leastOf Q2.v b - g.bz) / g.cs) = minz
  generalize truncI ((greatestOf Q2.u b - g.bx) / g.cs) = maxx
  generalize truncI ((hmax - g.byy) / g.ch) = maxy
  generalize truncI ((greatestOf Q2.v b - g.bz) / g.cs) = maxz
  by_cases hout : maxx < 0 ∨ (c.w : Int) ≤ minx ∨ maxz < 0 ∨ (c.h : Int) ≤ minz
  · rw [if_pos hout]
    refine ⟨c.area, rfl, fun x z i hi => ⟨?_, fun _ => rfl⟩⟩
    rintro ⟨-, -, ⟨h1, h2, h3, h4⟩, -⟩
    have := hi.1
    have := hi.2.1
    omega
  · rw [if_neg hout]
    generalize hx0 : (if minx < 0 then 0 else minx) = x0
    generalize hx1 : (if (c.w : Int) ≤ maxx then (c.w : Int) - 1 else maxx) = x1
    generalize hz0 : (if minz < 0 then 0 else minz) = z0
    generalize hz1 : (if (c.h : Int) ≤ maxz then (c.h : Int) - 1 else maxz) = z1
    have b1 : 0 ≤ x0 := by rw [← hx0]; split <;> omega
    have b2 : 0 ≤ z0 := by rw [← hz0]; split <;> omega
    have hbox : ∀ x z : Nat, x < c.w → z < c.h →
        ((x, z) ∈ boxCells x0 x1 z0 z1 ↔ minx ≤ x ∧ (x : Int) ≤ maxx ∧ minz ≤ z ∧ (z : Int) ≤ maxz) := by
      intro x z hx hz
      rw [mem_boxCells _ _ _ _ b1 b2, ← hx0, ← hx1, ← hz0, ← hz1]
      simp only
      split <;> split <;> split <;> split <;> omega
    have hps : ∀ p ∈ boxCells x0 x1 z0 z1, p.1 < c.w ∧ p.2 < c.h := by
      intro p hp
      have := (mem_boxCells _ _ _ _ b1 b2 p).1 hp
      rw [← hx1, ← hz1] at this
      split at this <;> split at this <;> omega
    have hpw := (c.spansOf_pairwise hc _ (· ≠ ·) hps (boxCells_pairwise x0 x1 z0 z1 b1 b2) (fun _ h => h rfl)).imp fun h => h.1
    obtain ⟨a', h1, h2, h3⟩ := mark_fold g verts nverts miny maxy areaID ys poly hp _ c.area hpw
    refine ⟨a', h1, fun x z i hi => ?_⟩
    by_cases hm : (x, z) ∈ boxCells x0 x1 z0 z1
    · have hv := h2 ((x, z), i) ((c.mem_spansOf _ _ hps).2 ⟨hm, hi⟩)
      simp only at hv
      have hm' := (hbox x z hi.1 hi.2.1).1 hm
      constructor
      · rintro ⟨q1, q2, -, q4⟩
        rw [hv, if_pos ⟨q1, q2.1, q2.2, q4⟩]
      · intro hn
        rw [hv, if_neg]
        rintro ⟨q1, q2, q3, q4⟩
        exact hn ⟨q1, ⟨q2, q3⟩, hm', q4⟩
    · have hv := h3 i (fun v hv he => by
        obtain ⟨w1, w2⟩ := (c.mem_spansOf _ v hps).1 hv
        rw [he] at w2
        obtain ⟨e1, e2⟩ := hc.unique _ _ _ _ _ hi w2
        exact hm (by rw [show (x, z) = v.1 from Prod.ext e1 e2]; exact w1))
      constructor
      · rintro ⟨-, -, q3, -⟩
        exact absurd ((hbox x z hi.1 hi.2.1).2 q3) hm
      · intro _; exact hv

/-- A cell whose centre is in the polygon (by the crossing test) lies in the box of its vertices. -/
theorem inBox_of_inside {g : Scale K} (hcs : 0 < g.cs) {poly : List (Q2 K)} {x z : Nat}
    (h : pointInPoly poly (centre g (x, z)) = true) : InBox g poly x z := by
  have hne : poly ≠ [] := by rintro rfl; simp [pointInPoly] at h
  have half : ∀ n : Nat, truncI ((n : K) + 1 / 2) = n := fun n =>
    truncI_nat (by linarith [show (0 : K) < 1 / 2 by norm_num]) (by
      have : (1 / 2 : K) < 1 := by norm_num
      linarith)
  have hno : ∀ q : Aff K, (∀ r ∈ poly, 0 ≤ q.val r) → 0 ≤ q.val (centre g (x, z)) := by
    intro q hq
    by_contra hlt
    push Not at hlt
    rw [pointInPoly_outside poly _ ⟨q, hq, hlt⟩] at h
    exact absurd h (by simp)
  have h1 := hno ⟨1, 0, -leastOf Q2.u poly⟩ (fun r hr => by
    have := (leastOf_spec Q2.u poly).1 r hr; simp only [Aff.val]; linarith)
  have h2 := hno ⟨-1, 0, greatestOf Q2.u poly⟩ (fun r hr => by
    have := (greatestOf_spec Q2.u poly).1 r hr; simp only [Aff.val]; linarith)
  have h3 := hno ⟨0, 1, -leastOf Q2.v poly⟩ (fun r hr => by
    have := (leastOf_spec Q2.v poly).1 r hr; simp only [Aff.val]; linarith)
  have h4 := hno ⟨0, -1, greatestOf Q2.v poly⟩ (fun r hr => by
    have := (greatestOf_spec Q2.v poly).1 r hr; simp only [Aff.val]; linarith)
  simp only [Aff.val, centre] at h1 h2 h3 h4
  refine ⟨?_, ?_, ?_, ?_⟩
  · rw [← half x]; exact truncI_mono (by rw [div_le_iff₀ hcs]; linarith)
  · rw [← half x]; exact truncI_mono (by rw [le_div_iff₀ hcs]; linarith)
  · rw [← half z]; exact truncI_mono (by rw [div_le_iff₀ hcs]; linarith)
  · rw [← half z]; exact truncI_mono (by rw [le_div_iff₀ hcs]; linarith)

/-! ## The claims -/

/-- **C49** (partial). Whatever polygon and count are passed, the spans that get the area id are walkable spans in
height range whose cell centre is not outside the polygon; all other spans keep their area. -/
theorem mark_only_partial (g : Scale K) (verts : List K) (nverts : Nat) (hmin hmax : K) (areaID : Nat) (ys : Nat → Nat)
    {c : Chf} (hc : c.Wf) {poly b : List (Q2 K)} (hp : readPoly verts nverts = some poly)
    (hb : readPoly verts (boxCount nverts) = some b) :
    ∃ a', markArea g verts nverts hmin hmax areaID ys c = some a' ∧ ∀ x z i, c.At x z i → a' i ≠ c.area i →
      a' i = areaID ∧ c.area i ≠ 0 ∧ InHeight g hmin hmax (ys i) ∧ ¬ Outside poly (centre g (x, z)) := by
  obtain ⟨a', h1, h2⟩ := markArea_spec g verts nverts hmin hmax areaID ys hc hp hb
  refine ⟨a', h1, fun x z i hi hne => ?_⟩
  by_cases h : c.area i ≠ 0 ∧ InHeight g hmin hmax (ys i) ∧ InBox g b x z ∧ pointInPoly poly (centre g (x, z)) = true
  · refine ⟨(h2 x z i hi).1 h, h.1, h.2.1, fun ho => ?_⟩
    rw [pointInPoly_outside poly _ ho] at h
    exact absurd h.2.2.2 (by simp)
  · exact absurd ((h2 x z i hi).2 h) hne

/-- **C49** (partial). If the first third of the vertices spans the same box as the whole convex polygon, every
walkable span in height range whose cell centre is strictly inside gets the area id. Missing: all other
polygons; for them the claim is false, see `mark_refuted`. -/
theorem mark_inside_partial (g : Scale K) (hcs : 0 < g.cs) (verts : List K) (nverts : Nat) (hmin hmax : K) (areaID : Nat)
    (ys : Nat → Nat) {c : Chf} (hc : c.Wf) {poly b : List (Q2 K)} (hp : readPoly verts nverts = some poly)
    (hcv : Convex poly) (hb : readPoly verts (boxCount nverts) = some b)
    (hbox : leastOf Q2.u b ≤ leastOf Q2.u poly ∧ leastOf Q2.v b ≤ leastOf Q2.v poly ∧
      greatestOf Q2.u poly ≤ greatestOf Q2.u b ∧ greatestOf Q2.v poly ≤ greatestOf Q2.v b) :
    ∃ a', markArea g verts nverts hmin hmax areaID ys c = some a' ∧ ∀ x z i, c.At x z i → c.area i ≠ 0 →
      InHeight g hmin hmax (ys i) → Inside poly (centre g (x, z)) → a' i = areaID := by
  obtain ⟨a', h1, h2⟩ := markArea_spec g verts nverts hmin hmax areaID ys hc hp hb
  refine ⟨a', h1, fun x z i hi h0 hy hin => (h2 x z i hi).1 ⟨h0, hy, ?_, pointInPoly_inside poly hcv _ hin⟩⟩
  obtain ⟨e1, e2, e3, e4⟩ := inBox_of_inside hcs (pointInPoly_inside poly hcv _ hin)
  refine ⟨le_trans (truncI_mono ?_) e1, le_trans e2 (truncI_mono ?_), le_trans (truncI_mono ?_) e3, le_trans e4 (truncI_mono ?_)⟩
  · exact div_le_div_of_nonneg_right (by linarith [hbox.1]) hcs.le
  · exact div_le_div_of_nonneg_right (by linarith [hbox.2.2.1]) hcs.le
  · exact div_le_div_of_nonneg_right (by linarith [hbox.2.1]) hcs.le
  · exact div_le_div_of_nonneg_right (by linarith [hbox.2.2.2]) hcs.le

/-! ## Stored volumes -/

theorem readPoly_none {verts : List K} {n i : Nat} (hi : i < n) (h : verts.length ≤ 3 * i) : readPoly verts n = none := by
  have hr : readV verts i = none := by
    unfold readV
    rw [List.getElem?_eq_none (by omega)]
  unfold readPoly
  have gen : ∀ l : List Nat, i ∈ l → l.mapM (readV verts) = none := by
    intro l
    induction l with
    | nil => simp
    | cons a l ih =>
      intro hm
      rw [List.mapM_cons]
      rcases List.mem_cons.1 hm with rfl | hm
      · rw [hr]; rfl
      · rw [ih hm]
        cases readV verts a <;> rfl
  exact gen _ (List.mem_range.2 hi)

theorem readPoly_some {verts : List K} {n : Nat} (h : 3 * n ≤ verts.length) : ∃ poly, readPoly verts n = some poly := by
  unfold readPoly
  have gen : ∀ l : List Nat, (∀ i ∈ l, i < n) → ∃ poly, l.mapM (readV verts) = some poly := by
    intro l
    induction l with
    | nil => intro _; exact ⟨[], rfl⟩
    | cons a l ih =>
      intro hm
      obtain ⟨poly, hp⟩ := ih fun i hi => hm i (by simp [hi])
      have ha := hm a (by simp)
      have hr : readV verts a = some ⟨verts[3 * a]'(by omega), verts[3 * a + 2]'(by omega)⟩ := by
        unfold readV
        rw [List.getElem?_eq_getElem (by omega), List.getElem?_eq_getElem (by omega)]
      rw [List.mapM_cons, hr, hp]
      exact ⟨_, rfl⟩
  exact gen _ fun i hi => List.mem_range.1 hi

theorem mark_fold_none (g : Scale K) (verts : List K) (nverts : Nat) (miny maxy : Int) (areaID : Nat) (ys : Nat → Nat)
    (hp : readPoly verts nverts = none) (a : Nat → Nat) (l : List ((Nat × Nat) × Nat))
    (h : ∃ v ∈ l, a v.2 ≠ 0 ∧ miny ≤ ys v.2 ∧ (ys v.2 : Int) ≤ maxy) :
    l.foldlM (markSpan g verts nverts miny maxy areaID ys) a = none := by
  induction l with
  | nil => simp at h
  | cons w l ih =>
    rw [List.foldlM_cons]
    by_cases hw : a w.2 ≠ 0 ∧ miny ≤ ys w.2 ∧ (ys w.2 : Int) ≤ maxy
    · have : markSpan g verts nverts miny maxy areaID ys a w = none := by
        unfold markSpan
        rw [if_neg (show ¬ a w.2 = nullArea from hw.1), if_pos hw.2, hp]; rfl
      rw [this]; rfl
    · have : markSpan g verts nverts miny maxy areaID ys a w = some a := by
        unfold markSpan
        by_cases h0 : a w.2 = nullArea
        · rw [if_pos h0]
        · rw [if_neg h0, if_neg (fun h => hw ⟨h0, h⟩)]
      rw [this]
      refine ih ?_
      obtain ⟨v, hv, hv'⟩ := h
      rcases List.mem_cons.1 hv with rfl | hv
      · exact absurd hv' hw
      · exact ⟨v, hv, hv'⟩

/-- **C91** (partial). Marking a stored volume of at most 4 vertices does not panic and changes only walkable spans in
height range. Missing: larger volumes, and that the spans changed are in the polygon; both are false, see
`volume_panics_refuted` and `volume_outside_refuted`. -/
theorem volume_runs_partial (g : Scale K) (vol : Volume K) (hlen : vol.verts.length = volRoom) (hn : vol.nverts ≤ 3 * 4)
    (ys : Nat → Nat) {c : Chf} (hc : c.Wf) :
    ∃ a', markVolume g vol ys c = some a' ∧ ∀ x z i, c.At x z i → a' i ≠ c.area i →
      a' i = vol.area % 256 ∧ c.area i ≠ 0 ∧ InHeight g vol.hmin vol.hmax (ys i) := by
  have hlen' : vol.verts.length = 36 := hlen
  obtain ⟨poly, hp⟩ := readPoly_some (verts := vol.verts) (n := vol.nverts) (by omega)
  obtain ⟨b, hb⟩ := readPoly_some (verts := vol.verts) (n := boxCount vol.nverts) (by unfold boxCount; omega)
  obtain ⟨a', h1, h2⟩ := mark_only_partial g vol.verts vol.nverts vol.hmin vol.hmax (vol.area % 256) ys hc hp hb
  exact ⟨a', h1, fun x z i hi hne => ⟨(h2 x z i hi hne).1, (h2 x z i hi hne).2.1, (h2 x z i hi hne).2.2.1⟩⟩

/-- **C91** (refuted). Marking a stored volume of 5 to 12 vertices panics as soon as there is a walkable span in
its box and height range: `NVerts` holds the number of coordinates, the crossing test takes it for the number of vertices and
reads past the 36 coordinates. -/
theorem volume_panics_refuted (g : Scale K) (vol : Volume K) (hlen : vol.verts.length = volRoom) {n : Nat}
    (hn : vol.nverts = 3 * n) (h5 : 5 ≤ n) (h12 : n ≤ 12) (ys : Nat → Nat) {c : Chf}
    {b : List (Q2 K)} (hb : readPoly vol.verts n = some b) {x z i : Nat} (hi : c.At x z i) (h0 : c.area i ≠ 0)
    (hy : InHeight g vol.hmin vol.hmax (ys i)) (hbox : InBox g b x z) :
    markVolume g vol ys c = none := by
  have hlen' : vol.verts.length = 36 := hlen
  have hbc : boxCount vol.nverts = n := by unfold boxCount; omega
  have hpn : readPoly vol.verts vol.nverts = none := readPoly_none (i := 3 * n - 1) (by omega) (by omega)
  unfold markVolume markArea
  unfold InBox at hbox
  unfold InHeight at hy
  rw [hbc, hb, Option.bind_some]
  simp only
  generalize truncI ((leastOf Q2.u b - g.bx) / g.cs) = minx at *
  generalize truncI ((vol.hmin - g.byy) / g.ch) = miny at *
  generalize truncI ((leastOf Q2.v b - g.bz) / g.cs) = minz at *
  generalize truncI ((greatestOf Q2.u b - g.bx) / g.cs) = maxx at *
  generalize truncI ((vol.hmax - g.byy) / g.ch) = maxy at *
  generalize truncI ((greatestOf Q2.v b - g.bz) / g.cs) = maxz at *
  have hx := hi.1
  have hz := hi.2.1
  rw [if_neg (by omega)]
  refine mark_fold_none g _ _ miny maxy _ ys hpn c.area _ ⟨((x, z), i), ?_, h0, hy⟩
  generalize hx0 : (if minx < 0 then 0 else minx) = x0
  generalize hx1 : (if (c.w : Int) ≤ maxx then (c.w : Int) - 1 else maxx) = x1
  generalize hz0 : (if minz < 0 then 0 else minz) = z0
  generalize hz1 : (if (c.h : Int) ≤ maxz then (c.h : Int) - 1 else maxz) = z1
  have b1 : 0 ≤ x0 := by rw [← hx0]; split <;> omega
  have b2 : 0 ≤ z0 := by rw [← hz0]; split <;> omega
  have hps : ∀ p ∈ boxCells x0 x1 z0 z1, p.1 < c.w ∧ p.2 < c.h := by
    intro p hp
    have := (mem_boxCells _ _ _ _ b1 b2 p).1 hp
    rw [← hx1, ← hz1] at this
    split at this <;> split at this <;> omega
  refine (c.mem_spansOf _ _ hps).2 ⟨(mem_boxCells _ _ _ _ b1 b2 _).2 ?_, hi⟩
  rw [← hx0, ← hx1, ← hz0, ← hz1]
  simp only
  split <;> split <;> split <;> split <;> omega

end

/-! ## Witnesses -/

/-- Cells of size 1 from the origin. -/
def unitScale : Scale ℚ := ⟨0, 0, 0, 1, 1⟩

/-- **C49** (refuted in full). The triangle `(0,0) (8,0) (0,8)`, three vertices, passed with `nverts = 3` as
documented: the span of cell `(2, 2)` is walkable, in height range and strictly inside, and is not marked. -/
theorem mark_refuted : ∃ (F : Field) (f : Fill) (con : Nat → U32) (verts : List ℚ) (poly : List (Q2 ℚ)) (a' : Nat → Nat) (x z i : Nat),
    buildCompact 2 1 F = some (f, con) ∧ (mkChf F f con).Wf ∧ verts.length = 3 * 3 ∧ readPoly verts 3 = some poly ∧ Convex poly ∧
    (mkChf F f con).At x z i ∧ (mkChf F f con).area i = 63 ∧ InHeight unitScale 0 10 1 ∧
    Inside poly (centre unitScale (x, z)) ∧
    markArea unitScale verts 3 0 10 5 (fun _ => 1) (mkChf F f con) = some a' ∧ a' i = 63 := by
  obtain ⟨f, con, h0, hc, hn, hat, ha, hnb⟩ := plain_facts 8
  have hp : readPoly [0, 0, 0, 8, 0, 0, 0, 0, (8 : ℚ)] 3 = some [⟨0, 0⟩, ⟨8, 0⟩, ⟨0, 8⟩] := rfl
  have hb : readPoly [0, 0, 0, 8, 0, 0, 0, 0, (8 : ℚ)] (boxCount 3) = some [⟨0, 0⟩] := rfl
  obtain ⟨a', h1, h2⟩ := markArea_spec unitScale _ 3 0 10 5 (fun _ => 1) hc hp hb
  have hi : (mkChf (plain 8) f con).At 2 2 (2 + 2 * 8) := (hat _ _ _).2 ⟨by decide, by decide, rfl⟩
  have har := ha (2 + 2 * 8) (by decide)
  refine ⟨plain 8, f, con, _, _, a', 2, 2, 2 + 2 * 8, h0, hc, rfl, hp, convex_three _ _ _, hi, har, ?_, ?_, h1, ?_⟩
  · unfold InHeight unitScale; decide +kernel
  · refine ⟨by simp, Or.inl ?_⟩
    simp only [edges, List.getLast?_cons_cons, List.getLast?_singleton, pairs, List.mem_cons, List.not_mem_nil, or_false,
      forall_eq_or_imp, forall_eq, side, centre, unitScale]
    norm_num
  · rw [(h2 2 2 _ hi).2, har]
    rintro ⟨-, -, hx, -⟩
    have : ¬ InBox unitScale [⟨0, 0⟩] 2 2 := by unfold InBox unitScale; decide +kernel
    exact this hx

/-- The hypotheses of `mark_inside_partial` are met: four vertices `(0,0) (8,8) (0,8) (0,4)`, of which the first two
span the box; the span of cell `(1, 5)` is marked. -/
example : ∃ (f : Fill) (con : Nat → U32) (a' : Nat → Nat), buildCompact 2 1 (plain 8) = some (f, con) ∧
    markArea unitScale [0, 0, 0, 8, 0, 8, 0, 0, 8, 0, 0, (4 : ℚ)] 4 0 10 5 (fun _ => 1)
      (mkChf (plain 8) f con) = some a' ∧ a' (1 + 5 * 8) = 5 := by
  obtain ⟨f, con, h0, hc, hn, hat, ha, hnb⟩ := plain_facts 8
  obtain ⟨a', h1, h2⟩ := mark_inside_partial unitScale (by decide +kernel)
    [0, 0, 0, 8, 0, 8, 0, 0, 8, 0, 0, (4 : ℚ)] 4 0 10 5 (fun _ => 1) hc
    (poly := [⟨0, 0⟩, ⟨8, 8⟩, ⟨0, 8⟩, ⟨0, 4⟩]) (b := [⟨0, 0⟩, ⟨8, 8⟩]) rfl (by
      intro h
      have m1 : 0 ≤ h.val ⟨0, 0⟩ → 0 ≤ h.val ⟨0, 8⟩ → 0 ≤ h.val ⟨0, 4⟩ := by
        simp only [Aff.val]; intro a b; linarith
      have m2 : ¬ 0 ≤ h.val ⟨0, 0⟩ → ¬ 0 ≤ h.val ⟨0, 8⟩ → ¬ 0 ≤ h.val ⟨0, 4⟩ := by
        simp only [Aff.val]; intro a b; push Not at *; linarith
      simp only [List.map_cons, List.map_nil]
      by_cases a : 0 ≤ h.val ⟨0, 0⟩ <;> by_cases b : 0 ≤ h.val ⟨8, 8⟩ <;> by_cases c : 0 ≤ h.val ⟨0, 8⟩ <;>
        by_cases d : 0 ≤ h.val ⟨0, 4⟩ <;>
        first
          | exact absurd (m1 a c) d
          | exact absurd d (m2 a c)
          | (simp only [a, b, c, d]; decide)) rfl (by decide +kernel)
  refine ⟨f, con, a', h0, h1, h2 1 5 _ ((hat _ _ _).2 ⟨by decide, by decide, rfl⟩) (by rw [ha _ (by decide)]; decide) ?_ ?_⟩
  · unfold InHeight unitScale; decide +kernel
  · refine ⟨by simp, Or.inl ?_⟩
    simp only [edges, List.getLast?_cons_cons, List.getLast?_singleton, pairs, List.mem_cons, List.not_mem_nil, or_false,
      forall_eq_or_imp, forall_eq, side, centre, unitScale]
    norm_num

/-- The hypotheses of `volume_panics_refuted` are met by a stored pentagon `(0,0) (8,0) (8,8) (4,8) (0,8)`. -/
example : ∃ (f : Fill) (con : Nat → U32), buildCompact 2 1 (plain 8) = some (f, con) ∧
    markVolume unitScale ⟨[0, 0, 0, 8, 0, 0, 8, 0, 8, 4, 0, 8, 0, 0, (8 : ℚ)] ++ List.replicate 21 0, 0, 10, 15, 5⟩
      (fun _ => 1) (mkChf (plain 8) f con) = none := by
  obtain ⟨f, con, h0, hc, hn, hat, ha, hnb⟩ := plain_facts 8
  refine ⟨f, con, h0, volume_panics_refuted unitScale _ rfl (n := 5) rfl (by decide) (by decide) _
    (b := [⟨0, 0⟩, ⟨8, 0⟩, ⟨8, 8⟩, ⟨4, 8⟩, ⟨0, 8⟩]) rfl (x := 2) (z := 2) ((hat _ _ _).2 ⟨by decide, by decide, rfl⟩)
    (by rw [ha _ (by decide)]; decide) ?_ ?_⟩
  · unfold InHeight unitScale; decide +kernel
  · unfold InBox unitScale; decide +kernel

/-- **C91** (refuted). A stored triangle `(4,8) (8,8) (8,4)`: the builder marks the span of cell `(4, 4)`, whose centre
is outside the triangle, because unused vertices of the volume, all `(0,0)`, count as vertices. -/
theorem volume_outside_refuted : ∃ (F : Field) (f : Fill) (con : Nat → U32) (gm : Volumes ℚ) (verts : List ℚ) (vol : Volume ℚ)
    (poly : List (Q2 ℚ)) (a' : Nat → Nat) (x z i : Nat),
    buildCompact 2 1 F = some (f, con) ∧ gm.Ok ∧ gm.list = [] ∧ (gm.add verts 0 10 5).list = [vol] ∧
    verts.length = 3 * 3 ∧ readPoly verts 3 = some poly ∧
    (mkChf F f con).At x z i ∧ (mkChf F f con).area i = 63 ∧
    Outside poly (centre unitScale (x, z)) ∧
    markVolume unitScale vol (fun _ => 1) (mkChf F f con) = some a' ∧ a' i = 5 := by
  obtain ⟨f, con, h0, hc, hn, hat, ha, hnb⟩ := plain_facts 8
  have hp : readPoly [4, 0, 8, 8, 0, 8, 8, 0, (4 : ℚ)] 3 = some [⟨4, 8⟩, ⟨8, 8⟩, ⟨8, 4⟩] := rfl
  have hp9 : readPoly ([4, 0, 8, 8, 0, 8, 8, 0, (4 : ℚ)] ++ List.replicate 27 0) 9 =
    some [⟨4, 8⟩, ⟨8, 8⟩, ⟨8, 4⟩, ⟨0, 0⟩, ⟨0, 0⟩, ⟨0, 0⟩, ⟨0, 0⟩, ⟨0, 0⟩, ⟨0, 0⟩] := rfl
  have hb : readPoly ([4, 0, 8, 8, 0, 8, 8, 0, (4 : ℚ)] ++ List.replicate 27 0) (boxCount 9) =
    some [⟨4, 8⟩, ⟨8, 8⟩, ⟨8, 4⟩] := rfl
  obtain ⟨a', h1, h2⟩ := markArea_spec unitScale _ 9 0 10 5 (fun _ => 1) hc hp9 hb
  have hi : (mkChf (plain 8) f con).At 4 4 (4 + 4 * 8) := (hat _ _ _).2 ⟨by decide, by decide, rfl⟩
  have har := ha (4 + 4 * 8) (by decide)
  refine ⟨plain 8, f, con, ⟨fun _ => ⟨List.replicate 36 0, 0, 0, 0, 0⟩, 0⟩, _,
    ⟨[4, 0, 8, 8, 0, 8, 8, 0, 4] ++ List.replicate 27 0, 0, 10, 9, 5⟩, _, a', 4, 4, 4 + 4 * 8, h0, ?_, ?_, ?_, rfl, hp, hi, har,
    ?_, h1, ?_⟩
  · exact ⟨by decide, fun i => rfl⟩
  · rfl
  · rfl
  · refine ⟨⟨1, 1, -12⟩, ?_, ?_⟩
    · simp only [List.mem_cons, List.not_mem_nil, or_false, forall_eq_or_imp, forall_eq, Aff.val]
      norm_num
    · simp only [Aff.val, centre, unitScale]
      norm_num
  · refine (h2 4 4 _ hi).1 ⟨by rw [har]; decide, ?_, ?_, ?_⟩
    · unfold InHeight unitScale; decide +kernel
    · unfold InBox unitScale; decide +kernel
    · decide +kernel

end Verif.Recast
