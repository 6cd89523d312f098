/-
The segment query of the chunky triangle mesh (recast/chunkytrimesh.go:234-297).

Simplifications: as in ChunkyMesh.lean; in addition the arithmetic of `checkOverlapSegment` is exact (`eps` stands for
`EPSILON`), and `maxIds` is a natural number (a negative one acts as 0).
-/
import Verif.Recast.ChunkyMesh
import Mathlib.Algebra.Order.Field.Basic
import Mathlib.Tactic.Linarith
import Mathlib.Tactic.FieldSimp
import Mathlib.Tactic.Ring
import Mathlib.Data.Rat.Defs
import Mathlib.Algebra.Order.Ring.Rat

namespace Verif.Recast

set_option linter.unusedSimpArgs false
set_option linter.unusedVariables false
set_option linter.unusedSectionVars false

variable {K : Type} [_root_.Field K] [LinearOrder K] [IsStrictOrderedRing K]

/-! ## Model -/

/-- One pass of the loop of `checkOverlapSegment` (recast/chunkytrimesh.go:243-267) with `tm` for `tmin` and `tmax`; `none` is
`return false`. -/
def slabPass (eps p d lo hi : K) (tm : K × K) : Option (K × K) :=
  if |d| < eps then
    if p < lo ∨ p > hi then none else some tm
  else
    let ood := 1 / d
    let t1 := (lo - p) * ood
    let t2 := (hi - p) * ood
    let t := if t1 > t2 then (t2, t1) else (t1, t2)
    let tmin := if t.1 > tm.1 then t.1 else tm.1
    let tmax := if t.2 < tm.2 then t.2 else tm.2
    if tmin > tmax then none else some (tmin, tmax)

/-- `checkOverlapSegment` (recast/chunkytrimesh.go:234-269). -/
def checkOverlapSegment (eps : K) (p q : K × K) (b : Rect K) : Bool :=
  ((slabPass eps p.1 (q.1 - p.1) b.lo0 b.hi0 (0, 1)).bind (slabPass eps p.2 (q.2 - p.2) b.lo1 b.hi1)).isSome

/-- `chunksOverlappingSegment` (recast/chunkytrimesh.go:272-297): `ids[0:n]`, for a buffer of `len` entries; `none` if an entry
outside the buffer is written or the loop does not end within the fuel. -/
def segmentLoop (eps : K) (nodes : Nat → CNode K) (nnodes : Nat) (p q : K × K) (len maxIds : Nat) : Nat → Nat → List Nat → Option (List Nat)
  | 0, i, ids => if i < nnodes then none else some ids
  | f + 1, i, ids =>
    if i < nnodes then
      let overlap := checkOverlapSegment eps p q (nodes i).box
      let leaf := decide ((nodes i).i ≥ 0)
      if leaf && overlap && decide (ids.length < maxIds) && decide (len ≤ ids.length) then none
      else
        let ids' := if leaf && overlap && decide (ids.length < maxIds) then ids ++ [i] else ids
        if overlap || leaf then segmentLoop eps nodes nnodes p q len maxIds f (i + 1) ids'
        else segmentLoop eps nodes nnodes p q len maxIds f ((i : Int) + -(nodes i).i).toNat ids'
    else some ids

/-! ## The test -/

/-- Spec: what the test asks of one coordinate of the point at `t`: nearly constant coordinates count as constant. -/
def SlabAt (eps p d lo hi t : K) : Prop := if |d| < eps then lo ≤ p ∧ p ≤ hi else lo ≤ p + t * d ∧ p + t * d ≤ hi

theorem slabPass_spec {eps p d lo hi : K} (he : 0 < eps) (hb : lo ≤ hi) {tm : K × K} (ht : tm.1 ≤ tm.2) :
    (∀ r, slabPass eps p d lo hi tm = some r → r.1 ≤ r.2 ∧ ∀ t, r.1 ≤ t ∧ t ≤ r.2 ↔ (tm.1 ≤ t ∧ t ≤ tm.2) ∧ SlabAt eps p d lo hi t) ∧
    (slabPass eps p d lo hi tm = none → ∀ t, ¬ ((tm.1 ≤ t ∧ t ≤ tm.2) ∧ SlabAt eps p d lo hi t)) := by
  unfold slabPass SlabAt
  by_cases hd : |d| < eps
  · simp only [if_pos hd]
    by_cases hp : p < lo ∨ p > hi
    · rw [if_pos hp]
      refine ⟨fun r h => by simp at h, fun _ t ht' => ?_⟩
      rcases hp with h | h
      · exact absurd ht'.2.1 (not_le.2 h)
      · exact absurd ht'.2.2 (not_le.2 h)
    · rw [if_neg hp]
      simp only [not_or, not_lt, gt_iff_lt] at hp
      refine ⟨fun r h => ?_, fun h => by cases h⟩
      obtain rfl := Option.some.inj h
      exact ⟨ht, fun t => ⟨fun h => ⟨h, hp⟩, fun h => h.1⟩⟩
  · simp only [if_neg hd]
    have hd0 : d ≠ 0 := by rintro rfl; simp at hd; linarith
    -- the times between the two planes
    have key : ∃ a b : K, a ≤ b ∧ (if (lo - p) * (1 / d) > (hi - p) * (1 / d) then ((hi - p) * (1 / d), (lo - p) * (1 / d))
        else ((lo - p) * (1 / d), (hi - p) * (1 / d))) = (a, b) ∧ ∀ t, (lo ≤ p + t * d ∧ p + t * d ≤ hi) ↔ a ≤ t ∧ t ≤ b := by
      rw [mul_one_div, mul_one_div]
      rcases lt_or_gt_of_ne hd0 with hneg | hpos
      · have hle : (hi - p) / d ≤ (lo - p) / d := div_le_div_of_nonpos_of_le hneg.le (by linarith)
        refine ⟨(hi - p) / d, (lo - p) / d, hle, ?_, fun t => ?_⟩
        · split
          · rfl
          · rename_i h
            have : (lo - p) / d = (hi - p) / d := le_antisymm (not_lt.1 h) hle
            rw [this]
        · rw [div_le_iff_of_neg hneg, le_div_iff_of_neg hneg]
          constructor <;> rintro ⟨h1, h2⟩ <;> constructor <;> linarith
      · have hle : (lo - p) / d ≤ (hi - p) / d := div_le_div_of_nonneg_right (by linarith) hpos.le
        refine ⟨(lo - p) / d, (hi - p) / d, hle, if_neg (not_lt.2 hle), fun t => ?_⟩
        rw [div_le_iff₀ hpos, le_div_iff₀ hpos]
        constructor <;> rintro ⟨h1, h2⟩ <;> constructor <;> linarith
    obtain ⟨a, b, hab, e, hk⟩ := key
    simp only [e]
    have hmin : (if a > tm.1 then a else tm.1) = max a tm.1 := by
      split
      · rename_i h; rw [max_eq_left (le_of_lt h)]
      · rename_i h; rw [max_eq_right (not_lt.1 h)]
    have hmax : (if b < tm.2 then b else tm.2) = min b tm.2 := by
      split
      · rename_i h; rw [min_eq_left (le_of_lt h)]
      · rename_i h; rw [min_eq_right (not_lt.1 h)]
    rw [hmin, hmax]
    by_cases hg : max a tm.1 > min b tm.2
    · rw [if_pos hg]
      refine ⟨fun r h => by simp at h, ?_⟩
      rintro - t ⟨⟨h1, h2⟩, h3⟩
      obtain ⟨h4, h5⟩ := (hk t).1 h3
      exact absurd ((max_le h4 h1).trans (le_min h5 h2)) (not_le.2 hg)
    · rw [if_neg hg]
      refine ⟨fun r h => ?_, fun h => by cases h⟩
      cases h
      refine ⟨not_lt.1 hg, fun t => ?_⟩
      simp only [hk t, max_le_iff, le_min_iff]
      tauto

/-- The test finds a common `t`. -/
theorem segment_iff {eps : K} (he : 0 < eps) {b : Rect K} (hb : b.Valid) (p q : K × K) : checkOverlapSegment eps p q b = true ↔
    ∃ t, (0 ≤ t ∧ t ≤ 1) ∧ SlabAt eps p.1 (q.1 - p.1) b.lo0 b.hi0 t ∧ SlabAt eps p.2 (q.2 - p.2) b.lo1 b.hi1 t := by
  unfold checkOverlapSegment
  obtain ⟨h1, h2⟩ := slabPass_spec (p := p.1) (d := q.1 - p.1) he hb.1 (tm := ((0 : K), (1 : K))) zero_le_one
  cases e1 : slabPass eps p.1 (q.1 - p.1) b.lo0 b.hi0 (0, 1) with
  | none =>
    simp only [Option.bind_none, Option.isSome_none, Bool.false_eq_true, false_iff]
    rintro ⟨t, ht, h3, -⟩
    exact h2 e1 t ⟨ht, h3⟩
  | some r =>
    obtain ⟨g1, g2⟩ := h1 r e1
    obtain ⟨k1, k2⟩ := slabPass_spec (p := p.2) (d := q.2 - p.2) he hb.2 g1
    rw [Option.bind_some]
    cases e2 : slabPass eps p.2 (q.2 - p.2) b.lo1 b.hi1 r with
    | none =>
      simp only [Option.isSome_none, Bool.false_eq_true, false_iff]
      rintro ⟨t, ht, h3, h4⟩
      exact k2 e2 t ⟨(g2 t).2 ⟨ht, h3⟩, h4⟩
    | some r' =>
      obtain ⟨m1, m2⟩ := k1 r' e2
      simp only [Option.isSome_some, true_iff]
      obtain ⟨n1, n2⟩ := (m2 r'.1).1 ⟨le_refl _, m1⟩
      obtain ⟨n3, n4⟩ := (g2 r'.1).1 n1
      exact ⟨r'.1, n3, n4, n2⟩

/-- Spec: the segment from `p` to `q` has a point in the rectangle. -/
def SegmentMeets (p q : K × K) (b : Rect K) : Prop :=
  ∃ t, (0 ≤ t ∧ t ≤ 1) ∧ b.Has (p.1 + t * (q.1 - p.1)) (p.2 + t * (q.2 - p.2))

/-- Spec: the rectangle with all sides moved out by `e`. -/
def Rect.widen (b : Rect K) (e : K) : Rect K := ⟨b.lo0 - e, b.lo1 - e, b.hi0 + e, b.hi1 + e⟩

/-- Spec: the coordinate is constant along the segment or changes by `eps` at least. -/
def Clear (eps d : K) : Prop := d = 0 ∨ eps ≤ |d|

theorem slabAt_clear {eps p d lo hi t : K} (h : Clear eps d) : SlabAt eps p d lo hi t ↔ lo ≤ p + t * d ∧ p + t * d ≤ hi := by
  unfold SlabAt
  rcases h with rfl | h
  · split <;> simp
  · rw [if_neg (not_lt.2 h)]

theorem slabAt_near {eps p d lo hi t : K} (h0 : 0 ≤ t) (h1 : t ≤ 1) (he : 0 < eps) :
    (SlabAt eps p d lo hi t → lo - eps ≤ p + t * d ∧ p + t * d ≤ hi + eps) ∧
    (lo + eps ≤ p + t * d ∧ p + t * d ≤ hi - eps → SlabAt eps p d lo hi t) := by
  have hle : |d| < eps → -eps ≤ t * d ∧ t * d ≤ eps := by
    intro h
    rw [← abs_le, abs_mul, abs_of_nonneg h0]
    nlinarith [abs_nonneg d]
  unfold SlabAt
  split
  · rename_i h
    have := hle h
    constructor <;> rintro ⟨h1, h2⟩ <;> constructor <;> linarith
  · constructor <;> rintro ⟨h1, h2⟩ <;> constructor <;> linarith

/-- **C170** (partial). In exact arithmetic, for a rectangle that is not inside out, if no coordinate changes along the segment by less than
`EPSILON` without being constant: `checkOverlapSegment` holds exactly if the segment has a point in the rectangle. -/
theorem segment_exact_partial {eps : K} (he : 0 < eps) {b : Rect K} (hb : b.Valid) {p q : K × K} (h0 : Clear eps (q.1 - p.1))
    (h1 : Clear eps (q.2 - p.2)) : checkOverlapSegment eps p q b = true ↔ SegmentMeets p q b := by
  rw [segment_iff he hb]
  unfold SegmentMeets Rect.Has
  simp only [slabAt_clear h0, slabAt_clear h1]
  constructor
  · rintro ⟨t, ht, h2, h3⟩; exact ⟨t, ht, h2.1, h2.2, h3.1, h3.2⟩
  · rintro ⟨t, ht, h2, h3, h4, h5⟩; exact ⟨t, ht, ⟨h2, h3⟩, h4, h5⟩

/-- **C170**. For all segments the test is right up to `EPSILON`: if it holds, the segment has a point in the rectangle widened by
`EPSILON`, and it holds if the segment has a point in the rectangle narrowed by `EPSILON`. -/
theorem segment_near {eps : K} (he : 0 < eps) {b : Rect K} (hb : b.Valid) (p q : K × K) :
    (checkOverlapSegment eps p q b = true → SegmentMeets p q (b.widen eps)) ∧
    (SegmentMeets p q (b.widen (-eps)) → checkOverlapSegment eps p q b = true) := by
  rw [segment_iff he hb]
  constructor
  · rintro ⟨t, ht, h2, h3⟩
    have k2 := (slabAt_near ht.1 ht.2 he).1 h2
    have k3 := (slabAt_near ht.1 ht.2 he).1 h3
    exact ⟨t, ht, k2.1, k2.2, k3.1, k3.2⟩
  · rintro ⟨t, ht, h2, h3, h4, h5⟩
    simp only [Rect.widen, sub_neg_eq_add, ← sub_eq_add_neg] at h2 h3 h4 h5
    exact ⟨t, ht, (slabAt_near ht.1 ht.2 he).2 ⟨h2, h3⟩, (slabAt_near ht.1 ht.2 he).2 ⟨h4, h5⟩⟩

theorem SlabAt.grow {eps p d lo hi lo' hi' t : K} (h : SlabAt eps p d lo hi t) (h1 : lo' ≤ lo) (h2 : hi ≤ hi') : SlabAt eps p d lo' hi' t := by
  unfold SlabAt at *
  split
  · rename_i hd; rw [if_pos hd] at h; exact ⟨h1.trans h.1, h.2.trans h2⟩
  · rename_i hd; rw [if_neg hd] at h; exact ⟨h1.trans h.1, h.2.trans h2⟩

theorem Rect.Sub.valid {c b : Rect K} (hs : c.Sub b) (hc : c.Valid) : b.Valid :=
  ⟨hs.1.trans (hc.1.trans hs.2.2.1), hs.2.1.trans (hc.2.trans hs.2.2.2)⟩

theorem segment_mono {eps : K} (he : 0 < eps) {c b : Rect K} (hc : c.Valid) (hs : c.Sub b) {p q : K × K}
    (h : checkOverlapSegment eps p q c = true) : checkOverlapSegment eps p q b = true := by
  rw [segment_iff he hc] at h
  rw [segment_iff he (hs.valid hc)]
  obtain ⟨t, ht, h2, h3⟩ := h
  exact ⟨t, ht, h2.grow hs.1 hs.2.2.1, h3.grow hs.2.1 hs.2.2.2⟩

/-! ## The walk -/

/-- A rectangle that overlaps all rectangles that `c` overlaps contains `c`. -/
theorem sub_of_overlaps {c b : Rect K} (hc : c.Valid) (h : ∀ q, checkOverlapRect q c = true → checkOverlapRect q b = true) : c.Sub b := by
  have h1 := h ⟨c.lo0, c.lo1, c.lo0, c.lo1⟩ ((overlap_iff _ _).2 ⟨⟨hc.1, le_refl _⟩, hc.2, le_refl _⟩)
  have h2 := h ⟨c.hi0, c.hi1, c.hi0, c.hi1⟩ ((overlap_iff _ _).2 ⟨⟨le_refl _, hc.1⟩, le_refl _, hc.2⟩)
  rw [overlap_iff] at h1 h2
  exact ⟨h1.1.2, h1.2.2, h2.1.1, h2.2.1⟩

theorem mono_segment {eps : K} (he : 0 < eps) {nodes : Nat → CNode K} (p q : K × K) (s : Shape) : ∀ o,
    (∀ r, s.Mono (fun j => checkOverlapRect r (nodes j).box) o) → (∀ j ∈ s.leaves o, (nodes j).box.Valid) →
    s.Mono (fun j => checkOverlapSegment eps p q (nodes j).box) o := by
  induction s with
  | leaf => intro o _ _; trivial
  | node l r hl hr =>
    intro o h hv
    refine ⟨fun j hj hov => ?_, hl _ (fun r => (h r).2.1) fun j hj => hv j (by simp [Shape.leaves, hj]),
      hr _ (fun r => (h r).2.2) fun j hj => hv j (by simp [Shape.leaves, hj])⟩
    exact segment_mono he (hv j hj) (sub_of_overlaps (hv j hj) fun r hr => (h r).1 j hj hr) hov

theorem segmentLoop_walk {eps : K} {nodes : Nat → CNode K} {nnodes : Nat} {p q : K × K} {len maxIds : Nat} (f : Nat) :
    ∀ i ids l, treeWalk (fun j => checkOverlapSegment eps p q (nodes j).box) (fun j => (nodes j).i) nnodes f i = some l →
      ids.length ≤ maxIds → ids.length ≤ len →
      segmentLoop eps nodes nnodes p q len maxIds f i ids =
        if ((ids ++ l).take maxIds).length ≤ len then some ((ids ++ l).take maxIds) else none := by
  induction f with
  | zero =>
    intro i ids l h hl hl2
    rw [treeWalk] at h
    rw [segmentLoop]
    split at h
    · cases h
    · rename_i hi
      cases h
      rw [if_neg hi, List.append_nil, List.take_of_length_le hl, if_pos hl2]
  | succ f ih =>
    intro i ids l h hl hl2
    rw [treeWalk] at h
    rw [segmentLoop]
    split at h
    · rename_i hi
      rw [if_pos hi]
      simp only
      split at h
      · rename_i hleaf
        simp only [ge_iff_le, hleaf, decide_true, Bool.or_true, if_true, Bool.true_and]
        split at h
        · rename_i hov
          obtain ⟨l', h', rfl⟩ := Option.map_eq_some_iff.1 h
          simp only [hov, Bool.true_and]
          by_cases hm : ids.length < maxIds
          · simp only [hm, decide_true, Bool.true_and, if_true]
            by_cases hn : len ≤ ids.length
            · rw [if_pos (by simpa using hn), if_neg]
              rw [List.length_take, List.length_append, List.length_cons]
              omega
            · rw [if_neg (by simpa using hn), ih _ _ _ h' (by simp; omega) (by simp; omega)]
              simp
          · simp only [hm, decide_false, Bool.false_and, Bool.false_eq_true, if_false]
            rw [ih _ _ _ h' hl hl2]
            have : maxIds = ids.length := by omega
            simp [this]
        · rename_i hov
          have hov' : checkOverlapSegment eps p q (nodes i).box = false := by simpa using hov
          simp only [hov', Bool.false_and, Bool.false_eq_true, if_false]
          exact ih _ _ _ h hl hl2
      · rename_i hleaf
        simp only [ge_iff_le, hleaf, decide_false, Bool.or_false, Bool.false_and, Bool.false_eq_true, if_false]
        split at h
        · rename_i hov
          rw [if_pos hov]
          exact ih _ _ _ h hl hl2
        · rename_i hov
          rw [if_neg hov]
          exact ih _ _ _ h hl hl2
    · rename_i hi
      cases h
      rw [if_neg hi, List.append_nil, List.take_of_length_le hl, if_pos hl2]

theorem triRect_valid (p0 p1 p2 : K × K) : (triRect p0 p1 p2).Valid := by
  obtain ⟨h, -, -⟩ := triRect_has p0 p1 p2
  exact ⟨h.1.trans h.2.1, h.2.2.1.trans h.2.2.2⟩

/-- **C170**. On every built mesh the query ends; its result is the strictly increasing list of all leaves whose rectangles pass the test,
cut off at `maxIds`; and it panics if and only if that is longer than the buffer. -/
theorem segment_chunks {eps : K} (he : 0 < eps) (z : K) {srt : Rect K → List (CItem K) → List (CItem K)}
    (hsrt : ∀ b l, (srt b l).Perm l) {t : Nat} (ht : 1 ≤ t) {tris : List (Tri K)} (h0 : tris ≠ [])
    {cm : Chunky K} (hcm : createChunky z srt t tris = some (some cm)) (p q : K × K) (len maxIds : Nat) :
    ∃ l : List Nat, (∀ f, cm.nnodes ≤ f → segmentLoop eps cm.nodes cm.nnodes p q len maxIds f 0 [] =
        if (l.take maxIds).length ≤ len then some (l.take maxIds) else none) ∧
      l.Pairwise (· < ·) ∧ ∀ j, j ∈ l ↔ j < cm.nnodes ∧ 0 ≤ (cm.nodes j).i ∧ checkOverlapSegment eps p q (cm.nodes j).box = true := by
  obtain ⟨cm', s, gs, e, h1, h2, h3, h4, h5, h6, h7, h8⟩ := createChunky_spec z hsrt ht h0
  rw [hcm] at e
  cases e
  have hv : ∀ j ∈ s.leaves 0, (cm.nodes j).box.Valid := by
    intro j hj
    obtain ⟨g, pre, post, e', -, -, g3, -, g5, -⟩ := LeafOK.mem _ _ _ h7 j hj
    obtain ⟨c, hc⟩ := List.exists_mem_of_length_pos (show 0 < g.length by omega)
    have hmem : c ∈ gs.flatten := by rw [e']; simp [hc]
    rw [h6.mem_iff, List.mem_map] at hmem
    obtain ⟨x, -, rfl⟩ := hmem
    exact (g5 _ hc).valid (triRect_valid ..)
  refine ⟨(s.leaves 0).filter fun j => checkOverlapSegment eps p q (cm.nodes j).box, fun f hf => ?_, ?_, fun j => ?_⟩
  · have := s.walk_tree (ov := fun j => checkOverlapSegment eps p q (cm.nodes j).box) h5 f (by omega)
    rw [s.hits_eq 0 (mono_segment he p q s 0 h8 hv), ← h1] at this
    rw [segmentLoop_walk f 0 [] _ this (by simp) (by simp), List.nil_append]
  · exact (s.leaves_sorted 0).filter _
  · rw [List.mem_filter]
    constructor
    · rintro ⟨hj, ho⟩
      have hr := s.leaves_range _ j hj
      exact ⟨by omega, (Shape.Lay.leaf_iff s 0 h5 j (by omega) (by omega)).2 hj, ho⟩
    · rintro ⟨hj, hi, ho⟩
      exact ⟨(Shape.Lay.leaf_iff s 0 h5 j (by omega) (by omega)).1 hi, ho⟩

/-- **C170** (partial). No triangle is missed: with a large enough buffer, every triangle whose bounds the segment meets is stored in one of the
returned chunks, if no coordinate changes along the segment by less than `EPSILON` without being constant. -/
theorem segment_find_partial {eps : K} (he : 0 < eps) (z : K) {srt : Rect K → List (CItem K) → List (CItem K)}
    (hsrt : ∀ b l, (srt b l).Perm l) {t : Nat} (ht : 1 ≤ t) {tris : List (Tri K)} (h0 : tris ≠ [])
    {cm : Chunky K} (hcm : createChunky z srt t tris = some (some cm)) {a b : K × K} (hc0 : Clear eps (b.1 - a.1)) (hc1 : Clear eps (b.2 - a.2))
    {len maxIds : Nat} (hlen : cm.nnodes ≤ len) (hmax : cm.nnodes ≤ maxIds) {p : Nat} {p0 p1 p2 : K × K} (hp : tris[p]? = some (p0, p1, p2))
    (hmeet : SegmentMeets a b (triRect p0 p1 p2)) :
    ∃ ids j k, segmentLoop eps cm.nodes cm.nnodes a b len maxIds cm.nnodes 0 [] = some ids ∧ j ∈ ids ∧
      (cm.nodes j).i ≤ ((k : Nat) : Int) ∧ (k : Int) < (cm.nodes j).i + (cm.nodes j).n ∧ cm.tris[k]? = some p := by
  obtain ⟨l, hl1, hl2, hl3⟩ := segment_chunks he z hsrt ht h0 hcm a b len maxIds
  obtain ⟨cm', s, gs, e, h1, h2, h3, h4, h5, h6, h7, h8⟩ := createChunky_spec z hsrt ht h0
  rw [hcm] at e
  cases e
  have hmem : (⟨triRect p0 p1 p2, p⟩ : CItem K) ∈ gs.flatten := by
    rw [h6.mem_iff, List.mem_map]
    exact ⟨((p0, p1, p2), p), List.mem_zipIdx_iff_getElem?.2 hp, rfl⟩
  obtain ⟨k, hk, hke⟩ := List.mem_iff_getElem.1 hmem
  have hnd : (s.leaves 0).Nodup := (s.leaves_sorted 0).imp fun h => by omega
  obtain ⟨j, hj, hr, -⟩ := LeafOK.cover _ _ _ h7 hnd k (by omega) (by omega)
  have hjr := s.leaves_range _ j hj
  have hsub : (triRect p0 p1 p2).Sub (cm.nodes j).box := by
    obtain ⟨g, pre, post, e', g1, g2, -, -, g5, -⟩ := LeafOK.mem _ _ _ h7 j hj
    have he : gs.flatten[k]? = some ⟨triRect p0 p1 p2, p⟩ := by
      rw [List.getElem?_eq_getElem hk, hke]
    rw [e', List.flatten_append, List.flatten_cons, List.getElem?_append_right (by omega),
      List.getElem?_append_left (by omega)] at he
    exact g5 _ (List.mem_of_getElem? he)
  have hov := segment_mono he (triRect_valid p0 p1 p2) hsub ((segment_exact_partial he (triRect_valid p0 p1 p2) hc0 hc1).2 hmeet)
  have hjl : j ∈ l := by
    rw [hl3]
    exact ⟨by omega, (Shape.Lay.leaf_iff s 0 h5 j (by omega) (by omega)).2 hj, hov⟩
  have hll : l.length ≤ cm.nnodes := by
    have hsubl : l ⊆ List.range cm.nnodes := fun x hx => List.mem_range.2 ((hl3 x).1 hx).1
    have hndl : l.Nodup := hl2.imp fun h => by omega
    have := (hndl.subperm hsubl).length_le
    rw [List.length_range] at this
    omega
  refine ⟨l, j, k, ?_, hjl, hr.1, hr.2, ?_⟩
  · rw [hl1 _ (Nat.le_refl _), List.take_of_length_le (by omega), if_pos (by omega)]
  · rw [h3, List.getElem?_map, List.getElem?_eq_getElem hk, hke]
    rfl

/-! ## Examples -/

/-- **C170** (refuted in full). A segment that goes less than `EPSILON` sideways and ends in the rectangle, but begins outside, is taken to miss
it. -/
theorem segment_exact_refuted : ∃ (b : Rect ℚ) (p q : ℚ × ℚ), b.Valid ∧ SegmentMeets p q b ∧ checkOverlapSegment (1 / 1000000) p q b = false := by
  refine ⟨⟨1 / 2000000, 0, 1, 1⟩, (0, 0), (1 / 2000000, 1 / 2), by unfold Rect.Valid; norm_num, ⟨1, by norm_num, by unfold Rect.Has; norm_num⟩, by decide +kernel⟩

/-- Four triangles in chunks of at most two, unsorted: three nodes. -/
def segTris : List (Tri ℚ) :=
  [((0, 0), (2, 0), (0, 2)), ((1, 1), (3, 1), (1, 3)), ((8, 8), (9, 8), (8, 9)), ((7, 0), (9, 0), (7, 2))]

/-- Hypotheses and results: a segment through the second leaf, one through both, one through none, and a buffer that is too short. -/
example : ∃ cm, createChunky 0 (fun _ l => l) 2 segTris = some (some cm) ∧ cm.nnodes = 3 ∧
    segmentLoop (1 / 1000000) cm.nodes cm.nnodes (5, 5) (9, 5) 8 8 3 0 [] = some [2] ∧
    segmentLoop (1 / 1000000) cm.nodes cm.nnodes (0, 0) (9, 9) 8 8 3 0 [] = some [1, 2] ∧
    segmentLoop (1 / 1000000) cm.nodes cm.nnodes (4, 0) (6, 9) 8 8 3 0 [] = some [] ∧
    segmentLoop (1 / 1000000) cm.nodes cm.nnodes (0, 0) (9, 9) 8 1 3 0 [] = some [1] ∧
    segmentLoop (1 / 1000000) cm.nodes cm.nnodes (0, 0) (9, 9) 1 2 3 0 [] = none := by
  refine ⟨_, rfl, by decide +kernel, by decide +kernel, by decide +kernel, by decide +kernel, by decide +kernel, by decide +kernel⟩

example : Clear (1 / 1000000 : ℚ) (9 - 5) ∧ Clear (1 / 1000000 : ℚ) (5 - 5) ∧ SegmentMeets ((5, 5) : ℚ × ℚ) (9, 5) ⟨7, 0, 9, 9⟩ :=
  ⟨Or.inr (by norm_num), Or.inl (by norm_num), 1, by norm_num, by unfold Rect.Has; norm_num⟩

end Verif.Recast
