/-
Raw contours are the outlines of regions, exactly: every edge of the outline once, in order, closed, and the areas add up.
-/
import Verif.Recast.ContourTrace
import Mathlib.Algebra.BigOperators.Group.List.Basic
import Mathlib.Algebra.BigOperators.Ring.Finset
import Mathlib.Tactic.Ring

namespace Verif.Recast
open Verif Verif.Detour

set_option linter.unusedSimpArgs false
set_option linter.unusedVariables false

/-! ## Mutual connections -/

/-- `BuildCompactHeightfield` makes mutual connections, for columns of at most 63 spans and climbs of less than half the
agent height. -/
theorem buildCompact_mutual (height climb : Int) (hhc : 2 * climb < height) (F : Field)
    (hF : ∀ i < F.w * F.h, Canon (F.col i) ∧ (∀ s ∈ F.col i, s.smax ≤ 0xffff) ∧ (openSpans (F.col i)).length ≤ 63) :
    ∃ f con, buildCompact height climb F = some (f, con) ∧ (mkChf F f con).Wf ∧ (mkChf F f con).Mutual := by
  obtain ⟨f, con, h0, h1⟩ := buildCompact_wf height climb F (fun i hi => by have := (hF i hi).2.2; omega)
  obtain ⟨f', con', h0', h2⟩ := mutual_partial height climb hhc F
    (fun i hi => ⟨(hF i hi).1, (hF i hi).2.1, by have := (hF i hi).2.2; omega⟩)
  rw [h0] at h0'
  cases h0'
  refine ⟨f, con, h0, h1, ?_⟩
  obtain ⟨g, g1, g2⟩ := fillField_spec F
  have hf : fillField F = some f := by
    unfold buildCompact at h0
    cases h : fillField F with
    | none => rw [h] at h0; cases h0
    | some f0 => rw [h] at h0; simp at h0; rw [h0.1]
  rw [hf] at g1; cases g1
  have hcount : ∀ x < F.w, ∀ y < F.h, (f.cells (x + y * F.w)).count ≤ 63 := by
    intro x hx y hy
    rw [g2.cells, if_pos (cell_lt hx hy), cellSpec]
    split
    · simp
    · have := (hF _ (cell_lt hx hy)).2.2
      exact le_trans (Nat.mod_le _ _) this
  rintro i d j hd ⟨x, y, nx, ny, a1, a2, a3, a4, a5, a6⟩
  obtain ⟨ax, ay, ai, ai'⟩ := id a1
  obtain ⟨bx, by', bi, bi'⟩ := id a2
  have hx : x < F.w := ax
  have hy : y < F.h := ay
  have hnx : nx < F.w := bx
  have hny : ny < F.h := by'
  have c1 := hcount x hx y hy
  have c2 := hcount nx hnx ny hny
  simp only [mkChf] at ai ai' bi bi' a5 a6
  have hv : (getCon (con i) d).toNat < 63 := by omega
  have hb := h2 x hx y hy (i - (f.cells (x + y * F.w)).index) (by omega) (by omega) d hd (nx + ny * F.w)
    ⟨nx, ny, hnx, hny, a3, a4, rfl⟩ (getCon (con i) d).toNat
    (by rw [show (f.cells (x + y * F.w)).index + (i - (f.cells (x + y * F.w)).index) = i by omega, BitVec.ofNat_toNat, BitVec.setWidth_eq]) (by omega)
  rw [← a6] at hb
  have hm : (BitVec.ofNat 32 (i - (f.cells (x + y * F.w)).index)).toNat = i - (f.cells (x + y * F.w)).index := by
    rw [BitVec.toNat_ofNat]
    exact Nat.mod_eq_of_lt (by omega)
  have e1 : ∀ d < 4, dirX (BitVec.ofNat 32 ((d + 2) % 4)) = -dirX (BitVec.ofNat 32 d) := by decide
  have e2 : ∀ d < 4, dirY (BitVec.ofNat 32 ((d + 2) % 4)) = -dirY (BitVec.ofNat 32 d) := by decide
  refine ⟨nx, ny, x, y, a2, a1, by rw [e1 d hd]; omega, by rw [e2 d hd]; omega, ?_, ?_⟩
  · show getCon (con j) _ ≠ notConnected
    rw [hb.2]
    intro h
    have := congrArg BitVec.toNat h
    rw [hm] at this
    have h63 : notConnected.toNat = 63 := by decide
    omega
  · show i = (f.cells (x + y * F.w)).index + (getCon (con j) _).toNat
    rw [hb.2, hm]
    omega

/-! ## Vertices -/

/-- Spec: `p` is a vertex for edge `e`: at the end of the edge, with the region across in the low bits, and marked as area
border when the span across has another area than `area`. -/
structure VertexOf (c : Chf) (reg : Nat → Nat) (area : Nat) (p : Pt) (e : SpanEdge) : Prop where
  place : (p.x, p.z) = cornerB e
  region : ((∀ j, ¬ c.Nb e.1.2 e.2 j) ∧ p.r % 0x10000 = 0) ∨ ∃ j, c.Nb e.1.2 e.2 j ∧ p.r % 0x10000 = reg j
  areaBorder : p.r / 0x20000 % 2 = 1 ↔ ∃ j, c.Nb e.1.2 e.2 j ∧ c.area j ≠ area

theorem lor_add (r : Nat) (hr : r < 65536) : (r ||| 0x10000 = r + 0x10000) ∧ (r ||| 0x20000 = r + 0x20000) ∧ ((r + 0x10000) ||| 0x20000 = r + 0x30000) := by
  have h1 := Nat.two_pow_add_eq_or_of_lt (i := 16) (b := r) (by omega) 1
  have h2 := Nat.two_pow_add_eq_or_of_lt (i := 17) (b := r) (by omega) 1
  have h3 := Nat.two_pow_add_eq_or_of_lt (i := 17) (b := r + 0x10000) (by omega) 1
  rw [Nat.or_comm] at h1 h2 h3
  norm_num at h1 h2 h3
  refine ⟨?_, ?_, ?_⟩ <;> omega

theorem tracePt_spec {c : Chf} (hc : c.Wf) {reg : Nat → Nat} (ys : Nat → Nat) (hreg : ∀ i, reg i < 65536) (area : Nat) {e : SpanEdge}
    (he : RegionEdge c reg e) : VertexOf c reg area (tracePt c reg ys area e) e := by
  have hplace : ((tracePt c reg ys area e).x, (tracePt c reg ys area e).z) = cornerB e := by
    obtain ⟨⟨⟨x, y⟩, i⟩, d⟩ := e
    have hd := he.dir
    simp only at hd
    have : d = 0 ∨ d = 1 ∨ d = 2 ∨ d = 3 := by omega
    rcases this with rfl | rfl | rfl | rfl <;> simp [tracePt, cornerB, cornerA]
  cases hnb : c.nb e.1.1.1 e.1.1.2 e.1.2 e.2 with
  | none =>
    have hno : ∀ j, ¬ c.Nb e.1.2 e.2 j := by
      intro j hj
      obtain ⟨p, hp⟩ := (hc.nb_iff he.cell he.dir j).1 hj
      rw [hnb] at hp; cases hp
    have hr : (tracePt c reg ys area e).r = 0 ∨ (tracePt c reg ys area e).r = 0x10000 := by
      simp only [tracePt, edgeReg, hnb]
      rw [if_neg (by simp : ¬ (false = true))]
      split <;> simp
    refine ⟨hplace, Or.inl ⟨hno, ?_⟩, ?_⟩
    · rcases hr with h | h <;> rw [h] <;> rfl
    · refine iff_of_false ?_ (fun ⟨j, hj, _⟩ => hno j hj)
      rcases hr with h | h <;> rw [h] <;> decide
  | some w =>
    obtain ⟨h1, _, _, h2⟩ := hc.nb_some he.cell he.dir hnb
    obtain ⟨l1, l2, l3⟩ := lor_add (reg w.2) (hreg _)
    have hr : (tracePt c reg ys area e).r = (reg w.2 : Int) + (if (cornerHeight c reg ys e).2 = true then 0x10000 else 0) +
        if area ≠ c.area w.2 then 0x20000 else 0 := by
      simp only [tracePt, edgeReg, hnb]
      split <;> split <;> simp_all
      all_goals omega
    have hlt := hreg w.2
    refine ⟨hplace, Or.inr ⟨w.2, h2, ?_⟩, ?_⟩
    · rw [hr]; split <;> split <;> omega
    · have : (∃ j, c.Nb e.1.2 e.2 j ∧ c.area j ≠ area) ↔ area ≠ c.area w.2 := by
        constructor
        · rintro ⟨j, hj, hne⟩
          rw [Chf.Nb.unique hc he.dir hj h2] at hne
          exact Ne.symm hne
        · exact fun h => ⟨w.2, h2, Ne.symm h⟩
      rw [this, hr]
      by_cases ha : area ≠ c.area w.2
      · rw [if_pos ha]
        refine iff_of_true ?_ ha
        split <;> omega
      · rw [if_neg ha]
        refine iff_of_false ?_ ha
        split <;> omega

/-! ## The outlines -/

/-- Spec: a list of outline edges in the order of the outline, closed, each beginning where the one before ends. -/
def ClosedOutline (c : Chf) (reg : Nat → Nat) (v : (Nat × Nat) × Nat) (l : List SpanEdge) : Prop :=
  ∃ d t, l = (v, d) :: t ∧ (∀ e ∈ l, OnOutline c reg e ∧ reg e.1.2 = reg v.2) ∧
    (l ++ [(v, d)]).IsChain fun e e' => NextEdge c reg e e' ∧ cornerB e = cornerA e'

theorem contourEdges_outline {c : Chf} (hc : c.Wf) (hm : c.Mutual) {reg : Nat → Nat} {s : SpanEdge} (hs : OnOutline c reg s) :
    ClosedOutline c reg s.1 (contourEdges c reg s) := by
  obtain ⟨t, h1, h2⟩ := contourEdges_closed hc hm hs
  have hmem : ∀ e ∈ contourEdges c reg s, OnOutline c reg e ∧ reg e.1.2 = reg s.1.2 := by
    intro e he
    obtain ⟨g1, j, _, rfl⟩ := (mem_contourEdges hc hs.1).1 he
    exact ⟨g1, (stepEdge_iter hc hs.1 j).2⟩
  refine ⟨s.2, t, h1, hmem, ?_⟩
  rw [h1]
  rw [h1] at hmem
  refine List.IsChain.imp_of_mem_imp ?_ h2
  intro a b ha hb hab
  have hr : RegionEdge c reg a := by
    rcases List.mem_append.1 ha with ha | ha
    · exact (hmem a ha).1.1
    · simp only [List.mem_singleton] at ha
      rw [ha]; exact hs.1
  exact ⟨hab, (nextEdge_corner hc hr hab).symm⟩

/-- **C117** (partial). On a well-formed field with mutual connections, the raw contours match the outlines of the regions
exactly: there is one list of outline edges per contour, in the order of the outline and closed; the vertices of the contour
are the ends of these edges, with the regions across; no edge occurs twice, and all edges of the outlines occur, except those of
spans that are connected to no other span of their region. Missing: regions of 10000 spans and more (`long_outline_refuted`), and
single spans (`lone_span_refuted`). -/
theorem raw_contours_partial (c : Chf) (hc : c.Wf) (hm : c.Mutual) (reg ys : Nat → Nat) (hreg : ∀ i, reg i < 65536)
    (hn : ∀ i < c.n, ((List.range c.n).filter fun j => decide (reg j = reg i)).length < 10000) :
    ∃ es : List (List SpanEdge),
      List.Forall₂ (fun t l => ClosedOutline c reg t.1 l ∧ List.Forall₂ (VertexOf c reg (c.area t.1.2)) t.2 l) (traceAll c reg ys) es ∧
      es.flatten.Nodup ∧ ∀ e, e ∈ es.flatten ↔ OnOutline c reg e ∧ ¬ Alone c reg e.1.2 := by
  obtain ⟨ss, h1, h2, h3, h4⟩ := traceAll_spec hc hm (reg := reg) ys (fun i hi => by have := hn i hi; omega)
  refine ⟨ss.map (contourEdges c reg), ?_, by rw [← List.flatMap_def]; exact h3, by rw [← List.flatMap_def]; exact h4⟩
  rw [h1, List.forall₂_map_left_iff, List.forall₂_map_right_iff, List.forall₂_same]
  intro s hs
  refine ⟨contourEdges_outline hc hm (h2 s hs), ?_⟩
  show List.Forall₂ _ ((contourEdges c reg s).map _) _
  rw [List.forall₂_map_left_iff, List.forall₂_same]
  intro e he
  exact tracePt_spec hc ys hreg _ ((mem_contourEdges hc (h2 s hs).1).1 he).1.1

/-! ## Areas -/

/-- Twice the area that an edge adds, in the sign of `calcAreaOfPolygon2D`. -/
def edgeCross (e : SpanEdge) : Int := (cornerB e).1 * (cornerA e).2 - (cornerA e).1 * (cornerB e).2

theorem crossSum_edges (f : SpanEdge → Pt) (hf : ∀ e, ((f e).x, (f e).z) = cornerB e) (l : List SpanEdge) : ∀ (p : Pt) (b : SpanEdge),
    (p.x, p.z) = cornerB b → (b :: l).IsChain (fun e e' => cornerB e = cornerA e') →
    crossSum p (l.map f) = (l.map edgeCross).sum := by
  induction l with
  | nil => intro p b _ _; simp [crossSum]
  | cons a l ih =>
    intro p b hp hch
    rw [List.isChain_cons_cons] at hch
    rw [List.map_cons, crossSum, List.map_cons, List.sum_cons, ih (f a) a (hf a) hch.2]
    have h1 := hf a
    rw [hch.1] at hp
    simp only [edgeCross, ← h1, ← hp]

theorem area2D_edges (f : SpanEdge → Pt) (hf : ∀ e, ((f e).x, (f e).z) = cornerB e) (s : SpanEdge) (t : List SpanEdge)
    (h : (s :: t ++ [s]).IsChain (fun e e' => cornerB e = cornerA e')) :
    area2D ((s :: t).map f) = ((s :: t).map edgeCross).sum := by
  obtain ⟨b, l, hl⟩ : ∃ b l, s :: t = l ++ [b] := ⟨(s :: t).getLast (by simp), (s :: t).dropLast, (List.dropLast_append_getLast _).symm⟩
  have hlast : ((s :: t).map f).getLastD default = f b := by rw [hl]; simp
  unfold area2D
  rw [hlast]
  refine crossSum_edges f hf (s :: t) (f b) b (hf b) ?_
  rw [List.isChain_cons]
  refine ⟨?_, ?_⟩
  · intro y hy
    simp only [List.head?_cons, Option.mem_def, Option.some.injEq] at hy
    subst hy
    rw [hl, List.append_assoc] at h
    have := List.isChain_append.1 h
    have := this.2.1
    simpa using this
  · exact (List.isChain_append.1 h).1

/-- The edges of the spans `vs`. -/
def outlineEdges (vs : List ((Nat × Nat) × Nat)) : List SpanEdge := vs.flatMap fun v => (List.range 4).map fun d => (v, d)

theorem mem_outlineEdges (vs : List ((Nat × Nat) × Nat)) (e : SpanEdge) : e ∈ outlineEdges vs ↔ e.1 ∈ vs ∧ e.2 < 4 := by
  obtain ⟨v, d⟩ := e
  simp only [outlineEdges, List.mem_flatMap, List.mem_map, List.mem_range, Prod.mk.injEq]
  constructor
  · rintro ⟨v', h, d', h', rfl, rfl⟩; exact ⟨h, h'⟩
  · rintro ⟨h, h'⟩; exact ⟨v, h, d, h', rfl, rfl⟩

theorem outlineEdges_nodup {vs : List ((Nat × Nat) × Nat)} (h : vs.Nodup) : (outlineEdges vs).Nodup := by
  unfold outlineEdges
  rw [List.nodup_flatMap]
  refine ⟨fun v _ => List.Nodup.map (fun a b hab => (Prod.mk.inj hab).2) List.nodup_range, ?_⟩
  refine List.Pairwise.imp ?_ h
  intro a b hab x hx hy
  simp only [List.mem_map] at hx hy
  obtain ⟨d, _, rfl⟩ := hx
  obtain ⟨d', _, h2⟩ := hy
  exact hab (Prod.mk.inj h2).1.symm

theorem outlineEdges_sum (vs : List ((Nat × Nat) × Nat)) : ((outlineEdges vs).map edgeCross).sum = 2 * vs.length := by
  unfold outlineEdges
  induction vs with
  | nil => simp
  | cons v vs ih =>
    rw [List.flatMap_cons, List.map_append, List.sum_append, ih]
    have : (List.map edgeCross ((List.range 4).map fun d => (v, d))).sum = 2 := by
      simp only [show List.range 4 = [0, 1, 2, 3] from rfl, List.map_cons, List.map_nil, List.sum_cons, List.sum_nil, edgeCross, cornerB, cornerA,
        Nat.reduceAdd, Nat.reduceMod, Nat.zero_add]
      ring
    rw [this]
    push_cast [List.length_cons]
    ring

/-- The edge seen from the other side. -/
def otherSide (c : Chf) (e : SpanEdge) : SpanEdge :=
  match c.nb e.1.1.1 e.1.1.2 e.1.2 e.2 with
  | none => e
  | some w => (w, (e.2 + 2) % 4)

theorem otherSide_spec {c : Chf} (hc : c.Wf) (hm : c.Mutual) {reg : Nat → Nat} {e : SpanEdge} (he : RegionEdge c reg e) (hn : ¬ OnOutline c reg e) :
    RegionEdge c reg (otherSide c e) ∧ reg (otherSide c e).1.2 = reg e.1.2 ∧ ¬ OnOutline c reg (otherSide c e) ∧
      otherSide c (otherSide c e) = e ∧ otherSide c e ≠ e ∧ edgeCross e + edgeCross (otherSide c e) = 0 ∧ ¬ Alone c reg (otherSide c e).1.2 := by
  rcases stepEdge_cases hc he with ⟨a1, -⟩ | ⟨-, -, w, a3, a4, a5, a6, -⟩
  · exact absurd a1 hn
  · have hd := he.dir
    have ho : otherSide c e = (w, (e.2 + 2) % 4) := by rw [otherSide, a3]
    have hr : RegionEdge c reg (w, (e.2 + 2) % 4) :=
      ⟨a4, Nat.mod_lt _ (by omega), by show reg w.2 ≠ 0; rw [a6]; exact he.pos, by show isBorder (reg w.2) = false; rw [a6]; exact he.inner⟩
    have hback : c.Nb w.2 ((e.2 + 2) % 4) e.1.2 := hm _ _ _ hd a5
    rw [ho]
    refine ⟨hr, a6, fun h => h.2 _ hback a6.symm, ?_, ?_, ?_, ?_⟩
    · obtain ⟨p, hp⟩ := (hc.nb_iff hr.cell hr.dir _).1 hback
      have hpat := (hc.nb_some hr.cell hr.dir hp).1
      unfold otherSide
      rw [hp]
      obtain ⟨e1, e2⟩ := hc.unique _ _ _ _ _ hpat he.cell
      refine Prod.ext (Prod.ext (Prod.ext e1 e2) rfl) ?_
      show ((e.2 + 2) % 4 + 2) % 4 = e.2
      omega
    · intro h
      have := congrArg Prod.snd h
      simp only at this
      omega
    · have h1 : cornerB (w, (e.2 + 2) % 4) = cornerA e := by
        have := cornerA_cross hc hd he.cell a4 a5
        unfold cornerB
        simp only
        rw [show ((e.2 + 2) % 4 + 1) % 4 = (e.2 + 3) % 4 by omega]
        exact this
      have h2 : cornerA (w, (e.2 + 2) % 4) = cornerB e := by
        have := cornerA_cross hc hr.dir a4 he.cell hback
        unfold cornerB
        rw [show ((e.2 + 2) % 4 + 3) % 4 = (e.2 + 1) % 4 by omega] at this
        exact this.symm
      unfold edgeCross
      rw [h1, h2]
      ring
    · intro h
      exact h _ hr.dir _ hback a6.symm

/-- The edges inside a region cancel: the outline edges of a set of spans, closed under connections within the region, have the sum
of all edges. -/
theorem outline_sum {c : Chf} (hc : c.Wf) (hm : c.Mutual) {reg : Nat → Nat} (L E : List SpanEdge) (hL : L.Nodup) (hE : E.Nodup)
    (hreg : ∀ e ∈ E, RegionEdge c reg e) (hin : ∀ e, e ∈ L ↔ e ∈ E ∧ OnOutline c reg e)
    (hcl : ∀ e ∈ E, ¬ OnOutline c reg e → otherSide c e ∈ E) : (L.map edgeCross).sum = (E.map edgeCross).sum := by
  classical
  rw [← List.sum_toFinset _ hL, ← List.sum_toFinset _ hE,
    ← Finset.sum_filter_add_sum_filter_not E.toFinset (fun e => OnOutline c reg e)]
  have h1 : L.toFinset = E.toFinset.filter fun e => OnOutline c reg e := by
    ext e
    simp only [List.mem_toFinset, Finset.mem_filter]
    exact hin e
  have h2 : ∑ e ∈ E.toFinset.filter (fun e => ¬ OnOutline c reg e), edgeCross e = 0 := by
    refine Finset.sum_involution (fun e _ => otherSide c e) ?_ ?_ ?_ ?_
    · intro e he
      simp only [Finset.mem_filter, List.mem_toFinset] at he
      exact (otherSide_spec hc hm (hreg e he.1) he.2).2.2.2.2.2.1
    · intro e he _
      simp only [Finset.mem_filter, List.mem_toFinset] at he
      exact (otherSide_spec hc hm (hreg e he.1) he.2).2.2.2.2.1
    · intro e he
      simp only [Finset.mem_filter, List.mem_toFinset] at he ⊢
      exact ⟨hcl e he.1 he.2, (otherSide_spec hc hm (hreg e he.1) he.2).2.2.1⟩
    · intro e he
      simp only [Finset.mem_filter, List.mem_toFinset] at he
      exact (otherSide_spec hc hm (hreg e he.1) he.2).2.2.2.1
  rw [h1, h2, add_zero]

/-- **C118** (partial). The signed areas of the raw contours of a region, as `calcAreaOfPolygon2D` counts them (holes
negative), add up to the number of its spans that are connected to another span of the region. Missing as for C117. -/
theorem raw_area_partial (c : Chf) (hc : c.Wf) (hm : c.Mutual) (reg ys : Nat → Nat)
    (hn : ∀ i < c.n, ((List.range c.n).filter fun j => decide (reg j = reg i)).length < 10000)
    (r : Nat) (h0 : r ≠ 0) (hb : isBorder r = false) (is : List Nat) (hnd : is.Nodup)
    (his : ∀ i, i ∈ is ↔ i < c.n ∧ reg i = r ∧ ¬ Alone c reg i) :
    (((traceAll c reg ys).filter fun t => decide (reg t.1.2 = r)).map fun t => area2D t.2).sum = 2 * is.length := by
  classical
  obtain ⟨ss, h1, h2, h3, h4⟩ := traceAll_spec hc hm (reg := reg) ys (fun i hi => by have := hn i hi; omega)
  -- the spans counted
  let vs := (allSpans c).filter fun v => decide (reg v.2 = r ∧ ¬ Alone c reg v.2)
  have hall := (allSpans_perm hc)
  have hnd1 : (allSpans c).Nodup := List.Nodup.of_map _ hall.1
  have hvs : vs.Nodup := List.Nodup.filter _ hnd1
  have hmemvs : ∀ v, v ∈ vs ↔ c.At v.1.1 v.1.2 v.2 ∧ reg v.2 = r ∧ ¬ Alone c reg v.2 := by
    intro v
    simp only [vs, List.mem_filter, mem_allSpans, decide_eq_true_eq]
  have hlen : vs.length = is.length := by
    have hp : (vs.map Prod.snd).Perm is := by
      refine (List.perm_ext_iff_of_nodup ?_ hnd).2 fun i => ?_
      · exact List.Nodup.sublist (List.Sublist.map _ List.filter_sublist) hall.1
      · rw [his, List.mem_map]
        constructor
        · rintro ⟨v, hv, rfl⟩
          have := (hmemvs v).1 hv
          exact ⟨hc.lt _ _ _ this.1, this.2⟩
        · rintro ⟨hi, hr⟩
          obtain ⟨x, y, h⟩ := hc.cell i hi
          exact ⟨((x, y), i), (hmemvs _).2 ⟨h, hr⟩, rfl⟩
    simpa using hp.length_eq
  -- each contour
  have harea : ∀ s ∈ ss, area2D (rawContour c reg ys s).2 = ((contourEdges c reg s).map edgeCross).sum := by
    intro s hs
    obtain ⟨d, t, g1, g2, g3⟩ := contourEdges_outline hc hm (h2 s hs)
    have hg : (contourEdges c reg s ++ [(s.1, d)]).IsChain fun e e' => cornerB e = cornerA e' :=
      List.IsChain.imp (fun a b h => h.2) g3
    show area2D ((contourEdges c reg s).map _) = _
    have hpl : ∀ e ∈ contourEdges c reg s, ((tracePt c reg ys (c.area s.1.2) e).x, (tracePt c reg ys (c.area s.1.2) e).z) = cornerB e := by
      intro e he
      have hd := ((mem_contourEdges hc (h2 s hs).1).1 he).1.1.dir
      obtain ⟨⟨⟨x, y⟩, i⟩, d⟩ := e
      simp only at hd
      have : d = 0 ∨ d = 1 ∨ d = 2 ∨ d = 3 := by omega
      rcases this with rfl | rfl | rfl | rfl <;> simp [tracePt, cornerB, cornerA]
    have hmap : (contourEdges c reg s).map (tracePt c reg ys (c.area s.1.2)) =
        (contourEdges c reg s).map fun e => if e ∈ contourEdges c reg s then tracePt c reg ys (c.area s.1.2) e else ⟨(cornerB e).1, 0, (cornerB e).2, 0⟩ := by
      refine List.map_congr_left fun e he => ?_
      rw [if_pos he]
    rw [hmap]
    have := area2D_edges (fun e => if e ∈ contourEdges c reg s then tracePt c reg ys (c.area s.1.2) e else ⟨(cornerB e).1, 0, (cornerB e).2, 0⟩)
      (fun e => by
        by_cases he : e ∈ contourEdges c reg s
        · simp only [if_pos he]; exact hpl e he
        · simp only [if_neg he]) (s.1, d) t (by rw [← g1]; exact hg)
    rw [← g1] at this
    exact this
  have hsum : (((traceAll c reg ys).filter fun t => decide (reg t.1.2 = r)).map fun t => area2D t.2).sum =
      (((ss.filter fun s => decide (reg s.1.2 = r)).flatMap (contourEdges c reg)).map edgeCross).sum := by
    rw [h1, List.filter_map, List.map_map, show (fun t => decide (reg t.1.2 = r)) ∘ rawContour c reg ys = fun s => decide (reg s.1.2 = r) from rfl]
    have : ∀ l : List SpanEdge, (∀ s ∈ l, s ∈ ss) → (List.map ((fun t => area2D t.2) ∘ rawContour c reg ys)
        (l.filter fun s => decide (reg s.1.2 = r))).sum =
        (((l.filter fun s => decide (reg s.1.2 = r)).flatMap (contourEdges c reg)).map edgeCross).sum := by
      intro l
      induction l with
      | nil => intro _; simp
      | cons a l ih =>
        intro hl
        have ih := ih fun s hs => hl s (by simp [hs])
        by_cases ha : reg a.1.2 = r
        · rw [List.filter_cons_of_pos (by simpa using ha), List.map_cons, List.sum_cons, ih,
            List.flatMap_cons, List.map_append, List.sum_append]
          rw [Function.comp_apply, harea a (hl a (by simp))]
        · rw [List.filter_cons_of_neg (by simpa using ha), ih]
    exact this ss fun s hs => hs
  have hdir : ∀ e ∈ outlineEdges vs, RegionEdge c reg e := by
    intro e he
    obtain ⟨g1, g2⟩ := (mem_outlineEdges vs e).1 he
    obtain ⟨g3, g4, -⟩ := (hmemvs _).1 g1
    exact ⟨g3, g2, by rw [g4]; exact h0, by rw [g4]; exact hb⟩
  rw [hsum, outline_sum hc hm _ (outlineEdges vs) ?_ (outlineEdges_nodup hvs) hdir ?_ ?_, outlineEdges_sum, hlen]
  · -- the chosen contours have no edge twice
    have : ((ss.filter fun s => decide (reg s.1.2 = r)).flatMap (contourEdges c reg)).Sublist (ss.flatMap (contourEdges c reg)) := by
      exact List.Sublist.flatMap List.filter_sublist _
    exact List.Nodup.sublist this h3
  · intro e
    have hself : ∀ s ∈ ss, e ∈ contourEdges c reg s → reg e.1.2 = reg s.1.2 := by
      intro s hs he
      obtain ⟨-, j, -, rfl⟩ := (mem_contourEdges hc (h2 s hs).1).1 he
      exact (stepEdge_iter hc (h2 s hs).1 j).2
    constructor
    · intro he
      obtain ⟨s, hs, he⟩ := List.mem_flatMap.1 he
      rw [List.mem_filter, decide_eq_true_eq] at hs
      have hmem := (h4 e).1 (List.mem_flatMap.2 ⟨s, hs.1, he⟩)
      exact ⟨(mem_outlineEdges vs e).2 ⟨(hmemvs _).2 ⟨hmem.1.1.cell, (hself s hs.1 he).trans hs.2, hmem.2⟩, hmem.1.1.dir⟩, hmem.1⟩
    · rintro ⟨he, ho⟩
      obtain ⟨g1, g2⟩ := (mem_outlineEdges vs e).1 he
      obtain ⟨g3, g4, g5⟩ := (hmemvs _).1 g1
      obtain ⟨s, hs, hse⟩ := List.mem_flatMap.1 ((h4 e).2 ⟨ho, g5⟩)
      refine List.mem_flatMap.2 ⟨s, List.mem_filter.2 ⟨hs, ?_⟩, hse⟩
      rw [decide_eq_true_eq, ← hself s hs hse]
      exact g4
  · intro e he hno
    have hr := hdir e he
    obtain ⟨q1, q2, -, -, -, -, q3⟩ := otherSide_spec hc hm hr hno
    have hreg := ((hmemvs _).1 ((mem_outlineEdges vs e).1 he).1).2.1
    exact (mem_outlineEdges vs _).2 ⟨(hmemvs _).2 ⟨q1.cell, q2.trans hreg, q3⟩, q1.dir⟩

end Verif.Recast
