/-
The outline of a detail mesh: the samples along the edges of a polygon and their simplification, the vertex budget, and
the first triangulation (`buildPolyDetail`, recast/meshdetail.go:803-942).

Simplifications: points are of any type `P`. What `float32` arithmetic decides is given by functions of which nothing is
assumed unless a theorem says so: `swap` (the order test, 846-856), `quot` (`int32(floor(d / sampleDist))`, 862), `pos a b nn
k` (sample `k` of `nn` from `a` to `b`, with its height, 871-876) and `dev` (`distancePtSeg3Pt`, 890).
-/
import Verif.Recast.DetailHull
import Verif.Recast.Adjacency
import Mathlib.Data.List.Chain
import Mathlib.Order.Basic
import Mathlib.Data.List.Sort
import Mathlib.Algebra.Order.Ring.Defs
import Mathlib.Tactic.Linarith

namespace Verif.Recast
open Verif Verif.Detour

set_option linter.unusedSimpArgs false
set_option linter.unusedVariables false

section
variable {P K : Type} [Zero K] [LinearOrder K]

/-- The largest deviation strictly between two samples (recast/meshdetail.go:886-895): `maxd` and `maxi` (`none` is -1). -/
def worst (dv : Nat → K) (a b : Nat) : K × Option Nat :=
  (List.range' (a + 1) (b - a - 1)).foldl (fun (m : K × Option Nat) i => if dv i > m.1 then (dv i, some i) else m) (0, none)

/-- Simplifying the samples of one edge (recast/meshdetail.go:877-908). `dv m a b` is the deviation of sample `m` from the
segment between samples `a` and `b`, `err` is `sampleMaxError²`. `none` is a write past `idx [32]int32`, or a loop without
end. -/
def simplify (dv : Nat → Nat → Nat → K) (err : K) : Nat → Nat → List Nat → Option (List Nat)
  | 0, _, _ => none
  | fuel + 1, k, idx =>
    if k + 1 < idx.length then
      let a := idx.getD k 0
      let b := idx.getD (k + 1) 0
      match worst (fun m => dv m a b) a b with
      | (maxd, some maxi) =>
        if maxd > err then
          if idx.length < 32 then simplify dv err fuel k (idx.take (k + 1) ++ maxi :: idx.drop (k + 1)) else none
        else simplify dv err fuel (k + 1) idx
      | (_, none) => simplify dv err fuel (k + 1) idx
    else some idx

/-- How many pieces an edge is cut into (recast/meshdetail.go:862-868). -/
def pieces (nverts : Nat) (quot : Int) : Int :=
  let nn := 1 + quot
  let nn := if nn ≥ 32 then 31 else nn
  if (nverts : Int) + nn ≥ 127 then 126 - nverts else nn

/-- The data one polygon is sampled with. -/
structure Sampler (P K : Type) where
  swap : P → P → Bool
  quot : P → P → Int
  pos : P → P → Nat → Nat → P
  dev : P → P → P → K
  err : K

/-- The vertices added between two corners (recast/meshdetail.go:841-927), in hull order, for `nn` pieces: `none` is a
panic. -/
def edgePoints (S : Sampler P K) (vj vi : P) (nn : Int) : Option (List P) :=
  if nn < 0 then none
  else
    let n := nn.toNat
    let a := if S.swap vj vi then vi else vj
    let b := if S.swap vj vi then vj else vi
    (simplify (fun m x y => S.dev (S.pos a b n m) (S.pos a b n x) (S.pos a b n y)) S.err 64 0 [0, n]).map fun idx =>
      let new := idx.tail.dropLast.map (S.pos a b n)
      if S.swap vj vi then new.reverse else new

/-- The outline built so far: all vertices, and the hull as positions in them. -/
structure Outline (P : Type) where
  verts : List P
  hull : List Nat

/-- One pass of the loop (recast/meshdetail.go:841-929): the edge from corner `j` to corner `i`. `none` is a panic: `hull`
has room for 127 entries and `verts` for 256 vertices. -/
def outlineEdge (S : Sampler P K) (j : Nat) (vj vi : P) (o : Outline P) : Option (Outline P) :=
  let a := if S.swap vj vi then vi else vj
  let b := if S.swap vj vi then vj else vi
  (edgePoints S vj vi (pieces o.verts.length (S.quot a b))).bind fun new =>
    let o' : Outline P := ⟨o.verts ++ new, o.hull ++ j :: List.range' o.verts.length new.length⟩
    if o'.hull.length ≤ 127 ∧ o'.verts.length ≤ 256 then some o' else none

/-- The loop over the edges (recast/meshdetail.go:838-929). -/
def outlineLoop (S : Sampler P K) (poly : List P) (d : P) : List Nat → Outline P → Option (Outline P)
  | [], o => some o
  | i :: l, o =>
    let j := if i = 0 then poly.length - 1 else i - 1
    (outlineEdge S j (poly.getD j d) (poly.getD i d) o).bind (outlineLoop S poly d l)

/-- Copying the corners and sampling the outline (recast/meshdetail.go:814-930). `positive` is `sampleDist > 0`. -/
def outline (S : Sampler P K) (positive : Bool) (poly : List P) (d : P) : Option (Outline P) :=
  if positive then outlineLoop S poly d (List.range poly.length) ⟨poly, []⟩ else some ⟨poly, []⟩

/-- The first triangulation (recast/meshdetail.go:814-942): vertices, hull and triangles as positions in the vertices. -/
def detailBase (S : Sampler P K) (positive : Bool) (peri : Nat → K) (sel : Nat → Nat → Bool) (poly : List P) (d : P) :
    Option (Outline P × List Tri3) :=
  (outline S positive poly d).bind fun o =>
    (triangulateHull peri sel o.hull.length).map fun ts =>
      (o, ts.map fun t => (o.hull.getD t.1 0, o.hull.getD t.2.1 0, o.hull.getD t.2.2 0))

/-! ## Simplification -/

theorem worst_spec (dv : Nat → K) (a b : Nat) :
    (∀ m, a < m → m < b → dv m ≤ (worst dv a b).1) ∧ 0 ≤ (worst dv a b).1 ∧
    (∀ m, (worst dv a b).2 = some m → a < m ∧ m < b ∧ dv m = (worst dv a b).1) ∧
    ((worst dv a b).2 = none → (worst dv a b).1 = 0) := by
  unfold worst
  have key : ∀ (l : List Nat) (s : K × Option Nat),
      let r := l.foldl (fun (m : K × Option Nat) i => if dv i > m.1 then (dv i, some i) else m) s
      (∀ m ∈ l, dv m ≤ r.1) ∧ s.1 ≤ r.1 ∧ (r = s ∨ ∃ m ∈ l, r = (dv m, some m)) := by
    intro l
    induction l with
    | nil => intro s; exact ⟨by simp, le_refl _, .inl rfl⟩
    | cons i l ih =>
      intro s r
      have hr : r = l.foldl (fun (m : K × Option Nat) i => if dv i > m.1 then (dv i, some i) else m)
          (if dv i > s.1 then (dv i, some i) else s) := rfl
      obtain ⟨h1, h2, h3⟩ := ih (if dv i > s.1 then (dv i, some i) else s)
      rw [← hr] at h1 h2 h3
      by_cases hg : dv i > s.1
      · rw [if_pos hg] at h2 h3
        refine ⟨?_, le_trans (le_of_lt hg) h2, ?_⟩
        · intro m hm
          rcases List.mem_cons.1 hm with rfl | hm
          · exact h2
          · exact h1 m hm
        · rcases h3 with h3 | ⟨m, hm, h3⟩
          · exact .inr ⟨i, List.mem_cons_self .., h3⟩
          · exact .inr ⟨m, List.mem_cons_of_mem _ hm, h3⟩
      · rw [if_neg hg] at h2 h3
        refine ⟨?_, h2, ?_⟩
        · intro m hm
          rcases List.mem_cons.1 hm with rfl | hm
          · exact le_trans (not_lt.1 hg) h2
          · exact h1 m hm
        · rcases h3 with h3 | ⟨m, hm, h3⟩
          · exact .inl h3
          · exact .inr ⟨m, List.mem_cons_of_mem _ hm, h3⟩
  obtain ⟨h1, h2, h3⟩ := key (List.range' (a + 1) (b - a - 1)) (0, none)
  have hm : ∀ m, m ∈ List.range' (a + 1) (b - a - 1) ↔ a < m ∧ m < b := by
    intro m; rw [List.mem_range'_1]; omega
  refine ⟨fun m ha hb => h1 m ((hm m).2 ⟨ha, hb⟩), h2, ?_, ?_⟩
  · intro m he
    rcases h3 with h3 | ⟨i, hi, h3⟩
    · rw [h3] at he; simp at he
    · rw [h3] at he ⊢
      simp only [Option.some.injEq] at he
      subst he
      exact ⟨((hm _).1 hi).1, ((hm _).1 hi).2, rfl⟩
  · intro he
    rcases h3 with h3 | ⟨i, hi, h3⟩
    · rw [h3]
    · rw [h3] at he; simp at he

/-- Spec: no sample between `a` and `b` deviates by more than `err` from the segment between them. -/
def Close (dv : Nat → Nat → Nat → K) (err : K) (a b : Nat) : Prop := ∀ m, a < m → m < b → dv m a b ≤ err

theorem simplify_spec (dv : Nat → Nat → Nat → K) {err : K} (he : 0 ≤ err) {n : Nat} (hn : n < 32) :
    ∀ (fuel : Nat) (pre : List Nat) (a : Nat) (rest : List Nat), (pre ++ a :: rest).Pairwise (· < ·) →
      (∀ x ∈ pre ++ a :: rest, x ≤ n) → (pre ++ [a]).IsChain (Close dv err) →
      (n + 1 - (pre ++ a :: rest).length) + (n + 1 - pre.length) < fuel →
      ∃ idx, simplify dv err fuel pre.length (pre ++ a :: rest) = some idx ∧ idx.Pairwise (· < ·) ∧ (∀ x ∈ idx, x ≤ n) ∧
        idx.IsChain (Close dv err) ∧ idx.head? = (pre ++ a :: rest).head? ∧ idx.getLast? = (pre ++ a :: rest).getLast? := by
  intro fuel
  induction fuel with
  | zero => intro pre a rest _ _ _ h; omega
  | succ fuel ih =>
    intro pre a rest hp hb hc hf
    have hlen : (pre ++ a :: rest).length ≤ n + 1 := by
      have := nodup_lt_length (List.Pairwise.imp (fun h => Nat.ne_of_lt h) hp) (n := n + 1) (fun x hx => by have := hb x hx; omega)
      exact this
    rw [simplify]
    cases rest with
    | nil =>
      rw [if_neg (by simp)]
      exact ⟨_, rfl, hp, hb, hc, rfl, rfl⟩
    | cons b rest =>
      rw [if_pos (by simp)]
      have ea : (pre ++ a :: b :: rest).getD pre.length 0 = a := by
        simp [List.getD_eq_getElem?_getD]
      have eb : (pre ++ a :: b :: rest).getD (pre.length + 1) 0 = b := by
        simp [List.getD_eq_getElem?_getD, List.getElem?_append_right]
      dsimp only
      rw [ea, eb]
      obtain ⟨w1, w2, w3, w4⟩ := worst_spec (fun m => dv m a b) a b
      have advance : Close dv err a b → ∃ idx, simplify dv err fuel (pre.length + 1) (pre ++ a :: b :: rest) = some idx ∧
          idx.Pairwise (· < ·) ∧ (∀ x ∈ idx, x ≤ n) ∧ idx.IsChain (Close dv err) ∧
          idx.head? = (pre ++ a :: b :: rest).head? ∧ idx.getLast? = (pre ++ a :: b :: rest).getLast? := by
        intro hcl
        have e : pre ++ a :: b :: rest = (pre ++ [a]) ++ b :: rest := by simp
        have e2 : pre.length + 1 = (pre ++ [a]).length := by simp
        rw [e] at hp hb hf hlen ⊢
        rw [e2]
        apply ih (pre ++ [a]) b rest hp hb
        · rw [List.isChain_append]
          refine ⟨hc, List.isChain_singleton _, ?_⟩
          intro x hx y hy
          simp only [List.getLast?_append, List.getLast?_singleton, Option.some_or, Option.mem_def, Option.some.injEq] at hx
          simp only [List.head?_cons, Option.mem_def, Option.some.injEq] at hy
          subst hx; subst hy
          exact hcl
        · simp only [List.length_append, List.length_cons, List.length_nil] at hf hlen ⊢
          omega
      generalize hw : worst (fun m => dv m a b) a b = w at w1 w2 w3 w4
      obtain ⟨maxd, o⟩ := w
      dsimp only at w1 w2 w3 w4
      cases o with
      | none =>
        dsimp only
        apply advance
        intro m h1 h2
        have := w1 m h1 h2
        rw [w4 rfl] at this
        exact le_trans this he
      | some maxi =>
        dsimp only
        obtain ⟨m1, m2, m3⟩ := w3 maxi rfl
        by_cases hg : maxd > err
        · rw [if_pos hg]
          have et : (pre ++ a :: b :: rest).take (pre.length + 1) = pre ++ [a] := by
            rw [List.take_append]; simp
          have ed : (pre ++ a :: b :: rest).drop (pre.length + 1) = b :: rest := by
            rw [List.drop_append]; simp
          rw [et, ed]
          have e : pre ++ [a] ++ maxi :: b :: rest = pre ++ a :: (maxi :: b :: rest) := by simp
          rw [e]
          have hp' : (pre ++ a :: (maxi :: b :: rest)).Pairwise (· < ·) := by
            rw [List.pairwise_append] at hp ⊢
            obtain ⟨p1, p2, p3⟩ := hp
            rw [List.pairwise_cons, List.pairwise_cons] at p2
            obtain ⟨q1, q2, q3⟩ := p2
            refine ⟨p1, ?_, ?_⟩
            · rw [List.pairwise_cons, List.pairwise_cons, List.pairwise_cons]
              refine ⟨?_, ?_, q2, q3⟩
              · intro x hx
                rcases List.mem_cons.1 hx with rfl | hx
                · exact m1
                · exact q1 x hx
              · intro x hx
                rcases List.mem_cons.1 hx with rfl | hx
                · exact m2
                · exact lt_trans m2 (q2 x hx)
            · intro x hx y hy
              have hxa := p3 x hx a (List.mem_cons_self ..)
              rcases List.mem_cons.1 hy with rfl | hy
              · exact hxa
              · rcases List.mem_cons.1 hy with rfl | hy
                · exact lt_trans hxa m1
                · exact p3 x hx y (List.mem_cons_of_mem _ hy)
          have hb' : ∀ x ∈ pre ++ a :: (maxi :: b :: rest), x ≤ n := by
            intro x hx
            have hbn := hb b (by simp)
            simp only [List.mem_append, List.mem_cons] at hx hb
            rcases hx with hx | hx | hx | hx | hx
            · exact hb x (.inl hx)
            · exact hb x (.inr (.inl hx))
            · omega
            · exact hb x (.inr (.inr (.inl hx)))
            · exact hb x (.inr (.inr (.inr hx)))
          have hlen' : (pre ++ a :: (maxi :: b :: rest)).length ≤ n + 1 :=
            nodup_lt_length (List.Pairwise.imp (fun h => Nat.ne_of_lt h) hp') (n := n + 1) (fun x hx => by have := hb' x hx; omega)
          have hl2 : (pre ++ a :: (maxi :: b :: rest)).length = (pre ++ a :: b :: rest).length + 1 := by simp; omega
          rw [if_pos (by omega)]
          obtain ⟨idx, i1, i2, i3, i4, i5, i6⟩ := ih pre a (maxi :: b :: rest) hp' hb' hc (by omega)
          refine ⟨idx, i1, i2, i3, i4, ?_, ?_⟩
          · rw [i5]; cases pre <;> rfl
          · rw [i6]; simp [List.getLast?_append, List.getLast?_cons]
        · rw [if_neg hg]
          apply advance
          intro m h1 h2
          exact le_trans (w1 m h1 h2) (not_lt.1 hg)

/-- **C101**: on an edge cut into `n` pieces (`1 ≤ n ≤ 31`) the simplification ends without leaving its buffer; it keeps the
two ends and a strictly increasing selection of the samples, and no dropped sample deviates by more than the permitted
error from the segment between the kept samples around it. -/
theorem simplify_error (dv : Nat → Nat → Nat → K) {err : K} (he : 0 ≤ err) {n : Nat} (h1 : 1 ≤ n) (hn : n < 32) :
    ∃ idx, simplify dv err 64 0 [0, n] = some idx ∧ idx.Pairwise (· < ·) ∧ idx.head? = some 0 ∧ idx.getLast? = some n ∧
      idx.IsChain (Close dv err) := by
  obtain ⟨idx, i1, i2, i3, i4, i5, i6⟩ := simplify_spec dv he hn 64 [] 0 [n] (by simp; omega) (by simp) (by simp) (by simp; omega)
  exact ⟨idx, i1, i2, i5, i6, i4⟩

example : simplify (fun m a b => if m = 3 ∧ a = 0 then 5 else if m = 5 then 2 else 1) 1 64 0 [0, 8] = some [0, 3, 5, 8] := by decide +kernel

/-! ## The vertex budget -/

theorem pieces_bounds {nv : Nat} {q : Int} (hv : nv ≤ 125) (hq : 0 ≤ q) :
    1 ≤ pieces nv q ∧ pieces nv q ≤ 31 ∧ nv + pieces nv q ≤ 126 := by
  unfold pieces
  dsimp only
  split <;> split <;> omega

/-- Spec: on the edge from `a` to `b` cut into `n` pieces, no sample between samples `x` and `y` deviates by more than the
permitted error from the segment between them. -/
def EdgeClose (S : Sampler P K) (a b : P) (n x y : Nat) : Prop :=
  ∀ m, x < m → m < y → S.dev (S.pos a b n m) (S.pos a b n x) (S.pos a b n y) ≤ S.err

/-- The points between two corners: the samples of the edge at some increasing positions, in hull order. -/
theorem edgePoints_spec (S : Sampler P K) (he : 0 ≤ S.err) (vj vi : P) {n : Nat} (h1 : 1 ≤ n) (hn : n < 32) :
    ∃ ks : List Nat, ks.Pairwise (· < ·) ∧ (∀ k ∈ ks, 0 < k ∧ k < n) ∧
      (0 :: (ks ++ [n])).IsChain (EdgeClose S (if S.swap vj vi then vi else vj) (if S.swap vj vi then vj else vi) n) ∧
      edgePoints S vj vi n = some (if S.swap vj vi then (ks.map (S.pos vi vj n)).reverse else ks.map (S.pos vj vi n)) := by
  unfold edgePoints
  rw [if_neg (c := (n : Int) < 0) (by omega)]
  dsimp only
  rw [Int.toNat_natCast]
  obtain ⟨idx, i1, i2, i3, i4, i5⟩ := simplify_error (fun m x y =>
    S.dev (S.pos (if S.swap vj vi then vi else vj) (if S.swap vj vi then vj else vi) n m)
      (S.pos (if S.swap vj vi then vi else vj) (if S.swap vj vi then vj else vi) n x)
      (S.pos (if S.swap vj vi then vi else vj) (if S.swap vj vi then vj else vi) n y)) he h1 hn
  rw [i1, Option.map_some]
  obtain ⟨t, rfl⟩ : ∃ t, idx = 0 :: t := by
    cases idx with
    | nil => simp at i3
    | cons x t => simp at i3; exact ⟨t, by rw [i3]⟩
  have hne : t ≠ [] := by rintro rfl; simp at i4; omega
  have hl : t.getLast hne = n := by
    rw [List.getLast?_cons, List.getLast?_eq_some_getLast hne] at i4
    simpa using i4
  have ht : t.dropLast ++ [n] = t := by rw [← hl]; exact List.dropLast_append_getLast hne
  refine ⟨t.dropLast, (i2.tail).sublist (List.dropLast_sublist _), ?_, ?_, ?_⟩
  · intro k hk
    have hkt := List.mem_of_mem_dropLast hk
    refine ⟨(List.pairwise_cons.1 i2).1 k hkt, ?_⟩
    rw [← ht] at i2
    have := (List.pairwise_cons.1 i2).2
    rw [List.pairwise_append] at this
    exact this.2.2 k hk n (by simp)
  · rw [ht]
    exact i5
  · cases S.swap vj vi <;> simp

/-- One pass within the budget. -/
theorem outlineEdge_spec (S : Sampler P K) (he : 0 ≤ S.err) (hq : ∀ a b, 0 ≤ S.quot a b) (j : Nat) (vj vi : P) (o : Outline P)
    (hv : o.verts.length ≤ 125) (hh : o.hull.length < o.verts.length) :
    ∃ (n : Nat) (ks : List Nat), 1 ≤ n ∧ n < 32 ∧ ks.Pairwise (· < ·) ∧ (∀ k ∈ ks, 0 < k ∧ k < n) ∧ o.verts.length + ks.length ≤ 125 ∧
      (0 :: (ks ++ [n])).IsChain (EdgeClose S (if S.swap vj vi then vi else vj) (if S.swap vj vi then vj else vi) n) ∧
      outlineEdge S j vj vi o = some (Outline.mk
        (o.verts ++ if S.swap vj vi then (ks.map (S.pos vi vj n)).reverse else ks.map (S.pos vj vi n))
        (o.hull ++ j :: List.range' o.verts.length ks.length)) := by
  unfold outlineEdge
  dsimp only
  obtain ⟨b1, b2, b3⟩ := pieces_bounds hv (hq (if S.swap vj vi then vi else vj) (if S.swap vj vi then vj else vi))
  generalize pieces o.verts.length (S.quot (if S.swap vj vi then vi else vj) (if S.swap vj vi then vj else vi)) = z at b1 b2 b3 ⊢
  obtain ⟨n, rfl⟩ : ∃ n : Nat, z = n := ⟨z.toNat, by omega⟩
  obtain ⟨ks, k1, k2, kc, k3⟩ := edgePoints_spec S he vj vi (n := n) (by omega) (by omega)
  have hkl : ks.length ≤ n - 1 := by
    have hnd : (ks.map (· - 1)).Nodup := by
      rw [List.nodup_map_iff_inj_on (List.Pairwise.imp (fun h => Nat.ne_of_lt h) k1)]
      intro x hx y hy hxy
      have := k2 x hx; have := k2 y hy; omega
    have := nodup_lt_length hnd (n := n - 1) (fun i hi => by
      obtain ⟨k, hk, rfl⟩ := List.mem_map.1 hi
      have := k2 k hk; omega)
    rw [List.length_map] at this
    exact this
  refine ⟨n, ks, by omega, by omega, k1, k2, by omega, kc, ?_⟩
  rw [k3, Option.bind_some]
  have hl : (if S.swap vj vi then (ks.map (S.pos vi vj n)).reverse else ks.map (S.pos vj vi n)).length = ks.length := by
    cases S.swap vj vi <;> simp
  rw [hl, if_pos]
  simp only [List.length_append, List.length_cons, List.length_range', hl]
  omega

/-- The corner before corner `i`. -/
def cornerBefore (n i : Nat) : Nat := if i = 0 then n - 1 else i - 1

theorem cornerBefore_perm {n : Nat} : ((List.range n).map (cornerBefore n)).Perm (List.range n) := by
  apply (List.perm_ext_iff_of_nodup ?_ List.nodup_range).2
  · intro x
    simp only [List.mem_map, List.mem_range]
    constructor
    · rintro ⟨i, hi, rfl⟩; unfold cornerBefore; split <;> omega
    · intro hx
      by_cases h : x + 1 = n
      · exact ⟨0, by omega, by unfold cornerBefore; rw [if_pos rfl]; omega⟩
      · exact ⟨x + 1, by omega, by unfold cornerBefore; rw [if_neg (by omega)]; omega⟩
  · rw [List.nodup_map_iff_inj_on List.nodup_range]
    intro x hx y hy h
    rw [List.mem_range] at hx hy
    unfold cornerBefore at h
    split at h <;> split at h <;> omega

/-- Spec: the hull from corner `vj` up to the corner `vi`: the corner, then samples of this edge, on the way from `vj` to
`vi` (the samples are numbered from the end that comes first in the order), such that no dropped sample deviates by more than
the permitted error. -/
def SideOf (S : Sampler P K) (vj vi : P) (l : List P) : Prop :=
  ∃ (n : Nat) (ks : List Nat), 1 ≤ n ∧ n < 32 ∧ ks.Pairwise (· < ·) ∧ (∀ k ∈ ks, 0 < k ∧ k < n) ∧
    (0 :: (ks ++ [n])).IsChain (EdgeClose S (if S.swap vj vi then vi else vj) (if S.swap vj vi then vj else vi) n) ∧
    l = vj :: (if S.swap vj vi then (ks.map (S.pos vi vj n)).reverse else ks.map (S.pos vj vi n))

theorem outlineLoop_spec (S : Sampler P K) (he : 0 ≤ S.err) (hq : ∀ a b, 0 ≤ S.quot a b) (poly : List P) (d : P) :
    ∀ (l done : List Nat) (o : Outline P) (sides : List (List P)), (∀ i ∈ l, i < poly.length) → (∀ i ∈ done, i < poly.length) → done.length + l.length = poly.length →
      o.verts.length ≤ 125 → poly <+: o.verts →
      o.hull.Perm (done.map (cornerBefore poly.length) ++ List.range' poly.length (o.verts.length - poly.length)) →
      o.hull.map (o.verts.getD · d) = sides.flatten → sides.length = done.length →
      List.Forall₂ (fun i s => SideOf S (poly.getD (cornerBefore poly.length i) d) (poly.getD i d) s) done sides →
      ∃ o' sides', outlineLoop S poly d l o = some o' ∧ o'.verts.length ≤ 125 ∧ poly <+: o'.verts ∧
        o'.hull.Perm ((done ++ l).map (cornerBefore poly.length) ++ List.range' poly.length (o'.verts.length - poly.length)) ∧
        o'.hull.map (o'.verts.getD · d) = sides'.flatten ∧
        List.Forall₂ (fun i s => SideOf S (poly.getD (cornerBefore poly.length i) d) (poly.getD i d) s) (done ++ l) sides' := by
  intro l
  induction l with
  | nil =>
    intro done o sides _ hdn hdl hv hpre hh hs hsl hf
    rw [List.append_nil]
    exact ⟨o, sides, rfl, hv, hpre, hh, hs, hf⟩
  | cons i l ih =>
    intro done o sides hi hdn hdl hv hpre hh hs hsl hf
    have hil := hi i (List.mem_cons_self ..)
    have hvl := hpre.length_le
    have hhl := hh.length_eq
    simp only [List.length_append, List.length_map, List.length_range', List.length_cons] at hhl hdl
    obtain ⟨n, ks, n1, n2, k1, k2, k3, kc, k4⟩ := outlineEdge_spec S he hq (cornerBefore poly.length i) (poly.getD (cornerBefore poly.length i) d) (poly.getD i d) o hv
      (by omega)
    rw [outlineLoop]
    have hj : (if i = 0 then poly.length - 1 else i - 1) = cornerBefore poly.length i := rfl
    rw [hj, k4, Option.bind_some]
    generalize hnew : (if S.swap (poly.getD (cornerBefore poly.length i) d) (poly.getD i d) then
        (ks.map (S.pos (poly.getD i d) (poly.getD (cornerBefore poly.length i) d) n)).reverse
      else ks.map (S.pos (poly.getD (cornerBefore poly.length i) d) (poly.getD i d) n)) = new at k4 ⊢
    have hnl : new.length = ks.length := by
      rw [← hnew]
      cases S.swap (poly.getD (cornerBefore poly.length i) d) (poly.getD i d) <;> simp
    have hbl : cornerBefore poly.length i < poly.length := by unfold cornerBefore; split <;> omega
    have hhb : ∀ x ∈ o.hull, x < o.verts.length := by
      intro x hx
      rw [hh.mem_iff, List.mem_append, List.mem_map, List.mem_range'_1] at hx
      rcases hx with ⟨y, hy, rfl⟩ | hx
      · have := hdn y hy
        unfold cornerBefore; split <;> omega
      · omega
    have e : done ++ i :: l = (done ++ [i]) ++ l := by simp
    rw [e]
    apply ih (done ++ [i]) _ (sides ++ [poly.getD (cornerBefore poly.length i) d :: new])
    · intro x hx; exact hi x (List.mem_cons_of_mem _ hx)
    · intro x hx
      rcases List.mem_append.1 hx with hx | hx
      · exact hdn x hx
      · rw [List.mem_singleton.1 hx]; exact hil
    · simp only [List.length_append, List.length_cons, List.length_nil]; omega
    · simp only [List.length_append, hnl]; omega
    · exact hpre.trans (List.prefix_append _ _)
    · dsimp only
      rw [List.map_append, List.length_append, hnl]
      have hr : List.range' poly.length (o.verts.length + ks.length - poly.length) =
          List.range' poly.length (o.verts.length - poly.length) ++ List.range' o.verts.length ks.length := by
        have h1 : o.verts.length + ks.length - poly.length = (o.verts.length - poly.length) + ks.length := by omega
        have h2 : o.verts.length = poly.length + 1 * (o.verts.length - poly.length) := by omega
        rw [h1, ← List.range'_append (s := poly.length) (m := o.verts.length - poly.length) (n := ks.length) (step := 1), ← h2]
      rw [hr, List.map_cons, List.map_nil]
      refine (hh.append_right _).trans ?_
      rw [List.append_assoc, List.append_assoc]
      apply List.Perm.append_left
      exact List.perm_middle
    · dsimp only
      rw [List.map_append, List.map_cons, List.flatten_append]
      congr 1
      · rw [← hs]
        apply List.map_congr_left
        intro x hx
        exact getD_append_lt (hhb x hx)
      · simp only [List.flatten_cons, List.flatten_nil, List.append_nil]
        congr 1
        · rw [getD_append_lt (by omega)]
          obtain ⟨t, ht⟩ := hpre
          rw [← ht]
          exact getD_append_lt hbl
        · apply List.ext_getElem
          · simp [hnl]
          · intro m h1 h2
            simp only [List.length_map, List.length_range'] at h1
            simp only [List.getElem_map, List.getElem_range', Nat.one_mul, List.getD_eq_getElem?_getD]
            rw [List.getElem?_append_right (by omega), Nat.add_sub_cancel_left, List.getElem?_eq_getElem h2]
            rfl
    · simp [hsl]
    · refine List.rel_append hf (List.Forall₂.cons ⟨n, ks, n1, n2, k1, k2, kc, ?_⟩ .nil)
      rw [hnew]

/-- **C101**: a polygon of at most 125 corners is sampled without leaving any buffer: there are at most 125 vertices, the
first being the corners; the hull lists every vertex once; and walked in order it shows the corners in polygon order, with
between two of them samples of that edge only, in order along the edge. (Assumed: `floor(d / sampleDist)` fits `int32` and is
not negative.) -/
theorem outline_spec (S : Sampler P K) (he : 0 ≤ S.err) (hq : ∀ a b, 0 ≤ S.quot a b) (poly : List P) (d : P) (hn : poly.length ≤ 125) :
    ∃ o sides, outline S true poly d = some o ∧ o.verts.length ≤ 125 ∧ poly <+: o.verts ∧ o.hull.Perm (List.range o.verts.length) ∧
      o.hull.map (o.verts.getD · d) = sides.flatten ∧
      List.Forall₂ (fun i s => SideOf S (poly.getD (cornerBefore poly.length i) d) (poly.getD i d) s) (List.range poly.length) sides := by
  obtain ⟨o, sides, h1, h2, h3, h4, h5, h6⟩ := outlineLoop_spec S he hq poly d (List.range poly.length) [] ⟨poly, []⟩ []
    (fun i hi => List.mem_range.1 hi) (by simp) (by simp) hn (List.prefix_refl _) (by simp) rfl rfl .nil
  refine ⟨o, sides, h1, h2, h3, ?_, h5, h6⟩
  rw [List.nil_append] at h4
  refine h4.trans ((cornerBefore_perm.append_right _).trans ?_)
  have hl := h3.length_le
  have e : o.verts.length = poly.length + (o.verts.length - poly.length) := by omega
  conv_rhs => rw [e, List.range_eq_range']
  rw [List.range_eq_range']
  have := List.range'_append (s := 0) (m := poly.length) (n := o.verts.length - poly.length) (step := 1)
  simp only [Nat.zero_add, Nat.one_mul] at this
  rw [this]

/-- **C101** (the limit of the budget): a vertex total of 127 or more before an edge makes the number of pieces negative
and the code panic. -/
theorem edge_over_budget (S : Sampler P K) (j : Nat) (vj vi : P) (o : Outline P) (hv : 127 ≤ o.verts.length) (hq : ∀ a b, 0 ≤ S.quot a b) :
    outlineEdge S j vj vi o = none := by
  unfold outlineEdge edgePoints
  dsimp only
  rw [if_pos]
  · rfl
  · have := hq (if S.swap vj vi then vi else vj) (if S.swap vj vi then vj else vi)
    unfold pieces
    dsimp only
    split <;> split <;> omega

/-! ## Shared edges -/

/-- **C102**: two polygons that share an edge, walk it in opposite directions and read the same heights along it get the
same vertices on it, in opposite order, as long as neither has more than 95 vertices when it comes to that edge. -/
theorem seam_partial (S : Sampler P K) (p q : P) (hs : S.swap q p = !S.swap p q) {n1 n2 : Nat} (h1 : n1 ≤ 95) (h2 : n2 ≤ 95) :
    let a := if S.swap p q then q else p
    let b := if S.swap p q then p else q
    edgePoints S q p (pieces n1 (S.quot a b)) = (edgePoints S p q (pieces n2 (S.quot a b))).map List.reverse := by
  intro a b
  have hp : pieces n1 (S.quot a b) = pieces n2 (S.quot a b) := by
    unfold pieces
    dsimp only
    split <;> split <;> split <;> omega
  rw [hp]
  generalize pieces n2 (S.quot a b) = z
  unfold edgePoints
  rw [hs]
  split
  · rfl
  · cases S.swap p q with
    | true => dsimp only [Bool.not_true, if_true]; simp [Option.map_map, Function.comp_def]
    | false => dsimp only [Bool.not_false, if_true]; simp [Option.map_map, Function.comp_def]

end

/-- The order test (recast/meshdetail.go:844-856), on x and z, in exact arithmetic. -/
def swapped {F : Type} [_root_.Field F] [LinearOrder F] (eps : F) (vj vi : F × F) : Bool :=
  if |vj.1 - vi.1| < eps then decide (vj.2 > vi.2) else decide (vj.1 > vi.1)

/-- **C102**: the order test tells the two directions of an edge apart, except for ends with the same z whose x differ by
less than `1e-6`. -/
theorem swapped_opposite {F : Type} [_root_.Field F] [LinearOrder F] [IsStrictOrderedRing F] {eps : F} (he : 0 < eps) (p q : F × F)
    (h : eps ≤ |p.1 - q.1| ∨ p.2 ≠ q.2) : swapped eps q p = !swapped eps p q := by
  unfold swapped
  rw [abs_sub_comm q.1 p.1]
  by_cases hx : |p.1 - q.1| < eps
  · rw [if_pos hx, if_pos hx]
    have hz : p.2 ≠ q.2 := h.resolve_left (not_le.2 hx)
    rcases lt_or_gt_of_ne hz with hl | hl
    · simp [hl, not_lt.2 (le_of_lt hl)]
    · simp [hl, not_lt.2 (le_of_lt hl)]
  · rw [if_neg hx, if_neg hx]
    have hne : p.1 ≠ q.1 := by
      intro e
      rw [e, sub_self, abs_zero] at hx
      exact hx he
    rcases lt_or_gt_of_ne hne with hl | hl
    · simp [hl, not_lt.2 (le_of_lt hl)]
    · simp [hl, not_lt.2 (le_of_lt hl)]

/-- A sampler that keeps every sample: points are lists of numbers, a corner `[i]`, sample `k` of `n` from `a` to `b` is
`[a, b, n, k]`; all edges are long. -/
def keepAll : Sampler (List Nat) Nat where
  swap p q := decide (p.headD 0 > q.headD 0)
  quot _ _ := 40
  pos a b n k := [a.headD 0, b.headD 0, n, k]
  dev _ _ _ := 1
  err := 0

/-- **C102** (refuted in general): the vertex budget makes seams. The hexagon 0-5 and the triangle 2, 7, 3 share the edge
between 2 and 3 and see the same heights; the hexagon has 96 vertices when it comes to that edge and cuts it into 30 pieces,
the triangle cuts it into 31. -/
theorem seam_refuted :
    ∃ o1 o2 : Outline (List Nat), outline keepAll true [[0], [1], [2], [3], [4], [5]] [] = some o1 ∧
      outline keepAll true [[2], [7], [3]] [] = some o2 ∧
      [2, 3, 30, 1] ∈ o1.verts ∧ [2, 3, 31, 1] ∉ o1.verts ∧ [2, 3, 31, 1] ∈ o2.verts ∧ [2, 3, 30, 1] ∉ o2.verts := by
  have h : ((outline keepAll true [[0], [1], [2], [3], [4], [5]] []).any fun o1 =>
      (outline keepAll true [[2], [7], [3]] []).any fun o2 =>
        decide ([2, 3, 30, 1] ∈ o1.verts ∧ [2, 3, 31, 1] ∉ o1.verts ∧ [2, 3, 31, 1] ∈ o2.verts ∧ [2, 3, 30, 1] ∉ o2.verts)) = true := by
    decide +kernel
  cases h1 : outline keepAll true [[0], [1], [2], [3], [4], [5]] [] with
  | none => rw [h1] at h; cases h
  | some o1 =>
    cases h2 : outline keepAll true [[2], [7], [3]] [] with
    | none => rw [h1, h2] at h; cases h
    | some o2 =>
      rw [h1, h2] at h
      exact ⟨o1, o2, rfl, rfl, of_decide_eq_true h⟩

/-! ## The first triangulation -/

section
variable {P K : Type} [Zero K] [LinearOrder K]

/-- **C64**: with a positive sample distance the first triangulation of a polygon of 3 to 125 corners succeeds: it has two
triangles less than there are vertices, and their corners are vertices. -/
theorem detail_base (S : Sampler P K) (he : 0 ≤ S.err) (hq : ∀ a b, 0 ≤ S.quot a b) (peri : Nat → K) (sel : Nat → Nat → Bool)
    (poly : List P) (d : P) (h3 : 3 ≤ poly.length) (hn : poly.length ≤ 125) :
    ∃ o ts, detailBase S true peri sel poly d = some (o, ts) ∧ o.verts.length ≤ 125 ∧ ts.length = o.verts.length - 2 ∧
      ∀ t ∈ ts, t.1 < o.verts.length ∧ t.2.1 < o.verts.length ∧ t.2.2 < o.verts.length ∧ t.1 ≠ t.2.1 ∧ t.2.1 ≠ t.2.2 ∧ t.2.2 ≠ t.1 := by
  obtain ⟨o, sides, h1, h2, hp, hh, -, -⟩ := outline_spec S he hq poly d hn
  have hl := hh.length_eq
  rw [List.length_range] at hl
  have hv := hp.length_le
  obtain ⟨ts, t1, t2, t3, -⟩ := hull_spec (A := Int) peri sel (n := o.hull.length) (by omega) (f := fun _ _ => 0) (by simp)
  refine ⟨o, _, by rw [detailBase, h1, Option.bind_some, t1, Option.map_some], h2, by simp [t2, hl], ?_⟩
  intro t ht
  obtain ⟨u, hu, rfl⟩ := List.mem_map.1 ht
  obtain ⟨b1, b2, b3, ho⟩ := t3 u hu
  have hg : ∀ i, i < o.hull.length → o.hull.getD i 0 < o.verts.length := by
    intro i hi
    rw [← List.mem_range, ← hh.mem_iff, List.getD_eq_getElem?_getD, List.getElem?_eq_getElem hi, Option.getD_some]
    exact List.getElem_mem hi
  have hnd : o.hull.Nodup := hh.nodup_iff.2 List.nodup_range
  have hi : ∀ i j, i < o.hull.length → j < o.hull.length → i ≠ j → o.hull.getD i 0 ≠ o.hull.getD j 0 := by
    intro i j hi hj hne h
    rw [List.getD_eq_getElem?_getD, List.getElem?_eq_getElem hi, Option.getD_some, List.getD_eq_getElem?_getD,
      List.getElem?_eq_getElem hj, Option.getD_some] at h
    exact hne ((List.Nodup.getElem_inj_iff hnd).1 h)
  unfold InOrder at ho
  exact ⟨hg _ b1, hg _ b2, hg _ b3, hi _ _ b1 b2 (by omega), hi _ _ b2 b3 (by omega), hi _ _ b3 b1 (by omega)⟩

/-- **C100** (refuted): the documentation allows a sample distance of 0, but then the hull is never filled and the
triangulation panics, for every polygon. -/
theorem zero_sample_refuted (S : Sampler P K) (peri : Nat → K) (sel : Nat → Nat → Bool) (poly : List P) (d : P) :
    detailBase S false peri sel poly d = none := rfl

end

example : (detailBase keepAll true (fun _ => 0) (fun _ _ => true) [[0], [1], [2]] []).map (fun r => (r.1.verts.length, r.2.length)) = some (93, 91) := by
  decide +kernel

end Verif.Recast
