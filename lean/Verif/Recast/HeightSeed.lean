/-
The seed of the heights of a polygon: `seedArrayWithPolyCenter` (recast/meshdetail.go:1053-1192).

Simplifications: the polygon is the list of the corners of its vertices `(x, y, z)`, so reading `verts[poly[j]*3]` is left out (see
`detail_corner_refuted` for that product); numbers are unbounded. The stack holds the cell of the patch and the span.
-/
import Verif.Recast.HeightData
import Mathlib.Tactic.Ring

namespace Verif.Recast
open Verif Verif.Detour

set_option linter.unusedSimpArgs false
set_option linter.unusedVariables false

/-- `bsOffset` (recast/meshdetail.go:1050). -/
def nearOffsets : List (Int × Int) := [(0, 0), (-1, -1), (0, -1), (1, -1), (1, 0), (1, 1), (0, 1), (-1, 1), (-1, 0)]

/-- The cell of the patch beside a vertex (recast/meshdetail.go:1066-1072). -/
def nearCell (B : PatchBox) (v : Nat × Nat × Nat) (k : Int × Int) : Option (Nat × Nat) :=
  if ((v.1 : Int) + k.1 < B.xmin ∨ (v.1 : Int) + k.1 ≥ B.xmin + B.w) ∨ (v.2.2 : Int) + k.2 < B.ymin ∨ (v.2.2 : Int) + k.2 ≥ B.ymin + B.h then none
  else some (((v.1 : Int) + k.1 - B.xmin).toNat, ((v.2.2 : Int) + k.2 - B.ymin).toNat)

/-- The spans looked at, each with its distance in height, in the order of the loops (recast/meshdetail.go:1064-1076). The loops stop at
distance 0, after which nothing would be taken anyway. -/
def nearCands (c : Chf) (ys : Nat → Nat) (bs : Nat) (B : PatchBox) (verts : List (Nat × Nat × Nat)) : List (((Nat × Nat) × Nat) × Nat) :=
  verts.flatMap fun v => nearOffsets.flatMap fun k => match nearCell B v k with
    | none => []
    | some p => (List.range (c.cells ((B.field bs p).1 + (B.field bs p).2 * c.w)).count).map fun n =>
        let i := (c.cells ((B.field bs p).1 + (B.field bs p).2 * c.w)).index + n
        ((p, i), ((v.2.1 : Int) - ys i).natAbs)

/-- Taking the nearer one (recast/meshdetail.go:1077-1082). -/
def takeNear (best : Option ((Nat × Nat) × Nat) × Nat) (u : ((Nat × Nat) × Nat) × Nat) : Option ((Nat × Nat) × Nat) × Nat :=
  if u.2 < best.2 then (some u.1, u.2) else best

/-- The start (recast/meshdetail.go:1058-1085). -/
def nearStart (c : Chf) (ys : Nat → Nat) (bs : Nat) (B : PatchBox) (verts : List (Nat × Nat × Nat)) : Option ((Nat × Nat) × Nat) :=
  ((nearCands c ys bs B verts).foldl takeNear (none, 65535)).1

/-- The centre of the polygon (recast/meshdetail.go:1091-1098). -/
def polyCentre (verts : List (Nat × Nat × Nat)) : Nat × Nat :=
  ((verts.map fun v => v.1).sum / verts.length, (verts.map fun v => v.2.2).sum / verts.length)

/-- The direction towards the centre (recast/meshdetail.go:1130-1148): `GetDirForOffset` gives 0 for -x, 1 for +y, 2 for +x, 3 for -y
(recast/recast.go:229, 289-291). -/
def directDir (centre cur : Nat × Nat) : Nat :=
  if cur.1 = centre.1 then (if cur.2 < centre.2 then 1 else 3) else (if cur.1 < centre.1 then 2 else 0)

/-- The directions with the direct one last (recast/meshdetail.go:1103, 1152, 1181). -/
def dirOrder (dd : Nat) : List Nat := [0, 1, 2, 3].map fun k => if k = dd then 3 else if k = 3 then dd else k

/-- One direction (recast/meshdetail.go:1156-1178): the cells in `marks` hold 1. The head of the list is the top of the stack. -/
def dfsDir (c : Chf) (bs : Nat) (B : PatchBox) (u : (Nat × Nat) × Nat) (st : (Nat × Nat → Nat) × List ((Nat × Nat) × Nat)) (d : Nat) :
    (Nat × Nat → Nat) × List ((Nat × Nat) × Nat) :=
  match c.nb (B.field bs u.1).1 (B.field bs u.1).2 u.2 d with
  | none => st
  | some n => match B.cell bs n.1.1 n.1.2 with
    | none => st
    | some q => if st.1 q ≠ 0 then st else (setCell st.1 q 1, (q, n.2) :: st.2)

/-- The walk to the centre (recast/meshdetail.go:1115-1182); `last` is what was popped last, the first argument bounds the rounds. -/
def dfsLoop (c : Chf) (bs : Nat) (B : PatchBox) (centre : Nat × Nat) : Nat → (Nat × Nat → Nat) → List ((Nat × Nat) × Nat) → (Nat × Nat) × Nat → Option ((Nat × Nat) × Nat)
  | _, _, [], last => some last
  | 0, _, _ :: _, _ => none
  | fuel + 1, marks, u :: us, last =>
    if (B.xmin + u.1.1, B.ymin + u.1.2) = centre then some u else
      let st := (dirOrder (directDir centre (B.xmin + u.1.1, B.ymin + u.1.2))).foldl (dfsDir c bs B u) (marks, us)
      dfsLoop c bs B centre fuel st.1 st.2 u

/-- `seedArrayWithPolyCenter` (recast/meshdetail.go:1053-1192): the cell and the span of the seed, or `none` for the panic at 1087-1089.
The bound on the rounds suffices, see `seedCenter_none`. -/
def seedCenter (c : Chf) (ys : Nat → Nat) (bs : Nat) (B : PatchBox) (verts : List (Nat × Nat × Nat)) : Option ((Nat × Nat) × Nat) :=
  (nearStart c ys bs B verts).bind fun s => dfsLoop c bs B (polyCentre verts) (B.w * B.h + 1) (fun _ => 0) [s] s

/-! ## The start -/

/-- Spec: the span `i` of the patch cell `p` is in a cell at or beside the vertex `v`. -/
def Beside (c : Chf) (bs : Nat) (B : PatchBox) (v : Nat × Nat × Nat) (p : Nat × Nat) (i : Nat) : Prop :=
  p.1 < B.w ∧ p.2 < B.h ∧ c.At (B.xmin + p.1 + bs) (B.ymin + p.2 + bs) i ∧ (B.xmin + p.1 ≤ v.1 + 1 ∧ v.1 ≤ B.xmin + p.1 + 1) ∧
    (B.ymin + p.2 ≤ v.2.2 + 1 ∧ v.2.2 ≤ B.ymin + p.2 + 1)

theorem mem_nearOffsets (k : Int × Int) : k ∈ nearOffsets ↔ (-1 ≤ k.1 ∧ k.1 ≤ 1) ∧ (-1 ≤ k.2 ∧ k.2 ≤ 1) := by
  obtain ⟨a, b⟩ := k
  simp only [nearOffsets, List.mem_cons, Prod.mk.injEq, List.not_mem_nil, or_false]
  omega

theorem mem_nearCands {c : Chf} {ys : Nat → Nat} {bs : Nat} {B : PatchBox} (hin : B.Inside c bs) {verts : List (Nat × Nat × Nat)}
    {u : ((Nat × Nat) × Nat) × Nat} : u ∈ nearCands c ys bs B verts ↔
      ∃ v ∈ verts, Beside c bs B v u.1.1 u.1.2 ∧ u.2 = ((v.2.1 : Int) - ys u.1.2).natAbs := by
  obtain ⟨⟨p, i⟩, dd⟩ := u
  unfold nearCands
  simp only [List.mem_flatMap]
  constructor
  · rintro ⟨v, hv, k, hk, h⟩
    refine ⟨v, hv, ?_⟩
    rw [mem_nearOffsets] at hk
    unfold nearCell at h
    split at h
    · cases h
    · rename_i p' he
      split at he
      · cases he
      · rename_i hno
        cases he
        simp only [List.mem_map, List.mem_range, Prod.mk.injEq] at h
        obtain ⟨n, hn, ⟨h1, h2⟩, h3⟩ := h
        obtain ⟨p1, p2⟩ := p
        rw [Prod.mk.injEq] at h1
        have b1 : p1 < B.w := by omega
        have b2 : p2 < B.h := by omega
        obtain ⟨f1, f2⟩ := hin.field (p := (p1, p2)) b1 b2
        rw [h1.1, h1.2] at hn h2 h3
        rw [h2] at h3
        refine ⟨⟨b1, b2, ⟨f1, f2, ?_, ?_⟩, by omega, by omega⟩, h3.symm⟩
        · simp only [PatchBox.field] at h2 ⊢; omega
        · simp only [PatchBox.field] at h2 hn ⊢; omega
  · rintro ⟨v, hv, ⟨b1, b2, hat, b3, b4⟩, hd⟩
    obtain ⟨p1, p2⟩ := p
    simp only at b1 b2 b3 b4 hat hd
    refine ⟨v, hv, ((B.xmin : Int) + p1 - v.1, (B.ymin : Int) + p2 - v.2.2), (mem_nearOffsets _).2 (by simp only; omega), ?_⟩
    have hc : nearCell B v ((B.xmin : Int) + p1 - v.1, (B.ymin : Int) + p2 - v.2.2) = some (p1, p2) := by
      unfold nearCell
      rw [if_neg (by simp only; omega)]
      simp only [Option.some.injEq, Prod.mk.injEq]
      omega
    rw [hc]
    simp only [List.mem_map, List.mem_range, Prod.mk.injEq, true_and, PatchBox.field]
    obtain ⟨_, _, h3, h4⟩ := hat
    refine ⟨i - (c.cells (B.xmin + p1 + bs + (B.ymin + p2 + bs) * c.w)).index, by omega, by omega, ?_⟩
    rw [show (c.cells (B.xmin + p1 + bs + (B.ymin + p2 + bs) * c.w)).index + (i - (c.cells (B.xmin + p1 + bs + (B.ymin + p2 + bs) * c.w)).index) = i by omega]
    exact hd.symm

theorem takeNear_spec (l : List (((Nat × Nat) × Nat) × Nat)) (b : Option ((Nat × Nat) × Nat) × Nat) :
    (l.foldl takeNear b = b ∨ ∃ u ∈ l, l.foldl takeNear b = (some u.1, u.2) ∧ u.2 < b.2) ∧ (l.foldl takeNear b).2 ≤ b.2 ∧
      ∀ u ∈ l, (l.foldl takeNear b).2 ≤ u.2 := by
  induction l generalizing b with
  | nil => simp
  | cons a l ih =>
    rw [List.foldl_cons]
    obtain ⟨h1, h2, h3⟩ := ih (takeNear b a)
    have hle : (takeNear b a).2 ≤ b.2 ∧ (takeNear b a).2 ≤ a.2 := by
      unfold takeNear
      split
      · constructor
        · simp only; omega
        · simp
      · constructor
        · exact le_refl _
        · omega
    refine ⟨?_, by omega, ?_⟩
    · rcases h1 with h1 | ⟨u, hu, e1, e2⟩
      · rw [h1]
        unfold takeNear
        split
        · exact .inr ⟨a, by simp, rfl, by assumption⟩
        · exact .inl rfl
      · exact .inr ⟨u, by simp [hu], e1, by omega⟩
    · intro u hu
      rcases List.mem_cons.1 hu with rfl | hu
      · omega
      · exact h3 u hu

/-- Spec: the span `s` is beside a vertex, and no span beside any vertex is nearer in height to its vertex. -/
def Nearest (c : Chf) (ys : Nat → Nat) (bs : Nat) (B : PatchBox) (verts : List (Nat × Nat × Nat)) (s : (Nat × Nat) × Nat) : Prop :=
  ∃ v ∈ verts, Beside c bs B v s.1 s.2 ∧ ∀ v' ∈ verts, ∀ p i, Beside c bs B v' p i →
    ((v.2.1 : Int) - ys s.2).natAbs ≤ ((v'.2.1 : Int) - ys i).natAbs

theorem nearStart_spec {c : Chf} {ys : Nat → Nat} {bs : Nat} {B : PatchBox} (hin : B.Inside c bs) (verts : List (Nat × Nat × Nat)) :
    match nearStart c ys bs B verts with
    | none => ∀ v ∈ verts, ∀ p i, Beside c bs B v p i → 65535 ≤ ((v.2.1 : Int) - ys i).natAbs
    | some s => Nearest c ys bs B verts s := by
  unfold nearStart
  obtain ⟨h1, h2, h3⟩ := takeNear_spec (nearCands c ys bs B verts) (none, 65535)
  rcases h1 with h1 | ⟨u, hu, e1, e2⟩
  · rw [h1] at h3 ⊢
    simp only
    intro v hv p i hb
    exact h3 ((p, i), ((v.2.1 : Int) - ys i).natAbs) ((mem_nearCands hin).2 ⟨v, hv, hb, rfl⟩)
  · rw [e1] at h3 ⊢
    simp only
    obtain ⟨v, hv, hb, hd⟩ := (mem_nearCands hin).1 hu
    refine ⟨v, hv, hb, ?_⟩
    intro v' hv' p i hb'
    have := h3 ((p, i), ((v'.2.1 : Int) - ys i).natAbs) ((mem_nearCands hin).2 ⟨v', hv', hb', rfl⟩)
    rw [← hd]
    exact this

/-! ## The walk -/

theorem mem_dirOrder {dd d : Nat} (hdd : dd < 4) : d ∈ dirOrder dd ↔ d < 4 := by
  have : dd = 0 ∨ dd = 1 ∨ dd = 2 ∨ dd = 3 := by omega
  rcases this with rfl | rfl | rfl | rfl <;> simp [dirOrder] <;> omega

theorem directDir_lt (centre cur : Nat × Nat) : directDir centre cur < 4 := by
  unfold directDir
  split <;> split <;> omega

/-- What holds of the spans on the stack and the ones popped. -/
structure DInv (c : Chf) (bs : Nat) (B : PatchBox) (s : (Nat × Nat) × Nat) (marks : Nat × Nat → Nat) (stack seen : List ((Nat × Nat) × Nat)) : Prop where
  ok : ∀ u ∈ stack ++ seen, (u.1.1 < B.w ∧ u.1.2 < B.h) ∧ c.At (B.field bs u.1).1 (B.field bs u.1).2 u.2 ∧ GrownFrom c bs B (fun i => i = s.2) u.2
  mark : ∀ q, marks q ≠ 0 → ∃ k, (q, k) ∈ stack ++ seen
  start : s ∈ stack ++ seen

/-- The cells next to `u` in direction `d` are marked. -/
def MarkedAt (c : Chf) (bs : Nat) (B : PatchBox) (marks : Nat × Nat → Nat) (u : (Nat × Nat) × Nat) (d : Nat) : Prop :=
  ∀ n, c.nb (B.field bs u.1).1 (B.field bs u.1).2 u.2 d = some n → ∀ q, B.cell bs n.1.1 n.1.2 = some q → marks q ≠ 0

/-- The number of cells without mark. -/
def unmarked (B : PatchBox) (marks : Nat × Nat → Nat) : Nat := B.cells.countP fun p => marks p == 0

theorem dfsDir_spec {c : Chf} (hc : c.Wf) {bs : Nat} {B : PatchBox} {s : (Nat × Nat) × Nat} {st : (Nat × Nat → Nat) × List ((Nat × Nat) × Nat)}
    {seen : List ((Nat × Nat) × Nat)} (h : DInv c bs B s st.1 st.2 seen) {u : (Nat × Nat) × Nat} (hu : u ∈ seen) {d : Nat} (hd : d < 4) :
    DInv c bs B s (dfsDir c bs B u st d).1 (dfsDir c bs B u st d).2 seen ∧ (∀ q, st.1 q ≠ 0 → (dfsDir c bs B u st d).1 q ≠ 0) ∧
      MarkedAt c bs B (dfsDir c bs B u st d).1 u d ∧
      (dfsDir c bs B u st d).2.length + unmarked B (dfsDir c bs B u st d).1 ≤ st.2.length + unmarked B st.1 := by
  obtain ⟨-, hat, hg⟩ := h.ok u (List.mem_append_right _ hu)
  have hsame : MarkedAt c bs B st.1 u d → DInv c bs B s st.1 st.2 seen ∧ (∀ q, st.1 q ≠ 0 → st.1 q ≠ 0) ∧ MarkedAt c bs B st.1 u d ∧
      st.2.length + unmarked B st.1 ≤ st.2.length + unmarked B st.1 := fun hm => ⟨h, fun _ => id, hm, le_refl _⟩
  unfold dfsDir
  cases hn : c.nb (B.field bs u.1).1 (B.field bs u.1).2 u.2 d with
  | none => exact hsame fun n hn' => by rw [hn] at hn'; cases hn'
  | some n =>
    simp only
    obtain ⟨n1, n2, n3, n4⟩ := hc.nb_some hat hd (show c.nb _ _ u.2 d = some (n.1, n.2) from hn)
    cases hq : B.cell bs n.1.1 n.1.2 with
    | none =>
      refine hsame fun n' hn' q hq' => ?_
      rw [hn] at hn'
      cases hn'
      rw [hq] at hq'
      cases hq'
    | some q =>
      simp only
      obtain ⟨q1, q2, q3⟩ := (B.cell_iff bs n.1.1 n.1.2 q).1 hq
      by_cases hset : st.1 q ≠ 0
      · rw [if_pos hset]
        refine hsame fun n' hn' q' hq' => ?_
        rw [hn] at hn'
        cases hn'
        rw [hq] at hq'
        cases hq'
        exact hset
      · rw [if_neg hset]
        have hset' : st.1 q = 0 := not_not.1 hset
        have hatq : c.At (B.field bs q).1 (B.field bs q).2 n.2 := by rw [q1]; exact n1
        refine ⟨⟨?_, ?_, ?_⟩, ?_, ?_, ?_⟩
        · intro w hw
          simp only [List.cons_append] at hw
          rcases List.mem_cons.1 hw with rfl | hw
          · exact ⟨⟨q2, q3⟩, hatq, .step hg hd n4 (PatchBox.over q2 q3 hatq)⟩
          · exact h.ok w hw
        · intro q' hq'
          unfold setCell at hq'
          by_cases he : q' = q
          · subst he; exact ⟨n.2, by simp⟩
          · simp only [he, if_false] at hq'
            obtain ⟨k, hk⟩ := h.mark q' hq'
            exact ⟨k, by simp only [List.cons_append]; exact List.mem_cons_of_mem _ hk⟩
        · simp only [List.cons_append]
          exact List.mem_cons_of_mem _ h.start
        · intro q' hq'
          unfold setCell
          by_cases he : q' = q
          · simp [he]
          · simpa [he] using hq'
        · intro n' hn' q' hq'
          rw [hn] at hn'
          cases hn'
          rw [hq] at hq'
          cases hq'
          unfold setCell
          simp
        · have hlt := countP_less (fun p => st.1 p == 0) (fun p => setCell st.1 q 1 p == 0) B.cells (by
              intro x _ hx
              unfold setCell at hx
              by_cases hxq : x = q
              · subst hxq; simp [hset']
              · simpa [hxq] using hx) ((B.mem_cells q).2 ⟨q2, q3⟩) (by simp [hset']) (by unfold setCell; simp)
          unfold unmarked
          simp only [List.length_cons]
          omega

theorem dfsDirs_spec {c : Chf} (hc : c.Wf) {bs : Nat} {B : PatchBox} {s : (Nat × Nat) × Nat} (ds : List Nat) (hds : ∀ d ∈ ds, d < 4)
    {st : (Nat × Nat → Nat) × List ((Nat × Nat) × Nat)} {seen : List ((Nat × Nat) × Nat)} (h : DInv c bs B s st.1 st.2 seen)
    {u : (Nat × Nat) × Nat} (hu : u ∈ seen) :
    DInv c bs B s (ds.foldl (dfsDir c bs B u) st).1 (ds.foldl (dfsDir c bs B u) st).2 seen ∧ (∀ q, st.1 q ≠ 0 → (ds.foldl (dfsDir c bs B u) st).1 q ≠ 0) ∧
      (∀ d ∈ ds, MarkedAt c bs B (ds.foldl (dfsDir c bs B u) st).1 u d) ∧
      (ds.foldl (dfsDir c bs B u) st).2.length + unmarked B (ds.foldl (dfsDir c bs B u) st).1 ≤ st.2.length + unmarked B st.1 := by
  induction ds generalizing st with
  | nil => exact ⟨h, fun _ => id, by simp, le_refl _⟩
  | cons d ds ih =>
    rw [List.foldl_cons]
    obtain ⟨a1, a2, a3, a4⟩ := dfsDir_spec hc h hu (hds d (by simp))
    obtain ⟨b1, b2, b3, b4⟩ := ih (fun d' hd' => hds d' (by simp [hd'])) a1
    refine ⟨b1, fun q hq => b2 q (a2 q hq), ?_, le_trans b4 a4⟩
    intro d' hd'
    rcases List.mem_cons.1 hd' with rfl | hd'
    · exact fun n hn q hq => b2 q (a3 n hn q hq)
    · exact b3 d' hd'

/-- Spec: the spans `seen` with their patch cells are reached from `s` inside the patch, they include `s`, none is over the centre, and
every cell of the patch next to one of them over a connection has one of them. -/
structure Stuck (c : Chf) (bs : Nat) (B : PatchBox) (centre : Nat × Nat) (s : (Nat × Nat) × Nat) (seen : List ((Nat × Nat) × Nat)) : Prop where
  start : s ∈ seen
  away : ∀ u ∈ seen, (B.xmin + u.1.1, B.ymin + u.1.2) ≠ centre
  at_ : ∀ u ∈ seen, c.At (B.xmin + u.1.1 + bs) (B.ymin + u.1.2 + bs) u.2
  closed : ∀ u ∈ seen, ∀ d < 4, ∀ j, c.Nb u.2 d j → ∀ q : Nat × Nat, q.1 < B.w → q.2 < B.h → c.At (B.xmin + q.1 + bs) (B.ymin + q.2 + bs) j →
    ∃ k, (q, k) ∈ seen

theorem dfsLoop_spec {c : Chf} (hc : c.Wf) {bs : Nat} {B : PatchBox} {centre : Nat × Nat} {s : (Nat × Nat) × Nat} (fuel : Nat)
    {marks : Nat × Nat → Nat} {stack seen : List ((Nat × Nat) × Nat)} (h : DInv c bs B s marks stack seen)
    (haway : ∀ u ∈ seen, (B.xmin + u.1.1, B.ymin + u.1.2) ≠ centre) (hcl : ∀ u ∈ seen, ∀ d < 4, MarkedAt c bs B marks u d)
    {last : (Nat × Nat) × Nat} (hl : seen ≠ [] → last ∈ seen) (hf : stack.length + unmarked B marks ≤ fuel) :
    ∃ u, dfsLoop c bs B centre fuel marks stack last = some u ∧ (u.1.1 < B.w ∧ u.1.2 < B.h) ∧ c.At (B.field bs u.1).1 (B.field bs u.1).2 u.2 ∧
      GrownFrom c bs B (fun i => i = s.2) u.2 ∧ ((B.xmin + u.1.1, B.ymin + u.1.2) = centre ∨ ∃ seen, Stuck c bs B centre s seen ∧ u ∈ seen) := by
  have hdone : ∀ {seen : List ((Nat × Nat) × Nat)} {marks : Nat × Nat → Nat} {last : (Nat × Nat) × Nat}, DInv c bs B s marks [] seen → (∀ u ∈ seen, (B.xmin + u.1.1, B.ymin + u.1.2) ≠ centre) →
      (∀ u ∈ seen, ∀ d < 4, MarkedAt c bs B marks u d) → (seen ≠ [] → last ∈ seen) → (last.1.1 < B.w ∧ last.1.2 < B.h) ∧ c.At (B.field bs last.1).1 (B.field bs last.1).2 last.2 ∧
      GrownFrom c bs B (fun i => i = s.2) last.2 ∧ ((B.xmin + last.1.1, B.ymin + last.1.2) = centre ∨ ∃ seen, Stuck c bs B centre s seen ∧ last ∈ seen) := by
    intro seen marks last h haway hcl hl
    have hs : s ∈ seen := by simpa using h.start
    have hm : last ∈ seen := hl (List.ne_nil_of_mem hs)
    obtain ⟨a1, a2, a3⟩ := h.ok last (by simpa using hm)
    refine ⟨a1, a2, a3, .inr ⟨seen, ⟨hs, haway, fun u hu => (h.ok u (by simpa using hu)).2.1, ?_⟩, hm⟩⟩
    intro u hu d hd j hn q hq1 hq2 hj
    obtain ⟨-, hat, -⟩ := h.ok u (by simpa using hu)
    obtain ⟨p, hp⟩ := (hc.nb_iff hat hd j).1 hn
    obtain ⟨b1, -⟩ := hc.nb_some hat hd hp
    obtain ⟨e1, e2⟩ := hc.unique _ _ _ _ _ b1 hj
    have := hcl u hu d hd (p, j) hp q ((B.cell_iff bs _ _ _).2 ⟨by simp [PatchBox.field, e1, e2], hq1, hq2⟩)
    simpa using h.mark q this
  induction fuel generalizing marks stack seen last with
  | zero =>
    cases stack with
    | nil => exact ⟨last, by rw [dfsLoop], hdone h haway hcl hl⟩
    | cons u us => simp at hf
  | succ fuel ih =>
    cases stack with
    | nil => exact ⟨last, by rw [dfsLoop], hdone h haway hcl hl⟩
    | cons u us =>
      rw [dfsLoop]
      by_cases hcen : (B.xmin + u.1.1, B.ymin + u.1.2) = centre
      · rw [if_pos hcen]
        obtain ⟨a1, a2, a3⟩ := h.ok u (by simp)
        exact ⟨u, rfl, a1, a2, a3, .inl hcen⟩
      · rw [if_neg hcen]
        simp only
        have hmem : ∀ w, w ∈ (u :: us) ++ seen ↔ w ∈ us ++ u :: seen := by
          intro w
          simp only [List.cons_append, List.mem_cons, List.mem_append]
          tauto
        have h' : DInv c bs B s marks us (u :: seen) :=
          ⟨fun w hw => h.ok w ((hmem w).2 hw), fun q hq => (h.mark q hq).imp fun k hk => (hmem _).1 hk, (hmem _).1 h.start⟩
        have hdd := directDir_lt centre (B.xmin + u.1.1, B.ymin + u.1.2)
        obtain ⟨a1, a2, a3, a4⟩ := dfsDirs_spec hc (dirOrder (directDir centre (B.xmin + u.1.1, B.ymin + u.1.2))) (fun d hd => (mem_dirOrder hdd).1 hd)
          (st := (marks, us)) h' (u := u) (by simp)
        have a3' : ∀ d < 4, MarkedAt c bs B _ u d := fun d hd => a3 d ((mem_dirOrder hdd).2 hd)
        generalize (dirOrder (directDir centre (B.xmin + u.1.1, B.ymin + u.1.2))).foldl (dfsDir c bs B u) (marks, us) = st at a1 a2 a3' a4 ⊢
        refine ih a1 ?_ ?_ (fun _ => by simp) (by simp only [List.length_cons] at hf a4; omega)
        · intro w hw
          rcases List.mem_cons.1 hw with rfl | hw
          · exact hcen
          · exact haway w hw
        · intro w hw d hd
          rcases List.mem_cons.1 hw with rfl | hw
          · exact a3' d hd
          · exact fun n hn q hq => a2 q (hcl w hw d hd n hn q hq)

theorem unmarked_le (B : PatchBox) (marks : Nat × Nat → Nat) : unmarked B marks ≤ B.w * B.h := by
  rw [← cells_length]
  exact List.countP_le_length

/-- Spec: the mean of the corners, rounded down. -/
def Centre (verts : List (Nat × Nat × Nat)) (m : Nat × Nat) : Prop :=
  (verts.length * m.1 ≤ (verts.map fun v => v.1).sum ∧ (verts.map fun v => v.1).sum < verts.length * (m.1 + 1)) ∧
    verts.length * m.2 ≤ (verts.map fun v => v.2.2).sum ∧ (verts.map fun v => v.2.2).sum < verts.length * (m.2 + 1)

theorem polyCentre_spec {verts : List (Nat × Nat × Nat)} (h : verts ≠ []) : Centre verts (polyCentre verts) := by
  have hp : 0 < verts.length := List.length_pos_iff.2 h
  unfold polyCentre
  exact ⟨⟨Nat.mul_div_le _ _, Nat.lt_mul_div_succ _ hp⟩, Nat.mul_div_le _ _, Nat.lt_mul_div_succ _ hp⟩

theorem Centre.unique {verts : List (Nat × Nat × Nat)} {m m' : Nat × Nat} (h : Centre verts m) (h' : Centre verts m') : m = m' := by
  have key : ∀ {n a b t : Nat}, n * a ≤ t → t < n * (a + 1) → n * b ≤ t → t < n * (b + 1) → a = b := by
    intro n a b t h1 h2 h3 h4
    have h5 : a < b + 1 := Nat.lt_of_mul_lt_mul_left (lt_of_le_of_lt h1 h4)
    have h6 : b < a + 1 := Nat.lt_of_mul_lt_mul_left (lt_of_le_of_lt h3 h2)
    omega
  exact Prod.ext (key h.1.1 h.1.2 h'.1.1 h'.1.2) (key h.2.1 h.2.2 h'.2.1 h'.2.2)

/-- **C153** The seed is a span of a cell of the patch, reached inside the patch from a span beside a vertex of the polygon that is nearest
in height to its vertex. It lies over the centre of the polygon, or the centre cannot be reached by taking one span of each cell. -/
theorem seedCenter_spec {c : Chf} (hc : c.Wf) (ys : Nat → Nat) {bs : Nat} {B : PatchBox} (hin : B.Inside c bs) (verts : List (Nat × Nat × Nat))
    {u : (Nat × Nat) × Nat} (h : seedCenter c ys bs B verts = some u) :
    ∃ s m, Centre verts m ∧ Nearest c ys bs B verts s ∧ (u.1.1 < B.w ∧ u.1.2 < B.h) ∧ c.At (B.xmin + u.1.1 + bs) (B.ymin + u.1.2 + bs) u.2 ∧
      GrownFrom c bs B (fun i => i = s.2) u.2 ∧
      ((B.xmin + u.1.1, B.ymin + u.1.2) = m ∨ ∃ seen, Stuck c bs B m s seen ∧ u ∈ seen) := by
  unfold seedCenter at h
  have hs := nearStart_spec (ys := ys) hin verts
  cases hn : nearStart c ys bs B verts with
  | none => rw [hn] at h; cases h
  | some s =>
    rw [hn] at h hs
    simp only [Option.bind_some] at h hs
    obtain ⟨v, hv, hb, _⟩ := id hs
    have hI : DInv c bs B s (fun _ => 0) [s] [] := by
      refine ⟨?_, by simp, by simp⟩
      intro w hw
      have : w = s := by simpa using hw
      subst this
      exact ⟨⟨hb.1, hb.2.1⟩, hb.2.2.1, .start rfl (PatchBox.over hb.1 hb.2.1 hb.2.2.1)⟩
    obtain ⟨u', e, r1, r2, r3, r4⟩ := dfsLoop_spec hc (centre := polyCentre verts) (B.w * B.h + 1) hI (by simp) (by simp) (last := s) (by simp) (by
      have := unmarked_le B (fun _ => 0)
      simp only [List.length_singleton]
      omega)
    rw [e] at h
    cases h
    exact ⟨s, polyCentre verts, polyCentre_spec (List.ne_nil_of_mem hv), hs, r1, r2, r3, r4⟩

/-- **C153** The search for the seed panics only if no span of the patch is beside a vertex, and it ends. -/
theorem seedCenter_none {c : Chf} (hc : c.Wf) {ys : Nat → Nat} (hy : ∀ i, ys i < 65535) {bs : Nat} {B : PatchBox} (hin : B.Inside c bs)
    {verts : List (Nat × Nat × Nat)} (hvy : ∀ v ∈ verts, v.2.1 < 65535) :
    seedCenter c ys bs B verts = none ↔ ∀ v ∈ verts, ∀ p i, ¬ Beside c bs B v p i := by
  unfold seedCenter
  have hs := nearStart_spec (ys := ys) hin verts
  cases hn : nearStart c ys bs B verts with
  | none =>
    rw [hn] at hs
    simp only [Option.bind_none, true_iff]
    intro v hv p i hb
    have h1 := hs v hv p i hb
    have h2 := hy i
    have h3 := hvy v hv
    omega
  | some s =>
    rw [hn] at hs
    simp only [Option.bind_some] at hs ⊢
    obtain ⟨v, hv, hb, _⟩ := id hs
    have hI : DInv c bs B s (fun _ => 0) [s] [] := by
      refine ⟨?_, by simp, by simp⟩
      intro w hw
      have : w = s := by simpa using hw
      subst this
      exact ⟨⟨hb.1, hb.2.1⟩, hb.2.2.1, .start rfl (PatchBox.over hb.1 hb.2.1 hb.2.2.1)⟩
    obtain ⟨u', e, -⟩ := dfsLoop_spec hc (centre := polyCentre verts) (B.w * B.h + 1) hI (by simp) (by simp) (last := s) (by simp) (by
      have := unmarked_le B (fun _ => 0)
      simp only [List.length_singleton]
      omega)
    rw [e]
    constructor
    · intro hf; cases hf
    · intro hf; exact absurd hb (hf v hv _ _)

/-! ## The straight way -/

/-- Spec: the spans are joined by `n` connections inside the patch. -/
inductive WalkIn (c : Chf) (bs : Nat) (B : PatchBox) : Nat → Nat → Nat → Prop
  | here {i : Nat} (hin : B.Over c bs i) : WalkIn c bs B 0 i i
  | step {n i d j k : Nat} (hin : B.Over c bs i) (hd : d < 4) (hn : c.Nb i d j) (h : WalkIn c bs B n j k) : WalkIn c bs B (n + 1) i k

/-- Spec: the number of steps between two cells of a grid. -/
def cellDist (p q : Nat × Nat) : Nat := ((p.1 : Int) - q.1).natAbs + ((p.2 : Int) - q.2).natAbs

theorem dirOrder_split {dd : Nat} (hdd : dd < 4) : ∃ A, dirOrder dd = A ++ [dd] ∧ ∀ d ∈ A, d < 4 ∧ d ≠ dd := by
  have : dd = 0 ∨ dd = 1 ∨ dd = 2 ∨ dd = 3 := by omega
  rcases this with rfl | rfl | rfl | rfl
  · exact ⟨[3, 1, 2], by decide, by decide⟩
  · exact ⟨[0, 3, 2], by decide, by decide⟩
  · exact ⟨[0, 1, 3], by decide, by decide⟩
  · exact ⟨[0, 1, 2], by decide, by decide⟩

/-- The cell `q` is the one next to `p` in direction `d`. -/
def NextCell (p : Nat × Nat) (d : Nat) (q : Nat × Nat) : Prop :=
  (q.1 : Int) = p.1 + dirX (BitVec.ofNat 32 d) ∧ (q.2 : Int) = p.2 + dirY (BitVec.ofNat 32 d)

theorem dfsDir_marks {c : Chf} (hc : c.Wf) {bs : Nat} {B : PatchBox} {u : (Nat × Nat) × Nat} (hat : c.At (B.field bs u.1).1 (B.field bs u.1).2 u.2)
    {st : (Nat × Nat → Nat) × List ((Nat × Nat) × Nat)} {d : Nat} (hd : d < 4) {q : Nat × Nat} (h : (dfsDir c bs B u st d).1 q ≠ 0) :
    st.1 q ≠ 0 ∨ NextCell u.1 d q := by
  unfold dfsDir at h
  cases hn : c.nb (B.field bs u.1).1 (B.field bs u.1).2 u.2 d with
  | none => rw [hn] at h; exact .inl h
  | some n =>
    rw [hn] at h
    simp only at h
    obtain ⟨n1, n2, n3, n4⟩ := hc.nb_some hat hd (show c.nb _ _ u.2 d = some (n.1, n.2) from hn)
    cases hq : B.cell bs n.1.1 n.1.2 with
    | none => rw [hq] at h; exact .inl h
    | some q' =>
      rw [hq] at h
      simp only at h
      obtain ⟨q1, q2, q3⟩ := (B.cell_iff bs n.1.1 n.1.2 q').1 hq
      split at h
      · exact .inl h
      · unfold setCell at h
        simp only at h
        split at h
        · rename_i he
          subst he
          right
          unfold PatchBox.field at q1 n2 n3
          simp only [Prod.mk.injEq] at q1 n2 n3
          unfold NextCell
          constructor
          · omega
          · omega
        · exact .inl h

theorem dfsDirs_marks {c : Chf} (hc : c.Wf) {bs : Nat} {B : PatchBox} {u : (Nat × Nat) × Nat} (hat : c.At (B.field bs u.1).1 (B.field bs u.1).2 u.2)
    (ds : List Nat) (hds : ∀ d ∈ ds, d < 4) {st : (Nat × Nat → Nat) × List ((Nat × Nat) × Nat)} {q : Nat × Nat}
    (h : (ds.foldl (dfsDir c bs B u) st).1 q ≠ 0) : st.1 q ≠ 0 ∨ ∃ d ∈ ds, NextCell u.1 d q := by
  induction ds generalizing st with
  | nil => exact .inl h
  | cons d ds ih =>
    rw [List.foldl_cons] at h
    rcases ih (fun d' hd' => hds d' (by simp [hd'])) h with h1 | ⟨d', hd', h1⟩
    · rcases dfsDir_marks hc hat (hds d (by simp)) h1 with h2 | h2
      · exact .inl h2
      · exact .inr ⟨d, by simp, h2⟩
    · exact .inr ⟨d', by simp [hd'], h1⟩

theorem dirX_vals : dirX (BitVec.ofNat 32 0) = -1 ∧ dirX (BitVec.ofNat 32 1) = 0 ∧ dirX (BitVec.ofNat 32 2) = 1 ∧ dirX (BitVec.ofNat 32 3) = 0 := by decide

theorem dirY_vals : dirY (BitVec.ofNat 32 0) = 0 ∧ dirY (BitVec.ofNat 32 1) = 1 ∧ dirY (BitVec.ofNat 32 2) = 0 ∧ dirY (BitVec.ofNat 32 3) = -1 := by decide

theorem next_cases {p q : Nat × Nat} {d : Nat} (hd : d < 4) : NextCell p d q ↔
    (d = 0 ∧ (q.1 : Int) = p.1 - 1 ∧ q.2 = p.2) ∨ (d = 1 ∧ q.1 = p.1 ∧ (q.2 : Int) = p.2 + 1) ∨ (d = 2 ∧ (q.1 : Int) = p.1 + 1 ∧ q.2 = p.2) ∨
      (d = 3 ∧ q.1 = p.1 ∧ (q.2 : Int) = p.2 - 1) := by
  obtain ⟨x0, x1, x2, x3⟩ := dirX_vals
  obtain ⟨y0, y1, y2, y3⟩ := dirY_vals
  unfold NextCell
  have : d = 0 ∨ d = 1 ∨ d = 2 ∨ d = 3 := by omega
  rcases this with rfl | rfl | rfl | rfl
  · rw [x0, y0]; omega
  · rw [x1, y1]; omega
  · rw [x2, y2]; omega
  · rw [x3, y3]; omega

/-- Spec: every span of the patch is connected in each direction that stays in the patch. -/
def OpenPatch (c : Chf) (bs : Nat) (B : PatchBox) : Prop :=
  ∀ x y i, x < B.w → y < B.h → c.At (B.xmin + x + bs) (B.ymin + y + bs) i → ∀ d < 4, ∀ q : Nat × Nat, q.1 < B.w → q.2 < B.h →
    (q.1 : Int) = x + dirX (BitVec.ofNat 32 d) → (q.2 : Int) = y + dirY (BitVec.ofNat 32 d) → ∃ j, c.Nb i d j

theorem dfs_straight {c : Chf} (hc : c.Wf) {bs : Nat} {B : PatchBox} (hopen : OpenPatch c bs B) {m : Nat × Nat}
    (hm : (B.xmin ≤ m.1 ∧ m.1 < B.xmin + B.w) ∧ B.ymin ≤ m.2 ∧ m.2 < B.ymin + B.h) (D : Nat) {fuel : Nat} {marks : Nat × Nat → Nat} {u : (Nat × Nat) × Nat}
    {us : List ((Nat × Nat) × Nat)} {last : (Nat × Nat) × Nat} (hu : u.1.1 < B.w ∧ u.1.2 < B.h) (hat : c.At (B.field bs u.1).1 (B.field bs u.1).2 u.2)
    (hD : cellDist (B.xmin + u.1.1, B.ymin + u.1.2) m = D) (hf : D < fuel)
    (hmk : ∀ q, marks q ≠ 0 → D ≤ cellDist (B.xmin + q.1, B.ymin + q.2) m) :
    ∃ r, dfsLoop c bs B m fuel marks (u :: us) last = some r ∧ (B.xmin + r.1.1, B.ymin + r.1.2) = m ∧ WalkIn c bs B D u.2 r.2 := by
  induction D generalizing fuel marks u us last with
  | zero =>
    obtain ⟨f, rfl⟩ : ∃ f, fuel = f + 1 := ⟨fuel - 1, by omega⟩
    have hz : (B.xmin + u.1.1, B.ymin + u.1.2) = m := by
      unfold cellDist at hD
      simp only at hD
      exact Prod.ext (by simp only; omega) (by simp only; omega)
    rw [dfsLoop, if_pos hz]
    exact ⟨u, rfl, hz, .here (PatchBox.over hu.1 hu.2 hat)⟩
  | succ D ih =>
    obtain ⟨f, rfl⟩ : ∃ f, fuel = f + 1 := ⟨fuel - 1, by omega⟩
    have hz : (B.xmin + u.1.1, B.ymin + u.1.2) ≠ m := by
      rintro rfl
      unfold cellDist at hD
      simp at hD
    rw [dfsLoop, if_neg hz]
    simp only
    have hdd := directDir_lt m (B.xmin + u.1.1, B.ymin + u.1.2)
    obtain ⟨q, hq, q1, q2, q3⟩ : ∃ q, NextCell u.1 (directDir m (B.xmin + u.1.1, B.ymin + u.1.2)) q ∧ q.1 < B.w ∧ q.2 < B.h ∧
        cellDist (B.xmin + q.1, B.ymin + q.2) m = D := by
      unfold cellDist at hD ⊢
      simp only at hD ⊢
      rw [Ne, Prod.ext_iff] at hz
      simp only at hz
      by_cases h1 : B.xmin + u.1.1 = m.1
      · by_cases h2 : B.ymin + u.1.2 < m.2
        · refine ⟨(u.1.1, u.1.2 + 1), (next_cases hdd).2 (.inr (.inl ⟨by simp [directDir, h1, h2], rfl, by simp⟩)), by simp only; omega, by simp only; omega, by simp only; omega⟩
        · refine ⟨(u.1.1, u.1.2 - 1), (next_cases hdd).2 (.inr (.inr (.inr ⟨by simp [directDir, h1, h2], rfl, by simp only; omega⟩))), by simp only; omega, by simp only; omega, by simp only; omega⟩
      · by_cases h2 : B.xmin + u.1.1 < m.1
        · refine ⟨(u.1.1 + 1, u.1.2), (next_cases hdd).2 (.inr (.inr (.inl ⟨by simp [directDir, h1, h2], by simp, rfl⟩))), by simp only; omega, by simp only; omega, by simp only; omega⟩
        · refine ⟨(u.1.1 - 1, u.1.2), (next_cases hdd).2 (.inl ⟨by simp [directDir, h1, h2], by simp only; omega, rfl⟩), by simp only; omega, by simp only; omega, by simp only; omega⟩
    obtain ⟨A, hA, hA'⟩ := dirOrder_split hdd
    generalize directDir m (B.xmin + u.1.1, B.ymin + u.1.2) = dd at hdd hq hA hA' ⊢
    obtain ⟨j, hj⟩ := hopen u.1.1 u.1.2 u.2 hu.1 hu.2 hat dd hdd q q1 q2 hq.1 hq.2
    obtain ⟨p, hp⟩ := (hc.nb_iff hat hdd j).1 hj
    obtain ⟨p1, p2, p3, -⟩ := hc.nb_some hat hdd hp
    have hcell : B.cell bs p.1 p.2 = some q := by
      refine (B.cell_iff bs _ _ _).2 ⟨?_, q1, q2⟩
      unfold NextCell at hq
      unfold PatchBox.field at p2 p3 ⊢
      simp only at p2 p3
      rw [Prod.mk.injEq]
      omega
    have hatq : c.At (B.field bs q).1 (B.field bs q).2 j := by
      rw [((B.cell_iff bs _ _ _).1 hcell).1]
      exact p1
    rw [hA, List.foldl_append]
    have hA2 : (A.foldl (dfsDir c bs B u) (marks, us)).1 q = 0 := by
      by_contra hne
      rcases dfsDirs_marks hc hat A (fun d hd => (hA' d hd).1) hne with h1 | ⟨d, hd, h1⟩
      · have := hmk q h1
        omega
      · obtain ⟨hd4, hdne⟩ := hA' d hd
        rw [next_cases hd4] at h1
        rw [next_cases hdd] at hq
        omega
    have hA3 : ∀ q', (A.foldl (dfsDir c bs B u) (marks, us)).1 q' ≠ 0 → D ≤ cellDist (B.xmin + q'.1, B.ymin + q'.2) m := by
      intro q' hq'
      rcases dfsDirs_marks hc hat A (fun d hd => (hA' d hd).1) hq' with h1 | ⟨d, hd, h1⟩
      · have := hmk q' h1
        omega
      · rw [next_cases (hA' d hd).1] at h1
        unfold cellDist at hD ⊢
        simp only at hD ⊢
        omega
    generalize A.foldl (dfsDir c bs B u) (marks, us) = st at hA2 hA3 ⊢
    have hlast : [dd].foldl (dfsDir c bs B u) st = (setCell st.1 q 1, (q, j) :: st.2) := by
      rw [List.foldl_cons, List.foldl_nil]
      unfold dfsDir
      rw [hp]
      simp only
      rw [hcell]
      simp only
      rw [if_neg (by simp [hA2])]
    rw [hlast]
    obtain ⟨r, r1, r2, r3⟩ := ih (fuel := f) (marks := setCell st.1 q 1) (u := (q, j)) (us := st.2) (last := u) ⟨q1, q2⟩ hatq q3 (by omega) (by
      intro q' hq'
      unfold setCell at hq'
      by_cases he : q' = q
      · rw [he, q3]
      · exact hA3 q' (by simpa [he] using hq'))
    exact ⟨r, r1, r2, .step (PatchBox.over hu.1 hu.2 hat) hdd hj r3⟩

/-- **C153** If every span of the patch is connected in each direction that stays in the patch, the seed lies over the centre of the polygon,
and it is reached from the start by as few connections as the distance of the cells demands. -/
theorem seedCenter_open {c : Chf} (hc : c.Wf) (ys : Nat → Nat) {bs : Nat} {B : PatchBox} (hin : B.Inside c bs) (verts : List (Nat × Nat × Nat))
    (hopen : OpenPatch c bs B) {m : Nat × Nat} (hm : Centre verts m) (hcen : (B.xmin ≤ m.1 ∧ m.1 < B.xmin + B.w) ∧ B.ymin ≤ m.2 ∧ m.2 < B.ymin + B.h)
    {u : (Nat × Nat) × Nat} (h : seedCenter c ys bs B verts = some u) : (B.xmin + u.1.1, B.ymin + u.1.2) = m ∧
      ∃ s, Nearest c ys bs B verts s ∧ WalkIn c bs B (cellDist (B.xmin + s.1.1, B.ymin + s.1.2) m) s.2 u.2 := by
  unfold seedCenter at h
  have hs := nearStart_spec (ys := ys) hin verts
  cases hn : nearStart c ys bs B verts with
  | none => rw [hn] at h; cases h
  | some s =>
    rw [hn] at h hs
    simp only [Option.bind_some] at h hs
    obtain ⟨v, hv, hb, _⟩ := id hs
    rw [(polyCentre_spec (List.ne_nil_of_mem hv)).unique hm] at h
    obtain ⟨b1, b2, b3, -⟩ := hb
    obtain ⟨r, r1, r2, r3⟩ := dfs_straight hc hopen hcen (cellDist (B.xmin + s.1.1, B.ymin + s.1.2) m) (fuel := B.w * B.h + 1) (marks := fun _ => 0) (u := s)
      (us := []) (last := s) ⟨b1, b2⟩ b3 rfl (by
        obtain ⟨w, hw⟩ : ∃ w, B.w = w + 1 := ⟨B.w - 1, by omega⟩
        obtain ⟨k, hk⟩ : ∃ k, B.h = k + 1 := ⟨B.h - 1, by omega⟩
        have hprod : B.w * B.h = w * k + w + k + 1 := by rw [hw, hk]; ring
        rw [hprod]
        have : 0 ≤ w * k := Nat.zero_le _
        unfold cellDist
        simp only
        omega) (by simp)
    rw [r1] at h
    cases h
    exact ⟨r2, s, hs, r3⟩

/-- `getHeightData` with its own seed (recast/meshdetail.go:1221-1332). -/
def getHeights (c : Chf) (reg ys : Nat → Nat) (region bs : Nat) (B : PatchBox) (verts : List (Nat × Nat × Nat)) : Option (Nat × Nat → Nat) :=
  heightData c reg ys region bs B (seedCenter c ys bs B verts)

/-- **C152** Heights are collected, and some cell has one, as soon as the region has a span in the patch or a span of the patch is beside a vertex. -/
theorem getHeights_some {c : Chf} (hc : c.Wf) (reg : Nat → Nat) {ys : Nat → Nat} (hy : ∀ i, ys i < 65535) {region bs : Nat} {B : PatchBox}
    (hin : B.Inside c bs) {verts : List (Nat × Nat × Nat)} (hvy : ∀ v ∈ verts, v.2.1 < 65535)
    (h : (region ≠ 0 ∧ ∃ i, B.Over c bs i ∧ reg i = region) ∨ ∃ v ∈ verts, ∃ p i, Beside c bs B v p i) :
    ∃ data, getHeights c reg ys region bs B verts = some data ∧ ∃ hx < B.w, ∃ hy < B.h, data (hx, hy) ≠ 65535 := by
  have hy' : ∀ i, ys i ≠ 65535 := fun i => by have := hy i; omega
  unfold getHeights
  by_cases hr : region ≠ 0 ∧ ∃ i, B.Over c bs i ∧ reg i = region
  · obtain ⟨data, own, e1, e2, e3⟩ := heightData_region hc reg hy' hin hr.1 hr.2 (seedCenter c ys bs B verts)
    obtain ⟨i, ⟨hx, hyy, h1, h2, h3⟩, h4⟩ := hr.2
    obtain ⟨k, -, hk, -⟩ := e3 hx h1 hyy h2 i h3 h4
    exact ⟨data, e1, hx, h1, hyy, h2, by rw [e2.some_ hx h1 hyy h2 k hk]; exact hy' k⟩
  · rcases h with h | ⟨v, hv, p, i, hb⟩
    · exact absurd h hr
    · cases hs : seedCenter c ys bs B verts with
      | none => exact absurd hb ((seedCenter_none hc hy hin hvy).1 hs v hv p i)
      | some u =>
        obtain ⟨s, -, -, -, u1, u2, -⟩ := seedCenter_spec hc ys hin verts hs
        have hne : region = 0 ∨ ∀ i, B.Over c bs i → reg i ≠ region := by
          by_cases h0 : region = 0
          · exact .inl h0
          · exact .inr fun i hi he => hr ⟨h0, i, hi, he⟩
        obtain ⟨data, own, e1, e2, e3⟩ := heightData_seed hc reg hy' hin hne u1 u2
        exact ⟨data, e1, u.1.1, u1.1, u.1.2, u1.2, by rw [e2.some_ _ u1.1 _ u1.2 u.2 e3]; exact hy' u.2⟩

/-- A polygon over the cliff whose centre is in the upper row: the walk starts beside the low vertex and goes around over the ramp. -/
def cliffPoly : List (Nat × Nat × Nat) := [(0, 0, 0), (0, 30, 2), (2, 30, 2)]

example : polyCentre cliffPoly = (0, 1) ∧ seedCenter cliffChf cliffY 0 ⟨0, 0, 3, 2⟩ cliffPoly = some ((0, 1), 3) := by decide +kernel

example : ∃ s, Nearest cliffChf cliffY 0 ⟨0, 0, 3, 2⟩ cliffPoly s ∧ GrownFrom cliffChf 0 ⟨0, 0, 3, 2⟩ (fun i => i = s.2) 3 := by
  obtain ⟨s, -, -, h1, -, -, h2, -⟩ := seedCenter_spec cliff_wf cliffY (bs := 0) (B := ⟨0, 0, 3, 2⟩) ⟨by decide, by decide⟩ cliffPoly (u := ((0, 1), 3))
    (by decide +kernel)
  exact ⟨s, h1, h2⟩

/-- In the left two columns the upper row cannot be reached; the seed is the last span popped, here the
start itself, which is not marked and comes back. -/
example : seedCenter cliffChf cliffY 0 ⟨0, 0, 2, 2⟩ cliffPoly = some ((0, 0), 0) := by decide +kernel

theorem cliffY_lt (i : Nat) : cliffY i < 65535 := by
  unfold cliffY
  rcases i with _ | _ | _ | _ | _ | _ | i <;> simp

/-- No vertex near the patch: the search panics. -/
example : seedCenter cliffChf cliffY 0 ⟨0, 0, 3, 2⟩ [(8, 0, 8)] = none := by decide +kernel

/-- An open floor. -/
example : (B : PatchBox) → B = ⟨1, 1, 3, 3⟩ → ∀ u, seedCenter (flatChf 6 6 fun _ => 63) (fun _ => 4) 1 B [(1, 4, 1), (4, 4, 1), (4, 4, 4), (1, 4, 4)] = some u →
    (B.xmin + u.1.1, B.ymin + u.1.2) = (2, 2) := by
  rintro B rfl u h
  refine (seedCenter_open (flat_wf 6 6 _) _ (bs := 1) ⟨by decide, by decide⟩ _ ?_ (m := (2, 2)) (by unfold Centre; decide) (by decide) h).1
  intro x y i hx hy hat d hd q q1 q2 q3 q4
  obtain ⟨a1, a2, rfl⟩ := flat_at.1 hat
  simp only at hx hy q1 q2 q3 q4 a1 a2 ⊢
  refine ⟨(q.1 + 2) + (q.2 + 2) * 6, (flat_nb a1 a2 hd).2 ⟨?_, q.1 + 2, q.2 + 2, by omega, by omega, by omega, by omega, rfl⟩⟩
  have : d = 0 ∨ d = 1 ∨ d = 2 ∨ d = 3 := by omega
  rcases this with rfl | rfl | rfl | rfl <;> simp [inside] <;> omega

example : ∃ data, getHeights cliffChf cliffReg cliffY 0 0 ⟨0, 0, 3, 2⟩ cliffPoly = some data ∧ ∃ hx < 3, ∃ hy < 2, data (hx, hy) ≠ 65535 :=
  getHeights_some cliff_wf cliffReg cliffY_lt ⟨by decide, by decide⟩ (by decide)
    (.inr ⟨(0, 0, 0), by decide, (0, 0), 0, by decide, by decide, cliff_at.2 (by decide), by decide, by decide⟩)

end Verif.Recast
