/-
Heightfield columns: span pool and `addSpan` (recast/heightfield.go:75-190).

The model has two levels: columns as lists of span values (`insertSpan`), and the pointer level with
the pool of span pages, the free list and the `next` pointers (`SHeap`). The second is shown to refine
the first, so the properties are proved on lists.

Simplifications: `smin`, `smax`, `area` are `Nat` (the code only compares them and takes differences in
int32). Span `k` of page `p` has address `p * 2048 + k`. A memory page is never refused by the
allocator.
-/
import Verif.Common.Chain

namespace Verif.Recast

/-! ## Model: one column as a list -/

/-- `Span` without its pointer (recast/heightfield.go:18-23). -/
structure SpanV where
  smin : Nat
  smax : Nat
  area : Nat
  deriving DecidableEq, Repr

/-- Merging the span `c` of the column into the new span `s` (recast/heightfield.go:147-164). -/
def SpanV.merge (thr : Int) (s c : SpanV) : SpanV :=
  let smin := if c.smin < s.smin then c.smin else s.smin
  let smax := if c.smax > s.smax then c.smax else s.smax
  let d := ((smax : Int) - (c.smax : Int)).natAbs
  { smin := smin, smax := smax,
    area := if (d : Int) ≤ thr then (if c.area > s.area then c.area else s.area) else s.area }

/-- `addSpan` on the list of a column (recast/heightfield.go:134-187). -/
def insertSpan (thr : Int) : List SpanV → SpanV → List SpanV
  | [], s => [s]
  | c :: cs, s =>
    if c.smin > s.smax then s :: c :: cs
    else if c.smax < s.smin then c :: insertSpan thr cs s
    else insertSpan thr cs (s.merge thr c)

/-! ## Model: the pool -/

/-- Span memory and heightfield: `Span.next`, the other span fields, `Freelist`, the number of pages in
`Pools`, and `Spans` (one list head per cell). -/
structure SHeap where
  next : Nat → Option Nat
  val : Nat → SpanV
  free : Option Nat
  pages : Nat
  col : Nat → Option Nat

/-- `RC_SPANS_PER_POOL` (recast/heightfield.go:13). -/
def pageSize : Nat := 2048

/-- A new heightfield (recast/heightfield.go:47-58). -/
def SHeap.empty : SHeap :=
  ⟨fun _ => none, fun _ => ⟨0, 0, 0⟩, none, 0, fun _ => none⟩

/-- "Add new items to the free list." (recast/heightfield.go:90-99): items `i, i-1, ..., 1` of the page
at `base` are put in front of the list. Item 0 is left out. -/
def linkItems (base : Nat) : Nat → (Nat → Option Nat) → Option Nat → (Nat → Option Nat) × Option Nat
  | 0, next, fl => (next, fl)
  | i + 1, next, fl => linkItems base i (upd next (base + (i + 1)) fl) (some (base + (i + 1)))

/-- A new page (recast/heightfield.go:78-100). -/
def SHeap.grow (h : SHeap) : SHeap :=
  let r := linkItems (h.pages * pageSize) (pageSize - 1) h.next h.free
  { h with next := r.1, free := r.2, pages := h.pages + 1 }

/-- `hf.Freelist == nil || hf.Freelist.next == nil` (recast/heightfield.go:77). -/
def SHeap.low (h : SHeap) : Bool :=
  match h.free with
  | none => true
  | some a => (h.next a).isNone

/-- `allocSpan` (recast/heightfield.go:75-107); `none` is a nil dereference. -/
def SHeap.alloc (h : SHeap) : Option (Nat × SHeap) :=
  let h' := if h.low then h.grow else h
  match h'.free with
  | none => none
  | some a => some (a, { h' with free := h'.next a })

/-- `freeSpan` (recast/heightfield.go:109-116). -/
def SHeap.release (h : SHeap) (c : Nat) : SHeap :=
  { h with next := upd h.next c h.free, free := some c }

/-- The loop of `addSpan` (recast/heightfield.go:138-175) for the new span at address `a`: the state
and `prev` when it stops. -/
def SHeap.insertLoop (thr : Int) (idx a : Nat) : Nat → SHeap → Option Nat → Option Nat → Option (SHeap × Option Nat)
  | _, h, prev, none => some (h, prev)
  | 0, _, _, some _ => none
  | f + 1, h, prev, some c =>
    if (h.val c).smin > (h.val a).smax then some (h, prev)
    else if (h.val c).smax < (h.val a).smin then insertLoop thr idx a f h (some c) (h.next c)
    else
      let next := h.next c
      let h1 := { h with val := upd h.val a ((h.val a).merge thr (h.val c)) }
      let h2 := h1.release c
      let h3 := match prev with
        | some p => { h2 with next := upd h2.next p next }
        | none => { h2 with col := upd h2.col idx next }
      insertLoop thr idx a f h3 prev next

/-- "Insert new span." (recast/heightfield.go:178-184). -/
def SHeap.insertAt (h : SHeap) (idx a : Nat) : Option Nat → SHeap
  | some p => { h with next := upd (upd h.next a (h.next p)) p (some a) }
  | none => { h with next := upd h.next a (h.col idx), col := upd h.col idx (some a) }

/-- Linking the new span `a` into the column of cell `idx` (recast/heightfield.go:131-187). -/
def SHeap.place (f : Nat) (h : SHeap) (idx a : Nat) (thr : Int) : Option SHeap :=
  match h.col idx with
  | none => some { h with col := upd h.col idx (some a) }
  | some c => (SHeap.insertLoop thr idx a f h none (some c)).map fun r => r.1.insertAt idx a r.2

/-- `addSpan` (recast/heightfield.go:118-190) at cell `idx`; `f` bounds the walk over the column. -/
def SHeap.addSpan (f : Nat) (h : SHeap) (idx : Nat) (v : SpanV) (thr : Int) : Option SHeap :=
  match h.alloc with
  | none => none
  | some (a, h1) => { h1 with val := upd h1.val a v, next := upd h1.next a none }.place f idx a thr

/-! ## Heap invariant -/

/-- Who owns which span: `F` is the free list, `L i` the column of cell `i`. -/
structure Owned (h : SHeap) (F : List Nat) (L : Nat → List Nat) : Prop where
  free : Chain h.next h.free F
  col : ∀ i, Chain h.next (h.col i) (L i)
  fdisj : ∀ i, ∀ x ∈ F, x ∉ L i
  disj : ∀ i j, i ≠ j → ∀ x ∈ L i, x ∉ L j
  bound : ∀ x, (x ∈ F ∨ ∃ i, x ∈ L i) → x < h.pages * pageSize

theorem owned_empty : Owned .empty [] fun _ => [] :=
  ⟨rfl, fun _ => rfl, by simp, by simp, by simp⟩

theorem linkItems_spec (base : Nat) (i : Nat) : ∀ (next : Nat → Option Nat) (fl : Option Nat) (F : List Nat),
    Chain next fl F → (∀ x ∈ F, x ≤ base ∨ base + i < x) →
    ∃ F', Chain (linkItems base i next fl).1 (linkItems base i next fl).2 F' ∧
      F'.length = i + F.length ∧ (∀ x, x ∈ F' ↔ (base < x ∧ x ≤ base + i) ∨ x ∈ F) ∧
      ∀ x, x ≤ base ∨ base + i < x → (linkItems base i next fl).1 x = next x := by
  induction i with
  | zero =>
    intro next fl F hc _
    exact ⟨F, hc, by simp, fun x => ⟨Or.inr, fun h => h.elim (fun h => by omega) id⟩, fun x _ => rfl⟩
  | succ i ih =>
    intro next fl F hc hF
    have hni : base + (i + 1) ∉ F := fun h => by have := hF _ h; omega
    obtain ⟨F', h1, h2, h3, h4⟩ := ih (upd next (base + (i + 1)) fl) (some (base + (i + 1)))
      ((base + (i + 1)) :: F) (hc.push hni) (by
        intro x hx
        rcases List.mem_cons.1 hx with rfl | hx
        · omega
        · have := hF x hx; omega)
    refine ⟨F', h1, by rw [h2]; simp; omega, fun x => ?_, fun x hx => ?_⟩
    · rw [h3, List.mem_cons]
      constructor
      · rintro (h | rfl | h)
        · left; omega
        · left; omega
        · right; exact h
      · rintro (h | h)
        · by_cases hx : x = base + (i + 1)
          · right; left; exact hx
          · left; omega
        · right; right; exact h
    · rw [linkItems, h4 x (by omega), upd_ne _ _ (by omega)]

/-- After a page was added, all its items but the first are free, and nothing else changed. -/
theorem grow_spec {h : SHeap} {F : List Nat} {L : Nat → List Nat} (ho : Owned h F L) :
    ∃ F', Owned h.grow F' L ∧ F'.length = pageSize - 1 + F.length ∧
      (∀ x ∈ F, x ∈ F') ∧ h.grow.val = h.val ∧ h.grow.col = h.col := by
  obtain ⟨F', h1, h2, h3, h4⟩ := linkItems_spec (h.pages * pageSize) (pageSize - 1) h.next h.free F ho.free
    (fun x hx => by have := ho.bound x (Or.inl hx); omega)
  have hps : 0 < pageSize := by decide
  unfold SHeap.grow
  generalize linkItems (h.pages * pageSize) (pageSize - 1) h.next h.free = r at *
  refine ⟨F', ⟨h1, fun i => ?_, fun i x hx hxi => ?_, ho.disj, fun x hx => ?_⟩, h2,
    fun x hx => (h3 x).2 (Or.inr hx), rfl, rfl⟩
  · exact (ho.col i).congr fun x hx => h4 x (by have := ho.bound x (Or.inr ⟨i, hx⟩); omega)
  · rcases (h3 x).1 hx with hx | hx
    · have := ho.bound x (Or.inr ⟨i, hxi⟩); omega
    · exact ho.fdisj i x hx hxi
  · show x < (h.pages + 1) * pageSize
    rw [Nat.add_mul, Nat.one_mul]
    rcases hx with hx | hx
    · rcases (h3 x).1 hx with hx | hx
      · omega
      · have := ho.bound x (Or.inl hx); omega
    · have := ho.bound x (Or.inr hx); omega

/-- **C42.** `allocSpan` always succeeds, and the span it hands out belongs to no column and is no
longer on the free list; the columns are untouched - also when a page is added. -/
theorem alloc_fresh {h : SHeap} {F : List Nat} {L : Nat → List Nat} (ho : Owned h F L) :
    ∃ a h' F', h.alloc = some (a, h') ∧ Owned h' F' L ∧ a ∉ F' ∧ (∀ i, a ∉ L i) ∧
      a < h'.pages * pageSize ∧ h'.val = h.val ∧ h'.col = h.col := by
  have key : ∀ (g : SHeap) (G : List Nat), Owned g G L → G ≠ [] → ∃ a h' F',
      (match g.free with | none => none | some a => some (a, { g with free := g.next a })) = some (a, h') ∧
      Owned h' F' L ∧ a ∉ F' ∧ (∀ i, a ∉ L i) ∧ a < h'.pages * pageSize ∧ h'.val = g.val ∧ h'.col = g.col := by
    intro g G hg hne
    cases G with
    | nil => exact absurd rfl hne
    | cons a G =>
      have hc := hg.free
      have hnd := hc.nodup
      obtain ⟨hfree, hc⟩ := hc
      rw [List.nodup_cons] at hnd
      refine ⟨a, { g with free := g.next a }, G, by rw [hfree], ⟨hc, hg.col, fun i x hx => hg.fdisj i x (by simp [hx]),
        hg.disj, fun x hx => hg.bound x (hx.imp (fun h => by simp [h]) id)⟩, hnd.1,
        fun i => hg.fdisj i a (by simp), hg.bound a (Or.inl (by simp)), rfl, rfl⟩
  unfold SHeap.alloc
  by_cases hl : h.low = true
  · obtain ⟨F', g1, g2, g3, g4, g5⟩ := grow_spec ho
    have hne : F' ≠ [] := by
      intro h; rw [h] at g2; simp [pageSize] at g2; omega
    simp only [hl, if_true]
    obtain ⟨a, h', F'', k⟩ := key h.grow F' g1 hne
    exact ⟨a, h', F'', by rw [← g4, ← g5]; exact k⟩
  · simp only [hl]
    refine key h F ho ?_
    rintro rfl
    have := ho.free
    simp only [Chain] at this
    unfold SHeap.low at hl
    rw [this] at hl
    exact hl rfl

/-- **C42.** A released span goes to the free list and nowhere else. -/
theorem release_spec {h : SHeap} {F : List Nat} {L : Nat → List Nat} (ho : Owned h F L) {a : Nat}
    (h1 : a ∉ F) (h2 : ∀ i, a ∉ L i) (h3 : a < h.pages * pageSize) : Owned (h.release a) (a :: F) L := by
  refine ⟨ho.free.push h1, fun i => (ho.col i).upd_notMem (h2 i), fun i x hx => ?_, ho.disj, fun x hx => ?_⟩
  · rcases List.mem_cons.1 hx with rfl | hx
    · exact h2 i
    · exact ho.fdisj i x hx
  · rcases hx with hx | hx
    · rcases List.mem_cons.1 hx with rfl | hx
      · exact h3
      · exact ho.bound x (Or.inl hx)
    · exact ho.bound x (Or.inr hx)

/-! ## Refinement -/

/-- Inserting an element behind the last element of `pre`. -/
theorem chain_insert {next : Nat → Option Nat} {h : Option Nat} {pre post : List Nat} {p a : Nat}
    (hc : Chain next h (pre ++ p :: post)) (ha : a ∉ pre ++ p :: post) :
    Chain (upd (upd next a (next p)) p (some a)) h (pre ++ p :: a :: post) := by
  have hnd := hc.nodup
  induction pre generalizing h with
  | nil =>
    obtain ⟨rfl, hc⟩ := hc
    simp only [List.nil_append, List.nodup_cons] at hnd
    have hap : a ≠ p := by rintro rfl; exact ha (by simp)
    refine ⟨rfl, ?_, ?_⟩
    · rw [upd_same]
    · rw [upd_ne _ _ hap, upd_same]
      refine (hc.upd_notMem ?_).upd_notMem hnd.1
      intro h; exact ha (by simp [h])
  | cons b pre ih =>
    obtain ⟨rfl, hc⟩ := hc
    simp only [List.cons_append, List.nodup_cons] at hnd
    refine ⟨rfl, ?_⟩
    have hbp : b ≠ p := by rintro rfl; exact hnd.1 (by simp)
    have hba : b ≠ a := by rintro rfl; exact ha (by simp)
    rw [upd_ne _ _ hbp, upd_ne _ _ hba]
    exact ih hc (fun h => ha (by simp [h])) hnd.2

theorem insertLoop_spec (thr : Int) (idx a : Nat) (L : Nat → List Nat) (rest : List Nat) :
    ∀ (f : Nat) (h : SHeap) (pre F : List Nat) (cur : Option Nat),
      rest.length ≤ f → Chain h.next (h.col idx) (pre ++ rest) → Chain h.next cur rest →
      Chain h.next h.free F → (∀ j, j ≠ idx → Chain h.next (h.col j) (L j)) →
      (a :: (F ++ (pre ++ rest))).Nodup → (∀ j, j ≠ idx → ∀ x ∈ L j, x ∉ a :: (F ++ (pre ++ rest))) →
      ∃ h' F' pre' post', SHeap.insertLoop thr idx a f h pre.getLast? cur = some (h', pre'.getLast?) ∧
        Chain h'.next (h'.col idx) (pre' ++ post') ∧ Chain h'.next h'.free F' ∧
        (∀ j, j ≠ idx → h'.col j = h.col j ∧ Chain h'.next (h'.col j) (L j)) ∧
        (F' ++ (pre' ++ post')).Perm (F ++ (pre ++ rest)) ∧ h'.pages = h.pages ∧
        (∀ x, x ≠ a → h'.val x = h.val x) ∧
        pre'.map h.val ++ h'.val a :: post'.map h.val =
          pre.map h.val ++ insertSpan thr (rest.map h.val) (h.val a) := by
  induction rest with
  | nil =>
    intro f h pre F cur hf hc hcur hF hL hnd hd
    simp only [Chain] at hcur
    subst hcur
    refine ⟨h, F, pre, [], by cases f <;> rfl, hc, hF, fun j hj => ⟨rfl, hL j hj⟩, .refl _, rfl, fun _ _ => rfl, ?_⟩
    simp [insertSpan]
  | cons c rest ih =>
    intro f h pre F cur hf hc hcur hF hL hnd hd
    obtain ⟨rfl, hcur⟩ := hcur
    cases f with
    | zero => simp at hf
    | succ f =>
      rw [SHeap.insertLoop]
      simp only [List.map_cons, insertSpan]
      split
      · exact ⟨h, F, pre, c :: rest, rfl, hc, hF, fun j hj => ⟨rfl, hL j hj⟩, .refl _, rfl, fun _ _ => rfl, rfl⟩
      · split
        · have e : pre ++ c :: rest = pre ++ [c] ++ rest := by simp
          have hlast : (pre ++ [c]).getLast? = some c := by simp
          rw [e] at hc hnd hd
          obtain ⟨h', F', pre', post', r1, r2, r3, r4, r5, r6, r7, r8⟩ := ih f h (pre ++ [c]) F (h.next c)
            (by simpa using hf) hc hcur hF hL hnd hd
          rw [hlast] at r1
          refine ⟨h', F', pre', post', r1, r2, r3, r4, ?_, r6, r7, ?_⟩
          · rw [e]; exact r5
          · rw [r8]; simp
        · rename_i hn1 hn2
          have hnd' := hnd
          simp only [List.nodup_cons, List.mem_append, List.mem_cons, not_or, List.nodup_append] at hnd'
          obtain ⟨⟨haF, haP, hac, haR⟩, hFnd, ⟨hPnd, ⟨hcR, hRnd⟩, hPR⟩, hFPR⟩ := hnd'
          have hcF : c ∉ F := fun hm => hFPR c hm c (Or.inr (Or.inl rfl)) rfl
          have hcP : c ∉ pre := fun hm => hPR c hm c (Or.inl rfl) rfl
          have hpa : ∀ x ∈ pre ++ rest, x ≠ a := by
            rintro x hx rfl
            rcases List.mem_append.1 hx with hx | hx
            · exact haP hx
            · exact haR hx
          -- the state after the merge
          generalize hh3 : (match pre.getLast? with
            | some p => { ({ h with val := upd h.val a ((h.val a).merge thr (h.val c)) } : SHeap).release c with
                next := upd (({ h with val := upd h.val a ((h.val a).merge thr (h.val c)) } : SHeap).release c).next p (h.next c) }
            | none => { ({ h with val := upd h.val a ((h.val a).merge thr (h.val c)) } : SHeap).release c with
                col := upd (({ h with val := upd h.val a ((h.val a).merge thr (h.val c)) } : SHeap).release c).col idx (h.next c) }
            : SHeap) = h3
          have hval : h3.val = upd h.val a ((h.val a).merge thr (h.val c)) := by
            rw [← hh3]; cases pre.getLast? <;> rfl
          have hpages : h3.pages = h.pages := by rw [← hh3]; cases pre.getLast? <;> rfl
          have hfree : h3.free = some c := by rw [← hh3]; cases pre.getLast? <;> rfl
          have hcolj : ∀ j, j ≠ idx → h3.col j = h.col j := by
            intro j hj
            rw [← hh3]
            cases pre.getLast? with
            | some p => rfl
            | none => exact upd_ne _ _ hj
          have hun := unlinkAt_chain hc
          have hnext : ∀ x, x ≠ c → h3.next x = (unlinkAt h.next (h.col idx) pre.getLast? c).1 x := by
            intro x hx
            rw [← hh3]
            cases pre.getLast? with
            | some p =>
              show upd (upd h.next c h.free) p (h.next c) x = upd h.next p (h.next c) x
              by_cases hxp : x = p
              · rw [hxp, upd_same, upd_same]
              · rw [upd_ne _ _ hxp, upd_ne _ _ hxp, upd_ne _ _ hx]
            | none =>
              show upd h.next c h.free x = h.next x
              rw [upd_ne _ _ hx]
          have hcol : h3.col idx = (unlinkAt h.next (h.col idx) pre.getLast? c).2 := by
            rw [← hh3]
            cases pre.getLast? with
            | some p => rfl
            | none => exact upd_same _ _ _
          have hnc : h3.next c = h.free := by
            rw [← hh3]
            cases hg : pre.getLast? with
            | some p =>
              have hpc : c ≠ p := by rintro rfl; exact hcP (List.mem_of_getLast? hg)
              show upd (upd h.next c h.free) p (h.next c) c = h.free
              rw [upd_ne _ _ hpc, upd_same]
            | none => exact upd_same _ _ _
          -- `next` of spans outside the column and `c` is unchanged
          have hframe : ∀ x, x ≠ c → x ∉ pre → h3.next x = h.next x := fun x hx hxp => by
            rw [hnext x hx]; exact unlinkAt_frame hxp
          have hcR' : Chain h3.next (h3.col idx) (pre ++ rest) := by
            rw [hcol]
            refine hun.congr fun x hx => hnext x ?_
            rintro rfl
            rcases List.mem_append.1 hx with hx | hx
            · exact hcP hx
            · exact hcR hx
          have hcur' : Chain h3.next (h.next c) rest :=
            hcur.congr fun x hx => hframe x (by rintro rfl; exact hcR hx) (fun hxp => hPR x hxp x (Or.inr hx) rfl)
          have hF' : Chain h3.next h3.free (c :: F) := by
            rw [hfree]
            refine ⟨rfl, ?_⟩
            rw [hnc]
            exact hF.congr fun x hx => hframe x (by rintro rfl; exact hcF hx)
              (fun hxp => hFPR x hx x (Or.inl hxp) rfl)
          have hL' : ∀ j, j ≠ idx → Chain h3.next (h3.col j) (L j) := by
            intro j hj
            rw [hcolj j hj]
            refine (hL j hj).congr fun x hx => hframe x ?_ ?_
            · rintro rfl; exact hd j hj _ hx (by simp)
            · intro hxp; exact hd j hj _ hx (by simp [hxp])
          have hperm : (c :: F ++ (pre ++ rest)).Perm (F ++ (pre ++ c :: rest)) := by
            rw [List.cons_append]
            refine List.Perm.trans ?_ (List.perm_append_comm_assoc F pre (c :: rest)).symm
            refine List.Perm.trans ?_ (List.Perm.append_left pre (List.perm_middle (l₁ := F)).symm)
            refine List.Perm.trans ?_ (List.perm_middle (l₁ := pre)).symm
            refine List.Perm.cons c ?_
            exact List.perm_append_comm_assoc F pre rest
          obtain ⟨h', F', pre', post', r1, r2, r3, r4, r5, r6, r7, r8⟩ := ih f h3 pre (c :: F) (h.next c)
            (by simpa using hf) hcR' hcur' hF' hL' ((hperm.cons a).nodup_iff.2 hnd)
            (fun j hj x hx hm => hd j hj x hx ((hperm.cons a).mem_iff.1 hm))
          have hmapv : ∀ l : List Nat, (∀ x ∈ l, x ≠ a) → l.map h3.val = l.map h.val := by
            intro l hl
            apply List.map_congr_left
            intro x hx
            rw [hval, upd_ne _ _ (hl x hx)]
          have hsub : ∀ x ∈ pre' ++ post', x ≠ a := by
            rintro x hx rfl
            have : x ∈ F' ++ (pre' ++ post') := List.mem_append_right _ hx
            have := hperm.mem_iff.1 (r5.mem_iff.1 this)
            simp only [List.mem_append, List.mem_cons] at this
            rcases this with h | h | h | h
            · exact haF h
            · exact haP h
            · exact hac h
            · exact haR h
          refine ⟨h', F', pre', post', ?_, r2, r3, fun j hj => ⟨by rw [(r4 j hj).1, hcolj j hj], (r4 j hj).2⟩,
            r5.trans hperm, by rw [r6, hpages], fun x hx => by rw [r7 x hx, hval, upd_ne _ _ hx], ?_⟩
          · exact r1
          · rw [hmapv pre' (fun x hx => hsub x (by simp [hx])), hmapv post' (fun x hx => hsub x (by simp [hx])),
              hmapv pre (fun x hx => hpa x (by simp [hx])), hmapv rest (fun x hx => hpa x (by simp [hx])), hval,
              upd_same] at r8
            exact r8

/-- One insertion at the pointer level is one insertion at the list level. -/
theorem addSpan_spec {h : SHeap} {F : List Nat} {L : Nat → List Nat} (ho : Owned h F L) (f idx : Nat)
    (hf : (L idx).length ≤ f) (v : SpanV) (thr : Int) :
    ∃ h' F' L', h.addSpan f idx v thr = some h' ∧ Owned h' F' L' ∧
      (∀ j, j ≠ idx → (L' j).map h'.val = (L j).map h.val) ∧
      (L' idx).map h'.val = insertSpan thr ((L idx).map h.val) v := by
  obtain ⟨a, h1, F1, e1, ho1, ha1, ha2, ha3, hv1, hc1⟩ := alloc_fresh ho
  unfold SHeap.addSpan
  rw [e1]
  simp only
  generalize hh2 : ({ h1 with val := upd h1.val a v, next := upd h1.next a none } : SHeap) = h2
  have hval2 : h2.val = upd h.val a v := by rw [← hh2, ← hv1]
  have hcol2 : h2.col = h1.col := by rw [← hh2]
  have hnext2 : h2.next = upd h1.next a none := by rw [← hh2]
  have hfree2 : h2.free = h1.free := by rw [← hh2]
  have hpages2 : h2.pages = h1.pages := by rw [← hh2]
  have hL2 : ∀ j, Chain h2.next (h2.col j) (L j) := fun j => by
    rw [hnext2, hcol2]; exact (ho1.col j).upd_notMem (ha2 j)
  have hF2 : Chain h2.next h2.free F1 := by rw [hnext2, hfree2]; exact ho1.free.upd_notMem ha1
  have hmapL : ∀ j, (L j).map h2.val = (L j).map h.val := by
    intro j
    apply List.map_congr_left
    intro x hx
    rw [hval2, upd_ne _ _ (by rintro rfl; exact ha2 j hx)]
  unfold SHeap.place
  cases hci : h2.col idx with
  | none =>
    have hLi : L idx = [] := by have := hL2 idx; rw [hci] at this; exact Chain.none_iff.1 this
    refine ⟨_, F1, upd L idx [a], rfl, ⟨hF2, fun i => ?_, fun i x hx => ?_, fun i j hij x hx => ?_,
      fun x hx => ?_⟩, fun j hj => ?_, ?_⟩
    · by_cases hi : i = idx
      · subst hi
        simp only [upd_same]
        refine ⟨rfl, ?_⟩
        show h2.next a = none
        rw [hnext2, upd_same]
      · simp only [upd_ne _ _ hi]; exact hL2 i
    · by_cases hi : i = idx
      · subst hi
        rw [upd_same]
        simp only [List.mem_singleton]
        rintro rfl
        exact ha1 hx
      · rw [upd_ne _ _ hi]; exact ho1.fdisj i x hx
    · by_cases hi : i = idx
      · subst hi
        rw [upd_same, List.mem_singleton] at hx
        subst hx
        rw [upd_ne _ _ (Ne.symm hij)]
        exact ha2 j
      · rw [upd_ne _ _ hi] at hx
        by_cases hj : j = idx
        · subst hj
          rw [upd_same, List.mem_singleton]
          rintro rfl
          exact ha2 i hx
        · rw [upd_ne _ _ hj]; exact ho1.disj i j hij x hx
    · show x < h2.pages * pageSize
      rw [hpages2]
      rcases hx with hx | ⟨i, hx⟩
      · exact ho1.bound x (Or.inl hx)
      · by_cases hi : i = idx
        · subst hi
          rw [upd_same, List.mem_singleton] at hx
          subst hx
          exact ha3
        · rw [upd_ne _ _ hi] at hx; exact ho1.bound x (Or.inr ⟨i, hx⟩)
    · rw [upd_ne _ _ hj]; exact hmapL j
    · rw [upd_same, hLi]
      simp [insertSpan, hval2]
  | some c =>
    have hnd : (a :: (F1 ++ ([] ++ L idx))).Nodup := by
      rw [List.nodup_cons, List.nil_append, List.nodup_append]
      refine ⟨?_, ho1.free.nodup, (ho1.col idx).nodup, ?_⟩
      · rw [List.mem_append]; rintro (h | h)
        · exact ha1 h
        · exact ha2 idx h
      · rintro x hx y hy rfl
        exact ho1.fdisj idx x hx hy
    obtain ⟨h', F', pre', post', r1, r2, r3, r4, r5, r6, r7, r8⟩ := insertLoop_spec thr idx a L (L idx) f h2 [] F1
      (some c) hf (hL2 idx) (hci ▸ hL2 idx) hF2 (fun j _ => hL2 j) hnd (by
        intro j hj x hx hm
        simp only [List.nil_append, List.mem_cons, List.mem_append] at hm
        rcases hm with rfl | hm | hm
        · exact ha2 j hx
        · exact ho1.fdisj j x hm hx
        · exact ho1.disj j idx hj x hx hm)
    rw [List.getLast?_nil] at r1
    simp only
    rw [r1, Option.map_some]
    rw [List.nil_append] at r5
    have hmem : ∀ x, x ∈ F' ∨ x ∈ pre' ++ post' ↔ x ∈ F1 ∨ x ∈ L idx := fun x => by
      rw [← List.mem_append, r5.mem_iff, List.mem_append]
    have hnd5 : (F' ++ (pre' ++ post')).Nodup := r5.nodup_iff.2 (List.nodup_cons.1 hnd).2
    have haF' : a ∉ F' := fun h => by
      rcases (hmem a).1 (Or.inl h) with h | h
      · exact ha1 h
      · exact ha2 idx h
    have haP' : a ∉ pre' ++ post' := fun h => by
      rcases (hmem a).1 (Or.inr h) with h | h
      · exact ha1 h
      · exact ha2 idx h
    -- the final linking
    generalize hh3 : h'.insertAt idx a pre'.getLast? = h3
    have hval3 : h3.val = h'.val := by rw [← hh3]; cases pre'.getLast? <;> rfl
    have hpages3 : h3.pages = h'.pages := by rw [← hh3]; cases pre'.getLast? <;> rfl
    have hfree3 : h3.free = h'.free := by rw [← hh3]; cases pre'.getLast? <;> rfl
    have hcol3 : ∀ j, j ≠ idx → h3.col j = h'.col j := by
      intro j hj
      rw [← hh3]
      cases pre'.getLast? with
      | some p => rfl
      | none => exact upd_ne _ _ hj
    have hframe3 : ∀ x, x ≠ a → x ∉ pre' → h3.next x = h'.next x := by
      intro x hx hxp
      rw [← hh3]
      cases hg : pre'.getLast? with
      | some p =>
        have hxp' : x ≠ p := by rintro rfl; exact hxp (List.mem_of_getLast? hg)
        show upd (upd h'.next a (h'.next p)) p (some a) x = _
        rw [upd_ne _ _ hxp', upd_ne _ _ hx]
      | none => exact upd_ne _ _ hx
    have hnew : Chain h3.next (h3.col idx) (pre' ++ a :: post') := by
      rw [← hh3]
      rcases List.eq_nil_or_concat pre' with rfl | ⟨pre0, p, rfl⟩
      · simp only [List.getLast?_nil, SHeap.insertAt, List.nil_append, upd_same]
        refine ⟨rfl, ?_⟩
        rw [upd_same]
        exact r2.upd_notMem haP'
      · simp only [List.concat_eq_append, List.getLast?_append, List.getLast?_singleton,
          Option.some_or, SHeap.insertAt, List.append_assoc, List.singleton_append] at r2 haP' ⊢
        exact chain_insert r2 haP'
    refine ⟨h3, F', upd L idx (pre' ++ a :: post'), rfl, ⟨?_, fun i => ?_, fun i x hx => ?_,
      fun i j hij x hx => ?_, fun x hx => ?_⟩, fun j hj => ?_, ?_⟩
    · rw [hfree3]
      refine r3.congr fun x hx => hframe3 x (by rintro rfl; exact haF' hx) fun hxp => ?_
      exact (List.nodup_append.1 hnd5).2.2 x hx x (by simp [hxp]) rfl
    · by_cases hi : i = idx
      · subst hi; rw [upd_same]; exact hnew
      · rw [upd_ne _ _ hi, hcol3 i hi]
        refine (r4 i hi).2.congr fun x hx => hframe3 x (by rintro rfl; exact ha2 i hx) fun hxp => ?_
        rcases (hmem x).1 (Or.inr (by simp [hxp])) with h | h
        · exact ho1.fdisj i x h hx
        · exact ho1.disj i idx hi x hx h
    · by_cases hi : i = idx
      · subst hi
        rw [upd_same]
        intro hm
        have : x = a ∨ x ∈ pre' ++ post' := by
          simp only [List.mem_append, List.mem_cons] at hm ⊢; tauto
        rcases this with rfl | h
        · exact haF' hx
        · exact (List.nodup_append.1 hnd5).2.2 x hx x h rfl
      · rw [upd_ne _ _ hi]
        intro hm
        rcases (hmem x).1 (Or.inl hx) with h | h
        · exact ho1.fdisj i x h hm
        · exact ho1.disj i idx hi x hm h
    · have aux : ∀ k, k ≠ idx → ∀ y ∈ L k, y ∉ pre' ++ a :: post' := by
        intro k hk y hy hm
        have : y = a ∨ y ∈ pre' ++ post' := by
          simp only [List.mem_append, List.mem_cons] at hm ⊢; tauto
        rcases this with rfl | h
        · exact ha2 k hy
        · rcases (hmem y).1 (Or.inr h) with h | h
          · exact ho1.fdisj k y h hy
          · exact ho1.disj k idx hk y hy h
      by_cases hi : i = idx
      · subst hi
        rw [upd_same] at hx
        rw [upd_ne _ _ (Ne.symm hij)]
        exact fun hm => aux j (Ne.symm hij) x hm hx
      · rw [upd_ne _ _ hi] at hx
        by_cases hj : j = idx
        · subst hj; rw [upd_same]; exact aux i hi x hx
        · rw [upd_ne _ _ hj]; exact ho1.disj i j hij x hx
    · rw [hpages3, r6, hpages2]
      have old : x ∈ F1 ∨ x ∈ L idx → x < h1.pages * pageSize := fun h =>
        ho1.bound x (h.imp id fun h => ⟨idx, h⟩)
      rcases hx with hx | ⟨i, hx⟩
      · exact old ((hmem x).1 (Or.inl hx))
      · by_cases hi : i = idx
        · subst hi
          rw [upd_same] at hx
          have : x = a ∨ x ∈ pre' ++ post' := by
            simp only [List.mem_append, List.mem_cons] at hx ⊢; tauto
          rcases this with rfl | h
          · exact ha3
          · exact old ((hmem x).1 (Or.inr h))
        · rw [upd_ne _ _ hi] at hx; exact ho1.bound x (Or.inr ⟨i, hx⟩)
    · rw [upd_ne _ _ hj, ← hmapL j, hval3]
      apply List.map_congr_left
      intro x hx
      rw [r7 x (by rintro rfl; exact ha2 j hx)]
    · rw [upd_same, hval3, List.map_append, List.map_cons, ← hmapL idx]
      have hm : ∀ l : List Nat, (∀ x ∈ l, x ∈ pre' ++ post') → l.map h'.val = l.map h2.val := by
        intro l hl
        apply List.map_congr_left
        intro x hx
        exact r7 x (by rintro rfl; exact haP' (hl _ hx))
      rw [hm pre' (fun x hx => by simp [hx]), hm post' (fun x hx => by simp [hx]), r8, hval2, upd_same]
      simp

/-! ## Histories -/

/-- One call of `addSpan`: cell, span, `flagMergeThr`. -/
structure AddOp where
  cell : Nat
  span : SpanV
  thr : Int

/-- A sequence of calls on a heightfield; the walks over columns are given `f` steps. -/
def runAdds (f : Nat) (h : SHeap) (ops : List AddOp) : Option SHeap :=
  ops.foldlM (fun h op => h.addSpan f op.cell op.span op.thr) h

/-- Spec: the column of a cell, as a list built by `insertSpan` from the calls for that cell. -/
def columnOf (cell : Nat) (ops : List AddOp) : List SpanV :=
  (ops.filter fun op => op.cell = cell).foldl (fun l op => insertSpan op.thr l op.span) []

/-- Reading a column through its pointers (as every filter does: `for s := hf.Spans[i]; s != nil;
s = s.next`). -/
def SHeap.readCol (h : SHeap) (f cell : Nat) : Option (List SpanV) :=
  (walkCollect h.next (fun _ => true) f (h.col cell)).map fun l => l.map h.val

theorem insertSpan_length (thr : Int) (l : List SpanV) : ∀ s, (insertSpan thr l s).length ≤ l.length + 1 := by
  induction l with
  | nil => intro s; simp [insertSpan]
  | cons c l ih =>
    intro s
    rw [insertSpan]
    split
    · simp
    · split
      · have := ih s; simp; omega
      · have := ih (s.merge thr c); simp; omega

theorem runAdds_spec (f : Nat) (ops : List AddOp) : ∀ (h : SHeap) (F : List Nat) (L : Nat → List Nat),
    Owned h F L → (∀ i, (L i).length + ops.length ≤ f) →
    ∃ h' F' L', runAdds f h ops = some h' ∧ Owned h' F' L' ∧
      ∀ i, (L' i).map h'.val =
        (ops.filter fun op => op.cell = i).foldl (fun l op => insertSpan op.thr l op.span) ((L i).map h.val) := by
  induction ops with
  | nil => intro h F L ho _; exact ⟨h, F, L, rfl, ho, fun i => rfl⟩
  | cons op ops ih =>
    intro h F L ho hf
    obtain ⟨h1, F1, L1, e1, ho1, m1, m2⟩ := addSpan_spec ho f op.cell (by have := hf op.cell; omega) op.span op.thr
    have hlen : ∀ i, (L1 i).length + ops.length ≤ f := by
      intro i
      have h0 := hf i
      simp only [List.length_cons] at h0
      by_cases hi : i = op.cell
      · subst hi
        have := congrArg List.length m2
        have h3 := insertSpan_length op.thr ((L op.cell).map h.val) op.span
        simp only [List.length_map] at this h3
        omega
      · have := congrArg List.length (m1 i hi)
        simp only [List.length_map] at this
        omega
    obtain ⟨h', F', L', e2, ho2, m3⟩ := ih h1 F1 L1 ho1 hlen
    refine ⟨h', F', L', ?_, ho2, fun i => ?_⟩
    · unfold runAdds at *
      rw [List.foldlM_cons, e1]
      exact e2
    · rw [m3 i]
      by_cases hi : i = op.cell
      · subst hi
        rw [m2, List.filter_cons_of_pos (by simp), List.foldl_cons]
      · rw [m1 i hi, List.filter_cons_of_neg (by simpa using fun h => hi h.symm)]

/-- **C42.** Whatever sequence of spans is inserted into a new heightfield, whichever cells they go to
and however many pages are needed: no call fails, all spans in all columns are at distinct addresses,
none of them is on the free list, and every column read through its pointers holds exactly what
inserting the spans of that cell into a list gives - insertions into other cells never show. -/
theorem addSpan_history (ops : List AddOp) {f : Nat} (hf : ops.length ≤ f) :
    ∃ h F L, runAdds f .empty ops = some h ∧ Owned h F L ∧
      ∀ i, h.readCol f i = some (columnOf i ops) := by
  obtain ⟨h, F, L, e, ho, m⟩ := runAdds_spec f ops .empty [] (fun _ => []) owned_empty (by simpa using hf)
  refine ⟨h, F, L, e, ho, fun i => ?_⟩
  have hlen : (L i).length ≤ f := by
    have h1 := congrArg List.length (m i)
    have h2 : ∀ (os : List AddOp) (l : List SpanV),
        (os.foldl (fun l op => insertSpan op.thr l op.span) l).length ≤ l.length + os.length := by
      intro os
      induction os with
      | nil => intro l; simp
      | cons o os ih =>
        intro l
        rw [List.foldl_cons]
        have := ih (insertSpan o.thr l o.span)
        have := insertSpan_length o.thr l o.span
        simp only [List.length_cons]
        omega
    have h3 := h2 (ops.filter fun op => op.cell = i) []
    have h4 := List.length_filter_le (fun op : AddOp => decide (op.cell = i)) ops
    simp only [List.length_map, List.map_nil, List.length_nil] at h1 h3
    omega
  unfold SHeap.readCol
  rw [walkCollect_eq (ho.col i) hlen]
  simp only [List.filter_true, Option.map_some]
  rw [m i]
  rfl

/-! ## Geometry of columns -/

/-- A span is not upside down. -/
def SpanV.Valid (s : SpanV) : Prop := s.smin ≤ s.smax

/-- Spec: the column is ordered bottom to top, no span is upside down, and between two spans there is
a gap. -/
def Canon (l : List SpanV) : Prop :=
  l.Pairwise (fun a b => a.smax < b.smin) ∧ ∀ s ∈ l, s.Valid

/-- Spec: the height `h`, measured in half voxels, is solid. (Half voxels see the gap of one voxel
between two spans and also spans of thickness 0.) -/
def Solid (l : List SpanV) (h : Nat) : Prop := ∃ s ∈ l, 2 * s.smin ≤ h ∧ h ≤ 2 * s.smax

theorem merge_smin (thr : Int) (s c : SpanV) : (s.merge thr c).smin = min s.smin c.smin := by
  unfold SpanV.merge; simp only; split <;> omega

theorem merge_smax (thr : Int) (s c : SpanV) : (s.merge thr c).smax = max s.smax c.smax := by
  unfold SpanV.merge; simp only; split <;> omega

theorem insertSpan_lower (thr : Int) (m : Nat) (l : List SpanV) : ∀ s, (∀ c ∈ l, m < c.smin) → m < s.smin →
    ∀ c ∈ insertSpan thr l s, m < c.smin := by
  induction l with
  | nil =>
    intro s _ hs c hc
    simp only [insertSpan, List.mem_singleton] at hc
    subst hc; exact hs
  | cons d l ih =>
    intro s hl hs c hc
    rw [insertSpan] at hc
    split at hc
    · rcases List.mem_cons.1 hc with rfl | hc
      · exact hs
      · exact hl c hc
    · split at hc
      · rcases List.mem_cons.1 hc with rfl | hc
        · exact hl c (by simp)
        · exact ih s (fun c hc => hl c (by simp [hc])) hs c hc
      · refine ih _ (fun c hc => hl c (by simp [hc])) ?_ c hc
        rw [merge_smin]
        have := hl d (by simp)
        omega

theorem insertSpan_canon (thr : Int) (l : List SpanV) : ∀ s, Canon l → s.Valid → Canon (insertSpan thr l s) := by
  induction l with
  | nil =>
    intro s _ hs
    refine ⟨by simp [insertSpan], fun c hc => ?_⟩
    simp only [insertSpan, List.mem_singleton] at hc
    subst hc; exact hs
  | cons d l ih =>
    intro s ⟨hp, hv⟩ hs
    rw [List.pairwise_cons] at hp
    have hd : d.Valid := hv d (by simp)
    have hcl : Canon l := ⟨hp.2, fun c hc => hv c (by simp [hc])⟩
    unfold SpanV.Valid at hd
    rw [insertSpan]
    split
    · rename_i h1
      refine ⟨?_, fun c hc => ?_⟩
      · rw [List.pairwise_cons, List.pairwise_cons]
        refine ⟨fun c hc => ?_, hp.1, hp.2⟩
        rcases List.mem_cons.1 hc with rfl | hc
        · exact h1
        · have := hp.1 c hc; omega
      · rcases List.mem_cons.1 hc with rfl | hc
        · exact hs
        · exact hv c hc
    · split
      · rename_i h1 h2
        obtain ⟨g1, g2⟩ := ih s hcl hs
        refine ⟨?_, fun c hc => ?_⟩
        · rw [List.pairwise_cons]
          exact ⟨insertSpan_lower thr d.smax l s hp.1 h2, g1⟩
        · rcases List.mem_cons.1 hc with rfl | hc
          · exact hv c (by simp)
          · exact g2 c hc
      · refine ih _ hcl ?_
        unfold SpanV.Valid at *
        rw [merge_smin, merge_smax]
        omega

theorem solid_insert (thr : Int) (h : Nat) (l : List SpanV) : ∀ s, s.Valid → (∀ c ∈ l, c.Valid) →
    (Solid (insertSpan thr l s) h ↔ Solid l h ∨ (2 * s.smin ≤ h ∧ h ≤ 2 * s.smax)) := by
  induction l with
  | nil => intro s _ _; simp [Solid, insertSpan]
  | cons d l ih =>
    intro s hs hv
    have hd : d.Valid := hv d (by simp)
    have hl : ∀ c ∈ l, c.Valid := fun c hc => hv c (by simp [hc])
    rw [insertSpan]
    have hcons : ∀ (x : SpanV) (xs : List SpanV), Solid (x :: xs) h ↔ (2 * x.smin ≤ h ∧ h ≤ 2 * x.smax) ∨ Solid xs h := by
      intro x xs; simp [Solid]
    split
    · rw [hcons]; exact or_comm
    · split
      · rw [hcons, ih s hs hl, hcons]; exact or_assoc.symm
      · rename_i h1 h2
        unfold SpanV.Valid at *
        rw [ih _ (by rw [merge_smin, merge_smax]; omega) hl, hcons, merge_smin, merge_smax]
        have : (2 * min s.smin d.smin ≤ h ∧ h ≤ 2 * max s.smax d.smax) ↔
            ((2 * d.smin ≤ h ∧ h ≤ 2 * d.smax) ∨ (2 * s.smin ≤ h ∧ h ≤ 2 * s.smax)) := by omega
        rw [this]
        tauto

/-- Columns with the same solid heights are the same, up to areas. -/
theorem canon_unique : ∀ (l l' : List SpanV), Canon l → Canon l' → (∀ h, Solid l h ↔ Solid l' h) →
    l.map (fun s => (s.smin, s.smax)) = l'.map (fun s => (s.smin, s.smax)) := by
  intro l
  induction l with
  | nil =>
    intro l' _ hc' he
    cases l' with
    | nil => rfl
    | cons b l' =>
      have hb : b.smin ≤ b.smax := hc'.2 b (by simp)
      have : Solid [] (2 * b.smin) := (he _).2 ⟨b, by simp, by omega, by omega⟩
      simp [Solid] at this
  | cons a l ih =>
    intro l' hc hc' he
    have ha : a.smin ≤ a.smax := hc.2 a (by simp)
    cases l' with
    | nil =>
      have : Solid [] (2 * a.smin) := (he _).1 ⟨a, by simp, by omega, by omega⟩
      simp [Solid] at this
    | cons b l' =>
      have hb : b.smin ≤ b.smax := hc'.2 b (by simp)
      obtain ⟨hp, hv⟩ := hc
      obtain ⟨hp', hv'⟩ := hc'
      rw [List.pairwise_cons] at hp hp'
      have hcons : ∀ (x : SpanV) (xs : List SpanV) h, Solid (x :: xs) h ↔ (2 * x.smin ≤ h ∧ h ≤ 2 * x.smax) ∨ Solid xs h := by
        intro x xs h; simp [Solid]
      -- heights in the tails lie above the first span
      have hlow : ∀ h, Solid l h → 2 * a.smax + 2 ≤ h := by
        rintro h ⟨c, hc, h1, h2⟩; have := hp.1 c hc; omega
      have hlow' : ∀ h, Solid l' h → 2 * b.smax + 2 ≤ h := by
        rintro h ⟨c, hc, h1, h2⟩; have := hp'.1 c hc; omega
      have e : ∀ h, ((2 * a.smin ≤ h ∧ h ≤ 2 * a.smax) ∨ Solid l h) ↔ ((2 * b.smin ≤ h ∧ h ≤ 2 * b.smax) ∨ Solid l' h) := by
        intro h; rw [← hcons, ← hcons]; exact he h
      have e1 : a.smin = b.smin := by
        rcases (e (2 * a.smin)).1 (Or.inl ⟨by omega, by omega⟩) with h1 | h1
        · rcases (e (2 * b.smin)).2 (Or.inl ⟨by omega, by omega⟩) with h2 | h2
          · omega
          · have := hlow _ h2; omega
        · have h1 := hlow' _ h1
          rcases (e (2 * b.smin)).2 (Or.inl ⟨by omega, by omega⟩) with h2 | h2
          · omega
          · have := hlow _ h2; omega
      have e2 : a.smax = b.smax := by
        by_contra hne
        rcases Nat.lt_or_gt_of_ne hne with hlt | hlt
        · rcases (e (2 * a.smax + 1)).2 (Or.inl ⟨by omega, by omega⟩) with h2 | h2
          · omega
          · have := hlow _ h2; omega
        · rcases (e (2 * b.smax + 1)).1 (Or.inl ⟨by omega, by omega⟩) with h2 | h2
          · omega
          · have := hlow' _ h2; omega
      have e3 : ∀ h, Solid l h ↔ Solid l' h := by
        intro h
        constructor
        · intro hs
          have := hlow h hs
          rcases (e h).1 (Or.inr hs) with h2 | h2
          · omega
          · exact h2
        · intro hs
          have := hlow' h hs
          rcases (e h).2 (Or.inr hs) with h2 | h2
          · omega
          · exact h2
      rw [List.map_cons, List.map_cons, ih l' ⟨hp.2, fun c hc => hv c (by simp [hc])⟩
        ⟨hp'.2, fun c hc => hv' c (by simp [hc])⟩ e3, e1, e2]

theorem foldl_canon (ops : List AddOp) : ∀ l, Canon l → (∀ op ∈ ops, op.span.Valid) →
    Canon (ops.foldl (fun l op => insertSpan op.thr l op.span) l) ∧
    ∀ h, Solid (ops.foldl (fun l op => insertSpan op.thr l op.span) l) h ↔
      Solid l h ∨ ∃ op ∈ ops, 2 * op.span.smin ≤ h ∧ h ≤ 2 * op.span.smax := by
  induction ops with
  | nil => intro l hl _; exact ⟨hl, by simp⟩
  | cons op ops ih =>
    intro l hl hv
    obtain ⟨h1, h2⟩ := ih _ (insertSpan_canon op.thr l op.span hl (hv op (by simp))) fun o ho => hv o (by simp [ho])
    refine ⟨h1, fun h => ?_⟩
    rw [List.foldl_cons, h2, solid_insert _ _ _ _ (hv op (by simp)) hl.2]
    simp only [List.mem_cons, exists_eq_or_imp]
    exact or_assoc

/-! ## Properties -/

/-- **C40.** After any sequence of insertions of spans that are not upside down, every column read
from the heightfield is ordered bottom to top with a gap between consecutive spans. -/
theorem columns_canonical (ops : List AddOp) (hv : ∀ op ∈ ops, op.span.Valid) {f : Nat} (hf : ops.length ≤ f) :
    ∃ h, runAdds f .empty ops = some h ∧ ∀ i, ∃ l, h.readCol f i = some l ∧ Canon l := by
  obtain ⟨h, F, L, e, -, hr⟩ := addSpan_history ops hf
  refine ⟨h, e, fun i => ⟨_, hr i, ?_⟩⟩
  exact (foldl_canon _ [] ⟨by simp, by simp⟩ fun op ho => hv op (List.mem_filter.1 ho).1).1

/-- **C41.** A height of a cell is solid iff one of the spans inserted into that cell covers it. -/
theorem columns_cover (ops : List AddOp) (hv : ∀ op ∈ ops, op.span.Valid) {f : Nat} (hf : ops.length ≤ f) :
    ∃ h, runAdds f .empty ops = some h ∧ ∀ i, ∃ l, h.readCol f i = some l ∧
      ∀ y, Solid l y ↔ ∃ op ∈ ops, op.cell = i ∧ 2 * op.span.smin ≤ y ∧ y ≤ 2 * op.span.smax := by
  obtain ⟨h, F, L, e, -, hr⟩ := addSpan_history ops hf
  refine ⟨h, e, fun i => ⟨_, hr i, fun y => ?_⟩⟩
  unfold columnOf
  rw [(foldl_canon _ [] ⟨by simp, by simp⟩ fun op ho => hv op (List.mem_filter.1 ho).1).2]
  simp [Solid, and_assoc]

/-- **C41.** The solid geometry does not depend on the order of insertion: after the same spans in any
other order (and with any merge thresholds) every column has the same spans, up to their areas. -/
theorem columns_order_independent (ops ops' : List AddOp)
    (hp : (ops.map fun op => (op.cell, op.span)).Perm (ops'.map fun op => (op.cell, op.span)))
    (hv : ∀ op ∈ ops, op.span.Valid) {f : Nat} (hf : ops.length ≤ f) :
    ∃ h h', runAdds f .empty ops = some h ∧ runAdds f .empty ops' = some h' ∧
      ∀ i, ∃ l l', h.readCol f i = some l ∧ h'.readCol f i = some l' ∧
        l.map (fun s => (s.smin, s.smax)) = l'.map (fun s => (s.smin, s.smax)) := by
  have hlen : ops'.length = ops.length := by have := hp.length_eq; simpa using this.symm
  have hmem : ∀ c s, (∃ op ∈ ops, op.cell = c ∧ op.span = s) ↔ ∃ op ∈ ops', op.cell = c ∧ op.span = s := by
    intro c s
    have := hp.mem_iff (a := (c, s))
    simpa [List.mem_map, Prod.ext_iff] using this
  have hv' : ∀ op ∈ ops', op.span.Valid := by
    intro op ho
    obtain ⟨o, ho', _, h2⟩ := (hmem op.cell op.span).2 ⟨op, ho, rfl, rfl⟩
    exact h2 ▸ hv o ho'
  obtain ⟨h, e, hc⟩ := columns_canonical ops hv hf
  obtain ⟨h', e', hc'⟩ := columns_canonical ops' hv' (f := f) (by omega)
  obtain ⟨h2, e2, hs⟩ := columns_cover ops hv hf
  obtain ⟨h2', e2', hs'⟩ := columns_cover ops' hv' (f := f) (by omega)
  rw [e] at e2; cases e2
  rw [e'] at e2'; cases e2'
  refine ⟨h, h', e, e', fun i => ?_⟩
  obtain ⟨l, r1, r2⟩ := hc i
  obtain ⟨l', r1', r2'⟩ := hc' i
  obtain ⟨m, s1, s2⟩ := hs i
  obtain ⟨m', s1', s2'⟩ := hs' i
  rw [r1] at s1; cases s1
  rw [r1'] at s1'; cases s1'
  refine ⟨l, l', r1, r1', canon_unique l l' r2 r2' fun y => ?_⟩
  rw [s2, s2']
  constructor
  · rintro ⟨op, ho, h1, h2⟩
    obtain ⟨o, ho', g1, g2⟩ := (hmem op.cell op.span).1 ⟨op, ho, rfl, rfl⟩
    exact ⟨o, ho', g1.trans h1, g2 ▸ h2⟩
  · rintro ⟨op, ho, h1, h2⟩
    obtain ⟨o, ho', g1, g2⟩ := (hmem op.cell op.span).2 ⟨op, ho, rfl, rfl⟩
    exact ⟨o, ho', g1.trans h1, g2 ▸ h2⟩

theorem merge_area (thr : Int) (s c : SpanV) : (s.merge thr c).area =
    if (max s.smax c.smax : Nat) - (c.smax : Int) ≤ thr then max s.area c.area else s.area := by
  have e : (if c.smax > s.smax then c.smax else s.smax) = max s.smax c.smax := by split <;> omega
  have e2 : (if c.area > s.area then c.area else s.area) = max s.area c.area := by split <;> omega
  unfold SpanV.merge
  simp only [e, e2]
  have e3 : ((((max s.smax c.smax : Nat) : Int) - (c.smax : Int)).natAbs : Int) =
      ((max s.smax c.smax : Nat) : Int) - (c.smax : Int) := by omega
  rw [e3]

theorem merge_area_ge (thr : Int) (s c : SpanV) : s.area ≤ (s.merge thr c).area := by
  rw [merge_area]; split <;> omega

/-- **C82.** What one insertion does to a column: exactly one span `x` contains the new span; all other
spans of the result were there before, untouched. Its area is not smaller than that of the new span,
is the area of the new span or of an absorbed one whose top is not further below the new top than the
threshold, and is at least that of every absorbed span whose top is within the threshold of the final
top. -/
theorem insert_area (thr : Int) (l : List SpanV) : ∀ s, ∃ pre x post absorbed,
    insertSpan thr l s = pre ++ x :: post ∧ l.Perm (pre ++ absorbed ++ post) ∧
    x.smin ≤ s.smin ∧ s.smax ≤ x.smax ∧ s.area ≤ x.area ∧
    (x.area = s.area ∨ ∃ c ∈ absorbed, c.area = x.area ∧ 0 ≤ thr ∧ (s.smax : Int) - c.smax ≤ thr) ∧
    (∀ c ∈ absorbed, x.smin ≤ c.smin ∧ c.smax ≤ x.smax ∧
      ((x.smax : Int) - c.smax ≤ thr → c.area ≤ x.area)) := by
  induction l with
  | nil => intro s; exact ⟨[], s, [], [], rfl, by simp, by omega, by omega, by omega, Or.inl rfl, by simp⟩
  | cons d l ih =>
    intro s
    rw [insertSpan]
    split
    · exact ⟨[], s, d :: l, [], rfl, by simp, by omega, by omega, by omega, Or.inl rfl, by simp⟩
    · split
      · obtain ⟨pre, x, post, ab, h1, h2, h3⟩ := ih s
        exact ⟨d :: pre, x, post, ab, by rw [h1]; rfl, by simpa using h2, h3⟩
      · obtain ⟨pre, x, post, ab, h1, h2, h3, h4, h5, h6, h7⟩ := ih (s.merge thr d)
        have ma := merge_area_ge thr s d
        rw [merge_smin] at h3
        rw [merge_smax] at h4
        refine ⟨pre, x, post, d :: ab, h1, ?_, by omega, by omega, by omega, ?_, fun c hc => ?_⟩
        · refine (h2.cons d).trans ?_
          rw [List.append_assoc, List.append_assoc, List.cons_append]
          exact List.perm_middle.symm
        · rcases h6 with h6 | ⟨c, hc, h6⟩
          · rw [h6]
            rw [merge_area]
            split
            · rcases Nat.le_total s.area d.area with h | h
              · exact Or.inr ⟨d, by simp, (max_eq_right h).symm, by omega, by omega⟩
              · exact Or.inl (max_eq_left h)
            · exact Or.inl rfl
          · have := merge_smax thr s d
            exact Or.inr ⟨c, by simp [hc], h6.1, h6.2.1, by omega⟩
        · rcases List.mem_cons.1 hc with rfl | hc
          · refine ⟨by omega, by omega, fun ht => ?_⟩
            have : c.area ≤ (s.merge thr c).area := by
              rw [merge_area, if_pos]
              · omega
              · omega
            omega
          · exact h7 c hc

/-- Three insertions into one column, in two orders, and one into another cell. -/
example : columnOf 3 [⟨3, ⟨0, 4, 1⟩, 1⟩, ⟨3, ⟨8, 9, 2⟩, 1⟩, ⟨5, ⟨0, 1, 7⟩, 1⟩, ⟨3, ⟨4, 5, 63⟩, 1⟩] =
    [⟨0, 5, 63⟩, ⟨8, 9, 2⟩] := rfl

example : ∃ h, runAdds 4 .empty [⟨3, ⟨4, 5, 63⟩, 1⟩, ⟨3, ⟨8, 9, 2⟩, 1⟩, ⟨5, ⟨0, 1, 7⟩, 1⟩, ⟨3, ⟨0, 4, 1⟩, 1⟩] = some h ∧
    h.readCol 4 3 = some [⟨0, 5, 63⟩, ⟨8, 9, 2⟩] ∧ h.readCol 4 5 = some [⟨0, 1, 7⟩] ∧ h.readCol 4 6 = some [] := by
  obtain ⟨h, F, L, e, -, hr⟩ := addSpan_history
    [⟨3, ⟨4, 5, 63⟩, 1⟩, ⟨3, ⟨8, 9, 2⟩, 1⟩, ⟨5, ⟨0, 1, 7⟩, 1⟩, ⟨3, ⟨0, 4, 1⟩, 1⟩] (f := 4) (by decide)
  exact ⟨h, e, hr 3, hr 5, hr 6⟩

/-- Areas, unlike the geometry, do depend on the order. -/
example : columnOf 0 [⟨0, ⟨0, 4, 9⟩, 1⟩, ⟨0, ⟨4, 5, 2⟩, 1⟩, ⟨0, ⟨5, 8, 1⟩, 1⟩] = [⟨0, 8, 1⟩] ∧
    columnOf 0 [⟨0, ⟨0, 4, 9⟩, 1⟩, ⟨0, ⟨5, 8, 1⟩, 1⟩, ⟨0, ⟨4, 5, 2⟩, 1⟩] = [⟨0, 8, 9⟩] := ⟨by decide, by decide⟩

end Verif.Recast
