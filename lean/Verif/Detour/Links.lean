/-
The link pool of a tile: `allocLink`, `freeLink`, the insertion of a link at the front of a polygon's
list, `connectIntLinks` and `unconnectLinks` (detour/mesh.go:384-392, 569-610, 642-654, 1390-1419).

Simplification: `nullLink` (0xffffffff) is `none`; a pool has fewer than 2^31 links
(`MaxLinkCount` is an int32), so no index collides with it.
-/
import Verif.Common.Chain
import Verif.Detour.Bits
import Verif.Detour.TileData

namespace Verif.Detour

/-! ## Model -/

/-- The fields of `Link` other than `Next` (detour/mesh.go:674-681). -/
structure LinkInfo where
  ref : U32
  edge : Byte
  side : Byte
  bmin : Byte
  bmax : Byte
  deriving DecidableEq, Repr

/-- Link pool of a tile: `Links` (of length `n`), `LinksFreeList` and the `FirstLink` field of each
polygon. -/
structure LTile where
  n : Nat
  next : Nat → Option Nat
  info : Nat → LinkInfo
  first : Nat → Option Nat
  free : Option Nat

namespace LTile

/-- "Build links freelist" of `AddTile` (detour/mesh.go:384-392); contents and `FirstLink` are those
of the tile data. -/
def fresh (n : Nat) (info : Nat → LinkInfo) (first : Nat → Option Nat) : LTile :=
  ⟨n, fun i => if i + 1 < n then some (i + 1) else none, info, first, some 0⟩

/-- `idx := allocLink(tile); if idx != nullLink { fill; link.Next = poly.FirstLink;
poly.FirstLink = idx }`, the sequence used at every link creation (detour/mesh.go:596-607, 642-649,
822-833, 836-849, 1186-1217, 1287-1298). `none` is an index out of range. -/
def push (t : LTile) (p : Nat) (l : LinkInfo) : Option LTile :=
  match t.free with
  | none => some t
  | some k =>
    if k < t.n then
      some { t with free := t.next k, info := upd t.info k l,
                    next := upd t.next k (t.first p), first := upd t.first p (some k) }
    else none

/-- The inner loop of `unconnectLinks` (detour/mesh.go:1399-1418) for polygon `p`, at link `j` with
predecessor `pj`; `hit` is `decodePolyIDTile(link.Ref) == targetNum`. `none` is an index out of range
or a loop longer than the fuel. -/
def cutLoop (hit : LinkInfo → Bool) (p : Nat) : Nat → Option Nat → Option Nat → LTile → Option LTile
  | _, _, none, t => some t
  | 0, _, some _, _ => none
  | f + 1, pj, some j, t =>
    if j < t.n then
      if hit (t.info j) then
        let nj := t.next j
        let t1 : LTile := match pj with
          | none => { t with first := upd t.first p nj }
          | some q => { t with next := upd t.next q nj }
        cutLoop hit p f pj nj { t1 with next := upd t1.next j t1.free, free := some j }
      else cutLoop hit p f (some j) (t.next j) t
    else none

/-- `unconnectLinks` (detour/mesh.go:1390-1419) on a tile with `P` polygons: polygons `p ..< p + k`. -/
def cutFrom (hit : LinkInfo → Bool) : Nat → Nat → LTile → Option LTile
  | 0, _, t => some t
  | k + 1, p, t => (cutLoop hit p t.n none (t.first p) t).bind (cutFrom hit k (p + 1))

/-- `unconnectLinks` for all `P` polygons. -/
def cut (hit : LinkInfo → Bool) (P : Nat) (t : LTile) : Option LTile := cutFrom hit P 0 t

/-- What a user reads: the loop `for i := poly.FirstLink; i != nullLink; i = tile.Links[i].Next`
(e.g. detour/query.go:255, 816). -/
def links (t : LTile) (p : Nat) : Option (List LinkInfo) :=
  (walkCollect t.next (fun _ => true) t.n (t.first p)).map (·.map t.info)

end LTile

/-- The edge loop of `connectIntLinks` for polygon number `i` (detour/mesh.go:588-608), edges
`k-1, ..., 0`; `none` is an index out of range. -/
def connectEdges (base : U32) (p : Poly) (i : Nat) : Nat → LTile → Option LTile
  | 0, t => some t
  | j + 1, t =>
    match p.neis[j]? with
    | none => none
    | some ne =>
      if ne = 0#16 ∨ ne &&& 0x8000#16 ≠ 0#16 then connectEdges base p i j t
      else (t.push i ⟨base ||| (ne - 1#16).setWidth 32, BitVec.ofNat 8 j, 0xff#8, 0#8, 0#8⟩).bind
        (connectEdges base p i j)

/-- `int32(poly.VertCount - 1)` is computed in uint8: the loop starts at edge 255 when `VertCount`
is 0 (detour/mesh.go:590). -/
def edgeStart (p : Poly) : Nat := (p.vertCount - 1#8).toNat + 1

/-- `connectIntLinks` (detour/mesh.go:569-610) from polygon `i` on. -/
def connectInt (base : U32) : List Poly → Nat → LTile → Option LTile
  | [], _, t => some t
  | p :: ps, i, t =>
    let t := { t with first := upd t.first i none }
    if polyType p.areaAndType = 1#8 then connectInt base ps (i + 1) t
    else (connectEdges base p i (edgeStart p) t).bind (connectInt base ps (i + 1))

/-! ## Specification -/

/-- Spec: a link operation on a tile. -/
inductive LOp where
  | push (p : Nat) (l : LinkInfo)
  | cut (hit : LinkInfo → Bool)

/-- Spec: links in use when polygon `p` has the list `c p`. -/
def used (P : Nat) (c : Nat → List LinkInfo) : Nat := ((List.range P).map fun p => (c p).length).sum

/-- Spec: effect of an operation on the link lists of a tile with `P` polygons and room for `n`
links. -/
def specLink (n P : Nat) (c : Nat → List LinkInfo) : LOp → Nat → List LinkInfo
  | .push p l => if used P c < n then upd c p (l :: c p) else c
  | .cut hit => fun p => (c p).filter fun l => !hit l

/-- One operation of the model. -/
def LTile.step (P : Nat) (t : LTile) : LOp → Option LTile
  | .push p l => t.push p l
  | .cut hit => t.cut hit P

/-- A sequence of operations of the model. -/
def LTile.run (P : Nat) : List LOp → LTile → Option LTile
  | [], t => some t
  | o :: os, t => (t.step P o).bind (LTile.run P os)

/-! ## Invariant -/

/-- The pool is split into the free list `F` and the lists `L p` of the `P` polygons. -/
structure LInv (t : LTile) (P : Nat) (F : List Nat) (L : Nat → List Nat) : Prop where
  cfree : Chain t.next t.free F
  cpoly : ∀ p, p < P → Chain t.next (t.first p) (L p)
  fmem : ∀ k ∈ F, k < t.n
  lmem : ∀ p, p < P → ∀ k ∈ L p, k < t.n
  disj : ∀ p, p < P → ∀ k ∈ F, k ∉ L p
  disj' : ∀ p q, p < P → q < P → p ≠ q → ∀ k ∈ L p, k ∉ L q
  total : F.length + ((List.range P).map fun p => (L p).length).sum = t.n

theorem sum_upd_list {α : Type} (P : Nat) (L : Nat → List α) (p : Nat) (hp : p < P) (l : List α) :
    ((List.range P).map fun q => (upd L p l q).length).sum + (L p).length
      = ((List.range P).map fun q => (L q).length).sum + l.length := by
  induction P with
  | zero => omega
  | succ P ih =>
    rw [List.range_succ, List.map_append, List.map_append, List.sum_append, List.sum_append]
    simp only [List.map_cons, List.map_nil, List.sum_cons, List.sum_nil, Nat.add_zero]
    by_cases h : p = P
    · subst h
      rw [upd_same]
      have : ((List.range p).map fun q => (upd L p l q).length)
          = (List.range p).map fun q => (L q).length := by
        apply List.map_congr_left
        intro a ha
        rw [upd_ne _ _ (by have := List.mem_range.1 ha; omega)]
      rw [this]
      omega
    · rw [upd_ne _ _ (fun hc => h hc.symm)]
      have := ih (by omega)
      omega

theorem LInv.links_eq {t : LTile} {P F L} (w : LInv t P F L) {p : Nat} (hp : p < P) :
    t.links p = some ((L p).map t.info) := by
  unfold LTile.links
  rw [walkCollect_eq (w.cpoly p hp) ((w.cpoly p hp).length_le (w.lmem p hp))]
  simp

/-- The slots of the pool are partitioned. -/
theorem LInv.partition {t : LTile} {P F L} (w : LInv t P F L) {k : Nat} (hk : k < t.n) :
    k ∈ F ∨ ∃ p, p < P ∧ k ∈ L p := by
  have key : ∀ Q, Q ≤ P → (F ++ (List.range Q).flatMap L).Nodup := by
    intro Q hQ
    rw [List.nodup_append]
    refine ⟨w.cfree.nodup, ?_, ?_⟩
    · rw [List.nodup_flatMap]
      refine ⟨fun p hp => (w.cpoly p (by have := List.mem_range.1 hp; omega)).nodup, ?_⟩
      have hnd : (List.range Q).Nodup := List.nodup_range
      refine List.Pairwise.imp_of_mem ?_ hnd
      intro a b ha hb hab
      have ha := List.mem_range.1 ha
      have hb := List.mem_range.1 hb
      intro x hx hx'
      exact w.disj' a b (by omega) (by omega) hab x hx hx'
    · intro a ha b hb hab
      subst hab
      obtain ⟨p, hp, hm⟩ := List.mem_flatMap.1 hb
      exact w.disj p (by have := List.mem_range.1 hp; omega) a ha hm
  have hnd := key P (Nat.le_refl _)
  have hlen : (F ++ (List.range P).flatMap L).length = t.n := by
    rw [List.length_append, List.length_flatMap]
    exact w.total
  have hsub : F ++ (List.range P).flatMap L ⊆ List.range t.n := by
    intro x hx
    rw [List.mem_range]
    rcases List.mem_append.1 hx with h | h
    · exact w.fmem x h
    · obtain ⟨p, hp, hm⟩ := List.mem_flatMap.1 h
      exact w.lmem p (List.mem_range.1 hp) x hm
  have hperm : (F ++ (List.range P).flatMap L).Perm (List.range t.n) :=
    (List.subperm_of_subset hnd hsub).perm_of_length_le (by rw [hlen, List.length_range])
  have : k ∈ F ++ (List.range P).flatMap L := hperm.mem_iff.2 (List.mem_range.2 hk)
  rcases List.mem_append.1 this with h | h
  · exact Or.inl h
  · obtain ⟨p, hp, hm⟩ := List.mem_flatMap.1 h
    exact Or.inr ⟨p, List.mem_range.1 hp, hm⟩

theorem fresh_chain (n : Nat) (info first) (m k : Nat) (h : k + m = n) :
    Chain (LTile.fresh n info first).next (if k < n then some k else none) (List.range' k m) := by
  induction m generalizing k with
  | zero =>
    rw [if_neg (by omega)]
    exact rfl
  | succ m ih =>
    rw [if_pos (by omega), List.range'_succ]
    exact ⟨rfl, ih (k + 1) (by omega)⟩

theorem fresh_inv (n : Nat) (info first) (hn : 0 < n) :
    LInv (LTile.fresh n info first) 0 (List.range n) (fun _ => []) := by
  refine ⟨?_, by omega, ?_, by omega, by omega, by omega, by simp [LTile.fresh]⟩
  · have := fresh_chain n info first n 0 (by omega)
    rw [if_pos hn] at this
    rw [List.range_eq_range']
    exact this
  · intro k hk
    exact List.mem_range.1 hk

/-- Resetting `FirstLink` of the next polygon. -/
theorem LInv.reset {t : LTile} {P F L} (w : LInv t P F L) :
    LInv { t with first := upd t.first P none } (P + 1) F (upd L P []) := by
  refine ⟨w.cfree, ?_, w.fmem, ?_, ?_, ?_, ?_⟩
  · intro p hp
    by_cases h : p = P
    · subst h; simp only [upd_same]; exact rfl
    · simp only [upd_ne _ _ h]; exact w.cpoly p (by omega)
  · intro p hp
    by_cases h : p = P
    · subst h; simp
    · simp only [upd_ne _ _ h]; exact w.lmem p (by omega)
  · intro p hp
    by_cases h : p = P
    · subst h; simp
    · simp only [upd_ne _ _ h]; exact w.disj p (by omega)
  · intro p q hp hq hne
    by_cases h : p = P
    · subst h; simp
    · by_cases h' : q = P
      · subst h'; simp
      · simp only [upd_ne _ _ h, upd_ne _ _ h']; exact w.disj' p q (by omega) (by omega) hne
  · rw [← w.total, List.range_succ, List.map_append, List.sum_append]
    simp only [List.map_cons, List.map_nil, upd_same, List.length_nil, List.sum_cons, List.sum_nil,
      Nat.add_zero]
    congr 2
    apply List.map_congr_left
    intro a ha
    rw [upd_ne _ _ (by have := List.mem_range.1 ha; omega)]

/-! ### Insertion -/

theorem push_inv {t : LTile} {P F L} (w : LInv t P F L) {p : Nat} (hp : p < P) (l : LinkInfo) :
    ∃ t' F' L', t.push p l = some t' ∧ LInv t' P F' L' ∧ t'.n = t.n ∧
      (F = [] → t' = t ∧ F' = F ∧ L' = L) ∧
      (F ≠ [] → (∃ k, F = k :: F' ∧ L' = upd L p (k :: L p)) ∧
        ∀ q, q < P → (L' q).map t'.info = upd (fun q => (L q).map t.info) p
          (l :: (L p).map t.info) q) := by
  cases F with
  | nil =>
    refine ⟨t, [], L, ?_, w, rfl, fun _ => ⟨rfl, rfl, rfl⟩, fun h => absurd rfl h⟩
    unfold LTile.push
    rw [show t.free = none from w.cfree]
  | cons k F =>
    have hf : t.free = some k := w.cfree.1
    have hk : k < t.n := w.fmem k (by simp)
    have hkF : k ∉ F := (List.nodup_cons.1 w.cfree.nodup).1
    have hkL : ∀ q, q < P → k ∉ L q := fun q hq => w.disj q hq k (by simp)
    refine ⟨{ t with free := t.next k, info := upd t.info k l,
                     next := upd t.next k (t.first p), first := upd t.first p (some k) },
      F, upd L p (k :: L p), by unfold LTile.push; rw [hf]; simp only [if_pos hk], ?_, rfl,
      fun h => by simp at h, fun _ => ⟨⟨k, rfl, rfl⟩, ?_⟩⟩
    · refine ⟨w.cfree.2.upd_notMem hkF, ?_, fun x hx => w.fmem x (by simp [hx]), ?_, ?_, ?_, ?_⟩
      · intro q hq
        by_cases h : q = p
        · subst h
          simp only [upd_same]
          exact (w.cpoly q hq).push (hkL q hq)
        · simp only [upd_ne _ _ h]
          exact (w.cpoly q hq).upd_notMem (hkL q hq)
      · intro q hq x hx
        by_cases h : q = p
        · subst h
          rw [upd_same] at hx
          rcases List.mem_cons.1 hx with rfl | hx
          · exact hk
          · exact w.lmem q hq x hx
        · rw [upd_ne _ _ h] at hx
          exact w.lmem q hq x hx
      · intro q hq x hx
        by_cases h : q = p
        · subst h
          rw [upd_same, List.mem_cons]
          rintro (rfl | hm)
          · exact hkF hx
          · exact w.disj q hq x (by simp [hx]) hm
        · rw [upd_ne _ _ h]
          exact w.disj q hq x (by simp [hx])
      · intro q r hq hr hne x hx
        by_cases h : q = p
        · subst h
          rw [upd_same] at hx
          rw [upd_ne _ _ (fun hc => hne hc.symm)]
          rcases List.mem_cons.1 hx with rfl | hx
          · exact hkL r hr
          · exact w.disj' q r hq hr hne x hx
        · rw [upd_ne _ _ h] at hx
          by_cases h' : r = p
          · subst h'
            rw [upd_same, List.mem_cons]
            rintro (rfl | hm)
            · exact hkL q hq hx
            · exact w.disj' q r hq hr hne x hx hm
          · rw [upd_ne _ _ h']
            exact w.disj' q r hq hr hne x hx
      · have := sum_upd_list P L p hp (k :: L p)
        have ht := w.total
        simp only [List.length_cons] at this ht ⊢
        omega
    · intro q hq
      have hmap : ∀ ks : List Nat, k ∉ ks → ks.map (upd t.info k l) = ks.map t.info := by
        intro ks hks
        apply List.map_congr_left
        intro a ha
        exact upd_ne _ _ (by rintro rfl; exact hks ha)
      by_cases h : q = p
      · subst h
        simp only [upd_same, List.map_cons]
        rw [hmap _ (hkL q hq)]
      · simp only [upd_ne _ _ h]
        exact hmap _ (hkL q hq)

/-! ### Removal -/

/-- Removing link `j`, found after `l₁`, from polygon `p`'s list and putting it on the free list. -/
theorem cut_one {t : LTile} {P F L} (w : LInv t P F L) {p : Nat} (hp : p < P) {l₁ l₂ : List Nat}
    {j : Nat} (hl : L p = l₁ ++ j :: l₂) (t1 : LTile)
    (ht : t1 = match l₁.getLast? with
      | none => { t with first := upd t.first p (t.next j) }
      | some q => { t with next := upd t.next q (t.next j) }) :
    LInv { t1 with next := upd t1.next j t1.free, free := some j } P (j :: F) (upd L p (l₁ ++ l₂)) ∧
      t1.n = t.n ∧ t1.info = t.info := by
  have hu := w.cpoly p hp
  rw [hl] at hu
  have hnd := hu.nodup
  have hnext : t1.next = (unlinkAt t.next (t.first p) l₁.getLast? j).1 := by
    rw [ht]; cases l₁.getLast? <;> rfl
  have hfirst : t1.first = upd t.first p (unlinkAt t.next (t.first p) l₁.getLast? j).2 := by
    rw [ht]
    cases l₁.getLast? with
    | none => rfl
    | some q =>
      funext x
      by_cases h : x = p
      · subst h; simp [unlinkAt]
      · simp [upd_ne _ _ h]
  have hfree : t1.free = t.free := by rw [ht]; cases l₁.getLast? <;> rfl
  have hn : t1.n = t.n := by rw [ht]; cases l₁.getLast? <;> rfl
  have hinfo : t1.info = t.info := by rw [ht]; cases l₁.getLast? <;> rfl
  have hjp : j ∈ L p := by rw [hl]; simp
  have hj12 : j ∉ l₁ ++ l₂ := by
    intro hk'
    rw [List.nodup_append] at hnd
    rcases List.mem_append.1 hk' with hk' | hk'
    · exact hnd.2.2 j hk' j (by simp) rfl
    · exact (List.nodup_cons.1 hnd.2.1).1 hk'
  have hjF : j ∉ F := fun hf => w.disj p hp j hf hjp
  have hsub : ∀ x, x ∈ l₁ ++ l₂ → x ∈ L p := by
    intro x hx
    rw [hl]
    rcases List.mem_append.1 hx with h | h
    · simp [h]
    · simp [h]
  have hl1 : ∀ x ∈ l₁, x ∈ L p := fun x hx => hsub x (by simp [hx])
  refine ⟨⟨?_, ?_, ?_, ?_, ?_, ?_, ?_⟩, hn, hinfo⟩
  · show Chain (upd t1.next j t1.free) (some j) (j :: F)
    rw [hfree, hnext]
    apply Chain.push _ hjF
    exact w.cfree.congr fun a ha => unlinkAt_frame fun h1 => w.disj p hp a ha (hl1 a h1)
  · intro q hq
    show Chain (upd t1.next j t1.free) (t1.first q) _
    rw [hnext, hfirst]
    by_cases h : q = p
    · subst h
      rw [upd_same, upd_same]
      exact (unlinkAt_chain hu).upd_notMem hj12
    · rw [upd_ne _ _ h, upd_ne _ _ h]
      apply Chain.upd_notMem _ (w.disj' p q hp hq (fun hc => h hc.symm) j hjp)
      exact (w.cpoly q hq).congr fun a ha => unlinkAt_frame fun h1 =>
        w.disj' q p hq hp h a ha (hl1 a h1)
  · intro k hk
    show k < t1.n
    rw [hn]
    rcases List.mem_cons.1 hk with rfl | hk
    · exact w.lmem p hp k hjp
    · exact w.fmem k hk
  · intro q hq k hk
    show k < t1.n
    rw [hn]
    by_cases h : q = p
    · subst h; rw [upd_same] at hk; exact w.lmem q hq k (hsub k hk)
    · rw [upd_ne _ _ h] at hk; exact w.lmem q hq k hk
  · intro q hq k hk
    by_cases h : q = p
    · subst h
      rw [upd_same]
      rcases List.mem_cons.1 hk with rfl | hk
      · exact hj12
      · exact fun hm => w.disj q hq k hk (hsub k hm)
    · rw [upd_ne _ _ h]
      rcases List.mem_cons.1 hk with rfl | hk
      · exact w.disj' p q hp hq (fun hc => h hc.symm) k hjp
      · exact w.disj q hq k hk
  · intro q r hq hr hne k hk
    by_cases h : q = p
    · subst h
      rw [upd_same] at hk
      rw [upd_ne _ _ (fun hc => hne hc.symm)]
      exact w.disj' q r hq hr hne k (hsub k hk)
    · rw [upd_ne _ _ h] at hk
      by_cases h' : r = p
      · subst h'
        rw [upd_same]
        exact fun hm => w.disj' q r hq hr hne k hk (hsub k hm)
      · rw [upd_ne _ _ h']
        exact w.disj' q r hq hr hne k hk
  · show _ = t1.n
    rw [hn]
    have := sum_upd_list P L p hp (l₁ ++ l₂)
    have ht' := w.total
    rw [hl] at this
    simp only [List.length_cons, List.length_append] at this ⊢
    omega

theorem upd_self {α : Type} (f : Nat → α) (i : Nat) : upd f i (f i) = f := by
  funext j
  by_cases h : j = i
  · subst h; simp
  · simp [upd_ne _ _ h]

theorem upd_upd {α : Type} (f : Nat → α) (i : Nat) (a b : α) : upd (upd f i a) i b = upd f i b := by
  funext j
  by_cases h : j = i
  · subst h; simp
  · simp [upd_ne _ _ h]

theorem cutLoop_inv (hit : LinkInfo → Bool) {p P : Nat} (hp : p < P) (l₂ : List Nat) :
    ∀ (f : Nat) (l₁ : List Nat) (j : Option Nat) (t : LTile) (F : List Nat) (L : Nat → List Nat),
      LInv t P F L → L p = l₁ ++ l₂ → Chain t.next j l₂ → l₂.length ≤ f →
      ∃ t' F', t.cutLoop hit p f l₁.getLast? j = some t' ∧
        LInv t' P F' (upd L p (l₁ ++ l₂.filter fun k => !hit (t.info k))) ∧ t'.n = t.n ∧
        t'.info = t.info := by
  induction l₂ with
  | nil =>
    intro f l₁ j t F L w hl hc _
    have hj : j = none := hc
    subst hj
    refine ⟨t, F, by cases f <;> rfl, ?_, rfl, rfl⟩
    rw [List.filter_nil, ← hl, upd_self]
    exact w
  | cons a l₂ ih =>
    intro f l₁ j t F L w hl hc hf
    obtain ⟨rfl, hc⟩ := hc
    obtain ⟨f, rfl⟩ : ∃ k, f = k + 1 := ⟨f - 1, by simp at hf; omega⟩
    have ha : a < t.n := w.lmem p hp a (by rw [hl]; simp)
    rw [LTile.cutLoop, if_pos ha]
    by_cases hh : hit (t.info a) = true
    · rw [if_pos hh]
      simp only
      generalize hg : (match l₁.getLast? with
          | none => { t with first := upd t.first p (t.next a) }
          | some q => { t with next := upd t.next q (t.next a) } : LTile) = t1
      obtain ⟨w', hn, hi⟩ := cut_one w hp hl t1 hg.symm
      have hnd := (w.cpoly p hp).nodup
      rw [hl] at hnd
      have hnd2 := (List.nodup_append.1 hnd).2.1
      have hal2 : a ∉ l₂ := (List.nodup_cons.1 hnd2).1
      have hc' : Chain (upd t1.next a t1.free) (t.next a) l₂ := by
        apply Chain.upd_notMem _ hal2
        have hnext : t1.next = (unlinkAt t.next (t.first p) l₁.getLast? a).1 := by
          rw [← hg]; cases l₁.getLast? <;> rfl
        rw [hnext]
        refine hc.congr fun x hx => unlinkAt_frame fun hx1 => ?_
        exact (List.nodup_append.1 hnd).2.2 x hx1 x (by simp [hx]) rfl
      obtain ⟨t', F', e, w'', hn', hi'⟩ := ih f l₁ (t.next a) _ _ _ w' (upd_same _ _ _) hc'
        (by simpa using hf)
      refine ⟨t', F', e, ?_, hn'.trans hn, hi'.trans hi⟩
      rw [upd_upd] at w''
      rw [List.filter_cons, if_neg (by simp [hh])]
      have e2 : ({ t1 with next := upd t1.next a t1.free, free := some a } : LTile).info = t.info := hi
      rw [e2] at w''
      exact w''
    · rw [if_neg hh]
      have hlast : some a = (l₁ ++ [a]).getLast? := by simp
      rw [hlast]
      obtain ⟨t', F', e, w'', hn', hi'⟩ := ih f (l₁ ++ [a]) (t.next a) t F L w (by rw [hl]; simp) hc
        (by simpa using hf)
      refine ⟨t', F', e, ?_, hn', hi'⟩
      rw [List.filter_cons, if_pos (by simp [hh])]
      simpa using w''

theorem cutFrom_inv (hit : LinkInfo → Bool) {P : Nat} (k : Nat) :
    ∀ (p : Nat) (t : LTile) (F : List Nat) (L : Nat → List Nat), p + k = P → LInv t P F L →
      ∃ t' F', t.cutFrom hit k p = some t' ∧
        LInv t' P F' (fun q => if p ≤ q then (L q).filter (fun i => !hit (t.info i)) else L q) ∧
        t'.n = t.n ∧ t'.info = t.info := by
  induction k with
  | zero =>
    intro p t F L hp w
    refine ⟨t, F, rfl, ?_, rfl, rfl⟩
    have key : ∀ q, q < P → (if p ≤ q then (L q).filter (fun i => !hit (t.info i)) else L q) = L q :=
      fun q hq => if_neg (by omega)
    refine ⟨w.cfree, ?_, w.fmem, ?_, ?_, ?_, ?_⟩
    · intro q hq; rw [key q hq]; exact w.cpoly q hq
    · intro q hq; rw [key q hq]; exact w.lmem q hq
    · intro q hq; rw [key q hq]; exact w.disj q hq
    · intro q r hq hr; rw [key q hq, key r hr]; exact w.disj' q r hq hr
    · rw [← w.total]
      congr 2
      apply List.map_congr_left
      intro q hq
      rw [key q (List.mem_range.1 hq)]
  | succ k ih =>
    intro p t F L hp w
    have hc := w.cpoly p (by omega)
    obtain ⟨t1, F1, e1, w1, n1, i1⟩ := cutLoop_inv hit (by omega) (L p) t.n [] (t.first p) t F L w
      rfl hc (hc.length_le (w.lmem p (by omega)))
    obtain ⟨t2, F2, e2, w2, n2, i2⟩ := ih (p + 1) t1 F1 _ (by omega) w1
    refine ⟨t2, F2, ?_, ?_, n2.trans n1, i2.trans i1⟩
    · have e1' : t.cutLoop hit p t.n none (t.first p) = some t1 := e1
      rw [LTile.cutFrom, e1', Option.bind_some, e2]
    · have heq : (fun q => if p + 1 ≤ q then
            (upd L p ([] ++ (L p).filter fun k => !hit (t.info k)) q).filter (fun i => !hit (t1.info i))
            else upd L p ([] ++ (L p).filter fun k => !hit (t.info k)) q)
          = fun q => if p ≤ q then (L q).filter (fun i => !hit (t.info i)) else L q := by
        funext q
        rw [i1]
        by_cases h : q = p
        · subst h
          rw [if_neg (by omega), if_pos (Nat.le_refl _), upd_same, List.nil_append]
        · rw [upd_ne _ _ h]
          by_cases h' : p ≤ q
          · rw [if_pos h', if_pos (by omega)]
          · rw [if_neg h', if_neg (by omega)]
      rw [heq] at w2
      exact w2

/-! ### Refinement -/

/-- The pool holds the link lists `c`. -/
def Holds (t : LTile) (P n : Nat) (c : Nat → List LinkInfo) : Prop :=
  ∃ F L, LInv t P F L ∧ t.n = n ∧ ∀ p, p < P → (L p).map t.info = c p

theorem Holds.used {t : LTile} {P n c F L} (w : LInv t P F L) (hn : t.n = n)
    (h : ∀ p, p < P → (L p).map t.info = c p) : F.length + used P c = n := by
  rw [← hn, ← w.total]
  unfold Detour.used
  congr 2
  apply List.map_congr_left
  intro p hp
  rw [← h p (List.mem_range.1 hp), List.length_map]

theorem Holds.push {t : LTile} {P n c} (h : Holds t P n c) {p : Nat} (hp : p < P) (l : LinkInfo) :
    ∃ t', t.push p l = some t' ∧ Holds t' P n (specLink n P c (.push p l)) := by
  obtain ⟨F, L, w, hn, hc⟩ := h
  obtain ⟨t', F', L', e, w', hn', h0, h1⟩ := push_inv w hp l
  have hu := Holds.used w hn hc
  refine ⟨t', e, F', L', w', hn'.trans hn, ?_⟩
  intro q hq
  by_cases hF : F = []
  · obtain ⟨rfl, rfl, rfl⟩ := h0 hF
    rw [hF] at hu
    simp only [List.length_nil, Nat.zero_add] at hu
    simp only [specLink]
    rw [if_neg (by omega)]
    exact hc q hq
  · have hF' : 0 < F.length := List.length_pos_iff.2 hF
    simp only [specLink]
    rw [if_pos (by omega), (h1 hF).2 q hq]
    by_cases hqp : q = p
    · subst hqp
      simp only [upd_same]
      rw [hc q hq]
    · simp only [upd_ne _ _ hqp]
      exact hc q hq

theorem Holds.cut {t : LTile} {P n c} (h : Holds t P n c) (hit : LinkInfo → Bool) :
    ∃ t', t.cut hit P = some t' ∧ Holds t' P n (specLink n P c (.cut hit)) := by
  obtain ⟨F, L, w, hn, hc⟩ := h
  obtain ⟨t', F', e, w', hn', hi'⟩ := cutFrom_inv hit P 0 t F L (by omega) w
  refine ⟨t', e, F', _, w', hn'.trans hn, ?_⟩
  intro q hq
  simp only [specLink]
  rw [if_pos (Nat.zero_le _), ← hc q hq, hi', List.filter_map]
  rfl

theorem Holds.links {t : LTile} {P n c} (h : Holds t P n c) {p : Nat} (hp : p < P) :
    t.links p = some (c p) := by
  obtain ⟨F, L, w, _, hc⟩ := h
  rw [w.links_eq hp, hc p hp]

theorem Holds.congr {t : LTile} {P n c c'} (h : Holds t P n c) (hc : ∀ p, p < P → c p = c' p) :
    Holds t P n c' := by
  obtain ⟨F, L, w, hn, h⟩ := h
  exact ⟨F, L, w, hn, fun p hp => (h p hp).trans (hc p hp)⟩

theorem Holds.run {P n : Nat} (ops : List LOp) (hops : ∀ p l, .push p l ∈ ops → p < P) :
    ∀ {t : LTile} {c}, Holds t P n c → ∃ t', LTile.run P ops t = some t' ∧
      Holds t' P n (ops.foldl (specLink n P) c) := by
  induction ops with
  | nil => intro t c h; exact ⟨t, rfl, h⟩
  | cons o ops ih =>
    intro t c h
    have hstep : ∃ t', t.step P o = some t' ∧ Holds t' P n (specLink n P c o) := by
      cases o with
      | push p l => exact h.push (hops p l (by simp)) l
      | cut hit => exact h.cut hit
    obtain ⟨t1, e1, h1⟩ := hstep
    obtain ⟨t2, e2, h2⟩ := ih (fun p l hm => hops p l (by simp [hm])) h1
    exact ⟨t2, by rw [LTile.run, e1, Option.bind_some, e2], h2⟩

/-! ### `connectIntLinks` -/

/-- Spec: does this `Neis` entry name a polygon of the same tile? (0 is a solid edge, the upper bit
marks a portal to another tile.) -/
def internal (ne : U16) : Prop := ne ≠ 0#16 ∧ ne &&& 0x8000#16 = 0#16

instance (ne : U16) : Decidable (internal ne) := inferInstanceAs (Decidable (_ ∧ _))

/-- Spec: the link for edge `j` with internal neighbour entry `ne`. -/
def intLink (base : U32) (j : Nat) (ne : U16) : LinkInfo :=
  ⟨base ||| (ne - 1#16).setWidth 32, BitVec.ofNat 8 j, 0xff#8, 0#8, 0#8⟩

/-- Spec: the links of a polygon with `k` edges, in increasing edge order. -/
def intLinksOf (base : U32) (p : Poly) (k : Nat) : List LinkInfo :=
  (List.range k).filterMap fun j =>
    (p.neis[j]?).bind fun ne => if internal ne then some (intLink base j ne) else none

/-- Spec: the internal links of a polygon: none for an off-mesh connection, else one per internal
edge. -/
def internalLinks (base : U32) (p : Poly) : List LinkInfo :=
  if polyType p.areaAndType = 1#8 then [] else intLinksOf base p p.vertCount.toNat

theorem intLinksOf_succ (base : U32) (p : Poly) (k : Nat) :
    intLinksOf base p (k + 1) = intLinksOf base p k ++
      ((p.neis[k]?).bind fun ne => if internal ne then some (intLink base k ne) else none).toList := by
  unfold intLinksOf
  rw [List.range_succ, List.filterMap_append, List.filterMap_cons]
  cases ((p.neis[k]?).bind fun ne => if internal ne then some (intLink base k ne) else none) <;> rfl

theorem used_upd (P : Nat) (c : Nat → List LinkInfo) (p : Nat) (hp : p < P) (l : List LinkInfo) :
    used P (upd c p l) + (c p).length = used P c + l.length := sum_upd_list P c p hp l

theorem connectEdges_holds (base : U32) (p : Poly) {i P n : Nat} (hi : i < P) (k : Nat) :
    ∀ {t : LTile} {c : Nat → List LinkInfo}, k ≤ p.neis.length → Holds t P n c →
      used P c + (intLinksOf base p k).length ≤ n →
      ∃ t', connectEdges base p i k t = some t' ∧ Holds t' P n (upd c i (intLinksOf base p k ++ c i)) := by
  induction k with
  | zero =>
    intro t c _ h _
    refine ⟨t, rfl, ?_⟩
    have : intLinksOf base p 0 = [] := rfl
    rw [this, List.nil_append, upd_self]
    exact h
  | succ k ih =>
    intro t c hk h hu
    rw [intLinksOf_succ] at hu ⊢
    have hne : p.neis[k]? = some p.neis[k] := List.getElem?_eq_getElem (by omega)
    rw [connectEdges, hne]
    rw [hne] at hu
    simp only [Option.bind_some] at hu ⊢
    by_cases hint : internal p.neis[k]
    · rw [if_neg (by rintro (h0 | h0); exact hint.1 h0; exact h0 hint.2)]
      rw [if_pos hint] at hu ⊢
      simp only [Option.toList_some, List.length_append, List.length_cons, List.length_nil] at hu ⊢
      obtain ⟨t1, e1, h1⟩ := h.push hi (intLink base k p.neis[k])
      simp only [specLink] at h1
      rw [if_pos (by omega)] at h1
      obtain ⟨t2, e2, h2⟩ := ih (by omega) h1 (by
        have := used_upd P c i hi (intLink base k p.neis[k] :: c i)
        simp only [List.length_cons] at this
        omega)
      refine ⟨t2, ?_, ?_⟩
      · have e1' : t.push i ⟨base ||| (p.neis[k] - 1#16).setWidth 32, BitVec.ofNat 8 k, 0xff#8, 0#8,
          0#8⟩ = some t1 := e1
        rw [e1', Option.bind_some, e2]
      · rw [upd_upd, upd_same] at h2
        simpa using h2
    · rw [if_pos (by
        by_cases h0 : p.neis[k] = 0#16
        · exact Or.inl h0
        · exact Or.inr fun h1 => hint ⟨h0, h1⟩)]
      rw [if_neg hint] at hu ⊢
      simp only [Option.toList_none, List.append_nil] at hu ⊢
      exact ih (by omega) h hu

/-- Well-formed ground polygons have 1 to 6 vertices; the arrays have length 6. -/
def EdgesOK (p : Poly) : Prop :=
  p.neis.length = 6 ∧
    (polyType p.areaAndType = 1#8 ∨ (1 ≤ p.vertCount.toNat ∧ p.vertCount.toNat ≤ 6))

theorem edgeStart_eq {p : Poly} (h : 1 ≤ p.vertCount.toNat) : edgeStart p = p.vertCount.toNat := by
  unfold edgeStart
  rw [BitVec.toNat_sub]
  have := p.vertCount.isLt
  have h1 : (1#8 : Byte).toNat = 1 := by decide
  rw [h1]
  omega

theorem used_succ (P : Nat) (c : Nat → List LinkInfo) :
    used (P + 1) c = used P c + (c P).length := by
  unfold used
  rw [List.range_succ, List.map_append, List.sum_append]
  simp

theorem used_congr {P : Nat} {c c' : Nat → List LinkInfo} (h : ∀ p, p < P → c p = c' p) :
    used P c = used P c' := by
  unfold used
  congr 1
  apply List.map_congr_left
  intro p hp
  rw [h p (List.mem_range.1 hp)]

theorem Holds.reset {t : LTile} {P n c} (h : Holds t P n c) :
    Holds { t with first := upd t.first P none } (P + 1) n (upd c P []) := by
  obtain ⟨F, L, w, hn, hc⟩ := h
  refine ⟨F, _, w.reset, hn, ?_⟩
  intro p hp
  by_cases h : p = P
  · subst h; simp
  · rw [upd_ne _ _ h, upd_ne _ _ h]
    exact hc p (by omega)

/-- `connectIntLinks` gives every polygon its internal links. -/
theorem connectInt_holds (base : U32) {n : Nat} (ps : List Poly) (hps : ∀ p ∈ ps, EdgesOK p) :
    ∀ {P : Nat} {t : LTile} {c : Nat → List LinkInfo}, Holds t P n c →
      used P c + (ps.map fun p => (internalLinks base p).length).sum ≤ n →
      ∃ t', connectInt base ps P t = some t' ∧
        Holds t' (P + ps.length) n (fun q => if q < P then c q else
          match ps[q - P]? with | none => [] | some p => internalLinks base p) := by
  induction ps with
  | nil =>
    intro P t c h _
    refine ⟨t, rfl, ?_⟩
    refine h.congr fun q hq => ?_
    rw [if_pos hq]
  | cons p ps ih =>
    intro P t c h hu
    have hr := h.reset
    obtain ⟨hlen, hv⟩ := hps p (by simp)
    simp only [List.map_cons, List.sum_cons] at hu
    have hu0 : used (P + 1) (upd c P []) = used P c := by
      rw [used_succ, upd_same]
      exact used_congr fun q hq => upd_ne _ _ (by omega)
    have hpoly : ∃ t1, (if polyType p.areaAndType = 1#8 then
          some { t with first := upd t.first P none }
        else connectEdges base p P (edgeStart p) { t with first := upd t.first P none }) = some t1 ∧
        Holds t1 (P + 1) n (upd c P (internalLinks base p)) := by
      by_cases ht : polyType p.areaAndType = 1#8
      · refine ⟨_, if_pos ht, ?_⟩
        unfold internalLinks
        rw [if_pos ht]
        exact hr
      · rw [if_neg ht]
        obtain ⟨v1, v2⟩ := hv.resolve_left ht
        have hil : internalLinks base p = intLinksOf base p p.vertCount.toNat := if_neg ht
        rw [hil] at hu ⊢
        rw [edgeStart_eq v1]
        obtain ⟨t1, e1, h1⟩ := connectEdges_holds base p (i := P) (P := P + 1) (n := n) (by omega)
          p.vertCount.toNat (by omega) hr (by rw [hu0]; omega)
        refine ⟨t1, e1, ?_⟩
        rw [upd_upd, upd_same, List.append_nil] at h1
        exact h1
    obtain ⟨t1, e1, h1⟩ := hpoly
    obtain ⟨t2, e2, h2⟩ := ih (fun q hq => hps q (by simp [hq])) h1 (by
      rw [used_succ, upd_same, used_congr (c' := c) fun q hq => upd_ne _ _ (by omega)]
      omega)
    refine ⟨t2, ?_, ?_⟩
    · rw [connectInt]
      by_cases ht : polyType p.areaAndType = 1#8
      · rw [if_pos ht] at e1 ⊢
        simp only [Option.some.injEq] at e1
        rw [e1]
        exact e2
      · rw [if_neg ht] at e1 ⊢
        rw [e1, Option.bind_some, e2]
    · rw [List.length_cons, show P + (ps.length + 1) = P + 1 + ps.length by omega]
      refine h2.congr fun q hq => ?_
      by_cases h1 : q < P
      · rw [if_pos (by omega), if_pos h1, upd_ne _ _ (by omega)]
      · rw [if_neg h1]
        by_cases h2 : q = P
        · subst h2
          rw [if_pos (by omega), upd_same, Nat.sub_self]
          rfl
        · rw [if_neg (by omega), show q - P = (q - (P + 1)) + 1 by omega, List.getElem?_cons_succ]

/-- `connectEdges` without assuming room for all links. -/
theorem connectEdges_some (base : U32) (p : Poly) {i P n : Nat} (hi : i < P) (k : Nat) :
    ∀ {t : LTile} {c : Nat → List LinkInfo}, k ≤ p.neis.length → Holds t P n c →
      ∃ t' c', connectEdges base p i k t = some t' ∧ Holds t' P n c' ∧
        ∀ q l, l ∈ c' q → l ∈ c q ∨ (q = i ∧ l ∈ intLinksOf base p k) := by
  induction k with
  | zero => intro t c _ h; exact ⟨t, c, rfl, h, fun q l hl => Or.inl hl⟩
  | succ k ih =>
    intro t c hk h
    have hne : p.neis[k]? = some p.neis[k] := List.getElem?_eq_getElem (by omega)
    rw [connectEdges, hne, intLinksOf_succ, hne]
    simp only [Option.bind_some]
    by_cases hint : internal p.neis[k]
    · rw [if_neg (by rintro (h0 | h0); exact hint.1 h0; exact h0 hint.2), if_pos hint]
      obtain ⟨t1, e1, h1⟩ := h.push hi (intLink base k p.neis[k])
      obtain ⟨t2, c2, e2, h2, h3⟩ := ih (by omega) h1
      refine ⟨t2, c2, ?_, h2, ?_⟩
      · have e1' : t.push i ⟨base ||| (p.neis[k] - 1#16).setWidth 32, BitVec.ofNat 8 k, 0xff#8, 0#8,
          0#8⟩ = some t1 := e1
        rw [e1', Option.bind_some, e2]
      · intro q l hl
        rcases h3 q l hl with h3 | ⟨rfl, h3⟩
        · simp only [specLink] at h3
          split at h3
          · by_cases hq : q = i
            · subst hq
              rw [upd_same] at h3
              rcases List.mem_cons.1 h3 with rfl | h3
              · exact Or.inr ⟨rfl, by simp⟩
              · exact Or.inl h3
            · rw [upd_ne _ _ hq] at h3
              exact Or.inl h3
          · exact Or.inl h3
        · exact Or.inr ⟨rfl, List.mem_append.2 (Or.inl (by assumption))⟩
    · rw [if_pos (by
        by_cases h0 : p.neis[k] = 0#16
        · exact Or.inl h0
        · exact Or.inr fun h1 => hint ⟨h0, h1⟩), if_neg hint]
      obtain ⟨t2, c2, e2, h2, h3⟩ := ih (by omega) h
      refine ⟨t2, c2, e2, h2, fun q l hl => ?_⟩
      simpa using h3 q l hl

/-- `connectIntLinks` without assuming room for all links. -/
theorem connectInt_some (base : U32) {n : Nat} (ps : List Poly) (hps : ∀ p ∈ ps, EdgesOK p) :
    ∀ {P : Nat} {t : LTile} {c : Nat → List LinkInfo}, Holds t P n c →
      ∃ t' c', connectInt base ps P t = some t' ∧ Holds t' (P + ps.length) n c' ∧
        ∀ q l, q < P + ps.length → l ∈ c' q → (q < P ∧ l ∈ c q) ∨
          ∃ k p, q = P + k ∧ ps[k]? = some p ∧ l ∈ internalLinks base p := by
  induction ps with
  | nil => intro P t c h; exact ⟨t, c, rfl, h, fun q l hq hl => Or.inl ⟨hq, hl⟩⟩
  | cons p ps ih =>
    intro P t c h
    have hr := h.reset
    obtain ⟨hlen, hv⟩ := hps p (by simp)
    have hpoly : ∃ t1 c1, (if polyType p.areaAndType = 1#8 then
          some { t with first := upd t.first P none }
        else connectEdges base p P (edgeStart p) { t with first := upd t.first P none }) = some t1 ∧
        Holds t1 (P + 1) n c1 ∧
        ∀ q l, q < P + 1 → l ∈ c1 q → (q < P ∧ l ∈ c q) ∨ (q = P ∧ l ∈ internalLinks base p) := by
      by_cases ht : polyType p.areaAndType = 1#8
      · refine ⟨_, _, if_pos ht, hr, fun q l hq hl => ?_⟩
        by_cases h' : q = P
        · subst h'; simp at hl
        · rw [upd_ne _ _ h'] at hl
          exact Or.inl ⟨by omega, hl⟩
      · rw [if_neg ht]
        obtain ⟨v1, v2⟩ := hv.resolve_left ht
        have hil : internalLinks base p = intLinksOf base p p.vertCount.toNat := if_neg ht
        rw [hil, edgeStart_eq v1]
        obtain ⟨t1, c1, e1, h1, h2⟩ := connectEdges_some base p (i := P) (P := P + 1) (n := n)
          (by omega) p.vertCount.toNat (by omega) hr
        refine ⟨t1, c1, e1, h1, fun q l hq hl => ?_⟩
        rcases h2 q l hl with h2 | ⟨hqp, h2⟩
        · by_cases h' : q = P
          · subst h'; simp at h2
          · rw [upd_ne _ _ h'] at h2
            exact Or.inl ⟨by omega, h2⟩
        · exact Or.inr ⟨hqp, h2⟩
    obtain ⟨t1, c1, e1, h1, m1⟩ := hpoly
    obtain ⟨t2, c2, e2, h2, m2⟩ := ih (fun q hq => hps q (by simp [hq])) h1
    refine ⟨t2, c2, ?_, ?_, ?_⟩
    · rw [connectInt]
      by_cases ht : polyType p.areaAndType = 1#8
      · rw [if_pos ht] at e1 ⊢
        simp only [Option.some.injEq] at e1
        rw [e1]
        exact e2
      · rw [if_neg ht] at e1 ⊢
        rw [e1, Option.bind_some, e2]
    · rw [List.length_cons, show P + (ps.length + 1) = P + 1 + ps.length by omega]
      exact h2
    · intro q l hq hl
      rw [List.length_cons] at hq
      rcases m2 q l (by omega) hl with ⟨h3, h4⟩ | ⟨k, p', h3, h4, h5⟩
      · rcases m1 q l h3 h4 with h5 | ⟨h5, h6⟩
        · exact Or.inl h5
        · exact Or.inr ⟨0, p, by omega, rfl, h6⟩
      · exact Or.inr ⟨k + 1, p', by omega, by simpa using h4, h5⟩

/-! ## Properties -/

/-- What a freshly loaded tile holds before `connectIntLinks`. -/
theorem fresh_holds (n : Nat) (hn : 0 < n) (info first) (c) :
    Holds (LTile.fresh n info first) 0 n c :=
  ⟨_, _, fresh_inv n info first hn, rfl, by omega⟩

/-- The indices met when following `Next` from the given head. -/
def LTile.slots (t : LTile) (h : Option Nat) : Option (List Nat) :=
  walkCollect t.next (fun _ => true) t.n h

/-- **C09**: after `connectIntLinks` on any tile data and any further sequence of link creations (at
existing polygons) and `unconnectLinks` calls, no operation has gone out of range or into an endless
loop; the link lists a user reads are those of the specification, in which a creation adds one link
when fewer than `n` links are in use and does nothing otherwise, and `unconnectLinks` removes the
links it should and keeps the others in order; and every link slot is either on the free list or in
the list of exactly one polygon. -/
theorem links_history (n : Nat) (hn : 0 < n) (info : Nat → LinkInfo) (first : Nat → Option Nat)
    (base : U32) (ps : List Poly) (hps : ∀ p ∈ ps, EdgesOK p) (ops : List LOp)
    (hops : ∀ p l, .push p l ∈ ops → p < ps.length) :
    ∃ t0 t c0, connectInt base ps 0 (.fresh n info first) = some t0 ∧
      LTile.run ps.length ops t0 = some t ∧
      (∀ p, p < ps.length → t0.links p = some (c0 p)) ∧
      (∀ p, p < ps.length → t.links p = some (ops.foldl (specLink n ps.length) c0 p)) ∧
      ∃ (F : List Nat) (L : Nat → List Nat), t.slots t.free = some F ∧ (∀ p, p < ps.length → t.slots (t.first p) = some (L p)) ∧
        ∀ k, k < n → (k ∈ F ∧ ∀ p, p < ps.length → k ∉ L p) ∨
          (k ∉ F ∧ ∃ p, p < ps.length ∧ k ∈ L p ∧ ∀ q, q < ps.length → k ∈ L q → q = p) := by
  obtain ⟨t0, c0, e0, h0, _⟩ := connectInt_some base ps hps (fresh_holds n hn info first fun _ => [])
  rw [Nat.zero_add] at h0
  obtain ⟨t, e, h⟩ := h0.run ops hops
  refine ⟨t0, t, c0, e0, e, fun p hp => h0.links hp, fun p hp => h.links hp, ?_⟩
  obtain ⟨F, L, w, hn', _⟩ := h
  refine ⟨F, L, ?_, ?_, ?_⟩
  · unfold LTile.slots
    rw [walkCollect_eq w.cfree (w.cfree.length_le w.fmem)]
    simp
  · intro p hp
    unfold LTile.slots
    rw [walkCollect_eq (w.cpoly p hp) ((w.cpoly p hp).length_le (w.lmem p hp))]
    simp
  · intro k hk
    by_cases hF : k ∈ F
    · exact Or.inl ⟨hF, fun p hp => w.disj p hp k hF⟩
    · rcases w.partition (k := k) (by omega) with h | ⟨p, hp, hm⟩
      · exact absurd h hF
      · refine Or.inr ⟨hF, p, hp, hm, fun q hq hm' => ?_⟩
        by_cases hqp : q = p
        · exact hqp
        · exact absurd hm (w.disj' q p hq hp hqp k hm')

/-- **C11**: on a tile whose link pool has room for them, `connectIntLinks` gives every polygon
exactly one link per internal edge, in increasing edge order, pointing to the neighbour stored for
that edge; off-mesh connections get none. -/
theorem internal_links (n : Nat) (hn : 0 < n) (info : Nat → LinkInfo) (first : Nat → Option Nat)
    (base : U32) (ps : List Poly) (hps : ∀ p ∈ ps, EdgesOK p)
    (hroom : (ps.map fun p => (internalLinks base p).length).sum ≤ n) :
    ∃ t, connectInt base ps 0 (.fresh n info first) = some t ∧
      ∀ i p, ps[i]? = some p → t.links i = some (internalLinks base p) := by
  obtain ⟨t, e, h⟩ := connectInt_holds base ps hps (fresh_holds n hn info first fun _ => [])
    (by simpa [used] using hroom)
  refine ⟨t, e, fun i p hi => ?_⟩
  have hlt : i < ps.length := by
    by_contra hc
    rw [List.getElem?_eq_none (by omega)] at hi
    simp at hi
  have := h.links (p := i) (by omega)
  simp only [Nat.not_lt_zero, if_false, Nat.sub_zero, hi] at this
  exact this

theorem mem_intLinksOf {base : U32} {p : Poly} {k : Nat} {l : LinkInfo} :
    l ∈ intLinksOf base p k ↔ ∃ j ne, j < k ∧ p.neis[j]? = some ne ∧ internal ne ∧
      l = intLink base j ne := by
  unfold intLinksOf
  simp only [List.mem_filterMap, List.mem_range, Option.bind_eq_some_iff]
  constructor
  · rintro ⟨j, hj, ne, h1, h2⟩
    split at h2
    · rename_i h3
      simp only [Option.some.injEq] at h2
      exact ⟨j, ne, hj, h1, h3, h2.symm⟩
    · simp at h2
  · rintro ⟨j, ne, hj, h1, h3, rfl⟩
    exact ⟨j, hj, ne, h1, by rw [if_pos h3]⟩

/-- **C11**: a ground polygon has an internal link to polygon `k` through edge `j` iff its
neighbour entry for edge `j` is `k + 1`; so links are mutual iff the stored adjacency is. The
polygon index must not reach into the tile bits of `base`. -/
theorem internal_link_iff (base : U32) (p : Poly) (hg : polyType p.areaAndType ≠ 1#8)
    (hv : p.vertCount.toNat ≤ 6) (hb : base &&& 0x7fff#32 = 0#32) (j k : Nat) (hk : k < 0x7fff) :
    (∃ l ∈ internalLinks base p, l.edge.toNat = j ∧ l.ref = base ||| BitVec.ofNat 32 k) ↔
      j < p.vertCount.toNat ∧ p.neis[j]? = some (BitVec.ofNat 16 (k + 1)) := by
  have hil : internalLinks base p = intLinksOf base p p.vertCount.toNat := if_neg hg
  rw [hil]
  have hlow : ∀ x : U32, x.toNat < 0x8000 → (base ||| x) &&& 0x7fff#32 = x := by
    intro x hx
    rw [BitVec.and_or_distrib_right, hb, BitVec.zero_or]
    apply BitVec.eq_of_toNat_eq
    rw [BitVec.toNat_and]
    have : (0x7fff#32 : U32).toNat = 2 ^ 15 - 1 := by decide
    rw [this, Nat.and_two_pow_sub_one_eq_mod]
    exact Nat.mod_eq_of_lt hx
  have hintlt : ∀ ne : U16, internal ne → 1 ≤ ne.toNat ∧ ne.toNat < 0x8000 := by
    intro ne h
    constructor
    · have : ne.toNat ≠ 0 := fun h0 => h.1 (BitVec.eq_of_toNat_eq (by simpa using h0))
      omega
    · have := congrArg (fun x : U16 => x.getLsbD 15) h.2
      have h8 : (0x8000#16 : U16).getLsbD 15 = true := by decide
      simp only [BitVec.getLsbD_and, h8, Bool.and_true, BitVec.getLsbD_zero] at this
      by_contra hc
      have h15 : ne.toNat.testBit 15 = true := by
        have h2 := ne.isLt
        rw [Nat.testBit_eq_decide_div_mod_eq]
        have : ne.toNat / 2 ^ 15 = 1 := by omega
        rw [this]; decide
      have h16 : ne.getLsbD 15 = ne.toNat.testBit 15 := rfl
      rw [h16, h15] at this
      simp at this
  have hval : ∀ ne : U16, internal ne → ((ne - 1#16).setWidth 32 : U32).toNat = ne.toNat - 1 := by
    intro ne h
    have := hintlt ne h
    rw [BitVec.toNat_setWidth, BitVec.toNat_sub]
    have h1 : (1#16 : U16).toNat = 1 := by decide
    rw [h1]
    omega
  constructor
  · rintro ⟨l, hl, hedge, href⟩
    obtain ⟨j', ne, hj', hne, hint, rfl⟩ := mem_intLinksOf.1 hl
    have hjj : j' = j := by
      simp only [intLink, BitVec.toNat_ofNat] at hedge
      omega
    subst hjj
    refine ⟨hj', ?_⟩
    rw [hne]
    congr 1
    simp only [intLink] at href
    have e1 := hlow ((ne - 1#16).setWidth 32) (by rw [hval ne hint]; have := hintlt ne hint; omega)
    have e2 := hlow (BitVec.ofNat 32 k) (by rw [BitVec.toNat_ofNat]; omega)
    rw [href, e2] at e1
    have e3 := congrArg BitVec.toNat e1
    rw [hval ne hint, BitVec.toNat_ofNat] at e3
    have := hintlt ne hint
    apply BitVec.eq_of_toNat_eq
    rw [BitVec.toNat_ofNat]
    omega
  · rintro ⟨hj, hne⟩
    have hn : (BitVec.ofNat 16 (k + 1)).toNat = k + 1 := by
      rw [BitVec.toNat_ofNat]; omega
    have hint : internal (BitVec.ofNat 16 (k + 1)) := by
      constructor
      · intro hc
        rw [hc] at hn
        simp at hn
      · apply BitVec.eq_of_getLsbD_eq
        intro i hi
        have h8 : ∀ i : Fin 16, (0x8000#16 : U16).getLsbD i = decide (i.val = 15) := by decide
        rw [BitVec.getLsbD_and, h8 ⟨i, hi⟩, BitVec.getLsbD_zero]
        by_cases h15 : i = 15
        · subst h15
          have h16 : (BitVec.ofNat 16 (k + 1)).getLsbD 15
              = (BitVec.ofNat 16 (k + 1)).toNat.testBit 15 := rfl
          rw [h16, hn, Nat.testBit_lt_two_pow (by omega)]
          rfl
        · simp [h15]
    refine ⟨_, mem_intLinksOf.2 ⟨j, _, hj, hne, hint, rfl⟩, ?_, ?_⟩
    · simp only [intLink, BitVec.toNat_ofNat]
      omega
    · simp only [intLink]
      congr 1
      apply BitVec.eq_of_toNat_eq
      rw [hval _ hint, hn, BitVec.toNat_ofNat]
      omega

/-- Two triangles sharing an edge, an off-mesh connection, and a pool of 4 links. -/
def demoPolys : List Poly :=
  [⟨0, [0, 1, 2, 0, 0, 0], [0, 2#16, 0x8002#16, 0, 0, 0], 1, 3, 0⟩,
   ⟨0, [2, 1, 3, 0, 0, 0], [1#16, 0, 0, 0, 0, 0], 1, 3, 0⟩,
   ⟨0, [0, 3, 0, 0, 0, 0], [7#16, 0, 0, 0, 0, 0], 1, 2, 0x40⟩]

example : (∀ p ∈ demoPolys, EdgesOK p) ∧
    (demoPolys.map fun p => (internalLinks 0x400000#32 p).length).sum ≤ 4 ∧
    demoPolys.map (internalLinks 0x400000#32) = [[⟨0x400001#32, 1, 0xff, 0, 0⟩],
      [⟨0x400000#32, 0, 0xff, 0, 0⟩], []] := by
  refine ⟨?_, by decide, by decide⟩
  intro p hp
  simp only [demoPolys, List.mem_cons, List.not_mem_nil, or_false] at hp
  rcases hp with rfl | rfl | rfl
  · exact ⟨rfl, Or.inr ⟨by decide, by decide⟩⟩
  · exact ⟨rfl, Or.inr ⟨by decide, by decide⟩⟩
  · exact ⟨rfl, Or.inl (by decide)⟩

/-- A ground polygon without vertices makes `connectIntLinks` index out of range (the count is
decremented in uint8). -/
theorem connectInt_no_verts_panics (base : U32) (p : Poly) (hn : p.neis.length = 6)
    (hg : polyType p.areaAndType ≠ 1#8) (hv : p.vertCount = 0#8) (ps : List Poly) (i : Nat)
    (t : LTile) : connectInt base (p :: ps) i t = none := by
  rw [connectInt, if_neg hg]
  have : edgeStart p = 256 := by unfold edgeStart; rw [hv]; rfl
  rw [this, connectEdges, List.getElem?_eq_none (by omega)]
  rfl

end Verif.Detour
