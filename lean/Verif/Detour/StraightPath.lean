/-
`FindStraightPath`, `appendPortals` and `appendVertex` (detour/query.go:415-763): the corners of the shortest way through a
corridor of polygons, written to buffers of the caller.

Points and areas are of arbitrary types; what the functions read of the mesh and of the arithmetic is an arbitrary `SGeo`.
The theorems of this file hold for every such oracle, so for every mesh, every rounding and NaNs, unless a hypothesis says
otherwise. `Funnel.lean` takes exact arithmetic for it.
-/
import Verif.Detour.Codec
import Verif.Detour.Bits

namespace Verif.Detour

/-! ## Model -/

/-- What `FindStraightPath` reads and computes.
* `known r`: `TileAndPolyByRef r` succeeds;
* `clamp r p`: the point of `ClosestPointOnPolyBoundary r p`, `none` when it fails;
* `portal a b`: left end, right end of the portal and type of `b`, `none` when `portalPoints6 a b` fails;
* `sameArea a b`: the polygons have the same area;
* `cross p q l r`: the point `Vec3Lerp(l, r, t)` when `IntersectSegSeg2D p q l r` hits;
* `approx`: `d3.Vec3.Approx`; `near a l r`: `distancePtSegSqr2D(a, l, r) < Sqr(0.001)`;
* `area`: `TriArea2D`; `le0`, `ge0`, `lt0`, `gt0`: its comparisons with 0. -/
structure SGeo (P F : Type) where
  known : U32 → Bool
  clamp : U32 → P → Option P
  portal : U32 → U32 → Option (P × P × Byte)
  sameArea : U32 → U32 → Bool
  cross : P → P → P → P → Option P
  approx : P → P → Bool
  near : P → P → P → Bool
  area : P → P → P → F
  le0 : F → Bool
  ge0 : F → Bool
  lt0 : F → Bool
  gt0 : F → Bool

/-- The lengths of `straightPath`, `straightPathFlags` and `straightPathRefs`. -/
structure SBuf where
  cap : Nat
  nflags : Nat
  nrefs : Nat

/-- A point written, with its flags and its reference (which are in the buffers when these are not empty). -/
structure SPoint (P : Type) where
  pos : P
  flags : Byte
  ref : U32
deriving DecidableEq

/-- `StraightPathStart` (detour/query.go:377). -/
def spStart : Byte := 1#8
/-- `StraightPathEnd` (detour/query.go:379). -/
def spEnd : Byte := 2#8
/-- `StraightPathOffMeshConnection` (detour/query.go:381). -/
def spOffMesh : Byte := 4#8

/-- Flags and references can be written at index `i`: the buffer is empty, or long enough. -/
def SBuf.side (b : SBuf) (i : Nat) : Bool :=
  (b.nflags == 0 || decide (i < b.nflags)) && (b.nrefs == 0 || decide (i < b.nrefs))

/-- What the caller gets; the points are in the order of the buffer. -/
inductive SOut (P : Type)
  | done (out : List (SPoint P)) (st : Status)
  | panic
  | hang
deriving DecidableEq

/-- One turn of the loop: on with the next, or the result (`out` is still reversed). -/
inductive SNext (P σ : Type)
  | go (s : σ)
  | done (out : List (SPoint P)) (st : Status)
  | panic

/-- The variables of the loop (detour/query.go:457-470); `out` has the last point first. -/
structure SState (P : Type) where
  i : Nat
  apex : P
  left : P
  right : P
  ai : Nat
  li : Nat
  ri : Nat
  lref : U32
  rref : U32
  ltype : Byte
  rtype : Byte
  out : List (SPoint P)

section
variable {P F : Type} (g : SGeo P F) (b : SBuf)

/-- The branch of `appendVertex` that appends (detour/query.go:741-760). -/
def appendNew (e : SPoint P) (out : List (SPoint P)) : Option (List (SPoint P) × Status) :=
  if out.length < b.cap ∧ b.side out.length = true then
    some (e :: out,
      if b.cap ≤ out.length + 1 then Status.success ||| Status.bufferTooSmall
      else if e.flags = spEnd then Status.success else Status.inProgress)
  else none

/-- `appendVertex` (detour/query.go:724-763); `none`: index out of range. -/
def appendVertex (e : SPoint P) (out : List (SPoint P)) : Option (List (SPoint P) × Status) :=
  match out with
  | [] => appendNew b e []
  | last :: rest =>
    if g.approx e.pos last.pos then
      if b.side rest.length = true then some (⟨last.pos, e.flags, e.ref⟩ :: rest, Status.inProgress) else none
    else appendNew b e (last :: rest)

/-- The loop of `appendPortals` (detour/query.go:673-719) over the indices still to come. -/
def portalsLoop (path : List U32) (areaOnly : Bool) (sp ep : P) :
    List Nat → List (SPoint P) → Option (List (SPoint P) × Status)
  | [], out => some (out, Status.inProgress)
  | j :: js, out =>
    match path[j]?, path[j + 1]? with
    | some a, some c =>
      if g.known a = false ∨ g.known c = false then some (out, Status.failure ||| Status.invalidParam)
      else match g.portal a c with
        | none => some (out, Status.inProgress)
        | some (l, r, _) =>
          if areaOnly = true ∧ g.sameArea a c = true then portalsLoop path areaOnly sp ep js out
          else match g.cross sp ep l r with
            | none => portalsLoop path areaOnly sp ep js out
            | some pt =>
              (appendVertex g b ⟨pt, 0#8, c⟩ out).bind fun os =>
                if os.2 ≠ Status.inProgress then some os else portalsLoop path areaOnly sp ep js os.1
    | _, _ => none

/-- `appendPortals` (detour/query.go:660-721), called when the options ask for it. -/
def appendPortals (path : List U32) (opts : U32) (from_ to_ : Nat) (ep : P) (out : List (SPoint P)) :
    Option (List (SPoint P) × Status) :=
  if opts &&& 3#32 = 0#32 then some (out, Status.inProgress)
  else match out with
    | [] => none
    | last :: _ => portalsLoop g b path (opts &&& 1#32 != 0#32) last.pos ep (List.range' from_ (to_ - from_)) out

/-- Flags of a corner (detour/query.go:549-554, 604-609). -/
def cornerFlags (ref : U32) (ty : Byte) : Byte :=
  if ref = 0#32 then spEnd else if ty = 1#8 then spOffMesh else 0#8

/-- A corner: the apex moves to `q`, a vertex of portal `idx`, and the loop restarts there (detour/query.go:533-575,
588-630). -/
def corner (path : List U32) (opts : U32) (q : P) (idx : Nat) (ref : U32) (ty : Byte) (s : SState P) :
    SNext P (SState P) :=
  match appendPortals g b path opts s.ai idx q s.out with
  | none => .panic
  | some (out, st) =>
    if st ≠ Status.inProgress then .done out st
    else match appendVertex g b ⟨q, cornerFlags ref ty, ref⟩ out with
      | none => .panic
      | some (out, st) =>
        if st ≠ Status.inProgress then .done out st
        else .go { s with i := idx + 1, apex := q, left := q, right := q, ai := idx, li := idx, ri := idx, out := out }

/-- `path[i+1]`, 0 at the end (detour/query.go:522-526, 577-581). -/
def refAfter (path : List U32) (i : Nat) : U32 := path[i + 1]?.getD 0#32

/-- The left vertex (detour/query.go:573-632). -/
def leftVertex (path : List U32) (opts : U32) (l : P) (ty : Byte) (s : SState P) : SNext P (SState P) :=
  if g.ge0 (g.area s.apex s.left l) then
    if g.approx s.apex s.left || g.lt0 (g.area s.apex s.right l) then
      .go { s with left := l, lref := refAfter path s.i, ltype := ty, li := s.i, i := s.i + 1 }
    else corner g b path opts s.right s.ri s.rref s.rtype s
  else .go { s with i := s.i + 1 }

/-- The right vertex, then the left one (detour/query.go:517-632). -/
def rightVertex (path : List U32) (opts : U32) (l r : P) (ty : Byte) (s : SState P) : SNext P (SState P) :=
  if g.le0 (g.area s.apex s.right r) then
    if g.approx s.apex s.right || g.gt0 (g.area s.apex s.left r) then
      leftVertex g b path opts l ty { s with right := r, rref := refAfter path s.i, rtype := ty, ri := s.i }
    else corner g b path opts s.left s.li s.lref s.ltype s
  else leftVertex g b path opts l ty s

/-- The portal out of polygon `i` is missing: the result ends there (detour/query.go:481-506). -/
def stopAt (path : List U32) (opts : U32) (endPos : P) (s : SState P) : SNext P (SState P) :=
  match g.clamp (path[s.i]?.getD 0#32) endPos with
  | none => .done [] (Status.failure ||| Status.invalidParam)
  | some q =>
    match appendPortals g b path opts s.ai s.i q s.out with
    | none => .panic
    | some (out, _) =>
      match appendVertex g b ⟨q, 0#8, path[s.i]?.getD 0#32⟩ out with
      | none => .panic
      | some (out, _) => .done out (Status.success ||| Status.partialResult |||
          if b.cap ≤ out.length then Status.bufferTooSmall else 0#32)

/-- One turn of the loop (detour/query.go:471-633). -/
def turn (path : List U32) (opts : U32) (endPos ce : P) (s : SState P) : SNext P (SState P) :=
  if s.i + 1 < path.length then
    match g.portal (path[s.i]?.getD 0#32) (path[s.i + 1]?.getD 0#32) with
    | none => stopAt g b path opts endPos s
    | some (l, r, ty) =>
      if s.i = 0 ∧ g.near s.apex l r = true then .go { s with i := 1 }
      else rightVertex g b path opts l r ty s
  else rightVertex g b path opts ce ce 0#8 s

/-- The end point, and the status (detour/query.go:646-656). -/
def endPath (ce : P) (out : List (SPoint P)) : SOut P :=
  match appendVertex g b ⟨ce, spEnd, 0#32⟩ out with
  | none => .panic
  | some (out, _) => .done out.reverse (Status.success ||| if b.cap ≤ out.length then Status.bufferTooSmall else 0#32)

/-- After the loop (detour/query.go:635-656). -/
def afterLoop (path : List U32) (opts : U32) (ce : P) (s : SState P) : SOut P :=
  match appendPortals g b path opts s.ai (path.length - 1) ce s.out with
  | none => .panic
  | some (out, st) => if st ≠ Status.inProgress then .done out.reverse st else endPath g b ce out

/-- The loop (detour/query.go:471-633) with `fuel` turns. -/
def straightLoop (path : List U32) (opts : U32) (endPos ce : P) : Nat → SState P → SOut P
  | 0, _ => .hang
  | fuel + 1, s =>
    if path.length ≤ s.i then afterLoop g b path opts ce s
    else match turn g b path opts endPos ce s with
      | .go s => straightLoop path opts endPos ce fuel s
      | .done out st => .done out.reverse st
      | .panic => .panic

/-- The state before the loop (detour/query.go:457-470). -/
def firstState (r0 : U32) (cs : P) (out : List (SPoint P)) : SState P :=
  ⟨0, cs, cs, cs, 0, 0, 0, r0, r0, 0#8, 0#8, out⟩

/-- `FindStraightPath` (detour/query.go:415-657). -/
def findStraight (startPos endPos : P) (path : List U32) (opts : U32) (fuel : Nat) : SOut P :=
  if b.cap = 0 then .done [] (Status.failure ||| Status.invalidParam)
  else match path with
    | [] => .done [] (Status.failure ||| Status.invalidParam)
    | r0 :: rest =>
      match g.clamp r0 startPos, g.clamp ((r0 :: rest).getLast (by simp)) endPos with
      | some cs, some ce =>
        match appendVertex g b ⟨cs, spStart, r0⟩ [] with
        | none => .panic
        | some (out, st) =>
          if st ≠ Status.inProgress then .done out.reverse st
          else if rest = [] then endPath g b ce out
          else straightLoop g b (r0 :: rest) opts endPos ce fuel (firstState r0 cs out)
      | _, _ => .done [] (Status.failure ||| Status.invalidParam)

/-! ## What one append does -/

/-- The buffers of flags and references are empty or as long as that of the points ("must already be allocated and contain
the same number of elements", detour/query.go:412-413). -/
def SBuf.OK (b : SBuf) : Prop := (b.nflags = 0 ∨ b.cap ≤ b.nflags) ∧ (b.nrefs = 0 ∨ b.cap ≤ b.nrefs)

instance (b : SBuf) : Decidable b.OK := by unfold SBuf.OK; infer_instance

theorem SBuf.OK.side {b : SBuf} (h : b.OK) {i : Nat} (hi : i < b.cap) : b.side i = true := by
  unfold SBuf.side
  obtain ⟨h1, h2⟩ := h
  simp only [Bool.and_eq_true, Bool.or_eq_true, beq_iff_eq, decide_eq_true_eq]
  omega

/-- `out'` (last point first) continues `out`: only flags and reference of its last point may differ. -/
def Grows (out out' : List (SPoint P)) : Prop :=
  ∃ new last last' rest, out = last :: rest ∧ out' = new ++ last' :: rest ∧ last'.pos = last.pos

theorem Grows.refl {out : List (SPoint P)} (h : out ≠ []) : Grows out out := by
  obtain ⟨l, r, rfl⟩ := List.exists_cons_of_ne_nil h
  exact ⟨[], l, l, r, rfl, rfl, rfl⟩

theorem Grows.ne {out out' : List (SPoint P)} (h : Grows out out') : out' ≠ [] := by
  obtain ⟨new, l, l', r, rfl, rfl, _⟩ := h
  simp

theorem Grows.trans {a c d : List (SPoint P)} (h1 : Grows a c) (h2 : Grows c d) : Grows a d := by
  obtain ⟨n1, l1, l1', r1, rfl, rfl, e1⟩ := h1
  obtain ⟨n2, l2, l2', r2, h, rfl, e2⟩ := h2
  cases n1 with
  | nil =>
    simp only [List.nil_append, List.cons.injEq] at h
    obtain ⟨rfl, rfl⟩ := h
    exact ⟨n2, l1, l2', r1, rfl, rfl, e2.trans e1⟩
  | cons x xs =>
    simp only [List.cons_append, List.cons.injEq] at h
    obtain ⟨rfl, rfl⟩ := h
    exact ⟨n2 ++ l2' :: xs, l1, l1', r1, rfl, by simp, e1⟩

theorem Grows.length {out out' : List (SPoint P)} (h : Grows out out') : out.length ≤ out'.length := by
  obtain ⟨new, l, l', r, rfl, rfl, _⟩ := h
  simp

/-- What `appendVertex` does when it does not panic. -/
structure Appended (e : SPoint P) (out out' : List (SPoint P)) (st : Status) : Prop where
  head : ∃ pos rest, out' = ⟨pos, e.flags, e.ref⟩ :: rest ∧ (pos = e.pos ∨ g.approx e.pos pos = true)
  grows : out ≠ [] → Grows out out'
  st : (st = Status.inProgress ∧ (out.length < b.cap → out'.length < b.cap)) ∨ (st = Status.success ∧ e.flags = spEnd) ∨
    (st = Status.success ||| Status.bufferTooSmall ∧ out'.length = b.cap)
  room : out.length ≤ b.cap → out'.length ≤ b.cap

theorem appendNew_spec {e : SPoint P} {out out' : List (SPoint P)} {st : Status} (h : appendNew b e out = some (out', st)) :
    Appended g b e out out' st := by
  unfold appendNew at h
  split at h
  · rename_i hc
    simp only [Option.some.injEq, Prod.mk.injEq] at h
    obtain ⟨rfl, rfl⟩ := h
    refine ⟨⟨e.pos, out, rfl, .inl rfl⟩, fun hne => ?_, ?_, fun _ => by have := hc.1; simp only [List.length_cons]; omega⟩
    · obtain ⟨l, r, rfl⟩ := List.exists_cons_of_ne_nil hne
      exact ⟨[e], l, l, r, rfl, rfl, rfl⟩
    · split
      · exact .inr (.inr ⟨rfl, by simp only [List.length_cons]; omega⟩)
      · split
        · rename_i hf
          exact .inr (.inl ⟨rfl, hf⟩)
        · exact .inl ⟨rfl, fun _ => by simp only [List.length_cons]; omega⟩
  · exact absurd h (by simp)

theorem appendVertex_spec {e : SPoint P} {out out' : List (SPoint P)} {st : Status}
    (h : appendVertex g b e out = some (out', st)) : Appended g b e out out' st := by
  cases out with
  | nil => exact appendNew_spec g b h
  | cons last rest =>
    rw [appendVertex] at h
    split at h
    · rename_i ha
      split at h
      · simp only [Option.some.injEq, Prod.mk.injEq] at h
        obtain ⟨rfl, rfl⟩ := h
        exact ⟨⟨last.pos, rest, rfl, .inr ha⟩, fun _ => ⟨[], last, _, rest, rfl, rfl, rfl⟩, .inl ⟨rfl, by simp⟩, by simp⟩
      · exact absurd h (by simp)
    · exact appendNew_spec g b h

theorem appendVertex_some {b : SBuf} (hb : b.OK) (e : SPoint P) {out : List (SPoint P)} (ho : out.length < b.cap) :
    ∃ out' st, appendVertex g b e out = some (out', st) := by
  have hn : ∃ out' st, appendNew b e out = some (out', st) := ⟨_, _, if_pos ⟨ho, hb.side ho⟩⟩
  cases out with
  | nil => exact hn
  | cons last rest =>
    rw [appendVertex]
    split
    · rw [if_pos (hb.side (by simp only [List.length_cons] at ho; omega))]
      exact ⟨_, _, rfl⟩
    · exact hn

/-- What `appendPortals` does when it does not panic. -/
structure Portaled (out out' : List (SPoint P)) (st : Status) : Prop where
  grows : Grows out out'
  st : (st = Status.inProgress ∧ out'.length < b.cap) ∨
    (st = Status.success ||| Status.bufferTooSmall ∧ out'.length = b.cap)
  room : out'.length ≤ b.cap

theorem portalsLoop_spec (path : List U32) (ao : Bool) (sp ep : P) (js : List Nat) {out out' : List (SPoint P)} {st : Status}
    (hk : ∀ j ∈ js, ∀ a c, path[j]? = some a → path[j + 1]? = some c → g.known a = true ∧ g.known c = true) (hne : out ≠ []) (hl : out.length < b.cap) (h : portalsLoop g b path ao sp ep js out = some (out', st)) :
    Portaled b out out' st := by
  induction js generalizing out with
  | nil =>
    simp only [portalsLoop, Option.some.injEq, Prod.mk.injEq] at h
    obtain ⟨rfl, rfl⟩ := h
    exact ⟨.refl hne, .inl ⟨rfl, hl⟩, hl.le⟩
  | cons j js ih =>
    rw [portalsLoop] at h
    replace ih := fun {o} => ih (out := o) fun k hk' => hk k (by simp [hk'])
    split at h
    · rename_i a c ha hc
      have hk := hk j (by simp) a c ha hc
      rw [hk.1, hk.2, if_neg (by simp)] at h
      · split at h
        · simp only [Option.some.injEq, Prod.mk.injEq] at h
          obtain ⟨rfl, rfl⟩ := h
          exact ⟨.refl hne, .inl ⟨rfl, hl⟩, hl.le⟩
        · split at h
          · exact ih hne hl h
          · split at h
            · exact ih hne hl h
            · rw [Option.bind_eq_some_iff] at h
              obtain ⟨⟨o1, s1⟩, h1, h⟩ := h
              have A := appendVertex_spec g b h1
              have hg := A.grows hne
              dsimp only at h
              split at h
              · simp only [Option.some.injEq, Prod.mk.injEq] at h
                obtain ⟨rfl, rfl⟩ := h
                rename_i hs
                refine ⟨hg, ?_, A.room hl.le⟩
                rcases A.st with h | h | h
                · exact absurd h.1 hs
                · exact absurd h.2 (show ¬ (0#8 = spEnd) by decide)
                · exact .inr h
              · rename_i hs
                rcases A.st with h2 | h2 | h2
                · have := ih hg.ne (h2.2 hl) h
                  exact ⟨hg.trans this.grows, this.st, this.room⟩
                · exact absurd h2.2 (show ¬ (0#8 = spEnd) by decide)
                · exact absurd (h2.1 ▸ hs) (by decide)
    · exact absurd h (by simp)

theorem appendPortals_spec (path : List U32) (opts : U32) (x y : Nat) (ep : P) {out out' : List (SPoint P)} {st : Status}
    (hk : ∀ j, j < y → ∀ a c, path[j]? = some a → path[j + 1]? = some c → g.known a = true ∧ g.known c = true) (hne : out ≠ []) (hl : out.length < b.cap) (h : appendPortals g b path opts x y ep out = some (out', st)) :
    Portaled b out out' st := by
  unfold appendPortals at h
  split at h
  · simp only [Option.some.injEq, Prod.mk.injEq] at h
    obtain ⟨rfl, rfl⟩ := h
    exact ⟨.refl hne, .inl ⟨rfl, hl⟩, hl.le⟩
  · split at h
    · exact absurd h (by simp)
    · exact portalsLoop_spec g b _ _ _ _ _ (fun j hj => hk j (by simp only [List.mem_range'_1] at hj; omega)) hne hl h

theorem portalsLoop_some {b : SBuf} (hb : b.OK) (path : List U32) (ao : Bool) (sp ep : P) {y : Nat} (hy : y < path.length)
    (js : List Nat) (hjs : ∀ j ∈ js, j < y) {out : List (SPoint P)} (hl : out.length < b.cap) :
    ∃ out' st, portalsLoop g b path ao sp ep js out = some (out', st) := by
  induction js generalizing out with
  | nil => exact ⟨_, _, rfl⟩
  | cons j js ih =>
    have hj := hjs j (by simp)
    replace ih := fun {o : List (SPoint P)} => ih (out := o) fun k hk => hjs k (by simp [hk])
    rw [portalsLoop, List.getElem?_eq_getElem (by omega), List.getElem?_eq_getElem (by omega)]
    dsimp only
    split
    · exact ⟨_, _, rfl⟩
    · split
      · exact ⟨_, _, rfl⟩
      · split
        · exact ih hl
        · split
          · exact ih hl
          · obtain ⟨o1, s1, h1⟩ := appendVertex_some g hb ⟨_, 0#8, path[j + 1]⟩ hl
            rw [h1, Option.bind_some]
            dsimp only
            split
            · exact ⟨_, _, rfl⟩
            · rename_i hs
              rcases (appendVertex_spec g b h1).st with h2 | h2 | h2
              · exact ih (h2.2 hl)
              · exact absurd h2.2 (show ¬ (0#8 = spEnd) by decide)
              · exact absurd (h2.1 ▸ hs) (by decide)

/-- `appendPortals` does not index out of range. -/
theorem appendPortals_some {b : SBuf} (hb : b.OK) (path : List U32) (opts : U32) (x y : Nat) (ep : P) {out : List (SPoint P)}
    (hy : y < path.length) (hne : out ≠ []) (hl : out.length < b.cap) :
    ∃ out' st, appendPortals g b path opts x y ep out = some (out', st) := by
  unfold appendPortals
  split
  · exact ⟨_, _, rfl⟩
  · obtain ⟨last, rest, rfl⟩ := List.exists_cons_of_ne_nil hne
    exact portalsLoop_some g hb path _ _ _ hy _ (fun j hj => by simp only [List.mem_range'_1] at hj; omega) hl

/-! ## One turn of the loop -/

/-- What holds of every mesh: the reference 0 is not known, a point can be clamped to a polygon exactly when the polygon is
known, and a portal leads from a known polygon to a known one. -/
structure SGeo.OK : Prop where
  null : g.known 0#32 = false
  clamp : ∀ r p, (g.clamp r p).isSome = g.known r
  portal : ∀ a c x, g.portal a c = some x → g.known a = true ∧ g.known c = true

/-- `out` (last point first) ends with the end of the path. -/
def AtEnd (ce : P) (out : List (SPoint P)) : Prop :=
  ∃ pos rest, out = ⟨pos, spEnd, 0#32⟩ :: rest ∧ (pos = ce ∨ g.approx ce pos = true)

/-- How the loop can end. -/
inductive Fin (path : List U32) (endPos ce : P) (out : List (SPoint P)) : Status → Prop
  | whole : (∀ j, j + 1 < path.length → (g.portal (path[j]?.getD 0#32) (path[j + 1]?.getD 0#32)).isSome = true) →
      AtEnd g ce out → Fin path endPos ce out Status.success
  | full : out.length = b.cap → Fin path endPos ce out (Status.success ||| Status.bufferTooSmall)
  | cut {i : Nat} {q pos : P} {rest : List (SPoint P)} : i + 1 < path.length →
      (∀ j, j < i → (g.portal (path[j]?.getD 0#32) (path[j + 1]?.getD 0#32)).isSome = true) →
      g.portal (path[i]?.getD 0#32) (path[i + 1]?.getD 0#32) = none →
      g.clamp (path[i]?.getD 0#32) endPos = some q → (pos = q ∨ g.approx q pos = true) →
      out = ⟨pos, 0#8, path[i]?.getD 0#32⟩ :: rest →
      Fin path endPos ce out (Status.success ||| Status.partialResult |||
          if b.cap ≤ out.length then Status.bufferTooSmall else 0#32)

/-- What holds of the variables before each turn. -/
structure SPInv (path : List U32) (s : SState P) : Prop where
  ne : s.out ≠ []
  room : s.out.length < b.cap
  i_le : s.i ≤ path.length
  ai : s.ai < path.length
  li : s.li < path.length
  ri : s.ri < path.length
  refs : s.i < path.length → s.lref ≠ 0#32 ∧ s.rref ≠ 0#32
  lle : s.li ≤ s.i
  rle : s.ri ≤ s.i
  seen : ∀ j, j < s.i → j + 1 < path.length → (g.portal (path[j]?.getD 0#32) (path[j + 1]?.getD 0#32)).isSome = true

/-- What a turn does. -/
def SNext.Good (path : List U32) (opts : U32) (endPos ce : P) (s : SState P) : SNext P (SState P) → Prop
  | .go s' => SPInv g b path s' ∧ Grows s.out s'.out
  | .done out st => Fin g b path endPos ce out st ∧ Grows s.out out ∧ out.length ≤ b.cap
  | .panic => b.OK → opts &&& 3#32 ≠ 0#32 ∧ ∃ j, g.portal (path[j]?.getD 0#32) (path[j + 1]?.getD 0#32) = none ∧ j + 1 < path.length

variable {g b}

theorem cornerFlags_end {ref : U32} {ty : Byte} (h : cornerFlags ref ty = spEnd) : ref = 0#32 := by
  unfold cornerFlags at h
  split at h
  · assumption
  · split at h <;> exact absurd h (by decide)

/-- The polygons of portals that were found are known. -/
theorem known_of_seen {path : List U32} {y : Nat} (hg : g.OK) (hseen : ∀ j, j < y → j + 1 < path.length →
      (g.portal (path[j]?.getD 0#32) (path[j + 1]?.getD 0#32)).isSome = true) :
    ∀ j, j < y → ∀ a c, path[j]? = some a → path[j + 1]? = some c → g.known a = true ∧ g.known c = true := by
  intro j hj a c ha hc
  have hn := (List.getElem?_eq_some_iff.1 hc).1
  have := hseen j hj hn
  rw [ha, hc] at this
  obtain ⟨x, hx⟩ := Option.isSome_iff_exists.1 this
  exact hg.portal _ _ _ hx

theorem corner_good {path : List U32} {opts : U32} {endPos ce q : P} {idx : Nat} {ref : U32} {ty : Byte} {s : SState P}
    (hne : s.out ≠ []) (hrm : s.out.length < b.cap) (hi : idx < path.length) (hr : ref = 0#32 → q = ce ∧ idx + 1 = path.length)
    (hg : g.OK) (hl : idx + 1 < path.length → s.lref ≠ 0#32 ∧ s.rref ≠ 0#32)
    (hseen : ∀ j, j < idx + 1 → j + 1 < path.length →
      (g.portal (path[j]?.getD 0#32) (path[j + 1]?.getD 0#32)).isSome = true) :
    SNext.Good g b path opts endPos ce s (corner g b path opts q idx ref ty s) := by
  unfold corner
  split
  · rename_i hp
    intro hb
    obtain ⟨o, st, e⟩ := appendPortals_some g hb path opts s.ai idx q hi hne hrm
    rw [e] at hp
    exact absurd hp (by simp)
  · rename_i out st hp
    have A := appendPortals_spec g b path opts s.ai idx q (known_of_seen hg fun j hj hn => hseen j (by omega) hn) hne hrm hp
    split
    · rename_i hs
      refine ⟨?_, A.grows, A.room⟩
      rcases A.st with h1 | h1
      · exact absurd h1.1 hs
      · rw [h1.1]; exact .full h1.2
    · rename_i hs
      have hroom : out.length < b.cap := by
        rcases A.st with h1 | h1
        · exact h1.2
        · exact absurd (h1.1 ▸ hs) (by decide)
      split
      · rename_i hv
        intro hb
        obtain ⟨o, st, e⟩ := appendVertex_some g hb ⟨q, cornerFlags ref ty, ref⟩ hroom
        rw [e] at hv
        exact absurd hv (by simp)
      · rename_i out2 st2 hv
        have V := appendVertex_spec g b hv
        have hgr := A.grows.trans (V.grows A.grows.ne)
        split
        · rename_i hs2
          refine ⟨?_, hgr, V.room hroom.le⟩
          rcases V.st with h1 | h1 | h1
          · exact absurd h1.1 hs2
          · rw [h1.1]
            obtain ⟨pos, rest, e, hpos⟩ := V.head
            have h0 := cornerFlags_end h1.2
            obtain ⟨hq, hn⟩ := hr h0
            refine .whole (fun j hj => hseen j (by omega) hj) ⟨pos, rest, ?_, ?_⟩
            · rw [e, h1.2, h0]
            · rw [← hq]; exact hpos
          · rw [h1.1]; exact .full h1.2
        · rename_i hs2
          refine ⟨⟨hgr.ne, ?_, hi, hi, hi, hi, hl, Nat.le_succ _, Nat.le_succ _, hseen⟩, hgr⟩
          rcases V.st with h1 | h1 | h1
          · exact h1.2 hroom
          · exact absurd (h1.1 ▸ hs2) (by decide)
          · exact absurd (h1.1 ▸ hs2) (by decide)

theorem refAfter_last {path : List U32} {i : Nat} (hg : g.OK)
    (h : i + 1 < path.length → (g.portal (path[i]?.getD 0#32) (path[i + 1]?.getD 0#32)).isSome = true) (h0 : refAfter path i = 0#32) :
    path.length ≤ i + 1 := by
  by_contra hc
  have h := h (by omega)
  unfold refAfter at h0
  rw [h0] at h
  obtain ⟨x, hx⟩ := Option.isSome_iff_exists.1 h
  have := (hg.portal _ _ _ hx).2
  rw [hg.null] at this
  exact absurd this (by simp)

theorem leftVertex_good {path : List U32} {opts : U32} {endPos ce l : P} {ty : Byte} {s : SState P} (hg : g.OK)
    (h : SPInv g b path { s with rref := 1#32 }) (hi : s.i < path.length)
    (hs : s.i + 1 < path.length → (g.portal (path[s.i]?.getD 0#32) (path[s.i + 1]?.getD 0#32)).isSome = true)
    (hr : s.rref = 0#32 → s.right = ce ∧ s.i + 1 = path.length ∧ s.ri = s.i) :
    SNext.Good g b path opts endPos ce s (leftVertex g b path opts l ty s) := by
  have hseen : ∀ j, j < s.i + 1 → j + 1 < path.length →
      (g.portal (path[j]?.getD 0#32) (path[j + 1]?.getD 0#32)).isSome = true := by
    intro j hj hn
    rcases Nat.lt_succ_iff_lt_or_eq.1 hj with h' | rfl
    · exact h.seen j h' hn
    · exact hs hn
  have hl := (h.refs hi).1
  unfold leftVertex
  split
  · split
    · refine ⟨⟨h.ne, h.room, hi, h.ai, hi, h.ri, fun hn => ⟨fun h0 => ?_, fun h0 => ?_⟩, Nat.le_succ _, Nat.le_succ_of_le h.rle, hseen⟩, .refl h.ne⟩
      · have := refAfter_last hg hs h0
        simp only at hn
        omega
      · have := (hr h0).2.1
        simp only at hn
        omega
    · refine corner_good h.ne h.room h.ri (fun h0 => ⟨(hr h0).1, by have := (hr h0).2; omega⟩) hg (fun hn => ⟨hl, fun h0 => ?_⟩) fun j hj =>
        hseen j (by have := h.rle; simp only at this; omega)
      have := (hr h0).2
      omega
  · refine ⟨⟨h.ne, h.room, hi, h.ai, h.li, h.ri, fun hn => ⟨hl, fun h0 => ?_⟩, Nat.le_succ_of_le h.lle, Nat.le_succ_of_le h.rle, hseen⟩,
      .refl h.ne⟩
    have := (hr h0).2.1
    simp only at hn
    omega

theorem rightVertex_good {path : List U32} {opts : U32} {endPos ce l r : P} {ty : Byte} {s : SState P} (hg : g.OK)
    (h : SPInv g b path s) (hi : s.i < path.length)
    (hs : s.i + 1 < path.length → (g.portal (path[s.i]?.getD 0#32) (path[s.i + 1]?.getD 0#32)).isSome = true)
    (hce : s.i + 1 = path.length → r = ce) :
    SNext.Good g b path opts endPos ce s (rightVertex g b path opts l r ty s) := by
  have hl := h.refs hi
  have h' : ∀ (q : P) (x : U32) (t : Byte) (k : Nat), k < path.length → k ≤ s.i →
      SPInv g b path { s with right := q, rref := 1#32, rtype := t, ri := k } := fun q x t k hk hk' =>
    ⟨h.ne, h.room, h.i_le, h.ai, h.li, hk, fun hn => ⟨(h.refs hn).1, (show ¬ (1#32 = 0#32) by decide)⟩, h.lle, hk', h.seen⟩
  unfold rightVertex
  split
  · split
    · refine leftVertex_good (s := { s with right := r, rref := refAfter path s.i, rtype := ty, ri := s.i }) hg
        (h' r 0#32 ty s.i hi (le_refl _)) hi hs (fun h0 => ?_)
      have := refAfter_last hg hs h0
      have : s.i + 1 = path.length := by omega
      exact ⟨hce this, this, rfl⟩
    · refine corner_good h.ne h.room h.li (fun h0 => absurd h0 hl.1) hg (fun _ => hl) fun j hj hn => ?_
      by_cases hji : j < s.i
      · exact h.seen j hji hn
      · obtain rfl : j = s.i := by have := h.lle; omega
        exact hs hn
  · exact leftVertex_good hg (h' s.right 0#32 s.rtype s.ri h.ri h.rle) hi hs (fun h0 => absurd h0 hl.2)

theorem stopAt_good {path : List U32} {opts : U32} {endPos ce : P} {s : SState P} (hg : g.OK) (h : SPInv g b path s)
    (h0 : g.known (path[0]?.getD 0#32) = true) (hi : s.i + 1 < path.length) (hp : g.portal (path[s.i]?.getD 0#32) (path[s.i + 1]?.getD 0#32) = none) :
    SNext.Good g b path opts endPos ce s (stopAt g b path opts endPos s) := by
  unfold stopAt
  split
  · rename_i hc
    have hk := hg.clamp (path[s.i]?.getD 0#32) endPos
    rw [hc] at hk
    have : g.known (path[s.i]?.getD 0#32) = true := by
      by_cases hz : s.i = 0
      · rw [hz]; exact h0
      · obtain ⟨k, hk⟩ := Nat.exists_eq_succ_of_ne_zero hz
        have := h.seen k (by omega) (by omega)
        obtain ⟨x, hx⟩ := Option.isSome_iff_exists.1 this
        have := (hg.portal _ _ _ hx).2
        rw [hk]; exact this
    rw [this] at hk
    exact absurd hk (by simp)
  · rename_i q hq
    split
    · rename_i hn
      intro hb
      obtain ⟨o, st, e⟩ := appendPortals_some g hb path opts s.ai s.i q (by omega) h.ne h.room
      rw [hn] at e
      exact absurd e (by simp)
    · rename_i out st hpo
      have A := appendPortals_spec g b path opts s.ai s.i q (known_of_seen hg h.seen) h.ne h.room hpo
      split
      · rename_i hn
        refine fun hb => ⟨fun ho => ?_, _, hp, hi⟩
        unfold appendPortals at hpo
        rw [if_pos ho] at hpo
        simp only [Option.some.injEq, Prod.mk.injEq] at hpo
        obtain ⟨o, st, e⟩ := appendVertex_some g hb ⟨q, 0#8, path[s.i]?.getD 0#32⟩ h.room
        rw [← hpo.1, e] at hn
        exact absurd hn (by simp)
      · rename_i out2 st2 hv
        have V := appendVertex_spec g b hv
        obtain ⟨pos, rest, e, hpos⟩ := V.head
        exact ⟨.cut hi (fun j hj => h.seen j hj (by omega)) hp hq hpos e, A.grows.trans (V.grows A.grows.ne), V.room A.room⟩

theorem turn_good {path : List U32} {opts : U32} {endPos ce : P} {s : SState P} (hg : g.OK) (h : SPInv g b path s)
    (h0 : g.known (path[0]?.getD 0#32) = true) (hi : s.i < path.length) :
    SNext.Good g b path opts endPos ce s (turn g b path opts endPos ce s) := by
  unfold turn
  split
  · rename_i hn
    split
    · rename_i hp
      exact stopAt_good hg h h0 hn hp
    · rename_i l r ty hp
      split
      · rename_i h0
        refine ⟨⟨h.ne, h.room, by simp only; omega, h.ai, h.li, h.ri, fun _ => h.refs hi,
          by have := h.lle; simp only; omega, by have := h.rle; simp only; omega, fun j hj _ => ?_⟩, .refl h.ne⟩
        have : j = s.i := by simp only at hj; omega
        subst this
        rw [hp]; rfl
      · exact rightVertex_good hg h hi (fun _ => by rw [hp]; rfl) (fun hc => absurd hc (by omega))
  · exact rightVertex_good hg h hi (fun hc => absurd hc (by assumption)) (fun _ => rfl)

/-! ## The whole function -/

/-- What the caller gets from a state of the loop. -/
def SOut.Good (g : SGeo P F) (b : SBuf) (path : List U32) (opts : U32) (endPos ce : P) (start : List (SPoint P)) : SOut P → Prop
  | .done out st => Fin g b path endPos ce out.reverse st ∧ Grows start out.reverse ∧ out.length ≤ b.cap
  | .panic => b.OK → opts &&& 3#32 ≠ 0#32 ∧ ∃ j, g.portal (path[j]?.getD 0#32) (path[j + 1]?.getD 0#32) = none ∧ j + 1 < path.length
  | .hang => True

theorem endPath_good {path : List U32} {opts : U32} {endPos ce : P} {out : List (SPoint P)}
    (hall : ∀ j, j + 1 < path.length → (g.portal (path[j]?.getD 0#32) (path[j + 1]?.getD 0#32)).isSome = true) (hne : out ≠ [])
    (hl : out.length < b.cap) : SOut.Good g b path opts endPos ce out (endPath g b ce out) := by
  unfold endPath
  split
  · rename_i hn
    intro hb
    obtain ⟨o, st, e⟩ := appendVertex_some g hb ⟨ce, spEnd, 0#32⟩ hl
    rw [hn] at e
    exact absurd e (by simp)
  · rename_i o st hv
    have V := appendVertex_spec g b hv
    have hr := V.room hl.le
    refine ⟨?_, by rw [List.reverse_reverse]; exact V.grows hne, by rw [List.length_reverse]; exact hr⟩
    rw [List.reverse_reverse]
    split
    · exact .full (by omega)
    · obtain ⟨pos, rest, e, hpos⟩ := V.head
      exact .whole hall ⟨pos, rest, e, hpos⟩

theorem SOut.Good.of_grows {path : List U32} {opts : U32} {endPos ce : P} {a c : List (SPoint P)} (h : Grows a c) {o : SOut P}
    (hg : o.Good g b path opts endPos ce c) : o.Good g b path opts endPos ce a := by
  cases o with
  | done out st => exact ⟨hg.1, h.trans hg.2.1, hg.2.2⟩
  | panic => exact hg
  | hang => trivial

theorem straightLoop_good {path : List U32} {opts : U32} {endPos ce : P} (hg : g.OK)
    (h0 : g.known (path[0]?.getD 0#32) = true) (fuel : Nat) {s : SState P} (h : SPInv g b path s) :
    SOut.Good g b path opts endPos ce s.out (straightLoop g b path opts endPos ce fuel s) := by
  induction fuel generalizing s with
  | zero => trivial
  | succ fuel ih =>
    rw [straightLoop]
    split
    · rename_i hn
      unfold afterLoop
      split
      · rename_i hp
        intro hb
        obtain ⟨o, st, e⟩ := appendPortals_some g hb path opts s.ai (path.length - 1) ce (by have := h.ai; omega) h.ne h.room
        rw [hp] at e
        exact absurd e (by simp)
      · rename_i out st hp
        have A := appendPortals_spec g b path opts s.ai (path.length - 1) ce
          (known_of_seen hg fun j hj hn => h.seen j (by omega) hn) h.ne h.room hp
        split
        · rename_i hs
          rcases A.st with h1 | h1
          · exact absurd h1.1 hs
          · refine ⟨?_, by rw [List.reverse_reverse]; exact A.grows, by rw [List.length_reverse]; exact A.room⟩
            rw [List.reverse_reverse, h1.1]
            exact .full h1.2
        · rename_i hs
          rcases A.st with h1 | h1
          · exact (endPath_good (fun j hj => h.seen j (by omega) hj) A.grows.ne h1.2).of_grows A.grows
          · exact absurd (h1.1 ▸ hs) (by decide)
    · rename_i hn
      have := turn_good (opts := opts) (endPos := endPos) (ce := ce) hg h h0 (by omega)
      split
      · rename_i s' hs
        rw [hs] at this
        exact (ih this.1).of_grows this.2
      · rename_i out st hs
        rw [hs] at this
        obtain ⟨a, c, d⟩ := this
        exact ⟨by rw [List.reverse_reverse]; exact a, by rw [List.reverse_reverse]; exact c, by rw [List.length_reverse]; exact d⟩
      · rename_i hs
        rw [hs] at this
        exact this

/-- The ways `FindStraightPath` can return. -/
theorem findStraight_good (hg : g.OK) (startPos endPos : P) (path : List U32) (opts : U32) (fuel : Nat) :
    (∃ cs ce r0, path.head? = some r0 ∧ g.clamp r0 startPos = some cs ∧ (∃ re, path.getLast? = some re ∧ g.clamp re endPos = some ce) ∧
      0 < b.cap ∧
      SOut.Good g b path opts endPos ce [⟨cs, spStart, r0⟩] (findStraight g b startPos endPos path opts fuel)) ∨
    (findStraight g b startPos endPos path opts fuel = .done [] (Status.failure ||| Status.invalidParam) ∧
      (b.cap = 0 ∨ path = [] ∨ (∃ r, path.head? = some r ∧ g.known r = false) ∨
        ∃ r, path.getLast? = some r ∧ g.known r = false)) := by
  unfold findStraight
  split
  · rename_i hc; exact .inr ⟨rfl, .inl hc⟩
  · rename_i hcap
    split
    · exact .inr ⟨rfl, .inr (.inl rfl)⟩
    · rename_i r0 rest
      split
      · rename_i cs ce hcs hce
        refine .inl ⟨cs, ce, r0, rfl, hcs, ⟨_, List.getLast?_eq_some_getLast (by simp), hce⟩, by omega, ?_⟩
        have h0 : g.known r0 = true := by rw [← hg.clamp r0 startPos, hcs]; rfl
        have hnz : r0 ≠ 0#32 := by rintro rfl; rw [hg.null] at h0; exact absurd h0 (by simp)
        split
        · rename_i hn
          intro hb
          obtain ⟨o, st, e⟩ := appendVertex_some g hb ⟨cs, spStart, r0⟩ (out := []) (by simp only [List.length_nil]; omega)
          rw [hn] at e
          exact absurd e (by simp)
        · rename_i out st hv
          have V := appendVertex_spec g b hv
          have ho : out = [⟨cs, spStart, r0⟩] := by
            simp only [appendVertex, appendNew] at hv
            split at hv
            · simp only [Option.some.injEq, Prod.mk.injEq] at hv
              exact hv.1.symm
            · exact absurd hv (by simp)
          subst ho
          split
          · rename_i hs
            refine ⟨?_, .refl (by simp), by simp only [List.length_reverse, List.length_singleton]; omega⟩
            rcases V.st with h1 | h1 | h1
            · exact absurd h1.1 hs
            · exact absurd h1.2 (show ¬ (spStart = spEnd) by decide)
            · rw [h1.1]; exact .full h1.2
          · rename_i hs
            have hroom : ([⟨cs, spStart, r0⟩] : List (SPoint P)).length < b.cap := by
              rcases V.st with h1 | h1 | h1
              · exact h1.2 (by simp only [List.length_nil]; omega)
              · exact absurd h1.2 (show ¬ (spStart = spEnd) by decide)
              · exact absurd (h1.1 ▸ hs) (by decide)
            split
            · rename_i hr
              exact endPath_good (fun j hj => absurd hj (by simp [hr])) (by simp) hroom
            · refine straightLoop_good hg (by simpa using h0) fuel
                ⟨by simp [firstState], hroom, by simp [firstState], by simp [firstState], by simp [firstState],
                  by simp [firstState], fun _ => ⟨hnz, hnz⟩, le_refl _, le_refl _, fun j hj => absurd hj (by simp [firstState])⟩
      · rename_i hno
        refine .inr ⟨rfl, .inr (.inr ?_)⟩
        by_cases h1 : g.known r0 = true
        · refine .inr ⟨_, List.getLast?_eq_some_getLast (by simp), ?_⟩
          by_contra h2
          rw [Bool.not_eq_false, ← hg.clamp _ endPos, Option.isSome_iff_exists] at h2
          rw [← hg.clamp _ startPos, Option.isSome_iff_exists] at h1
          obtain ⟨cs, h1⟩ := h1
          obtain ⟨ce, h2⟩ := h2
          exact hno cs ce h1 h2
        · exact .inl ⟨r0, rfl, by simpa using h1⟩

/-! ## Theorems -/

/-- **C31**: what is returned fits the buffer, whatever the mesh, the corridor, the options and the rounding; when the call
succeeds, the first point is the start position, clamped to the first polygon. -/
theorem straight_fits (hg : g.OK) {startPos endPos : P} {path : List U32} {opts : U32} {fuel : Nat} {out : List (SPoint P)}
    {st : Status} (h : findStraight g b startPos endPos path opts fuel = .done out st) :
    out.length ≤ b.cap ∧ (st.succeed = true → ∃ r0 e, path.head? = some r0 ∧ out.head? = some e ∧ g.clamp r0 startPos = some e.pos) := by
  rcases findStraight_good (b := b) hg startPos endPos path opts fuel with ⟨cs, ce, r0, hp, hcs, _, _, hgood⟩ | ⟨he, -⟩
  · rw [h] at hgood
    refine ⟨hgood.2.2, fun _ => ?_⟩
    obtain ⟨new, l, l', r, e1, e2, e3⟩ := hgood.2.1
    simp only [List.cons.injEq] at e1
    obtain ⟨rfl, rfl⟩ := e1
    have : out = l' :: new.reverse := by
      have := congrArg List.reverse e2
      simpa using this
    exact ⟨r0, l', hp, by rw [this]; rfl, by rw [hcs, e3]⟩
  · rw [h] at he
    simp only [SOut.done.injEq] at he
    obtain ⟨rfl, rfl⟩ := he
    exact ⟨by simp, fun h => absurd h (by decide)⟩

theorem getLast_of_reverse {out : List (SPoint P)} {e : SPoint P} {rest : List (SPoint P)} (h : out.reverse = e :: rest) :
    out.getLast? = some e := by
  have := congrArg List.reverse h
  rw [List.reverse_reverse] at this
  rw [this]
  simp

/-- **C31**: the call fails exactly for an empty buffer, an empty path, or a path whose first or last polygon is not valid. -/
theorem straight_valid (hg : g.OK) {startPos endPos : P} {path : List U32} {opts : U32} {fuel : Nat} {out : List (SPoint P)}
    {st : Status} (h : findStraight g b startPos endPos path opts fuel = .done out st) :
    (st.succeed = true ∧ 0 < b.cap ∧ (∃ r, path.head? = some r ∧ g.known r = true) ∧ ∃ r, path.getLast? = some r ∧ g.known r = true) ∨
    (st = Status.failure ||| Status.invalidParam ∧ out = [] ∧
      (b.cap = 0 ∨ path = [] ∨ (∃ r, path.head? = some r ∧ g.known r = false) ∨
        ∃ r, path.getLast? = some r ∧ g.known r = false)) := by
  rcases findStraight_good (b := b) hg startPos endPos path opts fuel with ⟨cs, ce, r0, hp, hcs, ⟨re, hre, hce⟩, hc, hgood⟩ | ⟨he, hr⟩
  · rw [h] at hgood
    refine .inl ⟨?_, hc, ⟨r0, hp, by rw [← hg.clamp r0 startPos, hcs]; rfl⟩, re, hre, by rw [← hg.clamp re endPos, hce]; rfl⟩
    cases hgood.1 with
    | whole => decide
    | full => decide
    | cut => split <;> decide
  · rw [h] at he
    simp only [SOut.done.injEq] at he
    exact .inr ⟨he.2, he.1, hr⟩

/-- **C31**: a result that is neither partial nor cut by the buffer goes through the whole corridor, and its last point is the
end position, clamped to the last polygon, flagged as the end. (When this position was already there, as a corner within
the tolerance of `Approx`, that point is flagged.) -/
theorem straight_last (hg : g.OK) {startPos endPos : P} {path : List U32} {opts : U32} {fuel : Nat} {out : List (SPoint P)}
    {st : Status} (h : findStraight g b startPos endPos path opts fuel = .done out st) (hs : st.succeed = true)
    (hb : st.detail Status.bufferTooSmall = false) (hp : st.detail Status.partialResult = false) :
    (∀ j, j + 1 < path.length → (g.portal (path[j]?.getD 0#32) (path[j + 1]?.getD 0#32)).isSome = true) ∧
    ∃ re ce e, path.getLast? = some re ∧ g.clamp re endPos = some ce ∧ out.getLast? = some e ∧ e.flags = spEnd ∧ e.ref = 0#32 ∧
      (e.pos = ce ∨ g.approx ce e.pos = true) := by
  rcases findStraight_good (b := b) hg startPos endPos path opts fuel with ⟨cs, ce, r0, _, _, ⟨re, hre, hce⟩, _, hgood⟩ | ⟨he, -⟩
  · rw [h] at hgood
    cases hgood.1 with
    | whole hall ha =>
      obtain ⟨pos, rest, e, hpos⟩ := ha
      exact ⟨hall, re, ce, _, hre, hce, getLast_of_reverse e, rfl, rfl, hpos⟩
    | full => exact absurd hb (by decide)
    | cut =>
      split at hp <;> exact absurd hp (by decide)
  · rw [h] at he
    simp only [SOut.done.injEq] at he
    rw [he.2] at hs
    exact absurd hs (by decide)

/-- **C31**: a partial result (the corridor is broken) that is not cut by the buffer goes up to the last polygon before the
first missing portal; its last point is the end position, clamped to that polygon. -/
theorem straight_cut (hg : g.OK) {startPos endPos : P} {path : List U32} {opts : U32} {fuel : Nat} {out : List (SPoint P)}
    {st : Status} (h : findStraight g b startPos endPos path opts fuel = .done out st)
    (hp : st.detail Status.partialResult = true) :
    ∃ i q e, i + 1 < path.length ∧
      (∀ j, j < i → (g.portal (path[j]?.getD 0#32) (path[j + 1]?.getD 0#32)).isSome = true) ∧
      g.portal (path[i]?.getD 0#32) (path[i + 1]?.getD 0#32) = none ∧ g.clamp (path[i]?.getD 0#32) endPos = some q ∧
      out.getLast? = some e ∧ some e.ref = path[i]? ∧ e.flags = 0#8 ∧ (e.pos = q ∨ g.approx q e.pos = true) := by
  rcases findStraight_good (b := b) hg startPos endPos path opts fuel with ⟨cs, ce, r0, _, _, ⟨re, hre, hce⟩, _, hgood⟩ | ⟨he, -⟩
  · rw [h] at hgood
    cases hgood.1 with
    | whole hall ha => exact absurd hp (by decide)
    | full => exact absurd hp (by decide)
    | cut h1 h2 h3 h4 h5 h6 =>
      refine ⟨_, _, _, h1, h2, h3, h4, getLast_of_reverse h6, ?_, rfl, h5⟩
      rw [List.getElem?_eq_getElem (by omega)]
      rfl
  · rw [h] at he
    simp only [SOut.done.injEq] at he
    rw [he.2] at hp
    exact absurd hp (by decide)

/-- **C31** (`_partial`): with buffers of the same length, no index is out of range, when no crossings are asked for or the
corridor has all its portals. Missing: crossings in a broken corridor (`straight_panic_refuted`). -/
theorem straight_no_panic_partial (hg : g.OK) (hb : b.OK) {startPos endPos : P} {path : List U32} {opts : U32} {fuel : Nat}
    (h : opts &&& 3#32 = 0#32 ∨
      ∀ j, j + 1 < path.length → (g.portal (path[j]?.getD 0#32) (path[j + 1]?.getD 0#32)).isSome = true) :
    findStraight g b startPos endPos path opts fuel ≠ .panic := by
  intro hp
  rcases findStraight_good (b := b) hg startPos endPos path opts fuel with ⟨cs, ce, r0, _, _, _, _, hgood⟩ | ⟨he, -⟩
  · rw [hp] at hgood
    obtain ⟨h1, j, h2, h3⟩ := hgood hb
    rcases h with h | h
    · exact h1 h
    · have := h j h3
      rw [h2] at this
      exact absurd this (by simp)
  · rw [hp] at he
    exact absurd he (by simp)

end

/-! ## Concrete corridors -/

/-- Points `(x, z)` of the plane with exact arithmetic; the polygons are `refs`, all positions asked for lie in their polygon,
and `portals` lists the portals. -/
def planeGeo (refs : List U32) (portals : List ((U32 × U32) × ((Int × Int) × (Int × Int) × Byte))) : SGeo (Int × Int) Int where
  known r := refs.contains r
  clamp r p := if refs.contains r then some p else none
  portal a c := if refs.contains a && refs.contains c then portals.lookup (a, c) else none
  sameArea _ _ := false
  cross p q l r :=
    let perp (u v : Int × Int) : Int := u.2 * v.1 - u.1 * v.2
    let u := (q.1 - p.1, q.2 - p.2)
    let v := (r.1 - l.1, r.2 - l.2)
    let w := (p.1 - l.1, p.2 - l.2)
    let d := perp u v
    if d = 0 then none else some (l.1 + v.1 * perp u w / d, l.2 + v.2 * perp u w / d)
  approx p q := p == q
  near p l r := (r.1 - l.1) * (p.2 - l.2) == (r.2 - l.2) * (p.1 - l.1) &&
    decide (0 ≤ (p.1 - l.1) * (r.1 - p.1) + (p.2 - l.2) * (r.2 - p.2))
  area a b c := (c.1 - a.1) * (b.2 - a.2) - (b.1 - a.1) * (c.2 - a.2)
  le0 x := decide (x ≤ 0)
  ge0 x := decide (0 ≤ x)
  lt0 x := decide (x < 0)
  gt0 x := decide (0 < x)

theorem planeGeo_ok (refs : List U32) (portals : List ((U32 × U32) × ((Int × Int) × (Int × Int) × Byte))) (h : 0#32 ∉ refs) :
    (planeGeo refs portals).OK := by
  refine ⟨by simpa [planeGeo] using h, fun r p => ?_, fun a c x hx => ?_⟩
  · simp only [planeGeo]
    cases refs.contains r <;> rfl
  · simp only [planeGeo] at hx ⊢
    split at hx
    · rename_i hc
      simpa using hc
    · exact absurd hx (by simp)

/-- Three squares in a row along z, then one to the side: the way from the first to the last has one corner, at (2, 6). -/
def cornerGeo : SGeo (Int × Int) Int :=
  planeGeo [1, 2, 3, 4] [((1, 2), ((0, 2), (2, 2), 0)), ((2, 3), ((0, 4), (2, 4), 0)), ((3, 4), ((2, 6), (2, 4), 0))]

/-- The buffers of 8 points. -/
def buf8 : SBuf := ⟨8, 8, 8⟩


theorem cornerGeo_ok : cornerGeo.OK := planeGeo_ok _ _ (by decide)

/-- Non-trivial cases of `straight_fits`, `straight_last` and `straight_no_panic_partial`: the corner (2, 4), where the last
square is entered; and the crossings of a broken corridor. -/
example : findStraight cornerGeo buf8 (1, 1) (5, 5) [1, 2, 3, 4] 0#32 100 =
    .done [⟨(1, 1), spStart, 1⟩, ⟨(2, 4), 0#8, 4⟩, ⟨(5, 5), spEnd, 0⟩] Status.success := by decide +kernel

/-- Three squares in a row; the portal to the fourth polygon is missing. -/
def brokenGeo : SGeo (Int × Int) Int :=
  planeGeo [1, 2, 3, 4] [((1, 2), ((0, 2), (2, 2), 0)), ((2, 3), ((0, 4), (2, 4), 0))]

theorem brokenGeo_ok : brokenGeo.OK := planeGeo_ok _ _ (by decide)

/-- A non-trivial case of `straight_cut`. -/
example : findStraight brokenGeo buf8 (1, 1) (1, 5) [1, 2, 3, 4] 2#32 100 =
    .done [⟨(1, 1), spStart, 1⟩, ⟨(1, 2), 0#8, 2⟩, ⟨(1, 4), 0#8, 3⟩, ⟨(1, 5), 0#8, 3⟩]
      (Status.success ||| Status.partialResult) := by decide +kernel

/-- **C31**, refuted: with crossings asked for and a broken corridor, the buffer (of 2 points) is filled by the crossings, and
the end is written behind it. -/
theorem straight_panic_refuted :
    ∃ (g : SGeo (Int × Int) Int) (b : SBuf), g.OK ∧ b.OK ∧ b.cap = 2 ∧
      findStraight g b (1, 1) (1, 5) [1, 2, 3, 4] 2#32 100 = .panic :=
  ⟨brokenGeo, ⟨2, 2, 2⟩, brokenGeo_ok, by decide, rfl, by decide +kernel⟩

/-- Two polygons left and right of the vertex (0, 0), entered one after the other at this vertex. -/
def vertexGeo : SGeo (Int × Int) Int :=
  planeGeo [1, 2, 3] [((1, 2), ((0, 0), (0, -2), 0)), ((2, 3), ((0, 0), (2, 0), 0))]

/-- **C31**, refuted: the first point of the result need not be flagged as the start. Here the path starts at a vertex of the
mesh and turns around it: the flag of the start is overwritten by that of the corner. -/
theorem straight_start_refuted :
    ∃ (g : SGeo (Int × Int) Int) (b : SBuf) (out : List (SPoint (Int × Int))), g.OK ∧ b.OK ∧
      findStraight g b (0, 0) (-1, 1) [1, 2, 3] 0#32 100 = .done out Status.success ∧ out.length = 2 ∧
      (out.head?.map SPoint.flags) = some 0#8 :=
  ⟨vertexGeo, buf8, [⟨(0, 0), 0#8, 3⟩, ⟨(-1, 1), spEnd, 0⟩], planeGeo_ok _ _ (by decide), by decide, by decide +kernel, rfl, rfl⟩

/-- **C115**, refuted: `BufferTooSmall` is also reported when the whole path fits: here start and end, in a buffer of 2 points. -/
theorem straight_exact_refuted :
    ∃ (g : SGeo (Int × Int) Int) (out : List (SPoint (Int × Int))), g.OK ∧
      findStraight g ⟨2, 2, 2⟩ (1, 1) (5, 5) [1] 0#32 100 = .done out (Status.success ||| Status.bufferTooSmall) ∧
      findStraight g buf8 (1, 1) (5, 5) [1] 0#32 100 = .done out Status.success :=
  ⟨cornerGeo, [⟨(1, 1), spStart, 1⟩, ⟨(5, 5), spEnd, 0⟩], cornerGeo_ok, by decide +kernel, by decide +kernel⟩

/-- `straight_valid`: a path to a polygon that is not valid. -/
example : findStraight cornerGeo buf8 (1, 1) (5, 5) [1, 2, 3, 9] 0#32 100 =
    .done [] (Status.failure ||| Status.invalidParam) := by decide +kernel

end Verif.Detour
