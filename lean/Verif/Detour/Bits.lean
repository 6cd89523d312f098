/-
Status words, polygon area/type packing and the standard query filter
(detour/status.go, detour/poly.go, detour/queryfilter.go).
-/

namespace Verif.Detour

/-! ## Status words -/

/-- `type Status uint32` (detour/status.go:6). -/
abbrev Status := BitVec 32

namespace Status

/-- detour/status.go:10 -/
def failure : Status := 1#32 <<< 31
/-- detour/status.go:11 -/
def success : Status := 1#32 <<< 30
/-- detour/status.go:12 -/
def inProgress : Status := 1#32 <<< 29
/-- detour/status.go:15 -/
def detailMask : Status := 0x0ffffff#32
/-- detour/status.go:16 -/
def wrongMagic : Status := 1#32 <<< 0
/-- detour/status.go:17 -/
def wrongVersion : Status := 1#32 <<< 1
/-- detour/status.go:18 -/
def outOfMemory : Status := 1#32 <<< 2
/-- detour/status.go:19 -/
def invalidParam : Status := 1#32 <<< 3
/-- detour/status.go:20 -/
def bufferTooSmall : Status := 1#32 <<< 4
/-- detour/status.go:21 -/
def outOfNodes : Status := 1#32 <<< 5
/-- detour/status.go:22 -/
def partialResult : Status := 1#32 <<< 6

/-- `StatusSucceed` (detour/status.go:53-55). -/
def succeed (s : Status) : Bool := (s &&& success) != 0#32
/-- `StatusFailed` (detour/status.go:58-60). -/
def failed (s : Status) : Bool := (s &&& failure) != 0#32
/-- `StatusInProgress` (detour/status.go:63-65). -/
def isInProgress (s : Status) : Bool := (s &&& inProgress) != 0#32
/-- `StatusDetail` (detour/status.go:68-70). -/
def detail (s d : Status) : Bool := (s &&& d) != 0#32

/-- The texts `Status.Error` can return (detour/status.go:26-50). -/
inductive Text
  | wrongMagic | wrongVersion | outOfMemory | invalidParam | outOfNodes | partialResult
  | unspecified (code : Status)
  | inProgress | success
  deriving DecidableEq, Repr

/-- `Status.Error` (detour/status.go:26-50); the returned string is represented by a constructor. -/
def error (s : Status) : Text :=
  if (s &&& failure) != 0#32 then
    let d := s &&& detailMask
    if d = Status.wrongMagic then .wrongMagic
    else if d = Status.wrongVersion then .wrongVersion
    else if d = Status.outOfMemory then .outOfMemory
    else if d = Status.invalidParam then .invalidParam
    else if d = Status.outOfNodes then .outOfNodes
    else if d = Status.partialResult then .partialResult
    else .unspecified s
  else if s = Status.inProgress then .inProgress
  else .success

end Status

/-! ### Specification of status words -/

/-- Spec: the three outcomes of an operation. -/
inductive Outcome
  | failure | success | inProgress
  deriving DecidableEq, Repr

/-- Spec: the seven detail flags. -/
inductive Detail
  | wrongMagic | wrongVersion | outOfMemory | invalidParam | bufferTooSmall | outOfNodes
  | partialResult
  deriving DecidableEq, Repr

/-- Spec: the flag constant of an outcome. -/
def Outcome.flag : Outcome → Status
  | .failure => Status.failure
  | .success => Status.success
  | .inProgress => Status.inProgress

/-- Spec: the flag constant of a detail. -/
def Detail.flag : Detail → Status
  | .wrongMagic => Status.wrongMagic
  | .wrongVersion => Status.wrongVersion
  | .outOfMemory => Status.outOfMemory
  | .invalidParam => Status.invalidParam
  | .bufferTooSmall => Status.bufferTooSmall
  | .outOfNodes => Status.outOfNodes
  | .partialResult => Status.partialResult

/-- Spec: the status word built by or-ing details (in any order, with repetitions) onto an outcome,
which is how every function of the package composes its result. -/
def mkStatus (o : Outcome) (ds : List Detail) : Status :=
  ds.foldl (fun s d => s ||| d.flag) o.flag

theorem and_foldl_or_ne_zero (m : Status) (ds : List Detail) (s : Status) :
    ((ds.foldl (fun s d => s ||| d.flag) s) &&& m != 0#32)
      = ((s &&& m != 0#32) || ds.any (fun d => d.flag &&& m != 0#32)) := by
  induction ds generalizing s with
  | nil => simp
  | cons d ds ih =>
    simp only [List.foldl_cons, List.any_cons]
    rw [ih]
    have : ((s ||| d.flag) &&& m != 0#32) = ((s &&& m != 0#32) || (d.flag &&& m != 0#32)) := by
      rw [Bool.eq_iff_iff]
      simp only [bne_iff_ne, ne_eq, Bool.or_eq_true]
      rw [BitVec.and_comm, BitVec.and_or_distrib_left, BitVec.or_eq_zero_iff, BitVec.and_comm,
        BitVec.and_comm m]
      rw [Decidable.not_and_iff_or_not]
    rw [this, Bool.or_assoc]

/-! ### Properties -/

/-- **C19** (outcome tests): a status composed of one outcome and any details is reported as failed,
succeeded or in progress exactly according to the outcome put in. -/
theorem status_outcome (o : Outcome) (ds : List Detail) :
    (Status.failed (mkStatus o ds) = true ↔ o = .failure) ∧
    (Status.succeed (mkStatus o ds) = true ↔ o = .success) ∧
    (Status.isInProgress (mkStatus o ds) = true ↔ o = .inProgress) := by
  unfold Status.failed Status.succeed Status.isInProgress mkStatus
  have h : ∀ m : Outcome, (ds.any fun d => d.flag &&& m.flag != 0#32) = false := by
    intro m
    rw [List.any_eq_false]
    intro d _
    cases d <;> cases m <;> decide
  have h1 := h .failure
  have h2 := h .success
  have h3 := h .inProgress
  simp only [Outcome.flag] at h1 h2 h3
  simp only [and_foldl_or_ne_zero, h1, h2, h3, Bool.or_false]
  cases o <;> decide

/-- **C19** (detail tests): a detail is reported iff it was put in, regardless of order,
repetitions and the outcome. -/
theorem status_detail (o : Outcome) (ds : List Detail) (d : Detail) :
    Status.detail (mkStatus o ds) d.flag = true ↔ d ∈ ds := by
  unfold Status.detail mkStatus
  rw [and_foldl_or_ne_zero]
  have ho : (o.flag &&& d.flag != 0#32) = false := by cases o <;> cases d <;> decide
  rw [ho, Bool.false_or, List.any_eq_true]
  constructor
  · rintro ⟨e, he, h⟩
    have : e = d := by
      cases e <;> cases d <;> first | rfl | (exact absurd h (by decide))
    exact this ▸ he
  · intro h
    exact ⟨d, h, by cases d <;> decide⟩

example : Status.detail (mkStatus .success [.partialResult, .bufferTooSmall, .partialResult])
    Detail.bufferTooSmall.flag = true := by decide

/-- Spec: the text a user expects for a failure with one detail. -/
def Detail.text? : Detail → Option Status.Text
  | .wrongMagic => some .wrongMagic
  | .wrongVersion => some .wrongVersion
  | .outOfMemory => some .outOfMemory
  | .invalidParam => some .invalidParam
  | .bufferTooSmall => none
  | .outOfNodes => some .outOfNodes
  | .partialResult => some .partialResult

/-- **C19** (error text): a failure with exactly one detail is described by that detail's text,
except `BufferTooSmall`, which has none. -/
theorem status_error_single (d : Detail) :
    Status.error (mkStatus .failure [d])
      = (d.text?.getD (.unspecified (mkStatus .failure [d]))) := by
  cases d <;> decide

/-- **C73**: more generally any failed word whose low 24 bits are exactly one detail flag is described
by that detail's text, whatever its upper bits are. -/
theorem status_error_word (s : Status) (d : Detail) (hf : s.failed = true)
    (hd : s &&& 0x0ffffff#32 = d.flag) : s.error = (d.text?.getD (.unspecified s)) := by
  unfold Status.failed at hf
  unfold Status.error
  rw [if_pos hf]
  change s &&& Status.detailMask = d.flag at hd
  rw [hd]
  cases d <;> rfl

example : Status.error 0xc0000001#32 = .wrongMagic := by decide

/-- **C19**, refuted part: `Error` describes an in-progress operation that has collected a detail
(`InProgress|OutOfNodes`, produced by `UpdateSlicedFindPath`) as "success". -/
theorem status_error_inProgress_refuted :
    ∃ ds, Status.isInProgress (mkStatus .inProgress ds) = true ∧
      Status.error (mkStatus .inProgress ds) = .success :=
  ⟨[.outOfNodes], by decide, by decide⟩

/-- **C19**: a status without a failure flag is never described by an error text. -/
theorem status_error_not_failed (o : Outcome) (ds : List Detail) (h : o ≠ .failure) :
    Status.error (mkStatus o ds) = .success ∨ Status.error (mkStatus o ds) = .inProgress := by
  have hf : Status.failed (mkStatus o ds) = false := by
    have := (status_outcome o ds).1
    cases hh : Status.failed (mkStatus o ds)
    · rfl
    · exact absurd (this.1 hh) h
  unfold Status.failed at hf
  unfold Status.error
  simp only [hf]
  split
  · simp_all
  · split
    · exact Or.inr rfl
    · exact Or.inl rfl

/-! ## Polygon area and type (detour/poly.go) -/

/-- `Poly.SetArea` on the packed byte (detour/poly.go:33-35). -/
def setArea (x a : BitVec 8) : BitVec 8 := (x &&& 0xc0#8) ||| (a &&& 0x3f#8)
/-- `Poly.SetType` on the packed byte (detour/poly.go:38-40). -/
def setType (x t : BitVec 8) : BitVec 8 := (x &&& 0x3f#8) ||| (t <<< 6)
/-- `Poly.Area` (detour/poly.go:43-45). -/
def area (x : BitVec 8) : BitVec 8 := x &&& 0x3f#8
/-- `Poly.Type` (detour/poly.go:48-50). -/
def polyType (x : BitVec 8) : BitVec 8 := x >>> 6

/-- One call of a setter. -/
inductive PolyOp
  | area (a : BitVec 8)
  | type (t : BitVec 8)

/-- Running one setter. -/
def PolyOp.run (x : BitVec 8) : PolyOp → BitVec 8
  | .area a => setArea x a
  | .type t => setType x t

theorem area_setArea (x a : BitVec 8) : area (setArea x a) = a &&& 0x3f#8 := by
  unfold area setArea
  rw [BitVec.and_comm, BitVec.and_or_distrib_left, BitVec.and_comm, BitVec.and_assoc]
  have h1 : (0xc0#8 &&& 0x3f#8) = 0#8 := by decide
  rw [h1, BitVec.and_zero, BitVec.zero_or, BitVec.and_comm 0x3f#8, BitVec.and_assoc,
    BitVec.and_self]

theorem polyType_setArea (x a : BitVec 8) : polyType (setArea x a) = polyType x := by
  unfold polyType setArea
  apply BitVec.eq_of_getLsbD_eq
  intro i hi
  simp only [BitVec.getLsbD_ushiftRight, BitVec.getLsbD_or, BitVec.getLsbD_and]
  have h6 : ∀ j : Fin 8, ((0x3f#8).getLsbD (6 + j) = false) ∧
      ((0xc0#8).getLsbD (6 + j) = decide (j.val < 2)) := by decide
  rw [(h6 ⟨i, hi⟩).1, (h6 ⟨i, hi⟩).2]
  by_cases h : i < 2
  · simp [h]
  · have : x.getLsbD (6 + i) = false := BitVec.getLsbD_of_ge x _ (by omega)
    simp [this]

theorem area_setType (x t : BitVec 8) : area (setType x t) = area x := by
  unfold area setType
  apply BitVec.eq_of_getLsbD_eq
  intro i hi
  simp only [BitVec.getLsbD_or, BitVec.getLsbD_and, BitVec.getLsbD_shiftLeft]
  have h3 : ∀ j : Fin 8, (0x3f#8).getLsbD j = decide (j.val < 6) := by decide
  rw [h3 ⟨i, hi⟩]
  by_cases h : i < 6 <;> simp [h]

theorem polyType_setType (x t : BitVec 8) : polyType (setType x t) = t &&& 3#8 := by
  unfold polyType setType
  apply BitVec.eq_of_getLsbD_eq
  intro i hi
  simp only [BitVec.getLsbD_ushiftRight, BitVec.getLsbD_or, BitVec.getLsbD_and,
    BitVec.getLsbD_shiftLeft]
  have h3 : ∀ j : Fin 8, (0x3f#8).getLsbD (6 + j) = false ∧
    (3#8).getLsbD j = decide (j.val < 2) := by decide
  rw [(h3 ⟨i, hi⟩).1, (h3 ⟨i, hi⟩).2]
  by_cases h : i < 2
  · have : 6 + i < 8 := by omega
    simp [h, this]
  · have : ¬ (6 + i < 8) := by omega
    simp [h, this]

/-! ### Properties -/

/-- Spec: the last area set by a sequence of calls, or the initial one. -/
def lastArea (a0 : BitVec 8) : List PolyOp → BitVec 8
  | [] => a0
  | .area a :: ops => lastArea a ops
  | .type _ :: ops => lastArea a0 ops

/-- Spec: the last type set by a sequence of calls, or the initial one. -/
def lastType (t0 : BitVec 8) : List PolyOp → BitVec 8
  | [] => t0
  | .area _ :: ops => lastType t0 ops
  | .type t :: ops => lastType t ops

/-- Spec: the documented argument limits (`maxAreas` = 64 area ids, two type bits). -/
def PolyOp.ok : PolyOp → Prop
  | .area a => a.toNat < 64
  | .type t => t.toNat < 4

theorem and_3f_of_lt {a : BitVec 8} (h : a.toNat < 64) : a &&& 0x3f#8 = a := by
  apply BitVec.eq_of_toNat_eq
  rw [BitVec.toNat_and]
  show a.toNat &&& 63 = a.toNat
  have := Nat.and_two_pow_sub_one_eq_mod a.toNat 6
  simp at this
  omega

theorem and_3_of_lt {a : BitVec 8} (h : a.toNat < 4) : a &&& 3#8 = a := by
  apply BitVec.eq_of_toNat_eq
  rw [BitVec.toNat_and]
  show a.toNat &&& 3 = a.toNat
  have := Nat.and_two_pow_sub_one_eq_mod a.toNat 2
  simp at this
  omega

/-- **C17**: after any sequence of `SetArea`/`SetType` calls with arguments in range, `Area` is the
last area set and `Type` the last type set (or the initial one if none was set). -/
theorem poly_area_type (x : BitVec 8) (ops : List PolyOp) (h : ∀ o ∈ ops, o.ok) :
    area (ops.foldl PolyOp.run x) = lastArea (area x) ops ∧
    polyType (ops.foldl PolyOp.run x) = lastType (polyType x) ops := by
  induction ops generalizing x with
  | nil => exact ⟨rfl, rfl⟩
  | cons o ops ih =>
    have ho : o.ok := h o (by simp)
    have hr := ih (o.run x) (fun p hp => h p (by simp [hp]))
    cases o with
    | area a =>
      simp only [List.foldl_cons, lastArea, lastType]
      rw [hr.1, hr.2]
      simp only [PolyOp.run]
      rw [area_setArea, polyType_setArea, and_3f_of_lt ho]
      exact ⟨rfl, rfl⟩
    | type t =>
      simp only [List.foldl_cons, lastArea, lastType]
      rw [hr.1, hr.2]
      simp only [PolyOp.run]
      rw [area_setType, polyType_setType, and_3_of_lt ho]
      exact ⟨rfl, rfl⟩

example : area ([PolyOp.area 5, .type 1, .area 63, .type 0].foldl PolyOp.run 0xff#8) = 63#8 := by
  decide

/-! ## Standard query filter (detour/queryfilter.go) -/

/-- `StandardQueryFilter` without the area costs (detour/queryfilter.go:63-72). -/
structure Filter where
  includeFlags : BitVec 16
  excludeFlags : BitVec 16

/-- `NewStandardQueryFilter` (detour/queryfilter.go:75-84). -/
def Filter.new : Filter := ⟨0xffff#16, 0#16⟩

/-- `SetIncludeFlags` (detour/queryfilter.go:99). -/
def Filter.setIncludeFlags (f : Filter) (x : BitVec 16) : Filter := { f with includeFlags := x }
/-- `SetExcludeFlags` (detour/queryfilter.go:108). -/
def Filter.setExcludeFlags (f : Filter) (x : BitVec 16) : Filter := { f with excludeFlags := x }

/-- `PassFilter` (detour/queryfilter.go:116-118); only `poly.Flags` is read. -/
def Filter.passFilter (f : Filter) (polyFlags : BitVec 16) : Bool :=
  (polyFlags &&& f.includeFlags) != 0#16 && (polyFlags &&& f.excludeFlags) == 0#16

theorem and_ne_zero_iff {w : Nat} (x y : BitVec w) :
    (x &&& y) ≠ 0#w ↔ ∃ i, x.getLsbD i = true ∧ y.getLsbD i = true := by
  constructor
  · intro h
    apply Classical.byContradiction
    intro hn
    apply h
    apply BitVec.eq_of_getLsbD_eq
    intro i _
    rw [BitVec.getLsbD_and, BitVec.getLsbD_zero]
    cases hx : x.getLsbD i <;> cases hy : y.getLsbD i <;> simp
    exact hn ⟨i, hx, hy⟩
  · rintro ⟨i, hx, hy⟩ h
    have : (x &&& y).getLsbD i = true := by rw [BitVec.getLsbD_and, hx, hy]; rfl
    rw [h] at this
    simp at this

/-! ### Properties -/

/-- **C18**: the filter set up with `inc`/`exc` passes a polygon iff the polygon has some flag
listed in `inc` and no flag listed in `exc`. -/
theorem passFilter_iff (f : Filter) (inc exc p : BitVec 16) :
    ((f.setIncludeFlags inc).setExcludeFlags exc).passFilter p = true ↔
      (∃ i, p.getLsbD i = true ∧ inc.getLsbD i = true) ∧
      (∀ i, p.getLsbD i = true → exc.getLsbD i = false) := by
  unfold Filter.passFilter Filter.setIncludeFlags Filter.setExcludeFlags
  simp only [Bool.and_eq_true, bne_iff_ne, beq_iff_eq]
  rw [and_ne_zero_iff]
  apply and_congr_right'
  constructor
  · intro h i hp
    cases he : exc.getLsbD i
    · rfl
    · exact absurd h ((and_ne_zero_iff p exc).2 ⟨i, hp, he⟩)
  · intro h
    apply Classical.byContradiction
    intro hn
    obtain ⟨i, hp, he⟩ := (and_ne_zero_iff p exc).1 hn
    rw [h i hp] at he
    exact Bool.noConfusion he

/-- **C18**: a polygon without flags is never considered, and a filter including nothing passes
nothing. -/
theorem passFilter_no_flags (f : Filter) (p : BitVec 16) :
    f.passFilter 0#16 = false ∧ (f.setIncludeFlags 0#16).passFilter p = false := by
  constructor <;> simp [Filter.passFilter, Filter.setIncludeFlags]

/-- **C18**: exclusion wins: adding exclude flags never lets another polygon pass. -/
theorem passFilter_exclude_mono (f : Filter) (e p : BitVec 16)
    (h : (f.setExcludeFlags (f.excludeFlags ||| e)).passFilter p = true) :
    f.passFilter p = true := by
  cases f with
  | mk inc exc =>
    have h1 := (passFilter_iff ⟨inc, exc⟩ inc (exc ||| e) p).1 h
    refine (passFilter_iff ⟨inc, exc⟩ inc exc p).2 ⟨h1.1, fun i hi => ?_⟩
    have := h1.2 i hi
    rw [BitVec.getLsbD_or, Bool.or_eq_false_iff] at this
    exact this.1

/-- **C18**: the default filter passes exactly the polygons with some flag. -/
theorem passFilter_default (p : BitVec 16) :
    Filter.new.passFilter p = true ↔ p ≠ 0#16 := by
  unfold Filter.passFilter Filter.new
  have h : p &&& 0xffff#16 = p := BitVec.and_allOnes
  simp [h]

example : (((Filter.new).setIncludeFlags 0x3#16).setExcludeFlags 0x2#16).passFilter 0x1#16 = true ∧
    (((Filter.new).setIncludeFlags 0x3#16).setExcludeFlags 0x2#16).passFilter 0x3#16 = false := by
  decide

end Verif.Detour
