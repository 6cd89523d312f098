/-
Polygon/tile references and the id-bit budget of `NavMesh.Init` (detour/mesh.go), and the bit split
of the tiled sample (sample/tilemesh/builder.go).
-/
import Mathlib.Tactic.Ring
import Mathlib.Tactic.Linarith
import Mathlib.Data.Nat.Log
import Verif.Detour.Bits

namespace Verif.Detour

/-! ## The external helpers `math32.NextPow2` and `math32.Ilog2`

`github.com/arl/math32` is not part of the repository; these are the bit tricks of the original
`dtNextPow2`/`dtIlog2`, which that library ports. -/

/-- One smearing step `v |= v >> k`. -/
def smearStep (v : BitVec 32) (k : Nat) : BitVec 32 := v ||| (v >>> k)

/-- `v |= v>>1; v |= v>>2; v |= v>>4; v |= v>>8; v |= v>>16`. -/
def smear (v : BitVec 32) : BitVec 32 :=
  smearStep (smearStep (smearStep (smearStep (smearStep v 1) 2) 4) 8) 16

/-- `math32.NextPow2` (called at detour/mesh.go:252,268,269; query.go:139,140; builder.go:89). -/
def nextPow2 (v : BitVec 32) : BitVec 32 := smear (v - 1#32) + 1#32

/-- `math32.Ilog2` (called at detour/mesh.go:268,269; builder.go:89). -/
def ilog2 (v0 : BitVec 32) : BitVec 32 :=
  let r0 : BitVec 32 := (if v0.toNat > 0xffff then 1#32 else 0#32) <<< 4
  let v1 := v0 >>> r0.toNat
  let s1 : BitVec 32 := (if v1.toNat > 0xff then 1#32 else 0#32) <<< 3
  let v2 := v1 >>> s1.toNat
  let r1 := r0 ||| s1
  let s2 : BitVec 32 := (if v2.toNat > 0xf then 1#32 else 0#32) <<< 2
  let v3 := v2 >>> s2.toNat
  let r2 := r1 ||| s2
  let s3 : BitVec 32 := (if v3.toNat > 0x3 then 1#32 else 0#32) <<< 1
  let v4 := v3 >>> s3.toNat
  let r3 := r2 ||| s3
  r3 ||| (v4 >>> 1)

theorem smearStep_spec (v w : BitVec 32) (n : Nat)
    (h : ∀ i, w.getLsbD i = true ↔ ∃ j, j < n ∧ v.getLsbD (i + j) = true) :
    ∀ i, (smearStep w n).getLsbD i = true ↔ ∃ j, j < n + n ∧ v.getLsbD (i + j) = true := by
  intro i
  unfold smearStep
  rw [BitVec.getLsbD_or, BitVec.getLsbD_ushiftRight, Bool.or_eq_true, h, h]
  constructor
  · rintro (⟨j, hj, hv⟩ | ⟨j, hj, hv⟩)
    · exact ⟨j, by omega, hv⟩
    · exact ⟨n + j, by omega, by rwa [show i + (n + j) = n + i + j by omega]⟩
  · rintro ⟨j, hj, hv⟩
    by_cases hjn : j < n
    · exact Or.inl ⟨j, hjn, hv⟩
    · exact Or.inr ⟨j - n, by omega, by rwa [show n + i + (j - n) = i + j by omega]⟩

theorem smear_spec (v : BitVec 32) (i : Nat) :
    (smear v).getLsbD i = true ↔ ∃ j, v.getLsbD (i + j) = true := by
  have h1 : ∀ i, v.getLsbD i = true ↔ ∃ j, j < 1 ∧ v.getLsbD (i + j) = true := by
    intro i
    constructor
    · intro h; exact ⟨0, by omega, h⟩
    · rintro ⟨j, hj, h⟩
      have : j = 0 := by omega
      subst this; exact h
  have h5 := smearStep_spec _ _ _ (smearStep_spec _ _ _ (smearStep_spec _ _ _
    (smearStep_spec _ _ _ (smearStep_spec _ _ _ h1)))) i
  unfold smear
  rw [h5]
  constructor
  · rintro ⟨j, _, h⟩; exact ⟨j, h⟩
  · rintro ⟨j, h⟩
    refine ⟨j, ?_, h⟩
    have := BitVec.lt_of_getLsbD h
    omega

theorem smear_toNat (v : BitVec 32) (k : Nat) (hlt : v.toNat < 2 ^ k)
    (hge : ∀ j, j < k → 2 ^ j ≤ v.toNat) : (smear v).toNat = 2 ^ k - 1 := by
  apply Nat.eq_of_testBit_eq
  intro i
  rw [Nat.testBit_two_pow_sub_one]
  have hs : (smear v).toNat.testBit i = (smear v).getLsbD i := rfl
  rw [hs]
  rw [Bool.eq_iff_iff, smear_spec, decide_eq_true_iff]
  constructor
  · rintro ⟨j, h⟩
    apply Classical.byContradiction
    intro hik
    have h2 : v.toNat < 2 ^ (i + j) :=
      lt_of_lt_of_le hlt (Nat.pow_le_pow_right (by omega) (by omega))
    have := Nat.testBit_lt_two_pow h2
    have h' : v.toNat.testBit (i + j) = true := h
    rw [this] at h'
    exact Bool.noConfusion h'
  · intro hik
    have h1 := hge (k - 1) (by omega)
    have h2 : v.toNat < 2 ^ ((k - 1) + 1) := by
      rw [show k - 1 + 1 = k by omega]; exact hlt
    refine ⟨k - 1 - i, ?_⟩
    rw [show i + (k - 1 - i) = k - 1 by omega]
    show v.toNat.testBit (k - 1) = true
    rw [Nat.testBit_eq_decide_div_mod_eq]
    have : v.toNat / 2 ^ (k - 1) = 1 := by
      apply Nat.div_eq_of_lt_le
      · omega
      · rw [pow_succ] at h2; omega
    rw [this]; decide

/-- `NextPow2 v` is `2 ^ k` for the least `k` with `v ≤ 2 ^ k`, for `1 ≤ v ≤ 2^31`. -/
theorem nextPow2_toNat (v : BitVec 32) (h1 : 1 ≤ v.toNat) (h2 : v.toNat ≤ 2 ^ 31) :
    (nextPow2 v).toNat = 2 ^ (Nat.clog 2 v.toNat) := by
  have hsub : (v - 1#32).toNat = v.toNat - 1 := by
    rw [BitVec.toNat_sub]
    simp only [BitVec.toNat_ofNat]
    have := v.isLt
    omega
  have hk : Nat.clog 2 v.toNat ≤ 31 := Nat.clog_le_of_le_pow h2
  have hs : (smear (v - 1#32)).toNat = 2 ^ (Nat.clog 2 v.toNat) - 1 := by
    apply smear_toNat
    · rw [hsub]
      have := Nat.le_pow_clog (b := 2) (by omega) v.toNat
      omega
    · intro j hj
      rw [hsub]
      have := (Nat.lt_clog_iff_pow_lt (b := 2) (by omega)).1 hj
      omega
  unfold nextPow2
  rw [BitVec.toNat_add, hs]
  simp only [BitVec.toNat_ofNat]
  have hp : 2 ^ (Nat.clog 2 v.toNat) ≤ 2 ^ 31 := Nat.pow_le_pow_right (by omega) hk
  have hp' : 0 < 2 ^ (Nat.clog 2 v.toNat) := Nat.pow_pos (by omega)
  omega

/-- `NextPow2` of 0, and of anything above `2^31`, wraps to 0. -/
theorem nextPow2_wrap (v : BitVec 32) (h : v.toNat = 0 ∨ 2 ^ 31 < v.toNat) :
    nextPow2 v = 0#32 := by
  have hs : (smear (v - 1#32)).toNat = 2 ^ 32 - 1 := by
    have hge : 2 ^ 31 ≤ (v - 1#32).toNat := by
      rw [BitVec.toNat_sub]
      simp only [BitVec.toNat_ofNat]
      have := v.isLt
      omega
    apply smear_toNat
    · exact (v - 1#32).isLt
    · intro j hj
      exact le_trans (Nat.pow_le_pow_right (by omega) (by omega)) hge
  apply BitVec.eq_of_toNat_eq
  unfold nextPow2
  rw [BitVec.toNat_add, hs]
  rfl

theorem ilog2_pow : ∀ k : Fin 32, ilog2 (BitVec.ofNat 32 (2 ^ k.val)) = BitVec.ofNat 32 k.val := by
  decide

theorem ilog2_zero : ilog2 0#32 = 0#32 := by decide

/-- Number of id bits `Init` reserves for `n` items: `Ilog2(NextPow2(n))`. -/
def idBits (n : BitVec 32) : BitVec 32 := ilog2 (nextPow2 n)

theorem idBits_eq (n : BitVec 32) (h1 : 1 ≤ n.toNat) (h2 : n.toNat ≤ 2 ^ 31) :
    (idBits n).toNat = Nat.clog 2 n.toNat := by
  have hk : Nat.clog 2 n.toNat ≤ 31 := Nat.clog_le_of_le_pow h2
  have : nextPow2 n = BitVec.ofNat 32 (2 ^ (Nat.clog 2 n.toNat)) := by
    apply BitVec.eq_of_toNat_eq
    rw [nextPow2_toNat n h1 h2, BitVec.toNat_ofNat]
    have hp : 2 ^ (Nat.clog 2 n.toNat) ≤ 2 ^ 31 := Nat.pow_le_pow_right (by omega) hk
    exact (Nat.mod_eq_of_lt (by omega)).symm
  unfold idBits
  rw [this]
  have h := ilog2_pow ⟨Nat.clog 2 n.toNat, by omega⟩
  simp only at h
  rw [h, BitVec.toNat_ofNat]
  omega

theorem idBits_wrap (n : BitVec 32) (h : n.toNat = 0 ∨ 2 ^ 31 < n.toNat) : idBits n = 0#32 := by
  unfold idBits
  rw [nextPow2_wrap n h, ilog2_zero]

/-! ## `NavMesh.Init`: id bits -/

/-- The id-generator fields of `NavMesh` (detour/mesh.go:60-62). -/
structure IdBits where
  saltBits : BitVec 32
  tileBits : BitVec 32
  polyBits : BitVec 32
  deriving DecidableEq, Repr

/-- `NavMesh.Init`, id-generator part and returned status (detour/mesh.go:267-282). All arithmetic
is on uint32, as in the Go code. -/
def initBits (maxTiles maxPolys : BitVec 32) : Status × IdBits :=
  let tileBits := idBits maxTiles
  let polyBits := idBits maxPolys
  let rest := 32#32 - tileBits - polyBits
  let saltBits := if 31#32 < rest then 31#32 else rest
  (if saltBits < 8#32 then Status.failure ||| Status.invalidParam else Status.success,
    ⟨saltBits, tileBits, polyBits⟩)

/-- `TileLUTSize` computed by `Init` (detour/mesh.go:252-256). -/
def lutSize (maxTiles : BitVec 32) : BitVec 32 :=
  let s := nextPow2 (BitVec.ofNat 32 (maxTiles.toNat / 4))
  if s = 0#32 then 1#32 else s

/-! ### Properties of Init -/

/-- Spec: the configuration fits: both counts are at least 1 and the bits needed to number
`maxTiles` tiles and `maxPolys` polygons leave at least 8 of 32 bits. -/
def Fits (maxTiles maxPolys : Nat) : Prop :=
  ∃ t p, maxTiles ≤ 2 ^ t ∧ maxPolys ≤ 2 ^ p ∧ t + p + 8 ≤ 32

theorem fits_iff {a b : Nat} : Fits a b ↔ Nat.clog 2 a + Nat.clog 2 b + 8 ≤ 32 := by
  constructor
  · rintro ⟨t, p, ht, hp, h⟩
    have h1 : Nat.clog 2 a ≤ t := Nat.clog_le_of_le_pow ht
    have h2 : Nat.clog 2 b ≤ p := Nat.clog_le_of_le_pow hp
    omega
  · intro h
    exact ⟨_, _, Nat.le_pow_clog (by omega) _, Nat.le_pow_clog (by omega) _, h⟩

theorem initBits_toNat (mt mp : BitVec 32) (ht1 : 1 ≤ mt.toNat) (ht2 : mt.toNat ≤ 2 ^ 31)
    (hp1 : 1 ≤ mp.toNat) (hp2 : mp.toNat ≤ 2 ^ 31)
    (hsum : Nat.clog 2 mt.toNat + Nat.clog 2 mp.toNat ≤ 32) :
    (initBits mt mp).2.tileBits.toNat = Nat.clog 2 mt.toNat ∧
    (initBits mt mp).2.polyBits.toNat = Nat.clog 2 mp.toNat ∧
    (initBits mt mp).2.saltBits.toNat
      = min 31 (32 - Nat.clog 2 mt.toNat - Nat.clog 2 mp.toNat) := by
  have ht := idBits_eq mt ht1 ht2
  have hp := idBits_eq mp hp1 hp2
  have hrest : (32#32 - idBits mt - idBits mp).toNat
      = 32 - Nat.clog 2 mt.toNat - Nat.clog 2 mp.toNat := by
    rw [BitVec.toNat_sub, BitVec.toNat_sub, ht, hp]
    simp only [BitVec.toNat_ofNat]
    omega
  have hcases : (initBits mt mp).2 = ⟨if 31#32 < 32#32 - idBits mt - idBits mp then 31#32
      else 32#32 - idBits mt - idBits mp, idBits mt, idBits mp⟩ := rfl
  rw [hcases]
  refine ⟨ht, hp, ?_⟩
  simp only
  split
  · rename_i h
    rw [BitVec.lt_def, hrest] at h
    simp only [BitVec.toNat_ofNat] at h ⊢
    omega
  · rename_i h
    rw [BitVec.lt_def, hrest] at h
    simp only [BitVec.toNat_ofNat] at h
    rw [hrest]
    omega

theorem initBits_status (mt mp : BitVec 32) :
    (initBits mt mp).1 = if (initBits mt mp).2.saltBits.toNat < 8
      then Status.failure ||| Status.invalidParam else Status.success := by
  rfl

/-- **C02** `_partial`: for counts up to `2^31` whose id bits do not exceed 32 in total, `Init`
succeeds exactly when the configuration fits, otherwise it returns `Failure|InvalidParam`; on
success the three bit counts sum to at most 32 and there are at least 8 salt bits. Missing from the
full statement: id bits summing to more than 32 (see `init_accepts_iff_fits_refuted`). -/
theorem init_accepts_iff_fits_partial (mt mp : BitVec 32)
    (ht1 : 1 ≤ mt.toNat) (ht2 : mt.toNat ≤ 2 ^ 31) (hp1 : 1 ≤ mp.toNat) (hp2 : mp.toNat ≤ 2 ^ 31)
    (hsum : Nat.clog 2 mt.toNat + Nat.clog 2 mp.toNat ≤ 32) :
    let r := initBits mt mp
    (Status.succeed r.1 = true ↔ Fits mt.toNat mp.toNat) ∧
    (Status.failed r.1 = true ↔ ¬ Fits mt.toNat mp.toNat) ∧
    (Status.succeed r.1 = true →
      8 ≤ r.2.saltBits.toNat ∧ r.2.saltBits.toNat ≤ 31 ∧
      r.2.saltBits.toNat + r.2.tileBits.toNat + r.2.polyBits.toNat ≤ 32 ∧
      mt.toNat ≤ 2 ^ r.2.tileBits.toNat ∧ mp.toNat ≤ 2 ^ r.2.polyBits.toNat) := by
  obtain ⟨h1, h2, h3⟩ := initBits_toNat mt mp ht1 ht2 hp1 hp2 hsum
  have hs := initBits_status mt mp
  simp only
  have c1 : mt.toNat ≤ 2 ^ Nat.clog 2 mt.toNat := Nat.le_pow_clog (by omega) _
  have c2 : mp.toNat ≤ 2 ^ Nat.clog 2 mp.toNat := Nat.le_pow_clog (by omega) _
  rw [fits_iff, hs, h1, h2, h3]
  by_cases h : Nat.clog 2 mt.toNat + Nat.clog 2 mp.toNat + 8 ≤ 32
  · have h' : ¬ (min 31 (32 - Nat.clog 2 mt.toNat - Nat.clog 2 mp.toNat) < 8) := by omega
    rw [if_neg h']
    have e1 : Status.succeed Status.success = true := by decide
    have e2 : Status.failed Status.success = false := by decide
    simp only [e1, e2, h, not_true, iff_self]
    refine ⟨trivial, by simp, fun _ => ⟨by omega, by omega, by omega, c1, c2⟩⟩
  · have h' : (min 31 (32 - Nat.clog 2 mt.toNat - Nat.clog 2 mp.toNat) < 8) := by omega
    rw [if_pos h']
    have e1 : Status.succeed (Status.failure ||| Status.invalidParam) = false := by decide
    have e2 : Status.failed (Status.failure ||| Status.invalidParam) = true := by decide
    simp [e1, e2, h]

example : 1 ≤ (1024#32).toNat ∧ Nat.clog 2 (1024#32).toNat + Nat.clog 2 (4096#32).toNat ≤ 32 := by
  constructor
  · decide
  · have h1 : Nat.clog 2 (1024#32).toNat ≤ 10 := Nat.clog_le_of_le_pow (by decide)
    have h2 : Nat.clog 2 (4096#32).toNat ≤ 12 := Nat.clog_le_of_le_pow (by decide)
    omega

/-- **C02** refuted in full: with 2^17 tiles of 2^16 polygons the bit subtraction wraps, `Init`
reports success and chooses 31 salt bits, although 33 id bits cannot fit 32. -/
theorem init_accepts_iff_fits_refuted :
    ∃ mt mp : BitVec 32, Status.succeed (initBits mt mp).1 = true ∧ ¬ Fits mt.toNat mp.toNat ∧
      (initBits mt mp).2 = ⟨31#32, 17#32, 16#32⟩ := by
  refine ⟨0x20000#32, 0x10000#32, by decide, ?_, by decide⟩
  rintro ⟨t, p, ht, hp, h⟩
  have h1 : 17 ≤ t := by
    by_contra hc
    have : 2 ^ t ≤ 2 ^ 16 := Nat.pow_le_pow_right (by omega) (by omega)
    simp at ht; omega
  have h2 : 16 ≤ p := by
    by_contra hc
    have : 2 ^ p ≤ 2 ^ 15 := Nat.pow_le_pow_right (by omega) (by omega)
    simp at hp; omega
  omega

/-- **C02** refuted in full, second way: more than 2^31 polygons per tile make `NextPow2` wrap to 0,
so `Init` accepts with 0 polygon bits. -/
theorem init_accepts_huge_polys_refuted :
    ∃ mp : BitVec 32, Status.succeed (initBits 16#32 mp).1 = true ∧ ¬ Fits 16 mp.toNat ∧
      (initBits 16#32 mp).2.polyBits = 0#32 := by
  refine ⟨0x80000001#32, by decide, ?_, by decide⟩
  rintro ⟨t, p, ht, hp, h⟩
  have : 2 ^ p ≤ 2 ^ 24 := Nat.pow_le_pow_right (by omega) (by omega)
  simp at hp; omega

/-- **C02/C04**: for every table of fewer than 2^31 tiles the lookup table size is a positive power
of two, so `size-1` is a usable bit mask. -/
theorem lutSize_pow2 (mt : BitVec 32) (h : mt.toNat < 2 ^ 31) :
    ∃ k, k ≤ 29 ∧ (lutSize mt).toNat = 2 ^ k := by
  unfold lutSize
  simp only
  by_cases h0 : mt.toNat / 4 = 0
  · have : nextPow2 (BitVec.ofNat 32 (mt.toNat / 4)) = 0#32 := by
      rw [h0]; decide
    rw [this]
    exact ⟨0, by omega, by simp⟩
  · have hn : (BitVec.ofNat 32 (mt.toNat / 4)).toNat = mt.toNat / 4 := by
      rw [BitVec.toNat_ofNat]; omega
    have hle : mt.toNat / 4 ≤ 2 ^ 29 := by omega
    have hp := nextPow2_toNat (BitVec.ofNat 32 (mt.toNat / 4)) (by omega) (by omega)
    rw [hn] at hp
    have hk : Nat.clog 2 (mt.toNat / 4) ≤ 29 := Nat.clog_le_of_le_pow hle
    have hpos : 0 < 2 ^ Nat.clog 2 (mt.toNat / 4) := Nat.pow_pos (by omega)
    rw [if_neg]
    · exact ⟨_, hk, hp⟩
    · intro hc
      rw [hc] at hp
      simp only [BitVec.toNat_ofNat] at hp
      omega

/-- `sample/tilemesh/builder.go:89-92`: the tile/polygon bit split for a `tw`×`th` grid;
`n = uint32(tw*th)`. Returns (maxTiles, maxPolysPerTile). -/
def tileMeshParams (n : BitVec 32) : BitVec 32 × BitVec 32 :=
  let tileBits := min (idBits n).toNat 14
  (1#32 <<< tileBits, 1#32 <<< (22 - tileBits))

theorem shiftLeft_one_toNat (k : Nat) (h : k < 32) : (1#32 <<< k).toNat = 2 ^ k := by
  rw [BitVec.toNat_shiftLeft, BitVec.toNat_ofNat, Nat.shiftLeft_eq]
  have : 2 ^ k < 2 ^ 32 := Nat.pow_lt_pow_right (by omega) h
  simp only [Nat.reducePow, Nat.one_mod, one_mul] at *
  exact Nat.mod_eq_of_lt this

/-- **C68**: whatever the grid size, the tiled sample's parameters are accepted by `Init` with
exactly 10 salt bits, and as many tile slots as bits allow; up to 2^14 tiles all fit. -/
theorem tileMeshParams_ok (n : BitVec 32) :
    let pr := tileMeshParams n
    Status.succeed (initBits pr.1 pr.2).1 = true ∧
    (initBits pr.1 pr.2).2.saltBits = 10#32 ∧
    (1 ≤ n.toNat → n.toNat ≤ 2 ^ 14 → n.toNat ≤ pr.1.toNat) := by
  simp only
  have hfin : ∀ k : Fin 15, Status.succeed (initBits (1#32 <<< k.val) (1#32 <<< (22 - k.val))).1
      = true ∧ (initBits (1#32 <<< k.val) (1#32 <<< (22 - k.val))).2.saltBits = 10#32 := by
    decide
  have hk : min (idBits n).toNat 14 < 15 := by omega
  have h := hfin ⟨_, hk⟩
  refine ⟨h.1, h.2, ?_⟩
  intro h1 h2
  unfold tileMeshParams
  simp only
  have hb := idBits_eq n h1 (by omega)
  have hc : Nat.clog 2 n.toNat ≤ 14 := Nat.clog_le_of_le_pow h2
  rw [shiftLeft_one_toNat _ (by omega), hb, Nat.min_eq_left hc]
  exact Nat.le_pow_clog (by omega) _

/-- **C68**: a larger grid than 2^14 tiles gets only 2^14 slots (the builder ignores the shortage
and `AddTile` aborts the process when the slots run out). -/
theorem tileMeshParams_overflow (n : BitVec 32) (h : 2 ^ 14 < n.toNat) (h2 : n.toNat ≤ 2 ^ 31) :
    (tileMeshParams n).1.toNat = 2 ^ 14 := by
  unfold tileMeshParams
  simp only
  have hb := idBits_eq n (by omega) h2
  have : 14 < Nat.clog 2 n.toNat := (Nat.lt_clog_iff_pow_lt (by omega)).2 h
  rw [hb, Nat.min_eq_right (by omega)]
  decide

/-! ## Reference codec -/

namespace IdBits

variable (m : IdBits)

/-- `encodePolyID` (detour/mesh.go:662-665). Go shifts by 32 or more give 0, as `BitVec` shifts do. -/
def encode (salt it ip : BitVec 32) : BitVec 32 :=
  (salt <<< (m.polyBits + m.tileBits).toNat) ||| (it <<< m.polyBits.toNat) ||| ip

/-- `decodePolyIDSalt` (detour/mesh.go:775-778), also line 1133 of `DecodePolyID`. -/
def decodeSalt (ref : BitVec 32) : BitVec 32 :=
  (ref >>> (m.polyBits + m.tileBits).toNat) &&& ((1#32 <<< m.saltBits.toNat) - 1#32)

/-- `decodePolyIDTile` (detour/mesh.go:767-770), also line 1134 of `DecodePolyID`. -/
def decodeTile (ref : BitVec 32) : BitVec 32 :=
  (ref >>> m.polyBits.toNat) &&& ((1#32 <<< m.tileBits.toNat) - 1#32)

/-- `decodePolyIDPoly` (detour/mesh.go:1000-1003), also line 1135 of `DecodePolyID`. -/
def decodePoly (ref : BitVec 32) : BitVec 32 :=
  ref &&& ((1#32 <<< m.polyBits.toNat) - 1#32)

/-- The bit widths fit one word; salt has between 1 and 31 bits. Established by `Init`
(`init_accepts_iff_fits_partial`). -/
structure WF : Prop where
  sum : m.saltBits.toNat + m.tileBits.toNat + m.polyBits.toNat ≤ 32
  salt : 1 ≤ m.saltBits.toNat
  salt' : m.saltBits.toNat ≤ 31

variable {m}

theorem WF.shift (h : m.WF) : (m.polyBits + m.tileBits).toNat
    = m.polyBits.toNat + m.tileBits.toNat := by
  have := h.sum
  rw [BitVec.toNat_add]
  omega

theorem mask_toNat (k : Nat) (h : k < 32) (x : BitVec 32) :
    (x &&& ((1#32 <<< k) - 1#32)).toNat = x.toNat % 2 ^ k := by
  rw [BitVec.toNat_and, BitVec.toNat_sub, shiftLeft_one_toNat k h]
  have h2 : 2 ^ k < 2 ^ 32 := Nat.pow_lt_pow_right (by omega) h
  have h3 : 0 < 2 ^ k := Nat.pow_pos (by omega)
  have : (2 ^ 32 - BitVec.toNat 1#32 + 2 ^ k) % 2 ^ 32 = 2 ^ k - 1 := by
    simp only [BitVec.toNat_ofNat]
    omega
  rw [this, Nat.and_two_pow_sub_one_eq_mod]

theorem encode_toNat (h : m.WF) (salt it ip : BitVec 32)
    (hs : salt.toNat < 2 ^ m.saltBits.toNat) (ht : it.toNat < 2 ^ m.tileBits.toNat)
    (hp : ip.toNat < 2 ^ m.polyBits.toNat) :
    (m.encode salt it ip).toNat
      = salt.toNat * 2 ^ (m.polyBits.toNat + m.tileBits.toNat) + it.toNat * 2 ^ m.polyBits.toNat
        + ip.toNat := by
  have hsum := h.sum
  unfold encode
  rw [h.shift]
  generalize m.polyBits.toNat = p at *
  generalize m.tileBits.toNat = t at *
  generalize m.saltBits.toNat = s at *
  have hit : it.toNat * 2 ^ p + ip.toNat < 2 ^ (p + t) := by
    rw [pow_add]
    have : it.toNat + 1 ≤ 2 ^ t := ht
    nlinarith [Nat.mul_le_mul_left (2 ^ p) this]
  have hall : salt.toNat * 2 ^ (p + t) + 2 ^ (p + t) ≤ 2 ^ 32 := by
    have h1 : salt.toNat + 1 ≤ 2 ^ s := hs
    have h2 : 2 ^ s * 2 ^ (p + t) ≤ 2 ^ 32 := by
      rw [← pow_add]
      exact Nat.pow_le_pow_right (by omega) (by omega)
    nlinarith [Nat.mul_le_mul_right (2 ^ (p + t)) h1]
  rw [BitVec.toNat_or, BitVec.toNat_or, BitVec.toNat_shiftLeft, BitVec.toNat_shiftLeft,
    Nat.shiftLeft_eq, Nat.shiftLeft_eq]
  rw [Nat.mod_eq_of_lt (a := salt.toNat * 2 ^ (p + t)) (by omega),
    Nat.mod_eq_of_lt (a := it.toNat * 2 ^ p) (by omega)]
  rw [Nat.or_assoc]
  have e1 : it.toNat * 2 ^ p ||| ip.toNat = it.toNat * 2 ^ p + ip.toNat := by
    rw [← Nat.shiftLeft_eq]
    exact (Nat.shiftLeft_add_eq_or_of_lt hp _).symm
  rw [e1, ← Nat.shiftLeft_eq salt.toNat, ← Nat.shiftLeft_add_eq_or_of_lt hit, Nat.shiftLeft_eq]
  omega

/-! ### Properties of references -/

/-- **C01**: decoding a reference gives back salt, tile index and polygon index it was made of. -/
theorem decode_encode (h : m.WF) (salt it ip : BitVec 32)
    (hs : salt.toNat < 2 ^ m.saltBits.toNat) (ht : it.toNat < 2 ^ m.tileBits.toNat)
    (hp : ip.toNat < 2 ^ m.polyBits.toNat) :
    m.decodeSalt (m.encode salt it ip) = salt ∧ m.decodeTile (m.encode salt it ip) = it ∧
    m.decodePoly (m.encode salt it ip) = ip := by
  have he := encode_toNat h salt it ip hs ht hp
  have hsum := h.sum
  have hsalt := h.salt
  refine ⟨?_, ?_, ?_⟩ <;> apply BitVec.eq_of_toNat_eq
  · unfold decodeSalt
    rw [mask_toNat _ (by have := h.salt'; omega), BitVec.toNat_ushiftRight, he, h.shift,
      Nat.shiftRight_eq_div_pow]
    have hit : it.toNat * 2 ^ m.polyBits.toNat + ip.toNat
        < 2 ^ (m.polyBits.toNat + m.tileBits.toNat) := by
      rw [pow_add]
      have : it.toNat + 1 ≤ 2 ^ m.tileBits.toNat := ht
      nlinarith [Nat.mul_le_mul_left (2 ^ m.polyBits.toNat) this]
    rw [Nat.add_assoc, Nat.add_comm, Nat.add_mul_div_right _ _ (Nat.pow_pos (by omega)),
      Nat.div_eq_of_lt hit, Nat.zero_add, Nat.mod_eq_of_lt hs]
  · unfold decodeTile
    rw [mask_toNat _ (by omega), BitVec.toNat_ushiftRight, he, Nat.shiftRight_eq_div_pow]
    have e : salt.toNat * 2 ^ (m.polyBits.toNat + m.tileBits.toNat)
        + it.toNat * 2 ^ m.polyBits.toNat + ip.toNat
        = ip.toNat + (salt.toNat * 2 ^ m.tileBits.toNat + it.toNat) * 2 ^ m.polyBits.toNat := by
      rw [pow_add]; ring
    rw [e, Nat.add_mul_div_right _ _ (Nat.pow_pos (by omega)), Nat.div_eq_of_lt hp, Nat.zero_add,
      Nat.add_comm, Nat.add_mul_mod_self_right, Nat.mod_eq_of_lt ht]
  · unfold decodePoly
    rw [mask_toNat _ (by omega), he]
    have e : salt.toNat * 2 ^ (m.polyBits.toNat + m.tileBits.toNat)
        + it.toNat * 2 ^ m.polyBits.toNat + ip.toNat
        = ip.toNat + (salt.toNat * 2 ^ m.tileBits.toNat + it.toNat) * 2 ^ m.polyBits.toNat := by
      rw [pow_add]; ring
    rw [e, Nat.add_mul_mod_self_right, Nat.mod_eq_of_lt hp]

/-- **C01**: references are injective: different (salt, tile, polygon) triples in range never share
a reference. -/
theorem encode_injective (h : m.WF) {s t p s' t' p' : BitVec 32}
    (hs : s.toNat < 2 ^ m.saltBits.toNat) (ht : t.toNat < 2 ^ m.tileBits.toNat)
    (hp : p.toNat < 2 ^ m.polyBits.toNat)
    (hs' : s'.toNat < 2 ^ m.saltBits.toNat) (ht' : t'.toNat < 2 ^ m.tileBits.toNat)
    (hp' : p'.toNat < 2 ^ m.polyBits.toNat)
    (he : m.encode s t p = m.encode s' t' p') : s = s' ∧ t = t' ∧ p = p' := by
  obtain ⟨a, b, c⟩ := decode_encode h s t p hs ht hp
  obtain ⟨a', b', c'⟩ := decode_encode h s' t' p' hs' ht' hp'
  rw [he] at a b c
  exact ⟨a.symm.trans a', b.symm.trans b', c.symm.trans c'⟩

/-- **C01**: a reference made with a non-zero salt is never the null reference 0. -/
theorem encode_ne_zero (h : m.WF) (salt it ip : BitVec 32)
    (hs : salt.toNat < 2 ^ m.saltBits.toNat) (ht : it.toNat < 2 ^ m.tileBits.toNat)
    (hp : ip.toNat < 2 ^ m.polyBits.toNat) (h0 : salt ≠ 0#32) : m.encode salt it ip ≠ 0#32 := by
  intro hc
  have := (decode_encode h salt it ip hs ht hp).1
  rw [hc] at this
  apply h0
  rw [← this]
  unfold decodeSalt
  rw [BitVec.zero_ushiftRight, BitVec.zero_and]

/-- **C01**: `polyRefBase(tile) | i`, the way the library builds polygon references in loops, is the
reference of polygon `i` of the tile. -/
theorem base_or (salt it ip : BitVec 32) : m.encode salt it 0#32 ||| ip = m.encode salt it ip := by
  unfold encode
  rw [BitVec.or_zero]

/-- **C01**, decoding direction: every reference whose decoded parts are re-encoded gives the same
word back, when all 32 bits are in use. -/
theorem encode_decode (h : m.WF)
    (hfull : m.saltBits.toNat + m.tileBits.toNat + m.polyBits.toNat = 32) (ref : BitVec 32) :
    m.encode (m.decodeSalt ref) (m.decodeTile ref) (m.decodePoly ref) = ref := by
  have hS : (m.decodeSalt ref).toNat
      = ref.toNat / 2 ^ (m.polyBits.toNat + m.tileBits.toNat) % 2 ^ m.saltBits.toNat := by
    unfold decodeSalt
    rw [mask_toNat _ (by have := h.salt'; omega), BitVec.toNat_ushiftRight, h.shift,
      Nat.shiftRight_eq_div_pow]
  have hT : (m.decodeTile ref).toNat
      = ref.toNat / 2 ^ m.polyBits.toNat % 2 ^ m.tileBits.toNat := by
    unfold decodeTile
    rw [mask_toNat _ (by have := h.salt; omega), BitVec.toNat_ushiftRight,
      Nat.shiftRight_eq_div_pow]
  have hP : (m.decodePoly ref).toNat = ref.toNat % 2 ^ m.polyBits.toNat := by
    unfold decodePoly
    rw [mask_toNat _ (by have := h.salt; omega)]
  apply BitVec.eq_of_toNat_eq
  rw [encode_toNat h _ _ _ (by rw [hS]; exact Nat.mod_lt _ (Nat.pow_pos (by omega)))
    (by rw [hT]; exact Nat.mod_lt _ (Nat.pow_pos (by omega)))
    (by rw [hP]; exact Nat.mod_lt _ (Nat.pow_pos (by omega))), hS, hT, hP]
  have hlt : ref.toNat / 2 ^ (m.polyBits.toNat + m.tileBits.toNat) < 2 ^ m.saltBits.toNat := by
    rw [Nat.div_lt_iff_lt_mul (Nat.pow_pos (by omega)), ← pow_add]
    have := ref.isLt
    rwa [show m.saltBits.toNat + (m.polyBits.toNat + m.tileBits.toNat) = 32 by omega]
  rw [Nat.mod_eq_of_lt hlt, pow_add, ← Nat.div_div_eq_div_mul]
  have e1 := Nat.div_add_mod (ref.toNat / 2 ^ m.polyBits.toNat) (2 ^ m.tileBits.toNat)
  have e2 := Nat.div_add_mod ref.toNat (2 ^ m.polyBits.toNat)
  calc _ = 2 ^ m.polyBits.toNat * (2 ^ m.tileBits.toNat
          * (ref.toNat / 2 ^ m.polyBits.toNat / 2 ^ m.tileBits.toNat)
          + ref.toNat / 2 ^ m.polyBits.toNat % 2 ^ m.tileBits.toNat)
          + ref.toNat % 2 ^ m.polyBits.toNat := by ring
    _ = ref.toNat := by rw [e1, e2]

/-- **C01**: the bit widths chosen by a successful `Init` on a configuration of total id bits at most
32 are well formed, so all the reference theorems apply to it. -/
theorem wf_of_init (mt mp : BitVec 32)
    (ht1 : 1 ≤ mt.toNat) (ht2 : mt.toNat ≤ 2 ^ 31) (hp1 : 1 ≤ mp.toNat) (hp2 : mp.toNat ≤ 2 ^ 31)
    (hsum : Nat.clog 2 mt.toNat + Nat.clog 2 mp.toNat ≤ 32)
    (hok : Status.succeed (initBits mt mp).1 = true) : (initBits mt mp).2.WF := by
  obtain ⟨_, _, h⟩ := init_accepts_iff_fits_partial mt mp ht1 ht2 hp1 hp2 hsum
  obtain ⟨a, b, c, _, _⟩ := h hok
  exact ⟨c, by omega, b⟩

/-- **C01** needs the polygon index to be in range: `AddTile` does not compare a tile's polygon
count with `MaxPolys`, and polygon `2^polyBits` of one tile then has the same reference as polygon 0
of the next tile. -/
theorem encode_collision_out_of_range :
    ∃ m : IdBits, m.WF ∧ m = (initBits 4#32 16#32).2 ∧
      m.encode 1#32 0#32 16#32 = m.encode 1#32 1#32 0#32 := by
  refine ⟨_, ?_, rfl, by decide⟩
  exact ⟨by decide, by decide, by decide⟩

example : (⟨10#32, 8#32, 14#32⟩ : IdBits).WF ∧
    (⟨10#32, 8#32, 14#32⟩ : IdBits).encode 3#32 7#32 100#32 = 0x00c1c064#32 := by
  exact ⟨⟨by decide, by decide, by decide⟩, by decide⟩

end IdBits

end Verif.Detour
