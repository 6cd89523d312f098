/-
Saving and loading a whole nav mesh: `NavMesh.ToWriter`, `Size` and `Decode`
(detour/mesh.go:68-198). `Init` and `AddTile` are parameters here (they are modelled in
`TileTable`); this file is about which bytes are written and which data reach `AddTile`.
-/
import Verif.Detour.TileData

namespace Verif.Detour

/-! ## Writing -/

/-- What `ToWriter` and `Size` look at in one slot of `m.Tiles`. `dataSize = 0` marks an empty
slot. -/
structure Slot where
  ref : U32
  dataSize : U32
  header : MeshHeader
  body : TileBody
  deriving DecidableEq

/-- `'M'<<24 | 'S'<<16 | 'E'<<8 | 'T'` (detour/constants.go:4). -/
def setMagic : U32 := 0x4d534554#32
/-- detour/constants.go:5 -/
def setVersion : U32 := 1#32

/-- `data := make([]byte, tile.DataSize); tile.Header.serialize(data);
tile.serialize(data[100:])` (detour/mesh.go:167-171). -/
def Slot.data (s : Slot) : Option Bytes := do
  let n ← mkLen s.dataSize
  let d ← s.header.serialize (zeros n)
  let b ← s.body.serialize (d.drop 100)
  some (d.take 100 ++ b)

/-- One iteration of the tile loop of `ToWriter` (detour/mesh.go:157-175). -/
def writeSlot (s : Slot) : Option Bytes :=
  if s.dataSize = 0#32 then some []
  else do
    let h ← (TileHeader.mk s.ref s.dataSize).serialize (zeros 8)
    let d ← s.data
    some (h ++ d)

/-- The tile loop of `ToWriter`. -/
def writeSlots : List Slot → Option Bytes
  | [] => some []
  | s :: ss => do
    let a ← writeSlot s
    let b ← writeSlots ss
    some (a ++ b)

/-- The slots that hold a tile. -/
def live (ss : List Slot) : List Slot := ss.filter fun s => s.dataSize ≠ 0#32

/-- The header counter loop of `ToWriter` (detour/mesh.go:142-148), `NumTiles++` on uint32. -/
def countTiles (ss : List Slot) : U32 :=
  ss.foldl (fun n s => if s.dataSize = 0#32 then n else n + 1#32) 0#32

/-- `ToWriter` (detour/mesh.go:137-178) to a writer that accepts everything; `none` is a panic. -/
def toWriter (p : NavMeshParams) (ss : List Slot) : Option Bytes := do
  let h ← (SetHeader.mk setMagic setVersion (countTiles ss) p).serialize (zeros SetHeader.size)
  let t ← writeSlots ss
  some (h ++ t)

/-- `Size` (detour/mesh.go:181-198), on int32. -/
def meshSize (ss : List Slot) : U32 :=
  BitVec.ofNat 32 SetHeader.size
    + ss.foldl (fun n s => if s.dataSize = 0#32 then n else n + (8#32 + s.dataSize)) 0#32

/-! ## Reading -/

/-- An `io.Reader`: the remaining data as the chunks successive `Read` calls deliver, and whether it
reports `io.EOF` together with the last data (both behaviours are allowed by the `io.Reader`
contract). -/
structure Reader where
  chunks : List Bytes
  eager : Bool

/-- What is left of the first chunk after taking `n` bytes. -/
def leftover (c : Bytes) (n : Nat) (cs : List Bytes) : List Bytes :=
  if c.length ≤ n then cs else c.drop n :: cs

/-- `io.ReadFull` (through `binary.Read`): exactly `n` bytes or an error. -/
def readFullAux : Nat → List Bytes → Option (Bytes × List Bytes)
  | 0, cs => some ([], cs)
  | _ + 1, [] => none
  | n + 1, c :: cs =>
    if n + 1 ≤ c.length then some (c.take (n + 1), leftover c (n + 1) cs)
    else (readFullAux (n + 1 - c.length) cs).map fun r => (c ++ r.1, r.2)

/-- One `r.Read(data)` call with `len(data) = n`: the bytes delivered (`none` = error), and the rest. -/
def Reader.read (r : Reader) (n : Nat) : Option Bytes × Reader :=
  match r.chunks with
  | [] => (none, r)
  | c :: cs =>
    let rest := leftover c n cs
    (if r.eager ∧ rest = [] then none else some (c.take n), { r with chunks := rest })

/-- Result of an operation that may return an error or panic. -/
inductive Res (α : Type) where
  | ok (a : α)
  | err
  | panic
  deriving DecidableEq, Repr

/-- The tile loop of `Decode` (detour/mesh.go:94-122) for `k` remaining tiles; `add` is `AddTile`
followed by the status test. -/
def decodeTiles {M : Type} (add : M → Bytes → U32 → Res M) : Nat → M → Reader → Res M
  | 0, m, _ => .ok m
  | k + 1, m, r =>
    match readFullAux 8 r.chunks with
    | none => .err
    | some (hb, cs) =>
      match TileHeader.decode hb with
      | none => .err
      | some h =>
        if h.tileRef = 0#32 ∨ h.dataSize = 0#32 then .ok m
        else match mkLen h.dataSize with
          | none => .panic
          | some n =>
            match Reader.read { r with chunks := cs } n with
            | (none, _) => .err
            | (some d, r') =>
              match add m (d ++ zeros (n - d.length)) h.tileRef with
              | .ok m' => decodeTiles add k m' r'
              | .err => .err
              | .panic => .panic

/-- `Decode` (detour/mesh.go:68-124); `init` is `NavMesh.Init` (`none` = failed status). -/
def decode {M : Type} (init : NavMeshParams → Option M) (add : M → Bytes → U32 → Res M)
    (r : Reader) : Res M :=
  match readFullAux SetHeader.size r.chunks with
  | none => .err
  | some (hb, cs) =>
    match SetHeader.decode hb with
    | none => .err
    | some h =>
      if h.magic ≠ setMagic then .err
      else if h.version ≠ setVersion then .err
      else match init h.params with
        | none => .err
        | some m => decodeTiles add h.numTiles.toNat m { r with chunks := cs }

/-! ## Lemmas -/

theorem countTiles_eq (ss : List Slot) : countTiles ss = BitVec.ofNat 32 (live ss).length := by
  have h : ∀ (n : U32) (ss : List Slot),
      ss.foldl (fun n s => if s.dataSize = 0#32 then n else n + 1#32) n
        = n + BitVec.ofNat 32 (live ss).length := by
    intro n ss
    induction ss generalizing n with
    | nil => simp [live]
    | cons s ss ih =>
      rw [List.foldl_cons, ih]
      by_cases hs : s.dataSize = 0#32
      · simp [live, hs]
      · rw [if_neg hs]
        have : live (s :: ss) = s :: live ss := by simp [live, hs]
        rw [this, List.length_cons, BitVec.ofNat_add, BitVec.add_assoc, BitVec.add_comm 1#32]
  unfold countTiles
  rw [h]
  simp

theorem slot_data_length {s : Slot} {d : Bytes} (h : s.data = some d) :
    d.length = s.dataSize.toNat := by
  unfold Slot.data at h
  simp only [Option.bind_eq_bind, Option.bind_eq_some_iff] at h
  obtain ⟨n, hn, d1, h1, b, hb, he⟩ := h
  have hnn : n = s.dataSize.toNat := by
    unfold mkLen at hn
    split at hn
    · simp at hn
    · simp only [Option.some.injEq] at hn
      rename_i hneg
      rw [BitVec.toInt_eq_toNat_cond] at hn hneg
      split at hn <;> rename_i hc
      · simp at hn; omega
      · exfalso
        rw [if_neg hc] at hneg
        have := s.dataSize.isLt
        push_cast at hneg
        omega
  have l1 : d1.length = n := by
    unfold MeshHeader.serialize at h1
    split at h1
    · simp at h1
    · rw [putAll_short _ _ _ h1, length_zeros]
  have l100 : 100 ≤ n := by
    unfold MeshHeader.serialize at h1
    split at h1
    · simp at h1
    · rename_i hh; rw [length_zeros] at hh; omega
  have l2 : b.length = n - 100 := by
    unfold TileBody.serialize at hb
    rw [putAll_short _ _ _ hb, List.length_drop, l1]
  simp only [Option.some.injEq] at he
  rw [← he, List.length_append, List.length_take, l1, l2, ← hnn]
  omega

theorem tileHeader_bytes (s : TileHeader) :
    s.serialize (zeros 8) = some (s.words.flatMap le32) := by
  rw [s.serialize_eq _ (by simp), drop_zeros]
  simp [zeros]

theorem setHeader_bytes (s : SetHeader) :
    s.serialize (zeros SetHeader.size) = some (s.words.flatMap le32) := by
  rw [s.serialize_eq _ (by simp), drop_zeros]
  simp [zeros, SetHeader.size]

/-- The records written for a list of slots. -/
theorem writeSlots_eq {ss : List Slot} {out : Bytes} (h : writeSlots ss = some out) :
    ∃ recs : List (Slot × Bytes), recs.map (·.1) = live ss ∧
      (∀ r ∈ recs, r.1.data = some r.2) ∧
      out = recs.flatMap fun r => (TileHeader.mk r.1.ref r.1.dataSize).words.flatMap le32 ++ r.2 := by
  induction ss generalizing out with
  | nil =>
    simp [writeSlots] at h
    exact ⟨[], rfl, by simp, by simp [h]⟩
  | cons s ss ih =>
    simp only [writeSlots, Option.bind_eq_bind, Option.bind_eq_some_iff] at h
    obtain ⟨a, ha, b, hb, he⟩ := h
    obtain ⟨recs, r1, r2, r3⟩ := ih hb
    simp only [Option.some.injEq] at he
    by_cases hs : s.dataSize = 0#32
    · refine ⟨recs, ?_, r2, ?_⟩
      · rw [r1]; simp [live, hs]
      · unfold writeSlot at ha
        rw [if_pos hs] at ha
        simp at ha
        rw [← he, ha, r3]; rfl
    · unfold writeSlot at ha
      rw [if_neg hs, tileHeader_bytes] at ha
      simp only [Option.bind_eq_bind, Option.bind_some, Option.bind_eq_some_iff,
        Option.some.injEq] at ha
      obtain ⟨d, hd, hw⟩ := ha
      refine ⟨(s, d) :: recs, ?_, ?_, ?_⟩
      · rw [List.map_cons, r1]; simp [live, hs]
      · intro r hr
        rcases List.mem_cons.1 hr with rfl | hr
        · exact hd
        · exact r2 r hr
      · rw [← he, ← hw, r3]; simp

/-! ## Properties of saving -/

/-- **C14**: `ToWriter` emits exactly `Size()` bytes (both as int32), i.e. the set header plus, for
each non-empty slot, 8 bytes and its data. -/
theorem toWriter_size (p : NavMeshParams) (ss : List Slot) (out : Bytes)
    (h : toWriter p ss = some out) :
    BitVec.ofNat 32 out.length = meshSize ss ∧
    out.length = 40 + ((live ss).map fun s => 8 + s.dataSize.toNat).sum := by
  unfold toWriter at h
  rw [setHeader_bytes] at h
  simp only [Option.bind_eq_bind, Option.bind_some, Option.bind_eq_some_iff,
    Option.some.injEq] at h
  obtain ⟨t, ht, he⟩ := h
  obtain ⟨recs, r1, r2, r3⟩ := writeSlots_eq ht
  have hlen : out.length = 40 + ((live ss).map fun s => 8 + s.dataSize.toNat).sum := by
    rw [← he, List.length_append, length_words, ← r1, r3]
    have e1 : 4 * (SetHeader.mk setMagic setVersion (countTiles ss) p).words.length = 40 := rfl
    rw [e1]
    congr 1
    clear r3 ht he r1
    induction recs with
    | nil => rfl
    | cons r recs ih =>
      rw [List.flatMap_cons, List.length_append, List.length_append, length_words,
        ih (fun x hx => r2 x (by simp [hx]))]
      have := slot_data_length (r2 r (by simp))
      simp only [List.map_cons, List.sum_cons, this, TileHeader.words, List.length_cons,
        List.length_nil]
  refine ⟨?_, hlen⟩
  rw [hlen]
  unfold meshSize
  rw [BitVec.ofNat_add]
  congr 1
  have hf : ∀ (n : U32) (ss : List Slot),
      ss.foldl (fun n s => if s.dataSize = 0#32 then n else n + (8#32 + s.dataSize)) n
        = n + BitVec.ofNat 32 (((live ss).map fun s => 8 + s.dataSize.toNat).sum) := by
    intro n ss
    induction ss generalizing n with
    | nil => simp [live]
    | cons s ss ih =>
      rw [List.foldl_cons, ih]
      by_cases hs : s.dataSize = 0#32
      · simp [live, hs]
      · rw [if_neg hs]
        have : live (s :: ss) = s :: live ss := by simp [live, hs]
        rw [this, List.map_cons, List.sum_cons, BitVec.ofNat_add, BitVec.ofNat_add,
          BitVec.ofNat_toNat, BitVec.setWidth_eq, BitVec.add_assoc]
  rw [hf]
  simp

theorem readFullAux_single (n : Nat) (a b : Bytes) (h : a.length = n) (hn : 0 < n) :
    readFullAux n [a ++ b] = some (a, if b = [] then [] else [b]) := by
  obtain ⟨k, rfl⟩ : ∃ k, n = k + 1 := ⟨n - 1, by omega⟩
  simp only [readFullAux]
  rw [if_pos (by rw [List.length_append]; omega)]
  congr 2
  · rw [← h, List.take_left]
  · unfold leftover
    by_cases hb : b = []
    · subst hb
      simp [h]
    · have : 0 < b.length := List.length_pos_iff.2 hb
      rw [if_neg (by rw [List.length_append]; omega), if_neg hb, ← h, List.drop_left]

theorem mkLen_ok {s : Slot} {d : Bytes} (h : s.data = some d) :
    mkLen s.dataSize = some d.length := by
  have hl := slot_data_length h
  unfold Slot.data at h
  simp only [Option.bind_eq_bind, Option.bind_eq_some_iff] at h
  obtain ⟨n, hn, _⟩ := h
  have : n = d.length := by
    rw [hl]
    unfold mkLen at hn
    split at hn
    · simp at hn
    · simp only [Option.some.injEq] at hn
      rename_i hneg
      rw [BitVec.toInt_eq_toNat_cond] at hn hneg
      split at hn <;> rename_i hc
      · simp at hn; omega
      · exfalso
        rw [if_neg hc] at hneg
        have := s.dataSize.isLt
        push_cast at hneg
        omega
  rw [hn, this]

/-- The reader left over when one piece holds everything. -/
def oneChunk (b : Bytes) : List Bytes := if b = [] then [] else [b]

theorem decodeTiles_record {M : Type} (add : M → Bytes → U32 → Res M) (k : Nat) (m : M)
    (s : Slot) (d rest : Bytes) (hd : s.data = some d) (href : s.ref ≠ 0#32)
    (hsz : s.dataSize ≠ 0#32) :
    decodeTiles add (k + 1) m
      ⟨[(TileHeader.mk s.ref s.dataSize).words.flatMap le32 ++ (d ++ rest)], false⟩
      = match add m d s.ref with
        | .ok m1 => decodeTiles add k m1 ⟨oneChunk rest, false⟩
        | .err => .err
        | .panic => .panic := by
  have hdl : 0 < d.length := by
    rw [slot_data_length hd]
    have h0 : s.dataSize.toNat ≠ 0 := by
      intro hc
      apply hsz
      apply BitVec.eq_of_toNat_eq
      simpa using hc
    omega
  have hd2 : d ++ rest ≠ [] := by
    intro hc
    rw [(List.append_eq_nil_iff.1 hc).1] at hdl
    exact absurd hdl (by decide)
  have h1 : readFullAux 8
      [(TileHeader.mk s.ref s.dataSize).words.flatMap le32 ++ (d ++ rest)]
      = some ((TileHeader.mk s.ref s.dataSize).words.flatMap le32, [d ++ rest]) := by
    rw [readFullAux_single 8 _ _ (by rw [length_words]; rfl) (by omega), if_neg hd2]
  have h2 := (TileHeader.mk s.ref s.dataSize).decode_words []
  rw [List.append_nil] at h2
  have h3 : ¬(s.ref = 0#32 ∨ s.dataSize = 0#32) := fun hc => hc.elim href hsz
  have h4 : Reader.read ⟨[d ++ rest], false⟩ d.length = (some d, ⟨oneChunk rest, false⟩) := by
    simp only [Reader.read, Bool.false_eq_true, false_and, if_false, List.take_left]
    congr 2
    unfold leftover oneChunk
    by_cases hb : rest = []
    · subst hb; simp
    · have : 0 < rest.length := List.length_pos_iff.2 hb
      rw [if_neg (by rw [List.length_append]; omega), if_neg hb, List.drop_left]
  have h5 : d ++ zeros (d.length - d.length) = d := by simp [zeros]
  rw [decodeTiles]
  simp only [h1, h2, if_neg h3, mkLen_ok hd, h4, h5]

theorem decodeTiles_step {M : Type} (add : M → Bytes → U32 → Res M) (k : Nat) (m m1 : M)
    (s : Slot) (d rest : Bytes) (hd : s.data = some d) (href : s.ref ≠ 0#32)
    (hsz : s.dataSize ≠ 0#32) (ha : add m d s.ref = .ok m1) :
    decodeTiles add (k + 1) m
      ⟨[(TileHeader.mk s.ref s.dataSize).words.flatMap le32 ++ (d ++ rest)], false⟩
      = decodeTiles add k m1 ⟨oneChunk rest, false⟩ := by
  rw [decodeTiles_record add k m s d rest hd href hsz, ha]

theorem decodeTiles_write {M : Type} (add : M → Bytes → U32 → Res M)
    (recs : List (Slot × Bytes)) (hd : ∀ r ∈ recs, r.1.data = some r.2)
    (href : ∀ r ∈ recs, r.1.ref ≠ 0#32) (hsz : ∀ r ∈ recs, r.1.dataSize ≠ 0#32) (m m' : M)
    (hadd : recs.foldlM (fun m r => match add m r.2 r.1.ref with
      | .ok m => some m | _ => none) m = some m') :
    decodeTiles add recs.length m
      ⟨oneChunk (recs.flatMap fun r =>
          (TileHeader.mk r.1.ref r.1.dataSize).words.flatMap le32 ++ r.2), false⟩ = .ok m' := by
  induction recs generalizing m with
  | nil =>
    simp at hadd
    subst hadd
    rw [List.length_nil, decodeTiles]
  | cons r recs ih =>
    rw [List.flatMap_cons, List.length_cons, List.append_assoc]
    have hr := hd r (by simp)
    have hne : ∀ b : Bytes, oneChunk ((TileHeader.mk r.1.ref r.1.dataSize).words.flatMap le32 ++ b)
        = [(TileHeader.mk r.1.ref r.1.dataSize).words.flatMap le32 ++ b] := by
      intro b
      unfold oneChunk
      rw [if_neg]
      intro hc
      have := congrArg List.length hc
      rw [List.length_append, length_words] at this
      simp [TileHeader.words] at this
    rw [hne]
    rw [List.foldlM_cons] at hadd
    cases ha : add m r.2 r.1.ref with
    | err => rw [ha] at hadd; simp at hadd
    | panic => rw [ha] at hadd; simp at hadd
    | ok m1 =>
      rw [ha] at hadd
      simp only [Option.bind_eq_bind, Option.bind_some] at hadd
      rw [decodeTiles_step add _ m m1 r.1 r.2 _ hr (href r (by simp)) (hsz r (by simp)) ha]
      exact ih (fun x hx => hd x (by simp [hx])) (fun x hx => href x (by simp [hx]))
        (fun x hx => hsz x (by simp [hx])) m1 hadd

/-- **C14/C13** (file level): decoding a saved mesh from a reader that delivers the file in one
piece re-initialises with the saved parameters and passes to `AddTile`, in slot order, exactly the
data and reference of every non-empty slot, and nothing else. -/
theorem decode_toWriter {M : Type} (init : NavMeshParams → Option M)
    (add : M → Bytes → U32 → Res M) (p : NavMeshParams) (ss : List Slot) (out : Bytes)
    (h : toWriter p ss = some out) (href : ∀ s ∈ live ss, s.ref ≠ 0#32)
    (hcount : (live ss).length < 2 ^ 32) (m m' : M) (hinit : init p = some m)
    (hadd : (live ss).foldlM (fun m s => match s.data with
      | none => none
      | some d => match add m d s.ref with | .ok m => some m | _ => none) m = some m') :
    decode init add { chunks := [out], eager := false } = .ok m' := by
  unfold toWriter at h
  rw [setHeader_bytes] at h
  simp only [Option.bind_eq_bind, Option.bind_some, Option.bind_eq_some_iff,
    Option.some.injEq] at h
  obtain ⟨t, ht, he⟩ := h
  obtain ⟨recs, r1, r2, r3⟩ := writeSlots_eq ht
  have hcnt : (countTiles ss).toNat = recs.length := by
    rw [countTiles_eq, BitVec.toNat_ofNat, Nat.mod_eq_of_lt hcount, ← r1, List.length_map]
  have hmem : ∀ r ∈ recs, r.1 ∈ live ss := by
    intro r hr
    rw [← r1]
    exact List.mem_map_of_mem hr
  have hadd' : recs.foldlM (fun m r => match add m r.2 r.1.ref with
      | .ok m => some m | _ => none) m = some m' := by
    rw [← hadd, ← r1, List.foldlM_map]
    clear hadd hinit r3 ht he r1 hcnt hmem
    induction recs generalizing m with
    | nil => rfl
    | cons r recs ih =>
      rw [List.foldlM_cons, List.foldlM_cons, r2 r (by simp)]
      simp only
      cases add m r.2 r.1.ref with
      | ok m1 => exact ih m1 (fun x hx => r2 x (by simp [hx]))
      | err => rfl
      | panic => rfl
  unfold decode
  simp only
  rw [← he, readFullAux_single SetHeader.size _ _ (by rw [length_words]; rfl)
    (by unfold SetHeader.size; omega)]
  simp only
  have hdec := (SetHeader.mk setMagic setVersion (countTiles ss) p).decode_words []
  rw [List.append_nil] at hdec
  rw [hdec]
  simp only [ne_eq, not_true, if_false]
  rw [hinit]
  simp only
  rw [hcnt, r3]
  exact decodeTiles_write add recs r2 (fun r hr => href _ (hmem r hr))
    (fun r hr => by
      have := hmem r hr
      unfold live at this
      simpa using (List.mem_filter.1 this).2) m m' hadd'

/-! ## Properties of loading -/

theorem readFullAux_short (n : Nat) (cs : List Bytes) (h : cs.flatten.length < n) :
    readFullAux n cs = none := by
  induction cs generalizing n with
  | nil =>
    obtain ⟨k, rfl⟩ : ∃ k, n = k + 1 := ⟨n - 1, by simp at h; omega⟩
    rfl
  | cons c cs ih =>
    rw [List.flatten_cons, List.length_append] at h
    obtain ⟨k, rfl⟩ : ∃ k, n = k + 1 := ⟨n - 1, by omega⟩
    simp only [readFullAux]
    rw [if_neg (by omega), ih _ (by omega)]
    rfl

/-- `io.ReadFull` does not depend on the chunking. -/
theorem readFullAux_flatten (n : Nat) (cs : List Bytes) (h : n ≤ cs.flatten.length) :
    ∃ r, readFullAux n cs = some (cs.flatten.take n, r) ∧ r.flatten = cs.flatten.drop n := by
  induction cs generalizing n with
  | nil =>
    simp at h
    subst h
    exact ⟨[], rfl, rfl⟩
  | cons c cs ih =>
    cases n with
    | zero => exact ⟨c :: cs, by simp [readFullAux], by simp⟩
    | succ k =>
      simp only [readFullAux]
      rw [List.flatten_cons, List.length_append] at h
      by_cases hc : k + 1 ≤ c.length
      · refine ⟨leftover c (k + 1) cs, ?_, ?_⟩
        · rw [if_pos hc, List.flatten_cons, List.take_append_of_le_length hc]
        · unfold leftover
          rw [List.flatten_cons, List.drop_append_of_le_length hc]
          split
          · have : c.drop (k + 1) = [] := List.drop_of_length_le (by omega)
            rw [this]; rfl
          · rfl
      · rw [if_neg hc]
        obtain ⟨r, h1, h2⟩ := ih (k + 1 - c.length) (by omega)
        refine ⟨r, ?_, ?_⟩
        · rw [h1, List.flatten_cons, List.take_append, List.take_of_length_le (l := c) (by omega)]
          rfl
        · rw [h2, List.flatten_cons, List.drop_append, List.drop_of_length_le (l := c) (by omega)]
          rfl

/-- **C16**: a stream shorter than the set header is rejected, however it is chunked. -/
theorem decode_short {M : Type} (init : NavMeshParams → Option M)
    (add : M → Bytes → U32 → Res M) (r : Reader) (h : r.chunks.flatten.length < 40) :
    decode init add r = .err := by
  unfold decode
  rw [readFullAux_short _ _ (by unfold SetHeader.size; omega)]

/-- **C16**: a stream whose first word is not the magic number `'M'<<24|'S'<<16|'E'<<8|'T'`, or whose
second word is not version 1, is rejected, however it is chunked and whatever follows. -/
theorem decode_foreign {M : Type} (init : NavMeshParams → Option M)
    (add : M → Bytes → U32 → Res M) (r : Reader)
    (h : rd32 r.chunks.flatten ≠ some 0x4d534554#32 ∨ rd32 (r.chunks.flatten.drop 4) ≠ some 1#32) :
    decode init add r = .err := by
  change rd32 r.chunks.flatten ≠ some setMagic ∨ rd32 (r.chunks.flatten.drop 4) ≠ some setVersion at h
  by_cases hs : r.chunks.flatten.length < 40
  · exact decode_short init add r hs
  obtain ⟨cs, h1, h2⟩ := readFullAux_flatten SetHeader.size r.chunks (by unfold SetHeader.size; omega)
  obtain ⟨ws, hl, hw⟩ := words_of_bytes 10 r.chunks.flatten (by omega)
  have htake : r.chunks.flatten.take SetHeader.size = ws.flatMap le32 := by
    have hlen : (ws.flatMap le32).length = SetHeader.size := by rw [length_words, hl]; rfl
    rw [hw, ← hlen, List.take_left]
  unfold decode
  rw [h1]
  simp only
  rw [htake]
  match ws, hl with
  | [a0, a1, a2, a3, a4, a5, a6, a7, a8, a9], _ =>
    have hdec := (SetHeader.mk a0 a1 a2 ⟨a3, a4, a5, a6, a7, a8, a9⟩).decode_words []
    rw [List.append_nil] at hdec
    have e : (SetHeader.mk a0 a1 a2 ⟨a3, a4, a5, a6, a7, a8, a9⟩).words
        = [a0, a1, a2, a3, a4, a5, a6, a7, a8, a9] := rfl
    rw [e] at hdec
    rw [hdec]
    simp only
    have f0 : rd32 r.chunks.flatten = some a0 := by
      rw [hw]; exact rd32_words [a0, a1, a2, a3, a4, a5, a6, a7, a8, a9] 0 a0 _ rfl
    have f1 : rd32 (r.chunks.flatten.drop 4) = some a1 := by
      rw [hw]; exact rd32_words [a0, a1, a2, a3, a4, a5, a6, a7, a8, a9] 1 a1 _ rfl
    rw [f0, f1] at h
    by_cases hm : a0 = setMagic
    · have hv : a1 ≠ setVersion := by
        rcases h with h | h
        · exact absurd (by rw [hm]) h
        · intro hc; exact h (by rw [hc])
      rw [if_neg (by simpa using hm), if_pos hv]
    · rw [if_pos hm]

/-- **C16**: a stream that ends inside a tile header is rejected: with `k+1` tiles announced and
fewer than 8 bytes left, `Decode` returns an error. -/
theorem decodeTiles_short {M : Type} (add : M → Bytes → U32 → Res M) (k : Nat) (m : M)
    (r : Reader) (h : r.chunks.flatten.length < 8) : decodeTiles add (k + 1) m r = .err := by
  simp only [decodeTiles]
  rw [readFullAux_short _ _ h]

/-- A one-tile mesh file used as witness: set header, tile header for 4 data bytes, the data. -/
def witnessHead : Bytes :=
  (SetHeader.mk setMagic setVersion 1#32 ⟨0, 0, 0, 0, 0, 1, 1⟩).words.flatMap le32
    ++ (TileHeader.mk 1#32 4#32).words.flatMap le32

/-- An `AddTile` that records the data it gets. -/
def recordAdd : List Bytes → Bytes → U32 → Res (List Bytes) := fun m d _ => .ok (m ++ [d])

/-- **C15** refuted: the same bytes delivered in two pieces give a different mesh: the second half
of the tile data is silently replaced by zeros. -/
theorem decode_chunking_refuted :
    ∃ r₁ r₂ : Reader, r₁.chunks.flatten = r₂.chunks.flatten ∧ r₁.eager = r₂.eager ∧
      decode (fun _ => some []) recordAdd r₁ = .ok [[1#8, 2#8, 3#8, 4#8]] ∧
      decode (fun _ => some []) recordAdd r₂ = .ok [[1#8, 2#8, 0#8, 0#8]] :=
  ⟨⟨[witnessHead ++ [1#8, 2#8, 3#8, 4#8]], false⟩, ⟨[witnessHead ++ [1#8, 2#8], [3#8, 4#8]], false⟩,
    by decide, rfl, by decide, by decide⟩

/-- **C15** refuted, second way: a reader that reports `io.EOF` together with the last bytes (allowed
by the `io.Reader` contract) makes `Decode` fail on a complete file. -/
theorem decode_eager_refuted :
    decode (fun _ => some []) recordAdd ⟨[witnessHead ++ [1#8, 2#8, 3#8, 4#8]], true⟩ = .err := by
  decide

/-- **C16** fails for a stream that ends inside tile data: the missing bytes are read as zeros and
no error is reported. -/
theorem decode_truncated_data_accepted :
    decode (fun _ => some []) recordAdd ⟨[witnessHead ++ [1#8]], false⟩
      = .ok [[1#8, 0#8, 0#8, 0#8]] := by
  decide

/-- **C77** refuted: a file announcing two tiles whose first record is empty is accepted, and no tile
is loaded. -/
theorem decode_all_tiles_refuted :
    decode (fun _ => some []) recordAdd
      ⟨[le32 setMagic ++ le32 setVersion ++ le32 2#32 ++ zeros 28 ++ zeros 8], false⟩ = .ok [] := by
  decide

/-- Tiles added by the tile loop: `cnt` counts them. -/
theorem decodeTiles_count {M : Type} {add : M → Bytes → U32 → Res M} {cnt : M → Nat}
    (hadd : ∀ m d r m', add m d r = .ok m' → cnt m' = cnt m + 1) (k : Nat) (m m' : M) (r : Reader)
    (h : decodeTiles add k m r = .ok m') : cnt m' ≤ cnt m + k := by
  induction k generalizing m r with
  | zero =>
    simp only [decodeTiles, Res.ok.injEq] at h
    rw [h]
    omega
  | succ k ih =>
    rw [decodeTiles] at h
    split at h
    · simp at h
    split at h
    · simp at h
    split at h
    · simp only [Res.ok.injEq] at h
      rw [h]
      omega
    split at h
    · simp at h
    split at h
    · simp at h
    split at h
    · rename_i m1 he
      have h1 := hadd _ _ _ _ he
      have h2 := ih _ _ h
      omega
    · simp at h
    · simp at h

/-- **C77** `_partial`: `Decode` never loads more tiles than the file announces. Missing: fewer may be
loaded without an error (`decode_all_tiles_refuted`); for files made by `ToWriter` all are loaded
(`decode_toWriter`, `save_load`). -/
theorem decode_all_tiles_partial {M : Type} (init : NavMeshParams → Option M)
    (add : M → Bytes → U32 → Res M) (cnt : M → Nat)
    (hinit : ∀ p m, init p = some m → cnt m = 0)
    (hadd : ∀ m d r m', add m d r = .ok m' → cnt m' = cnt m + 1) (r : Reader) (m : M)
    (h : decode init add r = .ok m) :
    ∃ hb cs hdr, readFullAux SetHeader.size r.chunks = some (hb, cs) ∧
      SetHeader.decode hb = some hdr ∧ cnt m ≤ hdr.numTiles.toNat := by
  unfold decode at h
  split at h
  · simp at h
  rename_i hb cs h1
  split at h
  · simp at h
  rename_i hdr h2
  split at h
  · simp at h
  split at h
  · simp at h
  split at h
  · simp at h
  rename_i m0 h3
  refine ⟨hb, cs, hdr, h1, h2, ?_⟩
  have := decodeTiles_count hadd _ _ _ _ h
  rw [hinit _ _ h3] at this
  omega

/-- **C15** `_partial`: for files without tiles the result does not depend on chunking or EOF style.
Missing: files with tiles, where it is false (`decode_chunking_refuted`); for a reader delivering the
whole file at once see `decode_toWriter`. -/
theorem decode_chunking_partial {M : Type} (init : NavMeshParams → Option M)
    (add : M → Bytes → U32 → Res M) (r₁ r₂ : Reader)
    (h : r₁.chunks.flatten = r₂.chunks.flatten)
    (h0 : rd32 (r₁.chunks.flatten.drop 8) = some 0#32) :
    decode init add r₁ = decode init add r₂ := by
  by_cases hs : r₁.chunks.flatten.length < 40
  · rw [decode_short init add r₁ hs, decode_short init add r₂ (by rw [← h]; exact hs)]
  obtain ⟨c1, a1, b1⟩ := readFullAux_flatten SetHeader.size r₁.chunks
    (by unfold SetHeader.size; omega)
  obtain ⟨c2, a2, b2⟩ := readFullAux_flatten SetHeader.size r₂.chunks
    (by rw [← h]; unfold SetHeader.size; omega)
  obtain ⟨ws, hl, hw⟩ := words_of_bytes 10 r₁.chunks.flatten (by omega)
  have htake : r₁.chunks.flatten.take SetHeader.size = ws.flatMap le32 := by
    have hlen : (ws.flatMap le32).length = SetHeader.size := by rw [length_words, hl]; rfl
    rw [hw, ← hlen, List.take_left]
  unfold decode
  rw [a1, a2, ← h, htake]
  simp only
  match ws, hl with
  | [w0, w1, w2, w3, w4, w5, w6, w7, w8, w9], _ =>
    have hdec := (SetHeader.mk w0 w1 w2 ⟨w3, w4, w5, w6, w7, w8, w9⟩).decode_words []
    rw [List.append_nil] at hdec
    have e : (SetHeader.mk w0 w1 w2 ⟨w3, w4, w5, w6, w7, w8, w9⟩).words
        = [w0, w1, w2, w3, w4, w5, w6, w7, w8, w9] := rfl
    rw [e] at hdec
    rw [hdec]
    have f2 : rd32 (r₁.chunks.flatten.drop 8) = some w2 := by
      rw [hw]; exact rd32_words [w0, w1, w2, w3, w4, w5, w6, w7, w8, w9] 2 w2 _ rfl
    rw [f2] at h0
    simp only [Option.some.injEq] at h0
    subst h0
    simp only [BitVec.toNat_ofNat, Nat.zero_mod, decodeTiles]

/-! ## Non-vacuity -/

/-- A slot holding a small tile. -/
def exampleSlot : Slot := ⟨1#32, 1000#32, exampleHeader, exampleTile⟩

set_option maxRecDepth 100000 in
/-- A mesh with one tile and one empty slot can be written. -/
example : (toWriter ⟨0, 0, 0, 0, 0, 4, 4⟩ [exampleSlot, { exampleSlot with dataSize := 0 }]).isSome
    = true := by
  decide

example : live [exampleSlot, { exampleSlot with dataSize := 0 }] = [exampleSlot] := by decide

end Verif.Detour
