/-
Looking up the vertices of a polygon (`tile.Verts[v*3 : v*3+3]`, in many places of detour/query.go, detour/mesh.go, detour/poly.go)
and the portal between two polygons (`portalPoints8`, detour/query.go:809-880).

Simplifications: floats are bit patterns, `Vec3Lerp` is given (`lerp a b k` for the fraction `k/255`). The links of a polygon are given
as the list that following `FirstLink` and `Next` yields.
-/
import Verif.Detour.CreateData

namespace Verif.Detour
open Verif

set_option linter.unusedSimpArgs false
set_option linter.unusedVariables false

/-! ## Model -/

/-- `vidx := poly.Verts[v] * 3; tile.Verts[vidx : vidx+3]` (detour/query.go:833-834, 847-848, 861-864, 961-964, 986-987, 1026-1027,
1068, 1320-1326, 1489, 1574; detour/mesh.go:818, 1049-1050, 1089-1090, 1359-1362; detour/poly.go:62-63): both bounds are `uint16`; `none` is a
slice out of range. -/
def vertAt (verts : List U32) (v : U16) : Option (List U32) :=
  let lo := v * 3#16
  let hi := v * 3#16 + 3#16
  if lo.toNat ≤ hi.toNat ∧ hi.toNat ≤ verts.length then some ((verts.drop lo.toNat).take (hi.toNat - lo.toNat)) else none

/-- The side of a portal: a polygon, its links in list order and the vertices of its tile. -/
structure PortalEnd where
  poly : Poly
  links : List LinkRec
  verts : List U32

/-- Outcome of `portalPoints8`. -/
inductive Portal where
  | ok (left right : List U32)
  | invalid
  | panic
  deriving DecidableEq, Repr

/-- `copy(left, v); copy(right, v); return Success`. -/
def bothEnds (v : Option (List U32)) : Portal :=
  match v with
  | some w => .ok w w
  | none => .panic

/-- `portalPoints8` (detour/query.go:809-880). -/
def portalPoints (lerp : List U32 → List U32 → Byte → List U32) (src : PortalEnd) (srcRef : U32) (dst : PortalEnd) (dstRef : U32) : Portal :=
  match src.links.find? fun l => l.ref == dstRef with
  | none => .invalid
  | some link =>
    if polyType src.poly.areaAndType = 1#8 then
      match src.links.find? fun l => l.ref == dstRef with
      | none => .invalid
      | some l => bothEnds (src.poly.verts[l.edge.toNat]?.bind (vertAt src.verts))
    else if polyType dst.poly.areaAndType = 1#8 then
      match dst.links.find? fun l => l.ref == srcRef with
      | none => .invalid
      | some l => bothEnds (src.poly.verts[l.edge.toNat]?.bind (vertAt dst.verts))
    else if src.poly.vertCount = 0#8 then .panic
    else
      match src.poly.verts[link.edge.toNat]?, src.poly.verts[((link.edge + 1#8) % src.poly.vertCount).toNat]? with
      | some v0, some v1 =>
        match vertAt src.verts v0, vertAt src.verts v1 with
        | some a, some b =>
          if link.side ≠ 0xff#8 ∧ (link.bmin ≠ 0#8 ∨ link.bmax ≠ 255#8) then .ok (lerp a b link.bmin) (lerp a b link.bmax)
          else .ok a b
        | _, _ => .panic
      | _, _ => .panic

/-! ## Vertices -/

/-- **C66** (partial): vertices up to number 21844 are found: the three words are those of the vertex. -/
theorem vert_lookup_partial (verts : List W3) (v : U16) (w : W3) (h : verts[v.toNat]? = some w) (hv : v.toNat ≤ 21844) :
    vertAt (verts.flatMap flat3) v = some (flat3 w) := by
  have hl : v.toNat < verts.length := (List.getElem?_eq_some_iff.1 h).1
  have h1 : (v * 3#16).toNat = 3 * v.toNat := by
    rw [BitVec.toNat_mul]
    simp only [BitVec.toNat_ofNat]
    omega
  have h2 : (v * 3#16 + 3#16).toNat = 3 * v.toNat + 3 := by
    rw [BitVec.toNat_add, h1]
    simp only [BitVec.toNat_ofNat]
    omega
  unfold vertAt
  dsimp only
  rw [h1, h2, if_pos ⟨by omega, by rw [length_flat3]; omega⟩, Nat.add_sub_cancel_left]
  have := flat3_get verts v.toNat w [] h
  rw [List.append_nil] at this
  rw [this]

/-- **C66** (refuted): from vertex 21845 on the lookup panics or reads three words that do not begin at a vertex, on every tile. -/
theorem vert_lookup_refuted (verts : List U32) (v : U16) (hv : 21845 ≤ v.toNat) :
    vertAt verts v = none ∨ ∃ lo, lo % 3 ≠ 0 ∧ vertAt verts v = some ((verts.drop lo).take 3) := by
  have hlt := v.isLt
  have h1 : (v * 3#16).toNat = 3 * v.toNat % 65536 := by
    rw [BitVec.toNat_mul]
    simp only [BitVec.toNat_ofNat]
    omega
  have h2 : (v * 3#16 + 3#16).toNat = (3 * v.toNat % 65536 + 3) % 65536 := by
    rw [BitVec.toNat_add, h1]
    rfl
  unfold vertAt
  dsimp only
  by_cases hc : (v * 3#16).toNat ≤ (v * 3#16 + 3#16).toNat ∧ (v * 3#16 + 3#16).toNat ≤ verts.length
  · rw [if_pos hc]
    right
    have h3 : (v * 3#16 + 3#16).toNat - (v * 3#16).toNat = 3 := by omega
    refine ⟨(v * 3#16).toNat, ?_, by rw [h3]⟩
    by_cases hw : v.toNat = 65535
    · rw [h1, hw]
      decide
    · omega
  · rw [if_neg hc]
    exact .inl rfl

/-- **C66** (refuted): a tile on which vertex 30000 is read wrongly. -/
theorem vert_lookup_wrong_refuted : ∃ (verts : List W3) (v : U16) (w : W3), v.toNat < 0xffff ∧ verts[v.toNat]? = some w ∧
    ∃ r, vertAt (verts.flatMap flat3) v = some r ∧ r ≠ flat3 w := by
  refine ⟨(List.range 30001).map fun k => (BitVec.ofNat 32 k, BitVec.ofNat 32 k, BitVec.ofNat 32 k), 30000#16, (30000#32, 30000#32, 30000#32),
    by decide, ?_, ?_⟩
  · rw [List.getElem?_map, List.getElem?_range (by decide)]
    rfl
  · have hlen : (((List.range 30001).map fun k => (BitVec.ofNat 32 k, BitVec.ofNat 32 k, BitVec.ofNat 32 k)).flatMap flat3).length = 90003 := by
      rw [length_flat3, List.length_map, List.length_range]
    have hg : ((((List.range 30001).map fun k => (BitVec.ofNat 32 k, BitVec.ofNat 32 k, BitVec.ofNat 32 k)).flatMap flat3).drop (3 * 8154)).take 3 =
        [8154#32, 8154#32, 8154#32] := by
      have := flat3_get ((List.range 30001).map fun k => (BitVec.ofNat 32 k, BitVec.ofNat 32 k, BitVec.ofNat 32 k)) 8154 (8154#32, 8154#32, 8154#32) []
        (by rw [List.getElem?_map, List.getElem?_range (by decide)]; rfl)
      rw [List.append_nil] at this
      exact this
    unfold vertAt
    have e1 : (30000#16 * 3#16).toNat = 24464 := by decide
    have e2 : (30000#16 * 3#16 + 3#16).toNat = 24467 := by decide
    dsimp only
    rw [e1, e2, hlen, if_pos ⟨by decide, by decide⟩]
    refine ⟨_, rfl, ?_⟩
    generalize ((List.range 30001).map fun k => (BitVec.ofNat 32 k, BitVec.ofNat 32 k, BitVec.ofNat 32 k)).flatMap flat3 = l at *
    intro h
    have h2 : (l.drop (3 * 8154)).take 3 = [8154#32, 8154#32, 8154#32] := hg
    -- word 24464 is the third word of vertex 8154
    have a1 : l[24464]? = some 30000#32 := by
      have := congrArg (fun x => x[0]?) h
      simpa [flat3, List.getElem?_take, List.getElem?_drop] using this
    have a2 : l[24464]? = some 8154#32 := by
      have := congrArg (fun x => x[2]?) h2
      simpa [List.getElem?_take, List.getElem?_drop] using this
    rw [a1] at a2
    exact absurd a2 (by decide)

example : vertAt ([(1, 2, 3), (4, 5, 6)].flatMap flat3) 1#16 = some [4, 5, 6] := by decide

/-! ## Portals -/

/-- Vertex `k` of a polygon has the coordinates `w`. -/
def HasVert (e : PortalEnd) (tile : List W3) (k : Nat) (w : W3) : Prop :=
  e.verts = tile.flatMap flat3 ∧ ∃ v : U16, e.poly.verts[k]? = some v ∧ v.toNat ≤ 21844 ∧ tile[v.toNat]? = some w

theorem HasVert.at {e : PortalEnd} {tile : List W3} {k : Nat} {w : W3} (h : HasVert e tile k w) :
    ∃ v, e.poly.verts[k]? = some v ∧ vertAt e.verts v = some (flat3 w) := by
  obtain ⟨h1, v, h2, h3, h4⟩ := h
  exact ⟨v, h2, by rw [h1]; exact vert_lookup_partial tile v w h4 h3⟩

/-- The link that is used: the first one to the other polygon. -/
def LinkTo (links : List LinkRec) (ref : U32) (l : LinkRec) : Prop := links.find? (fun l => l.ref == ref) = some l

/-- **C106** (partial): between two ground polygons the portal is the edge of the link, from its first to its second vertex; at a tile
border it is the part of the edge between `BMin` and `BMax`. -/
theorem portal_ground_partial {lerp : List U32 → List U32 → Byte → List U32} {src dst : PortalEnd} {srcRef dstRef : U32} {l : LinkRec}
    (hs : polyType src.poly.areaAndType ≠ 1#8) (hd : polyType dst.poly.areaAndType ≠ 1#8) (hl : LinkTo src.links dstRef l)
    (hn : l.edge.toNat < src.poly.vertCount.toNat) {tile : List W3} {a b : W3} (ha : HasVert src tile l.edge.toNat a)
    (hb : HasVert src tile ((l.edge.toNat + 1) % src.poly.vertCount.toNat) b) :
    portalPoints lerp src srcRef dst dstRef =
      (if l.side = 0xff#8 ∨ (l.bmin = 0#8 ∧ l.bmax = 255#8) then .ok (flat3 a) (flat3 b)
       else .ok (lerp (flat3 a) (flat3 b) l.bmin) (lerp (flat3 a) (flat3 b) l.bmax)) := by
  obtain ⟨v0, e0, c0⟩ := ha.at
  obtain ⟨v1, e1, c1⟩ := hb.at
  have hvc := src.poly.vertCount.isLt
  have hm : ((l.edge + 1#8) % src.poly.vertCount).toNat = (l.edge.toNat + 1) % src.poly.vertCount.toNat := by
    rw [BitVec.toNat_umod, BitVec.toNat_add]
    have : (1#8).toNat = 1 := rfl
    rw [this, Nat.mod_eq_of_lt (a := l.edge.toNat + 1) (by omega)]
  unfold portalPoints
  rw [hl]
  dsimp only
  rw [if_neg hs, if_neg hd, if_neg (by intro h; rw [h] at hn; simp at hn), hm, e0, e1]
  dsimp only
  rw [c0, c1]
  dsimp only
  by_cases h1 : l.side = 0xff#8
  · rw [if_neg (by simp [h1]), if_pos (.inl h1)]
  · by_cases h2 : l.bmin = 0#8 ∧ l.bmax = 255#8
    · rw [if_neg (by rintro ⟨-, h | h⟩; exacts [h h2.1, h h2.2]), if_pos (.inr h2)]
    · rw [if_pos ⟨h1, by
        by_cases h3 : l.bmin = 0#8
        · exact .inr fun h4 => h2 ⟨h3, h4⟩
        · exact .inl h3⟩, if_neg (by rintro (h | h); exacts [h1 h, h2 h])]

/-- **C106** (partial): leaving an off-mesh connection, both points of the portal are the end of the connection that the link belongs
to. -/
theorem portal_leave_partial {lerp : List U32 → List U32 → Byte → List U32} {src dst : PortalEnd} {srcRef dstRef : U32} {l : LinkRec}
    (hs : polyType src.poly.areaAndType = 1#8) (hl : LinkTo src.links dstRef l) {tile : List W3} {a : W3}
    (ha : HasVert src tile l.edge.toNat a) : portalPoints lerp src srcRef dst dstRef = .ok (flat3 a) (flat3 a) := by
  obtain ⟨v0, e0, c0⟩ := ha.at
  unfold portalPoints
  rw [hl]
  dsimp only
  rw [if_pos hs, e0, Option.bind_some, c0]
  rfl

/-- What a portal onto an off-mesh connection is: a vertex of the polygon left, looked up among the vertices of the other tile. -/
theorem portal_enter_exact {lerp : List U32 → List U32 → Byte → List U32} {src dst : PortalEnd} {srcRef dstRef : U32} {l0 l : LinkRec}
    (hs : polyType src.poly.areaAndType ≠ 1#8) (hd : polyType dst.poly.areaAndType = 1#8) (hl0 : LinkTo src.links dstRef l0)
    (hl : LinkTo dst.links srcRef l) :
    portalPoints lerp src srcRef dst dstRef = bothEnds (src.poly.verts[l.edge.toNat]?.bind (vertAt dst.verts)) := by
  unfold portalPoints
  rw [hl0]
  dsimp only
  rw [if_neg hs, if_pos hd, hl]

/-- **C106** (refuted): a portal onto an off-mesh connection is a corner of the polygon left, not the end of the connection. -/
theorem portal_enter_refuted : ∃ (src dst : PortalEnd) (srcRef dstRef : U32) (l : LinkRec) (tile : List W3) (a b : W3),
    polyType src.poly.areaAndType ≠ 1#8 ∧ polyType dst.poly.areaAndType = 1#8 ∧ LinkTo dst.links srcRef l ∧ HasVert dst tile l.edge.toNat a ∧
    a ≠ b ∧ ∀ lerp, portalPoints lerp src srcRef dst dstRef = .ok (flat3 b) (flat3 b) := by
  refine ⟨⟨⟨0, [0, 1, 2, 0, 0, 0], [0, 0, 0, 0, 0, 0], 1, 3, 1⟩, [⟨9, 0xffffffff, 0xff, 0xff, 0, 0⟩], [(0, 0, 0), (4, 0, 0), (0, 0, 4), (1, 0, 1), (8, 0, 8)].flatMap flat3⟩,
    ⟨⟨0, [3, 4, 0, 0, 0, 0], [0, 0, 0, 0, 0, 0], 1, 2, 0x41⟩, [⟨8, 0xffffffff, 0, 0xff, 0, 0⟩], [(0, 0, 0), (4, 0, 0), (0, 0, 4), (1, 0, 1), (8, 0, 8)].flatMap flat3⟩,
    8, 9, ⟨8, 0xffffffff, 0, 0xff, 0, 0⟩, [(0, 0, 0), (4, 0, 0), (0, 0, 4), (1, 0, 1), (8, 0, 8)], (1, 0, 1), (0, 0, 0), by decide, by decide, rfl,
    ⟨rfl, 3#16, by decide, by decide, by decide⟩, by decide, fun lerp => rfl⟩

example : portalPoints (fun a _ _ => a)
    ⟨⟨0, [0, 1, 2, 0, 0, 0], [0, 0, 0, 0, 0, 0], 1, 3, 1⟩, [⟨9, 0xffffffff, 2, 0xff, 0, 0⟩], [(0, 0, 0), (4, 0, 0), (0, 0, 4)].flatMap flat3⟩ 8
    ⟨⟨0, [0, 1, 2, 0, 0, 0], [0, 0, 0, 0, 0, 0], 1, 3, 1⟩, [], []⟩ 9 = .ok [0, 0, 4] [0, 0, 0] := by decide

end Verif.Detour
