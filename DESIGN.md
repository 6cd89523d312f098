# Formal model of arl/go-detour — design

Scope: the Go packages `/repo/detour` and `/repo/recast` at the pinned commit, plus the id-bit
arithmetic of `/repo/sample/tilemesh`. The code is read as text and transcribed function by
function into total Lean 4 functions; every definition cites the file and lines it models.

## Trusted base

* Lean 4.33.0's kernel. The only axioms allowed are Lean's standard ones
  (`propext`, `Classical.choice`, `Quot.sound`); `Verif/Audit.lean` prints them for every
  claimed theorem. No `sorry`, `native_decide`, `bv_decide` or own axioms.
* The transcription from Go to Lean (by hand, cited line by line).
* Go semantics assumed: fixed-width wrapping unsigned arithmetic, slices as arrays with bounds
  checks (an out-of-range index is a panic, modelled as `none`/`Res.panic`), no data races (the
  library is single threaded).
* External libraries `math32` (`NextPow2`, `Ilog2`), `gogeo`, `encoding/binary` are not in the
  repository. `NextPow2`/`Ilog2` are modelled by the bit-trick code of the original C++
  (`dtNextPow2`, `dtIlog2`).
* `float32`: never computed with. Where only comparisons or bit patterns matter the bits are
  carried as 32-bit words. Where order and addition matter (search costs) the cost type is an
  abstract structure with exactly the laws used (total order, monotone addition of non-negative
  costs); these hold for non-NaN float32 with round-to-nearest. A concrete instance is given.

## Conventions

* `Verif/<Pkg>/<Topic>.lean` holds model + lemmas; the property theorems are gathered at the end
  of each topic file under a `Properties` heading, each with an `example` that meets its
  hypotheses non-trivially.
* Panics and `log.Fatal` are explicit outcomes, not totalised away.
* If the pinned code violates a property, the file has a theorem refuting the full statement with
  a concrete witness and a `_partial` theorem with the strongest true restriction.

## Properties: what is modelled and how each is proved

| id | model | proof |
|----|-------|-------|
| C01 | bit-level ref codec on Nat with 32-bit wrap | shift/mod arithmetic |
| C02 | `Init` bit budget with uint32 wrap | case split; witness for wrap |
| C03–C08 | tile table state machine: slots, salts, free list, hash chains as lists of slot indices; tile contents abstract | invariant over histories, refinement to a finite map |
| C09–C11 | link arena with explicit next-indices (null = 0xffffffff), per-poly first link | heap-shape invariant ("owned lists are disjoint and complete") |
| C12–C16 | byte-list codecs little endian; reader as list of chunks | round-trip by record/list induction; witnesses for off-mesh bug, short reads |
| C17–C19 | bit fields on BitVec | bit extensionality |
| C20–C21 | hash-chained node pool arrays | refinement to association list |
| C22 | array binary heap | heap invariant, permutation |
| C23–C28, C30 | FindPath main loop over an abstract link graph, node pool and open list as specified by C20–C22 | invariants over the loop; well-founded measure for termination |
| C29 | sliced update as fuel-iterated step | iteration law |
| C31 | `FindStraightPath`, `appendPortals`, `appendVertex` over an arbitrary geometry oracle, buffers by their lengths | invariant of the loop; witnesses in the integer plane |
| C32–C33, C59–C60 | subdivide producing pre-order array with escape indices; traversal loop | structural induction on the implicit tree, shared generic lemma |
| C34 | CreateNavMeshData validation and section layout | decision logic; witnesses for panics |
| C35–C37 | integer/ordered-field decision logic | case analysis |
| C38–C39 | BitVec 24-in-32 field, offset tables | bit extensionality; refutation of full C38 |
| C40–C42 | addSpan on sorted list and on free-list arena | induction; set semantics |
| C43–C45 | filters on column lists | induction, pointwise characterisation |
| C46–C47 | compact heightfield fill and neighbour scan | induction; witness for uint8 wrap |
| C48 | distance passes with uint8 wrap | "only clears" invariant; witness for wrap |
| C49 | bounding-box loop & point-in-polygon | witness for bbox bug |
| C50–C51 | region list cleaning, id compression | induction |
| C52 | sweep table bound | witness of panic |
| C53–C54 | winding test on uint8, degenerate removal loop | refutation, partial |
| C55–C58 | vertex welding, adjacency builder, triangulate, merge | refinement/area identities |
| C61–C62 | log / volume state machines | invariants |
| C63–C65, C69–C70 | clipping, hull triangulation, marking, OBJ faces, bounds | induction |
| C66 | uint16 `*3` wrap | refutation and range-restricted proof |
| C67 | `n++` before store | refutation |
| C68 | bit budget | arithmetic |
| C71–C72, C74, C76–C78 | tile table and decoder outcomes | invariants of the table over histories; case analysis of the reader |
| C73 | status texts | finite case analysis |
| C75 | node pool and queue sizes | arithmetic, composition of C20–C22 |
| C79–C81 | link building over the whole mesh | ghost state: why each link was made; frame lemmas |
| C82–C84 | span merging, filters, neighbour scan | pointwise characterisation |
| C85, C92 | rasterisation and point in polygon over an exact ordered field | clipping invariants, coverage of the clipped polygons |
| C86–C89 | geometry primitives over an exact ordered field | algebra, convexity |
| C90 | timers as a state machine | induction over calls |
| C91 | stored volumes | witness for the wrong count |
| C93–C97 | region records, sweeps, merging and filtering | graph invariants (connected, one area, no stacking) over the merge loop |
| C98 | portal marking | per-entry characterisation, witnesses for 16-bit wrap |
| C99–C102 | detail hull and outline | invariant of the two ends; budget arithmetic; witnesses |
| C103 | spiral search | closed form of the spiral path, ring by ring |
| C104 | query in one tile, distance loop | closed form of the loop over the leaves met; witnesses |
| C105 | contents of a created tile | section by section, get-lemmas for flattened arrays; witness for the 16-bit wrap |
| C106 | portal points | case analysis of the link kinds; witness for the wrong polygon |
| C107 | link demand against the reserved table | counting invariant of the link pool; witnesses |
| C108 | sliced search as a run of the `FindPath` search | step-by-step simulation, then the invariant and the measure of C22-C27; reversal of the parent chain |
| C109 | status of the finalized path | closed form of the store loop; refuted for every search |
| C110 | finalizing without a search | unfolding; witness |
| C111 | `FinalizeSlicedFindPathPartial` | `FindNodes` (C20) and the reversal lemma |
| C112 | link building as a sequence of link creations | links only accumulate; each call is located inside `linkAll`, what it makes survives the rest |
| C113 | `FindStraightPath` over an arbitrary geometry oracle | invariant: a trace of portal indices beside the points |
| C114 | as C113, loops with fuel | measure: portals left after the apex, then portals left |
| C115 | as C113, two buffers | simulation of two runs up to the point where the smaller one is full |
| C116 | as C113 over an ordered field | phases of the funnel (at the apex, one side at the apex, open); in the coordinates of the open cone each portal goes across; times of crossing are monotone |
| C117 | marking and tracing of contours (`ContourTrace`, `ContourOutline`) | the step from edge to edge is a bijection of the edges of a region, so a walk returns to its start; the flags left are whole orbits |
| C118 | as C117 | the cross products of all edges of the spans sum to twice the number of spans, inner edges cancel |
| C119 | `buildContours` over an arbitrary simplification (`ContourLimits`) | induction over the spans; region with eight holes |
| C120 | `cornerHeight` (`ContourCorner`) | cases of the four connections |
| C121 | as C120 | the same set of spans round the corner from both sides; a cliff as witness |
| C122 | as C120 | the code of a corner is its region; a border between two areas as witness |
| C123 | `simplifyContour` over an arbitrary distance (`ContourSimplify`) | the two loops insert points strictly between neighbours; steps round the cycle stay sorted |
| C124 | as C123 over an ordered field (`ContourError`) | no vertex between two neighbours is worse than the worst; a ragged outline as witness |
| C125 | as C123 | the loop stops only where no edge is too long |
| C126 | as C123 (`ContourMirror`) | both searches scan the same places in the same order because they go from the lower to the upper end; induction over the points added, from both sides at once |
| C127 | `Raycast`, `Raycast2` over tables and any geometry (`Raycast`) | induction over the rounds; the walk of the ray as an inductive predicate |
| C128 | as C127 | two runs side by side; a reused structure as witness |
| C129 | as C127 | as C127 |
| C130 | as C127 with `IntersectSegmentPoly2D` over an ordered field (`RaycastExact`) | each polygon is left at an edge that the next one continues; a ray shorter than the tolerance as witness |
| C131 | as C130 | the parameter grows, or stays and the exit edges turn round the point in one direction, less than half a turn |
| C132 | merge loop (`PolyMerge`) and per-contour part of `BuildPolyMesh` (`BuildPolys`) | merging at an edge with two left turns keeps all vertices inside all edges; triangles are convex |
| C133 | as C132 with `addVertex` | triangles use every directed edge once, welding is injective on distinct places, antisymmetric sums |
| C134 | all contours in turn (`BuildPolys`) | invariant over contours: vertices and triangle counts within the budget, origin of polygons and flags |
| C135 | `canRemoveVertex` (`RemoveVertex`) | two meshes as witnesses; definition for the partial |
| C136 | `removeVertex` (`RemoveVertex`) | swap-removal as permutations, renumbering keeps places, any hole is filled soundly |
| C137 | as C136 | a fan as inductive predicate; the hole of an open path is the path (invariant: part of the path and edges left); antisymmetric sums |
| C138 | contours and removal loop (`RemoveVertex`) | invariant over removals on top of C134; contours as witness |
| C139 | convex polygon, detail triangles, exact field | `InPoly`, `StrictlyIn`, `OnTriangle`, `flatSq` in Detour/ClosestPoint.lean | parity test on convex polygons (C92), minimum over the edges, supporting lines |
| C140 | two distances, two ends | `lerp3`, `spaceSq` | between the ends: convexity; nearest: counterexample |
| C141 | tiles on a grid, leaf boxes, quantized search box (Detour/NearestPoly.lean) | `InBounds`, `InSearch`, `Around`: no quantization | floor is monotone, the masks widen; then C32 and the grid range |
| C142 | fold over tiles and hits | least distance over all polygons that meet the box | invariant of the fold: minimum and witness; C141; C139 for someone standing on a polygon |
| C143 | slabs over an exact field (Detour/TileSeam.lean); instance of the geometry of Detour/MeshLinks.lean | `OnEdge`, `WellOn`, `Passage`: points of the two edges | a linear function is small somewhere on an interval iff it changes sign or is small at an end; then C112 |
| C144 | quotients, clamp, bytes | `Shared`: fractions of the edge that the other edge reaches | floor bounds; order of the two limits |
| C145 | the search of C23 over an exact cost monoid (Detour/Cheapest.lean) | `routeCost`: sum of the legs of a corridor for a placing of the polygons; `ownCost`: over own midpoints | closed nodes have handed their costs on; some open node is no dearer than any completion (frontier), so the popped goal is cheapest |
| C146 | the edge table, facets and triangles of delaunayHull as lists (Recast/DetailDelaunay.lean) | signed area of the returned triangles by `cross2` | ghost list of faces: a face beside an edge has that edge as a directed side; triangles under construction fit their face; the table has at most 10n edges |
| C147 | as C146 | `areaSum`: sum of signed areas; `outlineSides`: the closed outline | count and signed sum of entered sides grow together; all sides are decided at the end, so that inner edges cancel |
| C148 | the sampling loop over an exact distance to the mesh (Recast/DetailSamples.lean) | `OverTri`: barycentric coordinates with tolerance and vertical distance | loop induction: one sample is taken per round, so the rounds suffice; the worst sample bounds all others |
| C149 | growing arrays, sub-mesh table (Recast/DetailStore.lean) | prefix sums of the sizes, entries by position | `Rep`: the entries in use are the concatenation so far |
| C150 | getEdgeFlags, getTriFlags | `AlongSide`: both ends within a thousandth of one side | closest point of a segment (C86) |
| C151 | reading a corner with 16 bit products | the vertex of the index | arithmetic of `BitVec 16` |
| C152 | copying of region heights and breadth first search with the cut queue (Recast/HeightData.lean) | `Heights`: heights through spans of the cells, `GrownFrom` connections inside the patch, closed under connections | queue equals plain queue; invariant of the search; number of missing heights plus waiting items falls |
| C153 | nearest span and depth first walk (Recast/HeightSeed.lean) | `Nearest`, `GrownFrom`, `Stuck`: closed set of cells away from the centre | minimum of a fold; invariant of the walk; connected grids |
| C154 | rasterisation, filters, compaction and erosion of a tile with its border (Recast/TileAgree.lean, Recast/RasterShift.lean) | `worldSpan`: cutting at planes fixed in the world; `SameAround`; `Chosen` selections of chunks | cutting by an earlier plane first changes nothing (`cut_twice`); every stage depends on nearby columns only; grids shifted by whole cells |
| C155, C156 | number and boxes of tiles, `TilePos` (Recast/TileLayout.lean) | `InTile`: the square of a tile | floor and truncation of quotients; `gridSize_near` |
| C157, C158 | `Build`, `buildAllTiles`, `BuildTile`, `RemoveTile` over the tile table (Detour/TileBuild.lean) | `HoldsAt`: what is found at a location | one step by the history theorems of the tile table; induction over the locations |
| C159 | `InitForSingleTile` (Detour/SingleTile.lean) over `init` and `addTile` | `HoldsAt`, references by `IsValidPolyRef` and `TileAndPolyByRef` | the theorems on fresh meshes and on adding a tile |
| C160, C161 | rasterisation, filters, compaction and erosion in the order of the builders (Recast/Headroom.lean) | `FreeAbove`, `TopOf`: points of triangles over a cell; `GNext`, `CanPass`: steps between spans as they are seen | filters keep the geometry; columns are the union of what was added; what is not eroded is not near the border |
| C162 | as C160, and `MarkWalkableTriangles` (Recast/GroundArea.lean) | `TriUnder`: a point of a triangle in the cell, not above the floor | areas of columns come from what was added; filters keep an area or take it from the span below; compaction keeps it and erosion only clears |
| C163 | as C160, from the heightfield on (Recast/OpenFloor.lean) | `OpenFloor`: a family of spans with room above and small steps | the filters keep the floor one cell inside; its spans are connected; no border is near enough to erode it |
| C164 | the settings of the builders (Recast/AgentRoom.lean) | `AgentFits`, `AgentSteps`: points of triangles and floors in world units | C160 and C161 scaled by the size of the voxels |
| C165 | `MeshLoaderOBJ.Load` (Recast/ObjLoad.lean) on a decoded file | `HoldsFile`, `NormalOf`: perpendicular, of length 1 | the loop over the triangles succeeds exactly when all indices are in range; algebra of the cross product |
| C166 | as C160 (Recast/FloorMesh.lean) | `OpenInput`: triangles of the floor, below and above, by the heights of their points near a cell | columns keep the three layers apart; the top span of the floor layer in each cell is an `OpenFloor` |
| C167 | the sliced search (Sliced.lean) with rays, and `castEnv`: its rays are those of `Raycast` (Detour/AnyAngle.lean) | `Corridor`; `RaysFit`, `RaysMeet`: what a ray must be like; `OneFloor` | invariant of the search (`AInv`): each node follows from its parent by a link or a ray; the stored rays make a chain; refuted for floors above each other and small buffers |
| C168 | as C80 and C112 (Detour/SeamHistory.lean); contacts are a function of the two tiles (`Geo.Local`) | `SeamLink`: the link the geometry asks for; `TileHistory` | invariant over histories (`SeamInv`): links into other tiles = seam links; from it that order, slots and other tiles do not matter |
| C169 | contours, simplification and polygons as C117-C119, C123, C133, C134 (Recast/GroundCover.lean), `exactSeg` with error 0 | `area2D`, `regionArea`, `Isolated`, `CoversCell` | area as a cyclic sum over indices: collinear runs add up to their chord, degenerate segments and shifts add nothing; then the sum over contours and polygons. Witness: a ring of eight cells, whose one polygon covers the hole |
| C170 | `slabPass`, `checkOverlapSegment`, `segmentLoop` (Recast/ChunkySegment.lean) on the mesh of C59 and C60 (`createChunky`) | `SegmentMeets`, `Clear`, `Rect.widen` | each pass cuts the interval of times to those between two planes; the test is monotone in the rectangle, and leaf rectangles lie in those above them, so the walk over the escape tree misses no leaf. Witness: a segment of width EPSILON/2 that ends in the rectangle |
| C171 | `Mesh.queryValid`, `Mesh.polyUnsafe` (Detour/QueryRef.lean) on the tile table of C03 and C76 | `Names`, `Filter.Allows` | from the characterisation of valid references, the flags by bits (C18), and the table invariant (every stored tile has as many polygons as its header says) |
| C172 | `centerVert`, `centerLoop`, `calcPolyCenter` (Detour/PolyCenter.lean), indices as 16-bit words | `PolyVerts`, `IsMean`, `crossXZ`, `IsCentroid4` | induction over the indices; the value of an affine function at the mean is the mean of its values, so half-spaces that hold the vertices hold the mean. Witness: a trapezoid |
| C173 | `dtpLoop`, `distToPoly`, `sampleGrid` (Recast/DetailGrid.lean) with `crosses` and `distPtSeg` of the crossing test and the distance to a segment | `pointInPoly` (its meaning: PointInPoly.lean), `edges3`, `ClearBy` | the loop is the crossing loop together with a minimum; a point the crossing test has inside is within the bounds of the vertices, strictly at the upper ends, so the loops reach it. Witnesses: squares with spacings 8 and 1/4 |
| C174 | `bestOne`, `mergeOne`, `mergeLoop` (Recast/RegionFilter.lean) | `ToMerge`, `Partner` (Recast/RegionComplete.lean) | a step returns its records or adds one to the count, so a pass with count 0 is a fixed point of every step; the search ends with a smallest partner; `MergeInv` of RegionMerge.lean gives the ids. Witness: three records, the smaller partner not listing the region |
| C175 | `copyLoop`, `mergeContours`, `leftLoop`, `findLeftMost`, `holeLess` (Recast/HoleMerge.lean) | `ringEdges` (pairs of a list and its rotation), `ringArea`, `LeftOf` | a copy loop is the rotated list with its first entry once more; edges of a rotation are the rotated edges; sums over a permutation, the bridge cancels |
| C176 | `inCone4`, `segHits`, `diagCands`, `bridgeRound` (Recast/HoleBridge.lean) with `leftOn`, `intersect` of Triangulate.lean; the sort is any sorting function | `SortsDiags`, `BridgeFree` | the first entries of a sorted table with enough zeros are zeros; `find?` on a sorted list gives a nearest entry. Witness: U-shaped outline with a hole in one arm |
| C177 | `bridgeSearch`, `holesLoop`, `mergeRegionHoles` (Recast/HoleLoop.lean) | `ringSum`, `HolesJoined` | induction over the holes with the edges of C175; every entry of the table, left over ones too, is a vertex of the outline, which only grows |
| C178 | `edgeExtent`, `minExtentSq` (Recast/PolyExtent.lean) with `distPtSeg` of Geometry.lean | `WithinSeg`, `AlongEdge` | bounds of a fold of maxima and of a fold of minima; convexity of the squared distance |

## Not modelled

* Floating-point rounding of geometry (closest points, heights, portal midpoints): left abstract.
* Concurrency: the library has none.
* `int32` overflow in contours and triangulation (coordinates are unbounded integers there), and in iteration counts.
* Sorting functions: any function that permutes its input (stronger than what is needed, so the proofs do not depend on the sort).
* `float32` decisions inside loops whose control flow is modelled (distances, comparisons, quotients) are arbitrary functions;
  what a theorem needs of them is a hypothesis.
* File system, logging output format, timers.
* `BuildRegions` (watershed) and `expandRegions`, which panic with "untested" in the pinned code.

## Status by property

<!-- status:begin -->

| id | status | theorems | note |
|----|--------|----------|------|
| C01 Polygon references decode to what they encode | proved | `Detour.IdBits.decode_encode`, `Detour.IdBits.encode_injective`, `Detour.IdBits.encode_ne_zero`, `Detour.IdBits.encode_decode`, `Detour.IdBits.base_or`, `Detour.IdBits.wf_of_init`, `Detour.IdBits.encode_collision_out_of_range` | Encode/decode of 32-bit references for every salt/tile/poly split accepted by Init; the range hypothesis is shown necessary by a collision. |
| C02 Init accepts exactly the configurations whose references fit | partial | `Detour.init_accepts_iff_fits_partial`, `Detour.init_accepts_iff_fits_refuted`, `Detour.init_accepts_huge_polys_refuted`, `Detour.lutSize_pow2` | Holds while the bit counts do not wrap; the code accepts some over-budget configurations (refuted with witnesses). |
| C03 Stale references are rejected after tile removal | proved | `Detour.stale_ref_rejected`, `Detour.salt_wraps` | For every history without lastRef restores and fewer removals of the slot than the salt range; the exact wrap-around bound is proved (salt_wraps). |
| C04 Tile lookups agree with the set of added tiles | proved | `Detour.lookup_history`, `Detour.tileRefAt_history`, `Detour.tilesAt_spec` | Lookups refine a finite map from locations to tiles, over every history of AddTile/RemoveTile. |
| C05 Tile slots are conserved | proved | `Detour.slots_conserved`, `Detour.add_capacity`, `Detour.remove_frees` |  |
| C06 Adding at an occupied location is refused without effect | proved | `Detour.add_refused` |  |
| C07 Removing with a bad reference is refused without effect | partial | `Detour.remove_bad_ref_partial`, `Detour.remove_never_crashes_refuted` | RemoveTile of a never-populated slot dereferences a nil header (refuted); otherwise bad references change nothing. |
| C08 Re-adding a tile with its old reference restores it | proved | `Detour.readd_restores` |  |
| C09 Link pool is conserved | proved | `Detour.links_history` | Every sequence of link creations and removals refines independent lists with a shared capacity. |
| C10 No link to a removed tile survives | partial | `Detour.remove_drops_links`, `Detour.links_valid_refuted` | Proved for tiles with layer numbers below 32; with more than 32 layers in one grid cell RemoveTile leaves dangling links (refuted by a 34-layer witness). |
| C11 Internal links mirror the polygon adjacency | proved | `Detour.internal_links`, `Detour.internal_link_iff` | For polygons with at least one vertex; VertCount 0 makes connectIntLinks panic (connectInt_no_verts_panics). |
| C12 Tile and mesh headers survive save/load | proved | `Detour.meshHeader_roundtrip`, `Detour.meshHeader_roundtrip'`, `Detour.meshHeader_short`, `Detour.setHeader_roundtrip`, `Detour.tileHeader_roundtrip` | All header codecs, all field values, all buffers. |
| C13 Tile contents survive save/load | partial | `Detour.tile_roundtrip_exact`, `Detour.tile_roundtrip_partial`, `Detour.tile_roundtrip_refuted`, `Detour.decode_toWriter` | Exact image of serialize;unserialize for every consistent tile; identity when there are no off-mesh connections; false otherwise (flags/side written at offset 0 of the vertices). |
| C14 Saving a mesh writes exactly Size() bytes | proved | `Detour.toWriter_size`, `Detour.decode_toWriter`, `Detour.save_load` | save_load closes the loop with the modelled Init/AddTile for every reachable mesh of tiles without off-mesh connections. |
| C15 Decode does not depend on how the reader chunks the bytes | partial | `Detour.decode_chunking_partial`, `Detour.decode_chunking_refuted`, `Detour.decode_eager_refuted`, `Detour.decode_toWriter` | False for files with tiles: a single Read per tile. Proved for tile-less files and for one-piece readers. |
| C16 Decode rejects foreign, truncated or wrong-version input | proved | `Detour.decode_short`, `Detour.decode_foreign`, `Detour.decodeTiles_short` | Under every chunking of the stream. |
| C17 Polygon area and type are independent fields | proved | `Detour.poly_area_type` |  |
| C18 Standard filter decision | proved | `Detour.passFilter_iff`, `Detour.passFilter_no_flags`, `Detour.passFilter_exclude_mono`, `Detour.passFilter_default` |  |
| C19 Status words carry exactly one outcome plus details | proved | `Detour.status_outcome`, `Detour.status_detail` |  |
| C20 Search nodes are a faithful map from (polygon, state) to node | proved | `Detour.pool_is_table`, `Detour.pool_injective`, `Detour.findNodes_spec`, `Detour.nodeIdx_roundtrip` |  |
| C21 Node pool exhaustion is reported, never overrun | proved | `Detour.pool_never_panics`, `Detour.pool_nil_iff` |  |
| C22 Open list is a priority queue | proved | `Detour.queue_is_priority_queue`, `Detour.pop_empty_panics` | Every sequence of push/pop/modify within capacity refines a multiset priority queue. |
| C23 FindPath returns a connected, permitted corridor | proved | `Detour.findPath_corridor`, `Detour.findPath_repeats`, `Detour.crossSide_bound`, `Detour.crossSide_four` |  |
| C24 FindPath's PartialResult flag is truthful | proved | `Detour.findPath_partial_flag`, `Detour.findPath_partial_best` |  |
| C25 FindPath terminates | proved | `Detour.findPath_terminates` | For non-negative filter costs in a well-founded cost order (float32 is finite). |
| C26 FindPath validates its arguments | proved | `Detour.findPath_invalid`, `Detour.findPath_same`, `Detour.findPath_terminates` |  |
| C27 FindPath is complete | proved | `Detour.findPath_complete`, `Detour.findPath_enough_nodes`, `Detour.findPath_partial_flag` |  |
| C28 Path buffer truncation keeps a prefix and says so | proved | `Detour.findPath_truncation` |  |
| C29 Sliced search does not depend on slicing | proved | `Detour.slice_done`, `Detour.slice_split`, `Detour.slice_any`, `Detour.slice_count` | Any mesh, filter, options (any-angle included), pool and slicing. |
| C30 Node pool reuse does not leak earlier searches | proved | `Detour.findPath_history` | Provided edgeMidPoint succeeds on linked polygons. |
| C31 Straight path output stays within its buffers and is well flagged | partial | `Detour.straight_fits`, `Detour.straight_valid`, `Detour.straight_last`, `Detour.straight_cut`, `Detour.straight_no_panic_partial`, `Detour.straight_panic_refuted`, `Detour.straight_start_partial`, `Detour.straight_start_refuted` | False: with crossings and a broken path the call panics when the buffer is full, and the first point loses its start flag when a portal ends at the start (both refuted). Proved: the buffer bound, the first position, the last point with flag and reference 0, the partial result, and the start flag when nothing else is within tolerance of the start. |
| C32 BV-tree query finds exactly the overlapping polygons | partial | `Detour.bv_walk_exact`, `Detour.bv_query_partial`, `Detour.bv_query_refuted` | The tree itself is exact; the header counts one node too many, so queries at the low corner of the tile report polygon 0 once more (refuted). |
| C33 Polygon query delivers every hit once despite batching | proved | `Detour.query_tree_batches`, `Detour.query_linear_batches`, `Detour.query_linear_fatal` | Tiles without a tree that contain off-mesh connections end the process (query_linear_fatal). |
| C34 CreateNavMeshData refuses unusable input | partial | `Detour.create_error_iff`, `Detour.create_data_partial`, `Detour.create_no_tree_refuted`, `Detour.create_no_detail_refuted` | Errors: proved exactly. Data: proved with a detail mesh for every polygon and a tree; without a tree, or without detail meshes, the call always panics (refuted). |
| C35 Off-mesh end points are classified by their side of the tile | proved | `Detour.classify_spec`, `Detour.Band.exists` | The rectangle is half-open; needs bmin <= bmax. |
| C36 Opposite tile side | proved | `Detour.oppositeTile_involutive`, `Detour.neighbour_opposite`, `Detour.sides_compass`, `Detour.neighbours_return` |  |
| C37 Bounds overlap tests are exact | proved | `Detour.overlapQuant_exact`, `Detour.overlapQuant_symm`, `Detour.overlapBounds_exact`, `Detour.overlapBounds_symm` | Coordinates from any linear order. |
| C38 Span connections read back as written | partial | `Recast.getCon_setCon`, `Recast.setCon_other_partial`, `Recast.setCon_fresh_partial`, `Recast.setCon_reset_partial`, `Recast.setCon_refuted`, `Recast.setCon_reads_back_iff` | False in the pinned code: SetCon XORs the new value into the old one, so it reads back only over a zero field (refuted; exact condition proved). |
| C39 Direction tables are consistent | proved | `Recast.dirFor_offsets`, `Recast.offsets_dirFor`, `Recast.dir_turns` |  |
| C40 Heightfield columns stay sorted and disjoint | proved | `Recast.columns_canonical` | Over the pointer-level model (span pool, free list, column lists). |
| C41 Heightfield columns cover exactly what was inserted | proved | `Recast.columns_cover`, `Recast.columns_order_independent` |  |
| C42 Span pool never aliases live spans | proved | `Recast.alloc_fresh`, `Recast.release_spec`, `Recast.addSpan_history` |  |
| C43 Low-hanging obstacle filter effect | proved | `Recast.lowHanging_effect`, `Recast.lowHanging_outside`, `Recast.lowHanging_not_idempotent` | Exact effect per span; the filter is not idempotent. |
| C44 Low-height filter effect | proved | `Recast.lowHeight_effect`, `Recast.lowHeight_idempotent` | "Too small" is "not more than walkableHeight"; see C83 for the documented strict comparison. |
| C45 Ledge filter only removes, and order does not matter | proved | `Recast.ledge_effect`, `Recast.ledge_only_clears`, `Recast.ledge_idempotent`, `Recast.ledge_border` | Against an order-free specification of a ledge. |
| C46 Compact heightfield keeps every walkable span once | partial | `Recast.compact_cells_partial`, `Recast.compact_cells_partition_partial`, `Recast.compact_cells_refuted` | False for columns with more than 255 walkable spans (Count is a uint8; refuted); proved otherwise. |
| C47 Compact heightfield connections are sound | partial | `Recast.connections_partial`, `Recast.connections_refuted` | Exact for all spans listed by their cell; a neighbour column with 256 walkable spans loses its connections (refuted). |
| C48 Erosion removes exactly the border band | partial | `Recast.erode_only_clears_partial`, `Recast.erode_clears_border_partial`, `Recast.erode_iff_partial`, `Recast.erode_keeps_far_partial`, `Recast.erode_clears_reach_partial`, `Recast.erode_clears_near_partial`, `Recast.erode_wraps_refuted`, `Recast.erode_radius_refuted` | Radius 1..127: that everything near the border is cleared is proved for fields of any size, that nothing else is for fields of at most 127 rows or columns. The 8-bit distances wrap on larger fields (far spans are cleared; refuted) and radius >= 128 clears nothing (refuted). |
| C49 Marking a convex area marks exactly the inside cells | partial | `Recast.mark_only_partial`, `Recast.mark_inside_partial`, `Recast.mark_refuted` | Nothing but the inside is marked, for every polygon. The box is taken over a third of the vertices only, so inside spans are missed (refuted); proved when that third spans the box. Exact arithmetic. |
| C50 Region neighbour lists have no adjacent duplicates | proved | `Recast.removeAdjacent_spec`, `Recast.replace_spec` |  |
| C51 Region ids are compressed | partial | `Recast.compress_spec`, `Recast.maxRegions_unused_refuted` | Proved for the table of region records. For the spans it is false: MaxRegions itself is never the region of a span (refuted), since the filter counts one id too many. |
| C52 Monotone partitioning never crashes | partial | `Recast.monotone_runs_partial`, `Recast.monotone_fails_iff`, `Recast.partition_runs_partial`, `Recast.partition_panics_refuted` | Below 0x7ffb spans the filter always completes, only the sweeps can fail. They never panic if every row has fewer walkable spans than max(width,height); it panics on the 1x1 field and on every field whose first row starts that many sweeps (refuted). |
| C53 Outlines and holes are told apart | partial | `Recast.mergeHoles_partial`, `Recast.holes_kept_refuted`, `Recast.calcArea_neg_iff`, `Recast.one_cell_hole_refuted` | False: the windings are stored in a byte compared with < 0, so no hole is ever recognised and holes stay contours of their own; a one-cell hole would not be recognised either, its area rounds to 0 (both refuted). Proved: nothing is changed or lost; the area test is right otherwise. |
| C54 Degenerate contour segments are removed | partial | `Recast.removeDegenerate_partial`, `Recast.removeDegenerate_sublist`, `Recast.removeDegenerate_places`, `Recast.removeDegenerate_refuted` | Proved when no three consecutive vertices coincide; with three the loop skips one (refuted). |
| C55 Welded vertices | partial | `Recast.addVertex_spec`, `Recast.addVertex_index`, `Recast.addVertices_length`, `Recast.weld_partial`, `Recast.weld_below_refuted`, `Recast.weld_wrap_refuted` | The height test subtracts uint16: a vertex 1 or 2 units below is not reused and heights at opposite ends count as near (both refuted). Proved with the exact test; indices valid below 65536 vertices. |
| C56 Polygon adjacency is mutual | partial | `Recast.adjacency_mutual_partial`, `Recast.adjacency_complete_partial`, `Recast.adjacency_border_partial`, `Recast.adjacency_wrap_refuted` | Proved for meshes with at most 65535 edges from a smaller to a greater index; beyond, the 16-bit record numbers collide and edges that share one vertex only become neighbours (refuted). |
| C57 Triangulation preserves area and vertex set | proved | `Recast.triangulate_count`, `Recast.triangulate_area`, `Recast.triangulate_boundary`, `Recast.triangulate_convex` | Unbounded integers. |
| C58 Merging polygons preserves area and vertex budget | partial | `Recast.merge_budget`, `Recast.polyMerge_area`, `Recast.mergePolys_spec`, `Recast.merge_index_refuted` | Proved for vertex indices below 21846; beyond, index*3 wraps in uint16 and the convexity test looks at other vertices (refuted). |
| C59 Spatial index holds every triangle exactly once | proved | `Recast.chunky_partition`, `Recast.chunky_degenerate` |  |
| C60 Spatial index query | proved | `Recast.chunks_exact`, `Recast.chunks_find`, `Recast.chunks_find_corner` |  |
| C61 Build log keeps the first 1000 messages | proved | `Recast.log_history`, `Recast.resetLog_empties` | ResetLog does nothing while logging is disabled. |
| C62 Convex volume store | proved | `Recast.add_volume`, `Recast.delete_volume`, `Recast.delete_empty`, `Recast.volumes_history` | Deleting needs an existing index; on an empty store it panics. Coordinates beyond 36 are cut off, NVerts counts floats. |
| C63 Polygon clipping stays within its 7 vertices | proved | `Recast.divide_convex`, `Recast.rasterizeTri_in_buffers` | Exact arithmetic. |
| C64 Hull triangulation | proved | `Recast.hull_spec`, `Recast.hull_area`, `Recast.hull_convex`, `Recast.hull_empty`, `Recast.detail_base` | Any distances, NaN included; areas in exact arithmetic. Hulls of fewer than 3 points do not occur (an empty one panics). |
| C65 Unwalkable triangles | proved | `Recast.markWalkable_effect`, `Recast.clearUnwalkable_effect`, `Recast.mark_clear_complementary` | A triangle whose normal is not a number is touched by neither. |
| C66 Off-mesh vertex indexing covers all allowed vertices | partial | `Detour.vert_lookup_partial`, `Detour.vert_lookup_refuted`, `Detour.vert_lookup_wrong_refuted` | Proved up to vertex 21844; beyond, index*3 wraps in uint16 and the lookup panics or reads misaligned words (refuted). |
| C67 Mesh-level polygon query in a tile | partial | `Detour.query_tile_partial`, `Detour.query_tile_full_refuted`, `Detour.query_linear_panics_refuted`, `Detour.query_linear_skips` | False: results start at index 1, as many hits as the buffer holds write past it, and tiles without a tree panic (refuted). Proved: what is stored otherwise. |
| C68 Tile-bit budget of the tiled sample | proved | `Detour.tileMeshParams_ok`, `Detour.tileMeshParams_overflow` |  |
| C69 OBJ loader only keeps valid triangles | proved | `Recast.obj_in_range`, `Recast.obj_fan`, `Recast.obj_kept` |  |
| C70 Grid size covers the bounds | partial | `Recast.calcBounds_box`, `Recast.gridSize_near`, `Recast.gridSize_covers_refuted` | CalcBounds proved; the grid size is rounded to nearest, so up to half a cell of the bounds may be cut off (refuted as covering). |
| C71 AddTile refuses tiles with too many polygons | partial | `Detour.IdBits.encode_collision_out_of_range` | AddTile has no such check; the collision of references it permits is proved. |
| C72 Truncated tile data is reported | partial | `Detour.decode_truncated_data_accepted` | False in the pinned code: the missing bytes are read as zeros (refuted by witness). |
| C73 Status error text | partial | `Detour.status_error_single`, `Detour.status_error_word`, `Detour.status_error_not_failed`, `Detour.status_error_inProgress_refuted` | False for in-progress statuses with a detail (refuted). |
| C74 A full mesh refuses further tiles | partial | `Detour.add_capacity` | False in the pinned code: AddTile on a full mesh ends the process (log.Fatalln) instead of returning a failure; add_capacity states exactly when. |
| C75 Every documented pool size gives a working query | partial | `Detour.small_pools_panic_refuted`, `Detour.query_pool_partial` | maxNodes 1..3 give a hash table of size 0 and a panic on the first search (refuted); 4..65535 proved. |
| C76 Valid references are exactly the polygons in the mesh | proved | `Detour.valid_ref_iff`, `Detour.lookup_iff_valid`, `Detour.names_unique` |  |
| C77 Decode loads all announced tiles or fails | partial | `Detour.decode_all_tiles_refuted`, `Detour.decode_all_tiles_partial` | False: an empty tile record ends the loop without an error (refuted). |
| C78 Decode rejects files with a tile the mesh refuses | proved | `Detour.load_refused` |  |
| C79 AddTile leaves existing links alone | proved | `Detour.add_keeps_links` |  |
| C80 Links always lead to valid polygons | partial | `Detour.links_valid_partial`, `Detour.links_valid_refuted` | Proved for layer numbers below 32, arbitrary geometry; refuted beyond 32 layers per cell. |
| C81 Every link has a reason | proved | `Detour.links_have_reason` |  |
| C82 Merged spans keep the strongest nearby area | proved | `Recast.insert_area` |  |
| C83 Low-height filter threshold as documented | partial | `Recast.lowHeight_documented_refuted`, `Recast.lowHeight_documented_partial` | False: a span with clearance exactly walkableHeight is cleared too. |
| C84 Compact heightfield connections are mutual | partial | `Recast.mutual_partial`, `Recast.mutual_refuted` | Proved for 2*walkableClimb < walkableHeight on well-formed columns of at most 255 walkable spans; refuted for larger climbs. |
| C85 Rasterisation covers the triangles and nothing else | partial | `Recast.rasterize_covers`, `Recast.rasterTris2_eq`, `Recast.rasterize_only_partial`, `Recast.rasterize_border_refuted` | Coverage proved (points over grid lines excepted). The converse is proved for all cells except those of the first row and column, which also receive the parts of triangles outside the grid (refuted). Exact arithmetic. |
| C86 Distance from a point to a segment | proved | `Detour.distPtSeg_closest` | Exact arithmetic (any ordered field). |
| C87 Segment against polygon | proved | `Detour.segPoly_exact` | Exact arithmetic; edges nearly but not exactly parallel to the segment (|d| < eps) are excluded, the code judges them by the start point. |
| C88 Height on a detail triangle | proved | `Detour.heightTri_spec`, `Detour.heightTri_inside` | Exact arithmetic, non-degenerate triangles. |
| C89 Intersection of two lines | proved | `Detour.segSeg_point`, `Detour.segSeg_complete` | Exact arithmetic. |
| C90 Accumulated build times | partial | `Recast.accumulated_laps_partial`, `Recast.accumulated_documented_refuted` | The sum is proved; the documented -1 is never returned (0 instead; refuted). |
| C91 Stored volumes mark what they enclose | partial | `Recast.volume_runs_partial`, `Recast.volume_panics_refuted`, `Recast.volume_outside_refuted` | False: NVerts counts coordinates, so volumes of 5 or more vertices panic and smaller ones mark spans outside. |
| C92 Point in polygon | proved | `Recast.pointInPoly_outside`, `Recast.pointInPoly_inside` | Exact arithmetic. |
| C93 Merging two regions | proved | `Recast.mergeTwo_spec`, `Recast.canMerge_spec` |  |
| C94 Monotone regions are connected pieces of one area | proved | `Recast.partition_pieces` | Up to 0x8000 ids, beyond which ids collide with border ids. |
| C95 Final regions are connected pieces of one area | proved | `Recast.monotone_regions` | Fields of fewer than 0x7ffb spans, where no uint16 id wraps. |
| C96 Only small isolated regions are removed | proved | `Recast.monotone_keeps`, `Recast.monotone_drops_islands` | Fields of fewer than 0x7ffb spans. |
| C97 Merging regions never stacks floors | proved | `Recast.monotone_no_overlap` | Fields of fewer than 0x7ffb spans. |
| C98 Portal edges are exactly the open edges on the tile border | partial | `Recast.portal_spec_partial`, `Recast.portal_no_border`, `Recast.portal_index_refuted`, `Recast.portal_ambiguous_refuted` | Proved for vertex indices below 21846; beyond, index*3 wraps (refuted). A neighbour number from 32768 on is not distinguishable from a portal (refuted). |
| C99 Hull triangulation starts from the best ear | partial | `Recast.hull_start_partial`, `Recast.hull_start_refuted` | False: the search starts from a minimum of 0, so it always starts at the first hull point (both proved). |
| C100 Every documented sample distance works | partial | `Recast.zero_sample_refuted`, `Recast.detail_base` | False for 0: the hull is only filled for positive distances and the triangulation of an empty hull panics. Positive distances proved. |
| C101 Detail outlines follow the heights within the permitted error | proved | `Recast.simplify_error`, `Recast.outline_spec`, `Recast.edge_over_budget` | The deviation, positions and quotients are arbitrary functions; assumed: the quotient length/sampleDist is not negative and fits int32. |
| C102 Detail meshes of neighbouring polygons have no seams | partial | `Recast.seam_partial`, `Recast.swapped_opposite`, `Recast.seam_refuted` | Proved while both polygons have at most 95 vertices when they come to the edge; beyond, the vertex budget changes the number of samples on one side (refuted). |
| C103 Detail heights come from the nearest cells | proved | `Recast.getHeight_spec` | The distance is an arbitrary function below MaxFloat32. |
| C104 FindNearestPolyInTile finds the nearest polygon | partial | `Detour.nearest_found_partial`, `Detour.nearest_least_partial`, `Detour.nearest_over_partial`, `Detour.nearest_single_refuted`, `Detour.nearest_outside_refuted` | False: the polygon met last is dropped, so a single polygon is never found, and polygons the point is not over count as at distance 0 (refuted). Proved: the least distance among the other polygons met. |
| C105 CreateNavMeshData keeps what it is given | partial | `Detour.create_polys`, `Detour.create_verts`, `Detour.create_cons_partial`, `Detour.create_detail_partial`, `Detour.create_detail_refuted`, `Detour.fan_tris` | Proved up to 65536 vertices and polygons and 21845 extra detail vertices; beyond, the detail vertices are lost because vbase*3 is uint16 (refuted). |
| C106 Portals lie between their two polygons | partial | `Detour.portal_ground_partial`, `Detour.portal_leave_partial`, `Detour.portal_enter_exact`, `Detour.portal_enter_refuted` | Proved between ground polygons and leaving an off-mesh connection; entering one, the code takes a vertex of the polygon left (refuted). |
| C107 A tile's link table has room for all its links | partial | `Detour.created_internal`, `Detour.link_room_partial`, `Detour.link_room_refuted`, `Detour.con_room_refuted` | False: four links are possible at a portal edge but three are reserved, and a connection leaving the tile needs three but two are reserved (both refuted with created tiles). Proved: internal links always fit, and nothing is dropped while portal edges have at most three links and connections at most two per end point. |
| C108 Sliced search finds what can be found | proved | `Detour.slice_corridor`, `Detour.slice_complete`, `Detour.slice_partial_best`, `Detour.slice_same` | Costs as in C22; links lead to valid polygons (C80); the mesh does not change between the calls. |
| C109 BufferTooSmall of a sliced search is truthful | partial | `Detour.slice_tooSmall_partial`, `Detour.slice_exact_fit_refuted` | False for every search: a buffer exactly as long as the path is reported as too small (refuted). Proved: the flag is set exactly when the path fills the buffer. |
| C110 Finalizing needs a search | partial | `Detour.slice_failed_partial`, `Detour.slice_invalid_partial`, `Detour.slice_twice_refuted` | False: after a finalize, another one succeeds with one polygon, reference 0 (refuted). Proved: it fails after a failed search. |
| C111 A sliced search can continue an existing path | proved | `Detour.slice_existing` | Same hypotheses as C108. |
| C112 AddTile links everything that touches | proved | `Detour.border_links`, `Detour.start_links`, `Detour.end_links` | Geometry is any function of the mesh that does not look at links; layers below 32 as in C80. |
| C113 The straight path consists of corners of the corridor, in order | proved | `Detour.straight_order` | Any geometry oracle without infinite or NaN coordinates (a point is Approx to itself, and a triangle with twice the same corner has area 0). |
| C114 FindStraightPath terminates | partial | `Detour.straight_ends_partial`, `Detour.straight_hang_refuted` | Proved with a quadratic bound when areas of coinciding points behave (finite vertices); with an infinite vertex the loop never ends (refuted). |
| C115 A smaller buffer gives the beginning of the same straight path | partial | `Detour.straight_prefix_partial`, `Detour.straight_exact_refuted` | The beginning is proved, and that nothing is missing without BufferTooSmall; but the flag is also set when the whole path fits exactly (refuted). The last point may differ in flags or reference (it may be merged later in the longer run). |
| C116 The straight path stays in its corridor | partial | `Detour.straight_inside_partial`, `Detour.straight_inside_refuted` | Proved over any ordered field with exact arithmetic when all portals are there and no crossings are asked for. False for a partial result: the last segment may leave the corridor (refuted). Rounding is not covered. |
| C117 Raw contours match the region outlines exactly | partial | `Recast.raw_contours_partial`, `Recast.buildCompact_mutual`, `Recast.lone_span_refuted`, `Recast.long_outline_refuted` | Proved for fields with mutual connections (made by BuildCompactHeightfield when 2*climb < height and columns have at most 63 spans) and regions of fewer than 10000 spans, except spans connected to no span of their region, which get no contour (refuted); the walk is cut off in a region of 10000 spans (refuted). |
| C118 Raw contours enclose the region | partial | `Recast.raw_area_partial` | As C117: lone spans are not counted. |
| C119 BuildContours returns every contour | partial | `Recast.build_contours_partial`, `Recast.contour_limit_refuted` | BuildContours panics if and only if there are more contours than MaxRegions and than 8, which a region with eight holes reaches (refuted). The simplification is an arbitrary function. |
| C120 Height of a contour vertex | proved | `Recast.corner_height` |  |
| C121 Neighbouring contours agree on the height of a shared corner | partial | `Recast.shared_height_partial`, `Recast.shared_height_refuted` | Proved where the four spans are connected in a square; refuted otherwise, with a difference that addVertex does not merge. |
| C122 Which vertices are flagged for removal | partial | `Recast.border_vertex_partial`, `Recast.border_areas_refuted` | The regions are as stated. The areas are not compared, because region and area are combined in 16 bits (refuted). |
| C123 Simplified contours keep the raw vertices in order | proved | `Recast.simplify_order` | Any distance arithmetic, NaN included. Raw contours with all vertices at one place do not occur (walls are traced round whole cells). |
| C124 Simplified contours stay near the raw contour | partial | `Recast.simplify_error_partial`, `Recast.simplify_error_refuted` | Proved in exact arithmetic when long edges are not split; splitting long edges moves the contour away from the raw one (refuted). |
| C125 Maximum edge length of contours | proved | `Recast.simplify_edges` | maxEdgeLen up to 46340, beyond which its square overflows int32. |
| C126 Neighbouring contours simplify their common border in the same way | proved | `Recast.simplify_mirror`, `Recast.exactSeg_endsNear` | For borders that end at two different places. |
| C127 A raycast reports the corridor it went through | proved | `Detour.raycast_corridor`, `Detour.RayWalk.corridor` | Links lead to references other than 0 (C80). That the call comes back is C131. |
| C128 A raycast does not depend on what the hit structure held before | partial | `Detour.raycast_fresh_partial`, `Detour.raycast_stale_refuted` | False: T and PathCost are not reset, so that a structure used before may report a wall as the end reached (refuted). Proved for equal T and PathCost, as in fresh structures. |
| C129 The cost of a raycast is the sum of its legs | proved | `Detour.raycast_cost`, `Detour.rayLegs_length` | As C127. |
| C130 A ray that reaches its end runs over walkable ground only, and else stops at the wall | partial | `Detour.raycast_exact_partial`, `Detour.raycast_exact_refuted`, `Detour.seam_internal` | Exact arithmetic. Proved if no edge is nearly parallel to the ray (cross product below 1e-8) without being parallel; refuted else, by a short ray. What the links say is so (Seam, proved for shared edges). |
| C131 A raycast comes to an end | proved | `Detour.raycast_terminates` | Exact arithmetic, meshes as in C130. |
| C132 Mesh polygons are convex | partial | `Recast.contour_convex_partial`, `Recast.contour_convex_convex`, `Recast.mergePolys_convex` | Proved for strictly convex contours, and for any contour whose triangles are all properly oriented; that ear clipping of any simple contour gives only such triangles is not proved. Up to 21845 vertices, see C58. |
| C133 The polygons of a contour cover it exactly | proved | `Recast.contour_area` | That the triangulation of a convex contour finishes is in contour_convex_convex. |
| C134 The polygon mesh fits its arrays and keeps to its contours | proved | `Recast.polysOfContours_fits` | The removal of the marked vertices comes after this. |
| C135 A border vertex is removed exactly when its polygons form one fan | partial | `Recast.canRemove_partial`, `Recast.canRemove_fan_refuted`, `Recast.canRemove_apart_refuted` | False in both directions (refuted): the loop over a polygon's edges compares each corner but the first with itself. Proved: a yes implies a polygon with the vertex and three edges away from it (polygons having it once). |
| C136 Removing a vertex leaves the rest of the mesh alone | proved | `Recast.removeVertex_spec` | For removals that do not panic; for panics see C138. |
| C137 Removing a vertex keeps the ground covered | partial | `Recast.removeVertex_area_partial`, `Recast.removeVertex_fan`, `Recast.removeVertex_area_refuted`, `Recast.removeVertex_ring_refuted` | Proved for one open fan whose hole is triangulated to the end; refuted for two fans (ground is lost) and for a vertex inside (a polygon with a vertex twice), both let through by canRemoveVertex. |
| C138 BuildPolyMesh gives a sound mesh for any contours | partial | `Recast.meshOfContours_sound_partial`, `Recast.meshOfContours_panic_refuted` | Panics if three triangles touch in a border vertex (refuted). All else proved for builds that do not panic. |
| C139 ClosestPointOnPoly gives the nearest place of a polygon, on its detail surface | proved | `Detour.closestOnPoly_nearest`, `Detour.closestOnPoly_over`, `Detour.closestOnPoly_height`, `Detour.closestOnBoundary_spec` | In exact arithmetic. |
| C140 ClosestPointOnPoly gives the nearest point of an off-mesh connection | partial | `Detour.closestOnCon_partial`, `Detour.closestOnCon_refuted` | Between the ends, but not the nearest point (refuted): the ratio of the distances to the ends is used. |
| C141 A search box looks at every polygon whose bounds it meets | partial | `Detour.search_complete_partial`, `Detour.search_near`, `Detour.search_complete_refuted` | Proved for search boxes that reach into the tile (half-open cell); refuted for boxes that only touch its upper border. Handed over: polygons less than three tree cells from the search box cut to the tile, and perhaps polygon 0. |
| C142 FindNearestPoly gives the nearest polygon | partial | `Detour.findNearest_partial`, `Detour.findNearest_standing`, `Detour.findNearest_empty_refuted` | Nearest of all polygons that meet the search box: proved. That nothing is found if it meets none: refuted, as the search box is cut to the box of each tile. |
| C143 Tiles are linked exactly where one can step across | partial | `Detour.seam_partial`, `Detour.seamArea_comm`, `Detour.seam_links_partial`, `Detour.seam_refuted` | Proved with twice the climb: the code compares with (2*WalkableClimb)^2, so that edges up to twice the climb apart are linked (refuted for the climb itself). In exact arithmetic, for the four sides CreateNavMeshData makes. |
| C144 The portal of a link between tiles is the shared stretch | partial | `Detour.portal_partial`, `Detour.limits_partial`, `Detour.seamArea_stretch`, `Detour.portal_refuted` | Both ends of the portal are less than 1/255 of the edge before those of the shared stretch, and exact where the stretch ends with the edge. Refuted as stated: rounding goes towards the start of the edge, and the portal of a short stretch of a long edge can miss it altogether. |
| C145 FindPath returns a cheapest path | partial | `Detour.findPath_cheapest_partial`, `Detour.findPath_cheapest_fixed`, `Detour.findPath_cheapest_weights`, `Detour.findPath_cheapest_refuted` | Proved in exact arithmetic for meshes of one tile when every polygon is placed where the search first entered it; outright when costs depend on the polygons only or the entering edge does not matter. Refuted when each corridor is measured over its own midpoints: a polygon keeps the position of its first visit. |
| C146 Triangulations with interior points are sound | proved | `Recast.delaunay_sound`, `Recast.delaunay_ends` | In exact arithmetic, distances compared by squares. |
| C147 Triangulations with interior points cover the outline | partial | `Recast.delaunay_area_partial`, `Recast.delaunay_panic_refuted`, `Recast.delaunay_area_refuted` | Refuted: four points inside a triangle can make delaunayHull panic at a dangling face ("untested"), or return overlapping triangles. Proved when every face is entered at three sides and only the outline is left outside. |
| C148 Interior samples of detail meshes | proved | `Recast.samples_within`, `Recast.samples_needed`, `Recast.samples_sound`, `Recast.distTri_spec` | In exact arithmetic, whenever the triangulation returns (C147: it may panic). |
| C149 Detail meshes are stored where the sub-mesh table says | proved | `Recast.detail_storage`, `Recast.triBytes_index` | The detail of each polygon is given. |
| C150 Triangle flags mark outline edges | proved | `Recast.triFlags_spec` | In exact arithmetic. |
| C151 Detail meshes read the corners of their polygons | partial | `Recast.detail_corner_partial`, `Recast.detail_corner_refuted` | Proved for indices below 21846. Refuted beyond: the product of index and 3 is a uint16 and wraps around. The same product stands in BuildPolyMesh (portal edges), seedArrayWithPolyCenter, createBVTree, connectExtLinks, ClosestPointOnPolyBoundary and Raycast. |
| C152 Heights around a polygon come from its own floor | proved | `Recast.heightData_region`, `Recast.heightData_seed`, `Recast.getHeights_some` | Spans of height 0xffff are excluded: it is the mark of a missing height. |
| C153 The seed of the heights is connected to the polygon | proved | `Recast.seedCenter_spec`, `Recast.seedCenter_none`, `Recast.seedCenter_open` | Corners are given by their coordinates; the product of index and 3 with which they are read is C151. |
| C154 Neighbouring tiles agree about the ground at their seam | partial | `Recast.tiles_from_mesh_partial`, `Recast.tiles_agree_partial`, `Recast.ground_local_partial`, `Recast.erode_local_refuted` | Proved for tiles of at most 127 cells with their border and columns of at most 255 spans, in exact arithmetic. Refuted for larger heightfields: the distances of the erosion wrap, so ground far from any edge is cleared in a field of 260 by 260 cells and kept in one of 127 by 127. |
| C155 The tiles of a tiled build cover the input | partial | `Recast.tiles_cover_partial`, `Recast.tiles_cover_refuted` | Proved but for the last half cell of each axis, in exact arithmetic and for whole tile sizes. Refuted in full: CalcGridSize rounds to nearest, so with bounds of 8.4 cells and tiles of 8 cells the last 0.4 cells are over no tile that is built. |
| C156 BuildTile and RemoveTile work on the tile a position is over | partial | `Recast.tilePos_partial`, `Recast.tilePos_refuted` | Proved for positions not before the lower bounds, with an exact description of the others. Refuted in full: the conversion truncates towards zero, so a position less than a tile before the bounds is taken to be in the first tile, which RemoveTile then removes. |
| C157 A tiled build installs every tile | partial | `Detour.build_all_partial`, `Detour.layout_fresh`, `Detour.build_all_refuted` | Proved for up to 16384 locations with data (and the layout for any number). Refuted in full: tileBits is capped at 14, and with more tiles AddTile ends the process. |
| C158 Rebuilding or removing one tile changes that tile only | proved | `Detour.rebuild_spec` | For every mesh reached by adding and removing tiles, all salts not 0: proved to be kept by every step but AddTile with a lastRef whose salt is 0. |
| C159 A mesh made for a single tile holds that tile | partial | `Detour.single_tile_partial`, `Detour.single_refuses`, `Detour.single_tile_refuted` | Proved for flags 0 and 1 to 2^24 polygons (refusals for all data). Refuted in full: the flags are passed on as the last reference, so with flag 1 a tile gets salt 0 and its first polygon the null reference. |
| C160 There is headroom over the ground | proved | `Recast.ground_headroom` | In exact arithmetic, for points strictly inside the cell and inside the bounds of the grid (points outside are clipped away). |
| C161 There is room around walkable ground | partial | `Recast.ground_corridor_partial`, `Recast.mesh_corridor_partial`, `Recast.ground_corridor_refuted` | Proved for radii up to 127 cells, fields of any size, and columns of up to 255 spans. Refuted in full: a radius of 128 erodes nothing. |
| C162 Walkable ground lies on a walkable triangle | proved | `Recast.ground_area`, `Recast.ground_slope` | In exact arithmetic. The normal of a triangle is a parameter (none when it is not a number), as in C65. |
| C163 Open ground stays walkable | partial | `Recast.open_floor_partial`, `Recast.open_floor_refuted` | Proved for fields of at most 127 rows or columns, radii up to 127, height + climb up to 255 voxels with climb below height, and columns of up to 63 spans. Refuted in full: from a height of 256 voxels on nothing is connected, since open heights are capped at 255, so everything is eroded. |
| C164 An agent of the given size fits on the mesh | partial | `Recast.agent_voxels`, `Recast.agent_stands`, `Recast.agent_room_partial` | In exact arithmetic, for agents whose radius is not negative. The settings and headroom are proved in full, the room around for radii up to 127 cells and columns of up to 255 spans (ground_corridor_refuted shows that larger radii erode nothing). |
| C165 Loading an OBJ file gives the mesh of that file | partial | `Recast.obj_load_iff`, `Recast.obj_load_partial`, `Recast.obj_reload_refuted` | Proved for loaders without triangles, in exact arithmetic with any square root; what Load does on any other loader is proved exactly (obj_load_iff). Refuted in full: a second Load on the same loader keeps the triangles of the first file and panics if the second has fewer vertices. |
| C166 An open floor in the input becomes walkable ground | partial | `Recast.floor_walkable_partial`, `Recast.open_floor_refuted` | In exact arithmetic, with the limits of C163: grids of at most 127 rows or columns, radii up to 127, height + climb up to 255 voxels with climb below height, columns of up to 63 spans. |
| C167 The any-angle sliced search finds a connected path | partial | `Detour.any_corridor_partial`, `Detour.any_complete`, `Detour.cast_fit`, `Detour.cast_meet`, `Detour.any_disconnected_refuted`, `Detour.any_buffer_refuted` | Proved when rays to the place where a polygon is entered end in that polygon or a neighbour of it; that they do is proved for rays cast by Raycast in exact arithmetic over convex polygons with no floors above each other where polygons are entered. Refuted in full: with a floor above, the path is not connected; with a buffer too small for the path, the call may panic. |
| C168 The seams between tiles do not depend on how the tiles got there | proved | `Detour.seams_exact`, `Detour.seams_order_free` | Ground polygons; links back to off-mesh connections (edge 0xff) are left out. Layers below 32. A contact is an arbitrary function of the two tiles. |
| C169 The polygons of a region cover its ground | partial | `Recast.contours_area_partial`, `Recast.ground_cover_partial`, `Recast.hole_covered_refuted` | False for regions with holes: the hole is never recognised (C53), the outer contour is triangulated by itself and its polygon covers the hole (hole_covered_refuted). Proved: the contours of a region next to no other region have together exactly twice the number of its spans as signed area, and its polygons too if all its contours are cut up. Exact arithmetic, maximum error 0, no splitting of long edges, before removal of tile border vertices. |
| C170 Chunks hit by a segment | partial | `Recast.segment_exact_partial`, `Recast.segment_near`, `Recast.segment_exact_refuted`, `Recast.segment_chunks`, `Recast.segment_find_partial` | False for segments that change in a coordinate by less than EPSILON: only the start decides then, and a segment that ends in the rectangle is missed (segment_exact_refuted). Proved: exact for all other segments, right up to EPSILON for all; the walk finds exactly the leaves that pass the test. Exact arithmetic; the standard library sort is any permutation; panics exactly if the result, cut off at maxIds, does not fit the buffer. |
| C171 References checked with a filter and followed without a check | proved | `Detour.query_valid_iff`, `Detour.query_stale`, `Detour.unsafe_valid`, `Detour.unsafe_iff`, `Detour.unsafe_stale` | As C76 for meshes whose references use all 32 bits, as Init arranges unless both counts are 1 (query_valid_iff only); query_stale with the bound of C03 on the number of removals. Standard filter. |
| C172 Centre of a polygon | partial | `Detour.center_mean_partial`, `Detour.center_halfspace`, `Detour.center_inside`, `Detour.center_perm`, `Detour.center_centroid_partial`, `Detour.center_centroid_refuted` | False: the result is the mean of the vertices, which for a convex trapezoid is not the centroid (center_centroid_refuted), and indices from 21845 on wrap (C66). Proved for smaller indices: it is the mean, strictly inside of each edge, the same for any order of the vertices, and the centroid of parallelograms. Exact arithmetic. |
| C173 Sample points of a detail polygon | partial | `Recast.distToPoly_spec`, `Recast.samples_iff`, `Recast.samples_nodup`, `Recast.samples_clear_partial`, `Recast.samples_clear_refuted`, `Recast.samples_lost_refuted` | False: the squared distance is compared with half of sampleDist, so samples that are too close are kept for large spacings and others lost for small ones (both refuted). Proved: the samples are exactly the grid points that the crossing test has inside with a squared distance of at least half of sampleDist, each once, none lost by the bounds of the loops; for spacings up to 2 they keep the distance asked for. Exact arithmetic. |
| C174 Merging of regions is complete | partial | `Recast.merge_complete`, `Recast.merge_complete_partial`, `Recast.merge_complete_refuted` | False in general: only the smallest partner is tried, and a partner that does not list the region holds it back although another one could be merged (refuted with records of three regions; no field of spans with these records was built). Proved: such a smallest partner is the only reason, so merging is complete where partners list each other; for partitions of well-formed fields the passes end. |
| C175 Joining a hole to the outline | proved | `Recast.holeMerge_edges`, `Recast.holeMerge_area`, `Recast.holeMerge_additive`, `Recast.leftmost_spec`, `Recast.holeLess_order`, `Recast.holeLess_iff` | Unbounded integers; indices within the contours. |
| C176 The bridge between a hole and the outline | partial | `Recast.bridge_clear_partial`, `Recast.bridge_nearest_partial`, `Recast.bridge_only_zero_refuted`, `Recast.bridge_missed_refuted` | False: the whole table is sorted, so its unused entries (vertex 0, distance 0) come first and in the first round only vertex 0 of the outline is tried (refuted for any sorting function, with a U-shaped outline where the free nearest bridge is missed). Proved: a bridge found crosses no remaining hole and no outline edge apart from those at the vertex of entry number i of the table; with a table as long as the candidates the nearest free candidate is found. One round for one corner; a later corner may still find a bridge from entries left in the table. |
| C177 Holes end up in the outline | partial | `Recast.holes_joined`, `Recast.holes_area`, `Recast.holes_runs_partial` | The effects are proved for all runs that return. That the function returns is proved unless there are many holes with few vertices: each hole joined adds two vertices more than the table of candidates has room for, so a panic is not excluded there. Unbounded integers; any sorting function. |
| C178 Least extent of a polygon | proved | `Recast.extent_iff`, `Recast.extent_nonneg`, `Recast.extent_convex` | The square, before the square root, in exact arithmetic and below MaxFloat32. |

<!-- status:end -->
