{
 "claims": [
  {
   "property": "C01",
   "status": "proved",
   "theorems": [
    "Verif.Detour.IdBits.decode_encode",
    "Verif.Detour.IdBits.encode_injective",
    "Verif.Detour.IdBits.encode_ne_zero",
    "Verif.Detour.IdBits.encode_decode",
    "Verif.Detour.IdBits.base_or",
    "Verif.Detour.IdBits.wf_of_init",
    "Verif.Detour.IdBits.encode_collision_out_of_range"
   ],
   "note": "Encode/decode of 32-bit references for every salt/tile/poly split accepted by Init; the range hypothesis is shown necessary by a collision."
  },
  {
   "property": "C02",
   "status": "partial",
   "theorems": [
    "Verif.Detour.init_accepts_iff_fits_partial",
    "Verif.Detour.init_accepts_iff_fits_refuted",
    "Verif.Detour.init_accepts_huge_polys_refuted",
    "Verif.Detour.lutSize_pow2"
   ],
   "note": "Holds while the bit counts do not wrap; the code accepts some over-budget configurations (refuted with witnesses)."
  },
  {
   "property": "C03",
   "status": "proved",
   "theorems": [
    "Verif.Detour.stale_ref_rejected",
    "Verif.Detour.salt_wraps"
   ],
   "note": "For every history without lastRef restores and fewer removals of the slot than the salt range; the exact wrap-around bound is proved (salt_wraps)."
  },
  {
   "property": "C04",
   "status": "proved",
   "theorems": [
    "Verif.Detour.lookup_history",
    "Verif.Detour.tileRefAt_history",
    "Verif.Detour.tilesAt_spec"
   ],
   "note": "Lookups refine a finite map from locations to tiles, over every history of AddTile/RemoveTile."
  },
  {
   "property": "C05",
   "status": "proved",
   "theorems": [
    "Verif.Detour.slots_conserved",
    "Verif.Detour.add_capacity",
    "Verif.Detour.remove_frees"
   ],
   "note": ""
  },
  {
   "property": "C06",
   "status": "proved",
   "theorems": [
    "Verif.Detour.add_refused"
   ],
   "note": ""
  },
  {
   "property": "C07",
   "status": "partial",
   "theorems": [
    "Verif.Detour.remove_bad_ref_partial",
    "Verif.Detour.remove_never_crashes_refuted"
   ],
   "note": "RemoveTile of a never-populated slot dereferences a nil header (refuted); otherwise bad references change nothing."
  },
  {
   "property": "C08",
   "status": "proved",
   "theorems": [
    "Verif.Detour.readd_restores"
   ],
   "note": ""
  },
  {
   "property": "C09",
   "status": "proved",
   "theorems": [
    "Verif.Detour.links_history"
   ],
   "note": "Every sequence of link creations and removals refines independent lists with a shared capacity."
  },
  {
   "property": "C10",
   "status": "partial",
   "theorems": [
    "Verif.Detour.remove_drops_links",
    "Verif.Detour.links_valid_refuted"
   ],
   "note": "Proved for tiles with layer numbers below 32; with more than 32 layers in one grid cell RemoveTile leaves dangling links (refuted by a 34-layer witness)."
  },
  {
   "property": "C100",
   "status": "partial",
   "theorems": [
    "Verif.Recast.zero_sample_refuted",
    "Verif.Recast.detail_base"
   ],
   "note": "False for 0: the hull is only filled for positive distances and the triangulation of an empty hull panics. Positive distances proved."
  },
  {
   "property": "C101",
   "status": "proved",
   "theorems": [
    "Verif.Recast.simplify_error",
    "Verif.Recast.outline_spec",
    "Verif.Recast.edge_over_budget"
   ],
   "note": "The deviation, positions and quotients are arbitrary functions; assumed: the quotient length/sampleDist is not negative and fits int32."
  },
  {
   "property": "C102",
   "status": "partial",
   "theorems": [
    "Verif.Recast.seam_partial",
    "Verif.Recast.swapped_opposite",
    "Verif.Recast.seam_refuted"
   ],
   "note": "Proved while both polygons have at most 95 vertices when they come to the edge; beyond, the vertex budget changes the number of samples on one side (refuted)."
  },
  {
   "property": "C103",
   "status": "proved",
   "theorems": [
    "Verif.Recast.getHeight_spec"
   ],
   "note": "The distance is an arbitrary function below MaxFloat32."
  },
  {
   "property": "C104",
   "status": "partial",
   "theorems": [
    "Verif.Detour.nearest_found_partial",
    "Verif.Detour.nearest_least_partial",
    "Verif.Detour.nearest_over_partial",
    "Verif.Detour.nearest_single_refuted",
    "Verif.Detour.nearest_outside_refuted"
   ],
   "note": "False: the polygon met last is dropped, so a single polygon is never found, and polygons the point is not over count as at distance 0 (refuted). Proved: the least distance among the other polygons met."
  },
  {
   "property": "C105",
   "status": "partial",
   "theorems": [
    "Verif.Detour.create_polys",
    "Verif.Detour.create_verts",
    "Verif.Detour.create_cons_partial",
    "Verif.Detour.create_detail_partial",
    "Verif.Detour.create_detail_refuted",
    "Verif.Detour.fan_tris"
   ],
   "note": "Proved up to 65536 vertices and polygons and 21845 extra detail vertices; beyond, the detail vertices are lost because vbase*3 is uint16 (refuted)."
  },
  {
   "property": "C106",
   "status": "partial",
   "theorems": [
    "Verif.Detour.portal_ground_partial",
    "Verif.Detour.portal_leave_partial",
    "Verif.Detour.portal_enter_exact",
    "Verif.Detour.portal_enter_refuted"
   ],
   "note": "Proved between ground polygons and leaving an off-mesh connection; entering one, the code takes a vertex of the polygon left (refuted)."
  },
  {
   "property": "C107",
   "status": "partial",
   "theorems": [
    "Verif.Detour.created_internal",
    "Verif.Detour.link_room_partial",
    "Verif.Detour.link_room_refuted",
    "Verif.Detour.con_room_refuted"
   ],
   "note": "False: four links are possible at a portal edge but three are reserved, and a connection leaving the tile needs three but two are reserved (both refuted with created tiles). Proved: internal links always fit, and nothing is dropped while portal edges have at most three links and connections at most two per end point."
  },
  {
   "property": "C108",
   "status": "proved",
   "theorems": [
    "Verif.Detour.slice_corridor",
    "Verif.Detour.slice_complete",
    "Verif.Detour.slice_partial_best",
    "Verif.Detour.slice_same"
   ],
   "note": "Costs as in C22; links lead to valid polygons (C80); the mesh does not change between the calls."
  },
  {
   "property": "C109",
   "status": "partial",
   "theorems": [
    "Verif.Detour.slice_tooSmall_partial",
    "Verif.Detour.slice_exact_fit_refuted"
   ],
   "note": "False for every search: a buffer exactly as long as the path is reported as too small (refuted). Proved: the flag is set exactly when the path fills the buffer."
  },
  {
   "property": "C11",
   "status": "proved",
   "theorems": [
    "Verif.Detour.internal_links",
    "Verif.Detour.internal_link_iff"
   ],
   "note": "For polygons with at least one vertex; VertCount 0 makes connectIntLinks panic (connectInt_no_verts_panics)."
  },
  {
   "property": "C110",
   "status": "partial",
   "theorems": [
    "Verif.Detour.slice_failed_partial",
    "Verif.Detour.slice_invalid_partial",
    "Verif.Detour.slice_twice_refuted"
   ],
   "note": "False: after a finalize, another one succeeds with one polygon, reference 0 (refuted). Proved: it fails after a failed search."
  },
  {
   "property": "C111",
   "status": "proved",
   "theorems": [
    "Verif.Detour.slice_existing"
   ],
   "note": "Same hypotheses as C108."
  },
  {
   "property": "C112",
   "status": "proved",
   "theorems": [
    "Verif.Detour.border_links",
    "Verif.Detour.start_links",
    "Verif.Detour.end_links"
   ],
   "note": "Geometry is any function of the mesh that does not look at links; layers below 32 as in C80."
  },
  {
   "property": "C113",
   "status": "proved",
   "theorems": [
    "Verif.Detour.straight_order"
   ],
   "note": "Any geometry oracle without infinite or NaN coordinates (a point is Approx to itself, and a triangle with twice the same corner has area 0)."
  },
  {
   "property": "C114",
   "status": "partial",
   "theorems": [
    "Verif.Detour.straight_ends_partial",
    "Verif.Detour.straight_hang_refuted"
   ],
   "note": "Proved with a quadratic bound when areas of coinciding points behave (finite vertices); with an infinite vertex the loop never ends (refuted)."
  },
  {
   "property": "C115",
   "status": "partial",
   "theorems": [
    "Verif.Detour.straight_prefix_partial",
    "Verif.Detour.straight_exact_refuted"
   ],
   "note": "The beginning is proved, and that nothing is missing without BufferTooSmall; but the flag is also set when the whole path fits exactly (refuted). The last point may differ in flags or reference (it may be merged later in the longer run)."
  },
  {
   "property": "C116",
   "status": "partial",
   "theorems": [
    "Verif.Detour.straight_inside_partial",
    "Verif.Detour.straight_inside_refuted"
   ],
   "note": "Proved over any ordered field with exact arithmetic when all portals are there and no crossings are asked for. False for a partial result: the last segment may leave the corridor (refuted). Rounding is not covered."
  },
  {
   "property": "C117",
   "status": "partial",
   "theorems": [
    "Verif.Recast.raw_contours_partial",
    "Verif.Recast.buildCompact_mutual",
    "Verif.Recast.lone_span_refuted",
    "Verif.Recast.long_outline_refuted"
   ],
   "note": "Proved for fields with mutual connections (made by BuildCompactHeightfield when 2*climb < height and columns have at most 63 spans) and regions of fewer than 10000 spans, except spans connected to no span of their region, which get no contour (refuted); the walk is cut off in a region of 10000 spans (refuted)."
  },
  {
   "property": "C118",
   "status": "partial",
   "theorems": [
    "Verif.Recast.raw_area_partial"
   ],
   "note": "As C117: lone spans are not counted."
  },
  {
   "property": "C119",
   "status": "partial",
   "theorems": [
    "Verif.Recast.build_contours_partial",
    "Verif.Recast.contour_limit_refuted"
   ],
   "note": "BuildContours panics if and only if there are more contours than MaxRegions and than 8, which a region with eight holes reaches (refuted). The simplification is an arbitrary function."
  },
  {
   "property": "C12",
   "status": "proved",
   "theorems": [
    "Verif.Detour.meshHeader_roundtrip",
    "Verif.Detour.meshHeader_roundtrip'",
    "Verif.Detour.meshHeader_short",
    "Verif.Detour.setHeader_roundtrip",
    "Verif.Detour.tileHeader_roundtrip"
   ],
   "note": "All header codecs, all field values, all buffers."
  },
  {
   "property": "C120",
   "status": "proved",
   "theorems": [
    "Verif.Recast.corner_height"
   ],
   "note": ""
  },
  {
   "property": "C121",
   "status": "partial",
   "theorems": [
    "Verif.Recast.shared_height_partial",
    "Verif.Recast.shared_height_refuted"
   ],
   "note": "Proved where the four spans are connected in a square; refuted otherwise, with a difference that addVertex does not merge."
  },
  {
   "property": "C122",
   "status": "partial",
   "theorems": [
    "Verif.Recast.border_vertex_partial",
    "Verif.Recast.border_areas_refuted"
   ],
   "note": "The regions are as stated. The areas are not compared, because region and area are combined in 16 bits (refuted)."
  },
  {
   "property": "C123",
   "status": "proved",
   "theorems": [
    "Verif.Recast.simplify_order"
   ],
   "note": "Any distance arithmetic, NaN included. Raw contours with all vertices at one place do not occur (walls are traced round whole cells)."
  },
  {
   "property": "C124",
   "status": "partial",
   "theorems": [
    "Verif.Recast.simplify_error_partial",
    "Verif.Recast.simplify_error_refuted"
   ],
   "note": "Proved in exact arithmetic when long edges are not split; splitting long edges moves the contour away from the raw one (refuted)."
  },
  {
   "property": "C125",
   "status": "proved",
   "theorems": [
    "Verif.Recast.simplify_edges"
   ],
   "note": "maxEdgeLen up to 46340, beyond which its square overflows int32."
  },
  {
   "property": "C126",
   "status": "proved",
   "theorems": [
    "Verif.Recast.simplify_mirror",
    "Verif.Recast.exactSeg_endsNear"
   ],
   "note": "For borders that end at two different places."
  },
  {
   "property": "C127",
   "status": "proved",
   "theorems": [
    "Verif.Detour.raycast_corridor",
    "Verif.Detour.RayWalk.corridor"
   ],
   "note": "Links lead to references other than 0 (C80). That the call comes back is C131."
  },
  {
   "property": "C128",
   "status": "partial",
   "theorems": [
    "Verif.Detour.raycast_fresh_partial",
    "Verif.Detour.raycast_stale_refuted"
   ],
   "note": "False: T and PathCost are not reset, so that a structure used before may report a wall as the end reached (refuted). Proved for equal T and PathCost, as in fresh structures."
  },
  {
   "property": "C129",
   "status": "proved",
   "theorems": [
    "Verif.Detour.raycast_cost",
    "Verif.Detour.rayLegs_length"
   ],
   "note": "As C127."
  },
  {
   "property": "C13",
   "status": "partial",
   "theorems": [
    "Verif.Detour.tile_roundtrip_exact",
    "Verif.Detour.tile_roundtrip_partial",
    "Verif.Detour.tile_roundtrip_refuted",
    "Verif.Detour.decode_toWriter"
   ],
   "note": "Exact image of serialize;unserialize for every consistent tile; identity when there are no off-mesh connections; false otherwise (flags/side written at offset 0 of the vertices)."
  },
  {
   "property": "C130",
   "status": "partial",
   "theorems": [
    "Verif.Detour.raycast_exact_partial",
    "Verif.Detour.raycast_exact_refuted",
    "Verif.Detour.seam_internal"
   ],
   "note": "Exact arithmetic. Proved if no edge is nearly parallel to the ray (cross product below 1e-8) without being parallel; refuted else, by a short ray. What the links say is so (Seam, proved for shared edges)."
  },
  {
   "property": "C131",
   "status": "proved",
   "theorems": [
    "Verif.Detour.raycast_terminates"
   ],
   "note": "Exact arithmetic, meshes as in C130."
  },
  {
   "property": "C132",
   "status": "partial",
   "theorems": [
    "Verif.Recast.contour_convex_partial",
    "Verif.Recast.contour_convex_convex",
    "Verif.Recast.mergePolys_convex"
   ],
   "note": "Proved for strictly convex contours, and for any contour whose triangles are all properly oriented; that ear clipping of any simple contour gives only such triangles is not proved. Up to 21845 vertices, see C58."
  },
  {
   "property": "C133",
   "status": "proved",
   "theorems": [
    "Verif.Recast.contour_area"
   ],
   "note": "That the triangulation of a convex contour finishes is in contour_convex_convex."
  },
  {
   "property": "C134",
   "status": "proved",
   "theorems": [
    "Verif.Recast.polysOfContours_fits"
   ],
   "note": "The removal of the marked vertices comes after this."
  },
  {
   "property": "C135",
   "status": "partial",
   "theorems": [
    "Verif.Recast.canRemove_partial",
    "Verif.Recast.canRemove_fan_refuted",
    "Verif.Recast.canRemove_apart_refuted"
   ],
   "note": "False in both directions (refuted): the loop over a polygon's edges compares each corner but the first with itself. Proved: a yes implies a polygon with the vertex and three edges away from it (polygons having it once)."
  },
  {
   "property": "C136",
   "status": "proved",
   "theorems": [
    "Verif.Recast.removeVertex_spec"
   ],
   "note": "For removals that do not panic; for panics see C138."
  },
  {
   "property": "C137",
   "status": "partial",
   "theorems": [
    "Verif.Recast.removeVertex_area_partial",
    "Verif.Recast.removeVertex_fan",
    "Verif.Recast.removeVertex_area_refuted",
    "Verif.Recast.removeVertex_ring_refuted"
   ],
   "note": "Proved for one open fan whose hole is triangulated to the end; refuted for two fans (ground is lost) and for a vertex inside (a polygon with a vertex twice), both let through by canRemoveVertex."
  },
  {
   "property": "C138",
   "status": "partial",
   "theorems": [
    "Verif.Recast.meshOfContours_sound_partial",
    "Verif.Recast.meshOfContours_panic_refuted"
   ],
   "note": "Panics if three triangles touch in a border vertex (refuted). All else proved for builds that do not panic."
  },
  {
   "property": "C139",
   "status": "proved",
   "theorems": [
    "Verif.Detour.closestOnPoly_nearest",
    "Verif.Detour.closestOnPoly_over",
    "Verif.Detour.closestOnPoly_height",
    "Verif.Detour.closestOnBoundary_spec"
   ],
   "note": "In exact arithmetic."
  },
  {
   "property": "C14",
   "status": "proved",
   "theorems": [
    "Verif.Detour.toWriter_size",
    "Verif.Detour.decode_toWriter",
    "Verif.Detour.save_load"
   ],
   "note": "save_load closes the loop with the modelled Init/AddTile for every reachable mesh of tiles without off-mesh connections."
  },
  {
   "property": "C140",
   "status": "partial",
   "theorems": [
    "Verif.Detour.closestOnCon_partial",
    "Verif.Detour.closestOnCon_refuted"
   ],
   "note": "Between the ends, but not the nearest point (refuted): the ratio of the distances to the ends is used."
  },
  {
   "property": "C141",
   "status": "partial",
   "theorems": [
    "Verif.Detour.search_complete_partial",
    "Verif.Detour.search_near",
    "Verif.Detour.search_complete_refuted"
   ],
   "note": "Proved for search boxes that reach into the tile (half-open cell); refuted for boxes that only touch its upper border. Handed over: polygons less than three tree cells from the search box cut to the tile, and perhaps polygon 0."
  },
  {
   "property": "C142",
   "status": "partial",
   "theorems": [
    "Verif.Detour.findNearest_partial",
    "Verif.Detour.findNearest_standing",
    "Verif.Detour.findNearest_empty_refuted"
   ],
   "note": "Nearest of all polygons that meet the search box: proved. That nothing is found if it meets none: refuted, as the search box is cut to the box of each tile."
  },
  {
   "property": "C143",
   "status": "partial",
   "theorems": [
    "Verif.Detour.seam_partial",
    "Verif.Detour.seamArea_comm",
    "Verif.Detour.seam_links_partial",
    "Verif.Detour.seam_refuted"
   ],
   "note": "Proved with twice the climb: the code compares with (2*WalkableClimb)^2, so that edges up to twice the climb apart are linked (refuted for the climb itself). In exact arithmetic, for the four sides CreateNavMeshData makes."
  },
  {
   "property": "C144",
   "status": "partial",
   "theorems": [
    "Verif.Detour.portal_partial",
    "Verif.Detour.limits_partial",
    "Verif.Detour.seamArea_stretch",
    "Verif.Detour.portal_refuted"
   ],
   "note": "Both ends of the portal are less than 1/255 of the edge before those of the shared stretch, and exact where the stretch ends with the edge. Refuted as stated: rounding goes towards the start of the edge, and the portal of a short stretch of a long edge can miss it altogether."
  },
  {
   "property": "C145",
   "status": "partial",
   "theorems": [
    "Verif.Detour.findPath_cheapest_partial",
    "Verif.Detour.findPath_cheapest_fixed",
    "Verif.Detour.findPath_cheapest_weights",
    "Verif.Detour.findPath_cheapest_refuted"
   ],
   "note": "Proved in exact arithmetic for meshes of one tile when every polygon is placed where the search first entered it; outright when costs depend on the polygons only or the entering edge does not matter. Refuted when each corridor is measured over its own midpoints: a polygon keeps the position of its first visit."
  },
  {
   "property": "C146",
   "status": "proved",
   "theorems": [
    "Verif.Recast.delaunay_sound",
    "Verif.Recast.delaunay_ends"
   ],
   "note": "In exact arithmetic, distances compared by squares."
  },
  {
   "property": "C147",
   "status": "partial",
   "theorems": [
    "Verif.Recast.delaunay_area_partial",
    "Verif.Recast.delaunay_panic_refuted",
    "Verif.Recast.delaunay_area_refuted"
   ],
   "note": "Refuted: four points inside a triangle can make delaunayHull panic at a dangling face (\"untested\"), or return overlapping triangles. Proved when every face is entered at three sides and only the outline is left outside."
  },
  {
   "property": "C148",
   "status": "proved",
   "theorems": [
    "Verif.Recast.samples_within",
    "Verif.Recast.samples_needed",
    "Verif.Recast.samples_sound",
    "Verif.Recast.distTri_spec"
   ],
   "note": "In exact arithmetic, whenever the triangulation returns (C147: it may panic)."
  },
  {
   "property": "C149",
   "status": "proved",
   "theorems": [
    "Verif.Recast.detail_storage",
    "Verif.Recast.triBytes_index"
   ],
   "note": "The detail of each polygon is given."
  },
  {
   "property": "C15",
   "status": "partial",
   "theorems": [
    "Verif.Detour.decode_chunking_partial",
    "Verif.Detour.decode_chunking_refuted",
    "Verif.Detour.decode_eager_refuted",
    "Verif.Detour.decode_toWriter"
   ],
   "note": "False for files with tiles: a single Read per tile. Proved for tile-less files and for one-piece readers."
  },
  {
   "property": "C150",
   "status": "proved",
   "theorems": [
    "Verif.Recast.triFlags_spec"
   ],
   "note": "In exact arithmetic."
  },
  {
   "property": "C151",
   "status": "partial",
   "theorems": [
    "Verif.Recast.detail_corner_partial",
    "Verif.Recast.detail_corner_refuted"
   ],
   "note": "Proved for indices below 21846. Refuted beyond: the product of index and 3 is a uint16 and wraps around. The same product stands in BuildPolyMesh (portal edges), seedArrayWithPolyCenter, createBVTree, connectExtLinks, ClosestPointOnPolyBoundary and Raycast."
  },
  {
   "property": "C152",
   "status": "proved",
   "theorems": [
    "Verif.Recast.heightData_region",
    "Verif.Recast.heightData_seed",
    "Verif.Recast.getHeights_some"
   ],
   "note": "Spans of height 0xffff are excluded: it is the mark of a missing height."
  },
  {
   "property": "C153",
   "status": "proved",
   "theorems": [
    "Verif.Recast.seedCenter_spec",
    "Verif.Recast.seedCenter_none",
    "Verif.Recast.seedCenter_open"
   ],
   "note": "Corners are given by their coordinates; the product of index and 3 with which they are read is C151."
  },
  {
   "property": "C154",
   "status": "partial",
   "theorems": [
    "Verif.Recast.tiles_from_mesh_partial",
    "Verif.Recast.tiles_agree_partial",
    "Verif.Recast.ground_local_partial",
    "Verif.Recast.erode_local_refuted"
   ],
   "note": "Proved for tiles of at most 127 cells with their border and columns of at most 255 spans, in exact arithmetic. Refuted for larger heightfields: the distances of the erosion wrap, so ground far from any edge is cleared in a field of 260 by 260 cells and kept in one of 127 by 127."
  },
  {
   "property": "C155",
   "status": "partial",
   "theorems": [
    "Verif.Recast.tiles_cover_partial",
    "Verif.Recast.tiles_cover_refuted"
   ],
   "note": "Proved but for the last half cell of each axis, in exact arithmetic and for whole tile sizes. Refuted in full: CalcGridSize rounds to nearest, so with bounds of 8.4 cells and tiles of 8 cells the last 0.4 cells are over no tile that is built."
  },
  {
   "property": "C156",
   "status": "partial",
   "theorems": [
    "Verif.Recast.tilePos_partial",
    "Verif.Recast.tilePos_refuted"
   ],
   "note": "Proved for positions not before the lower bounds, with an exact description of the others. Refuted in full: the conversion truncates towards zero, so a position less than a tile before the bounds is taken to be in the first tile, which RemoveTile then removes."
  },
  {
   "property": "C157",
   "status": "partial",
   "theorems": [
    "Verif.Detour.build_all_partial",
    "Verif.Detour.layout_fresh",
    "Verif.Detour.build_all_refuted"
   ],
   "note": "Proved for up to 16384 locations with data (and the layout for any number). Refuted in full: tileBits is capped at 14, and with more tiles AddTile ends the process."
  },
  {
   "property": "C158",
   "status": "proved",
   "theorems": [
    "Verif.Detour.rebuild_spec"
   ],
   "note": "For every mesh reached by adding and removing tiles, all salts not 0: proved to be kept by every step but AddTile with a lastRef whose salt is 0."
  },
  {
   "property": "C159",
   "status": "partial",
   "theorems": [
    "Verif.Detour.single_tile_partial",
    "Verif.Detour.single_refuses",
    "Verif.Detour.single_tile_refuted"
   ],
   "note": "Proved for flags 0 and 1 to 2^24 polygons (refusals for all data). Refuted in full: the flags are passed on as the last reference, so with flag 1 a tile gets salt 0 and its first polygon the null reference."
  },
  {
   "property": "C16",
   "status": "proved",
   "theorems": [
    "Verif.Detour.decode_short",
    "Verif.Detour.decode_foreign",
    "Verif.Detour.decodeTiles_short"
   ],
   "note": "Under every chunking of the stream."
  },
  {
   "property": "C160",
   "status": "proved",
   "theorems": [
    "Verif.Recast.ground_headroom"
   ],
   "note": "In exact arithmetic, for points strictly inside the cell and inside the bounds of the grid (points outside are clipped away)."
  },
  {
   "property": "C161",
   "status": "partial",
   "theorems": [
    "Verif.Recast.ground_corridor_partial",
    "Verif.Recast.mesh_corridor_partial",
    "Verif.Recast.ground_corridor_refuted"
   ],
   "note": "Proved for radii up to 127 cells, fields of any size, and columns of up to 255 spans. Refuted in full: a radius of 128 erodes nothing."
  },
  {
   "property": "C162",
   "status": "proved",
   "theorems": [
    "Verif.Recast.ground_area",
    "Verif.Recast.ground_slope"
   ],
   "note": "In exact arithmetic. The normal of a triangle is a parameter (none when it is not a number), as in C65."
  },
  {
   "property": "C163",
   "status": "partial",
   "theorems": [
    "Verif.Recast.open_floor_partial",
    "Verif.Recast.open_floor_refuted"
   ],
   "note": "Proved for fields of at most 127 rows or columns, radii up to 127, height + climb up to 255 voxels with climb below height, and columns of up to 63 spans. Refuted in full: from a height of 256 voxels on nothing is connected, since open heights are capped at 255, so everything is eroded."
  },
  {
   "property": "C164",
   "status": "partial",
   "theorems": [
    "Verif.Recast.agent_voxels",
    "Verif.Recast.agent_stands",
    "Verif.Recast.agent_room_partial"
   ],
   "note": "In exact arithmetic, for agents whose radius is not negative. The settings and headroom are proved in full, the room around for radii up to 127 cells and columns of up to 255 spans (ground_corridor_refuted shows that larger radii erode nothing)."
  },
  {
   "property": "C165",
   "status": "partial",
   "theorems": [
    "Verif.Recast.obj_load_iff",
    "Verif.Recast.obj_load_partial",
    "Verif.Recast.obj_reload_refuted"
   ],
   "note": "Proved for loaders without triangles, in exact arithmetic with any square root; what Load does on any other loader is proved exactly (obj_load_iff). Refuted in full: a second Load on the same loader keeps the triangles of the first file and panics if the second has fewer vertices."
  },
  {
   "property": "C166",
   "status": "partial",
   "theorems": [
    "Verif.Recast.floor_walkable_partial",
    "Verif.Recast.open_floor_refuted"
   ],
   "note": "In exact arithmetic, with the limits of C163: grids of at most 127 rows or columns, radii up to 127, height + climb up to 255 voxels with climb below height, columns of up to 63 spans."
  },
  {
   "property": "C167",
   "status": "partial",
   "theorems": [
    "Verif.Detour.any_corridor_partial",
    "Verif.Detour.any_complete",
    "Verif.Detour.cast_fit",
    "Verif.Detour.cast_meet",
    "Verif.Detour.any_disconnected_refuted",
    "Verif.Detour.any_buffer_refuted"
   ],
   "note": "Proved when rays to the place where a polygon is entered end in that polygon or a neighbour of it; that they do is proved for rays cast by Raycast in exact arithmetic over convex polygons with no floors above each other where polygons are entered. Refuted in full: with a floor above, the path is not connected; with a buffer too small for the path, the call may panic."
  },
  {
   "property": "C168",
   "status": "proved",
   "theorems": [
    "Verif.Detour.seams_exact",
    "Verif.Detour.seams_order_free"
   ],
   "note": "Ground polygons; links back to off-mesh connections (edge 0xff) are left out. Layers below 32. A contact is an arbitrary function of the two tiles."
  },
  {
   "property": "C169",
   "status": "partial",
   "theorems": [
    "Verif.Recast.contours_area_partial",
    "Verif.Recast.ground_cover_partial",
    "Verif.Recast.hole_covered_refuted"
   ],
   "note": "False for regions with holes: the hole is never recognised (C53), the outer contour is triangulated by itself and its polygon covers the hole (hole_covered_refuted). Proved: the contours of a region next to no other region have together exactly twice the number of its spans as signed area, and its polygons too if all its contours are cut up. Exact arithmetic, maximum error 0, no splitting of long edges, before removal of tile border vertices."
  },
  {
   "property": "C17",
   "status": "proved",
   "theorems": [
    "Verif.Detour.poly_area_type"
   ],
   "note": ""
  },
  {
   "property": "C170",
   "status": "partial",
   "theorems": [
    "Verif.Recast.segment_exact_partial",
    "Verif.Recast.segment_near",
    "Verif.Recast.segment_exact_refuted",
    "Verif.Recast.segment_chunks",
    "Verif.Recast.segment_find_partial"
   ],
   "note": "False for segments that change in a coordinate by less than EPSILON: only the start decides then, and a segment that ends in the rectangle is missed (segment_exact_refuted). Proved: exact for all other segments, right up to EPSILON for all; the walk finds exactly the leaves that pass the test. Exact arithmetic; the standard library sort is any permutation; panics exactly if the result, cut off at maxIds, does not fit the buffer."
  },
  {
   "property": "C171",
   "status": "proved",
   "theorems": [
    "Verif.Detour.query_valid_iff",
    "Verif.Detour.query_stale",
    "Verif.Detour.unsafe_valid",
    "Verif.Detour.unsafe_iff",
    "Verif.Detour.unsafe_stale"
   ],
   "note": "As C76 for meshes whose references use all 32 bits, as Init arranges unless both counts are 1 (query_valid_iff only); query_stale with the bound of C03 on the number of removals. Standard filter."
  },
  {
   "property": "C172",
   "status": "partial",
   "theorems": [
    "Verif.Detour.center_mean_partial",
    "Verif.Detour.center_halfspace",
    "Verif.Detour.center_inside",
    "Verif.Detour.center_perm",
    "Verif.Detour.center_centroid_partial",
    "Verif.Detour.center_centroid_refuted"
   ],
   "note": "False: the result is the mean of the vertices, which for a convex trapezoid is not the centroid (center_centroid_refuted), and indices from 21845 on wrap (C66). Proved for smaller indices: it is the mean, strictly inside of each edge, the same for any order of the vertices, and the centroid of parallelograms. Exact arithmetic."
  },
  {
   "property": "C173",
   "status": "partial",
   "theorems": [
    "Verif.Recast.distToPoly_spec",
    "Verif.Recast.samples_iff",
    "Verif.Recast.samples_nodup",
    "Verif.Recast.samples_clear_partial",
    "Verif.Recast.samples_clear_refuted",
    "Verif.Recast.samples_lost_refuted"
   ],
   "note": "False: the squared distance is compared with half of sampleDist, so samples that are too close are kept for large spacings and others lost for small ones (both refuted). Proved: the samples are exactly the grid points that the crossing test has inside with a squared distance of at least half of sampleDist, each once, none lost by the bounds of the loops; for spacings up to 2 they keep the distance asked for. Exact arithmetic."
  },
  {
   "property": "C174",
   "status": "partial",
   "theorems": [
    "Verif.Recast.merge_complete",
    "Verif.Recast.merge_complete_partial",
    "Verif.Recast.merge_complete_refuted"
   ],
   "note": "False in general: only the smallest partner is tried, and a partner that does not list the region holds it back although another one could be merged (refuted with records of three regions; no field of spans with these records was built). Proved: such a smallest partner is the only reason, so merging is complete where partners list each other; for partitions of well-formed fields the passes end."
  },
  {
   "property": "C175",
   "status": "proved",
   "theorems": [
    "Verif.Recast.holeMerge_edges",
    "Verif.Recast.holeMerge_area",
    "Verif.Recast.holeMerge_additive",
    "Verif.Recast.leftmost_spec",
    "Verif.Recast.holeLess_order",
    "Verif.Recast.holeLess_iff"
   ],
   "note": "Unbounded integers; indices within the contours."
  },
  {
   "property": "C176",
   "status": "partial",
   "theorems": [
    "Verif.Recast.bridge_clear_partial",
    "Verif.Recast.bridge_nearest_partial",
    "Verif.Recast.bridge_only_zero_refuted",
    "Verif.Recast.bridge_missed_refuted"
   ],
   "note": "False: the whole table is sorted, so its unused entries (vertex 0, distance 0) come first and in the first round only vertex 0 of the outline is tried (refuted for any sorting function, with a U-shaped outline where the free nearest bridge is missed). Proved: a bridge found crosses no remaining hole and no outline edge apart from those at the vertex of entry number i of the table; with a table as long as the candidates the nearest free candidate is found. One round for one corner; a later corner may still find a bridge from entries left in the table."
  },
  {
   "property": "C177",
   "status": "partial",
   "theorems": [
    "Verif.Recast.holes_joined",
    "Verif.Recast.holes_area",
    "Verif.Recast.holes_runs_partial"
   ],
   "note": "The effects are proved for all runs that return. That the function returns is proved unless there are many holes with few vertices: each hole joined adds two vertices more than the table of candidates has room for, so a panic is not excluded there. Unbounded integers; any sorting function."
  },
  {
   "property": "C178",
   "status": "proved",
   "theorems": [
    "Verif.Recast.extent_iff",
    "Verif.Recast.extent_nonneg",
    "Verif.Recast.extent_convex"
   ],
   "note": "The square, before the square root, in exact arithmetic and below MaxFloat32."
  },
  {
   "property": "C18",
   "status": "proved",
   "theorems": [
    "Verif.Detour.passFilter_iff",
    "Verif.Detour.passFilter_no_flags",
    "Verif.Detour.passFilter_exclude_mono",
    "Verif.Detour.passFilter_default"
   ],
   "note": ""
  },
  {
   "property": "C19",
   "status": "proved",
   "theorems": [
    "Verif.Detour.status_outcome",
    "Verif.Detour.status_detail"
   ],
   "note": ""
  },
  {
   "property": "C20",
   "status": "proved",
   "theorems": [
    "Verif.Detour.pool_is_table",
    "Verif.Detour.pool_injective",
    "Verif.Detour.findNodes_spec",
    "Verif.Detour.nodeIdx_roundtrip"
   ],
   "note": ""
  },
  {
   "property": "C21",
   "status": "proved",
   "theorems": [
    "Verif.Detour.pool_never_panics",
    "Verif.Detour.pool_nil_iff"
   ],
   "note": ""
  },
  {
   "property": "C22",
   "status": "proved",
   "theorems": [
    "Verif.Detour.queue_is_priority_queue",
    "Verif.Detour.pop_empty_panics"
   ],
   "note": "Every sequence of push/pop/modify within capacity refines a multiset priority queue."
  },
  {
   "property": "C23",
   "status": "proved",
   "theorems": [
    "Verif.Detour.findPath_corridor",
    "Verif.Detour.findPath_repeats",
    "Verif.Detour.crossSide_bound",
    "Verif.Detour.crossSide_four"
   ],
   "note": ""
  },
  {
   "property": "C24",
   "status": "proved",
   "theorems": [
    "Verif.Detour.findPath_partial_flag",
    "Verif.Detour.findPath_partial_best"
   ],
   "note": ""
  },
  {
   "property": "C25",
   "status": "proved",
   "theorems": [
    "Verif.Detour.findPath_terminates"
   ],
   "note": "For non-negative filter costs in a well-founded cost order (float32 is finite)."
  },
  {
   "property": "C26",
   "status": "proved",
   "theorems": [
    "Verif.Detour.findPath_invalid",
    "Verif.Detour.findPath_same",
    "Verif.Detour.findPath_terminates"
   ],
   "note": ""
  },
  {
   "property": "C27",
   "status": "proved",
   "theorems": [
    "Verif.Detour.findPath_complete",
    "Verif.Detour.findPath_enough_nodes",
    "Verif.Detour.findPath_partial_flag"
   ],
   "note": ""
  },
  {
   "property": "C28",
   "status": "proved",
   "theorems": [
    "Verif.Detour.findPath_truncation"
   ],
   "note": ""
  },
  {
   "property": "C29",
   "status": "proved",
   "theorems": [
    "Verif.Detour.slice_done",
    "Verif.Detour.slice_split",
    "Verif.Detour.slice_any",
    "Verif.Detour.slice_count"
   ],
   "note": "Any mesh, filter, options (any-angle included), pool and slicing."
  },
  {
   "property": "C30",
   "status": "proved",
   "theorems": [
    "Verif.Detour.findPath_history"
   ],
   "note": "Provided edgeMidPoint succeeds on linked polygons."
  },
  {
   "property": "C31",
   "status": "partial",
   "theorems": [
    "Verif.Detour.straight_fits",
    "Verif.Detour.straight_valid",
    "Verif.Detour.straight_last",
    "Verif.Detour.straight_cut",
    "Verif.Detour.straight_no_panic_partial",
    "Verif.Detour.straight_panic_refuted",
    "Verif.Detour.straight_start_partial",
    "Verif.Detour.straight_start_refuted"
   ],
   "note": "False: with crossings and a broken path the call panics when the buffer is full, and the first point loses its start flag when a portal ends at the start (both refuted). Proved: the buffer bound, the first position, the last point with flag and reference 0, the partial result, and the start flag when nothing else is within tolerance of the start."
  },
  {
   "property": "C32",
   "status": "partial",
   "theorems": [
    "Verif.Detour.bv_walk_exact",
    "Verif.Detour.bv_query_partial",
    "Verif.Detour.bv_query_refuted"
   ],
   "note": "The tree itself is exact; the header counts one node too many, so queries at the low corner of the tile report polygon 0 once more (refuted)."
  },
  {
   "property": "C33",
   "status": "proved",
   "theorems": [
    "Verif.Detour.query_tree_batches",
    "Verif.Detour.query_linear_batches",
    "Verif.Detour.query_linear_fatal"
   ],
   "note": "Tiles without a tree that contain off-mesh connections end the process (query_linear_fatal)."
  },
  {
   "property": "C34",
   "status": "partial",
   "theorems": [
    "Verif.Detour.create_error_iff",
    "Verif.Detour.create_data_partial",
    "Verif.Detour.create_no_tree_refuted",
    "Verif.Detour.create_no_detail_refuted"
   ],
   "note": "Errors: proved exactly. Data: proved with a detail mesh for every polygon and a tree; without a tree, or without detail meshes, the call always panics (refuted)."
  },
  {
   "property": "C35",
   "status": "proved",
   "theorems": [
    "Verif.Detour.classify_spec",
    "Verif.Detour.Band.exists"
   ],
   "note": "The rectangle is half-open; needs bmin <= bmax."
  },
  {
   "property": "C36",
   "status": "proved",
   "theorems": [
    "Verif.Detour.oppositeTile_involutive",
    "Verif.Detour.neighbour_opposite",
    "Verif.Detour.sides_compass",
    "Verif.Detour.neighbours_return"
   ],
   "note": ""
  },
  {
   "property": "C37",
   "status": "proved",
   "theorems": [
    "Verif.Detour.overlapQuant_exact",
    "Verif.Detour.overlapQuant_symm",
    "Verif.Detour.overlapBounds_exact",
    "Verif.Detour.overlapBounds_symm"
   ],
   "note": "Coordinates from any linear order."
  },
  {
   "property": "C38",
   "status": "partial",
   "theorems": [
    "Verif.Recast.getCon_setCon",
    "Verif.Recast.setCon_other_partial",
    "Verif.Recast.setCon_fresh_partial",
    "Verif.Recast.setCon_reset_partial",
    "Verif.Recast.setCon_refuted",
    "Verif.Recast.setCon_reads_back_iff"
   ],
   "note": "False in the pinned code: SetCon XORs the new value into the old one, so it reads back only over a zero field (refuted; exact condition proved)."
  },
  {
   "property": "C39",
   "status": "proved",
   "theorems": [
    "Verif.Recast.dirFor_offsets",
    "Verif.Recast.offsets_dirFor",
    "Verif.Recast.dir_turns"
   ],
   "note": ""
  },
  {
   "property": "C40",
   "status": "proved",
   "theorems": [
    "Verif.Recast.columns_canonical"
   ],
   "note": "Over the pointer-level model (span pool, free list, column lists)."
  },
  {
   "property": "C41",
   "status": "proved",
   "theorems": [
    "Verif.Recast.columns_cover",
    "Verif.Recast.columns_order_independent"
   ],
   "note": ""
  },
  {
   "property": "C42",
   "status": "proved",
   "theorems": [
    "Verif.Recast.alloc_fresh",
    "Verif.Recast.release_spec",
    "Verif.Recast.addSpan_history"
   ],
   "note": ""
  },
  {
   "property": "C43",
   "status": "proved",
   "theorems": [
    "Verif.Recast.lowHanging_effect",
    "Verif.Recast.lowHanging_outside",
    "Verif.Recast.lowHanging_not_idempotent"
   ],
   "note": "Exact effect per span; the filter is not idempotent."
  },
  {
   "property": "C44",
   "status": "proved",
   "theorems": [
    "Verif.Recast.lowHeight_effect",
    "Verif.Recast.lowHeight_idempotent"
   ],
   "note": "\"Too small\" is \"not more than walkableHeight\"; see C83 for the documented strict comparison."
  },
  {
   "property": "C45",
   "status": "proved",
   "theorems": [
    "Verif.Recast.ledge_effect",
    "Verif.Recast.ledge_only_clears",
    "Verif.Recast.ledge_idempotent",
    "Verif.Recast.ledge_border"
   ],
   "note": "Against an order-free specification of a ledge."
  },
  {
   "property": "C46",
   "status": "partial",
   "theorems": [
    "Verif.Recast.compact_cells_partial",
    "Verif.Recast.compact_cells_partition_partial",
    "Verif.Recast.compact_cells_refuted"
   ],
   "note": "False for columns with more than 255 walkable spans (Count is a uint8; refuted); proved otherwise."
  },
  {
   "property": "C47",
   "status": "partial",
   "theorems": [
    "Verif.Recast.connections_partial",
    "Verif.Recast.connections_refuted"
   ],
   "note": "Exact for all spans listed by their cell; a neighbour column with 256 walkable spans loses its connections (refuted)."
  },
  {
   "property": "C48",
   "status": "partial",
   "theorems": [
    "Verif.Recast.erode_only_clears_partial",
    "Verif.Recast.erode_clears_border_partial",
    "Verif.Recast.erode_iff_partial",
    "Verif.Recast.erode_keeps_far_partial",
    "Verif.Recast.erode_clears_reach_partial",
    "Verif.Recast.erode_clears_near_partial",
    "Verif.Recast.erode_wraps_refuted",
    "Verif.Recast.erode_radius_refuted"
   ],
   "note": "Radius 1..127: that everything near the border is cleared is proved for fields of any size, that nothing else is for fields of at most 127 rows or columns. The 8-bit distances wrap on larger fields (far spans are cleared; refuted) and radius >= 128 clears nothing (refuted)."
  },
  {
   "property": "C49",
   "status": "partial",
   "theorems": [
    "Verif.Recast.mark_only_partial",
    "Verif.Recast.mark_inside_partial",
    "Verif.Recast.mark_refuted"
   ],
   "note": "Nothing but the inside is marked, for every polygon. The box is taken over a third of the vertices only, so inside spans are missed (refuted); proved when that third spans the box. Exact arithmetic."
  },
  {
   "property": "C50",
   "status": "proved",
   "theorems": [
    "Verif.Recast.removeAdjacent_spec",
    "Verif.Recast.replace_spec"
   ],
   "note": ""
  },
  {
   "property": "C51",
   "status": "partial",
   "theorems": [
    "Verif.Recast.compress_spec",
    "Verif.Recast.maxRegions_unused_refuted"
   ],
   "note": "Proved for the table of region records. For the spans it is false: MaxRegions itself is never the region of a span (refuted), since the filter counts one id too many."
  },
  {
   "property": "C52",
   "status": "partial",
   "theorems": [
    "Verif.Recast.monotone_runs_partial",
    "Verif.Recast.monotone_fails_iff",
    "Verif.Recast.partition_runs_partial",
    "Verif.Recast.partition_panics_refuted"
   ],
   "note": "Below 0x7ffb spans the filter always completes, only the sweeps can fail. They never panic if every row has fewer walkable spans than max(width,height); it panics on the 1x1 field and on every field whose first row starts that many sweeps (refuted)."
  },
  {
   "property": "C53",
   "status": "partial",
   "theorems": [
    "Verif.Recast.mergeHoles_partial",
    "Verif.Recast.holes_kept_refuted",
    "Verif.Recast.calcArea_neg_iff",
    "Verif.Recast.one_cell_hole_refuted"
   ],
   "note": "False: the windings are stored in a byte compared with < 0, so no hole is ever recognised and holes stay contours of their own; a one-cell hole would not be recognised either, its area rounds to 0 (both refuted). Proved: nothing is changed or lost; the area test is right otherwise."
  },
  {
   "property": "C54",
   "status": "partial",
   "theorems": [
    "Verif.Recast.removeDegenerate_partial",
    "Verif.Recast.removeDegenerate_sublist",
    "Verif.Recast.removeDegenerate_places",
    "Verif.Recast.removeDegenerate_refuted"
   ],
   "note": "Proved when no three consecutive vertices coincide; with three the loop skips one (refuted)."
  },
  {
   "property": "C55",
   "status": "partial",
   "theorems": [
    "Verif.Recast.addVertex_spec",
    "Verif.Recast.addVertex_index",
    "Verif.Recast.addVertices_length",
    "Verif.Recast.weld_partial",
    "Verif.Recast.weld_below_refuted",
    "Verif.Recast.weld_wrap_refuted"
   ],
   "note": "The height test subtracts uint16: a vertex 1 or 2 units below is not reused and heights at opposite ends count as near (both refuted). Proved with the exact test; indices valid below 65536 vertices."
  },
  {
   "property": "C56",
   "status": "partial",
   "theorems": [
    "Verif.Recast.adjacency_mutual_partial",
    "Verif.Recast.adjacency_complete_partial",
    "Verif.Recast.adjacency_border_partial",
    "Verif.Recast.adjacency_wrap_refuted"
   ],
   "note": "Proved for meshes with at most 65535 edges from a smaller to a greater index; beyond, the 16-bit record numbers collide and edges that share one vertex only become neighbours (refuted)."
  },
  {
   "property": "C57",
   "status": "proved",
   "theorems": [
    "Verif.Recast.triangulate_count",
    "Verif.Recast.triangulate_area",
    "Verif.Recast.triangulate_boundary",
    "Verif.Recast.triangulate_convex"
   ],
   "note": "Unbounded integers."
  },
  {
   "property": "C58",
   "status": "partial",
   "theorems": [
    "Verif.Recast.merge_budget",
    "Verif.Recast.polyMerge_area",
    "Verif.Recast.mergePolys_spec",
    "Verif.Recast.merge_index_refuted"
   ],
   "note": "Proved for vertex indices below 21846; beyond, index*3 wraps in uint16 and the convexity test looks at other vertices (refuted)."
  },
  {
   "property": "C59",
   "status": "proved",
   "theorems": [
    "Verif.Recast.chunky_partition",
    "Verif.Recast.chunky_degenerate"
   ],
   "note": ""
  },
  {
   "property": "C60",
   "status": "proved",
   "theorems": [
    "Verif.Recast.chunks_exact",
    "Verif.Recast.chunks_find",
    "Verif.Recast.chunks_find_corner"
   ],
   "note": ""
  },
  {
   "property": "C61",
   "status": "proved",
   "theorems": [
    "Verif.Recast.log_history",
    "Verif.Recast.resetLog_empties"
   ],
   "note": "ResetLog does nothing while logging is disabled."
  },
  {
   "property": "C62",
   "status": "proved",
   "theorems": [
    "Verif.Recast.add_volume",
    "Verif.Recast.delete_volume",
    "Verif.Recast.delete_empty",
    "Verif.Recast.volumes_history"
   ],
   "note": "Deleting needs an existing index; on an empty store it panics. Coordinates beyond 36 are cut off, NVerts counts floats."
  },
  {
   "property": "C63",
   "status": "proved",
   "theorems": [
    "Verif.Recast.divide_convex",
    "Verif.Recast.rasterizeTri_in_buffers"
   ],
   "note": "Exact arithmetic."
  },
  {
   "property": "C64",
   "status": "proved",
   "theorems": [
    "Verif.Recast.hull_spec",
    "Verif.Recast.hull_area",
    "Verif.Recast.hull_convex",
    "Verif.Recast.hull_empty",
    "Verif.Recast.detail_base"
   ],
   "note": "Any distances, NaN included; areas in exact arithmetic. Hulls of fewer than 3 points do not occur (an empty one panics)."
  },
  {
   "property": "C65",
   "status": "proved",
   "theorems": [
    "Verif.Recast.markWalkable_effect",
    "Verif.Recast.clearUnwalkable_effect",
    "Verif.Recast.mark_clear_complementary"
   ],
   "note": "A triangle whose normal is not a number is touched by neither."
  },
  {
   "property": "C66",
   "status": "partial",
   "theorems": [
    "Verif.Detour.vert_lookup_partial",
    "Verif.Detour.vert_lookup_refuted",
    "Verif.Detour.vert_lookup_wrong_refuted"
   ],
   "note": "Proved up to vertex 21844; beyond, index*3 wraps in uint16 and the lookup panics or reads misaligned words (refuted)."
  },
  {
   "property": "C67",
   "status": "partial",
   "theorems": [
    "Verif.Detour.query_tile_partial",
    "Verif.Detour.query_tile_full_refuted",
    "Verif.Detour.query_linear_panics_refuted",
    "Verif.Detour.query_linear_skips"
   ],
   "note": "False: results start at index 1, as many hits as the buffer holds write past it, and tiles without a tree panic (refuted). Proved: what is stored otherwise."
  },
  {
   "property": "C68",
   "status": "proved",
   "theorems": [
    "Verif.Detour.tileMeshParams_ok",
    "Verif.Detour.tileMeshParams_overflow"
   ],
   "note": ""
  },
  {
   "property": "C69",
   "status": "proved",
   "theorems": [
    "Verif.Recast.obj_in_range",
    "Verif.Recast.obj_fan",
    "Verif.Recast.obj_kept"
   ],
   "note": ""
  },
  {
   "property": "C70",
   "status": "partial",
   "theorems": [
    "Verif.Recast.calcBounds_box",
    "Verif.Recast.gridSize_near",
    "Verif.Recast.gridSize_covers_refuted"
   ],
   "note": "CalcBounds proved; the grid size is rounded to nearest, so up to half a cell of the bounds may be cut off (refuted as covering)."
  },
  {
   "property": "C71",
   "status": "partial",
   "theorems": [
    "Verif.Detour.IdBits.encode_collision_out_of_range"
   ],
   "note": "AddTile has no such check; the collision of references it permits is proved."
  },
  {
   "property": "C72",
   "status": "partial",
   "theorems": [
    "Verif.Detour.decode_truncated_data_accepted"
   ],
   "note": "False in the pinned code: the missing bytes are read as zeros (refuted by witness)."
  },
  {
   "property": "C73",
   "status": "partial",
   "theorems": [
    "Verif.Detour.status_error_single",
    "Verif.Detour.status_error_word",
    "Verif.Detour.status_error_not_failed",
    "Verif.Detour.status_error_inProgress_refuted"
   ],
   "note": "False for in-progress statuses with a detail (refuted)."
  },
  {
   "property": "C74",
   "status": "partial",
   "theorems": [
    "Verif.Detour.add_capacity"
   ],
   "note": "False in the pinned code: AddTile on a full mesh ends the process (log.Fatalln) instead of returning a failure; add_capacity states exactly when."
  },
  {
   "property": "C75",
   "status": "partial",
   "theorems": [
    "Verif.Detour.small_pools_panic_refuted",
    "Verif.Detour.query_pool_partial"
   ],
   "note": "maxNodes 1..3 give a hash table of size 0 and a panic on the first search (refuted); 4..65535 proved."
  },
  {
   "property": "C76",
   "status": "proved",
   "theorems": [
    "Verif.Detour.valid_ref_iff",
    "Verif.Detour.lookup_iff_valid",
    "Verif.Detour.names_unique"
   ],
   "note": ""
  },
  {
   "property": "C77",
   "status": "partial",
   "theorems": [
    "Verif.Detour.decode_all_tiles_refuted",
    "Verif.Detour.decode_all_tiles_partial"
   ],
   "note": "False: an empty tile record ends the loop without an error (refuted)."
  },
  {
   "property": "C78",
   "status": "proved",
   "theorems": [
    "Verif.Detour.load_refused"
   ],
   "note": ""
  },
  {
   "property": "C79",
   "status": "proved",
   "theorems": [
    "Verif.Detour.add_keeps_links"
   ],
   "note": ""
  },
  {
   "property": "C80",
   "status": "partial",
   "theorems": [
    "Verif.Detour.links_valid_partial",
    "Verif.Detour.links_valid_refuted"
   ],
   "note": "Proved for layer numbers below 32, arbitrary geometry; refuted beyond 32 layers per cell."
  },
  {
   "property": "C81",
   "status": "proved",
   "theorems": [
    "Verif.Detour.links_have_reason"
   ],
   "note": ""
  },
  {
   "property": "C82",
   "status": "proved",
   "theorems": [
    "Verif.Recast.insert_area"
   ],
   "note": ""
  },
  {
   "property": "C83",
   "status": "partial",
   "theorems": [
    "Verif.Recast.lowHeight_documented_refuted",
    "Verif.Recast.lowHeight_documented_partial"
   ],
   "note": "False: a span with clearance exactly walkableHeight is cleared too."
  },
  {
   "property": "C84",
   "status": "partial",
   "theorems": [
    "Verif.Recast.mutual_partial",
    "Verif.Recast.mutual_refuted"
   ],
   "note": "Proved for 2*walkableClimb < walkableHeight on well-formed columns of at most 255 walkable spans; refuted for larger climbs."
  },
  {
   "property": "C85",
   "status": "partial",
   "theorems": [
    "Verif.Recast.rasterize_covers",
    "Verif.Recast.rasterTris2_eq",
    "Verif.Recast.rasterize_only_partial",
    "Verif.Recast.rasterize_border_refuted"
   ],
   "note": "Coverage proved (points over grid lines excepted). The converse is proved for all cells except those of the first row and column, which also receive the parts of triangles outside the grid (refuted). Exact arithmetic."
  },
  {
   "property": "C86",
   "status": "proved",
   "theorems": [
    "Verif.Detour.distPtSeg_closest"
   ],
   "note": "Exact arithmetic (any ordered field)."
  },
  {
   "property": "C87",
   "status": "proved",
   "theorems": [
    "Verif.Detour.segPoly_exact"
   ],
   "note": "Exact arithmetic; edges nearly but not exactly parallel to the segment (|d| < eps) are excluded, the code judges them by the start point."
  },
  {
   "property": "C88",
   "status": "proved",
   "theorems": [
    "Verif.Detour.heightTri_spec",
    "Verif.Detour.heightTri_inside"
   ],
   "note": "Exact arithmetic, non-degenerate triangles."
  },
  {
   "property": "C89",
   "status": "proved",
   "theorems": [
    "Verif.Detour.segSeg_point",
    "Verif.Detour.segSeg_complete"
   ],
   "note": "Exact arithmetic."
  },
  {
   "property": "C90",
   "status": "partial",
   "theorems": [
    "Verif.Recast.accumulated_laps_partial",
    "Verif.Recast.accumulated_documented_refuted"
   ],
   "note": "The sum is proved; the documented -1 is never returned (0 instead; refuted)."
  },
  {
   "property": "C91",
   "status": "partial",
   "theorems": [
    "Verif.Recast.volume_runs_partial",
    "Verif.Recast.volume_panics_refuted",
    "Verif.Recast.volume_outside_refuted"
   ],
   "note": "False: NVerts counts coordinates, so volumes of 5 or more vertices panic and smaller ones mark spans outside."
  },
  {
   "property": "C92",
   "status": "proved",
   "theorems": [
    "Verif.Recast.pointInPoly_outside",
    "Verif.Recast.pointInPoly_inside"
   ],
   "note": "Exact arithmetic."
  },
  {
   "property": "C93",
   "status": "proved",
   "theorems": [
    "Verif.Recast.mergeTwo_spec",
    "Verif.Recast.canMerge_spec"
   ],
   "note": ""
  },
  {
   "property": "C94",
   "status": "proved",
   "theorems": [
    "Verif.Recast.partition_pieces"
   ],
   "note": "Up to 0x8000 ids, beyond which ids collide with border ids."
  },
  {
   "property": "C95",
   "status": "proved",
   "theorems": [
    "Verif.Recast.monotone_regions"
   ],
   "note": "Fields of fewer than 0x7ffb spans, where no uint16 id wraps."
  },
  {
   "property": "C96",
   "status": "proved",
   "theorems": [
    "Verif.Recast.monotone_keeps",
    "Verif.Recast.monotone_drops_islands"
   ],
   "note": "Fields of fewer than 0x7ffb spans."
  },
  {
   "property": "C97",
   "status": "proved",
   "theorems": [
    "Verif.Recast.monotone_no_overlap"
   ],
   "note": "Fields of fewer than 0x7ffb spans."
  },
  {
   "property": "C98",
   "status": "partial",
   "theorems": [
    "Verif.Recast.portal_spec_partial",
    "Verif.Recast.portal_no_border",
    "Verif.Recast.portal_index_refuted",
    "Verif.Recast.portal_ambiguous_refuted"
   ],
   "note": "Proved for vertex indices below 21846; beyond, index*3 wraps (refuted). A neighbour number from 32768 on is not distinguishable from a portal (refuted)."
  },
  {
   "property": "C99",
   "status": "partial",
   "theorems": [
    "Verif.Recast.hull_start_partial",
    "Verif.Recast.hull_start_refuted"
   ],
   "note": "False: the search starts from a minimum of 0, so it always starts at the first hull point (both proved)."
  }
 ]
}