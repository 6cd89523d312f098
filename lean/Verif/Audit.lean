/-
Prints the axioms of every theorem claimed in MANIFEST.json (generated; see DESIGN.md).
-/
import Verif.Common.Chain
import Verif.Common.EscapeTree
import Verif.Common.Vec
import Verif.Detour.AnyAngle
import Verif.Detour.Bits
import Verif.Detour.BvTree
import Verif.Detour.Cheapest
import Verif.Detour.ClosestPoint
import Verif.Detour.Codec
import Verif.Detour.CreateData
import Verif.Detour.FanTris
import Verif.Detour.FindPath
import Verif.Detour.FindPathHistory
import Verif.Detour.FindPathProps
import Verif.Detour.Funnel
import Verif.Detour.Geometry
import Verif.Detour.Headers
import Verif.Detour.LinkBudget
import Verif.Detour.LinkComplete
import Verif.Detour.Links
import Verif.Detour.MeshLinks
import Verif.Detour.NearestPoly
import Verif.Detour.NodePool
import Verif.Detour.NodeQueue
import Verif.Detour.PolyCenter
import Verif.Detour.PolyRef
import Verif.Detour.PortalPoints
import Verif.Detour.QueryRef
import Verif.Detour.QueryTile
import Verif.Detour.Raycast
import Verif.Detour.RaycastExact
import Verif.Detour.RefValidity
import Verif.Detour.SaveLoad
import Verif.Detour.SeamHistory
import Verif.Detour.SingleTile
import Verif.Detour.Sliced
import Verif.Detour.SlicedProps
import Verif.Detour.StraightCorners
import Verif.Detour.StraightPath
import Verif.Detour.StraightPrefix
import Verif.Detour.Stream
import Verif.Detour.TileBuild
import Verif.Detour.TileData
import Verif.Detour.TileSeam
import Verif.Detour.TileTable
import Verif.Detour.TileTableProps
import Verif.Recast.AddVertex
import Verif.Recast.Adjacency
import Verif.Recast.AgentRoom
import Verif.Recast.BuildContext
import Verif.Recast.BuildPolys
import Verif.Recast.ChunkyMesh
import Verif.Recast.ChunkySegment
import Verif.Recast.Clip
import Verif.Recast.ClipHull
import Verif.Recast.Compact
import Verif.Recast.CompactField
import Verif.Recast.Contour
import Verif.Recast.ContourCorner
import Verif.Recast.ContourError
import Verif.Recast.ContourLimits
import Verif.Recast.ContourMirror
import Verif.Recast.ContourOutline
import Verif.Recast.ContourSimplify
import Verif.Recast.ContourTrace
import Verif.Recast.DetailDelaunay
import Verif.Recast.DetailGrid
import Verif.Recast.DetailHull
import Verif.Recast.DetailOutline
import Verif.Recast.DetailSamples
import Verif.Recast.DetailStore
import Verif.Recast.Erode
import Verif.Recast.Filters
import Verif.Recast.FloorMesh
import Verif.Recast.GroundArea
import Verif.Recast.GroundCover
import Verif.Recast.Headroom
import Verif.Recast.HeightData
import Verif.Recast.HeightPatch
import Verif.Recast.HeightSeed
import Verif.Recast.HoleBridge
import Verif.Recast.HoleLoop
import Verif.Recast.HoleMerge
import Verif.Recast.Inputs
import Verif.Recast.MarkArea
import Verif.Recast.Monotone
import Verif.Recast.ObjLoad
import Verif.Recast.OpenFloor
import Verif.Recast.PointInPoly
import Verif.Recast.PolyExtent
import Verif.Recast.PolyMerge
import Verif.Recast.Portals
import Verif.Recast.RasterShift
import Verif.Recast.Rasterize
import Verif.Recast.RegionComplete
import Verif.Recast.RegionDrop
import Verif.Recast.RegionFilter
import Verif.Recast.RegionList
import Verif.Recast.RegionMerge
import Verif.Recast.RegionResult
import Verif.Recast.RemoveVertex
import Verif.Recast.SpanBits
import Verif.Recast.Spans
import Verif.Recast.TileAgree
import Verif.Recast.TileLayout
import Verif.Recast.Triangulate

#print axioms Verif.Detour.IdBits.decode_encode
#print axioms Verif.Detour.IdBits.encode_injective
#print axioms Verif.Detour.IdBits.encode_ne_zero
#print axioms Verif.Detour.IdBits.encode_decode
#print axioms Verif.Detour.IdBits.base_or
#print axioms Verif.Detour.IdBits.wf_of_init
#print axioms Verif.Detour.IdBits.encode_collision_out_of_range
#print axioms Verif.Detour.init_accepts_iff_fits_partial
#print axioms Verif.Detour.init_accepts_iff_fits_refuted
#print axioms Verif.Detour.init_accepts_huge_polys_refuted
#print axioms Verif.Detour.lutSize_pow2
#print axioms Verif.Detour.stale_ref_rejected
#print axioms Verif.Detour.salt_wraps
#print axioms Verif.Detour.lookup_history
#print axioms Verif.Detour.tileRefAt_history
#print axioms Verif.Detour.tilesAt_spec
#print axioms Verif.Detour.slots_conserved
#print axioms Verif.Detour.add_capacity
#print axioms Verif.Detour.remove_frees
#print axioms Verif.Detour.add_refused
#print axioms Verif.Detour.remove_bad_ref_partial
#print axioms Verif.Detour.remove_never_crashes_refuted
#print axioms Verif.Detour.readd_restores
#print axioms Verif.Detour.links_history
#print axioms Verif.Detour.remove_drops_links
#print axioms Verif.Detour.links_valid_refuted
#print axioms Verif.Recast.zero_sample_refuted
#print axioms Verif.Recast.detail_base
#print axioms Verif.Recast.simplify_error
#print axioms Verif.Recast.outline_spec
#print axioms Verif.Recast.edge_over_budget
#print axioms Verif.Recast.seam_partial
#print axioms Verif.Recast.swapped_opposite
#print axioms Verif.Recast.seam_refuted
#print axioms Verif.Recast.getHeight_spec
#print axioms Verif.Detour.nearest_found_partial
#print axioms Verif.Detour.nearest_least_partial
#print axioms Verif.Detour.nearest_over_partial
#print axioms Verif.Detour.nearest_single_refuted
#print axioms Verif.Detour.nearest_outside_refuted
#print axioms Verif.Detour.create_polys
#print axioms Verif.Detour.create_verts
#print axioms Verif.Detour.create_cons_partial
#print axioms Verif.Detour.create_detail_partial
#print axioms Verif.Detour.create_detail_refuted
#print axioms Verif.Detour.fan_tris
#print axioms Verif.Detour.portal_ground_partial
#print axioms Verif.Detour.portal_leave_partial
#print axioms Verif.Detour.portal_enter_exact
#print axioms Verif.Detour.portal_enter_refuted
#print axioms Verif.Detour.created_internal
#print axioms Verif.Detour.link_room_partial
#print axioms Verif.Detour.link_room_refuted
#print axioms Verif.Detour.con_room_refuted
#print axioms Verif.Detour.slice_corridor
#print axioms Verif.Detour.slice_complete
#print axioms Verif.Detour.slice_partial_best
#print axioms Verif.Detour.slice_same
#print axioms Verif.Detour.slice_tooSmall_partial
#print axioms Verif.Detour.slice_exact_fit_refuted
#print axioms Verif.Detour.internal_links
#print axioms Verif.Detour.internal_link_iff
#print axioms Verif.Detour.slice_failed_partial
#print axioms Verif.Detour.slice_invalid_partial
#print axioms Verif.Detour.slice_twice_refuted
#print axioms Verif.Detour.slice_existing
#print axioms Verif.Detour.border_links
#print axioms Verif.Detour.start_links
#print axioms Verif.Detour.end_links
#print axioms Verif.Detour.straight_order
#print axioms Verif.Detour.straight_ends_partial
#print axioms Verif.Detour.straight_hang_refuted
#print axioms Verif.Detour.straight_prefix_partial
#print axioms Verif.Detour.straight_exact_refuted
#print axioms Verif.Detour.straight_inside_partial
#print axioms Verif.Detour.straight_inside_refuted
#print axioms Verif.Recast.raw_contours_partial
#print axioms Verif.Recast.buildCompact_mutual
#print axioms Verif.Recast.lone_span_refuted
#print axioms Verif.Recast.long_outline_refuted
#print axioms Verif.Recast.raw_area_partial
#print axioms Verif.Recast.build_contours_partial
#print axioms Verif.Recast.contour_limit_refuted
#print axioms Verif.Detour.meshHeader_roundtrip
#print axioms Verif.Detour.meshHeader_roundtrip'
#print axioms Verif.Detour.meshHeader_short
#print axioms Verif.Detour.setHeader_roundtrip
#print axioms Verif.Detour.tileHeader_roundtrip
#print axioms Verif.Recast.corner_height
#print axioms Verif.Recast.shared_height_partial
#print axioms Verif.Recast.shared_height_refuted
#print axioms Verif.Recast.border_vertex_partial
#print axioms Verif.Recast.border_areas_refuted
#print axioms Verif.Recast.simplify_order
#print axioms Verif.Recast.simplify_error_partial
#print axioms Verif.Recast.simplify_error_refuted
#print axioms Verif.Recast.simplify_edges
#print axioms Verif.Recast.simplify_mirror
#print axioms Verif.Recast.exactSeg_endsNear
#print axioms Verif.Detour.raycast_corridor
#print axioms Verif.Detour.RayWalk.corridor
#print axioms Verif.Detour.raycast_fresh_partial
#print axioms Verif.Detour.raycast_stale_refuted
#print axioms Verif.Detour.raycast_cost
#print axioms Verif.Detour.rayLegs_length
#print axioms Verif.Detour.tile_roundtrip_exact
#print axioms Verif.Detour.tile_roundtrip_partial
#print axioms Verif.Detour.tile_roundtrip_refuted
#print axioms Verif.Detour.decode_toWriter
#print axioms Verif.Detour.raycast_exact_partial
#print axioms Verif.Detour.raycast_exact_refuted
#print axioms Verif.Detour.seam_internal
#print axioms Verif.Detour.raycast_terminates
#print axioms Verif.Recast.contour_convex_partial
#print axioms Verif.Recast.contour_convex_convex
#print axioms Verif.Recast.mergePolys_convex
#print axioms Verif.Recast.contour_area
#print axioms Verif.Recast.polysOfContours_fits
#print axioms Verif.Recast.canRemove_partial
#print axioms Verif.Recast.canRemove_fan_refuted
#print axioms Verif.Recast.canRemove_apart_refuted
#print axioms Verif.Recast.removeVertex_spec
#print axioms Verif.Recast.removeVertex_area_partial
#print axioms Verif.Recast.removeVertex_fan
#print axioms Verif.Recast.removeVertex_area_refuted
#print axioms Verif.Recast.removeVertex_ring_refuted
#print axioms Verif.Recast.meshOfContours_sound_partial
#print axioms Verif.Recast.meshOfContours_panic_refuted
#print axioms Verif.Detour.closestOnPoly_nearest
#print axioms Verif.Detour.closestOnPoly_over
#print axioms Verif.Detour.closestOnPoly_height
#print axioms Verif.Detour.closestOnBoundary_spec
#print axioms Verif.Detour.toWriter_size
#print axioms Verif.Detour.save_load
#print axioms Verif.Detour.closestOnCon_partial
#print axioms Verif.Detour.closestOnCon_refuted
#print axioms Verif.Detour.search_complete_partial
#print axioms Verif.Detour.search_near
#print axioms Verif.Detour.search_complete_refuted
#print axioms Verif.Detour.findNearest_partial
#print axioms Verif.Detour.findNearest_standing
#print axioms Verif.Detour.findNearest_empty_refuted
#print axioms Verif.Detour.seam_partial
#print axioms Verif.Detour.seamArea_comm
#print axioms Verif.Detour.seam_links_partial
#print axioms Verif.Detour.seam_refuted
#print axioms Verif.Detour.portal_partial
#print axioms Verif.Detour.limits_partial
#print axioms Verif.Detour.seamArea_stretch
#print axioms Verif.Detour.portal_refuted
#print axioms Verif.Detour.findPath_cheapest_partial
#print axioms Verif.Detour.findPath_cheapest_fixed
#print axioms Verif.Detour.findPath_cheapest_weights
#print axioms Verif.Detour.findPath_cheapest_refuted
#print axioms Verif.Recast.delaunay_sound
#print axioms Verif.Recast.delaunay_ends
#print axioms Verif.Recast.delaunay_area_partial
#print axioms Verif.Recast.delaunay_panic_refuted
#print axioms Verif.Recast.delaunay_area_refuted
#print axioms Verif.Recast.samples_within
#print axioms Verif.Recast.samples_needed
#print axioms Verif.Recast.samples_sound
#print axioms Verif.Recast.distTri_spec
#print axioms Verif.Recast.detail_storage
#print axioms Verif.Recast.triBytes_index
#print axioms Verif.Detour.decode_chunking_partial
#print axioms Verif.Detour.decode_chunking_refuted
#print axioms Verif.Detour.decode_eager_refuted
#print axioms Verif.Recast.triFlags_spec
#print axioms Verif.Recast.detail_corner_partial
#print axioms Verif.Recast.detail_corner_refuted
#print axioms Verif.Recast.heightData_region
#print axioms Verif.Recast.heightData_seed
#print axioms Verif.Recast.getHeights_some
#print axioms Verif.Recast.seedCenter_spec
#print axioms Verif.Recast.seedCenter_none
#print axioms Verif.Recast.seedCenter_open
#print axioms Verif.Recast.tiles_from_mesh_partial
#print axioms Verif.Recast.tiles_agree_partial
#print axioms Verif.Recast.ground_local_partial
#print axioms Verif.Recast.erode_local_refuted
#print axioms Verif.Recast.tiles_cover_partial
#print axioms Verif.Recast.tiles_cover_refuted
#print axioms Verif.Recast.tilePos_partial
#print axioms Verif.Recast.tilePos_refuted
#print axioms Verif.Detour.build_all_partial
#print axioms Verif.Detour.layout_fresh
#print axioms Verif.Detour.build_all_refuted
#print axioms Verif.Detour.rebuild_spec
#print axioms Verif.Detour.single_tile_partial
#print axioms Verif.Detour.single_refuses
#print axioms Verif.Detour.single_tile_refuted
#print axioms Verif.Detour.decode_short
#print axioms Verif.Detour.decode_foreign
#print axioms Verif.Detour.decodeTiles_short
#print axioms Verif.Recast.ground_headroom
#print axioms Verif.Recast.ground_corridor_partial
#print axioms Verif.Recast.mesh_corridor_partial
#print axioms Verif.Recast.ground_corridor_refuted
#print axioms Verif.Recast.ground_area
#print axioms Verif.Recast.ground_slope
#print axioms Verif.Recast.open_floor_partial
#print axioms Verif.Recast.open_floor_refuted
#print axioms Verif.Recast.agent_voxels
#print axioms Verif.Recast.agent_stands
#print axioms Verif.Recast.agent_room_partial
#print axioms Verif.Recast.obj_load_iff
#print axioms Verif.Recast.obj_load_partial
#print axioms Verif.Recast.obj_reload_refuted
#print axioms Verif.Recast.floor_walkable_partial
#print axioms Verif.Detour.any_corridor_partial
#print axioms Verif.Detour.any_complete
#print axioms Verif.Detour.cast_fit
#print axioms Verif.Detour.cast_meet
#print axioms Verif.Detour.any_disconnected_refuted
#print axioms Verif.Detour.any_buffer_refuted
#print axioms Verif.Detour.seams_exact
#print axioms Verif.Detour.seams_order_free
#print axioms Verif.Recast.contours_area_partial
#print axioms Verif.Recast.ground_cover_partial
#print axioms Verif.Recast.hole_covered_refuted
#print axioms Verif.Detour.poly_area_type
#print axioms Verif.Recast.segment_exact_partial
#print axioms Verif.Recast.segment_near
#print axioms Verif.Recast.segment_exact_refuted
#print axioms Verif.Recast.segment_chunks
#print axioms Verif.Recast.segment_find_partial
#print axioms Verif.Detour.query_valid_iff
#print axioms Verif.Detour.query_stale
#print axioms Verif.Detour.unsafe_valid
#print axioms Verif.Detour.unsafe_iff
#print axioms Verif.Detour.unsafe_stale
#print axioms Verif.Detour.center_mean_partial
#print axioms Verif.Detour.center_halfspace
#print axioms Verif.Detour.center_inside
#print axioms Verif.Detour.center_perm
#print axioms Verif.Detour.center_centroid_partial
#print axioms Verif.Detour.center_centroid_refuted
#print axioms Verif.Recast.distToPoly_spec
#print axioms Verif.Recast.samples_iff
#print axioms Verif.Recast.samples_nodup
#print axioms Verif.Recast.samples_clear_partial
#print axioms Verif.Recast.samples_clear_refuted
#print axioms Verif.Recast.samples_lost_refuted
#print axioms Verif.Recast.merge_complete
#print axioms Verif.Recast.merge_complete_partial
#print axioms Verif.Recast.merge_complete_refuted
#print axioms Verif.Recast.holeMerge_edges
#print axioms Verif.Recast.holeMerge_area
#print axioms Verif.Recast.holeMerge_additive
#print axioms Verif.Recast.leftmost_spec
#print axioms Verif.Recast.holeLess_order
#print axioms Verif.Recast.holeLess_iff
#print axioms Verif.Recast.bridge_clear_partial
#print axioms Verif.Recast.bridge_nearest_partial
#print axioms Verif.Recast.bridge_only_zero_refuted
#print axioms Verif.Recast.bridge_missed_refuted
#print axioms Verif.Recast.holes_joined
#print axioms Verif.Recast.holes_area
#print axioms Verif.Recast.holes_runs_partial
#print axioms Verif.Recast.extent_iff
#print axioms Verif.Recast.extent_nonneg
#print axioms Verif.Recast.extent_convex
#print axioms Verif.Detour.passFilter_iff
#print axioms Verif.Detour.passFilter_no_flags
#print axioms Verif.Detour.passFilter_exclude_mono
#print axioms Verif.Detour.passFilter_default
#print axioms Verif.Detour.status_outcome
#print axioms Verif.Detour.status_detail
#print axioms Verif.Detour.pool_is_table
#print axioms Verif.Detour.pool_injective
#print axioms Verif.Detour.findNodes_spec
#print axioms Verif.Detour.nodeIdx_roundtrip
#print axioms Verif.Detour.pool_never_panics
#print axioms Verif.Detour.pool_nil_iff
#print axioms Verif.Detour.queue_is_priority_queue
#print axioms Verif.Detour.pop_empty_panics
#print axioms Verif.Detour.findPath_corridor
#print axioms Verif.Detour.findPath_repeats
#print axioms Verif.Detour.crossSide_bound
#print axioms Verif.Detour.crossSide_four
#print axioms Verif.Detour.findPath_partial_flag
#print axioms Verif.Detour.findPath_partial_best
#print axioms Verif.Detour.findPath_terminates
#print axioms Verif.Detour.findPath_invalid
#print axioms Verif.Detour.findPath_same
#print axioms Verif.Detour.findPath_complete
#print axioms Verif.Detour.findPath_enough_nodes
#print axioms Verif.Detour.findPath_truncation
#print axioms Verif.Detour.slice_done
#print axioms Verif.Detour.slice_split
#print axioms Verif.Detour.slice_any
#print axioms Verif.Detour.slice_count
#print axioms Verif.Detour.findPath_history
#print axioms Verif.Detour.straight_fits
#print axioms Verif.Detour.straight_valid
#print axioms Verif.Detour.straight_last
#print axioms Verif.Detour.straight_cut
#print axioms Verif.Detour.straight_no_panic_partial
#print axioms Verif.Detour.straight_panic_refuted
#print axioms Verif.Detour.straight_start_partial
#print axioms Verif.Detour.straight_start_refuted
#print axioms Verif.Detour.bv_walk_exact
#print axioms Verif.Detour.bv_query_partial
#print axioms Verif.Detour.bv_query_refuted
#print axioms Verif.Detour.query_tree_batches
#print axioms Verif.Detour.query_linear_batches
#print axioms Verif.Detour.query_linear_fatal
#print axioms Verif.Detour.create_error_iff
#print axioms Verif.Detour.create_data_partial
#print axioms Verif.Detour.create_no_tree_refuted
#print axioms Verif.Detour.create_no_detail_refuted
#print axioms Verif.Detour.classify_spec
#print axioms Verif.Detour.Band.exists
#print axioms Verif.Detour.oppositeTile_involutive
#print axioms Verif.Detour.neighbour_opposite
#print axioms Verif.Detour.sides_compass
#print axioms Verif.Detour.neighbours_return
#print axioms Verif.Detour.overlapQuant_exact
#print axioms Verif.Detour.overlapQuant_symm
#print axioms Verif.Detour.overlapBounds_exact
#print axioms Verif.Detour.overlapBounds_symm
#print axioms Verif.Recast.getCon_setCon
#print axioms Verif.Recast.setCon_other_partial
#print axioms Verif.Recast.setCon_fresh_partial
#print axioms Verif.Recast.setCon_reset_partial
#print axioms Verif.Recast.setCon_refuted
#print axioms Verif.Recast.setCon_reads_back_iff
#print axioms Verif.Recast.dirFor_offsets
#print axioms Verif.Recast.offsets_dirFor
#print axioms Verif.Recast.dir_turns
#print axioms Verif.Recast.columns_canonical
#print axioms Verif.Recast.columns_cover
#print axioms Verif.Recast.columns_order_independent
#print axioms Verif.Recast.alloc_fresh
#print axioms Verif.Recast.release_spec
#print axioms Verif.Recast.addSpan_history
#print axioms Verif.Recast.lowHanging_effect
#print axioms Verif.Recast.lowHanging_outside
#print axioms Verif.Recast.lowHanging_not_idempotent
#print axioms Verif.Recast.lowHeight_effect
#print axioms Verif.Recast.lowHeight_idempotent
#print axioms Verif.Recast.ledge_effect
#print axioms Verif.Recast.ledge_only_clears
#print axioms Verif.Recast.ledge_idempotent
#print axioms Verif.Recast.ledge_border
#print axioms Verif.Recast.compact_cells_partial
#print axioms Verif.Recast.compact_cells_partition_partial
#print axioms Verif.Recast.compact_cells_refuted
#print axioms Verif.Recast.connections_partial
#print axioms Verif.Recast.connections_refuted
#print axioms Verif.Recast.erode_only_clears_partial
#print axioms Verif.Recast.erode_clears_border_partial
#print axioms Verif.Recast.erode_iff_partial
#print axioms Verif.Recast.erode_keeps_far_partial
#print axioms Verif.Recast.erode_clears_reach_partial
#print axioms Verif.Recast.erode_clears_near_partial
#print axioms Verif.Recast.erode_wraps_refuted
#print axioms Verif.Recast.erode_radius_refuted
#print axioms Verif.Recast.mark_only_partial
#print axioms Verif.Recast.mark_inside_partial
#print axioms Verif.Recast.mark_refuted
#print axioms Verif.Recast.removeAdjacent_spec
#print axioms Verif.Recast.replace_spec
#print axioms Verif.Recast.compress_spec
#print axioms Verif.Recast.maxRegions_unused_refuted
#print axioms Verif.Recast.monotone_runs_partial
#print axioms Verif.Recast.monotone_fails_iff
#print axioms Verif.Recast.partition_runs_partial
#print axioms Verif.Recast.partition_panics_refuted
#print axioms Verif.Recast.mergeHoles_partial
#print axioms Verif.Recast.holes_kept_refuted
#print axioms Verif.Recast.calcArea_neg_iff
#print axioms Verif.Recast.one_cell_hole_refuted
#print axioms Verif.Recast.removeDegenerate_partial
#print axioms Verif.Recast.removeDegenerate_sublist
#print axioms Verif.Recast.removeDegenerate_places
#print axioms Verif.Recast.removeDegenerate_refuted
#print axioms Verif.Recast.addVertex_spec
#print axioms Verif.Recast.addVertex_index
#print axioms Verif.Recast.addVertices_length
#print axioms Verif.Recast.weld_partial
#print axioms Verif.Recast.weld_below_refuted
#print axioms Verif.Recast.weld_wrap_refuted
#print axioms Verif.Recast.adjacency_mutual_partial
#print axioms Verif.Recast.adjacency_complete_partial
#print axioms Verif.Recast.adjacency_border_partial
#print axioms Verif.Recast.adjacency_wrap_refuted
#print axioms Verif.Recast.triangulate_count
#print axioms Verif.Recast.triangulate_area
#print axioms Verif.Recast.triangulate_boundary
#print axioms Verif.Recast.triangulate_convex
#print axioms Verif.Recast.merge_budget
#print axioms Verif.Recast.polyMerge_area
#print axioms Verif.Recast.mergePolys_spec
#print axioms Verif.Recast.merge_index_refuted
#print axioms Verif.Recast.chunky_partition
#print axioms Verif.Recast.chunky_degenerate
#print axioms Verif.Recast.chunks_exact
#print axioms Verif.Recast.chunks_find
#print axioms Verif.Recast.chunks_find_corner
#print axioms Verif.Recast.log_history
#print axioms Verif.Recast.resetLog_empties
#print axioms Verif.Recast.add_volume
#print axioms Verif.Recast.delete_volume
#print axioms Verif.Recast.delete_empty
#print axioms Verif.Recast.volumes_history
#print axioms Verif.Recast.divide_convex
#print axioms Verif.Recast.rasterizeTri_in_buffers
#print axioms Verif.Recast.hull_spec
#print axioms Verif.Recast.hull_area
#print axioms Verif.Recast.hull_convex
#print axioms Verif.Recast.hull_empty
#print axioms Verif.Recast.markWalkable_effect
#print axioms Verif.Recast.clearUnwalkable_effect
#print axioms Verif.Recast.mark_clear_complementary
#print axioms Verif.Detour.vert_lookup_partial
#print axioms Verif.Detour.vert_lookup_refuted
#print axioms Verif.Detour.vert_lookup_wrong_refuted
#print axioms Verif.Detour.query_tile_partial
#print axioms Verif.Detour.query_tile_full_refuted
#print axioms Verif.Detour.query_linear_panics_refuted
#print axioms Verif.Detour.query_linear_skips
#print axioms Verif.Detour.tileMeshParams_ok
#print axioms Verif.Detour.tileMeshParams_overflow
#print axioms Verif.Recast.obj_in_range
#print axioms Verif.Recast.obj_fan
#print axioms Verif.Recast.obj_kept
#print axioms Verif.Recast.calcBounds_box
#print axioms Verif.Recast.gridSize_near
#print axioms Verif.Recast.gridSize_covers_refuted
#print axioms Verif.Detour.decode_truncated_data_accepted
#print axioms Verif.Detour.status_error_single
#print axioms Verif.Detour.status_error_word
#print axioms Verif.Detour.status_error_not_failed
#print axioms Verif.Detour.status_error_inProgress_refuted
#print axioms Verif.Detour.small_pools_panic_refuted
#print axioms Verif.Detour.query_pool_partial
#print axioms Verif.Detour.valid_ref_iff
#print axioms Verif.Detour.lookup_iff_valid
#print axioms Verif.Detour.names_unique
#print axioms Verif.Detour.decode_all_tiles_refuted
#print axioms Verif.Detour.decode_all_tiles_partial
#print axioms Verif.Detour.load_refused
#print axioms Verif.Detour.add_keeps_links
#print axioms Verif.Detour.links_valid_partial
#print axioms Verif.Detour.links_have_reason
#print axioms Verif.Recast.insert_area
#print axioms Verif.Recast.lowHeight_documented_refuted
#print axioms Verif.Recast.lowHeight_documented_partial
#print axioms Verif.Recast.mutual_partial
#print axioms Verif.Recast.mutual_refuted
#print axioms Verif.Recast.rasterize_covers
#print axioms Verif.Recast.rasterTris2_eq
#print axioms Verif.Recast.rasterize_only_partial
#print axioms Verif.Recast.rasterize_border_refuted
#print axioms Verif.Detour.distPtSeg_closest
#print axioms Verif.Detour.segPoly_exact
#print axioms Verif.Detour.heightTri_spec
#print axioms Verif.Detour.heightTri_inside
#print axioms Verif.Detour.segSeg_point
#print axioms Verif.Detour.segSeg_complete
#print axioms Verif.Recast.accumulated_laps_partial
#print axioms Verif.Recast.accumulated_documented_refuted
#print axioms Verif.Recast.volume_runs_partial
#print axioms Verif.Recast.volume_panics_refuted
#print axioms Verif.Recast.volume_outside_refuted
#print axioms Verif.Recast.pointInPoly_outside
#print axioms Verif.Recast.pointInPoly_inside
#print axioms Verif.Recast.mergeTwo_spec
#print axioms Verif.Recast.canMerge_spec
#print axioms Verif.Recast.partition_pieces
#print axioms Verif.Recast.monotone_regions
#print axioms Verif.Recast.monotone_keeps
#print axioms Verif.Recast.monotone_drops_islands
#print axioms Verif.Recast.monotone_no_overlap
#print axioms Verif.Recast.portal_spec_partial
#print axioms Verif.Recast.portal_no_border
#print axioms Verif.Recast.portal_index_refuted
#print axioms Verif.Recast.portal_ambiguous_refuted
#print axioms Verif.Recast.hull_start_partial
#print axioms Verif.Recast.hull_start_refuted
