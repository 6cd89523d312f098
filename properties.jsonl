{"id": "C01", "title": "Polygon references decode to what they encode", "statement": "On a nav mesh whose tile and polygon id bits fit the 32-bit reference, building a reference from (salt, tile index, polygon index) within the configured limits and decoding it returns the same three values, so two different polygons (or two generations of a tile slot) never share a reference, and no polygon ever gets reference 0.", "quantifier": "every bit split accepted by Init and every salt/tile/polygon triple in range", "why_tests_cant": "the triple space is 2^32 per bit split and there are hundreds of bit splits", "anchors": ["/repo/detour/mesh.go encodePolyID, DecodePolyID, decodePolyIDTile, decodePolyIDSalt, decodePolyIDPoly, polyRefBase, TileRef"]}
{"id": "C02", "title": "Init accepts exactly the configurations whose references fit", "statement": "NavMesh.Init succeeds iff the id bits needed for MaxTiles and MaxPolys leave at least 8 salt bits in a 32-bit reference; it then reports bit counts whose sum is at most 32.", "quantifier": "every pair of 32-bit MaxTiles, MaxPolys values", "why_tests_cant": "2^64 parameter pairs; the failure sits in an unsigned wrap-around only reached by huge values", "anchors": ["/repo/detour/mesh.go NavMesh.Init"]}
{"id": "C03", "title": "Stale references are rejected after tile removal", "statement": "After RemoveTile, every polygon reference handed out for that tile is rejected by IsValidPolyRef/TileAndPolyByRef, also after the slot is reused, for as long as the slot has been removed fewer than 2^saltBits-1 times.", "quantifier": "every history of AddTile/RemoveTile calls and every reference issued at any point of it", "why_tests_cant": "needs all interleavings of adds and removes, and hundreds of generations", "anchors": ["/repo/detour/mesh.go RemoveTile, IsValidPolyRef, TileAndPolyByRef, TileByRef"]}
{"id": "C04", "title": "Tile lookups agree with the set of added tiles", "statement": "After any history of AddTile and RemoveTile, TileAt(x,y,layer) returns the tile added last at that location and not removed since, and nothing when there is none, whatever hash collisions occur.", "quantifier": "every history of adds/removes, every location, every table size", "why_tests_cant": "hash bucket collisions depend on locations and history; unbounded histories", "anchors": ["/repo/detour/mesh.go AddTile, RemoveTile, TileAt, TilesAt, TileRefAt, computeTileHash"]}
{"id": "C05", "title": "Tile slots are conserved", "statement": "In every reachable nav mesh each tile slot is either free (on the free list exactly once) or holds exactly one tile found under exactly one lookup bucket; adding consumes one free slot, removing frees exactly that slot; so exactly MaxTiles tiles can live at once.", "quantifier": "every history of adds/removes", "why_tests_cant": "an invariant over unbounded histories of pointer-linked lists", "anchors": ["/repo/detour/mesh.go Init, AddTile, RemoveTile"]}
{"id": "C06", "title": "Adding at an occupied location is refused without effect", "statement": "AddTile with data whose (x,y,layer) is already occupied, or whose magic or version is wrong, returns a failure status with reference 0 and leaves the mesh unchanged.", "quantifier": "every reachable mesh and every tile data", "why_tests_cant": "ranges over all mesh states", "anchors": ["/repo/detour/mesh.go AddTile"]}
{"id": "C07", "title": "Removing with a bad reference is refused without effect", "statement": "RemoveTile with reference 0, with an out-of-range tile index, or with a stale salt returns Failure|InvalidParam and changes nothing; it never crashes.", "quantifier": "every reachable mesh and every 32-bit reference", "why_tests_cant": "needs all 2^32 references on all reachable meshes", "anchors": ["/repo/detour/mesh.go RemoveTile"]}
{"id": "C08", "title": "Re-adding a tile with its old reference restores it", "statement": "RemoveTile(ref) followed by AddTile(data, lastRef=ref) while the slot is still free returns ref again, and all polygon references into that tile become valid again with the same meaning.", "quantifier": "every reachable mesh, every live tile", "why_tests_cant": "needs every free-list position the slot may occupy", "anchors": ["/repo/detour/mesh.go AddTile (lastRef branch), RemoveTile"]}
{"id": "C09", "title": "Link pool is conserved", "statement": "Inside a tile every link slot is either free or in exactly one polygon's link list, after any sequence of link creations and deletions; link creation never overwrites a live link and fails cleanly when the pool is exhausted.", "quantifier": "every sequence of link allocations/frees/unlink operations and every pool size >= 1", "why_tests_cant": "pointer-structure invariant over unbounded operation sequences", "anchors": ["/repo/detour/mesh.go allocLink, freeLink, unconnectLinks, connectIntLinks, AddTile"]}
{"id": "C10", "title": "No link to a removed tile survives", "statement": "Unconnecting a removed tile from a neighbour deletes exactly the neighbour's links that point into the removed tile and keeps all others in order; so after RemoveTile no neighbour polygon links to the removed tile.", "quantifier": "every tile, every link-list shape", "why_tests_cant": "all link-list shapes (head, middle, consecutive, last matches)", "anchors": ["/repo/detour/mesh.go unconnectLinks, RemoveTile"]}
{"id": "C11", "title": "Internal links mirror the polygon adjacency", "statement": "After AddTile each ground polygon has exactly one link per edge with an internal neighbour, pointing to that neighbour with that edge number, in increasing edge order; links are mutual iff the stored adjacency is.", "quantifier": "every tile's polygon array", "why_tests_cant": "every polygon count and adjacency table", "anchors": ["/repo/detour/mesh.go connectIntLinks"]}
{"id": "C12", "title": "Tile and mesh headers survive save/load", "statement": "Decoding the bytes written for a mesh-set header, a tile header or a tile's MeshHeader gives back every field bit for bit, including float fields with NaN payloads, and writing what was decoded gives back the bytes.", "quantifier": "every field value and every 100-byte (12+28, 8-byte) record", "why_tests_cant": "2^800 headers", "anchors": ["/repo/detour/structs.go MeshHeader.serialize, unserialize, navMeshSetHeader, NavMeshParams", "/repo/detour/tile.go navMeshTileHeader"]}
{"id": "C13", "title": "Tile contents survive save/load", "statement": "Writing a tile's data sections and reading them back yields the same vertices, polygons, links, detail meshes, BV nodes and off-mesh connections.", "quantifier": "every tile with consistent counts", "why_tests_cant": "unbounded array lengths and all field values", "anchors": ["/repo/detour/tile.go MeshTile.serialize, serializeTileData, unserialize"]}
{"id": "C14", "title": "Saving a mesh writes exactly Size() bytes", "statement": "The number of bytes ToWriter emits equals Size(), and the tile count in the header equals the number of tile records that follow.", "quantifier": "every mesh", "why_tests_cant": "every number and size of tiles", "anchors": ["/repo/detour/mesh.go ToWriter, Size"]}
{"id": "C15", "title": "Decode does not depend on how the reader chunks the bytes", "statement": "Decode(r) yields the same mesh for every io.Reader delivering the same bytes, however it splits them over Read calls.", "quantifier": "every valid file and every chunking schedule of the reader", "why_tests_cant": "all reader schedules", "anchors": ["/repo/detour/mesh.go Decode"]}
{"id": "C16", "title": "Decode rejects foreign, truncated or wrong-version input", "statement": "Decode returns an error when the stream is shorter than the set header, has a wrong magic or version, or ends inside a tile header; it never returns a mesh in these cases.", "quantifier": "every byte stream", "why_tests_cant": "all byte strings", "anchors": ["/repo/detour/mesh.go Decode"]}
{"id": "C17", "title": "Polygon area and type are independent fields", "statement": "Setting a polygon's area (<64) leaves its type unchanged and reads back as given, and vice versa, in any sequence of sets.", "quantifier": "every initial byte and every sequence of SetArea/SetType", "why_tests_cant": "unbounded sequences", "anchors": ["/repo/detour/poly.go Poly.SetArea, SetType, Area, Type"]}
{"id": "C18", "title": "Standard filter decision", "statement": "StandardQueryFilter passes a polygon iff it has at least one included flag and no excluded flag; exclusion wins; a polygon without flags never passes; the default filter passes exactly polygons with some flag.", "quantifier": "all 2^48 flag combinations", "why_tests_cant": "2^48 combinations", "anchors": ["/repo/detour/queryfilter.go PassFilter, NewStandardQueryFilter, SetIncludeFlags, SetExcludeFlags"]}
{"id": "C19", "title": "Status words carry exactly one outcome plus details", "statement": "Failure/Success/InProgress tests and detail tests of a status built by or-ing one outcome with details report exactly what was put in.", "quantifier": "every combination of outcome and detail bits", "why_tests_cant": "combinatorial, plus error-text coverage", "anchors": ["/repo/detour/status.go StatusFailed, StatusSucceed, StatusInProgress, StatusDetail, Error"]}
{"id": "C20", "title": "Search nodes are a faithful map from (polygon, state) to node", "statement": "After any sequence of node requests, asking again for the same (ref,state) yields the same node index, different keys yield different indices, lookup never invents nodes, and index->node->index round-trips; Clear forgets everything.", "quantifier": "every request sequence, any hash collisions, any pool and table size", "why_tests_cant": "hash-chained arrays under unbounded request sequences", "anchors": ["/repo/detour/node.go NodePool.Node, FindNode, FindNodes, Clear, NodeIdx, NodeAtIdx, hashRef"]}
{"id": "C21", "title": "Node pool exhaustion is reported, never overrun", "statement": "A node request returns nil iff the key is absent and maxNodes nodes are already in use; it never exceeds the pool nor indexes outside the table.", "quantifier": "every request sequence and capacity", "why_tests_cant": "needs full pools of any size", "anchors": ["/repo/detour/node.go NodePool.Node, newNodePool", "/repo/detour/query.go NewNavMeshQuery"]}
{"id": "C22", "title": "Open list is a priority queue", "statement": "After any sequence of push, pop and decrease-key the open list contains exactly the nodes pushed and not popped, and pop returns one of minimal total cost.", "quantifier": "every operation sequence and any total-order keys", "why_tests_cant": "unbounded sequences of heap operations", "anchors": ["/repo/detour/nodequeue.go push, pop, modify, bubbleUp, trickleDown"]}
{"id": "C23", "title": "FindPath returns a connected, permitted corridor", "statement": "The path returned by FindPath starts at startRef, each polygon is linked to the next in the mesh, every polygon after the first passes the filter, and no polygon repeats more often than there are search states.", "quantifier": "every link graph, filter, cost function with non-negative costs, node-pool size, buffer size", "why_tests_cant": "all graphs", "anchors": ["/repo/detour/query.go FindPath, pathToNode"]}
{"id": "C24", "title": "FindPath's PartialResult flag is truthful", "statement": "A successful FindPath without PartialResult ends at endRef (when it was not truncated); with PartialResult it ends at the visited polygon with the smallest heuristic.", "quantifier": "every link graph and query", "why_tests_cant": "all graphs", "anchors": ["/repo/detour/query.go FindPath"]}
{"id": "C25", "title": "FindPath terminates", "statement": "FindPath always returns, on any link graph including cyclic ones, for any non-negative cost function and node-pool size, and the open list never outgrows its array.", "quantifier": "every link graph and cost function", "why_tests_cant": "non-termination cannot be observed by a test", "anchors": ["/repo/detour/query.go FindPath", "/repo/detour/nodequeue.go push"]}
{"id": "C26", "title": "FindPath validates its arguments", "statement": "FindPath returns Failure|InvalidParam and count 0 for invalid start or end references or an empty path buffer, and returns [start] when start equals end.", "quantifier": "every argument combination", "why_tests_cant": "all references", "anchors": ["/repo/detour/query.go FindPath, IsValidPolyRef"]}
{"id": "C27", "title": "FindPath is complete", "statement": "If endRef can be reached from startRef over links through polygons the filter accepts and the node pool is not exhausted, FindPath's full result ends at endRef without PartialResult.", "quantifier": "every link graph", "why_tests_cant": "all graphs and all reachability relations", "anchors": ["/repo/detour/query.go FindPath"]}
{"id": "C28", "title": "Path buffer truncation keeps a prefix and says so", "statement": "When the path buffer is too small FindPath fills it with the first polygons of the full path and reports BufferTooSmall; otherwise the flag is absent.", "quantifier": "every node chain and buffer size", "why_tests_cant": "all lengths", "anchors": ["/repo/detour/query.go pathToNode"]}
{"id": "C29", "title": "Sliced search does not depend on slicing", "statement": "Running UpdateSlicedFindPath with n then m iterations leaves the same state and final result as one call with n+m; after completion further updates change nothing.", "quantifier": "every search state and every n, m", "why_tests_cant": "all schedules of calls", "anchors": ["/repo/detour/query.go UpdateSlicedFindPath"]}
{"id": "C30", "title": "Node pool reuse does not leak earlier searches", "statement": "The result of FindPath depends only on the mesh, filter and arguments, not on earlier searches done with the same query object.", "quantifier": "every history of earlier queries", "why_tests_cant": "all histories", "anchors": ["/repo/detour/query.go FindPath", "/repo/detour/node.go NodePool.Clear, Node"]}
{"id": "C31", "title": "Straight path output stays within its buffers and is well flagged", "statement": "FindStraightPath never reports more points than the buffer holds; its first point is flagged start; a result without BufferTooSmall or PartialResult ends with a point flagged end.", "quantifier": "every portal sequence, option set and buffer size", "why_tests_cant": "all corridors and buffer sizes", "anchors": ["/repo/detour/query.go FindStraightPath, appendVertex, appendPortals"]}
{"id": "C32", "title": "BV-tree query finds exactly the overlapping polygons", "statement": "For any set of boxes, traversing the built BV tree reports each leaf whose quantised box overlaps the query box exactly once and no other, and terminates.", "quantifier": "every set of boxes and every query box", "why_tests_cant": "unbounded trees and all boxes", "anchors": ["/repo/detour/navmeshcreate.go createBVTree, subdivide, calcExtends", "/repo/detour/query.go queryPolygonsInTile"]}
{"id": "C33", "title": "Polygon query delivers every hit once despite batching", "statement": "queryPolygonsInTile hands every overlapping, filter-accepted polygon to the caller's query exactly once, in order, in batches of at most 32.", "quantifier": "every number of hits", "why_tests_cant": "batch boundaries at every count", "anchors": ["/repo/detour/query.go queryPolygonsInTile"]}
{"id": "C34", "title": "CreateNavMeshData refuses unusable input", "statement": "CreateNavMeshData returns an error iff polygons have too many vertices, too many or no vertices, or no polygons; otherwise it returns data whose size equals the sum of its sections.", "quantifier": "every parameter set", "why_tests_cant": "all parameter combinations including disabled BV tree or empty detail mesh", "anchors": ["/repo/detour/navmeshcreate.go CreateNavMeshData"]}
{"id": "C35", "title": "Off-mesh end points are classified by their side of the tile", "statement": "classifyOffMeshPoint returns 'inside' iff the point lies in the tile rectangle, otherwise the one of the 8 outer sectors containing it.", "quantifier": "every point and rectangle", "why_tests_cant": "all points", "anchors": ["/repo/detour/navmeshcreate.go classifyOffMeshPoint"]}
{"id": "C36", "title": "Opposite tile side", "statement": "The opposite of the opposite of a side is the side itself, and stepping to the neighbour at a side and then at its opposite returns to the starting tile.", "quantifier": "all sides and tile coordinates", "why_tests_cant": "coordinates are unbounded", "anchors": ["/repo/detour/common.go oppositeTile", "/repo/detour/mesh.go neighbourTilesAt"]}
{"id": "C37", "title": "Bounds overlap tests are exact", "statement": "OverlapQuantBounds/OverlapBounds return true iff the two boxes share a point; they are symmetric.", "quantifier": "all boxes", "why_tests_cant": "all boxes", "anchors": ["/repo/detour/common.go OverlapQuantBounds, OverlapBounds"]}
{"id": "C38", "title": "Span connections read back as written", "statement": "SetCon(dir,i) followed by GetCon(dir) gives i, and leaves the other three directions unchanged.", "quantifier": "every span word, direction and value", "why_tests_cant": "2^24 words x 4 x 64", "anchors": ["/repo/recast/recast.go SetCon, GetCon"]}
{"id": "C39", "title": "Direction tables are consistent", "statement": "GetDirForOffset inverts GetDirOffsetX/Y, turning is cyclic, opposite directions have opposite offsets.", "quantifier": "all integer directions", "why_tests_cant": "all ints", "anchors": ["/repo/recast/recast.go GetDirOffsetX, GetDirOffsetY, GetDirForOffset"]}
{"id": "C40", "title": "Heightfield columns stay sorted and disjoint", "statement": "After any sequence of span insertions a column's spans are ordered bottom to top, non-empty, and pairwise separated by a gap.", "quantifier": "every insertion sequence", "why_tests_cant": "unbounded sequences of all overlap patterns", "anchors": ["/repo/recast/heightfield.go addSpan"]}
{"id": "C41", "title": "Heightfield columns cover exactly what was inserted", "statement": "After any sequence of insertions a cell height is solid iff one of the inserted spans covers it; so the solid geometry is independent of insertion order.", "quantifier": "every insertion sequence and permutation", "why_tests_cant": "all sequences and permutations", "anchors": ["/repo/recast/heightfield.go addSpan"]}
{"id": "C42", "title": "Span pool never aliases live spans", "statement": "Spans handed out by the heightfield's allocator are distinct from all spans still in use, whatever the alloc/free history, including pool growth.", "quantifier": "every alloc/free history", "why_tests_cant": "unbounded histories of a free list", "anchors": ["/repo/recast/heightfield.go allocSpan, freeSpan, addSpan"]}
{"id": "C43", "title": "Low-hanging obstacle filter effect", "statement": "FilterLowHangingWalkableObstacles changes only the area of unwalkable spans directly above an originally walkable span whose top is within walkableClimb, giving them that area; geometry is untouched.", "quantifier": "every column and climb", "why_tests_cant": "all columns", "anchors": ["/repo/recast/filter.go FilterLowHangingWalkableObstacles"]}
{"id": "C44", "title": "Low-height filter effect", "statement": "FilterWalkableLowHeightSpans clears exactly the spans whose clearance to the next span is too small, nothing else, and is idempotent.", "quantifier": "every column and height", "why_tests_cant": "all columns", "anchors": ["/repo/recast/filter.go FilterWalkableLowHeightSpans"]}
{"id": "C45", "title": "Ledge filter only removes, and order does not matter", "statement": "FilterLedgeSpans only turns walkable spans unwalkable, its decision for each span depends only on geometry (not on processing order), and a second run changes nothing.", "quantifier": "every heightfield", "why_tests_cant": "all heightfields", "anchors": ["/repo/recast/filter.go FilterLedgeSpans"]}
{"id": "C46", "title": "Compact heightfield keeps every walkable span once", "statement": "BuildCompactHeightfield lists the walkable spans of each column consecutively bottom-up; the cell ranges are disjoint, contiguous and cover all spans.", "quantifier": "every heightfield", "why_tests_cant": "all sizes, incl. columns with more than 255 spans", "anchors": ["/repo/recast/heightfield.go BuildCompactHeightfield, GetHeightFieldSpanCount"]}
{"id": "C47", "title": "Compact heightfield connections are sound", "statement": "Each recorded neighbour connection leads to an existing span in the adjacent cell that is low enough to step to and leaves enough headroom; and a connection is recorded whenever one of the first 63 layers qualifies.", "quantifier": "every heightfield and agent parameters", "why_tests_cant": "all heightfields", "anchors": ["/repo/recast/heightfield.go BuildCompactHeightfield"]}
{"id": "C48", "title": "Erosion removes exactly the border band", "statement": "ErodeWalkableArea never makes a span walkable, always clears border spans for radius >= 1, and keeps spans farther from any border than the radius.", "quantifier": "every compact heightfield and radius", "why_tests_cant": "fields larger than 128 cells are needed to expose 8-bit wrap", "anchors": ["/repo/recast/area.go ErodeWalkableArea"]}
{"id": "C49", "title": "Marking a convex area marks exactly the inside cells", "statement": "MarkConvexPolyArea gives the area id to every walkable span whose cell centre lies in the polygon and height range, and to no other.", "quantifier": "every polygon and field", "why_tests_cant": "all polygons", "anchors": ["/repo/recast/area.go MarkConvexPolyArea, pointInPoly"]}
{"id": "C50", "title": "Region neighbour lists have no adjacent duplicates", "statement": "Cleaning a region's boundary neighbour list terminates, leaves no two cyclically adjacent equal entries (while more than one entry remains), invents no entries and loses none.", "quantifier": "every list", "why_tests_cant": "all lists", "anchors": ["/repo/recast/region.go removeAdjacentNeighbours, replaceNeighbour"]}
{"id": "C51", "title": "Region ids are compressed", "statement": "After region filtering the surviving ids are exactly 1..MaxRegions, equal ids stay equal and different ids stay different.", "quantifier": "every region table", "why_tests_cant": "all tables", "anchors": ["/repo/recast/region.go mergeAndFilterRegions"]}
{"id": "C52", "title": "Monotone partitioning never crashes", "statement": "BuildRegionsMonotone completes for every heightfield (its row bookkeeping fits its buffers).", "quantifier": "every compact heightfield", "why_tests_cant": "needs adversarial rows as wide as the field", "anchors": ["/repo/recast/region.go BuildRegionsMonotone"]}
{"id": "C53", "title": "Outlines and holes are told apart", "statement": "BuildContours recognises holes by their winding and merges them into their outline.", "quantifier": "every contour set", "why_tests_cant": "all windings", "anchors": ["/repo/recast/contour.go BuildContours, mergeRegionHoles, calcAreaOfPolygon2D"]}
{"id": "C54", "title": "Degenerate contour segments are removed", "statement": "After simplification no contour has two consecutive vertices with the same x,z.", "quantifier": "every contour", "why_tests_cant": "all vertex lists", "anchors": ["/repo/recast/contour.go removeDegenerateSegments"]}
{"id": "C55", "title": "Welded vertices", "statement": "When building a polygon mesh a vertex is reused iff an earlier vertex has the same x,z and nearly the same height; returned indices are valid and the vertex table only grows.", "quantifier": "every vertex sequence", "why_tests_cant": "all sequences, hash collisions, asymmetric height differences", "anchors": ["/repo/recast/mesh.go addVertex, computeVertexHash"]}
{"id": "C56", "title": "Polygon adjacency is mutual", "statement": "In the built mesh, if polygon A lists B as neighbour on an edge then B lists A on the matching edge with reversed vertices.", "quantifier": "every polygon list", "why_tests_cant": "all meshes", "anchors": ["/repo/recast/mesh.go buildMeshAdjacency"]}
{"id": "C57", "title": "Triangulation preserves area and vertex set", "statement": "Triangulating an n-gon without getting stuck yields n-2 triangles over the polygon's own vertices, whose signed areas sum to the polygon's signed area.", "quantifier": "every polygon", "why_tests_cant": "all n and all vertices", "anchors": ["/repo/recast/mesh.go triangulate"]}
{"id": "C58", "title": "Merging polygons preserves area and vertex budget", "statement": "Merging two polygons along a shared edge yields na+nb-2 <= nvp vertices and a polygon whose signed area is the sum.", "quantifier": "every pair", "why_tests_cant": "all polygon pairs", "anchors": ["/repo/recast/mesh.go getPolyMergeValue, mergePolyVerts, countPolyVerts"]}
{"id": "C59", "title": "Spatial index holds every triangle exactly once", "statement": "The chunky triangle mesh puts every input triangle in exactly one leaf, no leaf exceeds the requested size, and never overruns its node array.", "quantifier": "every triangle set and chunk size", "why_tests_cant": "all sizes", "anchors": ["/repo/recast/chunkytrimesh.go createChunkyTriMesh, subdivide"]}
{"id": "C60", "title": "Spatial index query", "statement": "ChunksOverlappingRect returns exactly the leaf chunks overlapping the rectangle, in order, truncated to the buffer.", "quantifier": "every tree and rectangle", "why_tests_cant": "all trees", "anchors": ["/repo/recast/chunkytrimesh.go ChunksOverlappingRect, checkOverlapRect"]}
{"id": "C61", "title": "Build log keeps the first 1000 messages", "statement": "The build context keeps messages in order, at most 1000, drops later ones, and ResetLog empties it (when logging is enabled).", "quantifier": "every call sequence", "why_tests_cant": "unbounded call sequences", "anchors": ["/repo/recast/buildcontext.go"]}
{"id": "C62", "title": "Convex volume store", "statement": "AddConvexVolume/DeleteConvexVolume maintain a bag of at most 256 volumes: delete removes exactly the selected one.", "quantifier": "every operation sequence", "why_tests_cant": "unbounded sequences", "anchors": ["/repo/recast/inputgeom.go AddConvexVolume, DeleteConvexVolume"]}
{"id": "C63", "title": "Polygon clipping stays within its 7 vertices", "statement": "Splitting a convex polygon of at most n vertices at an axis plane yields two parts of at most n+1 vertices each, lying on their side of the plane; rasterisation therefore never overruns its scratch buffers.", "quantifier": "every polygon", "why_tests_cant": "all polygons", "anchors": ["/repo/recast/rasterization.go dividePoly, rasterizeTri"]}
{"id": "C64", "title": "Hull triangulation", "statement": "Triangulating a detail hull of n >= 3 points gives exactly n-2 triangles with hull vertices only; it terminates.", "quantifier": "every hull and every coordinates", "why_tests_cant": "all hulls; n=0 reached only through a documented configuration", "anchors": ["/repo/recast/meshdetail.go triangulateHull, buildPolyDetail"]}
{"id": "C65", "title": "Unwalkable triangles", "statement": "MarkWalkableTriangles and ClearUnwalkableTriangles are complementary: each triangle is marked walkable iff its slope is below the limit and cleared iff not; other entries are unchanged.", "quantifier": "every mesh and slope", "why_tests_cant": "all triangles", "anchors": ["/repo/recast/recast.go MarkWalkableTriangles, ClearUnwalkableTriangles"]}
{"id": "C66", "title": "Off-mesh vertex indexing covers all allowed vertices", "statement": "Geometry code that looks up polygon vertices reads the coordinates of the stored vertex index for every vertex index CreateNavMeshData accepts.", "quantifier": "all vertex indices below 0xffff", "why_tests_cant": "needs tiles with more than 21845 vertices", "anchors": ["/repo/detour/poly.go CalcPolyCenter", "/repo/detour/query.go portalPoints8, ClosestPointOnPoly", "/repo/detour/navmeshcreate.go CreateNavMeshData"]}
{"id": "C67", "title": "Mesh-level polygon query in a tile", "statement": "NavMesh.queryPolygonsInTile returns the overlapping polygons in its output slice starting at index 0 and never more than the slice holds.", "quantifier": "every tile and buffer", "why_tests_cant": "all buffer sizes", "anchors": ["/repo/detour/mesh.go queryPolygonsInTile, FindNearestPolyInTile"]}
{"id": "C68", "title": "Tile-bit budget of the tiled sample", "statement": "The tiled builder's split of 22 id bits always yields parameters that Init accepts with at least 10 salt bits.", "quantifier": "every grid size", "why_tests_cant": "all grid sizes", "anchors": ["/repo/sample/tilemesh/builder.go"]}
{"id": "C69", "title": "OBJ loader only keeps valid triangles", "statement": "Every triangle kept from an OBJ face has three in-range vertex indices, and a face with n valid vertices contributes n-2 triangles.", "quantifier": "every face and vertex count", "why_tests_cant": "all faces", "anchors": ["/repo/recast/meshloaderobj.go"]}
{"id": "C70", "title": "Grid size covers the bounds", "statement": "MarkWalkable/CalcGridSize/CalcBounds: bounds contain every vertex and are attained.", "quantifier": "every vertex list", "why_tests_cant": "all vertex lists", "anchors": ["/repo/recast/recast.go CalcBounds, CalcGridSize"]}
{"id": "C71", "title": "AddTile refuses tiles with too many polygons", "statement": "A tile whose polygon count exceeds the mesh's per-tile polygon limit is refused, so that distinct polygons of live tiles always have distinct references.", "quantifier": "every tile and every mesh parameters", "why_tests_cant": "all sizes; needs a tile over the limit", "anchors": ["/repo/detour/mesh.go AddTile, encodePolyID"]}
{"id": "C72", "title": "Truncated tile data is reported", "statement": "Decode returns an error when the stream ends before the announced tile data is complete.", "quantifier": "every truncation point and every reader behaviour", "why_tests_cant": "all truncation points", "anchors": ["/repo/detour/mesh.go Decode"]}
{"id": "C73", "title": "Status error text", "statement": "The error text of a status that carries a failure or a detail names it, for every outcome including in-progress.", "quantifier": "every status word", "why_tests_cant": "2^32 words", "anchors": ["/repo/detour/status.go Error"]}
{"id": "C74", "title": "A full mesh refuses further tiles", "statement": "AddTile on a mesh whose tile slots are all in use, or with a lastRef naming a slot that is not free, returns a failure status and leaves the mesh usable.", "quantifier": "every mesh reachable by AddTile/RemoveTile, every tile and lastRef", "why_tests_cant": "all histories and lastRef values", "anchors": ["/repo/detour/mesh.go AddTile"]}
{"id": "C75", "title": "Every documented pool size gives a working query", "statement": "A query created with any maxNodes from 1 to 65535 can run searches.", "quantifier": "every maxNodes in 1..65535", "why_tests_cant": "boundary sizes are easily missed", "anchors": ["/repo/detour/query.go NewNavMeshQuery", "/repo/detour/node.go newNodePool, Node"]}
{"id": "C76", "title": "Valid references are exactly the polygons in the mesh", "statement": "IsValidPolyRef accepts a non-zero reference exactly when it was made from the current salt of a populated slot and an index of one of its polygons; TileAndPolyByRef succeeds exactly then, without panic, and returns that polygon.", "quantifier": "every reference and every mesh reachable by AddTile/RemoveTile", "why_tests_cant": "2^32 references, all histories", "anchors": ["/repo/detour/mesh.go IsValidPolyRef, TileAndPolyByRef, encodePolyID"]}
{"id": "C77", "title": "Decode loads all announced tiles or fails", "statement": "If Decode returns no error, the mesh holds as many tiles as the file header announces.", "quantifier": "every byte stream and reader", "why_tests_cant": "all streams", "anchors": ["/repo/detour/mesh.go Decode"]}
{"id": "C78", "title": "Decode rejects files with a tile the mesh refuses", "statement": "If AddTile refuses any tile of the file (foreign magic or version, location already taken), Decode returns an error instead of a mesh with missing tiles.", "quantifier": "every file, every position of the refused tile, whatever follows it", "why_tests_cant": "all files and positions", "anchors": ["/repo/detour/mesh.go Decode, AddTile"]}
{"id": "C79", "title": "AddTile leaves existing links alone", "statement": "Adding a tile never removes or reorders a link of a polygon that was already in the mesh; the links it adds to those polygons all lead into the new tile.", "quantifier": "every history of AddTile/RemoveTile with well-formed tiles, every geometry", "why_tests_cant": "all histories, pool exhaustion included", "anchors": ["/repo/detour/mesh.go AddTile, connectExtLinks, connectExtOffMeshLinks, baseOffMeshLinks"]}
{"id": "C80", "title": "Links always lead to valid polygons", "statement": "After any history of AddTile and RemoveTile every link of every polygon carries a reference that IsValidPolyRef accepts, and building or removing links never crashes.", "quantifier": "every history, every number of layers, every geometry", "why_tests_cant": "all histories and layer counts", "anchors": ["/repo/detour/mesh.go AddTile, RemoveTile, unconnectLinks, neighbourTilesAt, TilesAt"]}
{"id": "C81", "title": "Every link has a reason", "statement": "A polygon's link always comes from one of its own edges (internal neighbour, or portal edge whose facing side is the side of the target tile) or from an off-mesh connection that starts or ends there; a one-way connection is never linked back from its end.", "quantifier": "every history of AddTile/RemoveTile with well-formed tiles, every geometry", "why_tests_cant": "all histories, tiles and geometries", "anchors": ["/repo/detour/mesh.go connectIntLinks, connectExtLinks, connectExtOffMeshLinks, baseOffMeshLinks"]}
{"id": "C82", "title": "Merged spans keep the strongest nearby area", "statement": "Inserting a span changes no span it does not touch; the merged span's area is at least the inserted one's and is that of the new span or of an absorbed span whose top is within the merge threshold; absorbed spans close to the final top cannot be downgraded.", "quantifier": "every column, span and threshold", "why_tests_cant": "all columns and thresholds, chains of merges", "anchors": ["/repo/recast/heightfield.go addSpan"]}
{"id": "C83", "title": "Low-height filter threshold as documented", "statement": "FilterWalkableLowHeightSpans clears a span if and only if the clearance above it is less than walkableHeight.", "quantifier": "every column and height", "why_tests_cant": "boundary clearance equal to the height", "anchors": ["/repo/recast/filter.go FilterWalkableLowHeightSpans"]}
{"id": "C84", "title": "Compact heightfield connections are mutual", "statement": "If a span is connected to a neighbour span in some direction, that neighbour is connected back to it in the opposite direction (erosion, region and contour building rely on it).", "quantifier": "every heightfield and agent parameters", "why_tests_cant": "all heightfields; needs stacked floors within one climb", "anchors": ["/repo/recast/heightfield.go BuildCompactHeightfield"]}
{"id": "C86", "title": "Distance from a point to a segment", "statement": "distancePtSegSqr2D returns a parameter in [0,1] and the squared distance to that point of the segment, and no point of the segment is closer (zero-length segments included).", "quantifier": "every point and segment (exact arithmetic)", "why_tests_cant": "all points and segments", "anchors": ["/repo/detour/common.go distancePtSegSqr2D, distancePtPolyEdgesSqr"]}
{"id": "C87", "title": "Segment against polygon", "statement": "IntersectSegmentPoly2D answers whether the segment meets the inner side of all edges; the two parameters delimit exactly the points inside, and the edge indices name the edges crossed there (-1 if the segment starts/ends inside).", "quantifier": "every segment and polygon whose edges are parallel to the segment or not nearly so (exact arithmetic)", "why_tests_cant": "all segments and polygons", "anchors": ["/repo/detour/common.go IntersectSegmentPoly2D"]}
{"id": "C88", "title": "Height on a detail triangle", "statement": "closestHeightPointTriangle reports exactly the points whose plane coordinates are inside the triangle up to the tolerance, with the height of the triangle's plane there.", "quantifier": "every non-degenerate triangle and point (exact arithmetic)", "why_tests_cant": "all triangles and points", "anchors": ["/repo/detour/common.go closestHeightPointTriangle"]}
{"id": "C89", "title": "Intersection of two lines", "statement": "IntersectSegSeg2D returns parameters naming the same point on both lines, and finds it whenever the lines are not nearly parallel.", "quantifier": "every pair of segments (exact arithmetic)", "why_tests_cant": "all pairs", "anchors": ["/repo/detour/common.go IntersectSegSeg2D"]}
{"id": "C90", "title": "Accumulated build times", "statement": "AccumulatedTime is the sum of the timer's start/stop laps since the last reset, and -1 if timers are disabled or the timer was never started.", "quantifier": "every sequence of timer calls and every clock", "why_tests_cant": "unbounded call sequences", "anchors": ["/repo/recast/buildcontext.go StartTimer, StopTimer, AccumulatedTime"]}
{"id": "C85", "title": "Rasterisation covers the triangles and nothing else", "statement": "After RasterizeTriangles on an empty heightfield, every point of a triangle that lies over the inside of a grid cell and inside the bounds is in a solid span of that cell's column; and every solid span of a cell is made from points of a triangle over that cell, widened to whole voxels.", "quantifier": "every mesh and grid (exact arithmetic)", "why_tests_cant": "all triangles, positions and cell sizes", "anchors": ["/repo/recast/rasterization.go RasterizeTriangles, rasterizeTri, dividePoly"]}
{"id": "C91", "title": "Stored volumes mark what they enclose", "statement": "Marking a volume that was added with AddConvexVolume, the way the builders do it, never crashes and changes no span whose cell centre lies outside the volume's polygon.", "quantifier": "every volume of 3 to 12 vertices and every heightfield (exact arithmetic)", "why_tests_cant": "all polygons, vertex counts and fields", "anchors": ["/repo/recast/inputgeom.go AddConvexVolume", "/repo/recast/area.go MarkConvexPolyArea", "/repo/sample/solomesh/builder.go", "/repo/sample/tilemesh/builder.go"]}
{"id": "C92", "title": "Point in polygon", "statement": "The point-in-polygon test answers yes for every point strictly inside a convex polygon of either orientation, and no for every point that some line separates from the polygon.", "quantifier": "every polygon and point (exact arithmetic)", "why_tests_cant": "all polygons and points, rays through vertices included", "anchors": ["/repo/recast/area.go pointInPoly", "/repo/detour/common.go distancePtPolyEdgesSqr"]}
{"id": "C93", "title": "Merging two regions", "statement": "mergeRegions gives the surviving region both regions' spans and floors and the union of their neighbours without the two ids themselves, and empties the absorbed one; canMergeWithRegion allows it only for equal areas, exactly one shared border and no stacked floors.", "quantifier": "every pair of region records", "why_tests_cant": "all neighbour lists, wrap-around positions", "anchors": ["/repo/recast/region.go mergeRegions, canMergeWithRegion, addUniqueFloorRegion"]}
{"id": "C94", "title": "Monotone regions are connected pieces of one area", "statement": "Before small regions are merged or dropped, the monotone partition gives every walkable span inside the border exactly one region, unwalkable spans none, and any two spans of one region are joined by a chain of connected spans of that region and of one area type.", "quantifier": "every compact heightfield and border size", "why_tests_cant": "all fields; sweeps merging across rows", "anchors": ["/repo/recast/region.go BuildRegionsMonotone, paintRectRegion"]}
{"id": "C95", "title": "Final regions are connected pieces of one area", "statement": "After BuildRegionsMonotone, with any limits for removing and merging regions, unwalkable spans are in no region, walkable border spans in a border region, inner spans in none or in one of 1..MaxRegions, and any two spans of one region are joined by a chain of connected spans of that region and of one area type.", "quantifier": "every compact heightfield, border size and limits", "why_tests_cant": "all fields; merges in any number of passes", "anchors": ["/repo/recast/region.go BuildRegionsMonotone, mergeAndFilterRegions, walkContour"]}
{"id": "C96", "title": "Only small isolated regions are removed", "statement": "BuildRegionsMonotone removes a walkable inner span only if its region had fewer than minRegionArea spans (never if minRegionArea is 0), and it removes every island of fewer than minRegionArea spans that does not reach the border.", "quantifier": "every compact heightfield, border size and limits", "why_tests_cant": "all fields and region graphs", "anchors": ["/repo/recast/region.go mergeAndFilterRegions"]}
{"id": "C97", "title": "Merging regions never stacks floors", "statement": "Two spans of one column end in the same region only if the partition had already put them into one region, which then was merged with no other.", "quantifier": "every compact heightfield, border size and limits", "why_tests_cant": "all layered fields and merge orders", "anchors": ["/repo/recast/region.go mergeAndFilterRegions, canMergeWithRegion"]}
{"id": "C98", "title": "Portal edges are exactly the open edges on the tile border", "statement": "In a mesh built with a border, an edge entry is marked as a portal to side d iff the edge has no neighbour and both its ends lie on side d of the tile (the first such side); all other entries are kept, and without a border nothing is marked.", "quantifier": "every mesh, every tile size", "why_tests_cant": "all vertex positions and indices, including those beyond what 16 bits can address", "anchors": ["/repo/recast/polymesh.go:266-300"]}
{"id": "C99", "title": "Hull triangulation starts from the best ear", "statement": "triangulateHull starts from the ear with the shortest perimeter, as documented.", "quantifier": "every hull", "why_tests_cant": "all hulls and distances", "anchors": ["/repo/recast/meshdetail.go:745-770"]}
{"id": "C100", "title": "Every documented sample distance works", "statement": "BuildPolyMeshDetail builds a detail mesh for every sample distance >= 0, in particular 0.", "quantifier": "every polygon and sample distance", "why_tests_cant": "all meshes; the tests use one distance", "anchors": ["/repo/recast/meshdetail.go:340", "/repo/recast/meshdetail.go:838-942"]}
{"id": "C101", "title": "Detail outlines follow the heights within the permitted error", "statement": "Each polygon edge of a detail mesh is sampled and simplified so that every dropped sample deviates at most sampleMaxError from the outline; the outline passes through the corners in order, with only samples of the edge between two corners, in order; every vertex is on it once; fixed-size buffers are never overrun.", "quantifier": "every polygon with at most 125 corners, every height patch", "why_tests_cant": "all edges, sample distances and heights; buffer limits only matter for long edges", "anchors": ["/repo/recast/meshdetail.go:803-930"]}
{"id": "C102", "title": "Detail meshes of neighbouring polygons have no seams", "statement": "Two polygons that share an edge and see the same heights along it place the same vertices on it.", "quantifier": "every pair of polygons sharing an edge", "why_tests_cant": "all combinations of edge lengths and earlier vertices of both polygons", "anchors": ["/repo/recast/meshdetail.go:830-930"]}
{"id": "C103", "title": "Detail heights come from the nearest cells", "statement": "getHeight returns the height of the point's cell; if that has none, a height from the nearest ring of cells (up to the search radius) that has any, nearest to the wanted height; otherwise it stays unset.", "quantifier": "every height patch, point and radius", "why_tests_cant": "all patches, the path of the spiral", "anchors": ["/repo/recast/meshdetail.go:185-258"]}
{"id": "C104", "title": "FindNearestPolyInTile finds the nearest polygon", "statement": "FindNearestPolyInTile returns the reference of the polygon of the tile within the search extents whose closest point is nearest to the given point, or 0 if there is none.", "quantifier": "every tile, point and extents", "why_tests_cant": "all tiles and positions; the tests query a few points of one mesh", "anchors": ["/repo/detour/mesh.go:854-898", "/repo/detour/mesh.go:901-994", "/repo/detour/mesh.go:1012-1102"]}
{"id": "C105", "title": "CreateNavMeshData keeps what it is given", "statement": "The tile holds every input polygon at its own number with its vertices, neighbours, flags and area, every vertex in world coordinates, every off-mesh connection that starts in the tile, and the detail mesh of every polygon.", "quantifier": "every accepted parameter set", "why_tests_cant": "all inputs; wrap-arounds need tens of thousands of vertices", "anchors": ["/repo/detour/navmeshcreate.go:547-925"]}
{"id": "C106", "title": "Portals lie between their two polygons", "statement": "The two points portalPoints returns between neighbouring polygons are the ends of the shared (part of the) edge; next to an off-mesh connection both are the end of the connection that touches the ground polygon.", "quantifier": "every pair of linked polygons", "why_tests_cant": "all link layouts, off-mesh connections in both directions", "anchors": ["/repo/detour/query.go:809-880"]}
{"id": "C107", "title": "A tile's link table has room for all its links", "statement": "The link table CreateNavMeshData reserves has room for every link the tile's polygons can get: internal neighbours, portals to the tiles around, off-mesh connections. No link is dropped for want of room.", "quantifier": "every created tile, every set of neighbouring tiles", "why_tests_cant": "all tiles and neighbourhoods; a missing link is silent", "anchors": ["/repo/detour/navmeshcreate.go:640-680", "/repo/detour/mesh.go:1254-1319", "/repo/detour/mesh.go:1139-1221", "/repo/detour/mesh.go:795-851"]}
{"id": "C108", "title": "Sliced search finds what can be found", "statement": "Without the any-angle option, InitSlicedFindPath followed by any updates and FinalizeSlicedFindPath neither panics nor fails for valid distinct polygons; the path is a corridor from the start polygon (as much of it as fits), PartialResult is set exactly when the corridor does not end at the end polygon, a partial path ends at the best polygon visited, and with enough iterations, however sliced, an end polygon that can be reached is found unless the node pool runs out.", "quantifier": "every mesh, filter, pool size and slicing", "why_tests_cant": "all slicings, meshes and pool sizes", "anchors": ["/repo/detour/query.go:1737-1801", "/repo/detour/query.go:1811-2031", "/repo/detour/query.go:2045-2127"]}
{"id": "C109", "title": "BufferTooSmall of a sliced search is truthful", "statement": "FinalizeSlicedFindPath sets BufferTooSmall exactly when polygons of the path are missing from the buffer (as FindPath does).", "quantifier": "every search, slicing and buffer size", "why_tests_cant": "boundary: buffer exactly as long as the path", "anchors": ["/repo/detour/query.go:2086-2117"]}
{"id": "C110", "title": "Finalizing needs a search", "statement": "FinalizeSlicedFindPath fails when there is no search to finalize: none was started, the last one failed, or it was finalized already.", "quantifier": "every state of the query", "why_tests_cant": "all call sequences", "anchors": ["/repo/detour/query.go:2045-2127"]}
{"id": "C111", "title": "A sliced search can continue an existing path", "statement": "FinalizeSlicedFindPathPartial returns the corridor from the start polygon to the last polygon of the existing path the search has visited; if it visited none, PartialResult is set and the path is the one FinalizeSlicedFindPath gives.", "quantifier": "every search, slicing and existing path", "why_tests_cant": "all slicings and existing paths", "anchors": ["/repo/detour/query.go:2144-2242"]}
{"id": "C112", "title": "AddTile links everything that touches", "statement": "When AddTile succeeds, every portal edge of the new tile is linked to the first four touching polygons of each tile in its cell or on the side the edge faces, and the portal edges of those tiles likewise to the new tile; every off-mesh connection of the new tile is linked with the polygon under its start, and every connection between the new tile and a tile around (or within it) with the polygon under its end, back only if bidirectional. A link is missing only if the link table it belongs to is full.", "quantifier": "every history of AddTile/RemoveTile, every geometry", "why_tests_cant": "all meshes and neighbourhoods; a missing link is silent", "anchors": ["/repo/detour/mesh.go:401-435", "/repo/detour/mesh.go:781-851", "/repo/detour/mesh.go:1139-1221", "/repo/detour/mesh.go:1254-1319", "/repo/detour/mesh.go:1323-1388"]}
{"id": "C113", "title": "The straight path consists of corners of the corridor, in order", "statement": "Every point FindStraightPath returns is the clamped start, an end of a portal between two consecutive polygons of the path, a crossing of such a portal (only if crossings are asked for), or the clamped end; its reference is the polygon entered there (0 at the end), and the points follow the order of the path.", "quantifier": "all meshes with finite coordinates, paths, options, buffers and roundings", "why_tests_cant": "the number of funnel histories is unbounded; references out of order would break path following silently", "anchors": ["/repo/detour/query.go:415-657", "/repo/detour/query.go:660-721", "/repo/detour/query.go:724-763"]}
{"id": "C114", "title": "FindStraightPath terminates", "statement": "FindStraightPath returns for every path, although a corner sends it back to an earlier portal.", "quantifier": "all meshes, paths, options and buffers", "why_tests_cant": "a loop that goes back needs a measure; no test shows the absence of an infinite run", "anchors": ["/repo/detour/query.go:489-640"]}
{"id": "C115", "title": "A smaller buffer gives the beginning of the same straight path", "statement": "With a smaller buffer FindStraightPath returns the first points of the path it returns with a larger one, and BufferTooSmall exactly when points are missing.", "quantifier": "all meshes, paths, options and pairs of buffers", "why_tests_cant": "relates two runs with all buffer sizes", "anchors": ["/repo/detour/query.go:724-763", "/repo/detour/query.go:415-657"]}
{"id": "C116", "title": "The straight path stays in its corridor", "statement": "Between two consecutive points of a straight path the segment passes through the portals between them, one after the other, so it stays in the polygons of the path.", "quantifier": "all corridors of strictly convex polygons, all start and end positions, exact arithmetic", "why_tests_cant": "a claim about all corridors; samples cannot cover the ways a funnel narrows, restarts and shares vertices", "anchors": ["/repo/detour/query.go:471-656"]}
{"id": "C117", "title": "Raw contours match the region outlines exactly", "statement": "The raw contours of BuildContours are closed walks along the outlines of the regions: every edge of a span against another region lies on one contour, once, in order, and the vertices are the ends of the edges with the region across.", "quantifier": "all compact height fields and all regions", "why_tests_cant": "the number and shape of regions is unbounded; tests look at a few meshes", "anchors": ["/repo/recast/contour.go:243-355", "/repo/recast/contour.go:434-513"]}
{"id": "C118", "title": "Raw contours enclose the region", "statement": "The signed areas of the raw contours of a region, holes negative, add up to the number of its spans.", "quantifier": "all compact height fields and all regions", "why_tests_cant": "a sum over arbitrary shapes with holes", "anchors": ["/repo/recast/contour.go:243-355", "/repo/recast/contour.go:434-513", "/repo/recast/contour.go:760-772"]}
{"id": "C119", "title": "BuildContours returns every contour", "statement": "Every raw contour that keeps three vertices after simplification is returned, with the border taken off, its region and its area.", "quantifier": "all compact height fields and all regions", "why_tests_cant": "regions with many holes do not occur in tests", "anchors": ["/repo/recast/contour.go:204-355"]}
{"id": "C120", "title": "Height of a contour vertex", "statement": "The height of a contour vertex is the greatest floor height of the spans connected round the corner.", "quantifier": "all compact height fields, spans and directions", "why_tests_cant": "all ways of connecting four spans", "anchors": ["/repo/recast/contour.go:9-50"]}
{"id": "C121", "title": "Neighbouring contours agree on the height of a shared corner", "statement": "Two connected spans of different regions give the corner of their common edge the same height, so that the polygons made from the contours share a vertex.", "quantifier": "all compact height fields, spans and directions", "why_tests_cant": "all ways of connecting four spans", "anchors": ["/repo/recast/contour.go:9-50"]}
{"id": "C122", "title": "Which vertices are flagged for removal", "statement": "A contour vertex is flagged as border vertex if and only if the four spans round it are two of one border region followed by two of proper regions with the same area.", "quantifier": "all compact height fields, spans and directions", "why_tests_cant": "all combinations of regions and areas", "anchors": ["/repo/recast/contour.go:14-18", "/repo/recast/contour.go:52-70"]}
{"id": "C123", "title": "Simplified contours keep the raw vertices in order", "statement": "Simplifying a raw contour ends and gives at least two of its vertices, in the same cyclic order, with the region and area flag of the edge that follows; every vertex where the neighbour region changes is kept.", "quantifier": "all raw contours not all at one place, all parameters and all distance arithmetic", "why_tests_cant": "raw contours are of any length and shape", "anchors": ["/repo/recast/contour.go:537-758"]}
{"id": "C124", "title": "Simplified contours stay near the raw contour", "statement": "Along walls and area borders, every raw vertex is within maxError of an edge of the simplified contour.", "quantifier": "all raw contours and all maxError and maxEdgeLen", "why_tests_cant": "the deviation of any shape", "anchors": ["/repo/recast/contour.go:515-535", "/repo/recast/contour.go:606-671", "/repo/recast/contour.go:673-748"]}
{"id": "C125", "title": "Maximum edge length of contours", "statement": "After splitting, an edge along a wall (or area border, if asked for) is at most maxEdgeLen long, or joins neighbouring raw vertices.", "quantifier": "all raw contours, all parameters and all distance arithmetic", "why_tests_cant": "contours are of any length and shape", "anchors": ["/repo/recast/contour.go:673-748"]}
{"id": "C126", "title": "Neighbouring contours simplify their common border in the same way", "statement": "Where two raw contours run along a common border in opposite directions, a vertex of the border is kept in the one if and only if it is kept in the other, so that no gap or overlap opens between them.", "quantifier": "all pairs of raw contours with a common border, all parameters, any distance arithmetic that finds the end of a segment near the segment", "why_tests_cant": "tests look at single contours; the two searches run in opposite directions", "anchors": ["/repo/recast/contour.go:606-671", "/repo/recast/contour.go:673-748"]}
{"id": "C127", "title": "A raycast reports the corridor it went through", "statement": "Raycast from valid references does not panic when Path has room for MaxPath; the polygons the ray goes through begin with the start, each is reached from the one before over the edge where the ray leaves it, by a link that covers the crossing and leads to ground the filter passes; Path holds the first MaxPath of them, PathCount is their number, BufferTooSmall is set exactly when there were more; T, HitEdgeIndex and HitNormal tell whether the end was reached or which edge stopped the ray. Invalid references are refused.", "quantifier": "all meshes, filters, rays and coordinates (NaN included), buffers and hit structures", "why_tests_cant": "any mesh, ray and filter", "anchors": ["/repo/detour/query.go:1435-1666", "/repo/detour/query.go:1701-1711"]}
{"id": "C128", "title": "A raycast does not depend on what the hit structure held before", "statement": "Two calls with the same mesh, ray, filter and buffer sizes report the same, whatever the hit structures held before.", "quantifier": "all hit structures, used before or not", "why_tests_cant": "structures are reused after any earlier result", "anchors": ["/repo/detour/query.go:34-55", "/repo/detour/query.go:1506-1509", "/repo/detour/query.go:1520-1529"]}
{"id": "C129", "title": "The cost of a raycast is the sum of its legs", "statement": "With the option for costs, PathCost grows by the filter cost of every leg of the ray, each inside one polygon and beginning where the one before ended, with the polygons before and after; without it PathCost does not change.", "quantifier": "all meshes, filters with any cost function, rays", "why_tests_cant": "any number of polygons and any filter", "anchors": ["/repo/detour/query.go:1524-1527", "/repo/detour/query.go:1611-1631"]}
{"id": "C130", "title": "A ray that reaches its end runs over walkable ground only, and else stops at the wall", "statement": "On convex polygons, if T is MaxFloat32 every point from the start to the end is in one of the polygons gone through; else T is less than 1, every point up to T is in one of them, and the point at T is on the reported edge of the last, over which no link leads on.", "quantifier": "all meshes of convex polygons, all rays that begin in the start polygon", "why_tests_cant": "infinitely many points and shapes", "anchors": ["/repo/detour/query.go:1435-1666", "/repo/detour/common.go:103-153"]}
{"id": "C131", "title": "A raycast comes to an end", "statement": "On convex polygons no polygon is gone through twice, also where the ray meets corners, so the loop ends after at most as many rounds as there are polygons.", "quantifier": "all meshes of convex polygons, all rays that begin in the start polygon", "why_tests_cant": "rays through corners and along edges, any mesh", "anchors": ["/repo/detour/query.go:1483-1662"]}
{"id": "C132", "title": "Mesh polygons are convex", "statement": "The polygons into which BuildPolyMesh cuts a contour have distinct vertices, and every edge of each has all its other vertices strictly on the inner side; merging polygons keeps this.", "quantifier": "all contours, any number of vertices per polygon", "why_tests_cant": "any shape of contour and any order of merges", "anchors": ["/repo/recast/polymesh.go:127-221", "/repo/recast/mesh.go:352-440"]}
{"id": "C133", "title": "The polygons of a contour cover it exactly", "statement": "If no two vertices of a contour are at the same place and its triangulation finishes, the signed areas of its polygons, measured at the vertices of the mesh, add up to the area of the contour, and no directed edge is used twice.", "quantifier": "all contours, any mesh built so far", "why_tests_cant": "any shape of contour", "anchors": ["/repo/recast/polymesh.go:112-237", "/repo/recast/mesh.go:97-132"]}
{"id": "C134", "title": "The polygon mesh fits its arrays and keeps to its contours", "statement": "For any contours with fewer than 65534 vertices in all and 3 or more vertices per polygon, filling the mesh comes to an end without an index out of range; the polygons are no more than maxTris, have 3 to nvp valid vertices and the region and area of a contour with vertices at all their places; a vertex is marked for removal only at the place of a contour vertex marked as border vertex, and at each such place one is marked.", "quantifier": "all lists of contours, simple or not", "why_tests_cant": "any number and shape of contours", "anchors": ["/repo/recast/polymesh.go:55-237"]}
{"id": "C135", "title": "A border vertex is removed exactly when its polygons form one fan", "statement": "canRemoveVertex says yes exactly if the polygons with the vertex form one fan round it, with at least three edges that do not touch it.", "quantifier": "all meshes and vertices", "why_tests_cant": "any number and order of polygons and of their corners", "anchors": ["/repo/recast/mesh.go:455-545"]}
{"id": "C136", "title": "Removing a vertex leaves the rest of the mesh alone", "statement": "When removeVertex returns, the other vertices are where they were and in order; polygons without the vertex look as before (places of corners, region, area); the polygons with it are replaced by polygons that have their corners at places of theirs, the area of one of them, and their region or multipleRegs; all polygons have 3 to nvp valid vertices and stand for no more triangles than before.", "quantifier": "all well-formed meshes, vertices and limits", "why_tests_cant": "any mesh around the vertex", "anchors": ["/repo/recast/mesh.go:547-817"]}
{"id": "C137", "title": "Removing a vertex keeps the ground covered", "statement": "The removal of a vertex does not change the area of the mesh if the vertex lies in line with the ends of the polygons round it, else by the triangle of these three.", "quantifier": "all well-formed meshes, all polygons round the vertex", "why_tests_cant": "any number and shape of polygons round the vertex", "anchors": ["/repo/recast/mesh.go:574-817"]}
{"id": "C138", "title": "BuildPolyMesh gives a sound mesh for any contours", "statement": "For any contours with fewer than 65534 vertices in all BuildPolyMesh does not panic; the polygons have 3 to nvp valid vertices and fit the arrays, have the area of a contour and the region of one or multipleRegs; vertices not marked as border vertices are all there, and polygons without marked vertices look as they came from their contour.", "quantifier": "all lists of contours", "why_tests_cant": "any contours and order of removals", "anchors": ["/repo/recast/polymesh.go:55-259", "/repo/recast/mesh.go:442-817"]}
{"id": "C139", "title": "ClosestPointOnPoly gives the nearest place of a polygon, on its detail surface", "statement": "For a ground polygon ClosestPointOnPoly returns a point over the polygon (seen from above) such that no point over the polygon is nearer in the xz-plane; posOverPoly is true strictly inside and false outside; where a detail triangle covers that place, the point is on a detail triangle. ClosestPointOnPolyBoundary returns points inside as they are and for others the nearest point of the outline.", "quantifier": "all convex polygons, detail triangles and points", "why_tests_cant": "infinitely many polygons and points; the claim compares with every other point", "anchors": ["/repo/detour/query.go:941-1093", "/repo/detour/common.go:55-103"]}
{"id": "C140", "title": "ClosestPointOnPoly gives the nearest point of an off-mesh connection", "statement": "For an off-mesh connection ClosestPointOnPoly returns the point of the segment between its ends that is nearest to the given point.", "quantifier": "all connections and points", "why_tests_cant": "infinitely many points", "anchors": ["/repo/detour/query.go:958-975"]}
{"id": "C141", "title": "A search box looks at every polygon whose bounds it meets", "statement": "queryPolygons hands over every polygon that passes the filter and whose bounds share a point with the search box, whatever tile it is in; what it hands over passes the filter and lies near the search box.", "quantifier": "all meshes of tiles with trees, filters and search boxes", "why_tests_cant": "conservative rounding must hold for all reals, tiles and trees", "anchors": ["/repo/detour/query.go:1193-1348", "/repo/detour/navmeshcreate.go:260-339", "/repo/detour/mesh.go:1649-1653"]}
{"id": "C142", "title": "FindNearestPoly gives the nearest polygon", "statement": "FindNearestPoly returns a polygon that passes the filter with its closest point, and no polygon that passes the filter and meets the search box is nearer (height within the climb counts as none for polygons straight below or above); the reference is 0 exactly if the search box meets no such polygon.", "quantifier": "all meshes of tiles with trees, filters, centers and extents", "why_tests_cant": "minimum over any number of tiles and polygons, any geometry", "anchors": ["/repo/detour/query.go:1113-1131", "/repo/detour/polyquery.go:14-73", "/repo/detour/query.go:1193-1348"]}
{"id": "C143", "title": "Tiles are linked exactly where one can step across", "statement": "Portal edges of tiles side by side are linked exactly if they are in line and at some place along the border, away from their ends, their heights differ by at most WalkableClimb; the decision is the same from both tiles. AddTile makes those links in both directions, up to four polygons per edge and while link slots last.", "quantifier": "all edges of portal sides, all heights and climbs; every history of AddTile/RemoveTile", "why_tests_cant": "real-valued slopes; a missing or superfluous link shows only on particular meshes", "anchors": ["/repo/detour/mesh.go:1254-1319", "/repo/detour/mesh.go:1323-1388", "/repo/detour/mesh.go:1421-1492"]}
{"id": "C144", "title": "The portal of a link between tiles is the shared stretch", "statement": "The portal of a link between two tiles is the stretch of the edge that the edge of the other tile reaches too.", "quantifier": "all edges and links between tiles", "why_tests_cant": "all real positions; the limits are rounded to bytes", "anchors": ["/repo/detour/mesh.go:1299-1316", "/repo/detour/query.go:861-877"]}
{"id": "C145", "title": "FindPath returns a cheapest path", "statement": "With filter costs of at least the distance, a full path of FindPath (no PartialResult, OutOfNodes or BufferTooSmall) costs no more than any other permitted corridor from the start to the goal polygon, walked over edge midpoints.", "quantifier": "all meshes, filters and queries with fair costs; all corridors of any length", "why_tests_cant": "unboundedly many other corridors; open-list order and node reuse interact", "anchors": ["/repo/detour/query.go:179-372", "/repo/detour/query.go:281-319", "/repo/detour/queryfilter.go:75-141"]}
{"id": "C146", "title": "Triangulations with interior points are sound", "statement": "Whenever delaunayHull returns, every triangle has three different points of the set as corners and the orientation of a clockwise outline, with more than 1e-5 of doubled area; completing the facets ends for all inputs.", "quantifier": "all point sets, outlines and interior points", "why_tests_cant": "unboundedly many point sets; the edge table grows while it is walked", "anchors": ["/repo/recast/meshdetail.go:519-714"]}
{"id": "C147", "title": "Triangulations with interior points cover the outline", "statement": "delaunayHull returns for every outline with points inside, and its triangles have together the area of the outline.", "quantifier": "all outlines and interior points", "why_tests_cant": "the failures need special point positions that no test has", "anchors": ["/repo/recast/meshdetail.go:555-714"]}
{"id": "C148", "title": "Interior samples of detail meshes", "statement": "When buildPolyDetail adds interior samples, outline vertices stay as they are, each sample is added at most once, there are at most 127 vertices, the triangles are a triangulation of all vertices, and unless 127 vertices are reached every sample not added lies over no triangle or within sampleMaxError of one.", "quantifier": "all polygons, sample sets and permitted errors", "why_tests_cant": "all sample sets and heights; the mesh is rebuilt after each sample", "anchors": ["/repo/recast/meshdetail.go:90-115", "/repo/recast/meshdetail.go:164-179", "/repo/recast/meshdetail.go:979-1043"]}
{"id": "C149", "title": "Detail meshes are stored where the sub-mesh table says", "statement": "BuildPolyMeshDetail stores for every polygon the first vertex, number of vertices, first triangle and number of triangles, and there stand its vertices in world space and its triangles, whatever reallocations happen.", "quantifier": "all lists of polygon details of all sizes", "why_tests_cant": "all sequences of sizes and reallocations", "anchors": ["/repo/recast/meshdetail.go:415-513"]}
{"id": "C150", "title": "Triangle flags mark outline edges", "statement": "In the flag byte of a detail triangle, bits 0, 2 and 4 are set exactly for those of its three edges that lie along one side of the polygon up to a thousandth; all other bits are 0.", "quantifier": "all triangles and polygons", "why_tests_cant": "all positions", "anchors": ["/repo/recast/meshdetail.go:301-321"]}
{"id": "C151", "title": "Detail meshes read the corners of their polygons", "statement": "For every polygon of a mesh of up to 65533 vertices, BuildPolyMeshDetail takes the coordinates of each corner from the vertex of that index.", "quantifier": "all meshes up to the documented limit", "why_tests_cant": "only meshes of more than 21845 vertices show it", "anchors": ["/repo/recast/meshdetail.go:390", "/repo/recast/meshdetail.go:431", "/repo/recast/polymesh.go:285"]}
{"id": "C152", "title": "Heights around a polygon come from its own floor", "statement": "The heights that getHeightData collects for a polygon are those of spans of their own cells: where the region of the polygon has spans, the lowest of them; elsewhere spans reached from the region (or from the seed, if the region has no span there) over connections without leaving the patch. Every cell of the patch next to a used span over a connection has a height. The search ends, and some height is found whenever the region has a span in the patch or a span is beside a vertex.", "quantifier": "all well-formed compact heightfields, regions, patches inside the field, heights below 0xffff", "why_tests_cant": "all heightfields with overlapping floors", "anchors": ["/repo/recast/meshdetail.go:1221-1332"]}
{"id": "C153", "title": "The seed of the heights is connected to the polygon", "statement": "seedArrayWithPolyCenter panics only if no span of the patch is at or beside a vertex of the polygon. Otherwise its seed is a span of the patch that is reached, inside the patch, from the span beside a vertex nearest in height to its vertex; it lies over the centre of the polygon unless the walk was cut off, and always, by a shortest way, if the spans of the patch are all connected.", "quantifier": "all well-formed compact heightfields, polygons and patches inside the field", "why_tests_cant": "all heightfields and polygons", "anchors": ["/repo/recast/meshdetail.go:1045-1192"]}
{"id": "C154", "title": "Neighbouring tiles agree about the ground at their seam", "statement": "Tiles are built one by one from the triangles that overlap their box widened by WalkableRadius+3 cells. Two tiles of the same mesh and settings agree about the ground in every cell that lies in both of them or next to both of them: the same spans are walkable after rasterisation, filters, compaction and erosion, with the same heights and connections.", "quantifier": "all meshes, chunk selections, tile sizes, radii >= 1 and pairs of tiles", "why_tests_cant": "all meshes and tile positions", "anchors": ["/repo/sample/tilemesh/builder.go:138-143, 217-262, 268-340", "/repo/recast/rasterization.go:62-246", "/repo/recast/filter.go", "/repo/recast/area.go"]}
{"id": "C155", "title": "The tiles of a tiled build cover the input", "statement": "TileMesh.Build makes tiles for a grid of tw by th locations. Every position inside the bounds of the input geometry lies over exactly one tile of the grid, the one TilePos names, and no tile of the grid begins beyond the bounds.", "quantifier": "all bounds, cell sizes, tile sizes and positions", "why_tests_cant": "all bounds and positions", "anchors": ["/repo/sample/tilemesh/builder.go:82-87, 123-143, 568-573", "/repo/recast/recast.go:43-47"]}
{"id": "C156", "title": "BuildTile and RemoveTile work on the tile a position is over", "statement": "TilePos, BuildTile and RemoveTile turn a position into the location of the tile it is over, the same as NavMesh.CalcTileLoc.", "quantifier": "all bounds, cell sizes, tile sizes and positions", "why_tests_cant": "all positions", "anchors": ["/repo/sample/tilemesh/builder.go:533-592", "/repo/detour/mesh.go:1649-1653"]}
{"id": "C157", "title": "A tiled build installs every tile", "statement": "After TileMesh.Build the mesh holds, at every location of the tile grid, the data that was made for it, and no other tile; the layout of references it chooses always passes Init.", "quantifier": "all grid sizes and all data of the tiles", "why_tests_cant": "all grids and tile contents", "anchors": ["/repo/sample/tilemesh/builder.go:89-158", "/repo/detour/mesh.go:244-283, 310-538"]}
{"id": "C158", "title": "Rebuilding or removing one tile changes that tile only", "statement": "BuildTile replaces the data at the location by the new data (or nothing), RemoveTile by nothing; every other location keeps its tile and reference. This succeeds also when the mesh is full, if the location held a tile.", "quantifier": "all histories of a mesh, all locations, all data", "why_tests_cant": "all histories", "anchors": ["/repo/sample/tilemesh/builder.go:533-592", "/repo/detour/mesh.go:310-538"]}
{"id": "C159", "title": "A mesh made for a single tile holds that tile", "statement": "InitForSingleTile makes a mesh whose only tile is the given one: it is found at its own location, no other location has a tile, and every polygon of the tile has a valid reference that leads back to it. Data of another magic or version is refused with the fitting status.", "quantifier": "all tile data, polygon counts and flags", "why_tests_cant": "all tile data and flags", "anchors": ["/repo/detour/mesh.go:200-236, 244-283, 310-438", "/repo/sample/solomesh/builder.go:361"]}
{"id": "C160", "title": "There is headroom over the ground", "statement": "From the input triangles to the compact heightfield (RasterizeTriangles, the three filters, BuildCompactHeightfield, ErodeWalkableArea): above every span of the ground, over its cell, no point of any input triangle is in the way up to WalkableHeight voxels; and the floor of every span is the top of an input triangle at the cell.", "quantifier": "all meshes, grids, areas, agent heights, climbs and radii", "why_tests_cant": "all meshes and settings", "anchors": ["/repo/recast/rasterization.go", "/repo/recast/filter.go", "/repo/recast/heightfield.go", "/repo/recast/area.go:24-195", "/repo/sample/solomesh/builder.go:130-175"]}
{"id": "C161", "title": "There is room around walkable ground", "statement": "A span that is walkable after ErodeWalkableArea has WalkableRadius steps to go in each of the four directions: each to a connected span of the neighbouring cell, at most WalkableClimb up or down, through an opening of at least WalkableHeight, with nothing of the input in the way over any cell passed.", "quantifier": "all meshes, grids, agent heights, climbs and radii", "why_tests_cant": "all meshes and settings", "anchors": ["/repo/recast/area.go:24-195", "/repo/recast/heightfield.go", "/repo/sample/solomesh/builder.go:130-175"]}
{"id": "C162", "title": "Walkable ground lies on a walkable triangle", "statement": "From the input triangles to the compact heightfield: where a span of the ground is walkable, some input triangle has the area of the span and a point in the same cell that is not above the floor of the span. With areas from MarkWalkableTriangles on cleared areas, that triangle is not steeper than the limit.", "quantifier": "all meshes, grids, areas, agent heights, climbs and radii", "why_tests_cant": "all meshes and settings", "anchors": ["/repo/recast/rasterization.go", "/repo/recast/filter.go", "/repo/recast/heightfield.go", "/repo/recast/area.go:24-195", "/repo/recast/recast.go:74-89", "/repo/sample/solomesh/builder.go:128-175"]}
{"id": "C163", "title": "Open ground stays walkable", "statement": "If the heightfield has an open floor around a cell, up to WalkableRadius + 1 cells away - a walkable span in each cell, enough headroom, no steps of more than WalkableClimb - then after the filters, BuildCompactHeightfield and ErodeWalkableArea that floor is there and walkable, with its area, whatever the rest of the field looks like.", "quantifier": "all fields, floors, agent heights, climbs and radii", "why_tests_cant": "all fields and settings", "anchors": ["/repo/recast/filter.go", "/repo/recast/heightfield.go", "/repo/recast/area.go:24-195", "/repo/sample/solomesh/builder.go:150-175"]}
{"id": "C164", "title": "An agent of the given size fits on the mesh", "statement": "With WalkableHeight, WalkableClimb and WalkableRadius computed from the size of the agent in world units as the builders do: the settings are never too small and waste less than one voxel; over every span of the ground no input triangle has a point between the floor and the height of the agent above it; and from every walkable span the agent can go at least its radius far in each of the four directions, fitting everywhere and never stepping higher than it can climb.", "quantifier": "all meshes, grids and agents", "why_tests_cant": "all meshes and agents", "anchors": ["/repo/sample/solomesh/builder.go:68-96", "/repo/sample/tilemesh/builder.go:184-201", "/repo/recast/filter.go", "/repo/recast/heightfield.go", "/repo/recast/area.go:24-195"]}
{"id": "C165", "title": "Loading an OBJ file gives the mesh of that file", "statement": "After a successful Load a MeshLoaderOBJ holds exactly the file: its vertices times the scale, the triangles of its polygons, and for each triangle the normal: perpendicular to its sides, of length 1 unless the triangle is flat, on the side from which its corners go counterclockwise. Load never panics.", "quantifier": "all files, all loaders including those that were used before", "why_tests_cant": "all files and histories", "anchors": ["/repo/recast/meshloaderobj.go:26-84"]}
{"id": "C166", "title": "An open floor in the input becomes walkable ground", "statement": "From the input triangles to the compact heightfield: if around a cell, up to WalkableRadius + 1 cells away, the walkable triangles of the input form a floor without steps of more than WalkableClimb, and everything else is below it or above the room an agent needs, then the ground is walkable at that cell, at the height of the floor, whatever the rest of the input looks like.", "quantifier": "all meshes, grids, areas, agent heights, climbs and radii", "why_tests_cant": "all meshes and settings", "anchors": ["/repo/recast/rasterization.go", "/repo/recast/filter.go", "/repo/recast/heightfield.go", "/repo/recast/area.go:24-195", "/repo/sample/solomesh/builder.go:128-175"]}
{"id": "C167", "title": "The any-angle sliced search finds a connected path", "statement": "With the any-angle option, whatever the slicing and whenever it is finalized, FinalizeSlicedFindPath gives a path that starts at the start polygon and in which each polygon can be entered from the one before; PartialResult is set exactly when it does not end at the end polygon; with too little room it gives the first polygons and BufferTooSmall. The search ends, and finds the end polygon if it can be reached and there are nodes enough.", "quantifier": "all meshes, filters, costs, rays, slicings and buffers", "why_tests_cant": "all meshes and slicings; floors above each other", "anchors": ["/repo/detour/query.go:1737-2127", "/repo/detour/query.go:1435-1711"]}
{"id": "C168", "title": "The seams between tiles do not depend on how the tiles got there", "statement": "After any history of AddTile and RemoveTile calls in which the link tables had room, a ground polygon of one tile is linked to a polygon of another tile exactly where a portal edge that faces that tile touches the polygon (the first four in index order), with that edge, side and limits. So two meshes holding the same two tiles have the same links between them, whatever the order of the calls, the slots, and the tiles that came and went.", "quantifier": "all histories of calls, tiles and contacts", "why_tests_cant": "all orders of calls", "anchors": ["/repo/detour/mesh.go:310-538", "/repo/detour/mesh.go:1254-1419"]}
{"id": "C169", "title": "The polygons of a region cover its ground", "statement": "The polygons that BuildContours and BuildPolyMesh make of a region have together the area of the region's spans: with a maximum error of zero nothing is lost or added by simplification, and what is no ground, as a pillar in the middle of a room, is covered by no polygon.", "quantifier": "all fields, regions and contours", "why_tests_cant": "all shapes of regions", "anchors": ["/repo/recast/contour.go:204-435", "/repo/recast/contour.go:537-755", "/repo/recast/contour.go:851-873", "/repo/recast/polymesh.go:55-238"]}
{"id": "C170", "title": "Chunks hit by a segment", "statement": "The segment query of a chunky triangle mesh (chunksOverlappingSegment) ends on every mesh that was built and gives, in increasing order, exactly the leaves whose rectangles have a point in common with the segment, cut off at maxIds; every triangle whose bounds the segment meets is in one of them.", "quantifier": "all meshes, segments and buffers", "why_tests_cant": "all trees and segments, also nearly axis-parallel ones", "anchors": ["/repo/recast/chunkytrimesh.go:234-269", "/repo/recast/chunkytrimesh.go:272-297", "/repo/recast/chunkytrimesh.go:122-191"]}
{"id": "C171", "title": "References checked with a filter and followed without a check", "statement": "IsValidPolyRef of a query accepts a reference exactly if it is that of a polygon in the mesh with an included and no excluded flag, so also not after the tile is removed. TileAndPolyByRefUnsafe gives for valid references what TileAndPolyByRef gives; for others it panics, or follows the reference to whatever polygon is there now, without looking at the salt.", "quantifier": "all histories of AddTile and RemoveTile, references and filters", "why_tests_cant": "all histories and reference values", "anchors": ["/repo/detour/query.go:1368-1383", "/repo/detour/mesh.go:1111-1116", "/repo/detour/mesh.go:1128-1136", "/repo/detour/queryfilter.go:116-118"]}
{"id": "C172", "title": "Centre of a polygon", "statement": "CalcPolyCenter gives the centroid of a convex polygon: it does not depend on which vertex is first, and lies strictly inside of the polygon.", "quantifier": "all convex polygons and vertex indices", "why_tests_cant": "all polygons; wrong only for shapes and indices the tests do not have", "anchors": ["/repo/detour/poly.go:53-69"]}
{"id": "C173", "title": "Sample points of a detail polygon", "statement": "The interior samples of a detail polygon are all points of the grid with spacing sampleDist that lie in the polygon and at least half of sampleDist from its edges, each once.", "quantifier": "all polygons and spacings", "why_tests_cant": "all polygons; depends on the spacing in world units", "anchors": ["/repo/recast/meshdetail.go:947-977", "/repo/recast/meshdetail.go:1194-1219"]}
{"id": "C174", "title": "Merging of regions is complete", "statement": "When mergeAndFilterRegions has finished, no region that is to be merged (small, or without contact to the border) has a neighbour left that it may be merged with.", "quantifier": "all fields, partitions and size limits", "why_tests_cant": "all executions of a loop that changes the records it reads", "anchors": ["/repo/recast/region.go:1032-1103", "/repo/recast/region.go:703-722", "/repo/recast/region.go:733-791"]}
{"id": "C175", "title": "Joining a hole to the outline", "statement": "mergeContours makes one closed contour of outline and hole: every edge of both once in its direction, the bridge once in either direction, nothing else; so area and windings are the sums. findLeftMostVertex returns the first of the lowest leftmost vertices, and the order of the holes is by these.", "quantifier": "all contours and all pairs of vertices", "why_tests_cant": "all shapes; arithmetic of indices modulo two lengths", "anchors": ["/repo/recast/contour.go:875-890", "/repo/recast/contour.go:892-927", "/repo/recast/contour.go:940-968"]}
{"id": "C176", "title": "The bridge between a hole and the outline", "statement": "mergeRegionHoles joins a hole by the shortest bridge from a vertex of the outline that has the corner in its cone, among those that cross neither the outline nor a hole not yet joined; if there is such a bridge it is found.", "quantifier": "all outlines, holes and sorting functions", "why_tests_cant": "all shapes; the table of candidates is reused and longer than needed", "anchors": ["/repo/recast/contour.go:97-175", "/repo/recast/contour.go:1007-1040"]}
{"id": "C177", "title": "Holes end up in the outline", "statement": "mergeRegionHoles returns, and then each hole is unchanged or empty and part of the outline; the outline keeps its edges and has those of the holes joined; signed area and windings add up to the same over all contours as before.", "quantifier": "all outlines, lists of holes and sorting functions", "why_tests_cant": "all shapes and all numbers of holes; the table of candidates is reused between rounds while the outline grows", "anchors": ["/repo/recast/contour.go:97-175", "/repo/recast/contour.go:892-927"]}
{"id": "C178", "title": "Least extent of a polygon", "statement": "polyMinExtent is the least distance such that the whole polygon lies within it of one of its edges.", "quantifier": "all polygons", "why_tests_cant": "all shapes and numbers of vertices", "anchors": ["/repo/recast/meshdetail.go:716-738"]}
