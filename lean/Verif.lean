import Verif.Common.Chain
import Verif.Common.EscapeTree
import Verif.Common.Vec
import Verif.Detour.AnyAngle
import Verif.Detour.Bits
import Verif.Detour.BvTree
import Verif.Detour.Cheapest
import Verif.Detour.ClosestPoint
import Verif.Detour.Codec
import Verif.Detour.CreateData
import Verif.Detour.FanTris
import Verif.Detour.FindPath
import Verif.Detour.FindPathHistory
import Verif.Detour.FindPathProps
import Verif.Detour.Funnel
import Verif.Detour.Geometry
import Verif.Detour.Headers
import Verif.Detour.LinkBudget
import Verif.Detour.LinkComplete
import Verif.Detour.Links
import Verif.Detour.MeshLinks
import Verif.Detour.NearestPoly
import Verif.Detour.NodePool
import Verif.Detour.NodeQueue
import Verif.Detour.PolyCenter
import Verif.Detour.PolyRef
import Verif.Detour.PortalPoints
import Verif.Detour.QueryRef
import Verif.Detour.QueryTile
import Verif.Detour.Raycast
import Verif.Detour.RaycastExact
import Verif.Detour.RefValidity
import Verif.Detour.SaveLoad
import Verif.Detour.SeamHistory
import Verif.Detour.SingleTile
import Verif.Detour.Sliced
import Verif.Detour.SlicedProps
import Verif.Detour.StraightCorners
import Verif.Detour.StraightPath
import Verif.Detour.StraightPrefix
import Verif.Detour.Stream
import Verif.Detour.TileBuild
import Verif.Detour.TileData
import Verif.Detour.TileSeam
import Verif.Detour.TileTable
import Verif.Detour.TileTableProps
import Verif.Recast.AddVertex
import Verif.Recast.Adjacency
import Verif.Recast.AgentRoom
import Verif.Recast.BuildContext
import Verif.Recast.BuildPolys
import Verif.Recast.ChunkyMesh
import Verif.Recast.ChunkySegment
import Verif.Recast.Clip
import Verif.Recast.ClipHull
import Verif.Recast.Compact
import Verif.Recast.CompactField
import Verif.Recast.Contour
import Verif.Recast.ContourCorner
import Verif.Recast.ContourError
import Verif.Recast.ContourLimits
import Verif.Recast.ContourMirror
import Verif.Recast.ContourOutline
import Verif.Recast.ContourSimplify
import Verif.Recast.ContourTrace
import Verif.Recast.DetailDelaunay
import Verif.Recast.DetailGrid
import Verif.Recast.DetailHull
import Verif.Recast.DetailOutline
import Verif.Recast.DetailSamples
import Verif.Recast.DetailStore
import Verif.Recast.Erode
import Verif.Recast.Filters
import Verif.Recast.FloorMesh
import Verif.Recast.GroundArea
import Verif.Recast.GroundCover
import Verif.Recast.Headroom
import Verif.Recast.HeightData
import Verif.Recast.HeightPatch
import Verif.Recast.HeightSeed
import Verif.Recast.HoleBridge
import Verif.Recast.HoleLoop
import Verif.Recast.HoleMerge
import Verif.Recast.Inputs
import Verif.Recast.MarkArea
import Verif.Recast.Monotone
import Verif.Recast.ObjLoad
import Verif.Recast.OpenFloor
import Verif.Recast.PointInPoly
import Verif.Recast.PolyExtent
import Verif.Recast.PolyMerge
import Verif.Recast.Portals
import Verif.Recast.RasterShift
import Verif.Recast.Rasterize
import Verif.Recast.RegionComplete
import Verif.Recast.RegionDrop
import Verif.Recast.RegionFilter
import Verif.Recast.RegionList
import Verif.Recast.RegionMerge
import Verif.Recast.RegionResult
import Verif.Recast.RemoveVertex
import Verif.Recast.SpanBits
import Verif.Recast.Spans
import Verif.Recast.TileAgree
import Verif.Recast.TileLayout
import Verif.Recast.Triangulate
import Verif.Audit
