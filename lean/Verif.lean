import Verif.Model.Arrays
import Verif.Model.BoundingBox
import Verif.Model.ClipperGeom
import Verif.Model.ClipperInt
import Verif.Model.ClipperPath
import Verif.Model.Config
import Verif.Model.Delaunay
import Verif.Model.Double
import Verif.Model.Exact
import Verif.Model.Files
import Verif.Model.Flags
import Verif.Model.Generator
import Verif.Model.Hole
import Verif.Model.Hull
import Verif.Model.Ieee
import Verif.Model.Incircle
import Verif.Model.IndexSegment
import Verif.Model.Leftover
import Verif.Model.Members
import Verif.Model.MeshObj
import Verif.Model.Neighbours
import Verif.Model.Outcome
import Verif.Model.Pipeline
import Verif.Model.Point
import Verif.Model.Polygon
import Verif.Model.RandomInt
import Verif.Model.Region
import Verif.Model.Segment
import Verif.Model.Text
import Verif.Model.TriCarve
import Verif.Model.TriCross
import Verif.Model.TriEncroach
import Verif.Model.TriFixup
import Verif.Model.TriGhost
import Verif.Model.TriInput
import Verif.Model.TriInsert
import Verif.Model.TriLocate
import Verif.Model.TriMerge
import Verif.Model.TriMesh
import Verif.Model.TriPipeline
import Verif.Model.TriPool
import Verif.Model.TriSegment
import Verif.Model.TriSort
import Verif.Model.TriSwitch
import Verif.Model.TriWrite
import Verif.Model.Triangle
import Verif.Model.Trig
import Verif.Model.UniqueList
import Verif.Spec.Double
import Verif.Spec.Files
import Verif.Spec.Geometry
import Verif.Spec.Nearest
import Verif.Spec.Partition
import Verif.Spec.Polygon
import Verif.Spec.Region
import Verif.Spec.Text
import Verif.Spec.Tiling
import Verif.Spec.TriCarve
import Verif.Spec.TriCdt
import Verif.Spec.TriCross
import Verif.Spec.TriEncroach
import Verif.Spec.TriFixup
import Verif.Spec.TriGhost
import Verif.Spec.TriInput
import Verif.Spec.TriInsert
import Verif.Spec.TriLocate
import Verif.Spec.TriMerge
import Verif.Spec.TriMesh
import Verif.Spec.TriPool
import Verif.Spec.TriSegment
import Verif.Spec.TriSort
import Verif.Spec.TriSwitch
import Verif.Spec.TriWrite
import Verif.Spec.Triangulation
import Verif.Spec.UniqueList
import Verif.Spec.Voronoi
import Verif.Proofs.Adapt
import Verif.Proofs.AdaptErr
import Verif.Proofs.AdaptMono
import Verif.Proofs.Alternating
import Verif.Proofs.Area
import Verif.Proofs.Cell
import Verif.Proofs.CellArea
import Verif.Proofs.CellCover
import Verif.Proofs.CellLog
import Verif.Proofs.CellPath
import Verif.Proofs.CellRegion
import Verif.Proofs.ClipperArea
import Verif.Proofs.ClipperInt
import Verif.Proofs.ClipperPath
import Verif.Proofs.ClipperPip
import Verif.Proofs.ConeCover
import Verif.Proofs.Contain
import Verif.Proofs.Cyc
import Verif.Proofs.Diameter
import Verif.Proofs.Double
import Verif.Proofs.EdgeRec
import Verif.Proofs.ErCalc
import Verif.Proofs.Exact
import Verif.Proofs.ExactCcw
import Verif.Proofs.ExactCcw2
import Verif.Proofs.ExactCell
import Verif.Proofs.ExactExp
import Verif.Proofs.ExactExp2
import Verif.Proofs.ExactExp3
import Verif.Proofs.ExactIncircle
import Verif.Proofs.ExactMul
import Verif.Proofs.ExactSign
import Verif.Proofs.ExactSum
import Verif.Proofs.ExpEstimate
import Verif.Proofs.ExpGrid
import Verif.Proofs.ExpLast
import Verif.Proofs.ExpSquare
import Verif.Proofs.Fan
import Verif.Proofs.Files
import Verif.Proofs.Flags
import Verif.Proofs.GFan
import Verif.Proofs.GFanSum
import Verif.Proofs.Grid
import Verif.Proofs.Hull
import Verif.Proofs.Import
import Verif.Proofs.IndexText
import Verif.Proofs.Leftover
import Verif.Proofs.Maps
import Verif.Proofs.MeshText
import Verif.Proofs.Number
import Verif.Proofs.Numeral
import Verif.Proofs.Partition
import Verif.Proofs.PathSum
import Verif.Proofs.Resolve
import Verif.Proofs.Rounding
import Verif.Proofs.RoundingDiv
import Verif.Proofs.ScaleExp
import Verif.Proofs.ScaleExp2
import Verif.Proofs.Text
import Verif.Proofs.Tiling
import Verif.Proofs.TriCarve
import Verif.Proofs.TriCarve2
import Verif.Proofs.TriCarve3
import Verif.Proofs.TriCarve4
import Verif.Proofs.TriCarve5
import Verif.Proofs.TriCarve6
import Verif.Proofs.TriCdt
import Verif.Proofs.TriCdt2
import Verif.Proofs.TriCross
import Verif.Proofs.TriEncroach
import Verif.Proofs.TriEncroach2
import Verif.Proofs.TriEncroach3
import Verif.Proofs.TriEncroach4
import Verif.Proofs.TriEncroach5
import Verif.Proofs.TriFixup
import Verif.Proofs.TriFixup2
import Verif.Proofs.TriFixup3
import Verif.Proofs.TriFixup4
import Verif.Proofs.TriGhost
import Verif.Proofs.TriGhost2
import Verif.Proofs.TriGhost3
import Verif.Proofs.TriInput
import Verif.Proofs.TriInsert
import Verif.Proofs.TriInsert10
import Verif.Proofs.TriInsert11
import Verif.Proofs.TriInsert2
import Verif.Proofs.TriInsert3
import Verif.Proofs.TriInsert4
import Verif.Proofs.TriInsert5
import Verif.Proofs.TriInsert6
import Verif.Proofs.TriInsert7
import Verif.Proofs.TriInsert8
import Verif.Proofs.TriInsert9
import Verif.Proofs.TriLocate
import Verif.Proofs.TriLocate2
import Verif.Proofs.TriLocate3
import Verif.Proofs.TriLocate4
import Verif.Proofs.TriMerge
import Verif.Proofs.TriMerge2
import Verif.Proofs.TriMerge3
import Verif.Proofs.TriMerge4
import Verif.Proofs.TriMerge5
import Verif.Proofs.TriMerge6
import Verif.Proofs.TriMesh
import Verif.Proofs.TriMesh2
import Verif.Proofs.TriMesh3
import Verif.Proofs.TriMesh4
import Verif.Proofs.TriMesh5
import Verif.Proofs.TriPipeline
import Verif.Proofs.TriPool
import Verif.Proofs.TriSegment
import Verif.Proofs.TriSegment2
import Verif.Proofs.TriSegment3
import Verif.Proofs.TriSegment4
import Verif.Proofs.TriSort
import Verif.Proofs.TriSort2
import Verif.Proofs.TriSort3
import Verif.Proofs.TriSort4
import Verif.Proofs.TriSwitch
import Verif.Proofs.TriSwitch2
import Verif.Proofs.TriWrite
import Verif.Proofs.TriWrite2
import Verif.Proofs.TriWrite3
import Verif.Proofs.Triangulation
import Verif.Proofs.UniqueList
import Verif.Proofs.Walk
import Verif.Proofs.WeakList
import Verif.Proofs.Winding
import Verif.Proofs.WindingNumber
import Verif.Props.AddHole
import Verif.Props.Area
import Verif.Props.Arrays
import Verif.Props.BoundingBox
import Verif.Props.CellCover
import Verif.Props.CellShape
import Verif.Props.ClipperGeom
import Verif.Props.ClipperInt
import Verif.Props.ClipperPath
import Verif.Props.Config
import Verif.Props.Contain
import Verif.Props.DelaunayGen
import Verif.Props.DelaunayImport
import Verif.Props.DelaunayMesh
import Verif.Props.Double
import Verif.Props.DoubleContain
import Verif.Props.DoubleInt
import Verif.Props.DoublePoly
import Verif.Props.DoubleSegment
import Verif.Props.Elementary
import Verif.Props.Elementary2
import Verif.Props.Exact
import Verif.Props.Exact2
import Verif.Props.Files
import Verif.Props.Flags
import Verif.Props.Generator
import Verif.Props.Hull
import Verif.Props.Ieee
import Verif.Props.Incircle
import Verif.Props.IndexSegment
import Verif.Props.Leftover
import Verif.Props.Members
import Verif.Props.MeshObj
import Verif.Props.Mutate
import Verif.Props.Neighbours
import Verif.Props.Partition
import Verif.Props.Pipeline
import Verif.Props.Point
import Verif.Props.PolygonMisc
import Verif.Props.RandomInt
import Verif.Props.Rectangle
import Verif.Props.Region
import Verif.Props.Segment
import Verif.Props.Text
import Verif.Props.Tiling
import Verif.Props.TriCarve
import Verif.Props.TriCdt
import Verif.Props.TriCross
import Verif.Props.TriEncroach
import Verif.Props.TriFixup
import Verif.Props.TriGhost
import Verif.Props.TriHoles
import Verif.Props.TriInput
import Verif.Props.TriInsert
import Verif.Props.TriLocate
import Verif.Props.TriMerge
import Verif.Props.TriMesh
import Verif.Props.TriPipeline
import Verif.Props.TriSegment
import Verif.Props.TriSort
import Verif.Props.TriSwitch
import Verif.Props.TriWrite
import Verif.Props.Triangle
import Verif.Props.Triangulation
import Verif.Props.Trig
import Verif.Props.UniqueList
import Verif.Props.Voronoi
import Verif.Props.VoronoiMaps
import Verif.Props.VoronoiRegion
import Verif.Props.WindingNumber
