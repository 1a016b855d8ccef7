import Verif.Geom.Props
import Verif.Geom.ContainerProps
import Verif.Edge.Props
import Verif.Edge.Tolerance
import Verif.Edge.Robust
import Verif.Cross.GridEdge
import Verif.Exterior.Boundary
import Verif.Adaptive.Triangulate
import Verif.Adaptive.Renumber
import Verif.Ops.Laplacian
import Verif.Collapse.Merge
import Verif.Cell.Flaps
import Verif.Cell.Remove
import Verif.Region.Two
import Verif.Region.Three
import Verif.Interp.Trilinear
import Verif.Interp.Bary
import Verif.Interp.FaceBary
import Verif.Tri.Bins
import Verif.Tri.Bake
import Verif.Plane.SubGrid
import Verif.Plane.Loop
import Verif.Life.Constructor
import Verif.Ops.MacGrid
import Verif.Ops.Masks
import Verif.Tools.Exploded
import Verif.Tools.PlCurve
import Verif.Tools.RegionVolumes
import Verif.Cell.Volume
import Verif.IO.Proto
import Verif.Mesh.Locate
import Verif.Mesh.Number3
import Verif.Mesh.Triangulate
import Verif.Mesh.Holes
import Verif.Ops.GridVolume
import Verif.Sched.Pieces
import Verif.Geom.Queries
import Verif.Geom.Line
import Verif.Face2.Loops
import Verif.Face2.Defects
import Verif.Pipe2.Demo
import Verif.Mesh.Regions3
import Verif.Mesh.Centroid3
import Verif.Mesh.CellCentroid
import Verif.Mesh.Vertices
import Verif.Mesh.Centroid2
import Verif.Ops.Lengths2
import Verif.Ops.SurfaceOps2
import Verif.Ops.GridBoundary
import Verif.Ops.GridSolve
import Verif.Interp.FaceVolume
import Verif.Ops.DualLengths3
import Verif.Gen3.BoundaryEdges
import Verif.Gen3.LoopGroups
import Verif.Gen3.External
import Verif.Gen3.FaceIds
import Verif.Gen3.PlaneFaces
import Verif.Gen3.Assemble
import Verif.Gen3.Pipe
import Verif.Gen3.PipeDemo
import Verif.Cross.EdgesOut
import Verif.Interp.BaryMap
import Verif.Life.AddEdges
import Verif.Tools.Validation
import Verif.Cell.Watertight
import Verif.Collapse.Marked
import Verif.Tri.FaceTiles
import Verif.Surf.Demo
import Verif.Fill.Demo
import Verif.Fill.UtilizeDemo
import Verif.Fill.WallsDemo
import Verif.Fill.HemLoops
import Verif.Tools.PairedGen
import Verif.Gen3.Checks
import Verif.Cross.MeshVerts
import Verif.Tools.FacesUtilized
import Verif.Tools.FacesUtilizedDemo
import Verif.Tools.Slicer
import Verif.Tools.SlicerCaps
import Verif.Tools.SlicerDemo
import Verif.Tools.ExtValences
import Verif.Adaptive.Reload
import Verif.Tools.Pcwn
import Verif.Tools.MeshWriter2
import Verif.Adaptive.DualEdges
import Verif.Pipe2.Areas2
import Verif.Fill.TotalVolume
import Verif.Fill.TotalVolumeDemo
import Verif.Mesh.Draw2
import Verif.Exterior.FaceMasks
import Verif.Life.Moves
import Verif.Life.Gui
import Verif.Tools.WriteObj
import Verif.Tools.Cmdline
