import Verif.Props.ListUtils
import Verif.Props.BlockOps
import Verif.Props.Memo
import Verif.Props.Collapse
import Verif.Props.Convertible
import Verif.Props.AsBlock
import Verif.Props.ApplyBc
import Verif.Props.Nullspace
import Verif.Props.L20
import Verif.Props.MatFree
import Verif.Props.Krylov
import Verif.Props.Hsmg
import Verif.Props.Ufl
import Verif.Props.Ufl2
import Verif.Props.BlockForm
import Verif.Props.BlockForm2
import Verif.Props.Reduced
import Verif.Props.DofMat
import Verif.Props.Trace
import Verif.Props.Average
import Verif.Props.AverageMat
import Verif.Props.Shape
import Verif.Props.DiskQuad
import Verif.Props.Patch
import Verif.Props.PatchMat
import Verif.Props.Embedded
import Verif.Props.Embedding
import Verif.Props.Mortar
import Verif.Props.Branch
import Verif.Props.Contour
import Verif.Props.Refine
import Verif.Props.Union
import Verif.Props.Center
import Verif.Props.Jacobian
import Verif.Props.Annotate
import Verif.Props.CollapseIter
import Verif.Props.Gmsh
import Verif.Props.Dual
import Verif.Props.PointTrace
import Verif.Props.Flux
import Verif.Props.Dispatch
import Verif.Props.Elements
import Verif.Props.ElementsIff
import Verif.Props.Families
import Verif.Props.CenterVec
import Verif.Props.Normal
import Verif.Props.Tangent
import Verif.Props.Wind
import Verif.Props.Collide
import Verif.Props.Extension
import Verif.Props.Nest
import Verif.Props.Reshape
import Verif.Props.Reshaping
import Verif.Props.IIFunction
import Verif.Props.PetscWrap
import Verif.Props.Continuous
import Verif.Props.SurfaceMean
import Verif.Props.TransposeTrace
import Verif.Props.Harmonic
import Verif.Props.KrylovSolve
import Verif.Props.DualConform
import Verif.Props.RefineConform
import Verif.Props.TraceForm
import Verif.Props.Registry
import Verif.Props.Workflow
import Verif.Props.Coupling
import Verif.Props.Program
import Verif.Props.Variational
import Verif.Props.ConvertExact
import Verif.Props.UpdaterExact
import Verif.Props.BlockExact
import Verif.Props.MatvecExact
import Verif.Props.PermuteExact
import Verif.Props.AverageExact
import Verif.Props.CollideExact
import Verif.Props.ContourExact
import Verif.Props.MatFreeExact
import Verif.Props.NullspaceExact
import Verif.Props.ShapeExact
import Verif.Props.AverageForm
import Verif.Props.Mean
import Verif.Props.TimeDep
import Verif.Props.TimeRun
import Verif.Props.Assembly
import Verif.Props.Mixed
import Verif.Props.Accept
import Verif.Props.Circum
import Verif.Props.Skeleton
import Verif.Examples.ApplyBc
import Verif.Examples.BlockForm
import Verif.Examples.BlockOps
import Verif.Examples.Centers
import Verif.Examples.Geometry
import Verif.Examples.Lines
import Verif.Props.Newton
import Verif.Props.NewtonReturns
import Verif.Examples.Newton
import Verif.Props.CircumIn
import Verif.Props.IIFunctionMore
import Verif.Props.WindLoop
import Verif.Props.Plot
import Verif.Props.PlotCases
import Verif.Props.HsmgExact
import Verif.Props.PatchExact
import Verif.Props.LineExact
import Verif.Props.RandomCurve
import Verif.Props.Segment
import Verif.Props.ProjCircle
import Verif.Props.CrossGrid
import Verif.Props.ConvLog
import Verif.Props.Immersed
import Verif.Props.Reproduce
import Verif.Props.Calculus
import Verif.Props.Mms
import Verif.Props.Minimise
import Verif.Props.Apps
import Verif.Props.Symmetric
import Verif.Props.Solvable
import Verif.Props.Multipliers
import Verif.Props.Nonsingular
