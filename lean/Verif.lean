import Verif.Common
import Verif.Graph.Model
import Verif.Graph.Spec
import Verif.Graph.Refine
import Verif.Graph.MatrixModel
import Verif.Graph.Props
import Verif.GraphAlg.Paths
import Verif.GraphAlg.TraverseModel
import Verif.GraphAlg.BfsLemmas
import Verif.GraphAlg.DfsSpec
import Verif.GraphAlg.DfsLemmas
import Verif.GraphAlg.TraverseProps
import Verif.GraphAlg.PathProps
import Verif.GraphAlg.Components
import Verif.GraphAlg.PQ
import Verif.GraphAlg.DijkstraModel
import Verif.GraphAlg.DijkstraLemmas
import Verif.GraphAlg.DijkstraProps
import Verif.GraphAlg.BellmanFordModel
import Verif.GraphAlg.BellmanFordProps
import Verif.GraphAlg.TopoModel
import Verif.GraphAlg.TopoProps
import Verif.GraphAlg.UnionFindModel
import Verif.GraphAlg.UnionFindProps
import Verif.GraphAlg.Forest
import Verif.GraphAlg.MstModel
import Verif.GraphAlg.KruskalProps
import Verif.GraphAlg.PrimProps
import Verif.Pool.Model
import Verif.Pool.Spec
import Verif.Pool.Inv
import Verif.Pool.InvB
import Verif.Pool.InvC
import Verif.Pool.InvD
import Verif.Pool.Progress
import Verif.Pool.Props
import Verif.Graph.DegreeProps
import Verif.KD.Model
import Verif.KD.Lemmas
import Verif.KD.Props
import Verif.Intervals.Model
import Verif.Intervals.Props
import Verif.Intervals.More
import Verif.Data.Model
import Verif.Data.JsonModel
import Verif.Data.Spec
import Verif.Data.CsvLemmas
import Verif.Data.CsvProps
import Verif.Data.TypeProps
import Verif.Data.VocabProps
import Verif.Data.DatasetProps
import Verif.Data.JsonLemmas
import Verif.Data.JsonProps
import Verif.Bin.Model
import Verif.Bin.Props
import Verif.Loops
import Verif.LoopLemmas
import Verif.Fourier.Model
import Verif.Fourier.Spec
import Verif.Fourier.Lemmas
import Verif.Fourier.Stage
import Verif.Fourier.Orth
import Verif.Fourier.Dct
import Verif.Fourier.RealFft
import Verif.Fourier.Props
import Verif.Fourier.Windows
import Verif.Poly.Model
import Verif.Poly.Spec
import Verif.Poly.Lemmas
import Verif.Poly.Arith
import Verif.Poly.Div
import Verif.Poly.Interp
import Verif.Poly.Props
import Verif.Mat.Dense
import Verif.Mat.DenseSpec
import Verif.Mat.DenseLemmas
import Verif.Mat.DenseMore
import Verif.Mat.DenseProps
import Verif.Mat.Packed
import Verif.Mat.SymProps
import Verif.Mat.PackedProps
import Verif.Hoare
import Verif.LinAlg.GaussJordan
import Verif.LinAlg.GJLemmas
import Verif.LinAlg.GJProps
import Verif.LinAlg.LU
import Verif.LinAlg.LULemmas
import Verif.LinAlg.LUSolve
import Verif.LinAlg.LUProps
import Verif.LinAlg.QR
import Verif.LinAlg.QRRefl
import Verif.LinAlg.QRLemmas
import Verif.LinAlg.QRReduce
import Verif.LinAlg.QRSolve
import Verif.LinAlg.QRProps
import Verif.LinAlg.IterProps
import Verif.LinAlg.TriSolve
import Verif.LinAlg.TriSolveLemmas
import Verif.LinAlg.TriSolveProps
import Verif.LinAlg.Cholesky
import Verif.LinAlg.CholeskyLemmas
import Verif.LinAlg.CholeskyProps
import Verif.LinAlg.BandSolve
import Verif.LinAlg.BandSolveLemmas
import Verif.LinAlg.BandSolveCore
import Verif.LinAlg.BandSolveProps
import Verif.Geom.Vec
import Verif.Geom.Quat
import Verif.Geom.QuatProps
import Verif.Geom.QuatConv
import Verif.Geom.QuatAngles
import Verif.Exit
import Verif.Roots.Model
import Verif.Roots.BisectProps
import Verif.Roots.BracketProps
import Verif.Roots.MethodProps
import Verif.Roots.ClosedModel
import Verif.Roots.ClosedProps
import Verif.Roots.LaguerreModel
import Verif.Roots.LaguerreSpec
import Verif.Roots.LaguerreDisc
import Verif.Roots.LaguerreLemmas
import Verif.Roots.LaguerreProps
import Verif.Roots.BairstowSpec
import Verif.Roots.BairstowLemmas
import Verif.Roots.BairstowProps
import Verif.Deriv.Stencil
import Verif.Deriv.Model
import Verif.Deriv.Rules
import Verif.Deriv.Props
import Verif.Deriv.Estimates
import Verif.Deriv.Side
import Verif.Deriv.Richardson
import Verif.Deriv.Line
import Verif.Deriv.Partial
import Verif.Deriv.PartialProps
import Verif.Deriv.Mixed
import Verif.Deriv.Jacobian
import Verif.Deriv.Curves
import Verif.AD.Model
import Verif.AD.Spec
import Verif.AD.Rules
import Verif.AD.Props
import Verif.Stats.Model
import Verif.Stats.Spec
import Verif.Stats.OrderProps
import Verif.Stats.Sums
import Verif.Stats.MeanProps
import Verif.Stats.CorrProps
import Verif.Stats.RankLemmas
import Verif.Stats.RankProps
import Verif.Integ.Model
import Verif.Integ.Spec
import Verif.Integ.TrapLemmas
import Verif.Integ.PolyTrap
import Verif.Integ.TrapProps
import Verif.Integ.ErrLemmas
import Verif.Integ.ErrProps
import Verif.Integ.RombergLemmas
import Verif.Integ.RombergProps
import Verif.Integ.RombergAccuracy
import Verif.Integ.OpenModel
import Verif.Integ.OpenLemmas
import Verif.Integ.OpenProps
import Verif.Integ.ImproperProps
import Verif.Integ.GaussSpec
import Verif.Integ.GaussModel
import Verif.Integ.GaussLemmas
import Verif.Integ.GaussProps
import Verif.Integ.AdaptiveProps
import Verif.Integ.ChebModel
import Verif.Integ.ChebProps
import Verif.Integ.MultiModel
import Verif.Integ.MultiProps
import Verif.CompGeo.HullModel
import Verif.CompGeo.HullSpec
import Verif.CompGeo.HullLemmas
import Verif.CompGeo.HullConvex
import Verif.CompGeo.HullChain
import Verif.CompGeo.HullMain
import Verif.CompGeo.HullProps
import Verif.Interp.Model
import Verif.Interp.Spec
import Verif.Interp.Lemmas
import Verif.Interp.Glue
import Verif.Interp.Error
import Verif.Interp.LinearProps
import Verif.Interp.PolyLemmas
import Verif.Interp.PolyProps
import Verif.Interp.SplineLemmas
import Verif.Interp.SplinePieces
import Verif.Interp.Energy
import Verif.Interp.SplineProps
import Verif.Interp.SplineError
import Verif.Interp.Floater
import Verif.Interp.BaryLemmas
import Verif.Interp.BaryProps
import Verif.Interp.RatProps
import Verif.Interp.GridModel
import Verif.Interp.SplineBasis
import Verif.Interp.BicubicProps
import Verif.Interp.GridProps
import Verif.Interp.CurveModel
import Verif.Interp.LinCurveProps
import Verif.Interp.SplineCurveProps
import Verif.ODE.Trees
import Verif.ODE.Jets
import Verif.ODE.Local
import Verif.ODE.Global
import Verif.ODE.Reverse
import Verif.ODE.Check
import Verif.ODE.Coeffs
import Verif.ODE.Model
import Verif.ODE.StepLemmas
import Verif.ODE.Orders
import Verif.ODE.Order8
import Verif.ODE.Solution
import Verif.ODE.SolutionLemmas
import Verif.ODE.SolutionProps
import Verif.ODE.VerletLemmas
import Verif.ODE.FixedSpec
import Verif.ODE.FixedLemmas
import Verif.ODE.FixedProps
import Verif.ODE.VerletProps
import Verif.ODE.Stepper
import Verif.ODE.StepperSpec
import Verif.ODE.StepperLemmas
import Verif.ODE.StepperMore
import Verif.ODE.StepperProps
import Verif.ODE.Bulirsch
import Verif.ODE.BulirschSpec
import Verif.ODE.BulirschLemmas
import Verif.ODE.BulirschMore
import Verif.ODE.BulirschOne
import Verif.ODE.BulirschProps
import Verif.ODE.Adaptive
import Verif.ODE.AdaptiveSpec
import Verif.ODE.AdaptiveLemmas
import Verif.ODE.AdaptiveMore
import Verif.ODE.AdaptiveAt
import Verif.ODE.AdaptiveProps
import Verif.Optim.Props
import Verif.Coord.Props
import Verif.Coord.MetricProps
import Verif.Field.Model
import Verif.Field.Lemmas
import Verif.Field.Props
import Verif.Field.MoreProps
import Verif.Cheb.Model
import Verif.Cheb.Lemmas
import Verif.Cheb.Lemmas2
import Verif.Cheb.Props
import Verif.Cheb.MoreProps
import Verif.Ortho.Model
import Verif.Ortho.Polys
import Verif.Ortho.Integrals
import Verif.Ortho.Props
import Verif.Ortho.MoreProps
import Verif.Ortho.SphProps
import Verif.Ortho.Elliptic
import Verif.Fit.Model
import Verif.Fit.Lemmas
import Verif.Fit.Spec
import Verif.Fit.Props
import Verif.LinAlg.SVD
import Verif.LinAlg.SVDSpec
import Verif.LinAlg.SVDReorder
import Verif.LinAlg.SVDLemmas
import Verif.LinAlg.SVDProps
import Verif.Fit.General
import Verif.Fit.GeneralProps
import Verif.Eigen.Jacobi
import Verif.Eigen.JacobiLemmas
import Verif.Eigen.JacobiProps
import Verif.CompGeo.Closest
import Verif.CompGeo.ClosestProps
import Verif.CompGeo.Polygon
import Verif.CompGeo.PolygonLemmas
import Verif.CompGeo.PolygonArea
import Verif.CompGeo.PolygonProps
import Verif.CompGeo.PolygonShape
import Verif.CompGeo.Lines
import Verif.CompGeo.LinesProps
import Verif.CompGeo.LinesMeet
import Verif.CompGeo.Triangle
import Verif.CompGeo.TriangleProps
import Verif.CompGeo.CircleBox
import Verif.CompGeo.CircleProps
import Verif.CompGeo.BoxProps
import Verif.CompGeo.RayTriangle
import Verif.CompGeo.RayProps
import Verif.CompGeo.Clip
import Verif.CompGeo.ClipLemmas
import Verif.CompGeo.ClipProps
import Verif.Geom.Lines3D
import Verif.Geom.Lines3DProps
import Verif.Geom.Plane3D
import Verif.Geom.Plane3DProps
import Verif.Geom.Surf3D
import Verif.Geom.Surf3DProps
import Verif.Geom.Bound3D
import Verif.Geom.Bound3DProps
import Verif.Geom.Bodies3D
import Verif.Geom.VolLemmas
import Verif.Geom.Bodies3DProps
import Verif.Geom.Bodies3DMesh
import Verif.Geom.Bodies3DRound
import Verif.Geom.Angles
import Verif.Geom.AnglesProps
import Verif.Geom.Shapes2D
import Verif.Geom.Shapes2DProps
import Verif.Geom.Shapes2DRound
import Verif.Geom.Shapes2DPoly
import Verif.Geom.Shapes3D
import Verif.Geom.Shapes3DProps
import Verif.CompGeo.Enclosing
import Verif.CompGeo.EnclosingProps
import Verif.CompGeo.Triangulation
import Verif.CompGeo.Winding
import Verif.CompGeo.DelaunayLemmas
import Verif.CompGeo.DelaunayInv
import Verif.CompGeo.DelaunayRun
import Verif.CompGeo.DelaunayProps
import Verif.CompGeo.DelaunayQuery
import Verif.CompGeo.EarProps
import Verif.Systems.Continuous
import Verif.Systems.ContinuousProps
import Verif.Systems.Maps
import Verif.Systems.MapsProps
import Verif.Systems.LyapProps
import Verif.Util.VecOps
import Verif.Util.VecProps
import Verif.Util.MixedProps
import Verif.CompGeo.Voronoi
import Verif.CompGeo.VoronoiClip
import Verif.CompGeo.VoronoiProps
import Verif.CompGeo.VoronoiCells
import Verif.Optim.NelderMead
import Verif.Optim.NelderMeadProps
import Verif.Optim.BFGS
import Verif.Optim.BFGSProps
import Verif.Optim.LBFGS
import Verif.Optim.LBFGSProps
import Verif.Optim.LineMin
import Verif.Optim.LineMinProps
import Verif.ODE.Events
import Verif.ODE.EventsProps
import Verif.Interp.Extrapolation
import Verif.Interp.ExtrapolationProps
import Verif.Eigen.Definite
import Verif.Eigen.DefiniteProps
import Verif.Mat.Utils
import Verif.Mat.FaddeevMath
import Verif.Mat.FaddeevProps
import Verif.Mat.RankProps
import Verif.Mat.UtilsProps
import Verif.Integ.CubatureProps
import Verif.Integ.MonteCarloProps
import Verif.Mat.OpsProps
import Verif.GraphAlg.PageRankProps
import Verif.GraphAlg.MeasuresProps
import Verif.GraphAlg.ConnBoundProps
import Verif.GraphAlg.EigenCentralityProps
import Verif.Fun.DiracProps
import Verif.Fun.TaylorProps
import Verif.Fun.PathProps
import Verif.Fun.FieldsProps
import Verif.Fun.BumpsProps
