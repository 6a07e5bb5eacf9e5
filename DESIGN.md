# Formal model of MML: design

## What is modelled, and in what logic

The Lean 4 model in `lean/Verif/` transcribes functions of `/repo/mml` one by one.
Each definition cites the file and lines it models and says where it simplifies.

Trusted base:

* Lean 4.33.0's kernel, and Mathlib as installed (Mathlib proofs are checked by the same kernel).
* Axioms: every theorem listed in MANIFEST.json depends on at most `propext`, `Classical.choice`
  and `Quot.sound`.  No axiom is added; no `sorry`, `admit`, `native_decide` or `bv_decide`.
* The reading of the C++ text.  Nothing was compiled or run.  That the Lean definitions say what
  the cited C++ lines do is a matter of inspection, helped by the citations.

Global modelling decisions:

* **`Real` (C++ `double`) is modelled as an exact ordered field** (usually `ℝ` or `ℚ`, or any
  linear ordered field `K`).  Rounding, overflow to infinity and NaN are not modelled.  All theorems
  on numerical code are therefore statements about the algorithm in exact arithmetic.
* `std::numeric_limits<Real>::infinity()` used as a "not reached" marker is modelled as `none`/`⊤`.
* `size_t`/`int` are modelled as `Nat`/`Int` without wrap-around, unless the wrap-around is the point
  (then it is stated, e.g. `n - 1` for `n = 0`).
* Undefined behaviour (out-of-range access) and exceptions are explicit outcomes of the model
  (`Except`/`Option`/ an outcome type), so that a theorem about a normal return has the code's own
  guard as its only precondition.
* Standard library containers and algorithms are modelled by their contracts: `std::queue` as a list,
  `std::priority_queue` as "pop a minimum entry", `std::sort` as a sorted permutation,
  `std::nth_element` as any permutation meeting its postcondition.

Layout: `Verif/<Area>/Model.lean` (transcription), `Spec.lean` (independent specification where it is
more than a line), `Lemmas.lean` (helpers) and `Props.lean` (property theorems with the non-vacuity
examples).  Small areas use fewer files.

## Plan per property

| id | model | proof idea |
|----|-------|------------|
| C01-C03 | `Graph` as adjacency lists; `Op` = addVertex/addEdge/removeEdge/clear, `run` over lists of ops | invariant by induction over histories; refinement to an abstract finite map of edges |
| C04 | adjacency, degree, Laplacian as functions of the lists | row sum by induction on the list; negation with a self loop witness |
| C05, C06 | BFS/DFS loops with visited array, fuel-free (well-founded) or with proved sufficient fuel | loop invariants (frontier, level structure) |
| C07, C08 | Dijkstra loop over an arbitrary "pop a minimum" priority queue | settled-set invariant; parent pointers decrease (dist, settle time) |
| C09 | Bellman-Ford passes over the edge list with early exit | after k passes dist <= best walk with <= k edges; pigeonhole for cycles |
| C10 | Kahn's loop | invariant indegree = number of unprocessed predecessors |
| C11 | repeated BFS labelling | labels constant on components |
| C12 | parent/rank arrays, find with path compression, unite | invariant: parent forest acyclic, roots represent the generated equivalence |
| C13, C14 | Kruskal over a sorted edge list, Prim over a min queue | exchange argument (matroid / cut property) |
| C15-C19 | labelled transition system: queue, in-flight counter, mutex, two condition variables, per-thread program counters | inductive invariants over all schedules; progress as "some enabled step or all done" |
| C20-C22 | tree built by any valid median split; recursive queries | pruning soundness; equality with brute force by structural induction |
| C51 | `degree`, `inDegree` on the adjacency lists | counting over the representation invariant of C01 |
| C52 | the build relation of C20 | induction on the number of indices; induction on derivations |
| C23, C24 | four endpoint kinds, the code's case analyses | case analysis; negations where the code is wrong |
| C53-C56 | the same model, composite as a list of components | convexity; arithmetic on bounds |
| C25 | `SplitLine` as a fold over characters | induction over fields and characters |
| C26, C57 | loader over lists of lines; a table's CSV texts as an inductive relation | induction over rows and over texts |
| C58, C59 | regular expressions as Mathlib `RegularExpression`, `std::stoi` | language of each pattern = literals; counting |
| C60 | `Dataset` with its column vectors and mask | induction over columns and kept indices |
| C27, C28 | recursive-descent parser over the remaining text; JSON texts as an inductive relation | induction over texts; negation for non-uniform keys |
| C61 | the same parser with fuel = remaining length + 1 | the remaining text shrinks; columns have equal length after padding |
| C29, C30 | byte-list files, 32-bit little-endian words | round trip by list lemmas; every strict prefix |
| C31-C33 | in-place loops over `Nat -> C`; exact twiddles `exp(i theta)` | induction over stages with bit reversal; orthogonality of roots of unity |
| C62-C64 | packing loops; doubling loops; window formulas with 0/0 as `none` | even/odd split of the DFT; monotone truncated series |
| C34-C36 | coefficient lists | induction; relation to Mathlib `Polynomial` |
| C37-C39 | elimination loops over `Nat -> Nat -> K` | loop invariants (row operations preserve solutions; L*U = P*A) |
| C40, C41, C65 | flat storage with the code's index maps; triple loops | injectivity of index maps; sums over `Finset.range` |
| C42, C66, C67 | quaternion formulas (`Geom/Quat.lean`), all of Quaternions.h but printing | ring identities, Mathlib quaternions, trigonometric identities |
| C43, C44, C68 | RootFindingBracketing.h and RootFindingMethods.h (`Roots/`), functions as `ℝ → Option ℝ` | bracket invariants over loops with early return (`Exit.lean`), intermediate value theorem |
| C69-C72 | the nine difference rules of DerivationRealFunction.h with their detailed forms, one-sided forms and Richardson extrapolation (`Deriv/`) | Taylor's theorem with a general error bound for stencils (`Stencil.lean`); convex-combination invariant of the tableau |
| C73 | partial derivatives, Jacobians, curves and surfaces (`Deriv/Partial.lean`) | restriction to lines (`Line.lean`), mixed derivatives from the two diagonals; loop invariant for the moving point |
| C47, C48, C75 | Integration1D.h: `TrapIntegrator`, `IntegrateTrap`, `IntegrateSimpson`, `IntegrateRomberg` (`Integ/`) | induction over rounds; composite rules as panel sums (`Integ/Spec.lean`); Bernoulli expansion of the trapezoidal sum of a polynomial, Neville's identity; negation for C48 |
| C79 | IntegrationImproper.h: `MidpointIntegrator`, `IntegrateOpen`, the four transforms and the eight integrators built on them (`Integ/Open*`, `Integ/ImproperProps`) | the loop of Romberg, shared; midpoint sums from trapezoidal sums; change of variables for the Lebesgue integral; amplification of errors by Neville's scheme |
| C80 | Integration1D.h: `Integrate`, `IntegrateGK21`; Integration2D.h, Integration3D.h: `Integrate2D`, `Integrate3D` (`Integ/Multi*`) | one lemma per level, applied two or three times: a method moves values by at most twice the error of its integrand |
| C81 | InterpolatedRealFunction.h: `RealFunctionInterpolated`, `locate`, `LinearInterpRealFunc` (`Interp/Model`, `Interp/LinearProps`) | invariant of the binary search; pieces glued along the cells of the table |
| C82 | `PolynomInterpRealFunc` (`Interp/PolyLemmas`, `Interp/PolyProps`, `Interp/Error`) | Neville's tableau, shared with C75; Rolle's theorem repeated |
| C83 | `SplineInterpRealFunc` (`Interp/SplineLemmas`, `SplinePieces`, `Energy`, `SplineProps`, `SplineError`) | the elimination solves the tridiagonal system because its pivots stay positive; integration by parts for the least curvature; diagonal dominance for the error |
| C84 | `BarycentricRationalInterp` (`Interp/Floater`, `BaryLemmas`, `BaryProps`) | swap of the two sums; the theorem of Floater and Hormann by alternating sums of growing and shrinking terms |
| C85 | `RationalInterpRealFunc` (`Interp/RatProps`) | invariants of the two loops |
| C86 | Interpolation2DFunction.h: `BilinearInterp2D`, `BicubicSplineInterp2D` (`Interp/GridModel`, `GridProps`, `SplineBasis`, `BicubicProps`) | natural splines depend linearly on the values (the homogeneous system is diagonally dominant), so the bicubic spline is a sum of products of one-dimensional ones |
| C87 | InterpolationParametricCurve.h: `LinInterpParametricCurve`, `SplineInterpParametricCurve` (`Interp/CurveModel`, `LinCurveProps`, `SplineCurveProps`) | points of the path are identified by their length along it; the splines of C83 per coordinate |
| C88 | ODEStepCalculators.h: all nine step calculators; ODERKCoefficients.h (`ODE/Model`, `Coeffs`) and the solver of C89 | Butcher's theorem for explicit methods, with rooted trees for non-autonomous systems (`Trees`, `Jets`, `Local`), global error by a discrete Gronwall argument and a cut-off of the right-hand side (`Global`, `Reverse`), a decision procedure for the order conditions (`Check`, proved sound, run by the kernel on all trees); each calculator is shown to perform its tableau's step (`StepLemmas`, `VerletLemmas`) |
| C89 | ODESolverFixedStep.h `integrate` (`ODE/Solution`) | loop invariant: the container holds the iterates |
| C90 | the two mechanics integrators (`ODE/VerletLemmas`, `VerletProps`) | explicit formula of the step; derivative of the step map |
| C91 | ODESystemSolution.h (`ODE/Solution`, `SolutionProps`); not modelled: the interpolation and curve getters | induction over the history of writes |
| C92 | ODESteppers.h Dormand–Prince 5, Cash–Karp, Dormand–Prince 8 (`ODE/Stepper`, spec `StepperSpec`, proofs `StepperProps`) | rule for the retry loop with a step-length measure; session invariant for the stored derivative; orders from C88 |
| C93 | ODESteppers.h Bulirsch–Stoer steppers (`ODE/Bulirsch`, spec `BulirschSpec`, proofs `BulirschProps`) | table invariant over the levels; the first two levels as Runge–Kutta methods |
| C94 | ODESolverAdaptive.h integrate, integrateAt, estimateInitialStep (`ODE/Adaptive`, spec `AdaptiveSpec`, proofs `AdaptiveProps`) | loop invariant on trajectory, stored entries and next output index; termination measure from the smallest step |
| C95 | RootFindingPolynoms.h SolveQuadratic (real and complex), SolveCubic, SolveQuartic (`Roots/ClosedModel`, `ClosedProps`) | factorisation identities; principal square root, real cube root, arc cosine by their defining equations |
| C96 | RootFindingPolynoms.h LaguerreRoots (`Roots/LaguerreModel`, spec `LaguerreSpec`, `LaguerreDisc`, proofs `LaguerreProps`); not modelled: EigenvalueRoots | Laguerre's bound: a root within √n times the step; Horner and deflation as division with remainder; loop invariant with exceptions |
| C97 | RootFindingPolynoms.h BairstowRoots (`Roots/LaguerreModel`, spec `BairstowSpec`, proofs `BairstowProps`) | synthetic division as division with remainder; the step solves the linearised factor equation; strong induction over the degree |
| C98 | LinAlgQR.h QRSolver (`LinAlg/QR`, proofs `QRProps`) | reflections as linear isometries (`QRRefl`); invariant of the reduction (`QRReduce`): processed columns are the columns of R, the others are the images of the columns of A; triangular systems |
| C99 | LinAlgEqSolvers_iterative.h: Jacobi, Gauss-Seidel, SOR (`LinAlg/Iter`, proofs `IterProps`) | the loop against the sequence of iterates; contraction in the maximum norm for dominant matrices; the energy of the error decreases for positive definite ones, so the steps and then the residuals go to zero |
| C100 | Optimization.h: BracketMinimum, golden section, Brent with and without derivatives, maximisers (`Optim/Model`, spec `Optim/Spec`, proofs `Optim/Props`) | the bracket is an invariant of every step, with the best point inside; the golden section shrinks by a factor below 1 each round; each point of Brent's method is at least `tol1` from the best and from the ends, or a middle step, so the bracket shortens by a fixed amount each round |
| C101 | core/CoordTransf/*.h, Vector4Minkowski (`Coord/Transf`, proofs `Coord/Props`) | trigonometric identities; `atan2` as the argument of a complex number; quaternion rotations of C42; the inverse of C38 |
| C102, C103 | Tensor.h, CoordTransf.h, MetricTensor.h (`Coord/Tensor`, specification `Coord/TensorSpec`, proofs `Coord/TensorProps`, `Coord/VecProps`, `Coord/MetricProps`) | sums over index tuples re-indexed by `Fin.succAbove`; the order-four difference quotients of C65; the elimination of C38 for any size |
| C104 | FieldOperations.h, SingularityHandling.h (`Field/Model`, specification and chain rule `Field/Lemmas`, proofs `Field/Props`, `Field/MoreProps`) | the derivatives of the components of a field in a moving orthonormal frame; trace and antisymmetric part of the Jacobian in the frame; difference quotients of C65 |
| C105 | ChebyshevApproximation.h, ChebyshevPolynom.h (`Cheb/Model`, specification and lemmas `Cheb/Lemmas`, `Cheb/Lemmas2`, proofs `Cheb/Props`, `Cheb/MoreProps`) | Clenshaw's recurrence backwards; discrete orthogonality of the cosines at the roots of T_n; the error of polynomial interpolation with the nodal polynomial T_n |
| C106 | OrthogonalBasis.h, OrthogonalBasis/*.h, StandardFunctions.h 134-289 (`Ortho/Model`, polynomials `Ortho/Polys`, integrals and specification `Ortho/Integrals`, proofs `Ortho/Props`, `Ortho/MoreProps`, `Ortho/SphProps`, `Ortho/Elliptic`) | orthogonality from a three-term recurrence and one vanishing integral; differentiated recurrences for the associated functions; Gauss's transformation for the arithmetic-geometric mean; Stirling's series |
| C107 | CurveFitting.h 62-248, 546-584 (`Fit/Model`, specification `Fit/Spec`, proofs `Fit/Lemmas`, `Fit/Props`) | normal equations make the residuals orthogonal; Pythagoras against any other line |
| C108 | LinAlgSVD.h 31-79, 88-126, 161-214, 446-488 (`LinAlg/SVD`, specification `LinAlg/SVDSpec`, proofs `LinAlg/SVDReorder`, `LinAlg/SVDLemmas`, `LinAlg/SVDProps`); `decompose` (220-442) is an assumption, `Solve` for matrices is not modelled | the Shell sort permutes triples and ends sorted, flipping both vectors keeps the product; residual in the coordinates of the singular vectors, term by term |
| C109 | CurveFitting.h 252-544, 586-631 (`Fit/General`, proofs `Fit/GeneralProps`) | the design matrix is built as specified, then C108; polynomials through their coefficients |
| C110 | EigenSystemSolvers.h 105-332 (`Eigen/Jacobi`, proofs `Eigen/JacobiLemmas`, `Eigen/JacobiProps`) | invariant `A = V D Vᵀ` with `V` orthogonal; each rotation takes the square of the annihilated element from the sum above the diagonal; the sort permutes columns; closeness of spectra by expansion in an orthonormal basis (spectral theorem of Mathlib) |
| C111 | Circles.h 116-170, 212-224 (`CompGeo/Closest`, proofs `CompGeo/ClosestProps`) | induction over the length; a closer pair across the dividing line lies in the strip, and the break in the strip is safe since it is sorted by height |
| C112 | Geometry2DPolygon.h 39-359 (`CompGeo/Polygon`, proofs `CompGeo/PolygonLemmas`, `PolygonArea`, `PolygonProps`, `PolygonShape`) | each side's contribution is the jump of an argument with values in (0, 2π]; the winding number is a signed sum of indicators of strips left of the sides, integrated by Fubini; reversal and fans cancel by antisymmetry |
| C76, C77 | Integration1D.h `IntegrateGauss10`; GaussKronrod.h: three rules and the adaptive driver (`Integ/Gauss*`, `Integ/AdaptiveProps`) | moments of the decimal constants by rational arithmetic, then all polynomials by linearity and all continuous functions by approximation; induction over the recursion with the list of pieces |
| C78 | GaussianQuadrature.h: Chebyshev rules, `IntegrateWithRule` (`Integ/Cheb*`) | Mathlib's Chebyshev-Gauss theorem; sums over roots of unity for the second kind |
| C49 | ConvexHull.h: `ConvexHull2D::Compute` (`CompGeo/Hull*`) | stack invariant for both chains; result against extreme points of Mathlib's `convexHull`; negation for tiny inputs |
| C50 | ForwardAD.h: the dual operations and expression trees over them, with branches (`AD/`) | induction over expressions with `HasFDerivAt`; the denoted function and the smooth points are defined separately (`AD/Spec.lean`) |
| C45, C74 | Statistics.h: order statistics, means, variance, moments (`Stats/`) | order statistics against a counting definition of the k-th smallest value (`Stats/Spec.lean`); sums by loop lemmas; logarithm inequality for the means |
| C46 | Statistics.h: covariance, Pearson, matrices; StatisticsRank.h (`Stats/CorrProps`, `Stats/RankProps`) | Cauchy-Schwarz; loop invariant over groups of ties for every sorted index order; pair counts defined apart from the loop |
| C113 | Geometry2DLines.h 34-455 (`CompGeo/Lines`, proofs `CompGeo/LinesProps`, `LinesMeet`) | distances by completing the square; segments parametrised along the first, the sorted candidates start and end at the ends of the common interval |
| C114 | Geometry2DTriangle.h 29-259 (`CompGeo/Triangle`, proofs `CompGeo/TriangleProps`) | invariant over histories of references, writes and reads; Heron's formula and the centres by polynomial identities, angles by the law of cosines |
| C115 | Geometry2DCircleBox.h 31-467 (`CompGeo/CircleBox`, proofs `CompGeo/CircleProps`, `BoxProps`) | triangle inequality and explicit common points for circles; boxes are intervals of the product order |
| C116 | Intersections.h 116-156, CompGeometryBase.h 36-54 (`CompGeo/RayTriangle`, proofs `CompGeo/RayProps`) | Cramer's rule for the three linear equations |
| C117 | PolygonOps.h 45-337 (`CompGeo/Clip`, proofs `CompGeo/ClipLemmas`, `ClipProps`) | the angle seen from the point: an invariant that compares the way of the pen with the way of the vertices, both outside the half-plane between exit and entry; the pen starts at the last point put out |
| C118 | Geometry3DLines.h 26-438, VectorTypes.h 334-470, GeometryPoints.h 200-203 (`Geom/Lines3D`, proofs `Geom/Lines3DProps`) | Pythagoras at the foot of the perpendicular; a vector in the basis of two directions and their vector product |
| C119 | Geometry3DPlane.h 32-293, VectorTypes.h 480-536 (`Geom/Plane3D`, proofs `Geom/Plane3DProps`) | Pythagoras; a vector in the basis of two normals and their vector product |
| C120 | `Triangle3D`, `TriangleSurface3D`, `RectSurface3D` (Geometry3DSurfaces.h), all functions | Heron's formula from the squares of the sides; normal equations for the point test; an orthonormal frame in which the base is the longest side, so that the foot of the height is inside it |
| C121 | `BoundingSphere3D`, `Box3D` (Geometry3DBounding.h), all functions except `ToString` | coordinatewise bounds; triangle inequality for the spheres; Mathlib's volume of boxes and Euclidean balls |
| C122 | `Cube3D`, `CubeWithTriangles3D`, `Sphere3D`, `Cylinder3D`, `Pyramid3D`, `PyramidEquilateral3D`, `Torus3D`, `ISolidBodyWithBoundary`, `ComposedSolidSurfaces3D` (Geometry3DBodiesCore) | Lebesgue measure by slices (Cavalieri), centroids by symmetry, directed sides cancel in telescoping sums |
| C123 | `Point2Polar`, `Point3Spherical`, `Point3Cylindrical`, the functions of `AngleCoordUtils.h`, `SphericalGeometryCalculator`, `normalizeAngle`, `AnglesAreEqual` | fuel from the number of turns, uniqueness of the representative, Mathlib's argument and angle |
| C124 | all shapes of `Geometry2DShapes.h` except the approximate circumference of the ellipse | law of cosines and Mathlib's angle, measures by slices and polar coordinates, corners on a circle |
| C125 | all of `Geometry3DShapes.h` | integrals of sections, antiderivatives with arsinh and arcsin, the Cayley-Menger polynomial as a polynomial identity in coordinates |
| C126 | `MinimumEnclosingCircle` and its helpers, the random generator any sequence of draws | Welzl's lemma by blending two discs, induction over the recursion, integer gaps |
| C127 | `ComputeDelaunay`, `InCircumcircle`, `EdgeKey`, `DelaunayTriangulate`; the map keyed by edges is a sorted association list | winding numbers: the directed edges of the triangles sum to the auxiliary triangle, kept by every insertion; the cavity of a point is star-shaped; empty circles by a determinant identity |
| C128 | `BuildNeighborInfo`, `GetConvexHullEdges`, `LocatePoint`, `Interpolate` | each directed side occurs once, so an edge key has one or two slots; signs of areas; barycentric coordinates |
| C129 | `EarClipTriangulation`, `IsEar`, `IsPointInTriangle` | for every antisymmetric function of edges, cutting off a corner removes exactly its triangle from the sum over the polygon |
| C130 | the systems of `ContinuousSystems.h`, the default numerical Jacobian, the parameter store | derivatives of cubics by interpolation; energies have derivative zero along solutions |
| C131 | the maps of `DiscreteMaps.h` and `DiscreteMapLyapunov::Compute` for every dimension | Gram-Schmidt gives a triangular factor, whose diagonal has the product |det J| |
| C132 | `VectorOps.h`, `SymbolUtils.h`, `MixedTypeOps.h` | loop sums; Cauchy-Schwarz makes the clamp idle; the sorting loops count the inversions |
| C133 | `VoronoiDiagram.h` | the empty circles of C127 make the circumcentres nearest to their corners; nearest regions are convex; half-plane clipping keeps winding numbers away from the line |
| C134 | `OptimizationMultidim.h` `NelderMead`, `NelderMeadMaximize` (C134) | invariant (values, vertex sum, log) over rounds; refinement of a textbook round; affine independence by transforming weights |
| C135 | `OptimizationMultidim.h` `BFGS` (C135) | Armijo invariant of bracket and zoom phase; Cauchy-Schwarz for the update; invariant over iterations |
| C136 | `OptimizationMultidim.h` `LBFGS` (C136) | refinement of the circular buffer to the list of pairs; the two loops equal the recursive inverse Hessian; the step shrinks by 0.6 at least in every round |
| C137 | `OptimizationMultidim.h` `LineMinimizer`, `Powell` (C137) | built on C100; invariant of the sweep: no decrease recorded means equal values, which passes the convergence test |
| C138 | `OptimizationMultidim.h` `ConjugateGradient` (C138) | invariant: the old gradient is not zero or the direction is zero |
| C139 | `ODESolverEventDetection.h` (C139) | bracket with opposite signs, shrinking by a tenth; invariant with the course of the run |
| C140 | `RichardsonExtrapolation.h` (C140) | the tableau invariants of Romberg integration and of the derivatives, used again |
| C141 | `MatrixAlg.h` definiteness (C141) | the form in the coordinates of the eigenvectors; Cauchy-Schwarz for the part off the diagonal |
| C142 | `MatrixUtils.h` FaddeevAlg, IsNilpotent, IsUnipotent (C142) | the coefficients of adj(X - A) satisfy the recurrence; Jacobi's formula gives the traces |
| C143 | `MatrixUtils.h` RankGaussian (C143) | invariant: pivot columns are unit columns, and the homogeneous system restricted to live columns keeps its solutions |
| C144 | `MatrixUtils.h` structure tests, norms, SimilarityTransform (C144) | loop rules over all elements |
| C145 | `Integration2DAdaptive.h`, `Integration3DAdaptive.h` (C145); the Detailed variants are not modelled | history of visits by induction on the levels left; the sum of any additive quantity over the cells waiting is the sum over the cells kept |
| C146 | `MonteCarloIntegration.h` (C146) | variance as a sum of squares, Popoviciu's bound, the stratum counter as digits in base strata_per_dim, a bijection with the grid |
| C147 | `MatrixOps.h` (C147, C148) | loop invariants carrying power, factorial and partial sum; Mathlib's `NormedSpace.exp` and `IsNilpotent.exp` |
| C148 | `MatrixOps.h:421-431` (C148) | the upper triangle decides the pairs; the diagonal is the counterexample |
| C149 | `GraphSpectral.h` `PageRank` (C149) | one round is the surfer's transition; sums are preserved; 1-norm contraction with factor d and Banach's fixed point theorem |
| C150 | `GraphSpectral.h` measures (C150) | BFS correctness (C05) turns the loops into sums over reachable vertices; symmetric pairs are counted twice |
| C151 | `GraphSpectral.h` `AlgebraicConnectivityBound` (C151) | least degree by a fold; Rayleigh quotient of the cut vector refutes the bound |
| C152 | `GraphSpectral.h` `EigenvectorCentrality` (C152) | chain of power steps; residual by the column sums; two-cycle on the path with three vertices |
| C153 | `DiracDeltaFunction.h` `DiracStep`, `DiracExp`, `DiracSqr`, `DiracSin` (C153) | each is `N k(N x)` for a kernel of mass 1; substitution and dominated convergence |
| C154 | `FunctionHelpers.h` `TaylorSeries2`, `TaylorSeries3` (C154) | expansion of the powers of x - a; error bounds of C69 |
| C155 | `PathIntegration.h` (C155) | exactness of `NDer4` on polynomials and of `IntegrateTrap` on affine functions; reflection of the trapezoidal sums |
| C156 | `Fields.h` (C156) | derivatives of the powers of the distance in each coordinate; the tolerance test is constant near the point |
| C157 | `Fields.h` bumps | derivatives of the exponential of the squared distance; iterated Gaussian integrals |

Properties not fully expressible: the memory model and fairness parts of C15-C18 (the model is
sequentially consistent at the granularity of lock sections, and liveness is given as deadlock
freedom plus a progress measure, not as fairness of the OS scheduler).

## Disagreements between the code and the properties

Each line names the theorem that exhibits the disagreement.

* C04: with a self loop the Laplacian is not D - A (`Graph.laplacian_self_loop_false`).
* C09: `HasNegativeCycle` with a start vertex that does not exist answers true
  (`Graph.hasNegativeCycle_invalid_start`).
* C11: `IsConnected` on a directed graph tests reachability from vertex 0 only; the theorem is stated for that.
* C52: `KDTree::build` with `max_leaf_size <= 0` never returns on a nonempty point set (`KD.build_diverges`).
* C23: `Union` turns a closed end into an open one when the other end is infinite
  (`Intervals.union_loses_closed_end`); the union of two empty intervals can be nonempty
  (`union_of_empty_intervals`); `Difference` keeps or loses points where bounds of the two intervals coincide
  (`difference_keeps_point`, `difference_loses_point`); intervals with point holes lose their holes
  (`intersection_forgets_holes`); DBL_MAX itself is lost (`intersection_dblMax`).
* C24: an infinite end replaced by +-10^10 can put points outside (`Intervals.covering_outside`).
* C53, C54: `contains(interval)` has false negatives, `intersects` false positives
  (`containsInterval_incomplete`, `intersects_wrong`).
* C55: the composite covering does not return the requested number of points (`composite_covering_count`).
* C27: a JSON key first seen in a later object is stored in an earlier row (`Data.json_misaligned`), an empty
  object adds no row (`json_empty_object_dropped`), a repeated key adds one (`json_duplicate_key_adds_row`).
* C28: `\b`, `\f` and `\uXXXX` are decoded to the letters after the backslash (`Data.json_escapes_lost`).
* C59: in a column of at least nine tenths integers, `3.7` becomes 3 and `12abc` becomes 12
  (`Data.int_column_truncates`).
* C29: an empty matrix is saved but refused on loading (`Bin.empty_matrix_refused`).
* C30: `Vector::LoadFromBinary` and `LoadMatrixFromBinary` report success on truncated files
  (`Bin.vector_truncated_accepted`, `matrix_truncated_accepted`); a file cut inside the header makes the loaders
  compare uninitialised variables (`truncated_header_ub`).
* C64: `Kaiser(1, beta)` and `Gaussian(1, sigma)` divide 0 by 0 (`Fourier.Windows.kaiser_gaussian_one_nan`).
* C34: the product of two polynomials without coefficients resizes to -1 and throws `std::length_error` (`Poly.mul_empty_throws`).
* C35: `poldiv` reads past the end of the dividend when it has fewer coefficients than the divisor's degree, for example 1 divided by x^2+1 (`Poly.poldiv_short_ub`).
* C40: the list constructor of `TridiagonalMatrix` with dimension 1 reads past its list (`Mat.Tri.fromList_one`); a
  2 x 2 tridiagonal matrix cannot be transposed (`Mat.Tri.transpose_two`); `IsEqualTo` of tridiagonal and band
  matrices compares storage cells that belong to no element (`Mat.Tri.isEqualTo_unused_cells`,
  `Mat.Band.isEqualTo_unused_corner`); unchecked `operator()` with a column out of range can read the next row
  (`Mat.Dense.get_column_overflow`).
* C65: `isAntiSymmetric` ignores the diagonal and accepts the identity matrix
  (`Mat.Dense.isAntiSymmetric_accepts_identity`).
* C38: `Matrix::Invert` of the zero matrix does not report it (`LinAlg.invert_zero_not_reported`).
* C37: `CholeskySolver` accepts a matrix that is symmetric only up to its tolerance and then solves the system of the
  mirrored upper triangle (`LinAlg.Chol.solve_near_symmetric`).
* C39: `TridiagonalMatrix::Solve` reads past a right-hand side that is too short (`LinAlg.Tri.solve_short`) and, being
  without pivoting, reports some invertible matrices as singular (`solve_no_pivoting`); `BandDiagonalSolver` divides by
  zero for the zero matrix (`LinAlg.BandLU.new_zero_not_reported`) and writes outside its storage when the matrix has
  more subdiagonals than rows (`new_wide_ub`).
* C42: `Inverse` refuses nonzero quaternions of norm below 10^-6 (`Geom.Quat.inverse_refuses_small`).
* C44: `BracketRoot` does not test the last interval it expands to (`Roots.bracketRoot_misses_last`);
  `FindRootBrackets` leaves its vectors longer than the number of brackets (`findRootBrackets_not_resized`).
* C68: `FindRootRidders` can report its start value -1e99 as a root when the tolerance is huge
  (`Roots.ridders_start_value`); `FindRootSecant` can report convergence outside the bracket
  (`secant_leaves_bracket`).
* C66: at pitch +-90 degrees `ToEulerZYX` returns angles of another rotation (`Geom.Quat.toEulerZYX_loses_rotation`).
* C70: the error estimates of `NSecDer2`, `NSecDer4` and `NThirdDer4` can be smaller than the error
  (`Deriv.nSecDer2_estimate_small` and the like), that of `NThirdDer2` is also at least one on the function `y`
  (`nThirdDer2_estimate_large`).
* C71: the left and right rules of order 2 to 8 apply the central formula at a shifted point, so they return the derivative
  there and are only first order (`Deriv.nDer4Left_shift` and the like); the error estimate of `NDer1Right` looks left
  (`nDer1Right_looks_left`).
* C72: the error reported by the extrapolations is not a bound (`Deriv.richardson_error_not_bound`); depth zero reads an
  empty tableau and a shrinking factor of modulus one divides by zero (`richardson_guards`).
* C73: the error estimates of mixed second derivatives count only rounding (`Deriv.mixed_estimate_small`); those of `NDer4` of a
  curve and `NDer2_uu` of a surface do not shrink with the step (`nDer4CurveError_large`, `nSecDer2UError_large`).
  The `calcJacobian` overload for functions between spaces of different dimension (Jacobians.h:67-78) calls a function
  that does not exist for its argument type, so it would not compile if used; it is modelled as if it did.
* C46: values closer than `1e-14` share a rank, whatever their scale (`Stats.computeRanks_near_ties`): data in small units is ranked wrongly.
* C74: the variance of a single value is `0 / 0` (`Stats.avgVar_few`); `AvgVar` only refuses empty data.
* C50: `abs` at zero and `asin` at one report derivatives that do not exist (`AD.abs_at_zero`, `asin_at_one`); `pow(x, 0)` at zero
  reports NaN (`powConst_zero_at_zero`); a branch on an equality reports the derivative of the branch taken at that one point
  (`branch_at_tie`).
* C48: `IntegrateTrap` and `IntegrateSimpson` assign the old value before the loop ends, so without convergence the error estimate
  is always zero (`Integ.unconverged_error_zero`, witness `integrateTrap_misreports`); a converged answer can be far off when the
  integrand is aliased by the panels (`converged_not_accurate`).
* C75: `IntegrateRomberg` with `K = 1` reports every one-panel trapezoidal sum as converged with error zero
  (`Integ.integrateRomberg_one_wrong`); with fewer rounds than points it answers zero (`integrateRomberg_short`).
* C79: with reversed bounds the integrators for singular ends take the square root of a negative number
  (`Integ.integrateSingular_reversed`); more than 21 rounds overflow an `int` (`mid_overflows`).
* C80: the convergence flag of `Integrate2D` and `Integrate3D` ignores the inner integrals; on `1/y` over the unit square, which
  diverges, the answer is reported as converged with error zero (`Integ.integrate2D_hides_failure`).
* C81: `LinearInterpRealFunc` accepts a decreasing table but takes its first abscissa for the smallest, so that without extrapolation
  it is zero everywhere (`linear_decreasing_zero`).  The length of the vector of values is not compared with that of the abscissas
  (`linear_short_values`); this holds for all classes of the file.
* C83: `Integrate` throws `DomainError` for every interval when the table is decreasing (`spline_integrate_decreasing`).
* C84: the documentation calls order 0 "piecewise constant" and order 1 "piecewise linear"; they are neither
  (`bary_zero_not_constant`, `bary_one_not_linear`).  "No poles (stable for any input)" is false for abscissas out of order
  (`bary_unsorted_pole`), which are not refused, nor are repeated ones (`bary_repeated`).
* C86: a grid with one abscissa in a direction is accepted by `BilinearInterp2D` and every evaluation reads past the array
  (`bilinear_single`).  The bicubic spline is smoother than documented (C², jointly, instead of C¹: `bicubic_spec`).
* C87: a closed `LinInterpParametricCurve` does not connect the last point to the first, it only wraps the parameter
  (`linCurve_closed_gap`).  A closed `SplineInterpParametricCurve` wraps the parameter before mapping its range to `[0, 1]`: on `[0, 2]` it
  runs twice through the first half (`splineCurve_range`), on `[2, 3]` it extrapolates far outside the data
  (`splineCurve_range_outside`); and parameters outside the range are refused, though documented as "treated as periodic".
* C49: turns of at most 1e-10 are dropped, so a right triangle with legs of 1e-6 comes back as a segment
  (`CompGeo.hull_fails_tiny`); two equal points come back as two vertices (`hull_fails_repeated`).
* C77: the number of evaluations reported by `IntegrateGKAdaptive` counts only the intervals kept, about half of the evaluations made
  (`Integ.adaptive_evals`, witness `adaptive_underreports`).
* C78: a Chebyshev rule with no points answers zero and reports convergence (`Integ.chebyshev_corners`).
* C89: a solution object cannot hold 100000 steps or more: `integrate` throws `MatrixDimensionError` (`ODE.fixed_rejects`).
* C90: velocity Verlet and leapfrog never write the last component in an odd dimension; through the solver it is 0 after the first
  step (`ODE.verlet_odd_dimension_wrong`).  With velocity-dependent accelerations both are only first order
  (`verlet_velocity_dependent_not_second_order`); the documentation of leapfrog restricts itself to separable systems, that of Verlet
  does not.
* C91: `ExtendSavedSteps` runs once per write, so that a write far past the capacity is out of bounds
  (`ODE.solution_far_write_ub`); `getTValues()` and `getXValues()` include the unused tail (`solution_times_unused_tail`).
* C92: the eighth-order Dormand–Prince stepper keeps its last stage as the derivative at the new point, which it is not, and starts the
  next step from it (`ODE.dp8_wrong_derivative`).  A negative tolerance accepts every step (`dp5_negative_tolerance`).
* C93: the extrapolation table of both Bulirsch–Stoer steppers starts from the previous correction instead of the new estimate and adds
  only the last correction, so the accepted state is `m₂ + (m₄ - m₂)/3` instead of `m₄ + (m₄ - m₂)/3`: order 2 instead of 16
  (`ODE.bs_wrong_extrapolation`).
* C94: `integrate` skips an output time that is at most `Eps` after the end of a step (the loop advances past it without storing it) and
  stores `tEnd` twice (`ODE.output_time_skipped`); with `tEnd < t0` it takes no step and returns the initial state as the one at `tEnd`
  (`backward_takes_no_step`); the test against `minStepSize` follows the last step, which was shortened to end at `tEnd`, so that a
  finished integration can throw (`throws_after_last_step`).  `max_step_size` is not used and `rejectedSteps` is always 0 for the
  Runge–Kutta steppers.
* C95: `SolveQuadratic(a, 0, 0)` computes 0/0 (`Roots.quadratic_double_zero`); a leading coefficient below `Eps` is dropped even when the
  others are as small (`quadratic_small`); `SolveCubic` of a polynomial with a double root gives three real roots and the count 1
  (`cubic_double_root`); `SolveQuartic` takes a linear coefficient below `Eps` for zero (`quartic_small`).
* C96, C97: convergence is tested on the value of the polynomial, whatever the size of its coefficients: `LaguerreRoots` of `10^-12 x`
  is `(1 + i)/2` (`Roots.laguerre_small`).  `BairstowRoots` of an odd polynomial with a leading coefficient of at most `10^-12` leaves
  out a root (`bairstow_missing`).  When its step is below the tolerance it takes the roots of the corrected factor but goes on with the
  quotient by the factor before the correction (`Factored.step`).
* C98: the zero matrix with one element is not reported singular, its threshold being zero, and `Solve` divides by zero
  (`LinAlg.QR.zero11_unreported`).  The threshold for the other columns is the machine epsilon itself, not relative to the matrix: a
  multiple of the identity below it is reported singular, with determinant 0 (`small_reported`).  The constructor writes `_d[-1]` for a
  matrix without elements (`empty_ub`).
* C99: the documentation of `JacobiSolver` says that it converges for symmetric positive definite matrices; for a 3 x 3 matrix the
  residual grows like 1.6^k (`LinAlg.Iter.jacobi_spd_diverges`).  A solver that gives up reports one iteration more than it made, and a
  first vector of the wrong length is silently replaced by zero (both in the statement of `jacobi_run` etc.).  Diagonal elements below the
  machine epsilon, or below it relative to the largest, are refused, not just zeros (`iter_refuses`).  `EstimateOptimalOmega` with no
  samples divides zero by zero (`estimateOmega_zero`).
- C100: `GoldenSectionSearch` stops when the interval is small relative to the points in it and has no iteration limit, so with the
  minimum at 0 the loop does not end in exact arithmetic (`golden_zero`); in doubles it ends when the points underflow.
- C100: `BracketMinimum(f, a, a)` reports a valid bracket of three equal points, and the searches then report `a` as a converged
  minimum of any function (`bracket_equal`, `goldenAB_equal`).
- C100: `BrentMinimizeWithDeriv` may leave the bracket for functions that are not unimodal; only the unimodal case is covered.
- C101: `CoordTransf3DCartOrthogonal` checks that the base vectors are orthogonal but not their lengths, and takes the transposed matrix for
  the inverse: with vectors of length 2, forth and back multiplies by 4 (`orthogonal_scaled`).
- C101: `CoordTransfCart3DRotationQuaternion` keeps a quaternion within 1e-6 of unit length as it is, so `transfInverse` does not quite undo
  `transf` (`quatRot_nearUnit`).
- C101: `CoordTransfSphericalToCartesian::getInverseBasisVec` (and the general `getInverseBasisVec`) is documented as the dual basis but
  returns rows of the Jacobian matrix, not of its inverse (`sphInverseBasis_not_dual`).
- C101: spherical coordinates of a point closer to the origin than 100 machine epsilons have angle 0 (`spherical_tiny`).
- C102: the constructors of `Tensor3`, `Tensor4` and `Tensor5` accept negative numbers of indices and then write outside an array
  (`new_negative`); arithmetic on `Tensor2` forgets which index is upper and adds tensors of different kinds (`arith_variance`); `Contract`
  accepts two lower indices, for which the result depends on the coordinates (`contract3_covariant`).
- C102: `transfTensor2` exchanges the two numbers of indices (`tensor2_variance`) and evaluates the derivatives of the inverse at the old position
  (`tensor2_position`). `transfTensor3`, `transfTensor4` and `transfTensor5` call members the tensor classes do not have.
- C103: `RaiseIndex` and `LowerIndex` of a `Tensor2` always label the first index lower and the second upper (`raise2_variance`).
- C104: `DivergenceViaDet` returns 0 where the root of the determinant of the metric is below 1e-6, for example in spherical coordinates at
  distance 1e-4 (`divergenceViaDet_zero`). The Laplacians and `DivSpher` compare `r*r` with the tolerance meant for `r` (`r2_refused`).
- C105: the comment of the class says the sum of c_j T_j, but c_0 is halved. `Integral` leaves out the term of degree n, so the integral of
  `FromPolynomial(p)` loses its leading term (`integral_not_exact`, `integral_polynomial`), and reads `_coef[-1]` for one coefficient
  (`integral_one_ub`). `Derivative` ignores the truncation (`derivative_ignores_truncation`). A negative number of terms throws
  `VectorInitializationError`, not the documented `invalid_argument` (`construct_errors`). `MaxError` with no samples divides by zero; with
  rounding its last sample can fall outside [a,b] and throw (not modelled).
- C106: `ChebyshevBasis::RecurrenceCoefficients(0)` gives 2x instead of x (`chebyshev_not_recurs`), and `GetExtrema(0)` divides by zero
  (`chebyshev_extrema_zero`). `WeightFunction` of the first kind is 10^10 at the ends, where `ComputeCoefficient` samples it: coefficients
  are thousands instead of one (`chebyshev_coefficient_wrong`). For Hermite and Laguerre `ComputeCoefficient` integrates between infinite
  limits, which gives NaN (not modelled). `AssociatedLegendreBasis::Evaluate(l, x)` is documented as P_l^m(x) but returns
  `SphLegendre(l, m, x)`, the normalised function of an angle (`assocLegendreEval_wrong`). `SphLegendre(l, l+1, theta)` multiplies zero by
  infinity (`sphLegendre_above`). The library's `AssocLegendre` has the sign (-1)^m; `std::assoc_legendre`, used on other platforms, has not
  (so results depend on the platform; only the library's version is modelled). `Comp_ellint_2` doubles the power of two before its first use;
  at k = 1 it returns a large negative number instead of 1 (`compEllint2_wrong`). `Comp_ellint_1(1)` is finite (`compEllint1_one`); above one
  both compare NaN and return at once (undefined in the model, `compEllint_outside`). `FactorialInt` overflows from 21 on
  (`factorialInt_overflow`).
- C107: for three or more points that all have the abscissa 0 the threshold of the singularity test is itself 0, so that `|det| < 0` fails and `LinearLeastSquares` divides by zero instead of throwing `SingularMatrixError` (`lineFit_vertical_zero_wrong`). Two points with distinct abscissas closer than ten machine epsilons are given a horizontal line although a line through both exists (`lineFit_nearlyVertical_wrong`). The comment of the function announces `std::runtime_error` for singular systems; `SingularMatrixError` derives from `std::domain_error`.
- C109: `r_squared` is documented as lying between 0 and 1; without constants in the span of the functions it can be negative (`generalFit_r2_wrong`).
  The comment announces `std::invalid_argument`; the code throws `CurveFittingError`.
- C110: elements below `EigenSolverZeroThreshold` are skipped in a sweep but counted in the norm; if all are below it and the norm is above the
  tolerance the solver makes all its sweeps in vain and reports failure (`solve_stalls`); with `Real` = `float` (threshold 1e-6, default tolerance
  1e-10) this happens for the matrix `[[2, 1e-7], [1e-7, 2]]`. A general matrix with more columns than rows is silently cut to its leading block.
- C112: `IsSimple` looks only for sides that cross in an inner point of both; `[(0,0),(4,0),(2,0),(2,2)]`, two of whose sides overlap, is accepted
  (`isSimple_wrong`). `IsConvex` looks only at the turning direction, so a pentagram is accepted, and `Contains` is false at its centre although it
  winds twice around it (`isConvex_wrong`).
- C113: `Intersection` of segments uses an absolute tolerance for areas and a box test: the degenerate segment at `(0,2)` is reported as a common point
  with the segment from `(0,0)` to `(2,2)` (`seg_intersection_degenerate_wrong`), and two segments of length about 10⁻⁶ that cross at a right angle
  are reported as an overlap (`seg_intersection_small_wrong`).
- C114: `Triangle2D` invalidates its cached lengths when a reference to a vertex is handed out, not when the vertex is changed: a reference kept
  while the lengths are used makes them stale (`history_stale_wrong`). `Contains` rejects every point for a triangle with legs of 10⁻⁶
  (`contains_small_wrong`).
- C115: `ChordLength(3π)` of the unit circle is −2 (`chordLength_wrong`). `Expanded` with a margin below minus half the width swaps the corners: the
  unit box shrunk by 1 on every side is again the unit box (`box_expanded_wrong`). The comment calls the result of `Box2D::ClosestPoint` a point of
  the boundary; a point inside the box is returned unchanged (`box_closest`).
- C116: `IntersectRayTriangle` compares the determinant, which scales with the direction and both edges, with the absolute `1e-10`: the ray straight through
  the middle of a triangle with sides `1e-6` misses, and a direction of length `1e-11` misses everything of size 1 (`rayTriangle_small_wrong`).
- C117: `ClipPolygon` asks for a convex clip region but needs it counterclockwise: at a convex region given clockwise, a triangle inside it disappears, and
  `PolygonDifferenceApprox` then returns it unchanged (`clip_clockwise_wrong`). `PolygonUnionApprox` says that the hull is exact for convex polygons;
  for two squares with a gap it contains the gap (`union_wrong`).
- C118: `Line3D::Dist(line)` returns for parallel lines how far the second starting point lies along the first line, not the distance: 0, or a negative number, for lines
  three apart (`distLine_wrong`); `Intersection` reports the distance 0 for them (`intersection_distance_wrong`).
- `Line3D::IsPerpendicular` compares the scalar product without its absolute value: all pairs of directions at an obtuse angle, opposite ones included, are
  perpendicular (`perpendicular_wrong`).
- C119: `Plane3D::IntersectionWithPlane` has the sign of the constants wrong: the line returned satisfies `n·x = D` instead of `n·x = -D`, so it misses every plane that
  does not go through the origin (`meetPlane_spec`, `meetPlane_wrong`; `z = 1` and `x = 0` give a line through `(0, 0, -1)`, `meetPlane_wrong_example`).
- `Plane3D::IsParallelToPlane` is false for opposite normals, and `DistToPlane` is then 0 for planes that do not meet (`distPlane_opposite`, `distPlane_wrong`).
- The constructor from intercepts does not normalise although `Normal` promises a unit vector, so the tolerance of `IsPointOnPlane` is not a distance for such
  planes (`onPlane_wrong`: a point 28 away is on the plane).
- C120: `Triangle3D::IsPointInside` does not test whether the point is in the plane of the triangle: a point a thousand units above a triangle with sides 1 is reported inside (`S3.inside_wrong`).
- `RectSurface3D` accepts every plane quadrilateral. For a trapezoid `getArea` and the surface itself are wrong (`S3.rect_wrong`); `Torus3D` builds its surface from such trapezoids.
- `TriangleSurface3D` accepts collinear vertices and then has a null normal vector (`S3.surf_collinear`); `RectSurface3D` refuses them.
- C121: `Box3D::Intersection` returns for disjoint boxes the box of the single point (0,0,0), called empty in its comment; `Contains` accepts the origin in it (`B3.box_intersection_wrong`).
- `Box3D::Expanded` with a large negative margin swaps the corners: the unit box shrunk by 1 is the unit box, shrunk by 2 it is larger (`B3.box_expanded_wrong`).
- The default `BoundingSphere3D` is commented "unit sphere" but has radius 0 (`B3.sph_default`).
- C122: The triangles of a `Sphere3D` at the north pole are counterclockwise seen from outside and all others clockwise, although the comments say all face outwards (`Bod.ball_winding`, `Bod.ball_winding_wrong`).
- The mesh of a `Pyramid3D` has its base at z = -a/2 and its apex at z = h, while `IsInside`, `Volume` and the bounding box put the base at the centre's height; the constructor with a centre leaves the mesh at the origin (`Bod.pyr_mesh_wrong`).
- `PyramidEquilateral3D` uses the height a/sqrt 3, for which the lateral edges are shorter than the base edges; a/sqrt 2 would make them equal (`Bod.pyr_equilateral_wrong`).
- `Torus3D::Volume` is not the volume of the set `IsInside` describes if r > R (`Bod.torus_spindle_wrong`).
- The bounding box of `ISolidBodyWithBoundary` samples the bounding functions at a few points and can miss part of the body; so can its bounding sphere (`Bod.bounded_box_wrong`, `Bod.bounded_sphere_wrong`).
- C123: The azimuth of `Point3Spherical` is documented as 0 to 2 pi; the constructor from a Cartesian point returns it in (-pi, pi] (`Ang.azimuth_negative`).
- C124: `Parallelogram::FromDiagonals` subtracts a quarter of the squared diagonal where the law of cosines needs the whole: from two diagonals √2 at a right angle it makes a rhombus with cosine 3/4 instead of the unit square (`Shp.fromDiagonals_wrong`; the sides are right, `Shp.fromDiagonals_partial`).
- An `Ellipse` with `a < b` passes `IsValid`, but its eccentricity is the root of a negative number, and the directrix distance of a circle divides by zero (`Shp.ellipse_wrong`).
- C125: `Tetrahedron::Volume` mixes up two triples of edges in the Cayley-Menger determinant (a² b² f² and b² c² d² in place of a² b² d² and b² c² f²): the tetrahedron (0,0,0), (1,0,0), (0,1,0), (0,0,2) gets the volume 5/12 instead of 1/3 (`Shp.tet_volume_wrong`). `Circumradius` of a tetrahedron that is not regular is 0.
- C126: `MinimumEnclosingCircle` uses an absolute tolerance: three points 10⁻⁶ apart count as collinear, and the circle returned misses one of them by more than half of its radius (`MEC.minCircle_wrong`).
- C127: `ComputeDelaunay` uses an auxiliary triangle only 20 times the size of the box: for the three non-collinear points (0,0), (50,-1), (100,0) it returns no triangle at all (`Del.delaunay_misses`).
- The in-circle test compares a determinant of degree four with the absolute tolerance 1e-10, so points less than about 10⁻³ apart are not told from cocircular ones; `Del.delaunay_partial` asks that no determinant lies in this range.
- C128: `Interpolate` returns the default value for points inside a triangle whose doubled area is below 1e-10, although `LocatePoint` finds the triangle (`Del.interpolate_wrong`).
- C129: `EarClipTriangulation` falls back to a fan when no corner turns by more than 1e-10; for a simple polygon of size 10⁻⁶ the fan has a triangle outside of the polygon (`Ear.earClip_wrong`). A polygon with three vertices is returned in its own order, larger ones always counter-clockwise.
- C130: `RosslerSystem`, `VanDerPolSystem` and `ChuaCircuit` override `jacobian` with the analytical one but leave `hasAnalyticalJacobian` false; `DuffingSystem::isAutonomous` returns false although `derivs` ignores the time, because the phase is a state.
- C131: `DiscreteMapLyapunov` documents exponents in descending order and `maxExponent` as the largest, but it returns them in the order of the frame: for diag(1/2, 2) `maxExponent` is -log 2 (`Lyap.lyapunov_order_wrong`).
- After a zero slope the frame of `DiscreteMapLyapunov` stays zero and later iterations add nothing: the logistic map started at 1/2 gets the exponent 0 for every r (`Lyap.lyapunov_lost`).
- C132: `VectorsAngle`, `VectorProjectionParallelTo` and `VectorProjectionPerpendicularTo` divide by zero for a zero vector without an error.
- C133: The documented counterclockwise order of the vertices of a Voronoi cell is not established by the code: the chain of triangles goes on to the neighbour with the lowest index, in either direction. No theorem claims an orientation.
- C135: `BFGS::Minimize` can report `converged = true` at its start (C135, `bfgs_false_convergence`): when sufficient decrease needs a step below 2^-20 of the direction, `WolfeZoom` returns 0, the value does not change, and the test on values is met. For `2^23 x^2 - x + y^2` from (0, 1) it returns (0, 1) with value 1; the minimum is below 0.
- C136: `LBFGS::Minimize` reports one iteration more than its limit when it does not converge, since `MakeResult` adds one to a counter already at the limit, and it can return a point worse than its start (C136, `lbfgs_spec`, `lbfgs_worse`).
- C139: of several events in one accepted step only the earliest is recorded; with the action Continue the others are lost (`second_event_lost`). An event function that is exactly zero at the end of a step is missed altogether, since neither adjacent step has a negative product (`zero_at_step_end_missed`).
- C140: `SimpleErrorEstimate` is negative when the ratio is below one (`simpleError_negative`); `Extrapolate` with `max_iter = 0` writes outside an empty tableau (`extrapolateTo_edge`).
- C141: the zero matrix is classified as Indefinite (`zero_indefinite`), and so is not positive semidefinite for the tests. A 3x3 matrix with elements of the size of the tolerance that takes a negative value is classified as PositiveDefinite, as the residual of the eigenvalues is not taken into account (`posDef_wrong`).
- C142: the 1x1 zero matrix is reported as not nilpotent (`one_by_one_missed`), since the first power is never tested. With the default zero tolerance 1e-6 I is reported as nilpotent (`small_invertible_nilpotent`).
- C143: the tolerance of RankGaussian is absolute; with the default 1e-12 I is reported to have rank 0 (`rank_small`).
- C144: IsDiagonal and IsLowerTriangular accept the 1x2 matrix (1 5), IsLowerTriangular refuses a 2x1 matrix, and IsUpperTriangular of a 3x1 matrix reads outside the storage (`structure_rectangular`): the column index runs to the number of rows. MaxAbsDiff of matrices of different shapes ignores everything outside the common corner (`maxAbsDiff_shapes`).
- C145: `converged` is true only if the first estimate over the whole region is accepted: the accumulator of a cut cell starts with `converged = false`, so any integration that subdivides is reported as not converged (`integrate_converged`); `exact_not_converged` has value and error estimate exactly right. `function_evaluations` leaves out the evaluations in the cells that were cut (900 reported of 1125). The `rule` of the configuration is never used.
- C146: with `use_antithetic` and one sample (or none at all) the mean is 0/0 (`integrate_reject`). With an odd number of reversed bounds `error_estimate` is negative or zero and `converged` is always true (`reversed_converges`).
- C147: for an odd number of terms `Cos(a, n)` goes one term further than `Cosh(a, n)`: to degree n+1, beyond the requested degree (`cos_spec`).
- C148: `IsHermitian` starts its inner loop at i+1 and never tests the diagonal: a diagonal matrix with non-real entries is reported Hermitian (`isHermitian_false_positive`).
- C150: for directed graphs `AverageClusteringCoefficient` tests only the direction from the earlier to the later entry of the neighbour list, so two graphs with the same edges get 1 and 0 (`averageClustering_order`); `AveragePathLength` ignores paths from a larger to a smaller vertex number, and gives 0 for 2 -> 1 -> 0 (`averagePathLength_directed`).
- C151: `AlgebraicConnectivityBound` uses the least degree where Fiedler's bound has the edge connectivity. For two complete graphs on six vertices joined by one edge it returns about 0.341, above the algebraic connectivity, which is at most 1/3 (`connBound_not_lower`).
- C152: `EigenvectorCentrality` is a power iteration without a shift, so it does not converge on bipartite graphs. For the path with three vertices and the default limit of 100 it returns three equal centralities (`eigenvectorCentrality_oscillates`). For a graph without edges it returns the zero vector (`eigenvectorCentrality_zero`).
- C153: `DiracSqr` computes `_N * _N` in `int`, so every evaluation with `N >= 46341` overflows (`diracSqr_overflow`); `DiracExp` is not affected because its product starts with a `Real`.
- C156: The header states the convention `Phi = C/r`, `F = -grad Phi`, but `InverseRadialPotentialForceFieldCart` and `InverseRadialForceFieldCart` return `+grad Phi` (`force_gradient_partial`, `force_not_negative_gradient`): a repulsive potential gives an attractive force and the other way round.
- C157: `MexicanHatField` is documented as the Laplacian of a Gaussian with zero mean, but it uses the factor `1 - r^2/sigma^2` of the one-dimensional wavelet on a field in three dimensions, where the factor would be `3 - r^2/sigma^2`. It is no multiple of such a Laplacian (`mexicanHat_not_laplacian`) and its integral is `-2 A (2 pi sigma^2)^(3/2)` (`mexicanHat_mass`).
