{"id": "C01", "title": "Graph stays well formed under every history of operations", "statement": "Starting from an empty graph of either type, after any sequence of addVertex / addEdge / removeEdge / clear calls (including calls that throw), every stored edge leads to an existing vertex, no ordered pair of vertices carries two edges, an undirected graph contains u-v exactly when it contains v-u with the same weight, and a graph created without self loops contains none.", "quantifier": "all finite sequences of public mutating calls, all arguments (valid and invalid), both graph types, both self-loop settings", "why_tests_cant": "the number of histories is unbounded and the symmetry of an undirected graph depends on the whole history of insertions and removals", "anchors": ["mml/base/Graph.h: Graph::addVertex, addEdge, removeEdge, clear"]}
{"id": "C02", "title": "Graph queries reflect exactly the successful edits", "statement": "After any history of calls, hasEdge(u,v) is true exactly when the last successful edit of that pair was an addEdge, edgeWeight(u,v) returns that edit's weight and throws when there is no such edge; an edit of one pair never changes the answer for any other pair; a throwing call changes nothing.", "quantifier": "all histories, all pairs of vertices, both graph types", "why_tests_cant": "frame conditions range over every other pair of vertices and every history", "anchors": ["mml/base/Graph.h: Graph::addEdge, removeEdge, hasEdge, edgeWeight"]}
{"id": "C03", "title": "numEdges counts the edges", "statement": "After any history of calls, numEdges() equals the number of ordered pairs with an edge in a directed graph, and the number of unordered pairs (a self loop counting once) with an edge in an undirected graph.", "quantifier": "all histories of operations on both graph types", "why_tests_cant": "a counter that drifts does so only after particular long histories", "anchors": ["mml/base/Graph.h: Graph::numEdges, addEdge, removeEdge, clear"]}
{"id": "C04", "title": "Graph Laplacian is D - A with zero row sums", "statement": "For every undirected graph the Laplacian matrix equals the degree matrix minus the adjacency matrix and each row of it sums to zero.", "quantifier": "all graphs reachable by the public API", "why_tests_cant": "universally quantified over graphs and vertices; known to fail for self loops, which tests on simple graphs never show", "anchors": ["mml/base/Graph.h: Graph::toLaplacianMatrix, toAdjacencyMatrix, toDegreeMatrix"]}
{"id": "C05", "title": "BFS finds exactly the reachable vertices with minimum hop counts", "statement": "BFS from a valid start visits exactly the vertices reachable from the start, each once; the reported distance of each visited vertex is the least number of edges of any path to it; an unreachable vertex is reported as not found; the parent of a visited vertex other than the start is a neighbour one hop closer.", "quantifier": "all graphs, all start vertices", "why_tests_cant": "minimality quantifies over all paths in all graphs", "anchors": ["mml/algorithms/GraphAlgorithms.h: BFS"]}
{"id": "C06", "title": "DFS visits exactly the reachable vertices once", "statement": "DFS from a valid start returns a visit order that lists every reachable vertex exactly once, starting with the start vertex, and nothing else.", "quantifier": "all graphs, all start vertices", "why_tests_cant": "reachability quantifies over all paths in all graphs", "anchors": ["mml/algorithms/GraphAlgorithms.h: DFS"]}
{"id": "C07", "title": "Dijkstra returns true shortest distances", "statement": "For every graph whose edge weights are nonnegative and every valid start, the distance Dijkstra reports for v is the minimum total weight over all walks from start to v, and infinity exactly when there is no walk.", "quantifier": "all graphs with nonnegative weights, all starts and targets", "why_tests_cant": "minimality over infinitely many walks in all graphs", "anchors": ["mml/algorithms/GraphAlgorithms.h: Dijkstra, DijkstraPath"]}
{"id": "C08", "title": "ReconstructPath yields a real path of the reported length", "statement": "The vertex list rebuilt from Dijkstra's parents is a walk of the graph from start to the target whose total weight is the reported distance.", "quantifier": "all graphs with nonnegative weights, all starts and reachable targets", "why_tests_cant": "quantifies over all graphs and needs acyclicity of the parent pointers", "anchors": ["mml/algorithms/GraphAlgorithms.h: Dijkstra, ReconstructPath"]}
{"id": "C09", "title": "Bellman-Ford is exact or reports a negative cycle", "statement": "If no negative-weight cycle is reachable from the start, Bellman-Ford returns the minimum walk weight to every vertex; if one is reachable it returns the empty (failure) result; HasNegativeCycle is true exactly when one is reachable.", "quantifier": "all graphs with arbitrary real weights, all valid start vertices", "why_tests_cant": "quantifies over all walks, cycles and graphs", "anchors": ["mml/algorithms/GraphAlgorithms.h: BellmanFord, HasNegativeCycle"]}
{"id": "C10", "title": "Topological sort is correct and complete", "statement": "TopologicalSort of a directed graph returns a list that contains every vertex exactly once with every edge going from earlier to later exactly when the graph has no directed cycle, and the empty list otherwise; IsDAG agrees.", "quantifier": "all directed graphs", "why_tests_cant": "order must hold for every edge of every graph; acyclicity quantifies over all cycles", "anchors": ["mml/algorithms/GraphAlgorithms.h: TopologicalSort, IsDAG"]}
{"id": "C11", "title": "Connected components partition by connectivity", "statement": "ConnectedComponents of an undirected graph gives two vertices the same label exactly when there is a path between them, uses exactly the labels 0..k-1 and reports k; IsConnected is true exactly when any two vertices are joined by a path.", "quantifier": "all undirected graphs", "why_tests_cant": "quantifies over all pairs of vertices and all paths", "anchors": ["mml/algorithms/GraphAlgorithms.h: ConnectedComponents, IsConnected"]}
{"id": "C12", "title": "Union-find represents the generated equivalence", "statement": "After any sequence of unite and find calls, find(a) == find(b) exactly when a and b are related by the equivalence relation generated by the united pairs; unite returns true exactly when the two were not related before; find never changes the relation.", "quantifier": "all sequences of Union and Find calls on any size", "why_tests_cant": "path compression and rank updates make the structure depend on the whole history", "anchors": ["mml/algorithms/GraphAlgorithms.h: detail::UnionFind find, unite"]}
{"id": "C13", "title": "Kruskal builds a minimum spanning forest", "statement": "Kruskal of an undirected graph returns edges of the graph that form no cycle and connect exactly the vertices connected in the graph, no other spanning forest has smaller total weight, and isComplete tells whether the graph is connected.", "quantifier": "all undirected weighted graphs, all spanning forests", "why_tests_cant": "optimality is over all spanning forests of all graphs", "anchors": ["mml/algorithms/GraphAlgorithms.h: Kruskal"]}
{"id": "C14", "title": "Prim builds a minimum spanning tree", "statement": "Prim of a connected undirected graph returns n-1 edges of the graph that connect all vertices with minimum total weight, from any start vertex; isComplete tells whether the graph is connected.", "quantifier": "all connected undirected weighted graphs, all spanning trees", "why_tests_cant": "optimality is over all spanning trees of all graphs", "anchors": ["mml/algorithms/GraphAlgorithms.h: Prim"]}
{"id": "C15", "title": "Every submitted task runs at most once and in FIFO start order", "statement": "In every interleaving of any number of workers and submitters, each enqueued task is taken by exactly one worker at most once, and tasks are taken in the order they were enqueued.", "quantifier": "all schedules, any number of workers and tasks", "why_tests_cant": "schedules are unbounded and nondeterministic", "anchors": ["mml/tools/ThreadPool.h: ThreadPool::enqueue, worker loop"]}
{"id": "C16", "title": "wait_for_tasks is a barrier", "statement": "In every interleaving, when wait_for_tasks returns there is an instant between its call and its return at which no task is queued and none is running; every task enqueued before the call has finished, including after exceptions.", "quantifier": "all schedules, any number of workers, waiters and tasks, throwing or not", "why_tests_cant": "a race that lets the waiter through early shows only under particular schedules", "anchors": ["mml/tools/ThreadPool.h: ThreadPool::wait_for_tasks, worker loop"]}
{"id": "C17", "title": "No lost wakeup, no deadlock", "statement": "From every reachable state of the pool some thread that can make progress exists: a waiter is never left sleeping forever when all tasks are done, a worker is never left sleeping forever while tasks are queued or after stop.", "quantifier": "all reachable states of all schedules", "why_tests_cant": "deadlocks depend on rare schedules", "anchors": ["mml/tools/ThreadPool.h: ThreadPool::enqueue, wait_for_tasks, ~ThreadPool"]}
{"id": "C18", "title": "Destructor drains and joins", "statement": "When the destructor returns, every task enqueued before it has been run and every worker has exited.", "quantifier": "all schedules, any number of tasks pending at destruction", "why_tests_cant": "shutdown races are schedule dependent", "anchors": ["mml/tools/ThreadPool.h: ThreadPool::~ThreadPool, worker loop"]}
{"id": "C19", "title": "Exactly one captured exception per throwing task", "statement": "The exception queue holds exactly one entry for each finished task that threw, in the order they were recorded; get_exception pops them first in first out and has_exceptions is true exactly when one is left.", "quantifier": "all schedules and all patterns of throwing tasks", "why_tests_cant": "schedule dependent and over all histories", "anchors": ["mml/tools/ThreadPool.h: ThreadPool worker loop, get_exception, has_exceptions"]}
{"id": "C20", "title": "KD-tree nearest neighbour equals brute force", "statement": "For every nonempty point set, leaf size >= 1 and query point, the nearest neighbour returned is an input point at the minimum distance from the query.", "quantifier": "all point sets, dimensions, leaf sizes and queries, every median choice nth_element may make", "why_tests_cant": "pruning errors show only for adversarial point sets", "anchors": ["mml/algorithms/CompGeometry/KDTree.h: KDTree::build, findNearest, FindNearestBruteForce2D, FindNearestBruteForce3D"]}
{"id": "C21", "title": "KD-tree k-nearest equals brute force", "statement": "k-nearest search returns min(k,n) distinct input indices, and no point left out is closer than any returned one.", "quantifier": "all point sets, k, queries and median choices", "why_tests_cant": "pruning against the heap top depends on visiting order", "anchors": ["mml/algorithms/CompGeometry/KDTree.h: KDTree::build, findKNearest"]}
{"id": "C22", "title": "KD-tree range queries are exact", "statement": "Radius search returns exactly the indices of points within the radius and box search exactly those inside the box, each once.", "quantifier": "all point sets, radii, boxes and queries", "why_tests_cant": "boundary and duplicate cases over all inputs", "anchors": ["mml/algorithms/CompGeometry/KDTree.h: KDTree::build, findInRadius, findInBox"]}
{"id": "C23", "title": "Interval set operations are pointwise correct", "statement": "A point belongs to Intersection(a,b) exactly when it belongs to both; to Union exactly when it belongs to either; to Difference(a,b) exactly when it belongs to a and not to b; to Complement(a) exactly when it does not belong to a.", "quantifier": "all intervals of all open/closed/infinite kinds, all points", "why_tests_cant": "must hold at every boundary combination for all reals", "anchors": ["mml/base/Intervals.h: Interval::Intersection, Union, Difference, Complement, contains, all BaseInterval classes"]}
{"id": "C24", "title": "Equidistant covering stays inside and spans", "statement": "GetEquidistantCovering(n) returns n strictly increasing points inside the interval; with two or more points the i-th is lower + i*(upper-lower)/(n-1), moved inwards by 0.1% of the spacing at an open first or last end; a single point is the middle.", "quantifier": "all intervals with lower < upper (infinite ends counting as the documented +-10^10) and all n", "why_tests_cant": "over all endpoints and n", "anchors": ["mml/base/Intervals.h: BaseInterval::GetEquidistantCovering"]}
{"id": "C25", "title": "CSV line splitting inverts CSV quoting", "statement": "Quoting any list of fields (doubling embedded quotes and wrapping in quotes whenever needed) and joining with the delimiter gives a line that SplitLine splits back into exactly the original fields.", "quantifier": "all nonempty lists of arbitrary strings without line breaks, all delimiters other than the quote character", "why_tests_cant": "quoting edge cases (quotes, delimiters, empty fields, trailing fields) over all strings", "anchors": ["mml/tools/data_loader/DataLoaderParsing.h: SplitLine"]}
{"id": "C26", "title": "Loaded CSV has rectangular aligned columns", "statement": "After a successful CSV load of any text of a table (any legal quoting, LF or CR LF, blank lines, optional byte order mark) every column has exactly as many entries as there are data rows, the names come from the header, and entry r of column c is the meaning of field c of data row r (missing when the field is absent, empty or a sentinel). A load fails only when there is nothing but blanks, or in strict mode when some row has another width.", "quantifier": "all tables of strings without line breaks, all their CSV texts, all load options; for totality all texts whatsoever", "why_tests_cant": "row alignment over all ragged inputs", "anchors": ["mml/tools/data_loader/DataLoaderCSV.h: LoadCSV, LoadFromCSVString"]}
{"id": "C27", "title": "JSON rows stay aligned", "statement": "Loading a JSON array of objects gives one row per object, and row i of column k holds the value of key k in object i (missing when absent).", "quantifier": "all arrays of flat objects", "why_tests_cant": "alignment depends on which keys each object has; the shipped tests use uniform objects", "anchors": ["mml/tools/data_loader/DataLoaderJSON.h: JsonParser::ParseArrayOfObjects, LoadFromJSONString, LoadJSON"]}
{"id": "C28", "title": "JSON string and number tokens survive a print/parse round trip", "statement": "Every JSON text of an array of flat objects, written with any white space and any legal escapes, is read as the keys and values it denotes.", "quantifier": "all key/value strings including quotes, backslashes and control characters", "why_tests_cant": "escape handling over all strings", "anchors": ["mml/tools/data_loader/DataLoaderJSON.h: JsonParser::ParseString, ParseNumber, ParseBool, ParseNull, ParseArrayOfObjects"]}
{"id": "C29", "title": "Binary save/load round trip", "statement": "Saving a vector or a nonempty matrix in the binary format and loading the file succeeds and yields the same dimensions and the same element bits.", "quantifier": "all vectors and matrices of representable size, all element bit patterns", "why_tests_cant": "all sizes and all bit patterns", "anchors": ["mml/base/Vector/Vector.h: Vector::SaveToBinary, Vector::LoadFromBinary", "mml/tools/serializer/MatrixIO.h: SaveMatrixToBinary, LoadMatrixFromBinary", "mml/tools/serializer/VectorIO.h: SaveComplexVector, LoadComplexVector, SaveRealAsComplex, LoadComplexAsReal"]}
{"id": "C30", "title": "Binary load rejects damaged files", "statement": "Loading a file that is a strict prefix of a saved file, or whose magic, version or element size differs, reports failure.", "quantifier": "all saved files, all truncation points (crash during save)", "why_tests_cant": "every crash point of every file", "anchors": ["mml/base/Vector/Vector.h: Vector::LoadFromBinary", "mml/tools/serializer/MatrixIO.h: LoadMatrixFromBinary", "mml/tools/serializer/VectorIO.h: LoadComplexVector"]}
{"id": "C31", "title": "FFT computes the DFT", "statement": "For every input whose length is a power of two, FFT::Forward returns the same vector as the defining DFT sum; other lengths are rejected.", "quantifier": "all lengths 2^m and all complex inputs", "why_tests_cant": "the in-place bit-reversed butterflies must be right for every length", "anchors": ["mml/algorithms/Fourier.h: FFT::Transform, BitReversalPermute, Forward, DFT::Forward"]}
{"id": "C32", "title": "Inverse transforms invert", "statement": "FFT::Inverse(FFT::Forward(x)) = x and DFT::Inverse(DFT::Forward(x)) = x for every admissible x.", "quantifier": "all admissible lengths and inputs", "why_tests_cant": "all lengths and inputs", "anchors": ["mml/algorithms/Fourier.h: FFT::Inverse, DFT::Inverse"]}
{"id": "C33", "title": "DCT and DST round trips", "statement": "DCT::InverseII(DCT::ForwardII(x)) = x and the DST is its own inverse; the fast DCT equals the reference DCT.", "quantifier": "all nonempty real inputs", "why_tests_cant": "all lengths and inputs", "anchors": ["mml/algorithms/Fourier.h: DCT::ForwardII, InverseII, ForwardDST"]}
{"id": "C34", "title": "Polynomial arithmetic agrees with evaluation", "statement": "For all polynomials p, q and every x: (p+q)(x)=p(x)+q(x), (p-q)(x)=p(x)-q(x), (p*q)(x)=p(x)q(x), (c*p)(x)=c p(x), and Horner evaluation equals the power sum.", "quantifier": "all coefficient lists and all x", "why_tests_cant": "all degrees and values", "anchors": ["mml/base/Polynom.h: Polynom::operator(), operator+, operator-, operator*, operator/, operator==, Reduce"]}
{"id": "C35", "title": "Polynomial division identity", "statement": "poldiv(u,v) returns quotient and remainder with u = q*v + r and degree of r below degree of v, whenever it returns normally; a zero divisor is rejected.", "quantifier": "all dividends and divisors", "why_tests_cant": "all degrees; degenerate lengths cause out-of-range access", "anchors": ["mml/base/Polynom.h: Polynom::poldiv"]}
{"id": "C36", "title": "Derivative, integral and interpolation", "statement": "Differentiating the integral of p gives back p, and derivative() has the coefficients of the formal derivative; Derive stores the value and the successive derivatives at x for every polynomial with at least one coefficient; FromValues through distinct nodes returns a polynomial taking the given values and rejects mismatched, empty or repeated nodes.", "quantifier": "all polynomials and all distinct nodes", "why_tests_cant": "all degrees and nodes", "anchors": ["mml/base/Polynom.h: Polynom::derivative, integral, Derive, FromValues"]}
{"id": "C37", "title": "Direct solvers solve", "statement": "When Gauss-Jordan, LU or Cholesky (for a symmetric matrix) returns a solution, A*x equals b exactly in exact arithmetic, for every nonzero A and for vector and matrix right-hand sides; singular matrices are reported, matrices far enough from singular are solved, Cholesky accepts exactly the positive definite matrices and its factor times its transpose is A.", "quantifier": "all sizes, matrices and right-hand sides", "why_tests_cant": "pivoting bookkeeping must be right for every elimination order", "anchors": ["mml/core/LinAlgEqSolvers/LinAlgDirect.h: GaussJordanSolver, LUSolver, LUSolverInPlace, CholeskySolver"]}
{"id": "C38", "title": "Matrix inverse and determinant", "statement": "When Matrix::Invert, LU inverse or Cholesky inverse returns normally the product with the original is the identity, LU det equals the determinant, and Cholesky logdet its logarithm.", "quantifier": "all sizes and matrices", "why_tests_cant": "all pivot sequences", "anchors": ["mml/core/LinAlgEqSolvers/LinAlgDirect.h: LUSolver::inverse, det, CholeskySolver::inverse, logdet", "mml/base/Matrix/Matrix.h: Invert, inverse"]}
{"id": "C39", "title": "Tridiagonal and band solvers solve", "statement": "TridiagonalMatrix::Solve and BandDiagonalSolver (for a matrix other than zero with at most as many subdiagonals as rows) either report a singular matrix or return a vector whose product with the full matrix is the right-hand side; singular matrices are reported, well-conditioned band matrices and diagonally dominant tridiagonal ones are solved; Det of a band matrix is its determinant.", "quantifier": "all sizes, bandwidths and right-hand sides", "why_tests_cant": "all sizes and bandwidths", "anchors": ["mml/base/Matrix/MatrixTriDiag.h: TridiagonalMatrix::Solve", "mml/core/LinAlgEqSolvers/LinAlgDirect.h: BandDiagonalSolver"]}
{"id": "C40", "title": "Packed storage is faithful", "statement": "For symmetric, band, tridiagonal, 3-D and dense matrices, writing element (i,j) then reading any element returns the written value at (i,j) (and its mirror for symmetric storage) and leaves all other elements unchanged; elements outside the band read zero and refuse to be written; out-of-range access is rejected where bounds checked; constructors, conversions to and from dense matrices, transposes and resizing keep the elements they say they keep.", "quantifier": "all dimensions, indices and values", "why_tests_cant": "index arithmetic must be injective for all sizes", "anchors": ["mml/base/Matrix/MatrixSym.h: MatrixSym", "mml/base/Matrix/MatrixBandDiag.h: BandDiagonalMatrix", "mml/base/Matrix/MatrixTriDiag.h: TridiagonalMatrix", "mml/base/Matrix/Matrix3D.h: Matrix3D", "mml/base/Matrix/Matrix.h: operator(), at, Resize, row and column access, submatrix"]}
{"id": "C41", "title": "Matrix algebra laws", "statement": "Matrix product, sum, transpose and identity satisfy associativity, distributivity, (AB)^T = B^T A^T, and A*I = A for all compatible shapes, and incompatible shapes are rejected.", "quantifier": "all shapes and entries", "why_tests_cant": "all shapes and entries", "anchors": ["mml/base/Matrix/Matrix.h: operator*, operator+, transpose"]}
{"id": "C42", "title": "Quaternion rotation laws", "statement": "The product is associative and norm-multiplicative, inverse inverts, rotating by a unit quaternion preserves lengths and dot products and composes with the product, and the rotation matrix agrees with Rotate.", "quantifier": "all quaternions and vectors", "why_tests_cant": "all real values", "anchors": ["mml/base/Quaternions.h: operator*, Inverse, Rotate, ToRotationMatrix"]}
{"id": "C43", "title": "A converged bisection is within tolerance of a root", "statement": "If bisection on a continuous function reports convergence, there is a true root within the achieved tolerance of the returned value and it lies in the initial bracket; an unbracketed input is refused.", "quantifier": "all continuous functions, brackets and tolerances", "why_tests_cant": "all functions", "anchors": ["mml/algorithms/RootFinding/RootFindingBracketing.h: FindRootBisection"]}
{"id": "C44", "title": "Bracketing helpers return true brackets", "statement": "Each bracket FindRootBrackets returns contains a sign change, BracketRoot returning true leaves endpoints of opposite sign, and false position keeps a bracket.", "quantifier": "all functions, ranges and counts", "why_tests_cant": "all functions; buffer growth for any number of roots", "anchors": ["mml/algorithms/RootFinding/RootFindingBracketing.h: FindRootBrackets, BracketRoot, FindRootFalsePosition"]}
{"id": "C45", "title": "Order statistics are correct", "statement": "Median, Percentile, Quartiles, MinMax, Range, IQR, Mode, TrimmedMean and MAD depend only on the multiset of data. The median is the middle value (or the average of the two middle values), Percentile interpolates linearly between neighbouring order statistics, is monotone in p, takes the minimum at 0 and the maximum at 100 and follows affine changes of the data. The mode occurs at least as often as any other value and is the smallest such value. Empty data and p outside [0,100] are refused.", "quantifier": "all data vectors, all p", "why_tests_cant": "all data and all p", "anchors": ["mml/algorithms/Statistics.h: Median, Percentile, Quartiles, MinMax, Range, IQR, Mode, TrimmedMean, MAD"]}
{"id": "C46", "title": "Ranks and correlations", "statement": "Covariance is the sum of products of deviations over n-1, symmetric and bilinear under changes of units. PearsonCorrelation lies in [-1,1], is symmetric, changes at most its sign under affine changes of either sample and is 1 (or -1) exactly when one sample is an increasing (decreasing) affine function of the other. CovarianceMatrix is symmetric and positive semidefinite with the variances on the diagonal; CorrelationMatrix has ones on the diagonal. ComputeRanks gives the average rank of every value, ranks always sum to n(n+1)/2, and neither depends on how the sort orders ties. Spearman and Kendall coefficients lie in [-1,1], depend only on the order of the data and are 1 for samples in the same order. Constant samples and different lengths are refused.", "quantifier": "all data vectors and matrices, and every order std::sort may leave ties in", "why_tests_cant": "all data", "anchors": ["mml/algorithms/Statistics.h: Covariance, PearsonCorrelation, PearsonCorrelationWithTest, RSquared, CovarianceMatrix, CorrelationMatrix", "mml/algorithms/Statistics/StatisticsRank.h: ComputeRanks, SpearmanCorrelation, KendallCorrelation"]}
{"id": "C47", "title": "Trapezoid refinement equals the composite rule", "statement": "Call k of a fresh integrator returns the composite trapezoidal sum with 2^(k-1) panels for every function. IntegrateTrap and IntegrateSimpson return the first composite sum that settles, or the last one with converged == false; they are exact on polynomials of degree 1 and 3, differ from the integral by at most |b-a|^3 M2/(12 N^2) and |b-a|^5 M4/(2880 N^4), and change sign when the bounds are exchanged.", "quantifier": "all functions, intervals (either orientation), tolerances and round limits up to 32", "why_tests_cant": "all functions and levels", "anchors": ["mml/core/Integration/Integration1D.h: TrapIntegrator::next, IntegrateTrap, IntegrateSimpson"]}
{"id": "C48", "title": "Integration reports honest error estimates", "statement": "When an integrator stops without convergence its error estimate is the last observed change, not zero; when it reports convergence the error estimate is the last observed change and below the tolerance.", "quantifier": "all functions, converging or not", "why_tests_cant": "concerns runs that never converge", "anchors": ["mml/core/Integration/Integration1D.h: IntegrateTrap, IntegrateSimpson"]}
{"id": "C49", "title": "Convex hull is convex and contains the input", "statement": "ConvexHull2D::Compute returns exactly the corners of the convex hull of the points, each once, in counter-clockwise order, so that all points lie to the left of or on every edge; in particular every vertex is an input point and the vertices are in strictly convex position. Collinear and repeated points are removed.", "quantifier": "all finite point sets", "why_tests_cant": "all point sets including collinear and duplicate ones", "anchors": ["mml/algorithms/CompGeometry/ConvexHull.h: ConvexHull2D::Compute"]}
{"id": "C50", "title": "Forward AD computes exact derivatives", "statement": "Evaluating any function written with the dual-number operations (arithmetic, powers, elementary functions, branches on comparisons) at a point where every operation used is smooth does not fail and gives the value of the function and its exact derivative along the seeds; derivative() gives the pair (f(x), f'(x)) and gradient() the partial derivatives in order. Not smooth: a zero divisor, the square root or logarithm of a number that is not positive, a power of a number that is not positive unless the exponent is a constant integer and the base is nonzero or the exponent at least one, the ends of asin and acos, abs at zero, floor and ceil at integers, atan2 on the closed negative x axis, and a comparison of equal numbers.", "quantifier": "all functions (expressions with branches) in any number of variables, all points where every operation is smooth, all seeds", "why_tests_cant": "all expressions", "anchors": ["mml/core/Derivation/ForwardAD.h: Dual operators"]}
{"id": "C51", "title": "Vertex degrees count the edges", "statement": "After any history of calls, degree(v) is the number of vertices u with hasEdge(v,u), inDegree(v) the number of vertices u with hasEdge(u,v), both throw for an index that is not a vertex, and in a directed graph both sum to numEdges().", "quantifier": "all histories of operations on both graph types, all vertices", "why_tests_cant": "the two functions read different lists; agreement must hold after every history", "anchors": ["mml/base/Graph.h: Graph::degree, outDegree, inDegree"]}
{"id": "C52", "title": "KD-tree construction ends", "statement": "Building the tree returns for every point set once max_leaf_size is at least 1; with max_leaf_size 0 or less it recurses without end on every nonempty point set.", "quantifier": "all point sets, dimensions, leaf sizes and median choices", "why_tests_cant": "non-termination depends on every possible partition result", "anchors": ["mml/algorithms/CompGeometry/KDTree.h: KDTree::build, buildRecursive"]}
{"id": "C53", "title": "Interval containment answers are sound", "statement": "When contains(other) answers true, every point of other belongs to the composite interval.", "quantifier": "all composites of hole-free intervals, all other intervals, all points", "why_tests_cant": "universally quantified over points", "anchors": ["mml/base/Intervals.h: Interval::contains(const BaseInterval&)"]}
{"id": "C54", "title": "intersects never misses", "statement": "Whenever a composite interval and another interval share a point, intersects answers true.", "quantifier": "all composites, all other intervals of all kinds", "why_tests_cant": "existence of a shared real point over all bounds", "anchors": ["mml/base/Intervals.h: Interval::intersects"]}
{"id": "C55", "title": "Composite covering stays inside", "statement": "Every point returned by the covering of a composite interval belongs to the composite.", "quantifier": "all composites of bounded intervals with lower < upper, all n", "why_tests_cant": "all bounds and n", "anchors": ["mml/base/Intervals.h: Interval::GetEquidistantCovering"]}
{"id": "C56", "title": "Measures are additive", "statement": "measure(A intersect B) + measure(A minus B) = length(A), and measure(A union B) + measure(A intersect B) = length(A) + length(B).", "quantifier": "all intervals with lower <= upper of all endpoint kinds", "why_tests_cant": "all relative positions of four real bounds", "anchors": ["mml/base/Intervals.h: Interval::getMeasure, Intersection, Union, Difference"]}
{"id": "C57", "title": "CSV file and string loaders agree", "statement": "With the default options, loading a CSV file gives the same dataset as loading its content as a string, apart from the dataset name, and fails for the same contents.", "quantifier": "all file contents, delimiters and header settings", "why_tests_cant": "two separately written loops must agree on every input", "anchors": ["mml/tools/data_loader/DataLoaderCSV.h: LoadCSV, LoadFromCSVString"]}
{"id": "C58", "title": "Type inference follows the ninety percent rule", "statement": "A column is given a type other than text only when at least one value is present and at least nine tenths of the present values are literals of that type (integers counting as reals); a column whose present values are all of one kind gets that type; which texts are literals is exactly the documented grammar.", "quantifier": "all lists of field texts", "why_tests_cant": "all mixtures of kinds and all strings", "anchors": ["mml/tools/data_loader/DataLoaderParsing.h: InferColumnType"]}
{"id": "C59", "title": "Integer columns are exact", "statement": "In a column all of whose present values are integer literals that fit an int, every entry is the number the literal denotes.", "quantifier": "all such columns", "why_tests_cant": "all literals, including signs and leading zeros", "anchors": ["mml/tools/data_loader/DataLoaderParsing.h: ParseValue", "mml/tools/data_loader/DataLoaderCSV.h: LoadFromCSVString"]}
{"id": "C60", "title": "Filtering and selecting keep rows together", "statement": "FilterRows keeps exactly the rows whose predicate holds, in order, with every column filtered alike; SelectColumns returns the named columns in the order asked for with the same entries; naming an unknown column is an error.", "quantifier": "all rectangular datasets, predicates and name lists", "why_tests_cant": "alignment across all columns for every predicate", "anchors": ["mml/tools/data_loader/DataLoaderTypes.h: Dataset::FilterRows, SelectColumns, GetColumn"]}
{"id": "C61", "title": "JSON loading is total", "statement": "For every text the JSON loader either throws DataError or returns a dataset all of whose columns have exactly as many entries as the dataset has rows; it never loops for ever and never indexes out of range.", "quantifier": "all texts, including arbitrary malformed ones", "why_tests_cant": "all strings", "anchors": ["mml/tools/data_loader/DataLoaderJSON.h: JsonParser, LoadFromJSONString, LoadJSON"]}
{"id": "C62", "title": "The FFT of real data agrees with the complex one", "statement": "RealFFT::Forward returns the bins 0..n/2 of the DFT of the real data; RealFFT::Inverse returns the inverse DFT of the conjugate-symmetric extension of its input and undoes Forward; the in-place Transform stores the same bins in its packed format and its inverse restores the data; sizes that are not powers of two are rejected.", "quantifier": "all power-of-two lengths and all real inputs, all half spectra", "why_tests_cant": "the packing and unpacking indices must be right for every length", "anchors": ["mml/algorithms/FourierRealFFT.h: RealFFT::Forward, Inverse, Transform"]}
{"id": "C63", "title": "Padding sizes", "statement": "NextPowerOfTwo(n) is the least power of two not below n; ZeroPad keeps the data and appends only zeros up to that size; Log2 is the exact exponent of a power of two.", "quantifier": "all sizes and inputs", "why_tests_cant": "all integers", "anchors": ["mml/algorithms/Fourier.h: FFT::NextPowerOfTwo, ZeroPad, Log2, IsPowerOfTwo"]}
{"id": "C64", "title": "Window functions are windows", "statement": "Every window of positive size has the requested length, is symmetric and has values between 0 and 1; nonpositive sizes are rejected.", "quantifier": "all sizes and parameters", "why_tests_cant": "all sizes and parameters; the Kaiser series stops at data-dependent points", "anchors": ["mml/algorithms/FourierWindowing.h: Windows::Rectangular, Hann, Hamming, Blackman, Bartlett, Welch, Kaiser, Gaussian"]}
{"id": "C65", "title": "Matrix predicates decide what they say", "statement": "isIdentity, isDiagonal, isSymmetric, isZero, isAntiSymmetric and IsEqualTo answer true exactly when every entry satisfies the named condition within the given tolerance, for matrices of every shape (non-square matrices are never identity, diagonal, symmetric or antisymmetric).", "quantifier": "all shapes, entries and tolerances", "why_tests_cant": "all shapes and entries; early exits must not skip entries", "anchors": ["mml/base/Matrix/Matrix.h: isIdentity, isDiagonal, isSymmetric, isAntiSymmetric, isZero, IsEqualTo"]}
{"id": "C66", "title": "Quaternion conversions are mutually inverse", "statement": "FromAxisAngle gives the rotation about the axis by the angle (Rodrigues' formula), FromEulerZYX and FromEulerXYZ the products of the three elementary rotations, FromRotationMatrix of any rotation matrix a unit quaternion that rotates like it; converting to axis-angle, rotation matrix or Euler angles and back gives the same rotation for every unit quaternion.", "quantifier": "all unit quaternions, rotation matrices, unit axes and angles", "why_tests_cant": "real-valued inputs; branches chosen by trace and largest diagonal entry, singular pitch", "anchors": ["mml/base/Quaternions.h: FromAxisAngle, ToAxisAngle, GetRotationAngle, GetRotationAxis, FromEulerZYX, FromEulerXYZ, ToEulerZYX, FromRotationMatrix, ToRotationMatrix"]}
{"id": "C67", "title": "Quaternion interpolation stays on the unit sphere", "statement": "For unit quaternions Slerp never throws, returns a unit quaternion for every t, is the first quaternion at t=0 and the second rotation at t=1, stays on the shorter arc in between, and (unless the two are nearly equal) turns at constant speed.", "quantifier": "all pairs of unit quaternions and all t", "why_tests_cant": "continuum of inputs and three numerical branches", "anchors": ["mml/base/Quaternions.h: Slerp, Lerp"]}
{"id": "C68", "title": "A converged root finder stayed in its bracket", "statement": "If Brent's or Ridders' method on a continuous function with a sign change reports convergence, the root returned lies in the initial bracket, and a true root is within the accuracy, or the function value or the last step is within the tolerance; neither divides by zero or takes the root of a negative number. A converged Newton iteration ends inside the bracket after a step below the tolerance. All methods refuse an interval without sign change, return the function value of the root they return, and never report success with an error message.", "quantifier": "all continuous functions, brackets, tolerances and round limits", "why_tests_cant": "all functions; the path of the iteration depends on every value", "anchors": ["mml/algorithms/RootFinding/RootFindingMethods.h: FindRootBrent, FindRootRidders, FindRootNewton, FindRootSecant"]}
{"id": "C69", "title": "Numerical derivatives have the order they claim", "statement": "With step s > 0 (given or default) NDer1, 2, 4, 6 and 8 differ from the first derivative, NSecDer2 and 4 from the second and NThirdDer2 and 4 from the third by at most a constant times s^1, 2, 4, 6, 8, 2, 4, 2, 4 times a bound on the next derivative, and are exact on polynomials of the corresponding degree; a step that is not positive is refused.", "quantifier": "all functions differentiable often enough, all points, all positive steps; all polynomials of bounded degree", "why_tests_cant": "all functions and steps; a wrong coefficient of a high-order rule shows only in the remainder", "anchors": ["mml/core/Derivation/DerivationRealFunction.h: NDer1, NDer2, NDer4, NDer6, NDer8, NSecDer2, NSecDer4, NThirdDer2, NThirdDer4 and their Detailed forms", "mml/core/Derivation/DerivationBase.h: ScaleStep, NDer1_h .. NDer8_h"]}
{"id": "C70", "title": "The reported error covers the truncation error", "statement": "For a polynomial of one degree more than the rule differentiates exactly (two more for the central rules), the error estimate returned is at least the distance of the value from the true derivative.", "quantifier": "all polynomials of that degree, all points and positive steps", "why_tests_cant": "all polynomials; estimate and error vanish together on simple tests", "anchors": ["mml/core/Derivation/DerivationRealFunction.h: error output of NDer1 .. NThirdDer4"]}
{"id": "C71", "title": "One-sided derivatives look at one side only and converge", "statement": "NDerKLeft evaluates the function only at points not right of x, NDerKRight only at points not left of x, and both differ from the derivative by at most a constant times the step to the order of the rule.", "quantifier": "all functions, points, steps", "why_tests_cant": "all functions; a function may be undefined on the other side", "anchors": ["mml/core/Derivation/DerivationRealFunction.h: NDer1Left .. NDer8Left, NDer1Right .. NDer8Right"]}
{"id": "C72", "title": "Extrapolated derivatives converge and are exact on low-degree polynomials", "statement": "NDerRichardson, NSecDerRichardson and NThirdDerRichardson differ from the derivative by at most a constant times the square of the first step whatever entry of the tableau is selected, and are exact for polynomials of degree at most 4, 5 and 6 when at least two rounds are made; degenerate parameters are refused.", "quantifier": "all smooth functions, points, steps, depths and shrinking factors above one", "why_tests_cant": "the entry returned is selected by the data", "anchors": ["mml/core/Derivation/DerivationRealFunction.h: NDerRichardson, NSecDerRichardson, NThirdDerRichardson, adaptive variants"]}
{"id": "C73", "title": "Partial derivatives, Jacobians, curves and surfaces", "statement": "NDerKPartial, the gradients, the matrices of all partial derivatives, the second and mixed partial derivatives, all Jacobians, and the derivatives of curves and surfaces return in the right place the partial derivative to the order of the rule; Jacobians of affine maps are their matrices.", "quantifier": "all dimensions, indices, differentiable maps, points and steps", "why_tests_cant": "all dimensions and functions; index mix-ups vanish on symmetric tests", "anchors": ["mml/core/Derivation/DerivationScalarFunction.h: NDer1Partial .. NDer8Partial, ByAll variants, NSecDer2Partial, NSecDer4Partial", "mml/core/Derivation/DerivationVectorFunction.h: NDerKPartial, NDerKPartialByAll, NDerKPartialAllByAll", "mml/core/Derivation/Jacobians.h: calcJacobian, calcJacobianDyn, calcJacobianDyn2, calcJacobianODE, calcJacobianMap", "mml/core/Derivation/DerivationParametricCurve.h, DerivationParametricSurface.h, DerivationTensorField.h"]}
{"id": "C74", "title": "Means, variance and moments", "statement": "Avg returns the arithmetic mean. Variance returns the sum of squared deviations over n-1; it is never negative, zero exactly when all values agree, and scales with the square of a change of units. Moments returns the standardised third and fourth moments. Harmonic, geometric and arithmetic means of positive data come in this order. WeightedMean lies between the extremes and agrees with Avg for equal weights. Empty, constant or non-positive data is refused where the formula has no value.", "quantifier": "all data vectors and weights", "why_tests_cant": "all data, including constant, single-valued and non-positive data", "anchors": ["mml/algorithms/Statistics.h: Avg, AvgVar, Variance, StdDev, Moments, GeometricMean, HarmonicMean, WeightedMean, WeightedVariance"]}
{"id": "C75", "title": "Romberg integration extrapolates the trapezoidal sums", "statement": "IntegrateRomberg returns the value at step zero of the polynomial through the last K trapezoidal sums, as a function of the squared step, at the first round where the extrapolations from K and from K-1 sums agree to within the tolerance, and otherwise the last extrapolation with converged == false; the error estimate is the difference of the two extrapolations in both cases. It is exact on polynomials of degree at most 2K-1, and its error on any integrable function is at most three times the length of the interval times the distance from these polynomials, hence at most 3 C (b-a)^(2K+1)/(2K-1)! when the derivative of order 2K is bounded by C.", "quantifier": "all functions, intervals, tolerances, 2 <= K <= JMAX <= 32", "why_tests_cant": "all functions and orders; an index error in the tableau still converges on smooth tests", "anchors": ["mml/core/Integration/Integration1D.h: IntegrateRomberg"]}
{"id": "C76", "title": "Gauss and Gauss-Kronrod rules integrate high-degree polynomials", "statement": "IntegrateGauss10, GK15, GK21 and GK31 apply rules with 10, 15, 21 and 31 different nodes inside the interval and positive weights that integrate every polynomial of degree at most 19, 23, 31 and 47 over every interval, up to the error of the tabulated digits; on a continuous function the error is bounded by its distance from these polynomials. The error estimate of the Kronrod rules is the distance from a Gauss rule on some of the same nodes, right up to degree 13, 19 and 29.", "quantifier": "all polynomials of the degree, all continuous functions, all intervals", "why_tests_cant": "a wrong digit in a table of constants changes low-degree tests by less than their tolerance; all polynomials and intervals", "anchors": ["mml/core/Integration/Integration1D.h: IntegrateGauss10", "mml/core/Integration/GaussKronrod.h: IntegrateGK15, IntegrateGK21, IntegrateGK31"]}
{"id": "C77", "title": "Adaptive integration covers the interval and reports truthfully", "statement": "IntegrateGKAdaptive terminates for every function; value and error estimate are the sums of those of the rule over pieces, obtained by bisection, that exactly cover the interval; converged says that every piece meets its share of the tolerance, in which case the total estimate is within the tolerances for nonnegative integrands; if the estimate is honest on every piece it is honest in total; function_evals is the number of evaluations made.", "quantifier": "all functions, intervals, tolerances, depths and rules", "why_tests_cant": "the subdivision depends on the function", "anchors": ["mml/core/Integration/GaussKronrod.h: IntegrateGKAdaptive"]}
{"id": "C78", "title": "Gauss-Chebyshev rules are exact", "statement": "IntegrateGaussChebyshev1 and 2 with n points integrate every polynomial of degree at most 2n-1 exactly against the weights 1/sqrt(1-x^2) and sqrt(1-x^2); nodes lie inside the interval, weights are positive; mismatched vectors and negative sizes are refused.", "quantifier": "all n and all polynomials of degree at most 2n-1", "why_tests_cant": "all n and polynomials", "anchors": ["mml/core/Integration/GaussianQuadrature.h: GaussChebyshev1, GaussChebyshev2, GaussChebyshev1Rule, GaussChebyshev2Rule, IntegrateWithRule, IntegrateGaussChebyshev1, IntegrateGaussChebyshev2"]}
{"id": "C79", "title": "Improper integrals", "statement": "IntegrateOpen extrapolates midpoint sums and never evaluates the integrand at the ends of the interval. IntegrateUpperInf, LowerInf, Inf and InfSplit evaluate it only inside the range, replace it by one over the unit interval with the same integral, and are exact when the transformed integrand is a polynomial of degree at most 2K-1; in general the error is at most 7/3 of the length times the distance from such polynomials. The same holds for the integrators for singular ends over an interval with a <= b, which never evaluate at the singularity. Two-sided integrators add values and error estimates and report convergence exactly when both halves converged; IntegrateInteriorSingular refuses a point outside the open interval.", "quantifier": "all integrands, ranges, tolerances, 2 <= K <= JMAX <= 21", "why_tests_cant": "all integrands; endpoint evaluations and lost Jacobian factors show only on some", "anchors": ["mml/core/Integration/IntegrationImproper.h: MidpointIntegrator, IntegrateOpen, IntegrateUpperInf, IntegrateLowerInf, IntegrateInf, IntegrateInfSplit, IntegrateLowerSingular, IntegrateUpperSingular, IntegrateBothSingular, IntegrateInteriorSingular"]}
{"id": "C80", "title": "Double and triple integrals", "statement": "Integrate runs the integrator named by the method. Integrate2D and Integrate3D, with any method and variable inner limits, return the iterated integral up to the stated error, which is linear in the distances of the integrand and of the partial integrals from polynomials of the degree the method is made for (1, 3, 2K-1, 19 and 31), so that the trapezoidal, Simpson and Romberg methods are exact when these distances are zero; they evaluate the integrand only on the closed region; and they report convergence only if the inner integrals converged.", "quantifier": "all integrands, regions, methods and valid settings", "why_tests_cant": "all integrands and regions; a swapped limit or a dropped coordinate is invisible on symmetric tests", "anchors": ["mml/core/Integration/Integration1D.h: Integrate, IntegrateGK21", "mml/core/Integration/Integration2D.h: Integral2DInner, Integral2DOuter, Integrate2D", "mml/core/Integration/Integration3D.h: Integral3DInnermost, Integral3DInner, Integral3DOuter, Integrate3D"]}
{"id": "C81", "title": "Linear interpolation", "statement": "A table of at least two different abscissas is accepted (and the number of points used must be between 2 and its length); everything else is refused. For an increasing table LinearInterp returns at every z inside the table the straight line through the two points around z, so it passes through all points, stays between neighbouring values, is continuous and differs from a function with second derivative bounded by M by at most M h^2/8; outside it returns zero, or the line through the two end points when extrapolation is asked for. The points used by every interpolation class are points of the table and contain an interval around z.", "quantifier": "all tables, all z inside and outside, both settings of extrapolation", "why_tests_cant": "all tables and places; the search must find the right interval for every length", "anchors": ["mml/base/InterpolatedFunctions/InterpolatedRealFunction.h: RealFunctionInterpolated, locate, LinearInterpRealFunc"]}
{"id": "C82", "title": "Polynomial interpolation", "statement": "PolynomInterpRealFunc with m points returns the value of the polynomial of degree below m through m neighbouring points of the table around z; it passes through all points of an ordered table, reproduces polynomials of degree below m, never fails, and its error on a smooth function is at most the bound of the m-th derivative over m! times the product of the distances to the points used. The error estimate is the difference to the value with one point less.", "quantifier": "all tables of different abscissas, all numbers of points, all z", "why_tests_cant": "all tables; an index error in the tableau disappears for symmetric positions of z", "anchors": ["mml/base/InterpolatedFunctions/InterpolatedRealFunction.h: PolynomInterpRealFunc::calcInterpValue"]}
{"id": "C83", "title": "Cubic splines", "statement": "SplineInterpRealFunc is, for any table ordered up or down, twice continuously differentiable on the whole line, a cubic between neighbouring points, passes through all points, and has the slopes given at the ends (or no curvature there for slopes beyond 0.99e99). It is the only such function, and the one with the least integral of the squared second derivative. Derivative, SecondDerivative and GetSecondDerivative are its derivatives, Integrate(a,b) its integral over every interval inside the table. With the right end slopes the errors of value, first and second derivative on a function with fourth derivative bounded by K are at most 7/64 K H^4, 7/8 K H^3 and 7/8 K H^2.", "quantifier": "all ordered tables, all end slopes, all z", "why_tests_cant": "all tables: the linear system has to be solvable and solved for every spacing", "anchors": ["mml/base/InterpolatedFunctions/InterpolatedRealFunction.h: SplineInterpRealFunc"]}
{"id": "C84", "title": "Barycentric rational interpolation has no poles", "statement": "For n ordered abscissas and 0 <= d < n BarycentricRationalInterp is the quotient of a polynomial of degree below n by one of degree below n-d without real zeros: every evaluation returns a value, the given one at the points; polynomials of degree at most d are reproduced. Away from the points it is the blend of the interpolating polynomials of all runs of d+1 points with the weights of Floater and Hormann; with d = n-1 it is the interpolating polynomial. Other d are refused.", "quantifier": "all ordered tables, all orders, all z", "why_tests_cant": "absence of poles is a statement about every real number", "anchors": ["mml/base/InterpolatedFunctions/InterpolatedRealFunction.h: BarycentricRationalInterp"]}
{"id": "C85", "title": "Rational interpolation reports its poles", "statement": "RationalInterpRealFunc returns the given value with estimate zero at points of an ordered table; everywhere else it returns a value or reports a pole, without dividing by zero. The value is that of the rational function with equal degrees through the points used.", "quantifier": "all tables of different abscissas, all numbers of points, all z", "why_tests_cant": "all tables; a zero divisor needs special data", "anchors": ["mml/base/InterpolatedFunctions/InterpolatedRealFunction.h: RationalInterpRealFunc::calcInterpValue"]}
{"id": "C86", "title": "Interpolation on a grid", "statement": "For grids with at least two strictly monotone abscissas in each direction BilinearInterp2D is continuous, takes the given values at the grid points, is bilinear on every cell, stays between the values at the corners of the cell, reproduces bilinear functions and differs from a smooth function by at most (M1 h1^2 + M2 h2^2)/8; its derivatives are the partial derivatives inside the cells. BicubicSplineInterp2D is twice continuously differentiable, takes the given values, is a natural cubic spline in each variable with the other fixed (which determines it), and returns its true partial derivatives. A matrix of another shape is refused.", "quantifier": "all grids, values and points", "why_tests_cant": "all grids and points; the two interpolations are nested", "anchors": ["mml/base/InterpolatedFunctions/Interpolation2DFunction.h: BilinearInterp2D, BicubicSplineInterp2D"]}
{"id": "C87", "title": "Curves through points", "statement": "LinInterpParametricCurve reaches the point at any fraction of any segment at the parameter equal to the length of the path up to it over the whole length, clamps the parameter of an open curve to [0,1], wraps that of a closed one, and is Lipschitz with the length of the path. SplineInterpParametricCurve passes through every point at its normalised length along the path, with coordinates that are twice continuously differentiable cubic splines of the parameter whose end slopes are those of the cubic through four points (no curvature with fewer than four points); a closed curve ends where it starts. Coinciding neighbours and a wrong dimension are refused.", "quantifier": "all dimensions, all lists of points, all parameters and ranges", "why_tests_cant": "all lists of points", "anchors": ["mml/base/InterpolatedFunctions/InterpolationParametricCurve.h: LinInterpParametricCurve, SplineInterpParametricCurve"]}
{"id": "C88", "title": "Orders of convergence of the one-step methods", "statement": "Through ODESystemFixedStepSolver::integrate, in either direction of time, every stored state differs from the exact solution of the system by at most a constant times |h|^p for all sufficiently small steps h, where p is 1 for Euler, 2 for Euler-Cromer, midpoint, and (for accelerations depending on time and positions) velocity Verlet and leapfrog, 4 for RungeKutta4, 5 for CashKarp and DormandPrince5, 8 for DormandPrince8. The error estimate of a step is the difference to an embedded method of order 1, 4, 4, 7 for Euler-Cromer, CashKarp, DormandPrince5, DormandPrince8.", "quantifier": "all systems of any dimension with p times continuously differentiable right-hand side, all solutions, all start and end times, all numbers of steps", "why_tests_cant": "orders are statements about all right-hand sides and all small steps; a test sees a few slopes", "anchors": ["mml/algorithms/ODESolvers/ODEStepCalculators.h: *_StepCalculator::calcStep", "mml/algorithms/ODESolvers/ODERKCoefficients.h", "mml/algorithms/ODESolvers/ODESolverFixedStep.h: integrate"]}
{"id": "C89", "title": "What the fixed-step solver stores", "statement": "integrate(x0, t1, t2, N) stores N+1 states, the k-th at t1 + k(t2-t1)/N: the initial condition and the successive results of the step calculator. Integrating to a grid point and on from there stores the same states. Linear quantities conserved by the right-hand side are conserved by every stored state of the Runge-Kutta methods. An initial condition of the wrong dimension, a negative number of steps, and more steps than the solution object can hold are refused.", "quantifier": "all systems, initial conditions, times, numbers of steps, step calculators", "why_tests_cant": "all systems and numbers of steps", "anchors": ["mml/algorithms/ODESolvers/ODESolverFixedStep.h: integrate", "mml/base/ODESystemSolution.h"]}
{"id": "C90", "title": "The mechanics integrators", "statement": "For accelerations depending on time and positions, velocity Verlet and leapfrog perform the same step; a step of h followed by one of -h returns to the start; the step is symplectic for forces with a potential; for oscillators all stored states lie on one ellipse, for any number of steps. Every component of the state is integrated, in any dimension; accelerations depending on velocities are integrated to second order.", "quantifier": "all systems, states and steps", "why_tests_cant": "all forces, states, and numbers of steps", "anchors": ["mml/algorithms/ODESolvers/ODEStepCalculators.h: VelocityVerlet_StepCalculator, Leapfrog_StepCalculator"]}
{"id": "C91", "title": "The ODE solution container", "statement": "After fillValues(0..L-1) on a fresh ODESystemSolution, for any L within the size limits and whatever the initial capacity, size() is L, getTValue and getXValue return exactly the entries stored, getXValuesAtEnd the last one, all other indices and components are refused; overwriting an entry changes that one only; setFinalSize keeps the entries. Writing at any index, the container grows as needed; the arrays returned hold the stored entries.", "quantifier": "all dimensions, all histories of writes", "why_tests_cant": "growth happens at data-dependent points of any history", "anchors": ["mml/base/ODESystemSolution.h: ODESystemSolution, fillValues, getTValue, getXValue, getXValuesAtEnd, setFinalSize, getTValues, ExtendSavedSteps"]}
{"id": "C92", "title": "Adaptive Runge-Kutta steps respect the tolerance", "statement": "For every smooth or non-smooth system, every trial step and every positive tolerance, doStep of an adaptive Runge-Kutta stepper terminates. It either takes a step no longer than the trial step, in the same direction, whose state is the one of the method, whose error estimate is within the tolerance and whose returned derivative is the one at the new point, or it throws because even steps near rounding level fail the test. A trial step that already passes is not shortened. After a step, interpolate is the cubic with the values and derivatives at both ends; before one it throws. From a point on the solution of a smooth system, all short enough steps are accepted and have the error order of the method.", "quantifier": "all systems, states, trial steps, tolerances and histories of steps and resets", "why_tests_cant": "histories of accepted and rejected steps and the stored derivative state are unbounded", "anchors": ["mml/algorithms/ODESolvers/ODESteppers.h: DormandPrince5_Stepper, CashKarp_Stepper, DormandPrince8_Stepper (doStep, interpolate, resetFSAL)"]}
{"id": "C93", "title": "Bulirsch-Stoer steps are extrapolated midpoint steps within the tolerance", "statement": "For every system, non-zero trial step and positive tolerance, doStep of the Bulirsch-Stoer steppers terminates. It accepts a step of the size asked for whose state is the extrapolation to step zero of the modified midpoint rules and whose error is within the tolerance, and returns the derivative at the new point, or it rejects the step, changes nothing and proposes half of it.", "quantifier": "all systems, states, steps, tolerances and histories", "why_tests_cant": "all systems and step sizes", "anchors": ["mml/algorithms/ODESolvers/ODESteppers.h: BulirschStoer_Stepper, BulirschStoerRational_Stepper"]}
{"id": "C94", "title": "The adaptive integrator delivers the requested output times", "statement": "integrate(x0, t0, tEnd, dt, eps, h0, minStep) terminates for every system, every stepper history and every initial step. It either throws, because a step not beyond the end is refused by the stepper or is within a constant factor of the smallest step allowed, or it returns a trajectory from the initial point to tEnd whose every step is within the tolerance, with one entry for each output time t0, t0+dt, ... and tEnd, each the value of the cubic through the values and derivatives of the trajectory at the ends of a step; the statistics count its steps. integrateAt returns one entry for each requested time. Both work in either direction of time.", "quantifier": "all systems, initial states, spans, output intervals, tolerances, initial and smallest steps, and stepper histories", "why_tests_cant": "the steps chosen depend on the system; an output time near the end of a step is met only by chance", "anchors": ["mml/algorithms/ODESolvers/ODESolverAdaptive.h: integrate, integrateAt, estimateInitialStep"]}
{"id": "C95", "title": "Closed-form solvers give all roots", "statement": "SolveQuadratic, SolveCubic and SolveQuartic return all complex roots with multiplicity: the polynomial is its leading coefficient times the product of the linear factors of the numbers returned. The count returned is the number of real roots. Polynomials with a leading coefficient below Eps are solved as polynomials of lower degree.", "quantifier": "all real (for the quadratic also complex) coefficients", "why_tests_cant": "all coefficients; double roots, vanishing coefficients and the branch tests are of measure zero", "anchors": ["mml/algorithms/RootFinding/RootFindingPolynoms.h: SolveQuadratic, SolveCubic, SolveQuartic"]}
{"id": "C96", "title": "Laguerre's method", "statement": "LaguerreRoots of a polynomial of degree n terminates and throws or returns n numbers, each within the tolerance of a root of the polynomial; more precisely each comes from a point close to a root of what is left of the polynomial by three steps of Newton's method, and what is left next is the quotient by its linear factor. The root of a linear polynomial is exact.", "quantifier": "all real polynomials of positive degree, tolerances, iteration limits", "why_tests_cant": "all polynomials; deflation errors add up", "anchors": ["mml/algorithms/RootFinding/RootFindingPolynoms.h: LaguerreRoots"]}
{"id": "C97", "title": "Bairstow's method", "statement": "BairstowRoots of a polynomial of degree n terminates and throws or returns n numbers close to its roots; more precisely they are the roots of quadratic factors, the first dividing the polynomial up to a remainder below the tolerance or a Newton correction below it, the next ones the quotient, and at last the root of a linear factor. Each iteration is a Newton step for the coefficients of the factor. Quadratics are solved to within the tolerance.", "quantifier": "all real polynomials of positive degree, first guesses, tolerances, iteration limits", "why_tests_cant": "all polynomials and guesses; a sign error in the Newton step still converges on some", "anchors": ["mml/algorithms/RootFinding/RootFindingPolynoms.h: BairstowRoots"]}
{"id": "C98", "title": "QR decomposition, least squares and determinants", "statement": "QRSolver of an m x n matrix (m >= n) gives Q with orthonormal columns and an upper triangular R with A = QR; LeastSquaresSolve returns the unique minimiser of |Ax-b|, Solve the unique solution of a square system, det the determinant and inverse the inverse; QMultiply and QtMultiply are inverse isometries. Matrices with linearly dependent columns are reported singular and the solvers then throw; others are not reported. Shapes that do not fit throw.", "quantifier": "all real matrices and right-hand sides, all positive tolerances", "why_tests_cant": "all sizes and entries; dependence of columns is of measure zero", "anchors": ["mml/core/LinAlgEqSolvers/LinAlgQR.h: QRSolver"]}
{"id": "C99", "title": "The iterative solvers report truthfully and converge where promised", "statement": "Solve of JacobiSolver, GaussSeidelSolver and SORSolver makes the sweeps of the method from the given first vector (zero if none), and returns with converged == true the first iterate whose relative residual is below the tolerance, with the number of sweeps and that residual, and otherwise the last iterate allowed with converged == false; SolveSimple returns the solution or throws. Given enough iterations, all three converge for strictly diagonally dominant matrices and for symmetric positive definite ones, SOR for every factor between 0 and 2 if positive definite and up to 1 if dominant. SolveOptimal is SOR with a factor in [1,2); EstimateOptimalOmega returns the sampled factor with the smallest residual. Shapes that do not fit, zero diagonals and factors outside (0,2) are refused.", "quantifier": "all matrices, right-hand sides, first vectors, tolerances, iteration limits, relaxation factors", "why_tests_cant": "convergence is a statement about all matrices of a class and any number of iterations", "anchors": ["mml/core/LinAlgEqSolvers/LinAlgEqSolvers_iterative.h: JacobiSolver, GaussSeidelSolver, SORSolver"]}
{"id": "C100", "title": "One-dimensional minimisation locates a minimum", "statement": "BracketMinimum marks a bracket valid only if its middle point is strictly between the others with a value not above theirs. GoldenSectionSearch, BrentMinimize and BrentMinimizeWithDeriv return a point of the bracket with its value, not worse than the bracket's middle, and within the tolerance of a local minimum of every continuous function (of the minimum of a unimodal one); the maximisers do the same for maxima. Each terminates: given enough iterations it returns, otherwise it throws. Tolerances and iteration limits that are not positive and invalid brackets are refused; for monotone functions an exception is thrown.", "quantifier": "all functions, starting points, brackets, tolerances and iteration limits", "why_tests_cant": "all functions; the steps depend on the values in ways no sample covers", "anchors": ["mml/algorithms/Optimization.h: BracketMinimum, GoldenSectionSearch, BrentMinimize, BrentMinimizeWithDeriv, GoldenSectionMaximize, BrentMaximize"]}
{"id": "C101", "title": "Coordinate transformations and their inverses", "statement": "For polar, cylindrical and spherical coordinates, rotations about the axes, by Euler angles and by quaternions, oblique, orthogonal and general bases and Lorentz transformations, transfInverse undoes transf and transf undoes transfInverse, wherever the coordinates are in their usual range; the component functions agree with transf. Rotations keep scalar products and orientation and compose by adding angles, Euler angles are three successive rotations, Lorentz transformations keep the interval and compose by Einstein's law. The basis vectors of spherical coordinates are the partial derivatives of the position. Dependent or non-orthogonal bases and velocities outside [0,1) are refused.", "quantifier": "all points, angles, bases, matrices, quaternions and velocities", "why_tests_cant": "continuum of inputs with branch cuts and singular sets of measure zero", "anchors": ["mml/core/CoordTransf/CoordTransf2D.h", "mml/core/CoordTransf/CoordTransf3D.h", "mml/core/CoordTransf/CoordTransfSpherical.h", "mml/core/CoordTransf/CoordTransfCylindrical.h", "mml/core/CoordTransf/CoordTransfLorentz.h", "mml/base/Vector/VectorTypes.h: Vector4Minkowski"]}
{"id": "C102", "title": "Tensors and their change of coordinates", "statement": "Tensor2 to Tensor5 with a lower and b upper indices (a+b the rank) store and return every element, and refuse wrong numbers of indices and elements out of range; sums, differences and multiples are taken element by element between tensors of the same kind; evaluation on vectors is linear in each and gives the elements on basis vectors; contraction sums over equal values of the two indices, whatever their order. The value on vectors and the contraction of an upper with a lower index do not depend on the coordinates. transfVecContravariant multiplies by the matrix of derivatives, transfVecCovariant by the transposed inverse, up to the error of the difference quotients (exactly for affine transformations, where the directions are inverse to each other); the pairing of a vector with a covector is kept. transfTensor2 gives the tensor in the new coordinates.", "quantifier": "all dimensions, tensors, vectors, positions, invertible matrices and transformations with five continuous derivatives", "why_tests_cant": "invariance is a statement about all changes of coordinates", "anchors": ["mml/base/Tensor.h: Tensor2, Tensor3, Tensor4, Tensor5", "mml/core/CoordTransf.h: CoordTransf, CoordTransfWithInverse"]}
{"id": "C103", "title": "Metric tensors, raising and lowering, Christoffel symbols", "statement": "GetContravariantMetric returns the inverse of GetCovariantMetric or throws, the latter for singular metrics; raising and lowering an index undo each other and the pairing with the lowered vector is the scalar product. Christoffel symbols of a symmetric metric are symmetric in their lower indices, and those of the first kind are half of the three derivatives of the metric up to the error of the difference quotients. Covariant derivatives obey the product rule. The Cartesian and Minkowski metrics have vanishing symbols; the metrics of cylindrical and spherical coordinates are the scalar products of the derivatives of the position, with the known symbols, and are refused on the axis; MetricTensorFromCoordTransf gives the scalar product of transformed vectors.", "quantifier": "all metrics, vectors, tensors and positions", "why_tests_cant": "metrics become singular on sets of measure zero; all metrics", "anchors": ["mml/core/MetricTensor.h: MetricTensorField and its subclasses"]}
{"id": "C104", "title": "Gradient, divergence, curl and Laplacian", "statement": "For a smooth field the operations in Cartesian, cylindrical and spherical coordinates return the gradient, the divergence, the curl and the Laplacian of the field, the vectors by their components along the unit vectors of the coordinates, up to the error of the difference quotients; the same for Gradient and Divergence with a metric and for DivergenceViaDet. Orders other than 1, 2, 4, 6 and 8 are refused. Where the coordinates are singular the policy decides: an exception (the default), a number that is not finite, or a finite number.", "quantifier": "all smooth scalar and vector fields, all points, orders and policies", "why_tests_cant": "the formulas in curvilinear coordinates must be right for all fields; singular sets have measure zero", "anchors": ["mml/core/FieldOperations.h: GradientCart, GradientSpher, GradientCyl, Gradient, LaplacianCart, LaplacianSpher, LaplacianCyl, DivCart, DivSpher, DivCyl, Divergence, DivergenceViaDet, CurlCart, CurlSpher, CurlCyl", "mml/core/SingularityHandling.h: SafeDivide"]}
{"id": "C105", "title": "Chebyshev approximation", "statement": "ChebyshevApproximation(f,a,b,n) evaluates, everywhere on [a,b], to the polynomial of degree below n that agrees with f at the n Chebyshev points of [a,b]; polynomials of degree below n are reproduced exactly, and the error for a smooth f is at most M (b-a)^n 2^(1-2n)/n! for M a bound of the n-th derivative. Derivative and Integral are the derivative and the integral from a of the approximating function, ToPolynomial gives its ordinary coefficients, Truncate keeps the longest prefix with a coefficient not below the threshold. ChebyshevT and ChebyshevU are the Chebyshev polynomials; ChebyshevRoots and ChebyshevExtrema are their roots and extrema. Points outside [a,b] and empty intervals are refused.", "quantifier": "all functions, intervals, numbers of terms, points, coefficient vectors", "why_tests_cant": "interpolation and error are about every function and every point; degrees are unbounded", "anchors": ["mml/algorithms/ChebyshevApproximation.h: ChebyshevApproximation, ChebyshevRoots, ChebyshevExtrema", "mml/base/ChebyshevPolynom.h: ChebyshevT, ChebyshevU"]}
{"id": "C106", "title": "Orthogonal bases and special functions", "statement": "For each of the bases Legendre, Hermite (of the physicists and of the probabilists), Laguerre and associated Laguerre, Chebyshev (first and second kind), Evaluate(n, .) is a polynomial of degree n, polynomials of different degree are orthogonal for WeightFunction on the domain, and Normalization(n) is the integral of the square; RecurrenceCoefficients(n) give the next polynomial from the last two; the usual standardisation holds (value at 1 or 0, differential equation); negative degrees are refused. GetZeros and GetExtrema are the zeros and the extrema. Polynomials are recovered from their coefficients, and ComputeCoefficient gives the coefficients up to the error of the integration. AssocLegendre is the associated Legendre function and SphLegendre its orthonormal form on the sphere. Factorial and FactorialInt are n!, FactorialStirling approximates it. Comp_ellint_1 and Comp_ellint_2 approximate the complete elliptic integrals.", "quantifier": "all degrees, orders, points, parameters above -1 and polynomials", "why_tests_cant": "orthogonality and recurrences are statements about all degrees and integrals; accuracy about all arguments", "anchors": ["mml/core/OrthogonalBasis.h: OrthogonalBasis", "mml/core/OrthogonalBasis/LegendreBasis.h: LegendreBasis, AssociatedLegendreBasis", "mml/core/OrthogonalBasis/HermiteBasis.h: HermiteBasis, ProbabilistHermiteBasis", "mml/core/OrthogonalBasis/LaguerreBasis.h: LaguerreBasis, AssociatedLaguerreBasis", "mml/core/OrthogonalBasis/ChebyshevBasis.h: ChebyshevBasis, ChebyshevBasisSecondKind", "mml/base/StandardFunctions.h: Legendre, Hermite, Laguerre, AssocLegendre, AssocLaguerre, SphLegendre, Comp_ellint_1, Comp_ellint_2, Factorial, FactorialInt, FactorialStirling"]}
{"id": "C107", "title": "Straight-line fits are least-squares fits", "statement": "LinearLeastSquares returns slope and intercept of the line with the least sum of squared residuals, the only one if two abscissas differ, and the norm of its residuals; the residuals are orthogonal to the constants and to the abscissas; data on a line are reproduced with residual zero. Sequences of different lengths or no data give CurveFittingError, three or more points with nearly equal abscissas SingularMatrixError, and nothing else throws. LinearLeastSquaresDetailed adds the mean squared residual and a coefficient of determination that is 1 - SSres/SStot and lies between 0 and 1; LinearFitDetailed turns exceptions into statuses or propagates them. EvaluatePolynomial evaluates the polynomial with the given coefficients.", "quantifier": "all data sequences, tolerances, coefficient lists and arguments", "why_tests_cant": "minimality is a comparison with all lines for all data sets; tests compare a few data sets with known lines", "anchors": ["mml/algorithms/CurveFitting.h: LinearLeastSquares, LinearLeastSquaresDetailed, LinearFitDetailed, EvaluatePolynomial"]}
{"id": "C108", "title": "Singular value decomposition: solve, rank, range and null space", "statement": "For every matrix the members of SVDecompositionSolver are a singular value decomposition with the values in descending order. Solve returns the shortest of the vectors minimising |Ax-b| (with the singular values up to the threshold taken as zero), the solution if the system has exactly one; Rank is the rank of the matrix, Nullity its complement, Range and Nullspace have orthonormal columns that span the range and the null space; inv_condition is the quotient of the smallest and the largest singular value, zero exactly for a matrix that has not full column rank. Empty matrices and right-hand sides of the wrong length are refused.", "quantifier": "all matrices with real elements, all right-hand sides, all thresholds", "why_tests_cant": "optimality is over all vectors; degenerate ranks and orders of the singular values are a continuum", "anchors": ["mml/core/LinAlgEqSolvers/LinAlgSVD.h: SVDecompositionSolver, Solve, Rank, Nullity, Range, Nullspace, inv_condition, reorder"]}
{"id": "C109", "title": "General linear and polynomial fits are least-squares fits", "statement": "GeneralLinearLeastSquares returns the shortest coefficients that minimise the sum of squared residuals among all combinations of the functions, with the norm of the residuals, the mean squared error, the (adjusted) coefficient of determination, the effective rank and the condition number of the design matrix; combinations of the functions are reproduced. PolynomialFit returns the polynomial with the least sum of squared residuals among those up to the degree given, and reproduces polynomials at more than that many points. evaluate and EvaluatePolynomial evaluate the fit. The coefficient of determination is between 0 and 1. Malformed requests give CurveFittingError; the Detailed versions report instead of throwing.", "quantifier": "all data, all lists of functions, all degrees", "why_tests_cant": "minimality is over all coefficients; all data", "anchors": ["mml/algorithms/CurveFitting.h: GeneralLinearFitResult, GeneralLinearLeastSquares, PolynomialFit, GeneralLinearFitDetailed, PolynomialFitDetailed"]}
{"id": "C110", "title": "Jacobi eigenvalue solver", "statement": "For every nonempty real symmetric matrix SymmMatEigenSolverJacobi::Solve returns: eigenvalues in ascending order, orthonormal eigenvectors in the columns, and a residual r that measures exactly how far they are from a diagonalisation (the squared errors of A v = lambda v sum to 2 r^2); the eigenvalues sum to the trace; every eigenvalue of the matrix is within sqrt(2) r of a returned one and conversely. converged says exactly whether r is within the tolerance, fewer sweeps than allowed are made only then, r never exceeds the norm above the diagonal of the input. Given enough sweeps the solver converges for every matrix, provided the tolerance is not below what the skipping of tiny elements leaves; matrices of dimension two need one sweep. The overload for general matrices answers for the symmetric part; with a configuration a nonpositive limit means 100 sweeps and the status tells whether it converged. The empty matrix is refused.", "quantifier": "all real symmetric matrices of every dimension below 10000, all tolerances and limits", "why_tests_cant": "the spectrum is a continuum of data; that no eigenvalue is missed is a statement about all vectors", "anchors": ["mml/algorithms/EigenSystemSolvers.h: SymmMatEigenSolverJacobi"]}
{"id": "C111", "title": "Closest pair of points", "statement": "ClosestPair returns, for two or more points, two of them (at different positions of the list; equal points count) with their Euclidean distance, and no two of the points are closer; for fewer points the distance is the largest number. No index leaves the array and the recursion ends.", "quantifier": "all finite sequences of points", "why_tests_cant": "the merge step is right only because of an argument about all pairs across the dividing line", "anchors": ["mml/algorithms/CompGeometry/Circles.h: ClosestPair, ClosestPairHelper, ClosestPairStrip, ClosestPairBruteForce"]}
{"id": "C112", "title": "Polygons: area, centroid, winding number and containment", "statement": "For every polygon and every point on no side, WindingNumber is the number of times the polygon turns around the point (the sum of the angles under which the sides are seen, divided by 2 pi); points outside the convex hull of the vertices have winding number zero; for a convex polygon it is 1 inside and 0 outside. Contains says whether the winding number is odd. SignedArea is the integral of the winding number over the plane, Area its absolute value, Centroid the mean of the points weighted by it (refused when the area is below 1e-10 or there is no vertex). Reverse changes the sign of area and winding number and not containment. Perimeter is the sum of the side lengths, GetBoundingBox the smallest box, Triangularization gives n-2 triangles whose areas and winding numbers add up to those of the polygon. IsSimple tells whether no two sides cross, IsConvex whether the polygon is convex. Vertex and Edge refuse bad indices.", "quantifier": "all polygons with finitely many vertices, crossing themselves or not, and all points of the plane", "why_tests_cant": "the claims are about all points of the plane and all polygons; tests sample a few", "anchors": ["mml/base/Geometry/Geometry2DCore/Geometry2DPolygon.h: Polygon2D"]}
{"id": "C113", "title": "Lines and segments in the plane", "statement": "For a line with a direction of length one, ClosestPoint is the point of the line nearest to a point and DistanceToPoint its distance; Perpendicular goes through the point at a right angle; Intersection returns the only common point and its parameters if the directions differ beyond the tolerance, and for parallel lines says whether they coincide within it. For a segment, PointOnSegment runs through the segment and refuses other parameters; ClosestPoint and DistanceToPoint give the nearest point of the segment and its distance; Intersection returns the only common point, the ends of the common segment, or says that there is no common point and whether the segments are on one line, and Intersects whether there is a common point.", "quantifier": "all lines, segments and points", "why_tests_cant": "all positions of two segments, with the touching and overlapping ones of measure zero", "anchors": ["mml/base/Geometry/Geometry2DCore/Geometry2DLines.h: Line2D, SegmentLine2D, Intersection, Intersects, ClosestPoint, DistanceToPoint"]}
{"id": "C114", "title": "Triangles in the plane", "statement": "Whatever vertices are stored and in whatever order, the sides, perimeter and area reported are those of the present vertices; the area is the absolute value of the signed area. Circumcenter is the only point at equal distances from the vertices and CircumRadius that distance; Incenter is a point of the triangle at distance InRadius from its sides; the angles are those at the vertices and sum to pi; Contains accepts exactly the points with barycentric coordinates not below minus the tolerance. Degenerate triangles are refused. IsRight, IsIsosceles, IsEquilateral and the orientation tests decide what they say up to the tolerance.", "quantifier": "all triangles, points, tolerances, and histories of changes and queries", "why_tests_cant": "all histories and positions; the lengths are cached", "anchors": ["mml/base/Geometry/Geometry2DCore/Geometry2DTriangle.h: Triangle2D"]}
{"id": "C115", "title": "Circles and boxes in the plane", "statement": "FromDiameter and FromThreePoints give the circle through the points; PointAt runs through it; ClosestPoint is the nearest point of the circle and DistanceToPoint its distance; Intersects says whether two circles, or a circle and a line, have a common point; Area is the area of the disc, ChordLength the distance of two points of the circle. A box holds its corners in order whatever order they are given in; FromPoints is the smallest box with the points; Contains, Intersects, Intersection, Union and ExpandToInclude are the operations on sets of points; ClosestPoint is the nearest point of the box; Intersects with a circle says whether box and disc have a common point. Negative radii and factors, degenerate triples and empty sets are refused.", "quantifier": "all circles, boxes, lines and points", "why_tests_cant": "all positions, with the touching ones of measure zero", "anchors": ["mml/base/Geometry/Geometry2DCore/Geometry2DCircleBox.h: Circle2D, Box2D"]}
{"id": "C116", "title": "A ray and a triangle in space", "statement": "IntersectRayTriangle reports a hit exactly if a point of the ray (parameter not negative) is a point of the triangle, border included; t, u, v and the point of the hit are where they meet, u and v the weights of the second and third vertex, and they are unique. With culling only triangles that show their front are hit. A hit reported is always there.", "quantifier": "all rays, all triangles, both settings of culling", "why_tests_cant": "all positions, grazing ones included", "anchors": ["mml/algorithms/CompGeometry/Intersections.h: Intersections::IntersectRayTriangle", "mml/algorithms/CompGeometry/CompGeometryBase.h: RayTriangleHit"]}
{"id": "C117", "title": "Clipping polygons", "statement": "ClipPolygon returns the part of the polygon inside the clip region: points inside the clip region have the same winding number for the result as for the polygon, and points outside it (beyond the tolerance) have winding number zero, so that the result contains a point exactly if the polygon and the convex clip region do; the vertices of the result are in the convex hull of the polygon and in the half-planes of the clip region. A polygon inside the region is returned unchanged; fewer than three vertices of either give the empty polygon. ClipToRect is this for a rectangle. PolygonIntersectionApprox with a convex clip region is the clipped polygon, PolygonUnionApprox the convex hull of all vertices.", "quantifier": "all polygons (also non-convex and self-intersecting ones), all clip regions, all points of the plane on no side of the polygon", "why_tests_cant": "all polygons and all points: which of many edge configurations occur is open-ended", "anchors": ["mml/algorithms/CompGeometry/PolygonOps.h: PolygonOps::ClipPolygon, ClipToRect, PolygonIntersectionApprox, PolygonUnionApprox, PolygonDifferenceApprox"]}
{"id": "C118", "title": "Lines and segments in space", "statement": "A Line3D made from a point and a direction, or from two points, is the line through them with a direction of length one, and degenerate data are refused. Dist(point) and NearestPointOnLine give the least distance and the one point that has it; IsPointOnLine says whether that distance is below the tolerance. Dist(line) and its nearest points give the least distance of two lines; Intersection classifies two lines, with the common point if there is one; PerpendicularLineThroughPoint meets the line at a right angle. For a segment, operator() divides it in the given ratio, and Dist is the least distance to a point of the segment.", "quantifier": "all points, directions and lines in space, all tolerances", "why_tests_cant": "all positions, near-parallel and degenerate ones included", "anchors": ["mml/base/Geometry/Geometry3DCore/Geometry3DLines.h: Line3D, SegmentLine3D", "mml/base/Vector/VectorTypes.h: Vector3Cartesian"]}
{"id": "C119", "title": "Planes", "statement": "A Plane3D made from a point and a normal, three points, Hesse's form or axis intercepts consists of exactly the right points, and degenerate data are refused. ProjectionToPlane and DistToPoint give the one nearest point and its distance; IntersectionWithLine gives the common point; the angles are those of the normal; GetCoordAxisSegments gives where the axes meet the plane. DistToPlane is the distance of parallel planes and IntersectionWithPlane the common line. GetPerpendicularVectors completes a vector to a perpendicular frame.", "quantifier": "all points, normals, planes and lines", "why_tests_cant": "all positions, parallel and degenerate ones included", "anchors": ["mml/base/Geometry/Geometry3DCore/Geometry3DPlane.h: Plane3D", "mml/base/Vector/VectorTypes.h: Vector3Cartesian::GetPerpendicularVectors, AngleToVector, IsParallelTo, IsPerpendicularTo"]}
{"id": "C120", "title": "Triangles and rectangles in space", "statement": "For a triangle in space, Area is half the length of the vector product of two sides; IsRight, IsIsosceles and IsEquilateral decide their property up to the tolerance; Centroid is the mean of the vertices; getDefinedPlane is a plane with all points of the triangle; IsPointInside says yes exactly to the points of the triangle. TriangleSurface3D maps its parameter domain 0 ≤ u ≤ maxX, 0 ≤ w ≤ getMaxW(u) onto the triangle without changing lengths, and its normal is the unit vector given by the order of the vertices. RectSurface3D does the same for rectangles and refuses points that are no rectangle.", "quantifier": "all triangles and all quadruples of points of space, all query points, all parameters and tolerances", "why_tests_cant": "There are infinitely many triangles; the parametrization must cover each of them exactly, whichever side is the longest, and a test with a few points cannot show that no point is missed or added.", "anchors": ["mml/base/Geometry/Geometry3DCore/Geometry3DSurfaces.h: Triangle3D, TriangleSurface3D, RectSurface3D"]}
{"id": "C121", "title": "Bounding spheres and boxes in space", "statement": "A bounding sphere contains exactly the points within its radius; Intersects says whether two spheres have a common point; ExpandToInclude gives the smallest sphere with the same centre that has the old points and the new one; Volume is the Lebesgue measure; negative radii are refused. For boxes: the constructors put the corners in order; FromPoints, Union and ExpandToInclude give the smallest box with all the points; Contains is membership and inclusion; ClosestPoint is the nearest point and DistanceToPoint its distance; Intersects says whether there is a common point and Intersection is the set of the common points, empty if there is none; Expanded, Translated and Scaled move the box as named; Volume is the Lebesgue measure.", "quantifier": "all spheres, boxes, points, point lists, margins, factors and tolerances", "why_tests_cant": "Spatial queries prune work on the assumption that the boxes are conservative and minimal; an example-based test cannot show that no point is lost for any configuration.", "anchors": ["mml/base/Geometry/Geometry3DBodiesCore/Geometry3DBounding.h: BoundingSphere3D, Box3D"]}
{"id": "C122", "title": "Solid bodies in space", "statement": "For the cube, the sphere, the cylinder, the square pyramid and the torus, IsInside is membership in the body the documentation describes, closed; Volume is the Lebesgue measure of that set; GetCenter is its centroid; GetBoundingBox is the smallest box around it and GetBoundingSphere the smallest sphere around it with that centre; the surface meshes of cube, cylinder and pyramid are closed, consistently oriented outwards and enclose the volume; the meshes of sphere and torus have their vertices on the surface and the sphere mesh is closed. A composed body is the union of its parts.", "quantifier": "all sizes, centres, points and numbers of divisions", "why_tests_cant": "The claims are about measures, centroids and smallest boxes of sets of points of the continuum, and about closedness of meshes with any number of divisions.", "anchors": ["mml/base/Geometry/Geometry3DBodiesCore/Geometry3DCubes.h: Cube3D, CubeWithTriangles3D", "mml/base/Geometry/Geometry3DBodiesCore/Geometry3DTorusCylinder.h: Torus3D, Cylinder3D", "mml/base/Geometry/Geometry3DBodiesCore/Geometry3DSpherePyramid.h: Sphere3D, Pyramid3D, PyramidEquilateral3D", "mml/base/Geometry/Geometry3DBodiesCore/Geometry3DBodyBase.h: IBody, ISolidBodyWithBoundary, ComposedSolidSurfaces3D"]}
{"id": "C123", "title": "Points in other coordinates, angles, and distances on the globe", "statement": "Points in polar, cylindrical and spherical coordinates turn into Cartesian points and back without loss; their Dist is the Euclidean distance of the Cartesian points, never the root of a negative number, and IsEqualTo compares it with the tolerance. The angle utilities invert each other; degrees, minutes and seconds are unique and recombine; the range functions end for every angle with the only angle in the range that differs by whole turns; AnglesAreEqual holds exactly if the angles differ by less than the tolerance after some whole turns. The great-circle distance of two places is the angle between their position vectors, hence symmetric and subject to the triangle inequality.", "quantifier": "all points, angles, tolerances and places", "why_tests_cant": "Loops whose number of rounds depends on the angle, and identities of trigonometric functions at every point.", "anchors": ["mml/base/Geometry/GeometryCore/GeometryPoints.h: Point2Polar, Point3Spherical, Point3Cylindrical", "mml/base/BaseUtils/AngleCoordUtils.h", "mml/base/Geometry/GeometrySpherical.h: SphericalGeometryCalculator", "mml/MMLBase.h: normalizeAngle, AnglesAreEqual"]}
{"id": "C124", "title": "Plane shapes agree with their geometry", "statement": "A Triangle is valid exactly if some triangle of the plane has its sides; for every placement Area is the area, the medians are the distances to the midpoints, and (if not degenerate) angles, altitudes, inradius and circumradius are those of the placed triangle, with the classifications telling the truth about them. Areas of circle, sector, segment, annulus and ellipse are the Lebesgue measures of the figures; arc length is the integral of the speed; every point of the ellipse has distances from the foci that add up to 2a and a constant ratio of the distances from focus and directrix. Regular polygons, rectangles, parallelograms, rhombi and trapezoids have the sides, diagonals, heights, angles and areas of their corners in the plane, and each named constructor returns the shape with the quantities given.", "quantifier": "all sides, radii, angles and numbers of sides for which the shape exists", "why_tests_cant": "The quantities are real functions of continuous parameters and, for polygons, of every number of sides.", "anchors": ["mml/base/Geometry/GeometryCore/Geometry2DShapes.h: Triangle, Circle, Ellipse, RegularPolygon, Rectangle, Parallelogram, Rhombus, Trapezoid and the parts of a circle"]}
{"id": "C125", "title": "Solids given by lengths agree with their geometry", "statement": "Volumes of sphere, cap, cylinder, cone, frustum, spheroid and torus are the Lebesgue volumes of the solids; lateral areas, zones, caps, the torus and the spheroid (oblate and prolate) have the area of the surface swept by their profile; slant height and apex angle are those of the profile; the named constructors return the solid with the volume, surface or slant height given; the surface of a tetrahedron is the sum of the areas of its faces for every four points of space, its volume that of the tetrahedron with these edges, and the circumradius of a regular one the distance of the centre from the corners.", "quantifier": "all radii, heights and edge lengths of existing solids", "why_tests_cant": "The quantities are real functions of continuous parameters; a tetrahedron has six of them.", "anchors": ["mml/base/Geometry/GeometryCore/Geometry3DShapes.h: SphereGeom, CylinderGeom, ConeGeom, Frustum, Tetrahedron, Spheroid, TorusGeom"]}
{"id": "C126", "title": "The minimum enclosing circle is the smallest circle with all points", "statement": "MinimumEnclosingCircle returns, for every list of points, every shuffle and every sequence of random draws, a circle that has all the points, such that no circle with all the points has a smaller radius, and no other circle of the same radius has them all.", "quantifier": "all lists of points, all orders after shuffling, all sequences of random draws", "why_tests_cant": "The algorithm is randomised and recursive: the sequence of boundary points depends on every draw, and each run of a test sees only one of the exponentially many sequences.", "anchors": ["mml/algorithms/CompGeometry/Circles.h: MinimumEnclosingCircle, WelzlHelper, CircleFrom2Points, CircleFrom3Points, IsInsideCircle"]}
{"id": "C127", "title": "Delaunay triangulation: empty circles, no overlaps", "statement": "ComputeDelaunay returns for every list of points a mesh whose indices are in range. Its triangles are counter-clockwise, the circle through the corners of each has no other input point strictly inside, no two triangles share an interior point, and every triple of input points whose circle has all other points strictly outside is among the triangles.", "quantifier": "all lists of points, in any order and with repetitions", "why_tests_cant": "The incremental algorithm passes through a triangulation per point, whose shape depends on the insertion order; degenerate configurations (points on a common circle or line) are exactly those a sample of random points never meets.", "anchors": ["mml/algorithms/CompGeometry/Triangulation.h: ComputeDelaunay, InCircumcircle, EdgeKey, DelaunayTriangulate"]}
{"id": "C128", "title": "Queries on a triangulation: neighbours, hull edges, location, interpolation", "statement": "The neighbour of a triangle across a side is the triangle that has the side in the other direction, and -1 if there is none; GetConvexHullEdges returns exactly the sides no other triangle has. LocatePoint returns the first triangle that has the point in its interior or on its boundary, and -1 if there is none. Interpolate returns the default outside of all triangles, and inside the value of the linear function through the three corner values.", "quantifier": "all meshes of the triangulation, all query points and all values", "why_tests_cant": "The neighbour table is assembled by edge keys over all triangles, and the queries decide by signs that are zero on every edge: only a proof covers every mesh and every boundary position.", "anchors": ["mml/algorithms/CompGeometry/Triangulation.h: BuildNeighborInfo, GetConvexHullEdges, LocatePoint, Interpolate, GetTrianglePoints"]}
{"id": "C129", "title": "Ear clipping returns a triangulation of the polygon", "statement": "EarClipTriangulation returns, for every polygon with n >= 3 vertices, n - 2 triangles whose corners are vertices; their signed areas add up to the area of the polygon, and about every point of the plane their winding numbers add up to that of the polygon. So for a simple polygon the triangles cover it and do not overlap.", "quantifier": "all lists of vertices, convex or not, in either order; all points of the plane", "why_tests_cant": "Which ear is cut first changes all later polygons, and the covering claim speaks about every point of the plane.", "anchors": ["mml/algorithms/CompGeometry/Triangulation.h: EarClipTriangulation, IsEar, IsPointInTriangle, Cross"]}
{"id": "C130", "title": "Continuous systems: Jacobians are derivatives, energies are conserved", "statement": "For the Lorenz, Rossler, Van der Pol, Duffing, Chua and Henon-Heiles systems every entry of the matrix `jacobian` returns is the partial derivative of `derivs`, for all parameters and states; the divergence of the Lorenz system is its trace. Along every solution of the Henon-Heiles system and of the double pendulum `computeInvariant` keeps its value. The default numerical Jacobian is exact for systems of degree two in each coordinate. A parameter that was set is read back and changes no other.", "quantifier": "all parameters, all states, all solutions of the differential equations, all times", "why_tests_cant": "A derivative and a conserved quantity are statements about all states and all times; a test compares finite differences at a few points up to a tolerance.", "anchors": ["mml/systems/ContinuousSystems.h: LorenzSystem, RosslerSystem, VanDerPolSystem, DuffingSystem, ChuaCircuit, HenonHeilesSystem, DoublePendulumSystem", "mml/interfaces/IDynamicalSystem.h: jacobian", "mml/systems/DynamicalSystemBase.h: getParam, setParam, getParams, setParams"]}
{"id": "C131", "title": "Discrete maps: orbits, Jacobians and Lyapunov exponents", "statement": "`orbit` returns the first n iterates. The Jacobians of the logistic, Henon, standard and tent map are their derivatives; the standard map returns values in [0, 2pi) and keeps areas; orbits of the logistic map (0 <= r <= 4) and the tent map (0 <= mu <= 2) stay in the unit interval. The Lyapunov exponents sum to the mean of log |det J| along the orbit: log mu for the tent map, 0 for the standard map, log |b| for the Henon map; in dimension one the exponent is the mean of the logarithms of the slopes.", "quantifier": "all parameters, all starting points, all numbers of iterations, maps of every dimension", "why_tests_cant": "Orbits are chaotic and of any length, and an exponent computed from a finite orbit has no known value to compare with; the exact sum rule holds for every orbit.", "anchors": ["mml/systems/DiscreteMaps.h: LogisticMap, HenonMap, StandardMap, TentMap, DiscreteMapLyapunov::Compute"]}
{"id": "C132", "title": "Vector products, angles, projections, index symbols and mixed real/complex arithmetic", "statement": "ScalarProduct returns sum a_i b_i (sum a_i conj b_i for complex vectors, which is an inner product) and refuses vectors of different sizes. VectorsAngle is the Euclidean angle in [0, pi] for non-zero vectors. The projections split a vector into a multiple of the direction and a vector orthogonal to it. OuterProduct has the elements a_i b_j. The Levi-Civita symbols are the sign of the permutation and 0 for any other indices, and they satisfy the contraction identity. The mixed real/complex sums, differences and products of vectors and matrices are the exact complex results, and refuse operands whose dimensions do not fit.", "quantifier": "all vectors and matrices of all sizes, all integer indices", "why_tests_cant": "Sizes and elements are unbounded, and the claims relate several functions (the two projections, the angle and the norm).", "anchors": ["mml/base/BaseUtils/VectorOps.h: ScalarProduct, VectorsAngle, VectorProjectionParallelTo, VectorProjectionPerpendicularTo, OuterProduct", "mml/base/BaseUtils/SymbolUtils.h: LeviCivita, KroneckerDelta", "mml/base/BaseUtils/MixedTypeOps.h: AddVec, SubVec, MulVec, AddMat, SubMat, MulMat, MulMatVec, MulVecMat"]}
{"id": "C133", "title": "Voronoi diagrams: vertices, edges, cells, clipped cells and the nearest site", "statement": "FindNearestSite returns the first site with no site nearer, -1 only for an empty diagram. ComputeVoronoi returns for every list of points, with a cell and a flag per site and all indexes in range. Every Voronoi vertex has three sites, not on a line, as nearest sites; every point of a bounded edge has the edge's two sites as nearest sites; an infinite edge starts at a vertex, is perpendicular to the line of its sites and points away from a third site, and its points have the two sites as nearest if no site is beyond that line; there is one edge per pair of sites. A cell returned by GetCell holds exactly the points whose nearest site is its site. GetClippedCell is the part of the cell in the rectangle, up to the tolerance 1e-10.", "quantifier": "all lists of sites, all query points, all rectangles", "why_tests_cant": "Sites, query points and rectangles range over a continuum; the claims quantify over all points of edges and cells.", "anchors": ["mml/algorithms/CompGeometry/VoronoiDiagram.h: Voronoi::ComputeVoronoi, ComputeCircumcenter, VoronoiDiagram::FindNearestSite, GetCell, IsCellInfinite, GetClippedCell, ClipToRect, ClipAgainstLine"]}
{"id": "C134", "title": "The downhill simplex method (Nelder-Mead): result, evaluations, rounds and non-degeneracy", "statement": "For every function of N >= 1 variables, every positive tolerance and positive limit, NelderMead::Minimize returns a point xmin with fmin = f(xmin) such that no point at which the function was ever called, in particular no vertex of the initial simplex, has a smaller value. The reported count is the number of calls and exceeds the limit by at most one round (N + 1). Every round is a textbook round: reflection of a worst vertex in the centroid of the others, expansion, contraction or shrinking to a best vertex, chosen by the textbook comparisons. The final simplex is affinely independent if the initial one is, which holds for every start and non-zero displacements. The flag converged means that worst and best value of the final simplex agree within the fractional tolerance; otherwise the limit on calls is used up. NelderMeadMaximize does the same for maxima. Tolerances and limits that are not positive, zero displacements and a wrong number of displacements throw.", "quantifier": "all dimensions, functions, starts, displacements, simplexes, tolerances and limits", "why_tests_cant": "The function is arbitrary and the number of rounds unbounded; the claims are invariants over all runs.", "anchors": ["mml/algorithms/OptimizationMultidim.h: NelderMead::Minimize, MinimizeFromSimplex, Amotry, GetPsum, NelderMeadMaximize"]}
{"id": "C135", "title": "BFGS: sufficient decrease, positive definite inverse Hessian, result and termination", "statement": "For every objective, every gradient function handed in (right or wrong), every start and all positive tolerances and limits, BFGS::Minimize returns a point with fmin = f(xmin), never above the value at the start, after at most the allowed iterations. The line search always returns a point of sufficient decrease, f(x + a d) <= f(x) + 1e-4 a (g.d) with 0 <= a <= 50 and g.d <= 0; its last resort is never taken. A full step, or else half of it, that satisfies the strong Wolfe conditions is taken unchanged. The approximate inverse Hessian stays symmetric and positive definite in every iteration, no division by zero happens, each accepted update satisfies the secant equation, and the direction descends unless the gradient is zero. The flag converged means the scaled gradient is below its tolerance or the last step changed the value by no more than the fractional tolerance. It does not mean that a minimum is near: for a convex quadratic of condition number 2^23 the start itself is returned as converged. Tolerances and limits that are not positive throw.", "quantifier": "all dimensions, objectives, gradients, starts, tolerances and limits", "why_tests_cant": "The objective and the gradient are arbitrary and the number of iterations unbounded; positive definiteness is an invariant over all runs.", "anchors": ["mml/algorithms/OptimizationMultidim.h: BFGS::Minimize, LineSearchWolfe, WolfeZoom, AcceptWolfeStep"]}
{"id": "C136", "title": "Limited-memory BFGS: history, two-loop recursion, backtracking and result", "statement": "For every objective, every gradient function handed in, every start, memory size and all positive tolerances and limits, LBFGS::Minimize returns a point with fmin = f(xmin). The circular history always holds exactly the newest accepted correction pairs, at most as many as the memory size, all with positive curvature; the two-loop recursion computes the product of the approximate inverse Hessian these pairs define (with a positive initial scale) and the gradient, whatever the scratch vector held, so the direction descends unless the gradient is zero, and the newest gradient difference is mapped to the newest step. The backtracking search ends for every function, point, gradient and direction without a division by zero, at a parameter in (0, 1] with sufficient decrease or a step within 1e-12 relative in every component. The flag converged comes within the limit and means the scaled gradient is below its tolerance or the last step changed the value by no more than the fractional tolerance. Without the flag the iterations reported are one more than the limit, and the result can be worse than the start. Inputs that are not positive throw.", "quantifier": "all dimensions, objectives, gradients, starts, memory sizes, tolerances and limits", "why_tests_cant": "The objective and the gradient are arbitrary, the number of iterations unbounded, and the buffer wraps around any number of times.", "anchors": ["mml/algorithms/OptimizationMultidim.h: LBFGS::Minimize, LineSearchBacktrack, MakeResult"]}
{"id": "C137", "title": "Line minimisation and Powell's method: monotone values, no stray write, meaning of convergence", "statement": "For every objective, start, matrix of directions and all positive tolerances and limits, Powell::Minimize throws or returns a point with fmin = f(xmin), never above the value at the start, after at most the allowed iterations; it never writes outside its matrix of directions (ibig = 0 is never used as an index). The flag converged means that a whole sweep of line minimisations over N directions ended at the point returned and lowered the value by no more than the tolerance; without it the iterations reported are the limit. Of the old directions only the one of the largest decrease is discarded, and the last column is the last displacement. Each line minimisation throws or returns a point of the line, the displacement and the value there, not above the value at its start, lying strictly between two points of the line within Brent's tolerance where the function is not smaller. A line along which the function is strictly monotone is an exception, so a function that falls for ever gives an exception and no result. The middle of the bracket found by BracketMinimum is never worse than either point handed in.", "quantifier": "all dimensions, objectives, starts, direction matrices, tolerances and limits", "why_tests_cant": "The objective is arbitrary and the iterations unbounded; the index argument depends on all values seen in a sweep.", "anchors": ["mml/algorithms/OptimizationMultidim.h: LineFunction, LineMinimizer::Minimize, Powell::Minimize", "mml/algorithms/Optimization.h: BracketMinimum"]}
{"id": "C138", "title": "Conjugate gradient: monotone values, descent and conjugacy, meaning of convergence", "statement": "For both formulas (Fletcher-Reeves, Polak-Ribiere), every objective, every gradient function handed in, every start and all positive tolerances and limits, ConjugateGradient::Minimize throws or returns a point with fmin = f(xmin), never above the value at the start, after at most the allowed iterations. The flag converged means the scaled gradient is below its tolerance or the last line minimisation lowered the value by no more than the fractional tolerance: the third exit, for a zero old gradient, is never taken, and there is no division by zero. If a line minimisation was exact the new direction h satisfies h.g = -g.g, so it descends, and it is conjugate to the last gradient difference (with Fletcher-Reeves when consecutive gradients are orthogonal). Tolerances and limits that are not positive throw.", "quantifier": "all dimensions, objectives, gradients, starts, tolerances and limits, both formulas", "why_tests_cant": "The objective and the gradient are arbitrary and the number of iterations unbounded.", "anchors": ["mml/algorithms/OptimizationMultidim.h: ConjugateGradient::Minimize, LineMinimizer::Minimize"]}
{"id": "C139", "title": "Integration with events: events are located, in order, none is ignored in a step with a sign change, stop and restart", "statement": "For every system with event functions, every stepper whose accepted steps are positive, not longer than asked for and joined by the dense output, and all output spacings and tolerances above zero, integrateWithEvents (if it ends) throws that the step is too small or returns a run of accepted steps in which a step is passed without an event only if no event function changes sign between its ends in a direction asked for. In any other step it records the event located earliest: the direction recorded is that of the sign change, the time lies in the step, the state is the dense output there, and the event function is below the tolerance there or changes sign within the tolerance (or 0.9^100 of the step) after it. The search never divides by zero. Events are in chronological order. The first Stop event ends the integration at its time and state; after a Restart event it goes on at that time from the handled state; otherwise the end of the interval is reached. The solution starts with the initial point, its times do not decrease and it has at most ceil((tEnd-t0)/dt)+1 entries.", "quantifier": "all systems, event functions, steppers meeting the contract, starts, intervals, spacings, tolerances and first steps", "why_tests_cant": "Event functions and steppers are arbitrary and the number of steps and restarts is unbounded.", "anchors": ["mml/algorithms/ODESolvers/ODESolverEventDetection.h: ODEEventDetectionIntegrator::integrateWithEvents, EventResult", "mml/interfaces/IODESystemWithEvents.h: IODESystemWithEvents, EventDirection, EventAction"]}
{"id": "C140", "title": "Extrapolation to a zero step: Neville, geometric steps, known order", "statement": "NevilleExtrapolate on n points whose abscissas are pairwise at least the threshold apart converges to the value at zero of the polynomial through all the points, hence exactly for data from a polynomial of degree below n, and its error estimate is the change from one point fewer; for fewer than two points, tables of different lengths or two abscissas closer than the threshold it returns with converged = false, and no table index is ever out of range. Extrapolate with a reduction factor of absolute value above one stays, for approximations within E of a limit D at all steps up to the first, within E times the product of (con^(2j)+1)/(con^(2j)-1) of D, whatever entry it settles on and whatever the safety factor, with at most max_iter evaluations; it is exact when the error is a multiple of the squared step. SimpleExtrapolate is exact when the error is c*h^p and r^p is not 1, and SimpleErrorEstimate is then the error of the finer value if r^p > 1.", "quantifier": "all tables, all evaluators, limits and bounds, all first steps, factors, depths and orders", "why_tests_cant": "Tables have any length and evaluators are arbitrary functions of the step.", "anchors": ["mml/core/RichardsonExtrapolation.h: Richardson::NevilleExtrapolate, Richardson::Extrapolate, Richardson::SimpleExtrapolate, Richardson::SimpleErrorEstimate"]}
{"id": "C141", "title": "Definiteness of symmetric matrices", "statement": "For every nonempty symmetric matrix and tolerance tol >= 0, ClassifyDefiniteness answers, and with b = sqrt(2) times the residual of the eigenvalue solver (within tol when it converged): PositiveDefinite means x'Ax >= (l-b)|x|^2 for all x with some l > tol; PositiveSemiDefinite means x'Ax >= -(tol+b)|x|^2 for all x, with a unit vector where the form exceeds tol and one where it is within tol of zero; NegativeDefinite and NegativeSemiDefinite are the mirror images; Indefinite means unit vectors with form above tol and below -tol, or a form within (tol+b)|x|^2 everywhere. With an exact diagonalisation and tolerance zero these are the textbook classes, with the zero matrix among the indefinite ones. A general matrix is classified by its symmetric part, which has the same form; matrices that are not square and the empty matrix are refused. The Is... tests are the classes.", "quantifier": "all symmetric and square matrices of dimension below 10000, all tolerances", "why_tests_cant": "The form has to be bounded for all vectors, and the matrix is arbitrary.", "anchors": ["mml/algorithms/MatrixAlg.h: ClassifyDefiniteness, IsPositiveDefinite, IsPositiveSemiDefinite, IsNegativeDefinite, IsNegativeSemiDefinite, IsIndefinite"]}
{"id": "C142", "title": "Characteristic polynomial, nilpotent and unipotent matrices", "statement": "For every nonempty square matrix FaddeevAlg stores the coefficients of its characteristic polynomial det(xI - A) and its determinant, whatever the caller's polynomial held before; when the determinant is not zero the third output is the two-sided inverse, and when it is zero the third output is the result of dividing by zero. Empty and non-square matrices are rejected. IsNilpotent and IsUnipotent decide whether one of the powers A^2..A^n, respectively (A-I)^1..(A-I)^n, has no element above the zero tolerance; every nilpotent matrix with at least two rows and every unipotent matrix is recognised, and with the tolerance zero nothing else is.", "quantifier": "all square matrices up to the size limit, all previous contents of the output polynomial, all tolerances >= 0", "why_tests_cant": "The coefficients have to equal those of the determinant polynomial for every matrix and dimension.", "anchors": ["mml/core/MatrixUtils.h: FaddeevAlg, IsNilpotent, IsUnipotent, Trace"]}
{"id": "C143", "title": "Rank by Gaussian elimination", "statement": "For every matrix, square or not, and every tolerance that is not negative, RankGaussian returns a number that is at most the rank of the matrix. With the tolerance zero it returns exactly the rank.", "quantifier": "all matrices of all shapes, all tolerances >= 0", "why_tests_cant": "The pivots and the skipped columns depend on every element.", "anchors": ["mml/core/MatrixUtils.h: RankGaussian"]}
{"id": "C144", "title": "Structure tests, norms and similarity transform of matrices", "statement": "For every square matrix and tolerance, IsUpperHessenberg, IsUpperTriangular, IsLowerTriangular, IsDiagonal, IsSymmetric and IsSkewSymmetric answer true exactly when every element the structure makes zero (or the sum or difference of mirrored elements) is within the tolerance; non-square matrices are neither symmetric nor skew-symmetric. Trace is the sum of the diagonal, FrobeniusNorm the root of the sum of squares, InfinityNorm and OneNorm the largest absolute row and column sums; InfinityNorm is the smallest bound of the matrix acting on vectors. MaxAbsDiff of matrices of one shape is the largest difference and is zero only for equal matrices. SimilarityTransform(Q, A) is Q'AQ, and has the characteristic polynomial of A when Q is orthogonal.", "quantifier": "all matrices and tolerances", "why_tests_cant": "The statements quantify over every element of matrices of any size.", "anchors": ["mml/core/MatrixUtils.h: IsUpperHessenberg, IsUpperTriangular, IsLowerTriangular, IsDiagonal, IsSymmetric, IsSkewSymmetric, Trace, FrobeniusNorm, InfinityNorm, OneNorm, MaxAbsDiff, SimilarityTransform"]}
{"id": "C145", "title": "Adaptive integration over rectangles and boxes", "statement": "IntegrateAdaptive2D and IntegrateAdaptive3D visit cells obtained from the region by cutting into quarters (eighths); a cell is cut exactly when its tensor Kronrod and Gauss sums differ by more than its share of the tolerance, the greatest depth is not reached and evaluations are left; the value and error_estimate are the sums over the cells kept, which tile the region. If on every part the difference of the rules bounds the error of the Kronrod rule (up to a slack per area), the error_estimate returned bounds the distance of the value from the double integral of a continuous integrand (up to the slack). When neither limit was reached the error_estimate is within the tolerances. The evaluation limit is exceeded by at most 1 + 3 max_depth (1 + 7 max_depth) cell estimates. A region without interior gives zero.", "quantifier": "all integrands, regions, tolerances, depth and evaluation limits", "why_tests_cant": "The subdivision depends on the integrand; a test follows one subdivision tree, and tiling and limits must hold for every tree.", "anchors": ["mml/core/Integration/Integration2DAdaptive.h: IntegrateAdaptive2D, IntegrateAdaptive2D_Recursive, IntegrateCell2D_TensorGK15, AdaptiveResult2D", "mml/core/Integration/Integration3DAdaptive.h: IntegrateAdaptive3D, IntegrateAdaptive3D_Recursive, IntegrateCell3D_TensorGK15, AdaptiveResult3D"]}
{"id": "C146", "title": "Monte Carlo integration for every stream of random numbers", "statement": "For every stream of random numbers in [0,1): MonteCarloIntegrator returns the volume times the mean of the samples and the volume times the standard error of the mean (never the root of a negative number); in a proper box the value is between the volume times any bounds of the integrand, and the error estimate at most volume times half the distance of the bounds over the root of the number of samples; with antithetic variates affine integrands are integrated exactly with error zero. StratifiedMonteCarloIntegrator visits every stratum exactly once, so its value lies between the lower and upper sums of the integrand for the grid of strata, and step functions are exact. HitOrMissIntegrator returns the share of points in the region times the volume, between zero and the volume, and the estimates of a region and its complement add up to the volume; EstimatePi is between 0 and 4 and equals EstimateUnitBallVolume<2>.", "quantifier": "all integrands, boxes, dimensions, numbers of samples and strata, random streams", "why_tests_cant": "A test fixes seeds; the statements hold for every stream the generator could produce.", "anchors": ["mml/core/Integration/MonteCarloIntegration.h: MonteCarloIntegrator, StratifiedMonteCarloIntegrator, HitOrMissIntegrator, EstimatePi, EstimateUnitBallVolume"]}
{"id": "C147", "title": "Matrix functions, commutators and complex matrix tools", "statement": "For every square matrix and number m: Exp(a,m) is the Taylor polynomial sum of A^k/k! for k up to m, Sin and Sinh the terms of odd degree up to m (alternating, all positive), Cosh the terms of even degree up to m, Cos those of even degree up to m+1; Exp = Sinh + Cosh for the same m; of a nilpotent matrix Exp is exact as soon as m+1 reaches the index of nilpotency, and Exp(-a,m) is its inverse; for real matrices all elements of Exp(a,m) converge to the matrix exponential. Matrices that are not square are refused. Commutator and AntiCommutator are AB-BA and AB+BA, the first has trace zero and changes sign on exchange. MatrixDecomposeToSymAntisym returns the only pair of a symmetric and an antisymmetric matrix with the given sum. IsOrthogonal and IsUnitary test the product with the (conjugate) transpose against the unit matrix element by element; with zero tolerance IsUnitary decides unitarity. GetRealPart, GetImagPart, GetConjugateTranspose, CmplxMatFromRealMat and IsComplexMatReal do what they say for every matrix; the conjugate transpose is an involution.", "quantifier": "all matrices of all sizes, numbers of terms and tolerances", "why_tests_cant": "A test compares a few small matrices with a few terms; the statements hold for every matrix and number of terms, and the limit is not reachable by any test.", "anchors": ["mml/base/BaseUtils/MatrixOps.h: Exp, Sin, Cos, Sinh, Cosh, Commutator, AntiCommutator, MatrixDecomposeToSymAntisym, IsOrthogonal, IsUnitary, GetRealPart, GetImagPart, GetConjugateTranspose, CmplxMatFromRealMat, IsComplexMatReal"]}
{"id": "C148", "title": "IsHermitian decides conjugate symmetry", "statement": "IsHermitian(m) returns true exactly if m equals its conjugate transpose, and throws MatrixDimensionError if m is not square.", "quantifier": "all complex matrices", "why_tests_cant": "A test tries a few matrices; the claim is an equivalence for all of them.", "anchors": ["mml/base/BaseUtils/MatrixOps.h: IsHermitian"]}
{"id": "C149", "title": "PageRank returns a probability distribution close to the stationary distribution of the random surfer", "statement": "For every graph, damping factor, iteration limit and tolerance, PageRank returns one score per vertex and the scores of a non-empty graph add up to exactly 1; the division by their sum is never a division by zero. With a damping factor d in [0,1] every score is between (1-d)/n and 1. For d in [0,1) the random surfer (follow a uniformly chosen outgoing edge, or jump to a uniformly chosen vertex from a vertex without one and with probability 1-d) has exactly one stationary distribution, and the returned scores are within 2 d^k of it in the 1-norm after the full k iterations, or within d/(1-d) times the tolerance when stopped earlier; so they converge to it.", "quantifier": "all graphs built through the public interface, all damping factors, iteration limits and tolerances", "why_tests_cant": "A test checks the scores of a few graphs; the sum, the bounds and the distance to the stationary distribution are claims for all graphs and all iteration counts.", "anchors": ["mml/algorithms/GraphSpectral.h: PageRank"]}
{"id": "C150", "title": "Density, degree and closeness centrality, clustering coefficient, diameter and average path length of a graph", "statement": "For every graph: DegreeCentrality is the number of neighbours over n-1, in [0,1] for a vertex without a self loop. GraphDensity of a graph without self loops is the fraction of possible vertex pairs joined by an edge, in [0,1]. ClosenessCentrality is the number of other reachable vertices over the sum of the shortest distances to them, 0 if there are none, in [0,1]. GraphDiameter is infinite exactly if some vertex cannot be reached from another, and otherwise the greatest shortest distance. AverageClusteringCoefficient is in [0,1] and is the average over the vertices with at least two neighbours of the fraction of pairs of neighbours joined by an edge. AveragePathLength is the average of the shortest distances over all pairs of distinct vertices, the second reachable from the first.", "quantifier": "all graphs built through the public interface", "why_tests_cant": "A test compares the numbers for a few graphs; these are equalities with counts over all walks and pairs of every graph.", "anchors": ["mml/algorithms/GraphSpectral.h: DegreeCentrality, ClosenessCentrality, GraphDensity, AverageClusteringCoefficient, GraphDiameter, AveragePathLength"]}
{"id": "C151", "title": "AlgebraicConnectivityBound is a lower bound on the algebraic connectivity", "statement": "For every undirected graph AlgebraicConnectivityBound returns a number that is not negative and at most the algebraic connectivity (the second smallest eigenvalue of the Laplacian), and 0 if the graph is disconnected.", "quantifier": "all undirected graphs built through the public interface", "why_tests_cant": "A test tries a few graphs; the claim is an inequality for every one of them.", "anchors": ["mml/algorithms/GraphSpectral.h: AlgebraicConnectivityBound"]}
{"id": "C152", "title": "EigenvectorCentrality returns a normalised eigenvector of the adjacency matrix", "statement": "For every graph EigenvectorCentrality returns a vector of Euclidean norm 1, without negative entries if no weight is negative, and with a large enough iteration limit and small enough tolerance it is as close as wanted to an eigenvector of the adjacency matrix.", "quantifier": "all graphs, iteration limits and tolerances", "why_tests_cant": "A test runs a few graphs on which the power iteration settles; the claim is for all graphs and all limits.", "anchors": ["mml/algorithms/GraphSpectral.h: EigenvectorCentrality"]}
{"id": "C153", "title": "The delta function approximations have unit mass and pick out the value at 0", "statement": "For every parameter N >= 1 the step, Gaussian and Lorentzian approximations are defined for every argument, nonnegative, even, and have integral exactly 1 over the line; as N grows, their integral against any bounded continuous function tends to its value at 0. The sinc approximation is even and nowhere larger in size than its value N/pi at 0.", "quantifier": "all N >= 1, all arguments, all bounded continuous functions", "why_tests_cant": "A test evaluates a few arguments; the mass is an integral over the whole line and the limit is over all N and all functions.", "anchors": ["mml/base/DiracDeltaFunction.h: DiracStep, DiracExp, DiracSqr, DiracSin"]}
{"id": "C154", "title": "TaylorSeries2 and TaylorSeries3 return the Taylor polynomial in powers of x", "statement": "For every function that is smooth near the expansion point a, TaylorSeries2 (TaylorSeries3) returns a polynomial of degree 2 (3) whose value at a is f(a) and which at every x differs from the Taylor polynomial of f at a by no more than the truncation errors of the numerical derivatives times the powers of |x - a|. A polynomial of degree at most 2 (3) is given back exactly, whatever the expansion point.", "quantifier": "all smooth functions, expansion points and arguments x; all polynomials of degree at most 2 (3)", "why_tests_cant": "A test compares a few functions at a few points; the conversion from powers of x - a to powers of x must be right for every expansion point, and a test at a = 0 does not exercise it at all.", "anchors": ["mml/core/FunctionHelpers.h: TaylorSeries2, TaylorSeries3"]}
{"id": "C155", "title": "PathIntegration: lengths, masses and line integrals along curves", "statement": "The integrand of ParametricCurveLength is the speed of the curve up to the error of the numerical tangent. The length of every straight segment and the mass of every straight wire with affine density are exact; the work of a constant field along a curve with coordinates of degree at most 2 is exactly the field times the displacement. For every field and density the integrands are exact on curves with coordinates of degree at most 4, and the line integral along a straight segment is exact when the field is affine along it. For every curve and field, exchanging the limits negates the result and changes nothing else; for increasing limits the length is not negative, and equals the mass for density 1 and the line integral of the scalar field 1.", "quantifier": "all curves, fields, densities, limits, precisions and step limits from 1 (7 for the exact cases) to 32", "why_tests_cant": "A test compares the length of a circle or a helix with its known value up to a tolerance; it cannot cover all curves and fields, and a tolerance hides small systematic errors.", "anchors": ["mml/core/Integration/PathIntegration.h: PathIntegration::ParametricCurveLength, ParametricCurveMass, LineIntegral"]}
{"id": "C156", "title": "The predefined fields have the documented gradients, divergences and rotations", "statement": "At every point outside its singularity: the inverse radial force field is minus the gradient of the inverse radial potential with the same constant (F = -grad Phi); rigid rotation has divergence 0 and rotation twice the angular velocity; the saddle, source, line current and potential vortex fields have divergence 0 and rotation 0; the line current and potential vortex fields have the size constant / distance from the axis, for every axis other than 0; the field of a current along any line is the potential vortex about it; the plane current field has a constant size, changes sign across the plane and has divergence 0 and rotation 0 off it; the dipole field is minus the gradient of p.r / r^3.", "quantifier": "all constants, centres and points outside the singularity", "why_tests_cant": "A test evaluates a field at a few points; that it is a gradient, or has no divergence or rotation, is a statement about its derivatives at all points.", "anchors": ["mml/core/Fields.h: InverseRadialPotentialFieldCart, InverseRadialPotentialForceFieldCart, InverseRadialFieldCart, InverseRadialForceFieldCart, InfiniteLineCurrentField, InfiniteLineCurrentFieldGeneral, InfinitePlaneCurrentField, VortexField, PotentialVortexField, SaddleField, SourceSinkField, DipoleField"]}
{"id": "C157", "title": "The scalar bump fields have the documented shape", "statement": "The Gaussian bump has its amplitude as the value at the centre, for a positive amplitude smaller positive values everywhere else, the gradient -2 (r - c) / sigma^2 times its value, and tends to 0 far from the centre. The Mexican hat has its amplitude at the centre, is positive inside the sphere of radius sigma, 0 on it and negative outside, is a multiple of the Laplacian of a Gaussian and has zero mean over space.", "quantifier": "all amplitudes, widths other than 0, centres and points", "why_tests_cant": "A test evaluates a field at a few points; a maximum, a limit, a Laplacian and an integral over space are statements about all points.", "anchors": ["mml/core/Fields.h: GaussianBumpField, MexicanHatField"]}
