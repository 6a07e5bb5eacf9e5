{
 "claims": [
  {
   "property": "C01",
   "status": "proved",
   "theorems": [
    "Verif.Graph.graph_wellformed",
    "Verif.Graph.graph_history_defined"
   ],
   "note": "All histories of public calls from every constructor argument."
  },
  {
   "property": "C02",
   "status": "proved",
   "theorems": [
    "Verif.Graph.graph_refines_spec",
    "Verif.Graph.addEdge_effect",
    "Verif.Graph.removeEdge_effect"
   ],
   "note": "Refinement to an abstract pair map, plus effect and frame of each edit."
  },
  {
   "property": "C03",
   "status": "proved",
   "theorems": [
    "Verif.Graph.numEdges_counts"
   ],
   "note": ""
  },
  {
   "property": "C04",
   "status": "partial",
   "theorems": [
    "Verif.Graph.laplacian_partial",
    "Verif.Graph.laplacian_general",
    "Verif.Graph.laplacian_self_loop_false"
   ],
   "note": "Holds without self loops; with a self loop the code's diagonal is not D - A, shown by a witness."
  },
  {
   "property": "C05",
   "status": "proved",
   "theorems": [
    "Verif.Graph.bfs_correct",
    "Verif.Graph.traversal_invalid_start"
   ],
   "note": ""
  },
  {
   "property": "C06",
   "status": "proved",
   "theorems": [
    "Verif.Graph.dfs_correct",
    "Verif.Graph.traversal_invalid_start"
   ],
   "note": ""
  },
  {
   "property": "C07",
   "status": "proved",
   "theorems": [
    "Verif.Graph.dijkstra_correct",
    "Verif.Graph.dijkstraPath_correct"
   ],
   "note": "Nonnegative weights, as the code documents."
  },
  {
   "property": "C08",
   "status": "proved",
   "theorems": [
    "Verif.Graph.reconstructPath_dijkstra",
    "Verif.Graph.dijkstraPath_correct",
    "Verif.Graph.shortestPathUnweighted_correct"
   ],
   "note": ""
  },
  {
   "property": "C09",
   "status": "proved",
   "theorems": [
    "Verif.Graph.bellmanFord_correct",
    "Verif.Graph.hasNegativeCycle_correct",
    "Verif.Graph.hasNegativeCycle_invalid_start"
   ],
   "note": "Valid starts; for an invalid start HasNegativeCycle answers true."
  },
  {
   "property": "C10",
   "status": "proved",
   "theorems": [
    "Verif.Graph.topologicalSort_correct",
    "Verif.Graph.isDAG_correct",
    "Verif.Graph.topologicalSort_undirected"
   ],
   "note": ""
  },
  {
   "property": "C100",
   "status": "partial",
   "theorems": [
    "Verif.Optim.located_continuous",
    "Verif.Optim.located_unimodal",
    "Verif.Optim.bracket_valid",
    "Verif.Optim.bracket_monotone",
    "Verif.Optim.bracket_equal",
    "Verif.Optim.golden_located",
    "Verif.Optim.golden_returns",
    "Verif.Optim.golden_zero",
    "Verif.Optim.golden_refuses",
    "Verif.Optim.goldenAB_located",
    "Verif.Optim.goldenAB_equal",
    "Verif.Optim.brent_located",
    "Verif.Optim.parabola_denominator",
    "Verif.Optim.brent_refuses",
    "Verif.Optim.brentAB_located",
    "Verif.Optim.dbrent_located",
    "Verif.Optim.dbrentAB_located",
    "Verif.Optim.dbrent_refuses",
    "Verif.Optim.maximise"
   ],
   "note": "Proved for bracketing, golden section and Brent's method with these exceptions. The golden section search has no iteration limit and does not end in exact arithmetic when the minimum is at 0 (golden_zero; in doubles it runs until the interval underflows); it is proved to return for brackets away from 0 and unimodal functions with a minimum elsewhere. Equal ends are accepted as a valid bracket, so a monotone function with a == b gives a 'converged' minimum (bracket_equal, goldenAB_equal). The method with derivatives is covered for functions falling before the minimum and rising after it, with derivatives of the right sign."
  },
  {
   "property": "C101",
   "status": "partial",
   "theorems": [
    "Verif.Coord.polar_inverse",
    "Verif.Coord.rot2_inverse",
    "Verif.Coord.rot2_polar",
    "Verif.Coord.oblique2_inverse",
    "Verif.Coord.cylindrical_inverse",
    "Verif.Coord.spherical_inverse",
    "Verif.Coord.spherical_inverse'",
    "Verif.Coord.spherical_tiny",
    "Verif.Coord.sphBasis_deriv",
    "Verif.Coord.sphUnit_orthonormal",
    "Verif.Coord.sphInverseUnit_spec",
    "Verif.Coord.sphInverseBasis_not_dual",
    "Verif.Coord.rot_quaternion",
    "Verif.Coord.rot_inverse",
    "Verif.Coord.rot_isometry",
    "Verif.Coord.euler_inverse",
    "Verif.Coord.orthogonal_inverse",
    "Verif.Coord.orthogonal_refuses",
    "Verif.Coord.orthogonal_scaled",
    "Verif.Coord.general_inverse",
    "Verif.Coord.oblique3_inverse",
    "Verif.Coord.rightHanded_iff",
    "Verif.Coord.quatRot_inverse",
    "Verif.Coord.quatRot_nearUnit",
    "Verif.Coord.lorentz_accepts",
    "Verif.Coord.lorentz_inverse",
    "Verif.Coord.minkowski_kinds",
    "Verif.Coord.minkowski_invariant",
    "Verif.Coord.minkowski_distance"
   ],
   "note": "Proved with these exceptions: points closer to the origin than 100 machine epsilons lose their direction in spherical coordinates (spherical_tiny); CoordTransf3DCartOrthogonal accepts orthogonal vectors of any length and is then not inverted (orthogonal_scaled); a quaternion within 1e-6 of unit length is not normalised (quatRot_nearUnit); getInverseBasisVec of spherical coordinates is not the dual basis its documentation announces (sphInverseBasis_not_dual). The general transformation by the zero matrix divides by zero as in C38."
  },
  {
   "property": "C102",
   "status": "partial",
   "theorems": [
    "Verif.Coord.Tensor.new_spec",
    "Verif.Coord.Tensor.new_negative",
    "Verif.Coord.Tensor.ofList_spec",
    "Verif.Coord.Tensor.at_spec",
    "Verif.Coord.Tensor.set_spec",
    "Verif.Coord.Tensor.arith_spec",
    "Verif.Coord.Tensor.arith_variance",
    "Verif.Coord.Tensor.eval_basis",
    "Verif.Coord.Tensor.eval_linear",
    "Verif.Coord.Tensor.eval_from",
    "Verif.Coord.Tensor.trace_spec",
    "Verif.Coord.Tensor.trace_from",
    "Verif.Coord.Tensor.contractCoeff_spec",
    "Verif.Coord.Tensor.contract3_spec",
    "Verif.Coord.Tensor.contract3_from",
    "Verif.Coord.Tensor.contract_spec",
    "Verif.Coord.Tensor.contract_returns",
    "Verif.Coord.Tensor.contract_from",
    "Verif.Coord.Tensor.contract3_covariant",
    "Verif.Coord.der_returned",
    "Verif.Coord.der_order",
    "Verif.Coord.der_poly",
    "Verif.Coord.Transf.vecContravariant_order",
    "Verif.Coord.Transf.inverseVecCovariant_order",
    "Verif.Coord.Transf.vecCovariant_order",
    "Verif.Coord.Transf.pairing",
    "Verif.Coord.Transf.jacobian_spec",
    "Verif.Coord.Transf.affine_vectors",
    "Verif.Coord.Transf.affine_basis",
    "Verif.Coord.Transf.affine_example",
    "Verif.Coord.Transf.inverseBasisVec_not_dual",
    "Verif.Coord.Transf.tensor2_affine_partial",
    "Verif.Coord.Transf.tensor2_order",
    "Verif.Coord.Transf.tensor2_variance",
    "Verif.Coord.Transf.parabola_inverse",
    "Verif.Coord.Transf.tensor2_position"
   ],
   "note": "Proved with these exceptions: negative numbers of indices are undefined behaviour but in Tensor2; arithmetic forgets which index is upper (arith_variance); two lower indices may be contracted (contract3_covariant); getInverseBasisVec is not the dual basis; transfTensor2 is right for affine transformations in its elements, and for all transformations when both indices are upper, but labels covariant tensors contravariant (tensor2_variance) and takes the derivatives of the inverse at the wrong point (tensor2_position); transfTensor3, 4 and 5 do not compile when used. Division of a tensor by a number is not modelled."
  },
  {
   "property": "C103",
   "status": "partial",
   "theorems": [
    "Verif.Coord.inverseN_spec",
    "Verif.Coord.inverseN_returns",
    "Verif.Coord.Metric.contravariant_spec",
    "Verif.Coord.Metric.raise_lower",
    "Verif.Coord.Metric.raise2_lower2",
    "Verif.Coord.Metric.raise2_variance",
    "Verif.Coord.Metric.tensor_spec",
    "Verif.Coord.Metric.christoffel2_symm",
    "Verif.Coord.Metric.christoffel1_spec",
    "Verif.Coord.Metric.christoffel1_order",
    "Verif.Coord.Metric.covariant_product",
    "Verif.Coord.metricOf_spec",
    "Verif.Coord.metricCartesian_spec",
    "Verif.Coord.metricMinkowski_spec",
    "Verif.Coord.metricSpherical_induced",
    "Verif.Coord.metricCylindrical_induced",
    "Verif.Coord.metricCylindrical_spec",
    "Verif.Coord.metricSpherical_spec"
   ],
   "note": "Proved, except that raising an index of a tensor of rank two always labels the result as having its first index lower and its second upper (raise2_variance), and that for spherical coordinates only the symbols made of derivatives by the radius are shown to be exact (the others are covered by christoffel1_order). MetricTensorSphericalContravar is not modelled."
  },
  {
   "property": "C104",
   "status": "partial",
   "theorems": [
    "Verif.Field.safeDivide_spec",
    "Verif.Field.gradientCart_order",
    "Verif.Field.gradient_refused",
    "Verif.Field.gradientSpher_order",
    "Verif.Field.gradientCyl_order",
    "Verif.Field.laplacianCart_order",
    "Verif.Field.laplacianSpher_order",
    "Verif.Field.laplacianCyl_order",
    "Verif.Field.divCart_order",
    "Verif.Field.divSpher_order",
    "Verif.Field.divCyl_order",
    "Verif.Field.curlCart_order",
    "Verif.Field.curlSpher_order",
    "Verif.Field.curlCyl_order",
    "Verif.Field.scalar_singular",
    "Verif.Field.vector_singular",
    "Verif.Field.r2_refused",
    "Verif.Field.gradient_order",
    "Verif.Field.divergence_spec",
    "Verif.Field.divergence_cylindrical",
    "Verif.Field.det3_spec",
    "Verif.Field.divergenceViaDet_order",
    "Verif.Field.divergenceViaDet_zero"
   ],
   "note": "Proved for smooth fields away from the singular points, with the behaviour at them. False for DivergenceViaDet, which returns 0 where the root of the determinant is below 1e-6 (divergenceViaDet_zero). The tolerance for the axis is applied to r*r in some operations (r2_refused). DivergenceViaDet is modelled in three dimensions; the functions named Detailed are not modelled."
  },
  {
   "property": "C105",
   "status": "partial",
   "theorems": [
    "Verif.Cheb.chebyshevT_spec",
    "Verif.Cheb.chebyshevU_spec",
    "Verif.Cheb.chebyshev_trig",
    "Verif.Cheb.chebyshev_errors",
    "Verif.Cheb.value_spec",
    "Verif.Cheb.value_outside",
    "Verif.Cheb.eval_spec",
    "Verif.Cheb.access_spec",
    "Verif.Cheb.fromFunction_interpolates",
    "Verif.Cheb.fromFunction_polynomial",
    "Verif.Cheb.fromPolynomial_exact",
    "Verif.Cheb.fromFunction_error",
    "Verif.Cheb.construct_errors",
    "Verif.Cheb.derivative_exact",
    "Verif.Cheb.derivative_ignores_truncation",
    "Verif.Cheb.integral_partial",
    "Verif.Cheb.integral_exact",
    "Verif.Cheb.integral_one_ub",
    "Verif.Cheb.integral_not_exact",
    "Verif.Cheb.integral_polynomial",
    "Verif.Cheb.derivative_integral",
    "Verif.Cheb.toPolynomial_spec",
    "Verif.Cheb.toPolynomial_value",
    "Verif.Cheb.truncate_spec",
    "Verif.Cheb.operations_wf",
    "Verif.Cheb.maxError_spec",
    "Verif.Cheb.chebyshevRoots_spec",
    "Verif.Cheb.chebyshevExtrema_spec",
    "Verif.Cheb.roots_errors"
   ],
   "note": "Proved except for Integral, which leaves out the term of degree n (integral_partial says what it returns, integral_exact when that is the integral, integral_not_exact and integral_polynomial that it is not in general), and reads before the start of the array for one coefficient (integral_one_ub). Derivative differentiates all terms, also those truncated (derivative_ignores_truncation)."
  },
  {
   "property": "C106",
   "status": "partial",
   "theorems": [
    "Verif.Ortho.legendre_basis",
    "Verif.Ortho.legendre_recurs",
    "Verif.Ortho.hermite_basis",
    "Verif.Ortho.hermite_recurs",
    "Verif.Ortho.wavefunction_orthonormal",
    "Verif.Ortho.prob_basis",
    "Verif.Ortho.laguerre_basis",
    "Verif.Ortho.laguerre_recurs",
    "Verif.Ortho.genLaguerre_basis",
    "Verif.Ortho.genLaguerre_refused",
    "Verif.Ortho.genLaguerre_recurs",
    "Verif.Ortho.assocLaguerre_spec",
    "Verif.Ortho.chebyshev_basis",
    "Verif.Ortho.chebyshev2_basis",
    "Verif.Ortho.chebyshev2_recurs",
    "Verif.Ortho.chebyshev_recurs_partial",
    "Verif.Ortho.chebyshev_not_recurs",
    "Verif.Ortho.chebyshev_zeros",
    "Verif.Ortho.chebyshev_extrema_zero",
    "Verif.Ortho.chebyshev2_zeros",
    "Verif.Ortho.zeros_refused",
    "Verif.Ortho.assocLegendre_spec",
    "Verif.Ortho.assocLegendre_outside",
    "Verif.Ortho.assocLegendre_high",
    "Verif.Ortho.sphLegendre_spec",
    "Verif.Ortho.sphLegendre_orthonormal",
    "Verif.Ortho.sphLegendre_above",
    "Verif.Ortho.assocLegendreEval_wrong",
    "Verif.Ortho.expansion",
    "Verif.Ortho.legendre_coefficient",
    "Verif.Ortho.coefficient_refused",
    "Verif.Ortho.chebyshev_coefficient_wrong",
    "Verif.Ortho.factorial_spec",
    "Verif.Ortho.factorialInt_spec",
    "Verif.Ortho.factorialInt_overflow",
    "Verif.Ortho.factorial_refused",
    "Verif.Ortho.factorialStirling_spec",
    "Verif.Ortho.factorialStirling_small",
    "Verif.Ortho.compEllint1_spec",
    "Verif.Ortho.compEllint_outside",
    "Verif.Ortho.compEllint1_one",
    "Verif.Ortho.compEllint2_wrong",
    "Verif.Ortho.compEllint2_zero"
   ],
   "note": "Proved but for what is false: the recurrence of the first Chebyshev kind at n = 0 (chebyshev_not_recurs), ComputeCoefficient of the Chebyshev basis (chebyshev_coefficient_wrong), AssociatedLegendreBasis::Evaluate (assocLegendreEval_wrong), SphLegendre(l,l+1) (sphLegendre_above), Comp_ellint_2 (compEllint2_wrong). The special functions are the library's own, used where the standard library has none; ComputeCoefficient on unbounded domains is not modelled."
  },
  {
   "property": "C107",
   "status": "partial",
   "theorems": [
    "Verif.Fit.lineFit_exn",
    "Verif.Fit.lineFit_vertical",
    "Verif.Fit.lineFit_vertical_zero_wrong",
    "Verif.Fit.lineFit_returns",
    "Verif.Fit.lineFit_best",
    "Verif.Fit.lineFit_unique",
    "Verif.Fit.lineFit_norm",
    "Verif.Fit.lineFit_orthogonal",
    "Verif.Fit.lineFit_exact",
    "Verif.Fit.lineFit_nearlyVertical_wrong",
    "Verif.Fit.lineFitDetailed_spec",
    "Verif.Fit.lineFitDetailed_r2",
    "Verif.Fit.linearFitDetailed_spec",
    "Verif.Fit.evalPoly_spec"
   ],
   "note": "Exact arithmetic. Two exceptions to the property are proved: three or more points all with abscissa 0 divide by zero instead of throwing (lineFit_vertical_zero_wrong), and two points closer than 10 epsilon in abscissa are fitted by a horizontal line that is not the best (lineFit_nearlyVertical_wrong)."
  },
  {
   "property": "C108",
   "status": "partial",
   "theorems": [
    "Verif.LinAlg.SVD.new_spec",
    "Verif.LinAlg.SVD.new_empty",
    "Verif.LinAlg.SVD.rank_spec",
    "Verif.LinAlg.SVD.nullity_spec",
    "Verif.LinAlg.SVD.rank_exact",
    "Verif.LinAlg.SVD.invCondition_spec",
    "Verif.LinAlg.SVD.solve_dims",
    "Verif.LinAlg.SVD.solve_spec",
    "Verif.LinAlg.SVD.solve_exact",
    "Verif.LinAlg.SVD.solve_system",
    "Verif.LinAlg.SVD.range_spec",
    "Verif.LinAlg.SVD.nullspace_spec"
   ],
   "note": "Exact arithmetic. Everything is proved from the assumption that the private routine decompose returns a singular value decomposition in some order; that routine is not modelled. The sort and the choice of signs (reorder), the solver, ranks and bases are modelled in full."
  },
  {
   "property": "C109",
   "status": "partial",
   "theorems": [
    "Verif.Fit.evaluate_spec",
    "Verif.Fit.generalFit_refused",
    "Verif.Fit.generalFit_spec",
    "Verif.Fit.generalFit_exact",
    "Verif.Fit.generalFit_r2",
    "Verif.Fit.polyFit_refused",
    "Verif.Fit.polyFit_spec",
    "Verif.Fit.detailed_spec",
    "Verif.Fit.generalFit_r2_wrong"
   ],
   "note": "Exact arithmetic; assumes, as C108, that decompose returns a singular value decomposition, and for minimality that its values are zero or above the threshold. The coefficient of determination is at most 1 but can be negative if the constants are not among the combinations of the functions (generalFit_r2_wrong); otherwise it is not."
  },
  {
   "property": "C11",
   "status": "proved",
   "theorems": [
    "Verif.Graph.connectedComponents_correct",
    "Verif.Graph.isConnected_correct"
   ],
   "note": ""
  },
  {
   "property": "C110",
   "status": "proved",
   "theorems": [
    "Verif.Eigen.solve_spec",
    "Verif.Eigen.solve_converges",
    "Verif.Eigen.solve_two",
    "Verif.Eigen.solve_stalls",
    "Verif.Eigen.solve_empty",
    "Verif.Eigen.solveDense_spec",
    "Verif.Eigen.solveConfig_spec",
    "Verif.Eigen.Spectral.exact",
    "Verif.Eigen.Spectral.pair_le",
    "Verif.Eigen.Spectral.complete",
    "Verif.Eigen.Spectral.sound"
   ],
   "note": "Exact arithmetic; thr is the threshold below which elements are skipped (1e-15 for double). solve_stalls makes precise when a tolerance below it cannot be reached. The proved number of sweeps (offDiag^2/thr^2) is far larger than what is needed in practice."
  },
  {
   "property": "C111",
   "status": "proved",
   "theorems": [
    "Verif.CompGeo.closestPair_spec"
   ],
   "note": "Exact arithmetic; std::numeric_limits<Real>::max() is an infinite distance."
  },
  {
   "property": "C112",
   "status": "partial",
   "theorems": [
    "Verif.CompGeo.Poly.windingNumber_angle",
    "Verif.CompGeo.Poly.contains_spec",
    "Verif.CompGeo.Poly.contains_hull",
    "Verif.CompGeo.Poly.convex_inside",
    "Verif.CompGeo.Poly.convex_outside",
    "Verif.CompGeo.Poly.signedArea_integral",
    "Verif.CompGeo.Poly.centroid_spec",
    "Verif.CompGeo.Poly.centroid_short",
    "Verif.CompGeo.Poly.reverse_spec",
    "Verif.CompGeo.Poly.triangularization_spec",
    "Verif.CompGeo.Poly.vertex_spec",
    "Verif.CompGeo.Poly.perimeter_spec",
    "Verif.CompGeo.Poly.boundingBox_spec",
    "Verif.CompGeo.Poly.isSimple_spec",
    "Verif.CompGeo.Poly.isConvex_spec",
    "Verif.CompGeo.Poly.isConvex_of_convex",
    "Verif.CompGeo.Poly.isSimple_wrong",
    "Verif.CompGeo.Poly.isConvex_wrong"
   ],
   "note": "Exact arithmetic. All parts are proved except those that are false: IsSimple accepts polygons that touch or overlap themselves without crossing (isSimple_wrong), IsConvex accepts polygons that wind several times, such as a pentagram (isConvex_wrong); what they do decide is isSimple_spec and isConvex_spec."
  },
  {
   "property": "C113",
   "status": "partial",
   "theorems": [
    "Verif.CompGeo.Lines.line_new",
    "Verif.CompGeo.Lines.line_closest",
    "Verif.CompGeo.Lines.line_perpendicular",
    "Verif.CompGeo.Lines.line_intersection",
    "Verif.CompGeo.Lines.line_intersects",
    "Verif.CompGeo.Lines.seg_closest",
    "Verif.CompGeo.Lines.seg_closest_short",
    "Verif.CompGeo.Lines.seg_at",
    "Verif.CompGeo.Lines.seg_intersection",
    "Verif.CompGeo.Lines.seg_intersects",
    "Verif.CompGeo.Lines.seg_intersection_degenerate_wrong",
    "Verif.CompGeo.Lines.seg_intersection_small_wrong"
   ],
   "note": "Exact arithmetic. seg_intersection is proved for segments of positive length whose coordinate differences and areas are zero or above 1e-10 (integer coordinates, for instance: sharp_of_int); without this it is false: a segment of length zero beside another one is reported as a common point, and small crossing segments as overlapping (the two _wrong theorems)."
  },
  {
   "property": "C114",
   "status": "partial",
   "theorems": [
    "Verif.CompGeo.Tri.history_fresh",
    "Verif.CompGeo.Tri.history_stale_wrong",
    "Verif.CompGeo.Tri.area_spec",
    "Verif.CompGeo.Tri.centroid_spec",
    "Verif.CompGeo.Tri.circumcenter_spec",
    "Verif.CompGeo.Tri.circumRadius_spec",
    "Verif.CompGeo.Tri.incenter_spec",
    "Verif.CompGeo.Tri.angle_spec",
    "Verif.CompGeo.Tri.contains_spec",
    "Verif.CompGeo.Tri.contains_hull",
    "Verif.CompGeo.Tri.contains_small_wrong",
    "Verif.CompGeo.Tri.isRight_spec",
    "Verif.CompGeo.Tri.isIsosceles_spec"
   ],
   "note": "Exact arithmetic. The lengths are right for programs that store a vertex only through a reference obtained after the last use of the lengths; a reference kept longer gives stale lengths (history_stale_wrong). Triangles with twice the area below the tolerance contain no point, not even a vertex (contains_small_wrong)."
  },
  {
   "property": "C115",
   "status": "partial",
   "theorems": [
    "Verif.CompGeo.CB.circle_new",
    "Verif.CompGeo.CB.fromDiameter_spec",
    "Verif.CompGeo.CB.fromThreePoints_spec",
    "Verif.CompGeo.CB.pointAt_spec",
    "Verif.CompGeo.CB.tangentAt_spec",
    "Verif.CompGeo.CB.circle_contains",
    "Verif.CompGeo.CB.circle_closest",
    "Verif.CompGeo.CB.circle_closest_center",
    "Verif.CompGeo.CB.circle_intersects",
    "Verif.CompGeo.CB.circle_intersectsLine",
    "Verif.CompGeo.CB.circle_boundingBox",
    "Verif.CompGeo.CB.circle_area",
    "Verif.CompGeo.CB.chordLength_spec",
    "Verif.CompGeo.CB.chordLength_wrong",
    "Verif.CompGeo.CB.circle_moved",
    "Verif.CompGeo.CB.box_new",
    "Verif.CompGeo.CB.box_fromCenter",
    "Verif.CompGeo.CB.box_fromPoints",
    "Verif.CompGeo.CB.box_contains",
    "Verif.CompGeo.CB.box_closest",
    "Verif.CompGeo.CB.box_intersection",
    "Verif.CompGeo.CB.box_union",
    "Verif.CompGeo.CB.box_expanded",
    "Verif.CompGeo.CB.box_expanded_wrong",
    "Verif.CompGeo.CB.box_moved",
    "Verif.CompGeo.CB.box_intersectsCircle",
    "Verif.CompGeo.CB.box_area"
   ],
   "note": "Exact arithmetic; radii not negative and corners in order, as the constructors ensure (both can be changed afterwards through references). Arc length and circumference are not related to the length of a curve. False in part: ChordLength is negative beyond a full turn (chordLength_wrong), Expanded by a large negative margin turns the box inside out and grows (box_expanded_wrong)."
  },
  {
   "property": "C116",
   "status": "partial",
   "theorems": [
    "Verif.CompGeo.Ray.rayTriangle_spec",
    "Verif.CompGeo.Ray.rayTriangle_cull",
    "Verif.CompGeo.Ray.rayTriangle_flat",
    "Verif.CompGeo.Ray.rayTriangle_sound",
    "Verif.CompGeo.Ray.rayTriangle_total",
    "Verif.CompGeo.Ray.volume_normal",
    "Verif.CompGeo.Ray.rayTriangle_small_wrong"
   ],
   "note": "Exact arithmetic. Complete for volumes (edges and direction) of at least 1e-10. False below: small triangles and short direction vectors are missed (rayTriangle_small_wrong)."
  },
  {
   "property": "C117",
   "status": "partial",
   "theorems": [
    "Verif.CompGeo.Clip.clip_vertices",
    "Verif.CompGeo.Clip.clip_inside",
    "Verif.CompGeo.Clip.clip_outside",
    "Verif.CompGeo.Clip.clip_spec",
    "Verif.CompGeo.Clip.clip_unchanged",
    "Verif.CompGeo.Clip.clip_short",
    "Verif.CompGeo.Clip.clipToRect_spec",
    "Verif.CompGeo.Clip.union_spec",
    "Verif.CompGeo.Clip.clip_clockwise_wrong",
    "Verif.CompGeo.Clip.union_wrong"
   ],
   "note": "Exact arithmetic. Nothing is said about points in the strip of width 1e-10 (as an area) along the sides of the clip region. The approximate branches for non-convex clip regions and the difference are modelled, without theorems. False in part: a convex clip region given clockwise makes everything disappear (clip_clockwise_wrong); the union of convex polygons is their common hull, which is not their union (union_wrong)."
  },
  {
   "property": "C118",
   "status": "partial",
   "theorems": [
    "Verif.Geom.L3.new_spec",
    "Verif.Geom.L3.through_spec",
    "Verif.Geom.L3.at_spec",
    "Verif.Geom.L3.dist_spec",
    "Verif.Geom.L3.onLine_spec",
    "Verif.Geom.L3.distLine_spec",
    "Verif.Geom.L3.distLine_parallel",
    "Verif.Geom.L3.intersection_spec",
    "Verif.Geom.L3.intersection_meet",
    "Verif.Geom.L3.intersects_skew",
    "Verif.Geom.L3.intersection_parallel",
    "Verif.Geom.L3.intersection_sound",
    "Verif.Geom.L3.perpThrough_spec",
    "Verif.Geom.L3.parallel_spec",
    "Verif.Geom.L3.perpendicular_partial",
    "Verif.Geom.L3.areEqual_spec",
    "Verif.Geom.L3.segAt_spec",
    "Verif.Geom.L3.segDist_spec",
    "Verif.Geom.L3.segNew_length",
    "Verif.Geom.L3.distLine_wrong",
    "Verif.Geom.L3.intersection_distance_wrong",
    "Verif.Geom.L3.perpendicular_wrong"
   ],
   "note": "Exact arithmetic. False for the distance of parallel lines (distLine_wrong, intersection_distance_wrong) and for IsPerpendicular of obtuse directions (perpendicular_wrong). Intersection treats angles with a sine below 1e-10 as parallel."
  },
  {
   "property": "C119",
   "status": "partial",
   "theorems": [
    "Verif.Geom.P3.new_spec",
    "Verif.Geom.P3.through_spec",
    "Verif.Geom.P3.hesse_spec",
    "Verif.Geom.P3.intercepts_spec",
    "Verif.Geom.P3.somePoint_spec",
    "Verif.Geom.P3.axisSegs_spec",
    "Verif.Geom.P3.dist_spec",
    "Verif.Geom.P3.onPlane_partial",
    "Verif.Geom.P3.lineOn_spec",
    "Verif.Geom.P3.meetLine_spec",
    "Verif.Geom.P3.angleLine_spec",
    "Verif.Geom.P3.anglePlane_spec",
    "Verif.Geom.P3.perpendicular_spec",
    "Verif.Geom.P3.distPlane_partial",
    "Verif.Geom.P3.distPlane_other",
    "Verif.Geom.P3.distPlane_opposite",
    "Verif.Geom.P3.meetPlane_spec",
    "Verif.Geom.P3.meetPlane_parallel",
    "Verif.Geom.P3.meetPlane_partial",
    "Verif.Geom.P3.meetPlane_wrong",
    "Verif.Geom.P3.perpVectors_spec",
    "Verif.Geom.P3.distPlane_wrong",
    "Verif.Geom.P3.meetPlane_wrong_example",
    "Verif.Geom.P3.onPlane_wrong"
   ],
   "note": "Exact arithmetic. IntersectionWithPlane is right only if both planes go through the origin (meetPlane_partial) and wrong in all other cases (meetPlane_wrong); DistToPlane is right for equal normals and 0 for opposite ones (distPlane_wrong); IsPointOnPlane is a distance test only for unit normals (onPlane_wrong)."
  },
  {
   "property": "C12",
   "status": "proved",
   "theorems": [
    "Verif.Graph.unionFind_correct",
    "Verif.Graph.unionFind_find_stable"
   ],
   "note": ""
  },
  {
   "property": "C120",
   "status": "partial",
   "theorems": [
    "Verif.Geom.S3.area_spec",
    "Verif.Geom.S3.isRight_spec",
    "Verif.Geom.S3.isosceles_spec",
    "Verif.Geom.S3.centroid_spec",
    "Verif.Geom.S3.plane_spec",
    "Verif.Geom.S3.inside_spec",
    "Verif.Geom.S3.inside_of_mem",
    "Verif.Geom.S3.inside_partial",
    "Verif.Geom.S3.inside_wrong",
    "Verif.Geom.S3.rotate_spec",
    "Verif.Geom.S3.surf_spec",
    "Verif.Geom.S3.surf_point",
    "Verif.Geom.S3.surf_collinear",
    "Verif.Geom.S3.rect_ok",
    "Verif.Geom.S3.rect_partial",
    "Verif.Geom.S3.rect_wrong"
   ],
   "note": "IsPointInside is right for points of the plane of the triangle (inside_partial); it ignores the distance from the plane (inside_wrong). RectSurface3D is right for parallelograms, and keeps lengths for rectangles (rect_partial); other quadrilaterals are accepted and give a wrong area and a wrong surface (rect_wrong)."
  },
  {
   "property": "C121",
   "status": "partial",
   "theorems": [
    "Verif.Geom.B3.sph_new",
    "Verif.Geom.B3.sph_contains",
    "Verif.Geom.B3.sph_intersects",
    "Verif.Geom.B3.sph_expand",
    "Verif.Geom.B3.sph_default",
    "Verif.Geom.B3.box_ofCorners",
    "Verif.Geom.B3.box_new",
    "Verif.Geom.B3.box_fromCenter",
    "Verif.Geom.B3.box_fromPoints",
    "Verif.Geom.B3.box_contains",
    "Verif.Geom.B3.box_closest",
    "Verif.Geom.B3.box_intersection",
    "Verif.Geom.B3.box_intersection_wrong",
    "Verif.Geom.B3.box_union",
    "Verif.Geom.B3.box_expanded_partial",
    "Verif.Geom.B3.box_expanded_wrong",
    "Verif.Geom.B3.box_moved",
    "Verif.Geom.B3.box_measures",
    "Verif.Geom.B3.box_degenerate"
   ],
   "note": "The intersection of disjoint boxes is not empty: it is the box of the single point (0,0,0) (box_intersection_wrong). Expanded with a negative margin beyond half the size swaps the corners and gives a box again, even a larger one (box_expanded_wrong); otherwise it is right (box_expanded_partial)."
  },
  {
   "property": "C122",
   "status": "partial",
   "theorems": [
    "Verif.Geom.Bod.cube_inside",
    "Verif.Geom.Bod.cube_describes",
    "Verif.Geom.Bod.cube_negative",
    "Verif.Geom.Bod.ball_inside",
    "Verif.Geom.Bod.ball_describes",
    "Verif.Geom.Bod.cyl_inside",
    "Verif.Geom.Bod.cyl_describes",
    "Verif.Geom.Bod.cyl_origin",
    "Verif.Geom.Bod.pyr_inside",
    "Verif.Geom.Bod.pyr_flat",
    "Verif.Geom.Bod.pyr_describes",
    "Verif.Geom.Bod.torus_inside",
    "Verif.Geom.Bod.torus_inside_circle",
    "Verif.Geom.Bod.torus_describes",
    "Verif.Geom.Bod.torus_spindle_wrong",
    "Verif.Geom.Bod.bounded_inside",
    "Verif.Geom.Bod.bounded_box_partial",
    "Verif.Geom.Bod.bounded_box_wrong",
    "Verif.Geom.Bod.bounded_sphere_wrong",
    "Verif.Geom.Bod.composed_spec",
    "Verif.Geom.Bod.getSurface_spec",
    "Verif.Geom.Bod.cube_triangles",
    "Verif.Geom.Bod.cube_rects",
    "Verif.Geom.Bod.cube_zero",
    "Verif.Geom.Bod.ball_mesh",
    "Verif.Geom.Bod.ball_winding",
    "Verif.Geom.Bod.ball_winding_wrong",
    "Verif.Geom.Bod.cyl_mesh",
    "Verif.Geom.Bod.pyr_surfaceArea",
    "Verif.Geom.Bod.pyr_mesh_partial",
    "Verif.Geom.Bod.pyr_mesh_wrong",
    "Verif.Geom.Bod.pyr_equilateral_wrong",
    "Verif.Geom.Bod.torus_point",
    "Verif.Geom.Bod.torus_one",
    "Verif.Geom.Bod.torus_mesh"
   ],
   "note": "The mesh of a sphere mixes the two orientations (ball_winding_wrong). The mesh of a pyramid is that of another pyramid and ignores the centre (pyr_mesh_wrong). An equilateral pyramid does not have equal edges (pyr_equilateral_wrong). The torus volume is wrong for r > R (torus_spindle_wrong). The bounding box and sphere of a body given by bounding functions can miss points (bounded_box_wrong, bounded_sphere_wrong); with monotone bounds in y and constant bounds in z the box is right (bounded_box_partial). Closedness of the torus mesh as a set of quadrilaterals is not stated."
  },
  {
   "property": "C123",
   "status": "proved",
   "theorems": [
    "Verif.Geom.Ang.range_spec",
    "Verif.Geom.Ang.normalize_spec",
    "Verif.Geom.Ang.explicit_spec",
    "Verif.Geom.Ang.polar_spec",
    "Verif.Geom.Ang.cyl_spec",
    "Verif.Geom.Ang.sph_spec",
    "Verif.Geom.Ang.azimuth_negative",
    "Verif.Geom.Ang.cartToSph_spec",
    "Verif.Geom.Ang.globe_spec"
   ],
   "note": "The azimuth of a spherical point made from a Cartesian point lies in (-pi, pi], not in the documented 0 to 2 pi (azimuth_negative)."
  },
  {
   "property": "C124",
   "status": "partial",
   "theorems": [
    "Verif.Geom.Shp.tri_valid",
    "Verif.Geom.Shp.tri_area_median",
    "Verif.Geom.Shp.tri_spec",
    "Verif.Geom.Shp.tri_class",
    "Verif.Geom.Shp.circle_spec",
    "Verif.Geom.Shp.ellipse_spec",
    "Verif.Geom.Shp.ellipse_wrong",
    "Verif.Geom.Shp.poly_spec",
    "Verif.Geom.Shp.rect_spec",
    "Verif.Geom.Shp.par_spec",
    "Verif.Geom.Shp.fromDiagonals_partial",
    "Verif.Geom.Shp.fromDiagonals_wrong",
    "Verif.Geom.Shp.rhombus_spec",
    "Verif.Geom.Shp.trap_spec"
   ],
   "note": "Parallelogram::FromDiagonals finds the right sides but a wrong angle (fromDiagonals_wrong); the approximate circumference of the ellipse is not modelled."
  },
  {
   "property": "C125",
   "status": "partial",
   "theorems": [
    "Verif.Geom.Shp.volume_spec",
    "Verif.Geom.Shp.surface_spec",
    "Verif.Geom.Shp.solid_make",
    "Verif.Geom.Shp.spheroid_spec",
    "Verif.Geom.Shp.tet_volume_partial",
    "Verif.Geom.Shp.tet_volume_wrong",
    "Verif.Geom.Shp.tet_spec"
   ],
   "note": "Tetrahedron::Volume is right only if |AB| = |AD| or |BC| = |CD| (tet_volume_partial, tet_volume_wrong). A spheroid whose radii differ by less than the tolerance gets the area of a sphere."
  },
  {
   "property": "C126",
   "status": "partial",
   "theorems": [
    "Verif.CompGeo.MEC.minCircle_partial",
    "Verif.CompGeo.MEC.minCircle_grid_partial",
    "Verif.CompGeo.MEC.minCircle_total",
    "Verif.CompGeo.MEC.minCircle_wrong"
   ],
   "note": "Proved if no decision falls within the absolute tolerance 1e-10, in particular for all points with integer coordinates up to 20; without that the claim is false (minCircle_wrong)."
  },
  {
   "property": "C127",
   "status": "partial",
   "theorems": [
    "Verif.CompGeo.Del.delaunay_partial",
    "Verif.CompGeo.Del.clear_of_int",
    "Verif.CompGeo.Del.compute_total",
    "Verif.CompGeo.Del.delaunay_misses"
   ],
   "note": "Proved for inputs on which no in-circle determinant lies in (0, 1e-10], in particular for integer coordinates up to 1e10; a strictly Delaunay triple is returned if its circle also avoids the three auxiliary corners, which are only 20 box sizes away: without this the claim is false (delaunay_misses). In-range indices and termination hold for all inputs (compute_total)."
  },
  {
   "property": "C128",
   "status": "partial",
   "theorems": [
    "Verif.CompGeo.Del.neighbors_spec",
    "Verif.CompGeo.Del.compute_proper",
    "Verif.CompGeo.Del.hullEdges_spec",
    "Verif.CompGeo.Del.locate_spec",
    "Verif.CompGeo.Del.interpolate_outside",
    "Verif.CompGeo.Del.interpolate_partial",
    "Verif.CompGeo.Del.interpolate_wrong"
   ],
   "note": "Neighbours, hull edges and location are proved for every mesh ComputeDelaunay returns (compute_proper links them). Interpolation is proved for triangles whose doubled area is at least 1e-10; in smaller ones it returns the default (interpolate_wrong)."
  },
  {
   "property": "C129",
   "status": "partial",
   "theorems": [
    "Verif.CompGeo.Ear.earClip_small",
    "Verif.CompGeo.Ear.earClip_spec",
    "Verif.CompGeo.Ear.earClip_cover",
    "Verif.CompGeo.Ear.earClip_convex",
    "Verif.CompGeo.Ear.earClip_wrong"
   ],
   "note": "Count, corners, areas and winding numbers are proved for all polygons. Cover without overlap is proved whenever the returned triangles are counter-clockwise, which is proved for convex polygons with turns above 1e-10. That every simple polygon above the tolerance always has an ear is not proved; below the tolerance the claim is false (earClip_wrong)."
  },
  {
   "property": "C13",
   "status": "proved",
   "theorems": [
    "Verif.Graph.kruskal_correct"
   ],
   "note": ""
  },
  {
   "property": "C130",
   "status": "proved",
   "theorems": [
    "Verif.Systems.lorenz_jacobian",
    "Verif.Systems.rossler_jacobian",
    "Verif.Systems.vanDerPol_jacobian",
    "Verif.Systems.duffing_jacobian",
    "Verif.Systems.chua_jacobian",
    "Verif.Systems.chua_corner",
    "Verif.Systems.henonHeiles_jacobian",
    "Verif.Systems.henonHeiles_energy",
    "Verif.Systems.pendulum_energy",
    "Verif.Systems.pendulum_jacobian",
    "Verif.Systems.numJacobian_exact",
    "Verif.Systems.param_roundtrip",
    "Verif.Systems.params_roundtrip"
   ],
   "note": "For the Chua circuit the claim holds off the two corners of the nonlinearity; at a corner no Jacobian exists (chua_corner). The forward differences of the double pendulum are derivatives at a point within the step (pendulum_jacobian)."
  },
  {
   "property": "C131",
   "status": "partial",
   "theorems": [
    "Verif.Systems.orbit_spec",
    "Verif.Systems.logistic_spec",
    "Verif.Systems.henon_spec",
    "Verif.Systems.standard_spec",
    "Verif.Systems.tent_spec",
    "Verif.Systems.Lyap.lyapunov_sum",
    "Verif.Systems.Lyap.lyapunov_one",
    "Verif.Systems.Lyap.lyapunov_tent",
    "Verif.Systems.Lyap.lyapunov_two",
    "Verif.Systems.Lyap.lyapunov_standard",
    "Verif.Systems.Lyap.lyapunov_henon",
    "Verif.Systems.Lyap.lyapunov_order_wrong",
    "Verif.Systems.Lyap.lyapunov_lost"
   ],
   "note": "The sum rule holds if no column of the frame falls below 1e-30, with explicit conditions in dimension one and two. Documentation says the exponents come in descending order and maxExponent is the largest: false (lyapunov_order_wrong). An orbit through a point of slope zero loses the frame (lyapunov_lost)."
  },
  {
   "property": "C132",
   "status": "proved",
   "theorems": [
    "Verif.Util.scalarProduct_spec",
    "Verif.Util.scalarProductC_inner",
    "Verif.Util.vectorsAngle_spec",
    "Verif.Util.projection_spec",
    "Verif.Util.outerProduct_spec",
    "Verif.Util.leviCivita3_spec",
    "Verif.Util.leviCivita4_spec",
    "Verif.Util.leviCivita_contraction",
    "Verif.Util.mixedVec_spec",
    "Verif.Util.mixedMat_spec",
    "Verif.Util.mixedMul_spec",
    "Verif.Util.mixedMatVec_spec"
   ],
   "note": "An angle with a zero vector or a projection onto it divides by zero (outcome ub); no error is raised."
  },
  {
   "property": "C133",
   "status": "partial",
   "theorems": [
    "Verif.CompGeo.Vor.nearestSite_spec",
    "Verif.CompGeo.Vor.compute_total",
    "Verif.CompGeo.Vor.vertices_spec",
    "Verif.CompGeo.Vor.edges_spec",
    "Verif.CompGeo.Vor.edges_complete",
    "Verif.CompGeo.Vor.cell_partial",
    "Verif.CompGeo.Vor.clipRect_spec",
    "Verif.CompGeo.Vor.clippedInfinite_spec",
    "Verif.CompGeo.Vor.compute_two",
    "Verif.CompGeo.Vor.circumcenter_spec"
   ],
   "note": "Vertices, edges and cells under the hypotheses of C127 (no in-circle test within the tolerance of zero) and no triangle of sites with an area below the threshold of ComputeCircumcenter; points with integer coordinates meet both. Missing: that a bounded cell returned by GetCell holds all the points nearest to its site (only that it holds no other ones is proved), and its orientation."
  },
  {
   "property": "C134",
   "status": "proved",
   "theorems": [
    "Verif.Optim.NM.fromSimplex_spec",
    "Verif.Optim.NM.fromSimplex_independent",
    "Verif.Optim.NM.minimizeDeltas_spec",
    "Verif.Optim.NM.minimize_spec",
    "Verif.Optim.NM.maximize_spec",
    "Verif.Optim.NM.minimize_throws",
    "Verif.Optim.NM.move_spec",
    "Verif.Optim.NM.scan_spec"
   ],
   "note": "Exact arithmetic; the log of calls is a ghost variable of the model. N = 0 reads past the end of the vector of values and is undefined in the model. The textbook round is the inductive relation Round, stated with the centroid of a face, not with psum."
  },
  {
   "property": "C135",
   "status": "proved",
   "theorems": [
    "Verif.Optim.QN.bfgs_spec",
    "Verif.Optim.QN.reachable_spec",
    "Verif.Optim.QN.newH_spec",
    "Verif.Optim.QN.lineSearch_spec",
    "Verif.Optim.QN.lineSearch_full_step",
    "Verif.Optim.QN.lineSearch_half_step",
    "Verif.Optim.QN.bfgs_throws",
    "Verif.Optim.QN.bfgs_false_convergence"
   ],
   "note": "Exact arithmetic. bfgs_false_convergence is the counterexample to reading converged as near a minimum: the zoom phase gives up after twenty halvings with step length 0, which passes the test on values. LineSearchBacktrack of class BFGS is never called and not modelled."
  },
  {
   "property": "C136",
   "status": "proved",
   "theorems": [
    "Verif.Optim.QN.lbfgs_spec",
    "Verif.Optim.QN.lreachable_spec",
    "Verif.Optim.QN.store_spec",
    "Verif.Optim.QN.twoLoop_spec",
    "Verif.Optim.QN.invHess_secant",
    "Verif.Optim.QN.backtrack_spec",
    "Verif.Optim.QN.lbfgs_throws",
    "Verif.Optim.QN.lbfgs_worse"
   ],
   "note": "Exact arithmetic. lbfgs_worse is the counterexample to the claim that the value never rises: the search accepts whatever value it finds once the step is below its limit."
  },
  {
   "property": "C137",
   "status": "proved",
   "theorems": [
    "Verif.Optim.QN.powell_spec",
    "Verif.Optim.QN.powellUnit_spec",
    "Verif.Optim.QN.powell_linear",
    "Verif.Optim.QN.replaceCol_spec",
    "Verif.Optim.QN.sweep_spec",
    "Verif.Optim.QN.lineMin_spec",
    "Verif.Optim.QN.lineMin_monotone",
    "Verif.Optim.bracket_better"
   ],
   "note": "Exact arithmetic. That the caller's matrix keeps the last directions is not modelled."
  },
  {
   "property": "C138",
   "status": "proved",
   "theorems": [
    "Verif.Optim.QN.cg_spec",
    "Verif.Optim.QN.cgDir_spec",
    "Verif.Optim.QN.cg_throws"
   ],
   "note": "Exact arithmetic. Conjugacy is stated for an exact line minimisation; the line minimisation of the code is exact up to Brent's tolerance (C137)."
  },
  {
   "property": "C139",
   "status": "proved",
   "theorems": [
    "Verif.ODE.Ev.integrate_spec",
    "Verif.ODE.Ev.detect_spec",
    "Verif.ODE.Ev.locate_spec",
    "Verif.ODE.Ev.zero_at_step_end_missed",
    "Verif.ODE.Ev.second_event_lost"
   ],
   "note": "Exact arithmetic; the stepper is a parameter, with its contract as a hypothesis (met by the exact integrator of x' = 1). Termination of the main loop is not claimed: handlers can restart at the same time for ever."
  },
  {
   "property": "C14",
   "status": "proved",
   "theorems": [
    "Verif.Graph.prim_correct"
   ],
   "note": ""
  },
  {
   "property": "C140",
   "status": "proved",
   "theorems": [
    "Verif.Interp.Ext.neville_spec",
    "Verif.Interp.Ext.neville_exact",
    "Verif.Interp.Ext.neville_not",
    "Verif.Interp.Ext.extrapolateTo_close",
    "Verif.Interp.Ext.extrapolateTo_exact",
    "Verif.Interp.Ext.extrapolateTo_edge",
    "Verif.Interp.Ext.simple_spec",
    "Verif.Interp.Ext.simple_one",
    "Verif.Interp.Ext.simpleError_negative"
   ],
   "note": "Exact arithmetic, threshold 1e-30 of Real = double."
  },
  {
   "property": "C141",
   "status": "proved",
   "theorems": [
    "Verif.Eigen.classify_spec",
    "Verif.Eigen.classifyDense_spec",
    "Verif.Eigen.classify_exact",
    "Verif.Eigen.tests_spec",
    "Verif.Eigen.zero_indefinite",
    "Verif.Eigen.posDef_wrong",
    "Verif.Eigen.classify_empty"
   ],
   "note": "Exact arithmetic. The documented meaning (all eigenvalues > 0, ...) fails: see zero_indefinite and posDef_wrong."
  },
  {
   "property": "C142",
   "status": "proved",
   "theorems": [
    "Verif.Mat.Utils.faddeev_spec",
    "Verif.Mat.Utils.faddeev_reject",
    "Verif.Mat.Utils.nilpotent_tests",
    "Verif.Mat.Utils.nilpotent_recognised",
    "Verif.Mat.Utils.nilpotent_reject",
    "Verif.Mat.Utils.one_by_one_missed",
    "Verif.Mat.Utils.small_invertible_nilpotent"
   ],
   "note": "Exact arithmetic over an ordered field of characteristic zero."
  },
  {
   "property": "C143",
   "status": "proved",
   "theorems": [
    "Verif.Mat.Utils.rankGaussian_spec",
    "Verif.Mat.Utils.rank_small"
   ],
   "note": "Exact arithmetic. With a positive tolerance only the upper bound holds, see rank_small."
  },
  {
   "property": "C144",
   "status": "proved",
   "theorems": [
    "Verif.Mat.Utils.structure_spec",
    "Verif.Mat.Utils.structure_nonsquare",
    "Verif.Mat.Utils.structure_rectangular",
    "Verif.Mat.Utils.norms_spec",
    "Verif.Mat.Utils.infinityNorm_operator",
    "Verif.Mat.Utils.maxAbsDiff_spec",
    "Verif.Mat.Utils.maxAbsDiff_shapes",
    "Verif.Mat.Utils.similarity_spec",
    "Verif.Mat.Utils.frobenius_spec"
   ],
   "note": "Exact arithmetic. The structure tests are specified for square matrices; structure_rectangular shows what happens for others."
  },
  {
   "property": "C145",
   "status": "proved",
   "theorems": [
    "Verif.Integ.Cub.integrate_empty",
    "Verif.Integ.Cub.integrate2_history",
    "Verif.Integ.Cub.integrate3_history",
    "Verif.Integ.Cub.integrate_budget",
    "Verif.Integ.Cub.integrate_converged",
    "Verif.Integ.Cub.integrate2_error",
    "Verif.Integ.Cub.integrate2_tolerance",
    "Verif.Integ.Cub.exact_not_converged"
   ],
   "note": "Exact arithmetic. The error and tolerance theorems are for the plane; for boxes the tiling, sums, decisions and budget are proved. The flag converged does not say what its comment says (integrate_converged, exact_not_converged)."
  },
  {
   "property": "C146",
   "status": "proved",
   "theorems": [
    "Verif.Integ.MC.integrate_spec",
    "Verif.Integ.MC.integrate_reject",
    "Verif.Integ.MC.integrate_bounds",
    "Verif.Integ.MC.antithetic_affine",
    "Verif.Integ.MC.reversed_converges",
    "Verif.Integ.MC.stratified_darboux",
    "Verif.Integ.MC.stratified_step",
    "Verif.Integ.MC.stratified_reject",
    "Verif.Integ.MC.hitOrMiss_spec",
    "Verif.Integ.MC.hitOrMiss_complement",
    "Verif.Integ.MC.ball_bounds"
   ],
   "note": "Exact arithmetic; the random stream is an arbitrary function. Counts of strata and samples are natural numbers. Nothing is said about the distribution of the results."
  },
  {
   "property": "C147",
   "status": "proved",
   "theorems": [
    "Verif.Mat.Ops.exp_spec",
    "Verif.Mat.Ops.sin_spec",
    "Verif.Mat.Ops.sinh_spec",
    "Verif.Mat.Ops.cos_spec",
    "Verif.Mat.Ops.cosh_spec",
    "Verif.Mat.Ops.exp_sinh_cosh",
    "Verif.Mat.Ops.exp_nilpotent",
    "Verif.Mat.Ops.exp_converges",
    "Verif.Mat.Ops.series_reject",
    "Verif.Mat.Ops.commutator_spec",
    "Verif.Mat.Ops.symAntisym_spec",
    "Verif.Mat.Ops.isOrthogonal_spec",
    "Verif.Mat.Ops.complex_parts",
    "Verif.Mat.Ops.ofReal_spec",
    "Verif.Mat.Ops.isReal_spec",
    "Verif.Mat.Ops.isUnitary_spec"
   ],
   "note": "Exact arithmetic. Sin and Sinh of a matrix that is not square are refused only for m at least 1; for smaller m they return the zero matrix. The functions building matrices from vectors are not modelled."
  },
  {
   "property": "C148",
   "status": "partial",
   "theorems": [
    "Verif.Mat.Ops.isHermitian_partial",
    "Verif.Mat.Ops.isHermitian_false_positive"
   ],
   "note": "Proved: it throws exactly for matrices that are not square, decides conjugate symmetry off the diagonal, and a matrix is Hermitian iff it passes and its diagonal is real. Missing, and false for the code: the diagonal is never looked at, so the 1 by 1 matrix i passes (isHermitian_false_positive)."
  },
  {
   "property": "C149",
   "status": "proved",
   "theorems": [
    "Verif.Graph.PageRank.pageRank_distribution",
    "Verif.Graph.PageRank.stationary_unique",
    "Verif.Graph.PageRank.pageRank_accuracy",
    "Verif.Graph.PageRank.pageRank_converges"
   ],
   "note": "Exact arithmetic. The hypothesis WF holds for every graph built through the public interface (reached_wf)."
  },
  {
   "property": "C15",
   "status": "proved",
   "theorems": [
    "Verif.Pool.tasks_taken_in_order_once",
    "Verif.Pool.earlier_task_taken_first"
   ],
   "note": "All interleavings of any number of workers and clients, any notification choices, spurious wakeups; sequentially consistent memory."
  },
  {
   "property": "C150",
   "status": "partial",
   "theorems": [
    "Verif.Graph.Measure.degreeCentrality_spec",
    "Verif.Graph.Measure.graphDensity_spec",
    "Verif.Graph.Measure.closeness_spec",
    "Verif.Graph.Measure.graphDiameter_spec",
    "Verif.Graph.Measure.averageClustering_bounds",
    "Verif.Graph.Measure.averageClustering_partial",
    "Verif.Graph.Measure.averageClustering_order",
    "Verif.Graph.Measure.averagePathLength_partial",
    "Verif.Graph.Measure.averagePathLength_directed"
   ],
   "note": "Everything is proved for all graphs except the values of AverageClusteringCoefficient and AveragePathLength, which are proved for undirected graphs. For directed graphs they are false: the clustering coefficient depends on the order in which edges were added (averageClustering_order), and only paths from a smaller to a larger vertex number are counted (averagePathLength_directed)."
  },
  {
   "property": "C151",
   "status": "partial",
   "theorems": [
    "Verif.Graph.Conn.connBound_partial",
    "Verif.Graph.Conn.connBound_complete_partial",
    "Verif.Graph.Conn.connBound_not_lower"
   ],
   "note": "Proved: the returned value in every case, that it is not negative, that it is 0 and hence a lower bound for disconnected graphs, and that it is a lower bound for complete graphs. The claim for all connected graphs is false: for two complete graphs on six vertices joined by an edge the returned number exceeds the algebraic connectivity (connBound_not_lower). The algebraic connectivity enters through its Rayleigh quotients."
  },
  {
   "property": "C152",
   "status": "partial",
   "theorems": [
    "Verif.Graph.EigenC.eigenvectorCentrality_partial",
    "Verif.Graph.EigenC.eigenvectorCentrality_zero",
    "Verif.Graph.EigenC.eigenvectorCentrality_oscillates"
   ],
   "note": "Proved for all graphs: the result is the last of a chain of power steps from the uniform vector, has norm 1 or is zero, has no negative entry for nonnegative weights, and when stopped on the tolerance has a residual of at most the tolerance times the largest absolute column sum. Missing, and false for the code: convergence (on the path with three vertices the iteration alternates, and every even limit, including the default 100, returns equal centralities: eigenvectorCentrality_oscillates) and normalisation (a graph without edges gives the zero vector: eigenvectorCentrality_zero)."
  },
  {
   "property": "C153",
   "status": "partial",
   "theorems": [
    "Verif.Dirac.dirac_values",
    "Verif.Dirac.dirac_mass_partial",
    "Verif.Dirac.dirac_sift",
    "Verif.Dirac.diracSin_bound",
    "Verif.Dirac.diracSqr_overflow"
   ],
   "note": "Proved: all of it for the formulas, and for the code while its integer products are in range (N < 2^30 for the step, N <= 46340 for the Lorentzian, no limit for the Gaussian). Missing, and false for the code: DiracSqr multiplies N * N as integers, so from N = 46341 on every evaluation overflows (diracSqr_overflow). The limit statement is about the formulas that dirac_values identifies with the code, since the code's N is bounded. Not proved: the mass and the limit for DiracSin (a conditionally convergent integral)."
  },
  {
   "property": "C154",
   "status": "proved",
   "theorems": [
    "Verif.Deriv.taylorSeries2_order",
    "Verif.Deriv.taylorSeries3_order",
    "Verif.Deriv.taylorSeries_exact"
   ],
   "note": "In exact arithmetic, with the default steps of the derivative routines (C69) for any positive machine precision. Rounding errors are not modelled; a function value that is not finite makes the whole result undefined in the model."
  },
  {
   "property": "C155",
   "status": "proved",
   "theorems": [
    "Verif.Path.speed_accuracy",
    "Verif.Path.segment_exact",
    "Verif.Path.work_constant_field",
    "Verif.Path.rates_exact",
    "Verif.Path.line_exact",
    "Verif.Path.reversed",
    "Verif.Path.length_nonneg"
   ],
   "note": "In exact arithmetic, with the refining trapezoidal rule of C47 and the numerical tangent of C73; functions are total. Not covered: a bound on the total error of the length of a curved line (the stopping test of C48 does not give one)."
  },
  {
   "property": "C156",
   "status": "partial",
   "theorems": [
    "Verif.Fields.force_gradient_partial",
    "Verif.Fields.force_not_negative_gradient",
    "Verif.Fields.vortex_spec",
    "Verif.Fields.saddle_spec",
    "Verif.Fields.sourceSink_spec",
    "Verif.Fields.lineCurrent_spec",
    "Verif.Fields.dipole_spec",
    "Verif.Fields.potentialVortex_spec",
    "Verif.Fields.potentialVortex_irrotational",
    "Verif.Fields.vortexAxis_unit",
    "Verif.Fields.lineCurrentGeneral_eq",
    "Verif.Fields.lineCurrentGeneral_spec",
    "Verif.Fields.planeCurrent_spec"
   ],
   "note": "Proved: the divergences, rotations and the size for all points outside the tolerance around the singularity. Missing, and false for the code: F = -grad Phi; the force functions and classes return plus the gradient for every constant and every point (force_gradient_partial), so the documented sign holds nowhere (force_not_negative_gradient). Not modelled: spherical and cylindrical variants; the axis 0 of the potential vortex, for which the code stores NaN, is excluded."
  },
  {
   "property": "C157",
   "status": "partial",
   "theorems": [
    "Verif.Bumps.gaussianBump_spec",
    "Verif.Bumps.mexicanHat_partial",
    "Verif.Bumps.mexicanHat_not_laplacian",
    "Verif.Bumps.mexicanHat_mass"
   ],
   "note": "Proved: everything about the Gaussian bump, and the value and signs of the Mexican hat. Missing, and false for the code: the Mexican hat is no multiple of the Laplacian of any Gaussian around its centre (mexicanHat_not_laplacian), and its integral over space, as an iterated integral, is -2 A (2 pi sigma^2)^(3/2) and not 0 (mexicanHat_mass). The width 0, for which the code divides by 0, is excluded."
  },
  {
   "property": "C16",
   "status": "proved",
   "theorems": [
    "Verif.Pool.wait_for_tasks_barrier",
    "Verif.Pool.wait_for_tasks_all_finished",
    "Verif.Pool.has_tasks_false"
   ],
   "note": "Tasks may enqueue and may throw; a task that itself waits on the pool is outside the model (it never ends)."
  },
  {
   "property": "C17",
   "status": "proved",
   "theorems": [
    "Verif.Pool.no_deadlock",
    "Verif.Pool.pool_terminates",
    "Verif.Pool.pool_settles",
    "Verif.Pool.no_idle_worker",
    "Verif.Pool.stop_wakes_workers"
   ],
   "note": "Liveness as deadlock freedom plus termination of the pool's own steps under any scheduler; tasks and callbacks are assumed to end."
  },
  {
   "property": "C18",
   "status": "proved",
   "theorems": [
    "Verif.Pool.destructor_drains_and_joins"
   ],
   "note": "Under C++'s own precondition that no client call is in progress or made later; tasks may still enqueue while the destructor runs."
  },
  {
   "property": "C19",
   "status": "proved",
   "theorems": [
    "Verif.Pool.exceptions_captured_once",
    "Verif.Pool.exceptions_fifo",
    "Verif.Pool.construct_spec"
   ],
   "note": ""
  },
  {
   "property": "C20",
   "status": "proved",
   "theorems": [
    "Verif.KD.findNearest_correct",
    "Verif.KD.findNearest_empty",
    "Verif.KD.bruteForce_correct",
    "Verif.KD.findNearest_eq_bruteForce"
   ],
   "note": "Exact reals; every result nth_element may give; any dimension."
  },
  {
   "property": "C21",
   "status": "proved",
   "theorems": [
    "Verif.KD.findKNearest_correct",
    "Verif.KD.findKNearest_invalid"
   ],
   "note": ""
  },
  {
   "property": "C22",
   "status": "proved",
   "theorems": [
    "Verif.KD.findInRadius_correct",
    "Verif.KD.findInRadius_invalid",
    "Verif.KD.findInBox_correct"
   ],
   "note": ""
  },
  {
   "property": "C23",
   "status": "partial",
   "theorems": [
    "Verif.Intervals.intersection_mem",
    "Verif.Intervals.complement_mem",
    "Verif.Intervals.union_sound",
    "Verif.Intervals.union_mem_partial",
    "Verif.Intervals.difference_mem_partial",
    "Verif.Intervals.union_loses_closed_end",
    "Verif.Intervals.union_of_empty_intervals",
    "Verif.Intervals.difference_keeps_point",
    "Verif.Intervals.difference_loses_point",
    "Verif.Intervals.intersection_forgets_holes",
    "Verif.Intervals.intersection_dblMax"
   ],
   "note": "Intersection and Complement exact for hole-free kinds. Union exact for bounded intervals, Difference exact away from shared bounds; the code is wrong elsewhere, shown by counterexamples."
  },
  {
   "property": "C24",
   "status": "proved",
   "theorems": [
    "Verif.Intervals.covering_correct",
    "Verif.Intervals.finite_eff",
    "Verif.Intervals.covering_outside"
   ],
   "note": "covering_outside shows the stand-in for an infinite end can lie outside."
  },
  {
   "property": "C25",
   "status": "proved",
   "theorems": [
    "Verif.Data.splitLine_inverts_quoting"
   ],
   "note": ""
  },
  {
   "property": "C26",
   "status": "proved",
   "theorems": [
    "Verif.Data.loadFromCSVString_correct",
    "Verif.Data.loadFromCSVString_total",
    "Verif.Data.loadCSV_correct",
    "Verif.Data.meaning_missing",
    "Verif.Data.meaning_text",
    "Verif.Data.isBlank_iff"
   ],
   "note": "stod is an arbitrary partial function; std::stoi is modelled."
  },
  {
   "property": "C27",
   "status": "partial",
   "theorems": [
    "Verif.Data.loadFromJSONString_partial",
    "Verif.Data.json_misaligned",
    "Verif.Data.json_misaligned_rows",
    "Verif.Data.json_empty_object_dropped",
    "Verif.Data.json_duplicate_key_adds_row"
   ],
   "note": "Holds when the first object has all keys and no object is empty or repeats a key; false otherwise, by counterexample."
  },
  {
   "property": "C28",
   "status": "partial",
   "theorems": [
    "Verif.Data.parseString_partial",
    "Verif.Data.loadFromJSONString_partial",
    "Verif.Data.json_escapes_lost"
   ],
   "note": "Holds for every escape the loader decodes; \\b, \\f and \\uXXXX are mis-decoded, by counterexample."
  },
  {
   "property": "C29",
   "status": "proved",
   "theorems": [
    "Verif.Bin.vector_roundtrip",
    "Verif.Bin.matrix_roundtrip",
    "Verif.Bin.complex_roundtrip",
    "Verif.Bin.real_as_complex_roundtrip",
    "Verif.Bin.little_endian",
    "Verif.Bin.empty_matrix_refused"
   ],
   "note": "Elements as their bytes; memory assumed to suffice."
  },
  {
   "property": "C30",
   "status": "partial",
   "theorems": [
    "Verif.Bin.vector_header",
    "Verif.Bin.matrix_header",
    "Verif.Bin.complex_header",
    "Verif.Bin.complex_truncated_partial",
    "Verif.Bin.vector_truncated_accepted",
    "Verif.Bin.vector_truncated_example",
    "Verif.Bin.matrix_truncated_accepted",
    "Verif.Bin.truncated_header_ub"
   ],
   "note": "Wrong headers are refused by all three loaders, truncated data only by the complex one; the other two accept truncated files, and a truncated header is undefined behaviour."
  },
  {
   "property": "C31",
   "status": "proved",
   "theorems": [
    "Verif.Fourier.fft_forward_isDFT",
    "Verif.Fourier.dft_forward_isDFT",
    "Verif.Fourier.fft_eq_dft",
    "Verif.Fourier.fft_transform_inverse",
    "Verif.Fourier.fft_rejects",
    "Verif.Fourier.dft_rejects_empty",
    "Verif.Fourier.computeBin_spec"
   ],
   "note": "Exact complex arithmetic."
  },
  {
   "property": "C32",
   "status": "proved",
   "theorems": [
    "Verif.Fourier.fft_roundtrip",
    "Verif.Fourier.fft_roundtrip'",
    "Verif.Fourier.dft_roundtrip",
    "Verif.Fourier.dft_roundtrip'",
    "Verif.Fourier.dft_inverse_isIDFT",
    "Verif.Fourier.fft_inverse_isIDFT",
    "Verif.Fourier.dft_real_roundtrip"
   ],
   "note": "Exact complex arithmetic."
  },
  {
   "property": "C33",
   "status": "proved",
   "theorems": [
    "Verif.Fourier.dct_roundtrip",
    "Verif.Fourier.dct_forward_isDCT",
    "Verif.Fourier.dct_inverse_isIDCT",
    "Verif.Fourier.dct_fast_eq_reference",
    "Verif.Fourier.dct_fast_rejects",
    "Verif.Fourier.dct_rejects_empty",
    "Verif.Fourier.dst_roundtrip",
    "Verif.Fourier.dst_isDST"
   ],
   "note": "Exact arithmetic."
  },
  {
   "property": "C34",
   "status": "partial",
   "theorems": [
    "Verif.Poly.eval_spec",
    "Verif.Poly.eval_toPoly",
    "Verif.Poly.add_spec",
    "Verif.Poly.sub_spec",
    "Verif.Poly.neg_spec",
    "Verif.Poly.mul_spec_partial",
    "Verif.Poly.mul_empty_throws",
    "Verif.Poly.scalar_spec",
    "Verif.Poly.arith_eval_partial",
    "Verif.Poly.isEqual_iff",
    "Verif.Poly.reduce_spec"
   ],
   "note": "Everything but the product of two polynomials without coefficients, which throws."
  },
  {
   "property": "C35",
   "status": "partial",
   "theorems": [
    "Verif.Poly.poldiv_spec_partial",
    "Verif.Poly.poldiv_zero",
    "Verif.Poly.poldiv_short_ub"
   ],
   "note": "A dividend with fewer coefficients than the degree of the divisor is read out of range."
  },
  {
   "property": "C36",
   "status": "proved",
   "theorems": [
    "Verif.Poly.derivative_spec",
    "Verif.Poly.integral_spec",
    "Verif.Poly.derivative_integral",
    "Verif.Poly.derive_spec",
    "Verif.Poly.fromValues_spec",
    "Verif.Poly.fromValues_rejects"
   ],
   "note": "Characteristic zero for integrals."
  },
  {
   "property": "C37",
   "status": "proved",
   "theorems": [
    "Verif.LinAlg.solveInPlaceM_solves",
    "Verif.LinAlg.solveInPlaceM_singular",
    "Verif.LinAlg.solveInPlaceM_accepts",
    "Verif.LinAlg.solveInPlace_refuses",
    "Verif.LinAlg.solveInPlaceV_solves",
    "Verif.LinAlg.solveInPlaceV_decides",
    "Verif.LinAlg.LU.new_outcomes",
    "Verif.LinAlg.LU.solve_solves",
    "Verif.LinAlg.LU.solveInto_solves",
    "Verif.LinAlg.LU.solveM_solves",
    "Verif.LinAlg.LU.solveM_reject",
    "Verif.LinAlg.LU.new_decides",
    "Verif.LinAlg.Chol.new_reject",
    "Verif.LinAlg.Chol.new_decides_mirror",
    "Verif.LinAlg.Chol.new_decides",
    "Verif.LinAlg.Chol.factor_correct",
    "Verif.LinAlg.Chol.solve_solves",
    "Verif.LinAlg.Chol.solve_near_symmetric"
   ],
   "note": "Exact ordered field; epsilon is any positive number. Cholesky accepts a matrix symmetric up to a tolerance and then solves with its upper triangle mirrored (solve_near_symmetric)."
  },
  {
   "property": "C38",
   "status": "partial",
   "theorems": [
    "Verif.LinAlg.invert_correct_partial",
    "Verif.LinAlg.invert_decides",
    "Verif.LinAlg.invert_not_square",
    "Verif.LinAlg.invert_zero_not_reported",
    "Verif.LinAlg.LU.inverse_correct",
    "Verif.LinAlg.LU.det_correct",
    "Verif.LinAlg.Chol.inverse_correct",
    "Verif.LinAlg.Chol.logdet_correct"
   ],
   "note": "Invert of the zero matrix divides by zero instead of reporting it; everything else is proved."
  },
  {
   "property": "C39",
   "status": "proved",
   "theorems": [
    "Verif.LinAlg.Tri.solveInto_solves",
    "Verif.LinAlg.Tri.solve_solves",
    "Verif.LinAlg.Tri.solve_singular",
    "Verif.LinAlg.Tri.solve_accepts",
    "Verif.LinAlg.Tri.solve_short",
    "Verif.LinAlg.Tri.solve_no_pivoting",
    "Verif.LinAlg.BandLU.new_outcomes",
    "Verif.LinAlg.BandLU.new_decides",
    "Verif.LinAlg.BandLU.solve_solves",
    "Verif.LinAlg.BandLU.solveInto_solves",
    "Verif.LinAlg.BandLU.solveM_solves",
    "Verif.LinAlg.BandLU.det_correct",
    "Verif.LinAlg.BandLU.new_zero_not_reported",
    "Verif.LinAlg.BandLU.new_wide_ub"
   ],
   "note": "Tridiagonal right-hand sides must be long enough: short ones are read out of range (solve_short). The band solver has undefined behaviour for the zero matrix and for more subdiagonals than rows, both shown."
  },
  {
   "property": "C40",
   "status": "partial",
   "theorems": [
    "Verif.Mat.Dense.is_unique",
    "Verif.Mat.Dense.write_read",
    "Verif.Mat.Dense.at_spec",
    "Verif.Mat.Dense.get_column_overflow",
    "Verif.Mat.Dense.newFill_outcome",
    "Verif.Mat.Dense.resize_preserves",
    "Verif.Mat.Dense.resize_clears",
    "Verif.Mat.Dense.fromNested_spec",
    "Verif.Mat.Dense.fromNested_ragged",
    "Verif.Mat.Dense.fromList_spec",
    "Verif.Mat.Dense.slices_spec",
    "Verif.Mat.Dense.slices_reject",
    "Verif.Mat.Dense.rearrange_spec",
    "Verif.Mat.Sym.write_read",
    "Verif.Mat.Sym.at_spec",
    "Verif.Mat.Sym.create_spec",
    "Verif.Mat.Sym.add_spec",
    "Verif.Mat.Sym.from_spec",
    "Verif.Mat.Sym.toDense_spec",
    "Verif.Mat.Sym.roundtrip",
    "Verif.Mat.Sym.resize_preserves",
    "Verif.Mat.Sym.mul_spec",
    "Verif.Mat.Band.write_read",
    "Verif.Mat.Band.get_total",
    "Verif.Mat.Band.mulVec_spec",
    "Verif.Mat.Band.toDense_spec",
    "Verif.Mat.Band.transpose_spec",
    "Verif.Mat.Band.isEqualTo_sound_partial",
    "Verif.Mat.Band.isEqualTo_unused_corner",
    "Verif.Mat.Tri.write_read",
    "Verif.Mat.Tri.new_spec",
    "Verif.Mat.Tri.fromList_spec",
    "Verif.Mat.Tri.fromList_one",
    "Verif.Mat.Tri.transpose_spec_partial",
    "Verif.Mat.Tri.transpose_two",
    "Verif.Mat.Tri.isEqualTo_sound_partial",
    "Verif.Mat.Tri.isEqualTo_unused_cells",
    "Verif.Mat.Cube.write_read",
    "Verif.Mat.Cube.at_spec",
    "Verif.Mat.Cube.newFill_spec"
   ],
   "note": "Write and read proved for all five storages; the tridiagonal transpose needs dimension three or more and its list constructor dimension two or more, counterexamples given."
  },
  {
   "property": "C41",
   "status": "proved",
   "theorems": [
    "Verif.Mat.Dense.arith_entries",
    "Verif.Mat.Dense.mul_outcome",
    "Verif.Mat.Dense.arith_reject",
    "Verif.Mat.Dense.vec_entries",
    "Verif.Mat.Dense.add_laws",
    "Verif.Mat.Dense.mul_assoc_law",
    "Verif.Mat.Dense.mul_add_laws",
    "Verif.Mat.Dense.mul_identity",
    "Verif.Mat.Dense.transpose_laws",
    "Verif.Mat.Dense.trace_laws"
   ],
   "note": "Entries in a commutative ring: rounding is not modelled."
  },
  {
   "property": "C42",
   "status": "proved",
   "theorems": [
    "Verif.Geom.Quat.algebra_spec",
    "Verif.Geom.Quat.mul_laws",
    "Verif.Geom.Quat.dot_spec",
    "Verif.Geom.Quat.cross_dot_spec",
    "Verif.Geom.Quat.rotate_laws",
    "Verif.Geom.Quat.rotationMatrix_rotate",
    "Verif.Geom.Quat.rotationMatrix_special_orthogonal",
    "Verif.Geom.Quat.toRotationMatrix_mul",
    "Verif.Geom.Quat.inverse_spec",
    "Verif.Geom.Quat.inverse_refuses_small",
    "Verif.Geom.Quat.normalized_spec",
    "Verif.Geom.Quat.eq_spec",
    "Verif.Geom.Quat.divScalar_spec",
    "Verif.Geom.Quat.approx_spec"
   ],
   "note": "Multiplication is Mathlib's quaternion multiplication. Inverse and Normalize refuse nonzero quaternions below the code's threshold (inverse_refuses_small)."
  },
  {
   "property": "C43",
   "status": "proved",
   "theorems": [
    "Verif.Roots.bisection_honest",
    "Verif.Roots.bisection_refuses",
    "Verif.Roots.bisection_converged",
    "Verif.Roots.bisection_converges",
    "Verif.Roots.bisection_simple"
   ],
   "note": "Exact real arithmetic; non-finite function values are modelled."
  },
  {
   "property": "C44",
   "status": "proved",
   "theorems": [
    "Verif.Roots.bracketRoot_spec",
    "Verif.Roots.bracketRoot_root",
    "Verif.Roots.findRootBrackets_spec",
    "Verif.Roots.findRootBrackets_root",
    "Verif.Roots.findRootBrackets_complete",
    "Verif.Roots.falsePosition_honest",
    "Verif.Roots.falsePosition_brackets",
    "Verif.Roots.falsePosition_refuses",
    "Verif.Roots.bracketRoot_misses_last",
    "Verif.Roots.findRootBrackets_not_resized"
   ],
   "note": "BracketRoot does not test its last expansion, and the vectors of FindRootBrackets are longer than the number it returns (both shown)."
  },
  {
   "property": "C45",
   "status": "proved",
   "theorems": [
    "Verif.Stats.median_empty",
    "Verif.Stats.median_spec",
    "Verif.Stats.median_perm",
    "Verif.Stats.median_halves",
    "Verif.Stats.percentile_spec",
    "Verif.Stats.percentile_refuses",
    "Verif.Stats.percentile_perm",
    "Verif.Stats.percentile_mono",
    "Verif.Stats.percentile_ends",
    "Verif.Stats.percentile_between",
    "Verif.Stats.median_eq_percentile",
    "Verif.Stats.percentile_affine",
    "Verif.Stats.quartiles_spec",
    "Verif.Stats.minMax_spec",
    "Verif.Stats.mode_spec",
    "Verif.Stats.mode_empty",
    "Verif.Stats.mode_unique",
    "Verif.Stats.mode_perm",
    "Verif.Stats.trimmedMean_spec",
    "Verif.Stats.trimmedMean_refuses",
    "Verif.Stats.trimmedMean_perm",
    "Verif.Stats.range_perm",
    "Verif.Stats.mad_spec"
   ],
   "note": ""
  },
  {
   "property": "C46",
   "status": "partial",
   "theorems": [
    "Verif.Stats.covariance_spec",
    "Verif.Stats.covariance_affine",
    "Verif.Stats.pearson_spec",
    "Verif.Stats.pearson_refuses",
    "Verif.Stats.pearson_symm",
    "Verif.Stats.pearson_affine",
    "Verif.Stats.pearson_extreme",
    "Verif.Stats.rSquared_spec",
    "Verif.Stats.pearsonWithTest_spec",
    "Verif.Stats.covarianceMatrix_spec",
    "Verif.Stats.correlationMatrix_spec",
    "Verif.Stats.correlationMatrix_refuses",
    "Verif.Stats.computeRanks_exact",
    "Verif.Stats.computeRanks_spec",
    "Verif.Stats.computeRanks_order",
    "Verif.Stats.computeRanks_near_ties",
    "Verif.Stats.spearman_bounds",
    "Verif.Stats.spearman_refuses",
    "Verif.Stats.spearman_exact",
    "Verif.Stats.spearman_monotone",
    "Verif.Stats.spearman_one",
    "Verif.Stats.spearmanWithTest_spec",
    "Verif.Stats.kendall_spec",
    "Verif.Stats.kendall_symm",
    "Verif.Stats.kendall_monotone",
    "Verif.Stats.kendall_one",
    "Verif.Stats.kendallWithTest_spec"
   ],
   "note": "Average ranks and the dependence on order alone are proved for data whose different values are at least the tolerance 1e-14 apart; computeRanks_near_ties shows that closer values are given a common rank, so the unrestricted claim is false."
  },
  {
   "property": "C47",
   "status": "proved",
   "theorems": [
    "Verif.Integ.next_is_trapezoid",
    "Verif.Integ.next_overflows",
    "Verif.Integ.integrateTrap_spec",
    "Verif.Integ.integrateTrap_no_steps",
    "Verif.Integ.integrateSimpson_spec",
    "Verif.Integ.trapezoid_exact",
    "Verif.Integ.simpson_exact",
    "Verif.Integ.integrateTrap_exact",
    "Verif.Integ.integrateSimpson_exact",
    "Verif.Integ.trapezoid_error",
    "Verif.Integ.simpson_error",
    "Verif.Integ.integrateTrap_accuracy",
    "Verif.Integ.integrateSimpson_accuracy",
    "Verif.Integ.trapezoid_swap",
    "Verif.Integ.integrateTrap_swap",
    "Verif.Integ.converged_not_accurate"
   ],
   "note": "Round limits above 32 overflow an int (next_overflows) and a limit of zero leaves the result uninitialised (integrateTrap_no_steps). A settled answer need not be accurate (converged_not_accurate)."
  },
  {
   "property": "C48",
   "status": "partial",
   "theorems": [
    "Verif.Integ.converged_error",
    "Verif.Integ.unconverged_error_zero",
    "Verif.Integ.integrateTrap_misreports"
   ],
   "note": "The converged half is proved. The unconverged half is false for IntegrateTrap and IntegrateSimpson, which always report zero; IntegrateRomberg meets it (C75)."
  },
  {
   "property": "C49",
   "status": "partial",
   "theorems": [
    "Verif.CompGeo.hull_correct_partial",
    "Verif.CompGeo.hull_returns_partial",
    "Verif.CompGeo.separated_of_int",
    "Verif.CompGeo.hull_fails_tiny",
    "Verif.CompGeo.hull_fails_repeated"
   ],
   "note": "The result is the convex hull (exactly its corners, once each, counter-clockwise) whenever triangles of input points are flat or larger than the code's tolerance and different points are apart by more than it; integer points always are. For every input the call returns input points. Missing: inputs within the tolerance, where the claim is false."
  },
  {
   "property": "C50",
   "status": "proved",
   "theorems": [
    "Verif.AD.dual_exact",
    "Verif.AD.derivative_exact",
    "Verif.AD.gradient_exact",
    "Verif.AD.assign_eq",
    "Verif.AD.abs_at_zero",
    "Verif.AD.asin_at_one",
    "Verif.AD.powConst_zero_at_zero",
    "Verif.AD.branch_at_tie"
   ],
   "note": "At points excluded in the statement a wrong derivative can be reported (abs_at_zero, asin_at_one, powConst_zero_at_zero, branch_at_tie)."
  },
  {
   "property": "C51",
   "status": "proved",
   "theorems": [
    "Verif.Graph.degree_counts",
    "Verif.Graph.degree_sum"
   ],
   "note": ""
  },
  {
   "property": "C52",
   "status": "proved",
   "theorems": [
    "Verif.KD.build_terminates",
    "Verif.KD.build_diverges"
   ],
   "note": "The second part is a defect: max_leaf_size is not validated."
  },
  {
   "property": "C53",
   "status": "proved",
   "theorems": [
    "Verif.Intervals.containsInterval_sound",
    "Verif.Intervals.containsInterval_incomplete"
   ],
   "note": "The converse is false and shown so."
  },
  {
   "property": "C54",
   "status": "proved",
   "theorems": [
    "Verif.Intervals.intersects_complete",
    "Verif.Intervals.intersects_closed",
    "Verif.Intervals.intersects_wrong"
   ],
   "note": "Open ends are ignored: false positives shown."
  },
  {
   "property": "C55",
   "status": "proved",
   "theorems": [
    "Verif.Intervals.composite_covering_inside",
    "Verif.Intervals.composite_covering_count"
   ],
   "note": "The number of points can differ from the requested one, shown."
  },
  {
   "property": "C56",
   "status": "proved",
   "theorems": [
    "Verif.Intervals.measure_difference",
    "Verif.Intervals.measure_union"
   ],
   "note": ""
  },
  {
   "property": "C57",
   "status": "proved",
   "theorems": [
    "Verif.Data.loadCSV_eq_loadFromCSVString"
   ],
   "note": ""
  },
  {
   "property": "C58",
   "status": "proved",
   "theorems": [
    "Verif.Data.inferColumnType_spec",
    "Verif.Data.inferColumnType_uniform",
    "Verif.Data.classify_spec",
    "Verif.Data.intPattern_iff",
    "Verif.Data.realPattern_iff",
    "Verif.Data.datePattern_iff",
    "Verif.Data.dateTimePattern_iff",
    "Verif.Data.timePattern_iff"
   ],
   "note": "The comparison with 0.9*total is exact in the model."
  },
  {
   "property": "C59",
   "status": "proved",
   "theorems": [
    "Verif.Data.int_column_exact",
    "Verif.Data.stoi_intLit",
    "Verif.Data.digitVal_digits",
    "Verif.Data.int_column_truncates"
   ],
   "note": "int_column_truncates: with a mixture of at least 90% integers, 3.7 is stored as 3."
  },
  {
   "property": "C60",
   "status": "proved",
   "theorems": [
    "Verif.Data.filterRows_correct",
    "Verif.Data.selectColumns_correct",
    "Verif.Data.unknown_column"
   ],
   "note": ""
  },
  {
   "property": "C61",
   "status": "proved",
   "theorems": [
    "Verif.Data.parse_total",
    "Verif.Data.loadJSON_eq"
   ],
   "note": "std::isspace on negative chars (undefined) is not modelled."
  },
  {
   "property": "C62",
   "status": "proved",
   "theorems": [
    "Verif.Fourier.real_forward_spec",
    "Verif.Fourier.real_roundtrip",
    "Verif.Fourier.real_inverse_spec",
    "Verif.Fourier.real_transform_spec",
    "Verif.Fourier.real_transform_roundtrip",
    "Verif.Fourier.real_rejects",
    "Verif.Fourier.real_inverse_rejects",
    "Verif.Fourier.real_inverse_rejects_size"
   ],
   "note": "Exact arithmetic."
  },
  {
   "property": "C63",
   "status": "proved",
   "theorems": [
    "Verif.Fourier.nextPowerOfTwo_spec",
    "Verif.Fourier.zeroPad_spec",
    "Verif.Fourier.log2_spec",
    "Verif.Fourier.log2_pow"
   ],
   "note": "int overflow not modelled."
  },
  {
   "property": "C64",
   "status": "partial",
   "theorems": [
    "Verif.Fourier.Windows.windows_reject",
    "Verif.Fourier.Windows.rectangular_isWindow",
    "Verif.Fourier.Windows.hann_isWindow",
    "Verif.Fourier.Windows.hamming_isWindow",
    "Verif.Fourier.Windows.blackman_isWindow",
    "Verif.Fourier.Windows.bartlett_isWindow",
    "Verif.Fourier.Windows.welch_isWindow",
    "Verif.Fourier.Windows.kaiser_isWindow_partial",
    "Verif.Fourier.Windows.gaussian_isWindow_partial",
    "Verif.Fourier.Windows.kaiser_gaussian_one_nan"
   ],
   "note": "All windows for all sizes, except that the Kaiser and Gaussian windows of length 1 are 0/0."
  },
  {
   "property": "C65",
   "status": "partial",
   "theorems": [
    "Verif.Mat.Dense.predicates_spec",
    "Verif.Mat.Dense.isEqualTo_spec",
    "Verif.Mat.Dense.beq_spec",
    "Verif.Mat.Dense.isAntiSymmetric_spec_partial",
    "Verif.Mat.Dense.isAntiSymmetric_accepts_identity"
   ],
   "note": "isAntiSymmetric does not look at the diagonal."
  },
  {
   "property": "C66",
   "status": "partial",
   "theorems": [
    "Verif.Geom.Quat.fromAxisAngle_rotates",
    "Verif.Geom.Quat.rotationAngle_spec",
    "Verif.Geom.Quat.toAxisAngle_roundtrip",
    "Verif.Geom.Quat.fromAxisAngle_roundtrip",
    "Verif.Geom.Quat.fromRotationMatrix_spec",
    "Verif.Geom.Quat.toRotationMatrix_injective",
    "Verif.Geom.Quat.fromRotationMatrix_toRotationMatrix",
    "Verif.Geom.Quat.fromEulerZYX_spec",
    "Verif.Geom.Quat.fromEulerXYZ_spec",
    "Verif.Geom.Quat.fromEulerZYX_roundtrip",
    "Verif.Geom.Quat.atan2_spec",
    "Verif.Geom.Quat.toEulerZYX_roundtrip_partial",
    "Verif.Geom.Quat.toEulerZYX_gimbal_lock",
    "Verif.Geom.Quat.toEulerZYX_loses_rotation"
   ],
   "note": "Everything but ToEulerZYX at pitch +-90 degrees, where the angles give another rotation in general (toEulerZYX_loses_rotation)."
  },
  {
   "property": "C67",
   "status": "proved",
   "theorems": [
    "Verif.Geom.Quat.slerp_spec",
    "Verif.Geom.Quat.lerp_ends",
    "Verif.Geom.Quat.lerp_normSq"
   ],
   "note": "Unit quaternions; exact trigonometric functions."
  },
  {
   "property": "C68",
   "status": "partial",
   "theorems": [
    "Verif.Roots.brent_spec",
    "Verif.Roots.brent_refuses",
    "Verif.Roots.roundLimit_pos",
    "Verif.Roots.ridders_spec_partial",
    "Verif.Roots.ridders_start_value",
    "Verif.Roots.newton_spec",
    "Verif.Roots.secant_honest",
    "Verif.Roots.secant_leaves_bracket"
   ],
   "note": "Ridders needs a tolerance that does not reach its start value -1e99 (ridders_start_value); the secant method can converge outside the bracket (secant_leaves_bracket)."
  },
  {
   "property": "C69",
   "status": "proved",
   "theorems": [
    "Verif.Deriv.nDer1_order",
    "Verif.Deriv.nDer2_order",
    "Verif.Deriv.nDer4_order",
    "Verif.Deriv.nDer6_order",
    "Verif.Deriv.nDer8_order",
    "Verif.Deriv.nSecDer2_order",
    "Verif.Deriv.nSecDer4_order",
    "Verif.Deriv.nThirdDer2_order",
    "Verif.Deriv.nThirdDer4_order",
    "Verif.Deriv.nDer1_exact",
    "Verif.Deriv.nDer2_exact",
    "Verif.Deriv.nDer4_exact",
    "Verif.Deriv.nDer6_exact",
    "Verif.Deriv.nDer8_exact",
    "Verif.Deriv.nSecDer2_exact",
    "Verif.Deriv.nSecDer4_exact",
    "Verif.Deriv.nThirdDer2_exact",
    "Verif.Deriv.nThirdDer4_exact",
    "Verif.Deriv.default_steps_pos",
    "Verif.Deriv.detailed_spec",
    "Verif.Deriv.step_refused"
   ],
   "note": "Exact real arithmetic; non-finite function values are modelled."
  },
  {
   "property": "C70",
   "status": "partial",
   "theorems": [
    "Verif.Deriv.nDer1_estimate",
    "Verif.Deriv.nDer2_estimate",
    "Verif.Deriv.nDer4_estimate",
    "Verif.Deriv.nDer6_estimate",
    "Verif.Deriv.nDer8_estimate",
    "Verif.Deriv.nSecDer2_estimate_small",
    "Verif.Deriv.nSecDer4_estimate_small",
    "Verif.Deriv.nThirdDer2_estimate_large",
    "Verif.Deriv.nThirdDer2_estimate_small",
    "Verif.Deriv.nThirdDer4_estimate_small"
   ],
   "note": "Proved for the five rules for the first derivative. False for the second and third derivatives, whose estimates are too small or do not shrink with the step (counterexamples given)."
  },
  {
   "property": "C71",
   "status": "partial",
   "theorems": [
    "Verif.Deriv.nDer1_sided_order",
    "Verif.Deriv.nDer2Left_default_order_partial",
    "Verif.Deriv.nDer2Left_step_order_partial",
    "Verif.Deriv.nDer2Right_default_order_partial",
    "Verif.Deriv.nDer2Right_step_order_partial",
    "Verif.Deriv.nDer4Left_order_partial",
    "Verif.Deriv.nDer4Right_order_partial",
    "Verif.Deriv.nDer6Left_order_partial",
    "Verif.Deriv.nDer6Right_order_partial",
    "Verif.Deriv.nDer8Left_order_partial",
    "Verif.Deriv.nDer8Right_order_partial",
    "Verif.Deriv.left_uses_left",
    "Verif.Deriv.right_uses_right_partial",
    "Verif.Deriv.nDer1Right_looks_left",
    "Verif.Deriv.nDer2Left_shift",
    "Verif.Deriv.nDer2Right_shift",
    "Verif.Deriv.nDer4Left_shift",
    "Verif.Deriv.nDer4Right_shift",
    "Verif.Deriv.nDer6Left_shift",
    "Verif.Deriv.nDer6Right_shift",
    "Verif.Deriv.nDer8Left_shift",
    "Verif.Deriv.nDer8Right_shift"
   ],
   "note": "The rules of order 2 to 8 are evaluated at a shifted point, so only first order is true (shift counterexamples); the error estimate of NDer1Right evaluates left of x."
  },
  {
   "property": "C72",
   "status": "proved",
   "theorems": [
    "Verif.Deriv.richardson_close",
    "Verif.Deriv.nDerRichardson_order",
    "Verif.Deriv.nSecDerRichardson_order",
    "Verif.Deriv.nThirdDerRichardson_order",
    "Verif.Deriv.adaptive_order",
    "Verif.Deriv.richardson_exact",
    "Verif.Deriv.nDerRichardson_exact",
    "Verif.Deriv.nSecDerRichardson_exact",
    "Verif.Deriv.nThirdDerRichardson_exact",
    "Verif.Deriv.richardson_guards",
    "Verif.Deriv.richardson_error_not_bound"
   ],
   "note": "The reported error is not a bound (richardson_error_not_bound); depth zero and shrinking factors of modulus one are undefined behaviour (richardson_guards)."
  },
  {
   "property": "C73",
   "status": "proved",
   "theorems": [
    "Verif.Deriv.nDer1Partial_order",
    "Verif.Deriv.nDer1Gradient_order",
    "Verif.Deriv.nDer1AllByAll_order",
    "Verif.Deriv.nDer2Partial_order",
    "Verif.Deriv.nDer2Gradient_order",
    "Verif.Deriv.nDer2AllByAll_order",
    "Verif.Deriv.nDer4Partial_order",
    "Verif.Deriv.nDer4Gradient_order",
    "Verif.Deriv.nDer4AllByAll_order",
    "Verif.Deriv.nDer6Partial_order",
    "Verif.Deriv.nDer6Gradient_order",
    "Verif.Deriv.nDer6AllByAll_order",
    "Verif.Deriv.nDer8Partial_order",
    "Verif.Deriv.nDer8Gradient_order",
    "Verif.Deriv.nDer8AllByAll_order",
    "Verif.Deriv.calcJacobian_order",
    "Verif.Deriv.nSecDer2Partial_order",
    "Verif.Deriv.nSecDer4Partial_order",
    "Verif.Deriv.pairStep_pos",
    "Verif.Deriv.mixed_estimate_small",
    "Verif.Deriv.calcJacobianDyn_order",
    "Verif.Deriv.calcJacobianDyn2_order",
    "Verif.Deriv.calcJacobianODE_order",
    "Verif.Deriv.calcJacobianDyn_affine",
    "Verif.Deriv.calcJacobianODE_affine",
    "Verif.Deriv.nDer1Curve_order",
    "Verif.Deriv.nDer2Curve_order",
    "Verif.Deriv.nDer4Curve_order",
    "Verif.Deriv.nDer6Curve_order",
    "Verif.Deriv.nDer8Curve_order",
    "Verif.Deriv.nSecDer2Curve_order",
    "Verif.Deriv.nSecDer4Curve_order",
    "Verif.Deriv.nThirdDer2Curve_order",
    "Verif.Deriv.nThirdDer4Curve_order",
    "Verif.Deriv.nDer1U_order",
    "Verif.Deriv.nDer1W_order",
    "Verif.Deriv.nDer2U_order",
    "Verif.Deriv.nDer2W_order",
    "Verif.Deriv.nSecDer2U_order",
    "Verif.Deriv.nSecDer2W_order",
    "Verif.Deriv.nDer2UW_order",
    "Verif.Deriv.nDer2UWDefault_order",
    "Verif.Deriv.nDer4CurveError_large",
    "Verif.Deriv.nSecDer2UError_large",
    "Verif.Deriv.smoothAt_of_contDiff"
   ],
   "note": "Values only; the error estimates of mixed derivatives, curves and surfaces are too small or do not shrink (counterexamples given). A zero step is undefined behaviour in these functions."
  },
  {
   "property": "C74",
   "status": "partial",
   "theorems": [
    "Verif.Stats.avg_spec",
    "Verif.Stats.mean_between",
    "Verif.Stats.avgVar_spec",
    "Verif.Stats.avgVar_few",
    "Verif.Stats.variance_sign",
    "Verif.Stats.variance_affine",
    "Verif.Stats.moments_spec",
    "Verif.Stats.moments_refuses",
    "Verif.Stats.geometricMean_spec",
    "Verif.Stats.harmonicMean_spec",
    "Verif.Stats.geometric_harmonic_refuse",
    "Verif.Stats.means_ordered",
    "Verif.Stats.weightedMean_spec",
    "Verif.Stats.weightedMean_refuses",
    "Verif.Stats.weightedMean_equal",
    "Verif.Stats.weightedVariance_spec",
    "Verif.Stats.weightedVariance_refuses"
   ],
   "note": "Every clause is proved except one that the code does not meet: the variance of a single value is 0/0 (not a number) instead of a refusal; avgVar_few proves this."
  },
  {
   "property": "C75",
   "status": "proved",
   "theorems": [
    "Verif.Integ.integrateRomberg_spec",
    "Verif.Integ.romberg_exact",
    "Verif.Integ.integrateRomberg_exact",
    "Verif.Integ.integrateRomberg_exact_converges",
    "Verif.Integ.integrateRomberg_accuracy",
    "Verif.Integ.integrateRomberg_smooth",
    "Verif.Integ.integrateRomberg_short",
    "Verif.Integ.integrateRomberg_one",
    "Verif.Integ.integrateRomberg_one_wrong"
   ],
   "note": "K = 1 and JMAX < K are degenerate and described by the last three theorems."
  },
  {
   "property": "C76",
   "status": "proved",
   "theorems": [
    "Verif.Integ.integrateGauss10_spec",
    "Verif.Integ.integrateGK15_spec",
    "Verif.Integ.integrateGK21_spec",
    "Verif.Integ.integrateGK31_spec",
    "Verif.Integ.IsRule.poly",
    "Verif.Integ.IsRule.accuracy",
    "Verif.Integ.integrateGK15_poly"
   ],
   "note": "The constants are the decimal literals of the source; that a double keeps only sixteen digits is not modelled."
  },
  {
   "property": "C77",
   "status": "partial",
   "theorems": [
    "Verif.Integ.adaptive_spec",
    "Verif.Integ.Adaptive.error_le",
    "Verif.Integ.adaptive_converged",
    "Verif.Integ.Adaptive.honest",
    "Verif.Integ.adaptive_poly",
    "Verif.Integ.adaptive_evals",
    "Verif.Integ.adaptive_underreports"
   ],
   "note": "Everything but the number of evaluations, which is under-reported (adaptive_evals)."
  },
  {
   "property": "C78",
   "status": "proved",
   "theorems": [
    "Verif.Integ.integrateChebyshev1_exact",
    "Verif.Integ.integrateChebyshev2_exact",
    "Verif.Integ.chebyshev_nodes",
    "Verif.Integ.chebyshev_corners",
    "Verif.Integ.chebyshev_refuses"
   ],
   "note": "Exact cosines."
  },
  {
   "property": "C79",
   "status": "proved",
   "theorems": [
    "Verif.Integ.integrateOpen_spec",
    "Verif.Integ.integrateOpen_congr",
    "Verif.Integ.open_exact",
    "Verif.Integ.integrateOpen_accuracy",
    "Verif.Integ.integrateOpen_short",
    "Verif.Integ.mid_overflows",
    "Verif.Integ.upperInf_integral",
    "Verif.Integ.lowerInf_integral",
    "Verif.Integ.lowerSing_integral",
    "Verif.Integ.upperSing_integral",
    "Verif.Integ.integrateUpperInf_spec",
    "Verif.Integ.integrateLowerInf_spec",
    "Verif.Integ.integrateUpperInf_congr",
    "Verif.Integ.integrateLowerInf_congr",
    "Verif.Integ.integrateUpperInf_accuracy",
    "Verif.Integ.integrateLowerInf_accuracy",
    "Verif.Integ.integrateInfSplit_spec",
    "Verif.Integ.integrateInf_eq",
    "Verif.Integ.integrateInfSplit_accuracy",
    "Verif.Integ.integrateLowerSingular_spec",
    "Verif.Integ.integrateUpperSingular_spec",
    "Verif.Integ.integrateLowerSingular_congr",
    "Verif.Integ.integrateUpperSingular_congr",
    "Verif.Integ.integrateLowerSingular_accuracy",
    "Verif.Integ.integrateUpperSingular_accuracy",
    "Verif.Integ.integrateBothSingular_spec",
    "Verif.Integ.integrateBothSingular_accuracy",
    "Verif.Integ.integrateInteriorSingular_spec",
    "Verif.Integ.integrateInteriorSingular_accuracy",
    "Verif.Integ.integrateInteriorSingular_refuses",
    "Verif.Integ.integrateSingular_reversed"
   ],
   "note": "All proved for bounds in order; with reversed bounds the integrators for singular ends take the square root of a negative number (integrateSingular_reversed)."
  },
  {
   "property": "C80",
   "status": "partial",
   "theorems": [
    "Verif.Integ.integrate_dispatch",
    "Verif.Integ.run_near",
    "Verif.Integ.integrate2D_accuracy",
    "Verif.Integ.integrate2D_exact",
    "Verif.Integ.integrate2D_congr",
    "Verif.Integ.integrate3D_accuracy",
    "Verif.Integ.integrate3D_exact",
    "Verif.Integ.integrate3D_congr",
    "Verif.Integ.integrate2D_hides_failure"
   ],
   "note": "Everything but the last clause, which the code does not meet: the flag speaks only about the outermost integral (integrate2D_hides_failure)."
  },
  {
   "property": "C81",
   "status": "proved",
   "theorems": [
    "Verif.Interp.table_new_spec",
    "Verif.Interp.locate_window",
    "Verif.Interp.locate_brackets",
    "Verif.Interp.linear_new",
    "Verif.Interp.linear_between",
    "Verif.Interp.linear_interpolates",
    "Verif.Interp.linear_outside",
    "Verif.Interp.lineThrough_between",
    "Verif.Interp.linear_continuous",
    "Verif.Interp.linear_error",
    "Verif.Interp.linear_decreasing",
    "Verif.Interp.linear_decreasing_zero",
    "Verif.Interp.linear_short_values"
   ],
   "note": "For increasing tables, as the documentation requires. A decreasing table is accepted but gives zero everywhere without extrapolation (linear_decreasing_zero), and a short vector of values is read out of bounds (linear_short_values)."
  },
  {
   "property": "C82",
   "status": "proved",
   "theorems": [
    "Verif.Interp.poly_value",
    "Verif.Interp.poly_total",
    "Verif.Interp.poly_estimate",
    "Verif.Interp.poly_exact",
    "Verif.Interp.locate_node",
    "Verif.Interp.poly_interpolates",
    "Verif.Interp.poly_error"
   ],
   "note": "Exact real arithmetic."
  },
  {
   "property": "C83",
   "status": "proved",
   "theorems": [
    "Verif.Interp.spline_spec",
    "Verif.Interp.spline_getSecond",
    "Verif.Interp.spline_unique",
    "Verif.Interp.spline_exact",
    "Verif.Interp.spline_least",
    "Verif.Interp.spline_extrapolates",
    "Verif.Interp.spline_integrate",
    "Verif.Interp.spline_integrate_decreasing",
    "Verif.Interp.spline_error"
   ],
   "note": "Uniqueness, least curvature, the integral and the error bounds are for increasing tables; Integrate throws for every decreasing one (spline_integrate_decreasing)."
  },
  {
   "property": "C84",
   "status": "proved",
   "theorems": [
    "Verif.Interp.bary_new_errors",
    "Verif.Interp.bary_spec",
    "Verif.Interp.bary_exact",
    "Verif.Interp.bary_blend",
    "Verif.Interp.bary_full",
    "Verif.Interp.bary_getWeight",
    "Verif.Interp.bary_unsorted_pole",
    "Verif.Interp.bary_repeated",
    "Verif.Interp.bary_zero_not_constant",
    "Verif.Interp.bary_one_not_linear"
   ],
   "note": "Points out of order can have a pole (bary_unsorted_pole) and repeated ones divide by zero (bary_repeated); orders 0 and 1 are not the piecewise constant and linear functions of the documentation."
  },
  {
   "property": "C85",
   "status": "partial",
   "theorems": [
    "Verif.Interp.rat_node",
    "Verif.Interp.rat_total",
    "Verif.Interp.rat_two",
    "Verif.Interp.reciprocalLine_line"
   ],
   "note": "Values at the points, termination and absence of undefined behaviour are proved for any number of points; which rational function is computed only for two points (up to the constant 1e-99 added by the code)."
  },
  {
   "property": "C86",
   "status": "proved",
   "theorems": [
    "Verif.Interp.bilinear_spec",
    "Verif.Interp.bilinear_derivs",
    "Verif.Interp.bilinear_between",
    "Verif.Interp.bilinear_error",
    "Verif.Interp.bilinear_exact",
    "Verif.Interp.bilinear_shape",
    "Verif.Interp.bilinear_single",
    "Verif.Interp.bicubic_spec",
    "Verif.Interp.bicubic_shape",
    "Verif.Interp.bicubic_unique",
    "Verif.Interp.bicubic_exact"
   ],
   "note": "The matrix is taken not to change while a BilinearInterp2D, which keeps a reference, is in use. Uniqueness and reproduction for the bicubic spline are for increasing grids, on the rectangle."
  },
  {
   "property": "C87",
   "status": "partial",
   "theorems": [
    "Verif.Interp.linCurve_spec",
    "Verif.Interp.linCurve_closed",
    "Verif.Interp.linCurve_closed_gap",
    "Verif.Interp.linCurve_few",
    "Verif.Interp.splineCurve_open",
    "Verif.Interp.splineCurve_closed",
    "Verif.Interp.splineCurve_range",
    "Verif.Interp.splineCurve_range_outside",
    "Verif.Interp.splineCurve_repeated",
    "Verif.Interp.splineCurve_shape"
   ],
   "note": "Open curves on any range, closed ones on [0,1]. False for closed curves otherwise: the linear one has a gap (linCurve_closed_gap), the spline on another range does not go round (splineCurve_range, splineCurve_range_outside)."
  },
  {
   "property": "C88",
   "status": "partial",
   "theorems": [
    "Verif.ODE.euler_global_order",
    "Verif.ODE.eulerCromer_global_order",
    "Verif.ODE.midpoint_global_order",
    "Verif.ODE.rk4_global_order",
    "Verif.ODE.cashKarp_global_order",
    "Verif.ODE.dormandPrince5_global_order",
    "Verif.ODE.dormandPrince8_global_order_partial",
    "Verif.ODE.verlet_global_order",
    "Verif.ODE.leapfrog_global_order",
    "Verif.ODE.eulerCromer_local_orders",
    "Verif.ODE.cashKarp_local_orders",
    "Verif.ODE.dormandPrince5_local_orders",
    "Verif.ODE.dormandPrince8_local_orders_partial"
   ],
   "note": "Proved in full for all methods but DormandPrince8. Its decimal coefficients meet the order conditions up to 1e-16 only (checked exhaustively on all trees): the bound is then a constant times |h|^8 + 1e-16, and needs bounded derivatives."
  },
  {
   "property": "C89",
   "status": "proved",
   "theorems": [
    "Verif.ODE.fixed_stores",
    "Verif.ODE.fixed_restart",
    "Verif.ODE.fixed_linear_invariant",
    "Verif.ODE.fixed_wrong_dimension",
    "Verif.ODE.fixed_rejects"
   ],
   "note": "100000 steps or more are refused, because the solution object stores the states in a matrix."
  },
  {
   "property": "C90",
   "status": "partial",
   "theorems": [
    "Verif.ODE.verlet_eq_leapfrog",
    "Verif.ODE.verlet_formula",
    "Verif.ODE.verlet_reversible",
    "Verif.ODE.verlet_symplectic",
    "Verif.ODE.verlet_oscillator",
    "Verif.ODE.verlet_velocity_dependent_not_second_order",
    "Verif.ODE.verlet_odd_dimension_ignored",
    "Verif.ODE.verlet_odd_dimension_wrong"
   ],
   "note": "The last sentence of the property is false: in an odd dimension the last component is never written (verlet_odd_dimension_ignored, verlet_odd_dimension_wrong), and with velocity-dependent acceleration the methods are first order (verlet_velocity_dependent_not_second_order)."
  },
  {
   "property": "C91",
   "status": "partial",
   "theorems": [
    "Verif.ODE.solution_read_back",
    "Verif.ODE.solution_final_size",
    "Verif.ODE.solution_overwrite",
    "Verif.ODE.solution_rejects",
    "Verif.ODE.solution_far_write_ub",
    "Verif.ODE.solution_times_unused_tail"
   ],
   "note": "The last sentence is false: an index beyond one and a half times the capacity is written out of bounds (solution_far_write_ub), and getTValues returns the unused tail (solution_times_unused_tail)."
  },
  {
   "property": "C92",
   "status": "partial",
   "theorems": [
    "Verif.ODE.dp5_step",
    "Verif.ODE.ck_step",
    "Verif.ODE.dp5_dense",
    "Verif.ODE.ck_dense",
    "Verif.ODE.dp5_negative_tolerance",
    "Verif.ODE.interpolate_before_step",
    "Verif.ODE.dp5_short_steps",
    "Verif.ODE.dp8_first_step_partial",
    "Verif.ODE.dp8_wrong_derivative"
   ],
   "note": "Proved for Dormand-Prince 5 and Cash-Karp. The eighth-order stepper reuses its last stage as the derivative at the new point, which it is not: dp8_wrong_derivative; only its first step is proved."
  },
  {
   "property": "C93",
   "status": "partial",
   "theorems": [
    "Verif.ODE.bs_step_partial",
    "Verif.ODE.bsRational_step_partial",
    "Verif.ODE.bs_short_steps_partial",
    "Verif.ODE.bs_wrong_extrapolation"
   ],
   "note": "The extrapolation in the code is wrong (bs_wrong_extrapolation): an accepted step has an error of third order. Termination, the accept and reject behaviour, the derivative and the dense output are proved."
  },
  {
   "property": "C94",
   "status": "partial",
   "theorems": [
    "Verif.ODE.dp5_integrate",
    "Verif.ODE.ck_integrate",
    "Verif.ODE.bs_integrate_partial",
    "Verif.ODE.dp5_integrateAt",
    "Verif.ODE.ck_integrateAt",
    "Verif.ODE.bs_integrateAt_partial",
    "Verif.ODE.integrateAt_few_times",
    "Verif.ODE.every_output_time",
    "Verif.ODE.backward_takes_no_step",
    "Verif.ODE.output_time_skipped",
    "Verif.ODE.throws_after_last_step",
    "Verif.ODE.still_integrated"
   ],
   "note": "Proved for Dormand-Prince 5 and Cash-Karp forwards in time, with the exact set of output times delivered. False in general: an output time at most Eps after the end of a step is skipped (output_time_skipped; every_output_time says there are no other gaps), backward integration takes no step (backward_takes_no_step), and the smallest step is tested after the last step too (throws_after_last_step). With the Bulirsch-Stoer steppers the steps are not within the tolerance (C93)."
  },
  {
   "property": "C95",
   "status": "partial",
   "theorems": [
    "Verif.Roots.quadratic_partial",
    "Verif.Roots.quadratic_double_zero",
    "Verif.Roots.quadratic_linear",
    "Verif.Roots.quadratic_small",
    "Verif.Roots.quadratic_complex",
    "Verif.Roots.cubic_partial",
    "Verif.Roots.cubic_double_root",
    "Verif.Roots.cubic_degenerate",
    "Verif.Roots.quartic_partial",
    "Verif.Roots.quartic_small",
    "Verif.Roots.quartic_degenerate"
   ],
   "note": "All roots, proved for leading coefficients of absolute value at least Eps. The quartic is exact when the linear coefficient of the depressed quartic is zero or above Eps, else up to a perturbation of this coefficient by at most Eps. False: a x^2 = 0 divides zero by zero (quadratic_double_zero), small coefficients are dropped (quadratic_small, quartic_small), the count of real roots of a cubic with a double root is 1 (cubic_double_root)."
  },
  {
   "property": "C96",
   "status": "partial",
   "theorems": [
    "Verif.Roots.laguerre_partial",
    "Verif.Roots.laguerre_linear",
    "Verif.Roots.laguerre_small"
   ],
   "note": "The precise form is proved. Closeness of the numbers to roots of the given polynomial is false: a polynomial with coefficients below the tolerance is taken for zero at the starting point (laguerre_small), and Newton steps and deflation give no bound."
  },
  {
   "property": "C97",
   "status": "partial",
   "theorems": [
    "Verif.Roots.bairstow_partial",
    "Verif.Roots.bairstow_quadratic",
    "Verif.Roots.bairstow_missing"
   ],
   "note": "The precise form is proved. For odd degree and a leading coefficient of at most 1e-12 the last root is not returned (bairstow_missing)."
  },
  {
   "property": "C98",
   "status": "partial",
   "theorems": [
    "Verif.LinAlg.QR.qr_factor",
    "Verif.LinAlg.QR.qr_wide",
    "Verif.LinAlg.QR.qr_multiply",
    "Verif.LinAlg.QR.qr_leastSquares",
    "Verif.LinAlg.QR.qr_square",
    "Verif.LinAlg.QR.qr_singular",
    "Verif.LinAlg.QR.qr_refuses",
    "Verif.LinAlg.QR.zero11_unreported",
    "Verif.LinAlg.QR.small_reported",
    "Verif.LinAlg.QR.empty_ub"
   ],
   "note": "Proved for matrices not reported singular. The reporting is not exact: the 1x1 zero matrix is not reported and Solve divides by zero (zero11_unreported), and independent columns are reported when they are within an absolute tolerance of dependence (small_reported, qr_singular); then det is 0 and Solve throws. A matrix without elements is undefined behaviour (empty_ub)."
  },
  {
   "property": "C99",
   "status": "partial",
   "theorems": [
    "Verif.LinAlg.Iter.jacobi_run",
    "Verif.LinAlg.Iter.gaussSeidel_run",
    "Verif.LinAlg.Iter.sor_run",
    "Verif.LinAlg.Iter.iter_refuses",
    "Verif.LinAlg.Iter.simple_iff",
    "Verif.LinAlg.Iter.jacobi_converges",
    "Verif.LinAlg.Iter.gaussSeidel_converges",
    "Verif.LinAlg.Iter.sor_converges",
    "Verif.LinAlg.Iter.sorOptimal_eq",
    "Verif.LinAlg.Iter.sorOptimal_converges",
    "Verif.LinAlg.Iter.estimateOmega_min",
    "Verif.LinAlg.Iter.estimateOmega_zero",
    "Verif.LinAlg.Iter.jacobi_spd_diverges"
   ],
   "note": "Everything proved but convergence of Jacobi's method for symmetric positive definite matrices, which is false (jacobi_spd_diverges), and SolveOptimal for a single unknown, where the factor is 2 up to rounding. Without convergence the count of iterations is one more than were made; EstimateOptimalOmega with no samples divides zero by zero (estimateOmega_zero)."
  }
 ]
}