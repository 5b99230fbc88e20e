{"id": "C01", "title": "Polynomial evaluation returns the true derivative", "statement": "For a polynomial built from coefficients c_0..c_{N-1} (N at most 22), evaluate(t, k) returns the k-th derivative at t of the function t -> sum_j c_j t^j, for every derivative order k >= 0 including orders at or above N, where it returns 0; evaluate into a result vector of length at most N returns the derivatives 0..len-1 at t, a longer one aborts.", "quantifier": "every coefficient vector, every time t, every derivative order k and every result length", "why_tests_cant": "The claim is about infinitely many real arguments and all coefficient vectors and orders; a test samples a few of them.", "anchors": ["mav_trajectory_generation/include/mav_trajectory_generation/polynomial.h: Polynomial::evaluate", "mav_trajectory_generation/src/polynomial.cpp: computeBaseCoefficients"]}
{"id": "C02", "title": "Derivative coefficients agree with evaluation", "statement": "getCoefficients(k) returns, for every 0 <= k <= N, a vector of length N that holds the coefficients of the k-th derivative padded with zeros, so that reading it as a polynomial gives the same function as evaluate(t, k); k > N aborts. (The table of factors has 22 rows: for N = k = 22 it is read past its end.)", "quantifier": "every coefficient vector with N <= 22 and every derivative order k <= 21", "why_tests_cant": "A test compares one derivative of one polynomial; the claim relates two functions for all orders and all coefficient vectors at once, including orders beyond the degree.", "anchors": ["mav_trajectory_generation/include/mav_trajectory_generation/polynomial.h: Polynomial::getCoefficients"]}
{"id": "C03", "title": "Polynomial arithmetic is function arithmetic", "statement": "p + q evaluates to p(t) + q(t), the scalar product to a*p(t), and the convolution product p * q has N_p + N_q - 1 coefficients and evaluates to p(t)*q(t) for every t, for every pair of lengths; p == q (for equal lengths; sums and comparisons of different lengths, and the product of two empty polynomials, are undefined) holds exactly when the coefficient vectors are the same.", "quantifier": "all pairs of polynomials, all lengths, all times", "why_tests_cant": "Equality of functions on all arguments for all sizes cannot be enumerated.", "anchors": ["mav_trajectory_generation/include/mav_trajectory_generation/polynomial.h: operator+, operator*, operator==", "mav_trajectory_generation/src/polynomial.cpp: Polynomial::convolve"]}
{"id": "C04", "title": "Polynomial re-parametrisations preserve the curve", "statement": "scalePolynomialInTime(s) turns p(t) into p(s*t) with the k-th derivative multiplied by s^k; offsetPolynomial(o) turns p(t) into p(t)+o and leaves every derivative alone; getPolynomialWithAppendedCoefficients(M) succeeds exactly for M >= N and yields a polynomial with M coefficients equal to p as a function in all derivatives.", "quantifier": "all coefficient vectors, scale factors, offsets, new lengths, times and derivative orders", "why_tests_cant": "Equality of two curves at every real argument, for every length and factor; a test only sees single arguments, and wrong powers agree at 0 and 1.", "anchors": ["mav_trajectory_generation/src/polynomial.cpp: scalePolynomialInTime, offsetPolynomial, getPolynomialWithAppendedCoefficients"]}
{"id": "C05", "title": "The base-coefficient row reproduces evaluation", "statement": "The row returned by baseCoeffsWithTime(N, k, t), multiplied with a coefficient vector, equals the k-th derivative at t of that polynomial, for every t; orders outside 0..N-1 abort.", "quantifier": "all N, orders, times and coefficient vectors", "why_tests_cant": "The code short-cuts |t| below machine epsilon, a set of times a test does not hit; the claim is about all t.", "anchors": ["mav_trajectory_generation/include/mav_trajectory_generation/polynomial.h: baseCoeffsWithTime"]}
{"id": "C06", "title": "computeMinMax returns the true extrema on the interval", "statement": "Given a root finder that reports every real root of the derivative, computeMinMax(t_start, t_end, k) returns a minimum and a maximum of the k-th derivative over the closed interval: both times lie in the interval, both values are attained there, and no value on the interval lies outside them. It fails when t_start > t_end or k >= N. (N = 22 with k = 21 reads past the table of factors.)", "quantifier": "all polynomials with at most 22 coefficients, all intervals, all derivative orders k <= 20, all complete root finders", "why_tests_cant": "It is a statement about all points of a continuum for all polynomials.", "anchors": ["mav_trajectory_generation/src/polynomial.cpp: computeMinMax, selectMinMaxFromRoots, computeMinMaxCandidates, selectMinMaxFromCandidates"]}
{"id": "C07", "title": "Extremum candidates are safe whatever the root finder returns", "statement": "For t_start <= t_end the candidate list starts with t_start and t_end, contains only times in [t_start, t_end], contains every reported real root lying in the interval, and nothing else; for t_start > t_end the call fails. Hence the returned minimum is never above and the maximum never below the endpoint values even if the root finder fails or returns garbage.", "quantifier": "all root lists (including wrong ones), all intervals", "why_tests_cant": "The list of roots is produced by a numerical routine; a test only sees the roots of its own polynomials, never a wrong, complex, repeated or out-of-range root.", "anchors": ["mav_trajectory_generation/src/polynomial.cpp: selectMinMaxCandidatesFromRoots"]}
{"id": "C08", "title": "Trajectory bookkeeping invariant", "statement": "After any sequence of setSegments, addSegments, clear, scaleSegmentTimes, offsetTrajectory and addTrajectories calls that does not abort, getMaxTime() is the sum of the segment times, getSegmentTimes() lists them in order, K() is the number of segments, and every segment has the trajectory's D and N.", "quantifier": "all operation histories with all arguments", "why_tests_cant": "Call histories are unbounded; a cached duration that goes stale only shows in the histories nobody thought of.", "anchors": ["mav_trajectory_generation/include/mav_trajectory_generation/trajectory.h: setSegments, addSegments, clear", "mav_trajectory_generation/src/trajectory.cpp"]}
{"id": "C09", "title": "Trajectory evaluation picks the right segment", "statement": "For 0 <= t <= getMaxTime(), evaluate(t, k) is the k-th derivative of the segment that contains t, evaluated at the time since that segment's start; at an interior vertex the later segment is used, at the final time the last one, and for t > getMaxTime() the result is the zero vector.", "quantifier": "all non-empty trajectories, all times, all derivative orders", "why_tests_cant": "Needs every time, in particular every segment boundary, for every number of segments.", "anchors": ["mav_trajectory_generation/src/trajectory.cpp: Trajectory::evaluate"]}
{"id": "C10", "title": "Derivatives of a trajectory are consistent", "statement": "Inside every segment the (k+1)-th derivative reported by evaluate is the derivative with respect to time of the k-th one, and if adjacent segments agree at their common vertex up to order k then the k-th derivative is a continuous function of time on the whole of [0, getMaxTime()].", "quantifier": "all trajectories, all times, all orders", "why_tests_cant": "Continuity and differentiability are limits over a continuum.", "anchors": ["mav_trajectory_generation/src/trajectory.cpp: Trajectory::evaluate"]}
{"id": "C11", "title": "evaluateRange returns samples at the reported, requested times", "statement": "evaluateRange(t_start, t_end, dt, k) returns samples at t_start, t_start+dt, ... below t_end, each reported with its own sampling time and equal to evaluate at that time.", "quantifier": "all trajectories, ranges, sampling intervals and orders", "why_tests_cant": "The reported times are only wrong when t_start is inside a segment, which the existing tests do not use; the claim ranges over all ranges and segment layouts.", "anchors": ["mav_trajectory_generation/src/trajectory.cpp: Trajectory::evaluateRange"]}
{"id": "C12", "title": "evaluateRange never reads outside the segment list and terminates", "statement": "For every non-empty trajectory and every 0 <= t_start <= t_end <= getMaxTime() and dt > 0 the call terminates and reads only existing segments.", "quantifier": "all trajectories, ranges and sampling intervals", "why_tests_cant": "Out-of-bounds reads may go unnoticed in a test run and only occur for special arguments.", "anchors": ["mav_trajectory_generation/src/trajectory.cpp: Trajectory::evaluateRange"]}
{"id": "C13", "title": "Extracting a single dimension keeps the motion", "statement": "getTrajectoryWithSingleDimension(d) returns a one-dimensional trajectory with the same duration whose value at each time is component d of the original.", "quantifier": "all trajectories, dimensions and times", "why_tests_cant": "Equality of functions of time for all trajectories and dimensions, including the cached sizes that later calls rely on.", "anchors": ["mav_trajectory_generation/src/trajectory.cpp: getTrajectoryWithSingleDimension", "mav_trajectory_generation/src/segment.cpp: getSegmentWithSingleDimension"]}
{"id": "C14", "title": "Appending dimensions keeps both motions", "statement": "getTrajectoryWithAppendedDimension(other) succeeds when the numbers of segments agree and returns a trajectory whose first components are the original motion and whose last components are the other motion, stretched to the longer of the two segment times.", "quantifier": "all pairs of trajectories with any N, D and segment times", "why_tests_cant": "The faulty combination (different N and different times) is one of four branches over a continuum of inputs.", "anchors": ["mav_trajectory_generation/src/trajectory.cpp: getTrajectoryWithAppendedDimension", "mav_trajectory_generation/src/segment.cpp: getSegmentWithAppendedDimension"]}
{"id": "C15", "title": "addTrajectories concatenates in time", "statement": "addTrajectories(list, merged) returns true exactly when all trajectories have the D and N of the first; then merged runs through this trajectory and then each listed one in order: its duration is the sum of durations, its segments are the concatenation, and at a time inside the i-th part it takes the value of that part at the local time.", "quantifier": "all lists of trajectories, all times", "why_tests_cant": "Number of trajectories, of segments and the times are unbounded; boundaries between the parts are single points a test rarely hits.", "anchors": ["mav_trajectory_generation/src/trajectory.cpp: addTrajectories"]}
{"id": "C16", "title": "offsetTrajectory translates positions and nothing else", "statement": "offsetTrajectory(o) returns false and changes nothing if o has fewer than min(D,3) entries; otherwise the position components 0..min(D,3)-1 are shifted by o at every time, other components, all derivatives and all segment times stay the same.", "quantifier": "all trajectories, offsets, times, derivative orders", "why_tests_cant": "The offset must change values of order zero only, at every time of a continuum and for every order.", "anchors": ["mav_trajectory_generation/src/trajectory.cpp: offsetTrajectory", "mav_trajectory_generation/src/segment.cpp: offsetSegment"]}
{"id": "C17", "title": "Time scaling law", "statement": "scaleSegmentTimes(s) returns false and changes nothing for s < 1e-6; otherwise every segment time and the duration are multiplied by s and evaluate(s*t, k) after the call equals evaluate(t, k) before it divided by s^k, for all t and k; scaling by a and then by b equals scaling by a*b.", "quantifier": "all trajectories, factors, times and orders", "why_tests_cant": "A law for all real factors, times and orders, and for repeated scaling; a test fixes one factor.", "anchors": ["mav_trajectory_generation/src/trajectory.cpp: scaleSegmentTimes"]}
{"id": "C18", "title": "scaleSegmentTimesToMeetConstraints meets the constraints", "statement": "With positive limits and a complete root finder the call returns true, the resulting trajectory is a slowed-down (never sped-up) copy of the original with the same geometric path, and its velocity and acceleration magnitudes are at every time at most (1 + 1e-3) times the limits; the slow-down is none or the smallest that meets both limits.", "quantifier": "all trajectories, all positive limits, all complete root finders", "why_tests_cant": "The bound is over every instant of every trajectory and the loop could in principle run 20 iterations without success.", "anchors": ["mav_trajectory_generation/src/trajectory.cpp: scaleSegmentTimesToMeetConstraints, computeMaxVelocityAndAcceleration"]}
{"id": "C19", "title": "computeMinMaxMagnitude returns the true extrema of the norm", "statement": "Given a complete root finder, the trajectory-level computeMinMaxMagnitude for a derivative and a set of dimensions returns a minimum and maximum of the Euclidean norm of the selected components over the whole trajectory: attained in the reported segment at the reported time, and bounding the norm at every time.", "quantifier": "all trajectories, dimension sets, derivative orders and complete root finders", "why_tests_cant": "A bound over a continuum of times; a test can only compare with finitely many samples.", "anchors": ["mav_trajectory_generation/src/trajectory.cpp: computeMinMaxMagnitude", "mav_trajectory_generation/src/segment.cpp: computeMinMaxMagnitudeCandidateTimes, computeMinMaxMagnitudeCandidates, selectMinMaxMagnitudeFromCandidates"]}
{"id": "C20", "title": "Vertices extracted from a trajectory reproduce it", "statement": "getVertexAtTime(t, m) has exactly the constraints 0..m and each equals evaluate(t, order); getVertices(m) returns K+1 vertices, the j-th taken at the start time of segment j (the last one at the end); the position/yaw form splits every one of them into dimensions 0..2 and dimension 3, with the respective maximal orders, and returns false for fewer than four dimensions.", "quantifier": "all trajectories with at least one segment, all times, all maximal orders of at least zero", "why_tests_cant": "The extracted vertices must agree with the trajectory for every time and every order, at all segment boundaries at once.", "anchors": ["mav_trajectory_generation/src/trajectory.cpp: getVertexAtTime, getStartVertex, getGoalVertex, getVertices"]}
{"id": "C21", "title": "Empty trajectories and out-of-range times are handled without undefined behaviour", "statement": "evaluate never reads outside the segment list: for every trajectory, including a default-constructed one, and every time it returns a value.", "quantifier": "all trajectories including the empty one, all times", "why_tests_cant": "An out-of-bounds read may return plausible numbers in a test run and need not crash.", "anchors": ["mav_trajectory_generation/src/trajectory.cpp: Trajectory::evaluate"]}
{"id": "C22", "title": "Vertex constraints behave as a map", "statement": "After any history of addConstraint, removeConstraint and makeStartOrEnd calls, getConstraint(k) returns the most recently written value for k that was not removed, hasConstraint(k) says whether there is one, removeConstraint reports whether there was one, and a value of the wrong dimension aborts.", "quantifier": "all call histories, all derivative orders and values", "why_tests_cant": "Histories of additions and removals are unbounded; a test executes a few of them.", "anchors": ["mav_trajectory_generation/src/vertex.cpp: addConstraint, removeConstraint, getConstraint, hasConstraint, makeStartOrEnd"]}
{"id": "C23", "title": "Tolerance equality of vertices is reflexive and symmetric and means what it says", "statement": "For tol >= 0, isEqualTol(a, b, tol) holds exactly when both have the same dimension and the same set of constrained derivatives and all entries differ by at most tol; it is reflexive and symmetric and monotone in tol.", "quantifier": "all pairs of vertices, all tolerances", "why_tests_cant": "A statement about all pairs of vertices, in particular those whose sets of constraints overlap only partly or whose dimensions differ.", "anchors": ["mav_trajectory_generation/src/vertex.cpp: isEqualTol"]}
{"id": "C24", "title": "getSubdimension projects constraints", "statement": "getSubdimension(dims, m) returns false if a requested dimension does not exist (the output is then a vertex without constraints); otherwise the result has exactly the constraints with order at most m, each restricted to the selected entries in the selected order.", "quantifier": "all vertices, dimension lists and maximal orders", "why_tests_cant": "All constraint maps, dimension lists with repetitions and in any order, and all maximal orders.", "anchors": ["mav_trajectory_generation/src/vertex.cpp: getSubdimension"]}
{"id": "C25", "title": "Time estimates are usable", "statement": "estimateSegmentTimesVelocityRamp returns one time per consecutive vertex pair, each at least 0.1 s and at least the time needed to cover the distance at v_max; increasing the time factor increases the times.", "quantifier": "all vertex lists, positive v_max, a_max", "why_tests_cant": "A lower bound for all real positions and limits; the failing parameters need not be among the tested ones.", "anchors": ["mav_trajectory_generation/src/vertex.cpp: estimateSegmentTimes, estimateSegmentTimesVelocityRamp, computeTimeVelocityRamp"]}
{"id": "C26", "title": "The velocity-ramp time is the minimum time for a rest-to-rest motion", "statement": "computeTimeVelocityRamp(start, goal, v_max, a_max) equals the least time in which a point can move from rest at start to rest at goal with speed at most v_max and acceleration at most a_max: a trapezoidal or triangular profile achieves it, and no motion does it faster.", "quantifier": "all positions, limits and all admissible motions", "why_tests_cant": "Optimality is a claim about every admissible motion, a test cannot try them.", "anchors": ["mav_trajectory_generation/src/vertex.cpp: computeTimeVelocityRamp"]}
{"id": "C27", "title": "Nfabian time estimates can be fed to the optimiser", "statement": "estimateSegmentTimes and estimateSegmentTimesNfabian return one positive time per consecutive vertex pair, at least 2*distance/v_max, so that the optimiser accepts them.", "quantifier": "all vertex lists and positive parameters", "why_tests_cant": "All real positions including coincident ones and vertices without a position; the failing inputs form a set of measure zero.", "anchors": ["mav_trajectory_generation/src/vertex.cpp: estimateSegmentTimesNfabian", "mav_trajectory_generation/include/mav_trajectory_generation/impl/polynomial_optimization_linear_impl.h: updateSegmentTimes"]}
{"id": "C28", "title": "The mapping matrix evaluates end-point derivatives and is invertible", "statement": "setupMappingMatrix(T) times a coefficient vector lists the derivatives 0..N/2-1 at 0 and then at T; for every T > 0 accepted by the optimiser invertMappingMatrix returns its two-sided inverse, so end-point derivatives determine the polynomial uniquely.", "quantifier": "all even N, all T > 0, all coefficient vectors", "why_tests_cant": "Invertibility for every real duration and every number of coefficients; near-singular durations are not tested.", "anchors": ["mav_trajectory_generation/include/mav_trajectory_generation/impl/polynomial_optimization_linear_impl.h: setupMappingMatrix, invertMappingMatrix"]}
{"id": "C29", "title": "Constraint bookkeeping of the optimiser", "statement": "For every vertex list, the number of fixed plus free end-point derivatives is (number of vertices)*N/2, and the reordering matrix assigns to every segment end-point derivative exactly one of them: the fixed value of the vertex when the vertex constrains that derivative, and one shared free variable per vertex and derivative otherwise.", "quantifier": "all vertex lists, constraint patterns and even N", "why_tests_cant": "All patterns of constraints and all numbers of vertices; the index arithmetic can be wrong for one pattern only.", "anchors": ["mav_trajectory_generation/include/mav_trajectory_generation/impl/polynomial_optimization_linear_impl.h: setupConstraintReorderingMatrix, getMpinv"]}
{"id": "C30", "title": "The optimised trajectory meets all vertex constraints", "statement": "After setupFromVertices and any of solveLinear or setFreeConstraints, at every vertex every fixed derivative of order at most N/2-1 has the prescribed value, on the segment before and on the segment after the vertex.", "quantifier": "all vertex lists, segment times of at least the machine epsilon 2^-52 s (see C28 for smaller ones), free variables", "why_tests_cant": "All problems of all sizes, all patterns of constraints and all values of the free variables.", "anchors": ["mav_trajectory_generation/include/mav_trajectory_generation/impl/polynomial_optimization_linear_impl.h: setupFromVertices, updateSegmentsFromCompactConstraints, solveLinear, setFreeConstraints"]}
{"id": "C31", "title": "The optimised trajectory is continuous up to order N/2-1", "statement": "After setupFromVertices and any of solveLinear or setFreeConstraints, at every interior vertex the derivatives 0..N/2-1 of the two adjacent segments agree, whatever the free variables are.", "quantifier": "all vertex lists, segment times of at least the machine epsilon 2^-52 s (see C28 for smaller ones), free variables", "why_tests_cant": "Agreement of derivatives at every interior vertex for every problem and every choice of the free variables.", "anchors": ["mav_trajectory_generation/include/mav_trajectory_generation/impl/polynomial_optimization_linear_impl.h: updateSegmentsFromCompactConstraints"]}
{"id": "C32", "title": "The quadratic cost is the integral of the squared derivative", "statement": "c^T Q c / 2 with the cost matrix for (derivative k, segment time T) equals the integral over [0,T] of the square of the k-th derivative of the polynomial, and computeCost is the sum of those over all segments and dimensions.", "quantifier": "all coefficient vectors, N, k < N, T >= 0", "why_tests_cant": "Equality with an integral for all coefficients and durations; a numerical quadrature only compares within a tolerance.", "anchors": ["mav_trajectory_generation/include/mav_trajectory_generation/impl/polynomial_optimization_linear_impl.h: computeQuadraticCostJacobian, computeCost"]}
{"id": "C33", "title": "solveLinear is globally optimal", "statement": "If the linear solver solves the normal equations, then among all piecewise polynomials with N coefficients per segment, the given segment times, the prescribed vertex constraints and continuity up to order N/2-1, none has a smaller cost than the one solveLinear produces; the normal equations always have a solution.", "quantifier": "all vertex lists, segment times of at least the machine epsilon 2^-52 s, and all competing trajectories", "why_tests_cant": "Optimality over an infinite-dimensional set of competitors.", "anchors": ["mav_trajectory_generation/include/mav_trajectory_generation/impl/polynomial_optimization_linear_impl.h: constructR, solveLinear"]}
{"id": "C34", "title": "Re-using an optimiser object does not leak state", "statement": "After setupFromVertices and solveLinear the result depends only on the arguments of that last setup, not on problems solved before with the same object.", "quantifier": "all pairs of successive problems", "why_tests_cant": "The result must not depend on what was done before with the object; histories are unbounded and the leak shows only for special pairs of problems.", "anchors": ["mav_trajectory_generation/include/mav_trajectory_generation/impl/polynomial_optimization_linear_impl.h: setupFromVertices, solveLinear, updateSegmentsFromCompactConstraints"]}
{"id": "C35", "title": "YAML round trip of trajectories", "statement": "trajectoryFromYaml(trajectoryToYaml(x)) succeeds for every non-empty trajectory and gives back the same polynomials, D and N, and segment times that are the originals truncated to whole nanoseconds (error below 1 ns).", "quantifier": "all trajectories with at least one segment and one dimension whose segments are well formed (numbers that fit their C++ types)", "why_tests_cant": "All trajectories; truncation of times shows only for times that are not whole nanoseconds.", "anchors": ["mav_trajectory_generation/src/io.cpp", "mav_trajectory_generation/include/mav_trajectory_generation/segment.h: getTimeNSec, setTimeNSec"]}
{"id": "C36", "title": "YAML loading rejects malformed input", "statement": "trajectoryFromYaml returns false, without aborting or throwing, for every node that does not describe a trajectory, and whenever it returns true every segment's polynomials have the announced N coefficients and there are the announced D of them.", "quantifier": "all YAML nodes", "why_tests_cant": "Malformed inputs form an infinite tree-shaped set.", "anchors": ["mav_trajectory_generation/src/io.cpp: segmentFromYaml, segmentsFromYaml, trajectoryFromYaml"]}
{"id": "C37", "title": "ROS message round trip of trajectories", "statement": "For D in {3,4,6} and N >= 1 converting a trajectory to a polynomial trajectory message and back gives the same polynomials and times truncated to nanoseconds; other D are rejected with an empty message.", "quantifier": "all trajectories with at least one segment whose segment times fit into a ROS duration", "why_tests_cant": "All trajectories, numbers of coefficients and dimensions; truncation of times shows only for times that are not whole nanoseconds.", "anchors": ["mav_trajectory_generation_ros/src/ros_conversions.cpp"]}
{"id": "C38", "title": "Sampling returns the state at the requested time", "statement": "sampleTrajectoryAtTime succeeds exactly for 0 <= t <= getMaxTime() and D >= 3, and then position, velocity, acceleration, jerk and snap are components 0..2 of the derivatives 0..4 at t, yaw comes from component 3 when D = 4, and the time stamp is t in nanoseconds.", "quantifier": "all trajectories, all times that can be stored in nanoseconds in 64 bits", "why_tests_cant": "All times and trajectories, in particular the first and the last instant and times just outside.", "anchors": ["mav_trajectory_generation/src/trajectory_sampling.cpp: sampleTrajectoryAtTime, sampleFlatStateAtTime, sampleTrajectoryInRange, sampleWholeTrajectory"]}
{"id": "C39", "title": "Recursive feasibility check: feasible means feasible", "statement": "If the recursive checker returns feasible for a segment (with complete roots), then at every time of the segment thrust lies within its limits, speed is at most v_max, the roll/pitch rate bound jerk/thrust is at most the limit, and yaw rate and acceleration are within their limits.", "quantifier": "all segments, limits, gravity vectors, section times, complete root finders", "why_tests_cant": "No false positives is a statement about every instant of every segment.", "anchors": ["mav_trajectory_generation_ros/src/feasibility_recursive.cpp: checkInputFeasibility, recursiveFeasibility"]}
{"id": "C40", "title": "Recursive feasibility check: infeasible verdicts are genuine", "statement": "If the recursive checker returns 'infeasible due to thrust high/low, velocity, yaw rate or yaw acceleration', there is a time in the segment at which that limit is violated.", "quantifier": "all segments, limits, gravity vectors, section times, complete root finders", "why_tests_cant": "No false negatives is a statement about all segments.", "anchors": ["mav_trajectory_generation_ros/src/feasibility_recursive.cpp: checkInputFeasibility, recursiveFeasibility"]}
{"id": "C41", "title": "Recursive feasibility check terminates", "statement": "With a positive minimum section time the recursion depth is bounded by log2(duration/min_section_time)+1 and a verdict is always produced.", "quantifier": "all segments and positive section times", "why_tests_cant": "Termination for all inputs; a test that does not terminate for some input is never run on it.", "anchors": ["mav_trajectory_generation_ros/src/feasibility_recursive.cpp: recursiveFeasibility"]}
{"id": "C42", "title": "Analytic feasibility check has no false positives", "statement": "If the analytic checker returns feasible, then at every time of the segment thrust, speed and the roll/pitch rate jerk/thrust are within their limits.", "quantifier": "all segments, limits, gravity vectors, complete root finders", "why_tests_cant": "A statement about every instant of every segment.", "anchors": ["mav_trajectory_generation_ros/src/feasibility_analytic.cpp"]}
{"id": "C43", "title": "Half-plane feasibility is exact", "statement": "With complete roots, checkHalfPlaneFeasibility(segment) returns true exactly when every point of the segment lies strictly on the positive side of every half plane.", "quantifier": "all segments with D in {3,4} and at least one coefficient, all half planes, complete root finders", "why_tests_cant": "A verdict about every instant of every segment; a test samples some instants.", "anchors": ["mav_trajectory_generation_ros/src/feasibility_base.cpp: checkHalfPlaneFeasibility"]}
{"id": "C44", "title": "The bounding box half planes describe the box", "statement": "A point is strictly inside all half planes of createBoundingBox(center, size) exactly when every coordinate differs from the centre by less than half the size.", "quantifier": "all points, centres and positive sizes", "why_tests_cant": "An equivalence for all real points, including those on faces, edges and corners.", "anchors": ["mav_trajectory_generation_ros/src/feasibility_base.cpp: HalfPlane::createBoundingBox"]}
{"id": "C45", "title": "Trajectory feasibility is the first bad segment", "statement": "checkInputFeasibilityTrajectory returns feasible exactly when the trajectory has at least one segment and every segment is feasible; otherwise the verdict of the first non-feasible segment, and 'indeterminable' for an empty trajectory.", "quantifier": "all trajectories and all per-segment checkers", "why_tests_cant": "All lists of segments and all positions of the offending segment.", "anchors": ["mav_trajectory_generation_ros/src/feasibility_base.cpp: checkInputFeasibilityTrajectory"]}
{"id": "C46", "title": "Input constraints stay consistent over any history", "statement": "After any sequence of addConstraint, removeConstraint and setDefaultValues calls every stored limit is non-negative and, when both are present, minimum thrust does not exceed maximum thrust; a limit just added is stored as its absolute value, and limits other than the thrust partner are never touched by adding another one.", "quantifier": "all call histories and values", "why_tests_cant": "Histories of setting and removing limits are unbounded; consistency must hold after each prefix.", "anchors": ["mav_trajectory_generation_ros/src/input_constraints.cpp"]}
{"id": "C47", "title": "Timing accumulator statistics", "statement": "After adding any sequence of samples the accumulator's total, mean, minimum, maximum, sample count and rolling mean are the sum, mean, minimum, maximum and length of the whole sequence and the mean of the last min(n, window) samples.", "quantifier": "all sample sequences and window sizes", "why_tests_cant": "Unbounded histories; the ring buffer wraps around only after the window has been filled.", "anchors": ["mav_trajectory_generation/include/mav_trajectory_generation/timing.h: Accumulator"]}
{"id": "C48", "title": "Timing handles are stable and unique", "statement": "Over any history of GetHandle, AddTime and Reset calls, a tag keeps its handle until a Reset, two tags never share a handle, and every handle handed out stays a valid index.", "quantifier": "all call histories", "why_tests_cant": "Histories of requests for handles are unbounded, and so is the number of tags.", "anchors": ["mav_trajectory_generation/src/timing.cpp: Timing::GetHandle, GetTag, Reset"]}
{"id": "C49", "title": "The sampler node publishes each trajectory once, in order, and then stops", "statement": "After accepting a trajectory of duration T the timer publishes the samples at 0, dt, 2dt, ... not exceeding T, in this order and only those, then stops; a new trajectory restarts from 0, the stop service ends publication immediately, and rejected messages change nothing.", "quantifier": "all interleavings of timer ticks, messages and stop requests", "why_tests_cant": "All interleavings of messages, stop requests and timer ticks; a test executes one schedule.", "anchors": ["mav_trajectory_generation_ros/src/trajectory_sampler_node.cpp"]}
{"id": "C50", "title": "Quadratic root formula is exact", "statement": "For a != 0 or b1 != 0 the quadratic solver used by the root finder returns, in exact arithmetic, exactly the two complex roots of a z^2 + b1 z + c (one root when a = 0).", "quantifier": "all real coefficients", "why_tests_cant": "All real coefficients, with several branches that guard against overflow and that ordinary numbers do not take.", "anchors": ["mav_trajectory_generation/src/rpoly/rpoly_ak1.cpp: Quad_ak1"]}
{"id": "C51", "title": "Synthetic division used for deflation is exact", "statement": "Dividing by z^2 + u z + v yields a quotient and remainder with p(z) = q(z)(z^2+uz+v) + b(z+u) + a, and the linear deflation satisfies p(z) = q(z)(z-s) + p(s), for all polynomials and all u, v, s.", "quantifier": "all polynomials of all degrees", "why_tests_cant": "An identity of polynomials for all coefficients and all factors; a test sees single quotients.", "anchors": ["mav_trajectory_generation/src/rpoly/rpoly_ak1.cpp: QuadSD_ak1, RealIT_ak1"]}
{"id": "C52", "title": "The linear solution depends only on the problem, not on the route", "statement": "The segments computed by solveLinear depend only on the vertices and order given to the last setupFromVertices and on the segment times now in force: setting up at other times and moving to these with updateSegmentTimes, with any solveLinear, setFreeConstraints and updateSegmentTimes calls in between, gives the same segments as a direct setup.", "quantifier": "all vertex lists, all sequences of calls and segment times", "why_tests_cant": "Call histories are unbounded; time-allocation search relies on this at every iterate.", "anchors": ["mav_trajectory_generation/include/mav_trajectory_generation/impl/polynomial_optimization_linear_impl.h: updateSegmentTimes, solveLinear"]}
{"id": "C53", "title": "Trajectory files round trip and are validated", "statement": "If the file can be opened, writing segments with segmentsToFile and reading them with segmentsFromFile succeeds and gives back the segments in order, with times truncated to whole nanoseconds and coefficients as rounded by the emitter; whatever a file contains, every segment handed out by segmentsFromFile has polynomials with exactly the announced number of coefficients; a file that cannot be opened is reported by returning false.", "quantifier": "all lists of segments whose polynomials have N() coefficients, all file contents", "why_tests_cant": "All segments and all files, including files that open but hold something else.", "anchors": ["mav_trajectory_generation/src/io.cpp: segmentsToFile, segmentsFromFile", "mav_trajectory_generation/include/mav_trajectory_generation/io.h: trajectoryToFile, trajectoryFromFile"]}
{"id": "C54", "title": "A failed load from a file leaves the trajectory alone", "statement": "When trajectoryFromFile cannot load the file it returns false, without aborting, and the trajectory is unchanged.", "quantifier": "all files", "why_tests_cant": "Malformed files form an infinite set; the failure can happen at any segment.", "anchors": ["mav_trajectory_generation/include/mav_trajectory_generation/io.h: trajectoryFromFile"]}
{"id": "C55", "title": "Sampling a range returns every state in the range and only those", "statement": "sampleWholeTrajectory with interval dt > 0 returns, in order, exactly the states sampleTrajectoryAtTime returns at 0, dt, 2dt, ... below getMaxTime(); sampleTrajectoryInRange does the same for the times min_time + j dt below max_time; requests outside [0, getMaxTime()] or with fewer than three dimensions are rejected.", "quantifier": "all trajectories whose adjacent segments agree in the sampled derivatives, all ranges and intervals", "why_tests_cant": "All trajectories, ranges and intervals; the off-by-one cases depend on whether the range is a multiple of the interval.", "anchors": ["mav_trajectory_generation/src/trajectory_sampling.cpp: sampleTrajectoryInRange, sampleTrajectoryStartDuration, sampleWholeTrajectory"]}
{"id": "C56", "title": "Writing sampled states to a file is memory safe and complete", "statement": "sampledTrajectoryStatesToFile writes one row per state sampled every 0.01 s, in order, with the end time of segment j in the last column of row j, and never accesses a row that does not exist.", "quantifier": "all trajectories", "why_tests_cant": "The failing cases depend on the relation of duration and number of segments.", "anchors": ["mav_trajectory_generation/src/io.cpp: sampledTrajectoryStatesToFile"]}
{"id": "C57", "title": "Input constraints survive a YAML round trip", "statement": "Reading the YAML node written for any set of limits reached by a history of calls, into an empty set of limits, gives the same six limits, each rounded as the emitter rounds; a limit that is present in the node but is not a number is rejected by an exception.", "quantifier": "all call histories, all limits, all monotone sign-preserving number formats", "why_tests_cant": "All limit sets; the order in which limits are read back interacts with the thrust limits.", "anchors": ["mav_trajectory_generation_ros/src/input_constraints.cpp: toYaml, fromYaml"]}
{"id": "C58", "title": "Half planes are constructed correctly", "statement": "A half plane built from a point and a non-zero normal has a unit normal and describes the side the normal points to; built from three points it has them on its boundary with the inside where they appear counter-clockwise; degenerate arguments (zero normal, points on a line) are rejected.", "quantifier": "all points and normals", "why_tests_cant": "All real arguments, including degenerate ones for which no plane exists.", "anchors": ["mav_trajectory_generation_ros/src/feasibility_base.cpp: HalfPlane::HalfPlane"]}
{"id": "C59", "title": "The sampling feasibility check decides exactly for its samples", "statement": "With a positive sampling interval dt, the sampling-based check returns feasible exactly when the states at 0, dt, 2dt, ... up to the segment time all meet the limits, and otherwise the verdict of the first sample that does not, naming a limit that sample violates; it always terminates. With interval 0 it does not terminate.", "quantifier": "all segments, limits and sampling intervals", "why_tests_cant": "All segments and intervals; the number of samples is unbounded.", "anchors": ["mav_trajectory_generation_ros/src/feasibility_sampling.cpp: checkInputFeasibility"]}
{"id": "C60", "title": "Timer objects add one sample per period", "statement": "A Timer started and stopped any number of times adds exactly one sample per period to its timer, the elapsed time, in order; a Timer destroyed while running adds the time since its start, one destroyed while stopped adds nothing; stopping a timer that is not running adds nothing; the MiniTimer never reports a negative time.", "quantifier": "all sequences of start and stop times", "why_tests_cant": "All histories of starts, stops and scopes.", "anchors": ["mav_trajectory_generation/src/timing.cpp: Timer::Timer, Start, Stop, ~Timer", "mav_trajectory_generation/include/mav_trajectory_generation/timing.h: MiniTimer"]}
{"id": "C61", "title": "The root finder is memory safe", "statement": "For every polynomial with at most 101 coefficients, whatever their values (including infinities and NaN), findRootsJenkinsTraub never reads a local variable before it is assigned or an array entry that was not written for this polynomial, and never accesses an array out of bounds; it returns false, or true with a list of at most (number of coefficients - 1) roots all of which were computed.", "quantifier": "all coefficient vectors of length at most 101, any floating-point arithmetic", "why_tests_cant": "Uninitialised reads and out-of-bounds accesses depend on data-dependent control flow of nested iterations.", "anchors": ["mav_trajectory_generation/src/rpoly/rpoly_ak1.cpp: findRootsJenkinsTraub, rpoly_ak1, Fxshfr_ak1, QuadIT_ak1, RealIT_ak1"]}
{"id": "C62", "title": "The root finder terminates", "statement": "In exact arithmetic findRootsJenkinsTraub returns for every polynomial with at most 101 coefficients: the interval-chopping and Newton loops that have no iteration limit always end.", "quantifier": "all real coefficient vectors of length at most 101", "why_tests_cant": "Termination of nested loops for all coefficients, also those for which the iteration does not converge.", "anchors": ["mav_trajectory_generation/src/rpoly/rpoly_ak1.cpp: rpoly_ak1"]}
{"id": "C63", "title": "Reported roots are roots", "statement": "When findRootsJenkinsTraub returns true, the listed complex numbers are roots of the polynomial up to a relative accuracy of a small multiple of machine epsilon, non-real roots come in conjugate pairs, roots at the origin and the roots of linear and quadratic polynomials are exact, and all roots are listed.", "quantifier": "all polynomials", "why_tests_cant": "All polynomials; deflation propagates errors from one root to the next.", "anchors": ["mav_trajectory_generation/src/rpoly/rpoly_ak1.cpp: findRootsJenkinsTraub"]}
{"id": "C64", "title": "Polynomials of unsupported degree are rejected", "statement": "findRootsJenkinsTraub called with more coefficients than the root finder supports returns false and has no other effect.", "quantifier": "all coefficient vectors of any length", "why_tests_cant": "All lengths; a buffer overflow need not be visible in a test run.", "anchors": ["mav_trajectory_generation/src/rpoly/rpoly_ak1.cpp: findRootsJenkinsTraub"]}
{"id": "C65", "title": "A nonlinear optimisation keeps the constraints, whatever NLopt does", "statement": "After setupFromVertices, solveLinear or an optimisation that evaluated the objective function, and any further calls, the trajectory of the nonlinear optimiser has at every vertex exactly the derivatives prescribed there, its segments agree up to order N/2-1 where they meet, and the segments have the stored, positive durations; this holds whatever points NLopt evaluates within its bounds and however the optimisation ends.", "quantifier": "all vertices, orders, parameters, sequences of calls and runs of NLopt", "why_tests_cant": "The points NLopt visits depend on the algorithm, its random seed and floating-point noise; no finite set of runs covers them.", "anchors": ["mav_trajectory_generation/include/mav_trajectory_generation/impl/polynomial_optimization_nonlinear_impl.h: optimize, optimizeTime, optimizeTimeAndFreeConstraints, optimizeTimeMellingerOuterLoop"]}
{"id": "C66", "title": "Segment times stay usable through an optimisation", "statement": "After an optimisation there is one time per segment, and every time is at least 0.1 s, except that with the methods that optimise derivatives too a time that was shorter before may remain shorter, but not below what it was; an optimisation that never evaluated the objective function leaves the times as they were.", "quantifier": "all optimisers, methods and runs of NLopt", "why_tests_cant": "Every point the external optimiser may visit, also points outside of what it was asked to respect.", "anchors": ["mav_trajectory_generation/include/mav_trajectory_generation/impl/polynomial_optimization_nonlinear_impl.h: optimizeTime, optimizeTimeAndFreeConstraints, scaleSegmentTimesWithViolation"]}
{"id": "C67", "title": "An optimisation returns", "statement": "With limits on existing derivatives, a gradient-free algorithm (for the Mellinger method: one with gradients, and soft limits on velocity and acceleration), optimize() returns for every run of NLopt: no CHECK fails and no memory is accessed out of bounds. With an algorithm of the wrong kind it does not return, and the Mellinger method without a limit on the velocity or on the acceleration divides by zero once NLopt has a result.", "quantifier": "all optimisers, methods and runs of NLopt", "why_tests_cant": "All sequences of callbacks and all stopping reasons of the external optimiser.", "anchors": ["mav_trajectory_generation/include/mav_trajectory_generation/impl/polynomial_optimization_nonlinear_impl.h: optimize, objectiveFunctionTime, objectiveFunctionTimeAndConstraints, objectiveFunctionTimeMellingerOuterLoop"]}
{"id": "C68", "title": "The optimised trajectory is the best one found", "statement": "After an optimisation the trajectory belongs to the best point NLopt evaluated: its durations (and free derivatives, if these are optimised) are those of that point, and when only times are optimised its cost is the smallest possible for these durations; the Mellinger method multiplies the durations by a common factor of at least one.", "quantifier": "all optimisers, methods and runs of NLopt", "why_tests_cant": "All sequences of evaluated points; optimality is a claim about all trajectories.", "anchors": ["mav_trajectory_generation/include/mav_trajectory_generation/impl/polynomial_optimization_nonlinear_impl.h: optimizeTime, objectiveFunctionTime, objectiveFunctionTimeAndConstraints"]}
{"id": "C69", "title": "The objective value is the documented one", "statement": "Each evaluation of the objective function returns the cost of the trajectory for this point, plus the time penalty times the total time (or its square), plus, if limits are soft, for each limit the exponential of the weighted relative violation, at most 10^12; the Mellinger method returns the cost only. After an optimisation the statistics are those of the last evaluation, and the number of iterations is the number of evaluations.", "quantifier": "all optimisers, methods, points and limits", "why_tests_cant": "All points; the violation involves the maximum over a continuum.", "anchors": ["mav_trajectory_generation/include/mav_trajectory_generation/impl/polynomial_optimization_nonlinear_impl.h: objectiveFunctionTime, evaluateMaximumMagnitudeAsSoftConstraint"]}
{"id": "C70", "title": "NLopt starts from the present trajectory", "statement": "NLopt is started within its bounds at the present times; when derivatives are optimised too, the starting point also lists the free derivatives of the trajectory of smallest cost for these times, and evaluating the objective function there reproduces exactly this trajectory. When only times are optimised and one is below 0.1 s, the start is outside the bounds. The initial steps handed over are positive, one for each variable.", "quantifier": "all optimisers and methods", "why_tests_cant": "All vertices, times and numbers of free derivatives; packing errors show only for some patterns of constraints.", "anchors": ["mav_trajectory_generation/include/mav_trajectory_generation/impl/polynomial_optimization_nonlinear_impl.h: optimizeTimeAndFreeConstraints"]}
{"id": "C71", "title": "The bounds handed to NLopt are those of the limits", "statement": "When derivatives are optimised too, each time is bounded below by 0.1 s, and each component of a free derivative of order m is bounded by plus and minus the limit added for order m (the last one, if there are several), unbounded without such a limit, and widened where necessary to contain the starting value.", "quantifier": "all vertices, limits, dimensions and orders", "why_tests_cant": "All patterns of free and fixed derivatives.", "anchors": ["mav_trajectory_generation/include/mav_trajectory_generation/impl/polynomial_optimization_nonlinear_impl.h: setFreeEndpointDerivativeHardConstraints"]}
{"id": "C72", "title": "computeMaximumOfMagnitude returns the true maximum", "statement": "For every derivative of order below N-1 the function returns the largest norm of the derivative over the whole trajectory, together with a segment and a time at which it is attained; higher orders are refused.", "quantifier": "all trajectories of the optimisers and all derivatives", "why_tests_cant": "The maximum over a continuum of times for all polynomials.", "anchors": ["mav_trajectory_generation/include/mav_trajectory_generation/impl/polynomial_optimization_linear_impl.h: computeMaximumOfMagnitude, computeSegmentMaximumMagnitudeCandidates"]}
{"id": "C73", "title": "Hard limits are reported for the point asked", "statement": "When NLopt asks for the value of a hard limit at a point, the answer is the largest norm of the limited derivative on the trajectory for this point, minus the limit.", "quantifier": "all optimisers, limits, points and histories of callbacks", "why_tests_cant": "Depends on the order in which the external optimiser asks for values, which a test does not control.", "anchors": ["mav_trajectory_generation/include/mav_trajectory_generation/impl/polynomial_optimization_nonlinear_impl.h: evaluateMaximumMagnitudeConstraint"]}
{"id": "C74", "title": "Limits are kept", "statement": "All limits added are kept, in order, through setups and optimisations, and are enforced: as penalties if soft, by NLopt if hard; they can be added before or after the setup. A negative order or value is refused.", "quantifier": "all sequences of calls", "why_tests_cant": "All histories of adding limits, setting up and optimising.", "anchors": ["mav_trajectory_generation/include/mav_trajectory_generation/impl/polynomial_optimization_nonlinear_impl.h: addMaximumMagnitudeConstraint, setupFromVertices"]}
{"id": "C75", "title": "The gradient of the Mellinger method is the difference quotient of the optimal cost", "statement": "Entry i of the gradient at the times x is (J_i - J)/0.1, where J is the smallest cost possible with the times x and J_i that with segment i longer by 0.1 s and the others shorter by as much in total, none below 0.1 s; the trajectory left is that of smallest cost for x. With one segment the gradient is 0.", "quantifier": "all optimisers and times", "why_tests_cant": "All times; needs the optimum of each perturbed problem.", "anchors": ["mav_trajectory_generation/include/mav_trajectory_generation/impl/polynomial_optimization_nonlinear_impl.h: getCostAndGradientMellinger"]}
{"id": "C76", "title": "The total cost is the value of the objective", "statement": "getTotalCostWithSoftConstraints() returns the value of the objective function for the present trajectory: its cost, plus the time penalty, plus the penalties of the limits.", "quantifier": "all optimisers with a trajectory, all methods", "why_tests_cant": "All trajectories, limits, weights and methods of time allocation.", "anchors": ["mav_trajectory_generation/include/mav_trajectory_generation/impl/polynomial_optimization_nonlinear_impl.h: getTotalCostWithSoftConstraints"]}
{"id": "C77", "title": "Equality of segments and trajectories", "statement": "Comparing two segments (trajectories) with == returns true exactly when they have the same duration(s), the same number of dimensions (and segments) and the same values at every time; it always returns.", "quantifier": "all pairs of segments and trajectories", "why_tests_cant": "Equality of functions on a continuum, for all pairs.", "anchors": ["mav_trajectory_generation/src/segment.cpp: operator==", "mav_trajectory_generation/src/trajectory.cpp: operator==", "mav_trajectory_generation/include/mav_trajectory_generation/polynomial.h: operator=="]}
{"id": "C78", "title": "Names of derivatives", "statement": "Turning a derivative order into its name and back gives the order for every order that has a name (position 0..4, orientation 0..2) and -1 for all other integers; every string is either the name of its order or has order -1; no out of bounds access of the table of names.", "quantifier": "all integers and all strings", "why_tests_cant": "All strings and all integers, including those that name nothing.", "anchors": ["mav_trajectory_generation/src/motion_defines.cpp: positionDerivativeToString, positionDerivativeToInt, orintationDerivativeToString, orientationDerivativeToInt"]}
{"id": "C79", "title": "The example planner leads from the present state to the goal within the limits", "statement": "For every present position and velocity of the vehicle and every goal position and velocity, planTrajectory returns a trajectory of positive duration that starts at the present position with the present velocity, ends at the goal position with the goal velocity, has zero acceleration, jerk and snap at both ends and keeps to the maximum speed and acceleration.", "quantifier": "all vehicle states, goals, limits and runs of the optimiser", "why_tests_cant": "A claim about a continuum of times, for all states and all outcomes of the optimiser.", "anchors": ["mav_trajectory_generation_example/src/example_planner.cc: planTrajectory"]}
{"id": "C80", "title": "The 6-dof example planner leads from the present pose to the goal within the limits", "statement": "For every goal of three (position), four (with yaw) or six (with rotation vector) entries the planned trajectory starts at the present position (and attitude) with the present velocity, ends at the goal with the goal velocity and keeps to the maximum speeds and accelerations of translation and rotation (with a margin of 0.1 %); goals of other sizes are refused.", "quantifier": "all vehicle states, goals, limits and runs of the optimiser", "why_tests_cant": "A claim about a continuum of times, for all states and all outcomes of the optimiser.", "anchors": ["mav_trajectory_generation_example/src/example_planner_6dof.cc: planTrajectory"]}
{"id": "C81", "title": "The optimum is unique", "statement": "If some vertex prescribes all derivatives below the one that is optimised, the result of solveLinear is the only piecewise polynomial trajectory that meets the constraints, is as smooth and costs as little; so two optimisers set up with the same vertices, times and derivative hand out the same trajectory whatever was done with them before and however the linear systems are solved. If moreover no vertex prescribes a nonzero derivative, multiplying all segment times by a factor gives the same path, run slower by this factor.", "quantifier": "all vertices, segment times, derivatives, solvers and call histories", "why_tests_cant": "Quantifies over all competing trajectories and over all call histories.", "anchors": ["mav_trajectory_generation/include/mav_trajectory_generation/impl/polynomial_optimization_linear_impl.h: setupFromVertices, solveLinear, updateSegmentTimes, getTrajectory"]}
{"id": "C82", "title": "Limits on velocity and acceleration hold after the scaling step", "statement": "scaleSegmentTimesWithViolation multiplies all segment times by one factor of at least 1, the smallest with which the trajectory run slower meets the limits on velocity and acceleration that were added last; afterwards, and after optimize with the Mellinger method, velocity and acceleration of the trajectory are at every time at most 1.001 times these limits.", "quantifier": "all vertices, times, limits and runs of the optimiser", "why_tests_cant": "A bound at every time of a continuum, for every outcome of the external optimiser.", "anchors": ["mav_trajectory_generation/include/mav_trajectory_generation/impl/polynomial_optimization_nonlinear_impl.h: scaleSegmentTimesWithViolation, optimizeTimeMellingerOuterLoop"]}
{"id": "C83", "title": "Random vertices are usable", "statement": "For bounds in order whose diagonal is at least 0.2, at least one segment and a positive derivative order, createRandomVertices returns n+1 vertices with positions in the box, neighbours more than 0.2 apart, zero for all derivatives up to the given order at both ends and nothing else prescribed; other arguments are refused. With the estimated segment times the vertices are accepted and solved by the linear optimiser.", "quantifier": "all bounds, numbers of segments, orders and all streams of random numbers between the bounds", "why_tests_cant": "Quantifies over every stream of random numbers; termination is a claim about all of them.", "anchors": ["mav_trajectory_generation/src/vertex.cpp: createRandomVertices, createRandomVertices1D"]}
{"id": "C84", "title": "Square vertices close the square", "statement": "For every positive number of rounds createSquareVertices returns four vertices per round plus the start again, visiting the corners in turn at constant height, neighbours one side length apart, first and last at the same corner at rest; nothing else is prescribed.", "quantifier": "all centres, side lengths, orders and numbers of rounds", "why_tests_cant": "All numbers of rounds, side lengths and centres.", "anchors": ["mav_trajectory_generation/src/vertex.cpp: createSquareVertices"]}
{"id": "C85", "title": "Failures of the search for extrema are reported", "statement": "When computeMinMaxMagnitude returns true, the reported minimum and maximum are attained at the reported times of the reported segments; when they cannot be computed (no dimensions, dimensions that do not exist, root finder failing) it returns false, so that scaleSegmentTimesToMeetConstraints never reports success for a trajectory above the limits.", "quantifier": "all trajectories, dimensions, orders and all behaviours of the root finder", "why_tests_cant": "Quantifies over all behaviours of the root finder, including its failures.", "anchors": ["mav_trajectory_generation/src/segment.cpp: computeMinMaxMagnitudeCandidateTimes, computeMinMaxMagnitudeCandidates, selectMinMaxMagnitudeFromCandidates", "mav_trajectory_generation/src/trajectory.cpp: computeMinMaxMagnitude, computeMaxVelocityAndAcceleration, scaleSegmentTimesToMeetConstraints"]}
{"id": "C86", "title": "Sampling an interval for candidates of a maximum", "statement": "computeSegmentMaximumMagnitudeCandidatesBySampling returns for every sampling interval and appends, in ascending order and without repetition, the start of the interval, the sampled times at which the sampled magnitudes turn and the end of the interval; the magnitude at one of them is at least as large as at every other sampled time.", "quantifier": "all segments, derivatives, intervals and sampling intervals", "why_tests_cant": "A claim about all segments and sampling intervals, and about termination.", "anchors": ["mav_trajectory_generation/include/mav_trajectory_generation/impl/polynomial_optimization_linear_impl.h: computeSegmentMaximumMagnitudeCandidatesBySampling"]}
{"id": "C87", "title": "The matrices handed out by the linear optimiser describe its problem", "statement": "At any time after setupFromVertices, getA returns the matrix that maps the coefficients of all segments to the derivatives at both ends of every segment, and getAInverse its inverse. After solveLinear or setFreeConstraints the coefficients of the segments are A^-1 M d for the fixed and free constraints d that are handed out, R is symmetric and positive semidefinite, and half of the sum of d' R d over the dimensions is the cost returned by computeCost.", "quantifier": "all vertices, times, derivatives, numbers of dimensions and call histories", "why_tests_cant": "Identities between matrices of every size for every input and call history.", "anchors": ["mav_trajectory_generation/include/mav_trajectory_generation/impl/polynomial_optimization_linear_impl.h: getA, getAInverse, getM, getR, computeCost", "mav_trajectory_generation/include/mav_trajectory_generation/polynomial_optimization_linear.h: getFreeConstraints, getFixedConstraints"]}
{"id": "C88", "title": "The linear optimiser respects affine maps", "statement": "When the values prescribed at every vertex are the images of those of another problem with the same segment times under one affine map of space (a shift, rotation, mirror image, magnification or a projection to fewer dimensions), the resulting trajectory is at every time the image of the other trajectory, with all derivatives.", "quantifier": "all problems with a single optimum (some vertex prescribes all derivatives below the optimised one), all affine maps between spaces of any dimension (without shift if the position itself is optimised), all times and derivatives", "why_tests_cant": "Quantifies over all problems and maps; relates two runs on a continuum of times.", "anchors": ["mav_trajectory_generation/include/mav_trajectory_generation/impl/polynomial_optimization_linear_impl.h: setupFromVertices, solveLinear, getTrajectory"]}
{"id": "C89", "title": "Superposition", "statement": "The trajectory of a problem whose prescribed values are a linear combination of those of two problems with the same segment times is the same combination of their trajectories, with all derivatives.", "quantifier": "all pairs of problems and weights such that the combined problem has a single optimum (some vertex prescribes all derivatives below the optimised one), all times and derivatives", "why_tests_cant": "Relates three runs of the optimiser on all inputs.", "anchors": ["mav_trajectory_generation/include/mav_trajectory_generation/impl/polynomial_optimization_linear_impl.h: setupFromVertices, solveLinear, getTrajectory"]}
{"id": "C90", "title": "Coordinates do not influence each other", "statement": "A coordinate of the resulting trajectory depends only on the segment times, on which derivatives are prescribed and on the values prescribed for this coordinate; not on the values of other coordinates nor on their number.", "quantifier": "all pairs of problems that agree in a coordinate and have a single optimum (some vertex prescribes all derivatives below the optimised one)", "why_tests_cant": "A noninterference claim about pairs of runs.", "anchors": ["mav_trajectory_generation/include/mav_trajectory_generation/impl/polynomial_optimization_linear_impl.h: setupFromVertices, solveLinear, getTrajectory"]}
{"id": "C91", "title": "A planar problem has a planar solution", "statement": "If all prescribed positions lie in a plane and all prescribed derivatives are parallel to it, the whole trajectory lies in this plane and all its derivatives are parallel to it; for example the altitude stays constant when all vertices have one altitude.", "quantifier": "all problems with a single optimum (some vertex prescribes all derivatives below the optimised one) and planes of any dimension (through the origin if the position itself is optimised), all times", "why_tests_cant": "A claim at every time of a continuum for all inputs.", "anchors": ["mav_trajectory_generation/include/mav_trajectory_generation/impl/polynomial_optimization_linear_impl.h: setupFromVertices, solveLinear, getTrajectory"]}
{"id": "C92", "title": "The way back is the way there run backwards", "statement": "For the vertices in reverse order, with the signs of the prescribed derivatives of odd order changed, and the segment times in reverse order, the resulting trajectory is the original one run backwards: the same positions at the mirrored times, odd derivatives with changed sign.", "quantifier": "all problems with a single optimum (some vertex prescribes all derivatives below the optimised one), all times, all derivatives up to half the number of coefficients", "why_tests_cant": "Relates two runs at every time of a continuum.", "anchors": ["mav_trajectory_generation/include/mav_trajectory_generation/impl/polynomial_optimization_linear_impl.h: setupFromVertices, solveLinear, getTrajectory"]}
{"id": "C93", "title": "The drawn path is the path", "statement": "Drawing sampled points gives an array of markers that ends with a line through the positions of all points in order; every marker has the requested frame, no expiry, and its own number. Drawing a trajectory does this for the positions at 0, 0.1, 0.2, ... seconds and reaches its end; when the trajectory cannot be sampled the array is left alone.", "quantifier": "all lists of points, all trajectories, all additional markers", "why_tests_cant": "Quantifies over all paths and trajectories, with any number of samples and any sampling interval.", "anchors": ["mav_trajectory_generation_ros/src/ros_visualization.cpp: drawMavSampledTrajectoryWithMavMarker, drawMavTrajectoryWithMavMarker, drawMavTrajectory"]}
{"id": "C94", "title": "Markers along a drawn path are spaced as requested", "statement": "The additional markers (axes of the body, acceleration, velocity, a model of the vehicle moved to the pose of the vehicle) are spaced by the given distance along the path: never closer, and always another one when the way from the last one gets longer; a distance of 0 disables them; they do not depend on the choice of the origin.", "quantifier": "all lists of points, distances and groups of markers", "why_tests_cant": "Accumulated distances over paths of any length.", "anchors": ["mav_trajectory_generation_ros/include/mav_trajectory_generation_ros/ros_visualization.h:33-43", "mav_trajectory_generation_ros/src/ros_visualization.cpp: drawMavSampledTrajectoryWithMavMarker", "mav_visualization/include/mav_visualization/helpers.h: drawAxesArrows, drawArrowPoints"]}
{"id": "C95", "title": "A group of markers moves as a rigid body", "statement": "Transforming a group of markers by a rotation and a shift turns and shifts every marker and changes nothing else: distances stay, orientations stay of norm 1, two motions compose to one and every motion can be undone. Retrieving the markers magnifies positions and sizes by the given scale and appends or replaces as requested. The model of the vehicle turns with the vehicle.", "quantifier": "all groups, motions and scales", "why_tests_cant": "Algebraic laws over all motions and groups of markers.", "anchors": ["mav_visualization/src/marker_group.cpp: getMarkers, transform, transformMarker", "mav_visualization/src/hexacopter_marker.cpp"]}
{"id": "C96", "title": "Drawing by time keeps a minimal distance in time", "statement": "Drawing sampled points with a minimal distance dt in time draws the first point, the last point and points between them that are in time order and at least dt apart, and leaves out no point that is dt or more after the last one drawn; this for any number of points, any time of the first point and any dt.", "quantifier": "all lists of points in time order, all dt", "why_tests_cant": "32-bit time arithmetic with wrap-around over all times.", "anchors": ["mav_trajectory_generation_ros/include/mav_trajectory_generation_ros/ros_visualization.h:45-48", "mav_trajectory_generation_ros/src/ros_visualization.cpp: drawMavSampledTrajectorybyTime"]}
{"id": "C97", "title": "Drawn vertices are the vertices", "statement": "Drawing vertices makes the array one line through the positions of the vertices that have a position, in order, in the requested frame; drawing the vertices of a trajectory makes it a line through the positions at the starts of the segments and at the end. What the array held before does not matter.", "quantifier": "all lists of vertices, all trajectories, all previous contents", "why_tests_cant": "Quantifies over all inputs and previous uses of the array.", "anchors": ["mav_trajectory_generation_ros/src/ros_visualization.cpp: drawVertices, drawVerticesFromTrajectory"]}
{"id": "C98", "title": "No marker replaces another", "statement": "In every array that the drawing functions return, and in the predefined models of vehicles, no two markers have the same namespace and number; moving a group or changing its common attributes keeps that.", "quantifier": "all arrays, groups and motions", "why_tests_cant": "An identity invariant of all outputs: every pair of markers of every message.", "anchors": ["mav_trajectory_generation_ros/src/ros_visualization.cpp: setMarkerProperties", "mav_visualization/src/hexacopter_marker.cpp", "mav_visualization/src/leica_marker.cpp", "mav_visualization/src/marker_group.cpp"]}
{"id": "C99", "title": "Evaluation in floating point is backward stable", "statement": "With every arithmetic operation rounded, evaluate(t, d) returns the exact d-th derivative at t of a polynomial whose coefficients differ from the stored ones by relative errors only, at most 2N of size u each (2^-53 for doubles: in total less than 2^-47 for all supported N); hence a bound of the error. The same for every dimension of a segment.", "quantifier": "all coefficients, times, derivatives and roundings with relative error u", "why_tests_cant": "Rounding errors over all inputs; tests compare with tolerances at sampled points.", "anchors": ["mav_trajectory_generation/include/mav_trajectory_generation/polynomial.h:136-149", "mav_trajectory_generation/src/segment.cpp:51-58"]}
{"id": "C100", "title": "Sums, products and scaled polynomials in floating point are accurate coefficient by coefficient", "statement": "With rounding, every coefficient of a sum has one relative error; every coefficient of a product has an error of at most n+1 relative errors of the product of the polynomials with absolute values; a polynomial scaled in time by b and evaluated at t gives the exact value at bt of a polynomial with at most 3N relative errors in its coefficients.", "quantifier": "all polynomials, factors and times", "why_tests_cant": "Rounding errors over all inputs; a test compares with a tolerance that hides or invents them.", "anchors": ["mav_trajectory_generation/include/mav_trajectory_generation/polynomial.h:71-86", "mav_trajectory_generation/src/polynomial.cpp:162-205"]}
{"id": "C101", "title": "Finding the segment in floating point", "statement": "With rounding, a time between 0 and getMaxTime() is never treated as outside of the trajectory and a later one always is; the segment used contains the time up to relative errors of its ends, and the time inside the segment is t minus the start of the segment up to such errors.", "quantifier": "all trajectories with any number of segments and all times", "why_tests_cant": "Accumulated rounding over any number of segments.", "anchors": ["mav_trajectory_generation/src/trajectory.cpp:48-79", "mav_trajectory_generation/include/mav_trajectory_generation/trajectory.h:54-72"]}
{"id": "C102", "title": "Sampling a range in floating point", "statement": "With rounding, the sampling times of evaluateRange() from the start of a segment are the multiples of the interval up to one relative error for each sample, the values belong to these times up to one relative error for each sample and segment, and the number of samples is the one of exact arithmetic.", "quantifier": "all trajectories, ranges and intervals", "why_tests_cant": "Accumulated rounding over any number of samples.", "anchors": ["mav_trajectory_generation/src/trajectory.cpp:81-141"]}
{"id": "C103", "title": "Extrema and limits with a root finder of limited accuracy", "statement": "If the root finder misses the sign changes of a polynomial by at most eps, computeMinMax() misses the true extrema by at most eps^2 times the bound of the second derivative, computeMinMaxMagnitude() by at most eps times the bound of the magnitude of the next derivative, all reported values being attained at the reported times; a trajectory for which scaleSegmentTimesToMeetConstraints() returns true exceeds the limits (times 1.001) by at most eps times its acceleration and jerk, and true is returned if these excesses are below a thousandth of the limits.", "quantifier": "all polynomials, trajectories (for the limits: with at least three coefficients), limits and root finders of accuracy eps", "why_tests_cant": "The numerical root finder is never exact; tests see single results, not the bound.", "anchors": ["mav_trajectory_generation/src/polynomial.cpp:28-157", "mav_trajectory_generation/src/segment.cpp:83-185", "mav_trajectory_generation/src/trajectory.cpp:191-223", "mav_trajectory_generation/src/trajectory.cpp:344-429"]}
{"id": "C104", "title": "Feasibility verdicts and the accuracy of the root finder", "statement": "For every root finder, exact or not: the recursive and the analytic feasibility check return a verdict, a verdict of infeasibility names a limit that is violated at some time of the segment, and checkHalfPlaneFeasibility() returns false only if the position leaves a half plane. If the root finder misses the sign changes of a polynomial by at most eps, a segment called feasible exceeds its limits at no time by more than a bound that goes to zero with eps: eps^2 times the bounds of the derivatives two orders higher (recursive, yaw rates, half planes), eps times acceleration and jerk (analytic).", "quantifier": "all segments in three or four dimensions with at least four coefficients (one for half planes), limits, half planes, gravity vectors and root finders", "why_tests_cant": "The numerical root finder is never exact; tests see single verdicts and cannot bound what a wrong root costs.", "anchors": ["mav_trajectory_generation_ros/src/feasibility_recursive.cpp:40-303", "mav_trajectory_generation_ros/src/feasibility_analytic.cpp:40-232", "mav_trajectory_generation_ros/src/feasibility_base.cpp:97-154"]}
{"id": "C105", "title": "Drawn axes, arrows and covariances show their quantity", "statement": "drawAxes() shows three lines of the given length from the given position along the axes of the turned frame, red, green and blue. drawArrowPositionOrientation() and drawArrowPoints() show an arrow from the given position along the first axis of the turned frame, and between the given points. drawCovariance3D() shows exactly the points at most n standard deviations from the mean, for every covariance matrix, also a singular one. What the marker held before the call does not matter.", "quantifier": "all positions, unit orientations, lengths, covariance matrices, numbers of standard deviations and markers", "why_tests_cant": "Continuum of poses and matrices; the sign and order of eigenvectors vary.", "anchors": ["mav_visualization/include/mav_visualization/helpers.h:62-150"]}
{"id": "C106", "title": "Asking for more costs more, more freedom costs less", "statement": "computeCost() after solveLinear(): with the same segment times, a problem that prescribes at every vertex what another prescribes and possibly more does not cost less, whether its free variables are solved for or set by hand; if the additional values are those the trajectory has anyway, the trajectory is the same. Inserting a vertex that prescribes nothing, or only what the trajectory does there anyway, does not raise the cost. With all times multiplied by c, a problem that prescribes no motion costs c^(1-2k) times as much, k being the optimised derivative.", "quantifier": "all vertices, segment times, dimensions, numbers of coefficients, optimised derivatives", "why_tests_cant": "Relates the results of two optimisations for a continuum of problems.", "anchors": ["mav_trajectory_generation/include/mav_trajectory_generation/impl/polynomial_optimization_linear_impl.h:57-150", "mav_trajectory_generation/include/mav_trajectory_generation/impl/polynomial_optimization_linear_impl.h:338-372", "mav_trajectory_generation/include/mav_trajectory_generation/impl/polynomial_optimization_linear_impl.h:499-512"]}
{"id": "C107", "title": "The benchmark reports what its columns say", "statement": "The benchmark of time allocation methods reports for each trajectory its duration, its largest speed and acceleration, whether a limit is exceeded by more than 10^-4 anywhere, its length (never too large, too small at most by a hundredth of v_max + 2 a_max T), the largest distance from the straight lines between the ends of its segments (at most v_max/100 too small) and the area between the path and these lines with an error bound of the same kind. The nominal length is the sum of the distances between consecutive vertices. There is exactly one row for each method, in order, and no row contains anything of another method. The drawn path shows every tenth sample.", "quantifier": "all trajectories in space with continuous derivatives, limits, vertices, lists of methods and earlier results", "why_tests_cant": "Continuum of trajectories; the errors of sampling must be bounded between the samples; one object is reused for all rows.", "anchors": ["mav_trajectory_generation_ros/src/time_evaluation_node.cpp:143-340", "mav_trajectory_generation_ros/src/time_evaluation_node.cpp:632-807"]}
{"id": "C108", "title": "Linear methods of the benchmark, and the scaling of segment times by violation", "statement": "The linear methods of the benchmark return the trajectory of least cost through the vertices with the estimated segment times, and report half its cost plus penalties for the total time and for exceeding the limits. The scaling by violation divides each segment time by one minus the largest relative violation on that segment (never below 0.1 s) and solves again. It does not return if the violation is exactly one. The result is expected to respect the limits: this holds for two vertices at rest if the limits are violated by less than their double; it is false if the first trajectory already respects the limits or violates them by more.", "quantifier": "all vertices, limits, cost orders, root finders and solvers within their specification", "why_tests_cant": "Continuum of vertices and limits; the result depends on the largest speed between samples; the failing inputs are isolated regions of the limits.", "anchors": ["mav_trajectory_generation_ros/src/time_evaluation_node.cpp:342-387", "mav_trajectory_generation_ros/src/time_evaluation_node.cpp:389-593", "mav_trajectory_generation_ros/src/time_evaluation_node.cpp:717-741"]}
{"id": "C109", "title": "Unusable calls of the linear optimiser are refused", "statement": "Setting up an optimiser, of whatever history, returns exactly if the order is below half the number of coefficients, there is at least one vertex, one time less than vertices, every vertex has the dimension of the optimiser (or no constraint that counts) and all times are positive; everything else is stopped by a failing check or an exception, never by undefined behaviour. The same holds for new segment times and for free derivatives of the wrong number. An object that was not set up refuses to solve. What is accepted can be solved and then describes the times it was given: false for a single vertex (undefined behaviour), for dimension zero (durations stay zero) and for the cost between new times and the next solution.", "quantifier": "all objects, vertices, times, orders and free derivatives", "why_tests_cant": "All combinations of unusable arguments and earlier calls; undefined behaviour need not show.", "anchors": ["mav_trajectory_generation/include/mav_trajectory_generation/impl/polynomial_optimization_linear_impl.h:43-109", "mav_trajectory_generation/include/mav_trajectory_generation/impl/polynomial_optimization_linear_impl.h:181-305", "mav_trajectory_generation/include/mav_trajectory_generation/impl/polynomial_optimization_linear_impl.h:338-379", "mav_trajectory_generation/include/mav_trajectory_generation/impl/polynomial_optimization_linear_impl.h:499-508"]}
{"id": "C110", "title": "Optimisers are independent of each other", "statement": "In a program with several nonlinear optimisers each call returns what it would return if every optimiser were a value of its own: a call on one of them has no effect on the others, and a copy, made by construction or by assignment, behaves as its original would, also after the original is changed or destroyed.", "quantifier": "all programs (sequences of construction, setup, solving, adding limits, evaluations by NLopt, copying, assignment, destruction)", "why_tests_cant": "tests use one optimiser at a time and do not copy it; the pointers shared by copies show only in particular sequences of calls", "anchors": ["mav_trajectory_generation/include/mav_trajectory_generation/impl/polynomial_optimization_nonlinear_impl.h: addMaximumMagnitudeConstraint, evaluateMaximumMagnitudeConstraint, setupFromVertices", "mav_trajectory_generation/include/mav_trajectory_generation/polynomial_optimization_nonlinear.h: ConstraintData, nlopt_"]}
{"id": "C111", "title": "The printed table of timers", "statement": "After any history of calls printing the timers succeeds and shows one line for each name for which a timer was requested since the last reset, in alphabetical order, and no other. A line shows the number of samples added to the timer of that name and, if there are any, their total, mean, standard deviation, smallest and largest value. The frequency reported for a timer is one divided by the mean of its last 50 samples.", "quantifier": "all histories of requests, samples and resets", "why_tests_cant": "Unbounded histories; a reset forgets the names but keeps the timers; the window of 50 samples shows only in long histories.", "anchors": ["mav_trajectory_generation/src/timing.cpp:99-193"]}
{"id": "C112", "title": "Numerical maxima and costs", "statement": "The helper that samples a trajectory returns, for any positive step, a magnitude that the derivative attains, and no magnitude of that derivative is larger by more than the step times a bound on the next derivative. The helper for the cost returns the integral of the squared derivative up to the step times (2 A B T + B^2), with bounds B on the derivative and A on the next one and the duration T; so it agrees within this bound with the cost an optimiser reports for its trajectory.", "quantifier": "all trajectories (continuous in the derivative sampled), derivatives and positive steps; all problems and solutions of the linear optimiser", "why_tests_cant": "the error of sampling has to be bounded between the samples for a continuum of trajectories; the unit tests use these helpers as their reference", "anchors": ["mav_trajectory_generation/include/mav_trajectory_generation/test_utils.h:43-64"]}
{"id": "C113", "title": "Timing statistics in double arithmetic", "statement": "With rounding after every operation the number of samples, the minimum and the maximum of a timer are still exact, the total of n samples has an error of at most ((1+u)^n - 1) times the sum of the absolute samples, the mean one rounding more, and the rolling mean has a relative error that depends only on the samples in the window.", "quantifier": "all sequences of fewer than 2^31 samples, all window sizes, all contents of uninitialised memory, all monotone roundings with relative error u <= 1/2 that keep integers", "why_tests_cant": "the errors of a running sum depend on the whole history of samples; unit tests add a few samples of the same size", "anchors": ["mav_trajectory_generation/include/mav_trajectory_generation/timing.h:39-100"]}
{"id": "C114", "title": "Extrema of a polynomial in floating point", "statement": "With rounding after every operation and a root finder that is off by at most e on the interval, the search for the extrema of a polynomial returns two times inside the interval, reports the values there up to the error of the evaluation E, and no value on the interval lies outside the reported ones by more than 3 E + B e^2, where B bounds the second derivative of the function searched.", "quantifier": "all polynomials of up to 22 coefficients whose values stay below the largest double, all derivatives, all intervals, all monotone roundings with a relative error, all root finders with the given accuracy for the rounded coefficients they get", "why_tests_cant": "rounding changes the coefficients of the derivative, the roots, the values and therefore the comparison between candidates; near-ties cannot be enumerated", "anchors": ["mav_trajectory_generation/src/polynomial.cpp:28-143", "mav_trajectory_generation/include/mav_trajectory_generation/polynomial.h:98-113"]}
{"id": "C115", "title": "Magnitude extrema in floating point", "statement": "With rounding after every operation and a root finder that is off by at most e, the extrema of the magnitude of a derivative over a trajectory are reported at places on it with the magnitudes there up to the error V of their evaluation, and no magnitude on the trajectory exceeds the reported maximum by more than V + A1 e + 2 E + sqrt(2 g A0 A1 T), where A0 and A1 are the sizes of the derivative and of the next one, E is the error of one evaluation, g the relative error of the convolved coefficients and T the longest duration; with at least two dimensions the same holds below the reported minimum. The largest speed and acceleration reported for a trajectory have this accuracy.", "quantifier": "all trajectories with up to 22 coefficients whose magnitudes stay below the largest double, all derivatives and non-empty lists of dimensions, all monotone roundings with a relative error, all root finders with the given accuracy for the rounded coefficients they get", "why_tests_cant": "the roots are those of a sum of products of rounded coefficients, so that the reported maximum is one of a different curve; its distance from the true maximum cannot be settled by examples", "anchors": ["mav_trajectory_generation/src/segment.cpp:83-185", "mav_trajectory_generation/src/trajectory.cpp:191-227", "mav_trajectory_generation/src/trajectory.cpp:344-361"]}
{"id": "C116", "title": "Meeting limits in floating point", "statement": "With rounding after every operation and a root finder of limited relative accuracy, slowing a trajectory down to meet limits always returns; the result is the given trajectory slowed down by one common factor of at least 1, up to a relative error of every coefficient and duration of 40 N roundings, and no duration that is a rounded number decreases. When it returns true, no speed or acceleration on the result exceeds the limit times (1 + tolerance)/(1 - u) by more than the accuracy of the computed maxima. When this accuracy is small against the limits (0.04%), it does return true after slowing down at most once, and every speed and acceleration is within 0.15% of the limits.", "quantifier": "all trajectories with up to 22 and at least 3 coefficients whose derivatives have bounded size, all positive limits, all monotone roundings with a relative error, all root finders with the given accuracy", "why_tests_cant": "whether the loop ends depends on the interplay of twenty rounded scalings with rounded maxima found by an inexact root finder; a test shows it for single trajectories", "anchors": ["mav_trajectory_generation/src/trajectory.cpp:385-429", "mav_trajectory_generation/src/trajectory.cpp:344-380"]}
{"id": "C117", "title": "Every duration can be stored", "statement": "Writing a trajectory as a YAML tree, to a file or as a message stores the duration of every segment in whole nanoseconds, truncated towards zero, and is defined for every trajectory that can be built.", "quantifier": "all trajectories with any durations, including negative and very long ones (setTime accepts every number)", "why_tests_cant": "the conversion of an unrepresentable double to an unsigned integer is undefined behaviour, which a test run cannot show to be absent", "anchors": ["mav_trajectory_generation/include/mav_trajectory_generation/segment.h:55-65", "mav_trajectory_generation/src/io.cpp:43-68", "mav_trajectory_generation/src/io.cpp:126-167", "mav_trajectory_generation_ros/src/ros_conversions.cpp:25-70"]}
{"id": "C118", "title": "Vertices are met in floating point", "statement": "With rounding after every operation, the polynomial that the linear optimiser stores for a segment has the derivatives required at its beginning up to 2h+1 roundings, and those required at its end up to the residual of the inverse that the library computed for the half-size block, multiplied by the size of what the derivatives can reach, plus 7h+1 roundings of the terms that are added, where 2h is the number of coefficients. Two consecutive segments therefore differ where they meet by no more than these errors, however inaccurately the free derivatives were solved for.", "quantifier": "all segment durations from the machine epsilon on, all required derivatives, up to 22 coefficients, all monotone roundings with a relative error that store small integers exactly, all results of the library inverse, all orders of summation in the matrix products", "why_tests_cant": "whether a trajectory goes through its vertices depends on cancellation between entries of very different size, which changes with every duration", "anchors": ["mav_trajectory_generation/include/mav_trajectory_generation/impl/polynomial_optimization_linear_impl.h:112-121", "mav_trajectory_generation/include/mav_trajectory_generation/impl/polynomial_optimization_linear_impl.h:142-179", "mav_trajectory_generation/include/mav_trajectory_generation/impl/polynomial_optimization_linear_impl.h:262-283", "mav_trajectory_generation/include/mav_trajectory_generation/polynomial.h:201-228"]}
{"id": "C119", "title": "Any sampling interval is accepted", "statement": "Sampling a range of a trajectory with any positive sampling interval returns the samples of the range.", "quantifier": "all trajectories, ranges and positive sampling intervals, any amount of memory", "why_tests_cant": "the number of samples is converted to an unsigned integer and memory is reserved for it before anything is sampled; a test would have to ask for more samples than memory or integers can hold", "anchors": ["mav_trajectory_generation/src/trajectory.cpp:81-93"]}
{"id": "C120", "title": "The cost in floating point", "statement": "With rounding after every operation, the cost the linear optimiser reports is the integral of the squared derivative of the stored polynomials, summed over all segments and dimensions, up to an error of 4k+q+5+4h+S*D roundings relative to the same integral for the polynomials with the absolute values of the coefficients, for derivative k, 2h coefficients, S segments, D dimensions and q roundings in the power function.", "quantifier": "all stored coefficients and positive durations, up to 22 coefficients, all orders below the number of coefficients, all monotone roundings with a relative error that store small integers exactly, all orders of summation in the matrix products", "why_tests_cant": "the cost is a sum of terms of both signs that grow with high powers of the duration; how much of it is rounding error cannot be seen from the result", "anchors": ["mav_trajectory_generation/include/mav_trajectory_generation/impl/polynomial_optimization_linear_impl.h:123-140", "mav_trajectory_generation/include/mav_trajectory_generation/impl/polynomial_optimization_linear_impl.h:567-583"]}
{"id": "C121", "title": "The linear optimiser as a whole in floating point", "statement": "With rounding after every operation, setting up the linear optimiser with an acceptable problem, solving, setting free derivatives and changing durations always return. Whatever was called, after a call of solveLinear or setFreeConstraints there is one derivative value per vertex, order and dimension: the prescribed number itself where the vertex has a constraint, and one of the free values elsewhere. Every stored segment has these values at its beginning up to 2h+1 roundings and at its end up to the error bound of C118; where two segments meet, their derivatives differ by no more than both errors. This holds for any sparse solver, however wrong, and any power function.", "quantifier": "all numbers of vertices, dimensions and coefficients (up to 22), all constraints, all durations from the machine epsilon on, all sequences of calls before and after the set-up, all monotone roundings with a relative error that store small integers exactly, all results of the library inverse and of the solver", "why_tests_cant": "the values pass through a sorted set, a sparse permutation matrix and two dense matrices before they become coefficients; one wrong or rounded entry shows only for some combinations of constraints", "anchors": ["mav_trajectory_generation/include/mav_trajectory_generation/impl/polynomial_optimization_linear_impl.h:56-110", "mav_trajectory_generation/include/mav_trajectory_generation/impl/polynomial_optimization_linear_impl.h:181-305", "mav_trajectory_generation/include/mav_trajectory_generation/impl/polynomial_optimization_linear_impl.h:338-379", "mav_trajectory_generation/include/mav_trajectory_generation/impl/polynomial_optimization_linear_impl.h:499-508"]}
{"id": "C122", "title": "Time estimates with rounding after every operation", "statement": "With double arithmetic the time estimates stay what they are documented to be up to a few roundings: computeTimeVelocityRamp returns the least duration of a motion from rest to rest within the limits up to n+16 roundings in dimension n, also at the border of its two cases; estimateSegmentTimesVelocityRamp returns times of at least 0.1 s; estimateSegmentTimesNfabian returns times of at least 2*distance/v_max up to n+8 roundings, positive exactly where the positions differ. All this for any order in which the squares of a norm are added.", "quantifier": "all positions of any dimension, limits, roundings and orders of addition", "why_tests_cant": "The cases of the ramp are told apart by comparing rounded numbers, so that near the border the wrong formula is used; that this does no harm is a statement about all numbers near the border.", "anchors": ["mav_trajectory_generation/src/vertex.cpp:228-290"]}
{"id": "C123", "title": "The root finder returns in floating point", "statement": "With rounding after every operation (relative error at most 1e-11; doubles have 2^-53), findRootsJenkinsTraub returns for every polynomial with at most 101 coefficients: it reports failure or a list of zeros, at most as many as the degree. In particular the two loops without a bound, which look for a lower bound of the moduli of the zeros, end although values and slopes are rounded.", "quantifier": "all coefficient vectors of at most 101 numbers, all monotone roundings with a small relative error, all C libraries whose exp and log are not far off", "why_tests_cant": "Newton's iteration stops when a rounded step is small; that rounding cannot keep it going, or throw it to a negative number from where it never comes back, is a statement about all polynomials.", "anchors": ["mav_trajectory_generation/src/rpoly/rpoly_ak1.cpp:153-389", "mav_trajectory_generation/src/rpoly/rpoly_ak1.cpp:245-288", "mav_trajectory_generation/src/rpoly/rpoly_ak1.cpp:70-117"]}
{"id": "C124", "title": "Half planes with rounding after every operation", "statement": "With double arithmetic and a root finder of limited accuracy, checkHalfPlaneFeasibility always returns for segments of 3 or 4 dimensions. If it returns true, the exact position is at no time of the segment further on the wrong side of a half plane than three times the rounding error of a distance plus (bound on the acceleration along the normal) * (accuracy of the roots)^2. If it returns false, at some time it is no further than one rounding error on the right side of one of them. So a segment that keeps that margin from all half planes is accepted and one that leaves one of them by more is rejected. The same for trajectories. Segments of other dimensions are rejected.", "quantifier": "all segments and trajectories of up to 22 coefficients, all lists of half planes, all roundings, all orders of addition in scalar products, all root finders of the given accuracy", "why_tests_cant": "The roots are those of a polynomial with rounded coefficients and the verdict compares a rounded distance with 0; the margin is a statement about all segments and all times between the candidates.", "anchors": ["mav_trajectory_generation_ros/src/feasibility_base.cpp:109-154", "mav_trajectory_generation/src/polynomial.cpp:65-83"]}
{"id": "C125", "title": "The zeros listed in floating point", "statement": "With rounding after every operation, whenever findRootsJenkinsTraub reports success, the zeros in its list have been split off one after the other, and what is left has the remaining degree. A zero of a linear polynomial has a relative error of one rounding; the two zeros of a quadratic polynomial are exactly those of a polynomial whose coefficients differ by at most 40 roundings; at every other real number s that is listed the polynomial reached so far is at most (41 eps + 4 u) (N+1) times the sum of the moduli of its terms, and a similar bound holds for pairs. The polynomial is then divided by the factor with an error of at most 3 (60 for pairs) roundings in each step of the recurrence. Zeros that are not real are listed with their exact conjugates. For degree one and two success is certain.", "quantifier": "all coefficient vectors, all monotone roundings with a relative error of at most 1e-11 that store small integers exactly, all C libraries with a correctly rounded square root", "why_tests_cant": "Acceptance is decided by a rounded error estimate of a rounded value; that the estimate covers its own rounding errors, and that no accepted number is a zero only of the rounding, is a statement about all polynomials.", "anchors": ["mav_trajectory_generation/src/rpoly/rpoly_ak1.cpp:153-389", "mav_trajectory_generation/src/rpoly/rpoly_ak1.cpp:390-948"]}
{"id": "C126", "title": "Extrema of a polynomial with the root finder of the code, in floating point", "statement": "Nothing assumed about the root finder: with rounding after every operation, the search for the minimum and the maximum of a derivative of a polynomial with up to 22 coefficients returns for every non-empty interval; both times lie inside the interval, the values are those of the derivative at these times up to the error of the evaluation, and the values at both ends of the interval are not missed. If the derivative searched has degree at most three, no value on the interval lies outside the two returned by more than three errors of the evaluation plus 240 roundings of the largest slope times the length of the interval; without rounding the minimum and the maximum are exact. An interval that runs backwards and a derivative that does not exist are reported.", "quantifier": "all coefficient vectors, derivatives and intervals, all monotone roundings with a relative error of at most 1e-11 that store small integers exactly", "why_tests_cant": "The result depends on an iteration whose path differs for every polynomial; that it ends, and that no extremum of a cubic slips between the rounded zeros of its derivative, is a statement about all of them.", "anchors": ["mav_trajectory_generation/src/polynomial.cpp:28-143", "mav_trajectory_generation/src/rpoly/rpoly_ak1.cpp:70-117"]}
{"id": "C127", "title": "The analyses of trajectories end with the root finder of the code", "statement": "Nothing assumed about the root finder: searching for the extrema of a magnitude, scaling to meet limits, the half plane check, the recursive and the analytic feasibility check all return, although each of them calls an iterative root finder. The reported extrema of a magnitude are attained at the reported times and the values at the ends of all segments lie between them; a trajectory scaled to meet limits is the given one slowed down by one factor, and when success is reported the limits hold, up to the tolerance, at the ends of all segments; every verdict of infeasibility names a limit that is violated at some time. On segments of degree at most four the recursive check, and for distances of degree at most three the half plane check, are right in both directions. With rounding after every operation the analyses still return, and what they return is determined by one function of the coefficients.", "quantifier": "all trajectories with up to 22 coefficients, all derivatives and dimensions, all limits and half planes", "why_tests_cant": "The root finder iterates until a floating point criterion is met; a test shows that it ended for the polynomials of the test, and the guarantees that do not depend on its accuracy can only be separated from those that do by a proof for every list of zeros.", "anchors": ["mav_trajectory_generation/src/trajectory.cpp:385-429", "mav_trajectory_generation/src/segment.cpp:78-172", "mav_trajectory_generation_ros/src/feasibility_base.cpp:109-154", "mav_trajectory_generation_ros/src/feasibility_analytic.cpp:42-233", "mav_trajectory_generation_ros/src/feasibility_recursive.cpp:42-297"]}
{"id": "C128", "title": "The recursive feasibility check in floating point", "statement": "With rounding after every operation of the recursive feasibility check: (a) if it returns feasible and the root finder is accurate up to e, then at every time of the segment thrust, speed, yaw rate and yaw acceleration keep the configured limits, and the jerk divided by the thrust the limit of the roll and pitch rates, up to 16 roundings of the limit plus sqrt(3) * (three errors of one evaluation + (bound on the second derivative) * e^2); (b) whatever the root finder returns, a verdict that names a limit is right: at some time of the segment that limit is violated, up to 16 roundings and one error of evaluation; it never names the roll and pitch rates; (c) halving sections in floating point ends after a number of nested calls logarithmic in duration over smallest section, provided the smallest section is at least 8 roundings of the duration; so with the root finder of the code the check returns a verdict. The same for trajectories: feasible means that there is a segment and all keep the limits. Without rounding it is the check of the properties above.", "quantifier": "all segments of 3 or 4 dimensions with 4 to 22 coefficients and all trajectories, all limits, all gravity vectors, all roundings with a relative error of at most 1/100, all orders of addition in scalar products, all root finders", "why_tests_cant": "The verdict comes from rounded bounds on rounded sections at times that are themselves rounded; that no violation hides between the sections by more than the stated error, for any of them, is a statement about all inputs and all times.", "anchors": ["mav_trajectory_generation_ros/src/feasibility_recursive.cpp:42-304", "mav_trajectory_generation_ros/src/feasibility_base.cpp:97-107", "mav_trajectory_generation/src/polynomial.cpp:85-100"]}
{"id": "C129", "title": "The recursive feasibility check accepts what keeps the limits with a margin", "statement": "A segment is found feasible whenever, at every time, thrust, speed and the ratio of jerk and thrust keep the configured limits with the margins by which they can change during two smallest sections (sqrt(3) times the bound on the next derivative times twice the smallest section), the yaw limits hold, the thrust exceeds 1e-3 if roll and pitch rates are limited, the segment lasts at least one smallest section and the root finder reports success: the answers infeasible and indeterminable are excluded, whatever zeros the root finder returns; a number of nested calls logarithmic in duration over smallest section is enough. The same for the root finder of the code, whose success is certain for segments of degree at most four, and for trajectories with at least one segment. A segment shorter than the smallest section is never decided. With a rounding after every operation the same holds with the errors of the evaluation added to the margins, three smallest sections instead of two, and segments of at least 11/10 smallest sections.", "quantifier": "all segments of 3 or 4 dimensions with 4 to 22 coefficients and all trajectories, all limits, all gravity vectors, all positive smallest sections, all root finders", "why_tests_cant": "That a conservative check does not reject or leave open what is clearly within the limits must hold for all flights and all times between the ones evaluated; a test shows it for the flights it tries.", "anchors": ["mav_trajectory_generation_ros/src/feasibility_recursive.cpp:42-304", "mav_trajectory_generation_ros/src/feasibility_base.cpp:97-107"]}
{"id": "C130", "title": "The feasibility check by sampling between its samples and in floating point", "statement": "The check evaluates a segment at 0, dt, 2dt, ... up to its duration. If it returns feasible, then at every time of the segment, also between and after the samples, thrust and speed keep the configured limits up to sqrt(3) * dt * (bound on the components of the next derivative); without such a margin this is not so. With a rounding after every operation: feasible means that the computed state at every sampled time, t += dt as it comes out, meets every limit, and any other verdict names a limit violated at the first sample that does not; feasible implies the limits of thrust and speed at all times up to the error of the conversion, sqrt(3) times the error of evaluation and the change during (1+u) dt + u T; a complaint about thrust or speed is right up to the errors of conversion and evaluation; the check returns when dt is at least 4 roundings of the duration and the duration in nanoseconds fits 64 bits, and then accepts what keeps the limits with those errors as margin. Segments longer than 2^63 ns run into an undefined conversion of the time stamp, and a dt below the roundings of the time makes the loop endless.", "quantifier": "all segments of 3 or 4 dimensions, all limits, all sampling intervals, all monotone roundings with a relative error, all conversions to a state of the vehicle with a bounded error", "why_tests_cant": "A sampled check says nothing by itself about the times between its samples, and a loop over accumulated doubles ends or not depending on how they round; both are statements about all times and all intervals.", "anchors": ["mav_trajectory_generation_ros/src/feasibility_sampling.cpp:40-106"]}
{"id": "C131", "title": "The analytic feasibility check in floating point", "statement": "With a rounding after every operation, let the analytic check return a verdict for a segment. If it is feasible, then at every time of the segment thrust and speed keep their limits up to an explicit error (the error of evaluating the norm at a candidate, of the rounded thrust polynomial, and of the search: the bound on the next derivative times the accuracy of the root finder plus a term growing like the root of the rounding unit), and the yaw rate and acceleration keep theirs as in C128, provided the root finder is accurate. Whatever the root finder returns, a verdict that names a limit is right up to the error of evaluation at some time of the segment, and roll and pitch rates are never named. Without a limit of the roll and pitch rates the verdict is never indeterminable, so that a segment that keeps its limits with those errors as margin is accepted. The check returns whenever the root finder does, after a number of nested calls that depends only on duration and smallest section; with the root finder of the code it does return, always with the same verdict. The same holds for trajectories.", "quantifier": "all segments of 3 or 4 dimensions with at least four coefficients, all limits, gravity vectors and settings, all monotone roundings with a relative error, all root finders and the root finder of the code", "why_tests_cant": "The statement is about all times of all segments and about all roundings; a test samples finitely many times of a few segments with one rounding.", "anchors": ["mav_trajectory_generation_ros/src/feasibility_analytic.cpp:42-233", "mav_trajectory_generation/src/segment.cpp:83-185"]}
{"id": "C132", "title": "Evaluation with overflow, underflow, infinities and NaN", "statement": "With the numbers of the format binary64 (53 bits, gradual underflow below 2^-1022, overflow to infinity at 2^1024, NaN): when evaluate(t, derivative) returns a finite number, every coefficient used and the time are finite, and the number is the exact derivative at t up to 2N relative errors of 2^-53 of each term plus what underflow can add, at most 3 * 2^-1075 * (1 + 2^-53)^2N * (1 + |t| + ... + |t|^(N-1)), however large coefficients and time are; so overflow never produces a plausible wrong number. The result is finite whenever the derivative of the polynomial with the absolute coefficients is at most 2^1021 at max(1, |t|) and |t| is at most 2^40. In a trajectory with finite durations whose total did not overflow, looking up a time keeps the accuracy of C101 and produces no overflow; a time after the end, or +infinity, gives zeros; NaN is not rejected, the last segment is evaluated at NaN and every derivative that is not constant is NaN; at -infinity the first segment is used and the results are not finite.", "quantifier": "all polynomials of at most 22 coefficients, segments and trajectories, all doubles as coefficients, durations and times", "why_tests_cant": "The range of double has 2^64 points for every argument and overflow or underflow occurs in corners a test does not visit.", "anchors": ["mav_trajectory_generation/include/mav_trajectory_generation/polynomial.h:117-150", "mav_trajectory_generation/src/polynomial.cpp:145-160", "mav_trajectory_generation/src/segment.cpp:51-58", "mav_trajectory_generation/src/trajectory.cpp:48-79"]}
{"id": "C133", "title": "A feasibility check does not accept a segment whose state is not a number", "statement": "With the numbers of the format binary64: a segment whose velocity or acceleration is NaN at all times, because a coefficient is NaN or because finite coefficients overflow with opposite signs, is not accepted by a feasibility check with limits, and a limit that is NaN is rejected. The recursive check with a limit on the speed (NaN velocity) or on the highest thrust (NaN acceleration) does not accept it, whatever the root finder returns, and a NaN yaw rate or acceleration that is limited is not accepted by the recursive and the analytic check. The claim fails for half planes (every answer for a segment with a NaN coefficient is that it is inside), for the analytic check in three dimensions (every answer is feasible, whatever the limits), for the check by sampling without yaw limits, for the recursive check with a limit on the lowest thrust only, and addConstraint stores NaN as a limit that nothing violates.", "quantifier": "all segments of at most 22 coefficients, all limits, all half planes, all root finders and the root finder of the code, all orders of summation", "why_tests_cant": "NaN compares false with everything, so that what a check does with it depends on the form of every comparison on every path; a test tries a few paths with a few coefficients.", "anchors": ["mav_trajectory_generation_ros/src/feasibility_recursive.cpp:42-304", "mav_trajectory_generation_ros/src/feasibility_analytic.cpp:42-233", "mav_trajectory_generation_ros/src/feasibility_sampling.cpp:38-128", "mav_trajectory_generation_ros/src/feasibility_base.cpp:119-154", "mav_trajectory_generation_ros/src/input_constraints.cpp:32-43"]}
{"id": "C134", "title": "The root finder follows the algorithm of Jenkins and Traub", "statement": "In exact arithmetic every zero that the root finder reports for a polynomial of degree greater than two is an estimate of the three-stage algorithm of Jenkins and Traub for the polynomial that is left at that point. The first auxiliary polynomial is the derivative divided by the degree, followed by five steps without shift. Every later one comes from the one before by a step of the algorithm, K' = (P - (P(s)/K(s)) K)/(x - s) for a real shift s, or the polynomial determined by sigma K' = alpha K + (x + beta) P for a quadratic shift sigma, with the forms without division where the divisor is negligible. A real estimate is s - P(s)/K(s), or -P(0)/K(0) at first; a new quadratic x^2 + u' x + v' is the one for which K + u' K1 + v' K2 vanishes at the zeros of the shift, where K1 and K2 follow K without shift (zero where there is no unique one). The fixed shift is x^2 - 2 b x0 x + b, where b is the positive number at which the modulus of the constant coefficient balances the other terms, up to the factor (n-1)/200, so that no zero of the polynomial is smaller than b - (n-1) b/200; the direction of x0 is turned by the same angle before each attempt, at most twenty times.", "quantifier": "all polynomials of degree 3 to 100 with real coefficients, all numbers of rounds of the loops", "why_tests_cant": "A wrong formula for an intermediate polynomial only makes the iteration converge more slowly, or elsewhere, for some polynomials; a test sees the zeros of a few polynomials, which pass the final test of the iteration anyway.", "anchors": ["mav_trajectory_generation/src/rpoly/rpoly_ak1.cpp:189-388", "mav_trajectory_generation/src/rpoly/rpoly_ak1.cpp:391-545", "mav_trajectory_generation/src/rpoly/rpoly_ak1.cpp:566-883"]}
{"id": "C135", "title": "Sampling a range of a trajectory ends, for all doubles", "statement": "With the numbers of the format binary64: evaluateRange(t_start, t_end, dt) returns after finitely many steps, or refuses its arguments, and does nothing undefined. For finite times with 0 <= t_start <= t_end, t_start before the end of the trajectory, dt > 0 and t_end <= n * dt for an n up to 2^51 (and memory for n + 1 samples) it returns at most 2n samples at increasing times before t_end, each of them the value of a segment at a time not beyond its duration; starting in the first segment the first sample is the value at t_start. With dt = +infinity there is one sample. The general claim is false of the code: an infinite time, NaN, dt = 0 or at least 2^64 expected samples are undefined behaviour, also through sampleTrajectoryInRange, whose range check NaN passes; a negative dt as large as the range never returns; nor does a positive dt that is lost in the sum with the time, such as 2^-54 from 1 to 1 + 2^-50, where 16 samples are expected.", "quantifier": "all trajectories, all doubles as start, end and interval", "why_tests_cant": "That a sum of double does not advance the time happens for particular pairs of time and interval; a test that meets one does not end, and the others say nothing about it.", "anchors": ["mav_trajectory_generation/src/trajectory.cpp:81-141", "mav_trajectory_generation/src/trajectory_sampling.cpp:45-67"]}
{"id": "C136", "title": "Comparisons with infinities and NaN", "statement": "With the numbers of the format binary64: operator== of polynomials and trajectories with the same number of coefficients is true exactly when all durations and coefficients are the same and none is NaN; it is symmetric and transitive, and trajectories that compare equal have the same values at all times, infinite and NaN times included. isEqualTol of vertices with a finite tolerance is true only if all entries are finite and differ by at most tol / (1 - 2^-53), and is true if they are finite and differ by at most tol. Both are reflexive without NaN (for isEqualTol also without infinities). Reflexivity in general is false of the code: a trajectory with a NaN is not equal to itself or to any copy, and a vertex with an infinite entry or NaN is not equal to itself for any tolerance, infinity included.", "quantifier": "all polynomials, trajectories and vertices, all doubles in them, all tolerances", "why_tests_cant": "Laws for all pairs and triples of objects; NaN and infinity make comparisons of single entries behave differently from equality, in any position.", "anchors": ["mav_trajectory_generation/include/mav_trajectory_generation/polynomial.h:65-70", "mav_trajectory_generation/src/segment.cpp:28-39", "mav_trajectory_generation/src/trajectory.cpp:34-46", "mav_trajectory_generation/src/vertex.cpp:170-182"]}
{"id": "C137", "title": "Planning with positions and limits that are not numbers", "statement": "With the numbers of the format binary64, when some of the given numbers are NaN or infinite: (a) setupFromVertices and updateSegmentTimes return exactly when all durations are above 0 (finite or +infinity), and otherwise - NaN included - end the program with a failed check; (b) a prescribed derivative that is not finite leaves no finite coefficient in that dimension of the two neighbouring segments, and NaN makes all of them NaN; (c) the estimated times show a position that is NaN, so that the optimiser refuses them; (d) scaleSegmentTimesToMeetConstraints answers true only for trajectories whose velocities and accelerations are within the limits, and never for a limit that is NaN; (e) scaleSegmentTimes refuses NaN. (a), (b), (c) for estimateSegmentTimes(Nfabian), the NaN limits, and (d) for the values at the ends of the segments that are numbers hold. False of the code: estimateSegmentTimesVelocityRamp gives 0.1 s for a segment at a NaN position; a trajectory with a NaN coefficient in every segment is reported to be within any limits, unchanged; scaleSegmentTimes(NaN) answers true and makes all durations NaN. Together: vertices with NaN positions pass through time estimation by velocity ramp, set-up, solution and scaling to limits, and every step reports success.", "quantifier": "all vertices, durations, limits and trajectories with any doubles in them, all orders of addition, all root finders", "why_tests_cant": "Which numbers are NaN is arbitrary, and NaN passes some comparisons and fails others; a test covers single places of single inputs.", "anchors": ["mav_trajectory_generation/src/vertex.cpp:228-290", "mav_trajectory_generation/include/mav_trajectory_generation/impl/polynomial_optimization_linear_impl.h:56-109", "mav_trajectory_generation/include/mav_trajectory_generation/impl/polynomial_optimization_linear_impl.h:262-305", "mav_trajectory_generation/src/trajectory.cpp:191-227", "mav_trajectory_generation/src/trajectory.cpp:344-429"]}
{"id": "C138", "title": "Times are printed to the microsecond, in aligned columns", "statement": "SecondsToTimeString shows every finite time as a decimal number that differs from it by at most half a microsecond, keeps the order of times, and has exactly nine characters for all times that round to less than 100 and more than -10 seconds (never fewer); infinities and NaN also give nine characters, which are no number. After any history of calls the text of Print has two lines of heading and one line per timer; read column by column each line gives the name, in a column as wide as the longest name ever requested, the number of samples, and total, mean, deviation, minimum and maximum, each to half a microsecond. Without timers the text is empty.", "quantifier": "all times, all histories of calls, all names", "why_tests_cant": "Rounding to six decimals, the buffer of fixed size and the widths of columns matter at particular values (ties, 100 seconds, 255 characters) and after particular histories; a test prints a few tables and compares no text.", "anchors": ["mav_trajectory_generation/src/timing.cpp:45-61", "mav_trajectory_generation/src/timing.cpp:153-200"]}
{"id": "C139", "title": "Debug output does not change an optimisation", "statement": "Turning print_debug_info or print_debug_info_time_allocation on or off does not change what optimize() of the nonlinear optimiser returns or leaves behind, nor whether it returns; with both off nothing is printed. With print_debug_info the costs shown are exactly the values given to NLopt, in order, with the iterations numbered from 0, and the soft costs shown in one evaluation sum to the one in the statistics. With the method of Mellinger the segment times shown last are those of the optimiser afterwards, and the maxima shown last are those of the trajectory returned and, if the scaling succeeded, within a thousandth of the limits.", "quantifier": "all optimisers, parameters, flags, and all runs of NLopt (sequences of callbacks, codes, exceptions)", "why_tests_cant": "The output is interleaved with the callbacks NLopt makes, and with the time allocation flag the maxima are computed two more times, each of which could fail; tests run with one setting of the flags and do not read the output.", "anchors": ["mav_trajectory_generation/include/mav_trajectory_generation/impl/polynomial_optimization_nonlinear_impl.h:170-259", "mav_trajectory_generation/include/mav_trajectory_generation/impl/polynomial_optimization_nonlinear_impl.h:366-406", "mav_trajectory_generation/include/mav_trajectory_generation/impl/polynomial_optimization_nonlinear_impl.h:555-795"]}
{"id": "C140", "title": "The same seed gives the same results", "statement": "If two programs make an optimiser with the same parameters and a random_seed that is not negative, set it up with the same arguments and then use it with the same sequence of calls, they get the same answers from it, and the same solution and statistics, whatever they did before, at whatever time of day, and whatever they do with other optimisers. A set-up seeds NLopt's generator from random_seed, or from the clock if random_seed is negative; no other call seeds it. Proved if no other optimiser is set up or run after the first set-up; otherwise false of the code: the generator belongs to the program, so that setting up another optimiser before optimize() changes the result.", "quantifier": "all libraries with any generator, all parameters, programs (sequences of calls on any number of optimisers), clocks and states of the generator", "why_tests_cant": "Relates two executions over all histories and states of a generator shared by all optimisers; a test runs one program in one process.", "anchors": ["mav_trajectory_generation/include/mav_trajectory_generation/polynomial_optimization_nonlinear.h:37-84", "mav_trajectory_generation/include/mav_trajectory_generation/impl/polynomial_optimization_nonlinear_impl.h:54-94", "mav_trajectory_generation/include/mav_trajectory_generation/impl/polynomial_optimization_nonlinear_impl.h:96-130"]}
{"id": "C141", "title": "NLopt gets the settings the user asked for", "statement": "After any sequence of calls on any number of optimisers, each optimiser has the parameters it was made with, and the NLopt object behind it the algorithm, f_abs, f_rel, x_abs, x_rel and max_iterations from these, each in its place, and inequality_constraint_tolerance for each of the limits handed over as constraints; each set-up begins with a new object, without constraints, with one variable per segment and, for the methods that optimise the free derivatives too, one more for each of these. If NLopt keeps to its limit, the statistics report at most max_iterations iterations. A negative initial_stepsize_rel selects a heuristic for the steps, as documented: false of the code, which hands negative steps over.", "quantifier": "all parameters, all sequences of calls on any number of optimisers, all runs of NLopt that keep to the limit on evaluations", "why_tests_cant": "Invariants over all histories; a swapped pair of stopping criteria leaves results plausible, which a test does not notice.", "anchors": ["mav_trajectory_generation/include/mav_trajectory_generation/polynomial_optimization_nonlinear.h:37-84", "mav_trajectory_generation/include/mav_trajectory_generation/impl/polynomial_optimization_nonlinear_impl.h:54-94", "mav_trajectory_generation/include/mav_trajectory_generation/impl/polynomial_optimization_nonlinear_impl.h:525-553"]}
{"id": "C142", "title": "What is printed tells what there is", "statement": "The text printed for a vertex, a segment, a list of vertices or of segments, or a derivative of a segment (printSegment) determines what it was printed from, as far as the digits of the numbers tell: the number of objects, the durations, the dimensions, the coefficients of each dimension in order, and the derivatives prescribed at a vertex with their values. Every vertex can be printed; printSegment fails its check exactly for derivatives that are negative or not below the number of coefficients. The names of the verdicts of the feasibility checks tell them apart. False of the code for derivatives above the snap: they are all named invalid, so that vertices with different constraints print the same.", "quantifier": "all vertices, segments and lists of them, all derivatives, and all ways of writing numbers", "why_tests_cant": "Two different objects must never print the same; the layout depends on the widths of all numbers, and tests do not read the output.", "anchors": ["mav_trajectory_generation/src/vertex.cpp:209-226", "mav_trajectory_generation/src/segment.cpp:60-81", "mav_trajectory_generation/src/motion_defines.cpp:25-34", "mav_trajectory_generation_ros/src/feasibility_base.cpp:32-52"]}
{"id": "C143", "title": "Random paths of the timing evaluation", "statement": "createRandomVerticesPath returns n+1 vertices, the first of them in the cube [-1,1]^D, with zero for all derivatives up to the given order at both ends and nothing but positions prescribed otherwise, and neighbours at most twice the average distance apart; other arguments are refused. Proved but for the distances, which can be up to 6 times the average plus the square root of the dimension: the path does not add up its steps, and stays within 4 times the average of the origin. Negative averages are not refused, and in dimension 0 the call does not return.", "quantifier": "all dimensions, numbers of segments, averages, orders and all streams of random numbers in the intervals they are drawn from", "why_tests_cant": "Quantifies over every stream of random numbers; the program is a benchmark without tests.", "anchors": ["mav_trajectory_generation/src/polynomial_timing_evaluation.cpp: createRandomVerticesPath"]}
{"id": "C144", "title": "Polynomial arithmetic with overflow, underflow, infinities and NaN", "statement": "In double arithmetic, a coefficient of a sum, a multiple, a derivative, a product, or of a polynomial with an offset or scaled in time, is a finite number only if all coefficients and factors that contribute to it are finite: infinities and NaN do not disappear. For sums, multiples, offsets and the coefficients of derivatives it then is the double nearest to the exact result of the two numbers; for products and scaling it is the exact coefficient up to a number of relative errors of 2^-53 that is given by the number of coefficients, plus what underflow can add. Sums do not depend on the order of the operands; of products this is false. Scaling is exact where the powers and results are doubles. An offset leaves all derivatives as they are, bit by bit, and appended coefficients all values (false at infinite times). Results are finite if the exact ones, for products with absolute values, are in range. The last is false for scaling in time: the powers of the factor can overflow where the coefficient is zero, so that a constant with three coefficients, scaled by 2^600, becomes NaN.", "quantifier": "all polynomials of any length over the doubles including infinities and NaN, and all factors", "why_tests_cant": "Quantifies over all doubles; tests use coefficients of moderate size.", "anchors": ["mav_trajectory_generation/include/mav_trajectory_generation/polynomial.h:73-113", "mav_trajectory_generation/src/polynomial.cpp:145-211"]}
{"id": "C145", "title": "Random numbers and comparisons of the test helpers", "statement": "createRandomDouble(min, max) returns a number from min to max, both of which occur, and every number between them is within (max - min) / RAND_MAX of one that can be returned. checkMatrices is true exactly if all pairs of entries of two matrices of the same size differ by less than the tolerance. In double arithmetic the random number is finite and not below min, and exceeds max by at most three relative errors of 2^-53 of |min| + |max|; that it does not exceed max at all is false. min occurs there too, and an interval of one number has only this one. Matrices without entries and of different sizes must not be compared.", "quantifier": "all bounds, all values of std::rand and of RAND_MAX, all matrices and tolerances", "why_tests_cant": "The tests use these helpers and do not test them; a wrong helper makes other tests pass for the wrong reason.", "anchors": ["mav_trajectory_generation/include/mav_trajectory_generation/test_utils.h:31-41"]}
