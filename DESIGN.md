# Formal model of mav_trajectory_generation: design

## 1. Approach

The C++ is read as text and rewritten function by function as small total Lean
functions (`lean/Verif/Model/*.lean`). Every definition names the file and the
lines it models and says where it simplifies. Small independent specifications
are in `Verif/Spec/*.lean` (mostly plain Mathlib notions: sums, `iteratedDeriv`,
integrals, `IsLeast`, and inductive definitions of histories). Helper lemmas are
in `Verif/Proofs/*.lean`. The property theorems are in `Verif/Props/*.lean`, named
`Cxx_...` after the property in `properties.jsonl`; next to them an `example`
shows a concrete, non-trivial case meeting the hypotheses.

Suffixes: `_partial` marks a theorem that proves a part of the property (the
missing part is said in its comment and in MANIFEST.json); `_false` marks a
refutation: the negation of the property, or of a part of it, with a witness or
for all inputs of a class. Where the code violates the property as a user would
state it, the property is kept as it is, refuted, and the largest part found that
does hold is proved.

### Modelling decisions

* **Numbers.** `double` is modelled as exact arithmetic in an ordered field `K`
  (computable at `K = ℚ`, used for the concrete examples) or as `ℝ` where
  square roots, integrals or derivatives are needed. Rounding, overflow, NaN and
  infinities are outside of the model. Exceptions: evaluation and arithmetic of
  polynomials, `setSegments`, `Trajectory::evaluate` and `evaluateRange` are
  defined for any type with the operations, and C99-C102 are about the same
  definitions at `Fl rnd`, numbers that round after every operation
  (`Model/Rounded`; unlimited exponents, no fused operations); the root finder is modelled
  over a type with operations and *no laws*, so memory safety (C61) holds for IEEE
  doubles including NaN, and termination is proved for exact numbers (C62) and with
  rounding (C123); C132, C133, C135, C136 and C137 are about evaluation, the feasibility checks, sampling, comparisons and planning with the whole format binary64 (`Model/Double`, `Model/DoubleChecks`, `Model/DoubleRange`, `Model/DoubleEqual`:
  gradual underflow, overflow, infinities, NaN); C113-C116, C118, C120-C122, C124-C126, C128-C131 are about the same definitions or copies of
  them for numbers without laws (`..._same_code`) at `Fl rnd`; the constants
  `epsilon = 2^-52`, `DBL_MAX`, `DBL_MIN` are those of IEEE doubles where the code
  uses them; casts to integers of nanoseconds are modelled with truncation.
* **Integers.** `int` and `size_t` are unbounded except where wrap-around or
  overflow is within reach of a user (the counters of the timing statistics, the
  nanoseconds of messages).
* **Outcomes.** `Res α` has the constructors `ok a`, `abort` (a glog `CHECK`
  failed), `throws` (a C++ exception leaves the function), `ub` (undefined
  behaviour: out-of-bounds access, Eigen size mismatch, null pointer, ...) and
  `hang` (a loop does not terminate; produced only by fuel-driven loops, with a
  theorem on how much fuel is enough). `DCHECK`s and Eigen's assertions are
  taken as compiled out, so what they would catch is `ub`.
* **Vectors** are lists; an out-of-range access is `ub`, never a default value.
  Where a default value occurs in a specification (`getD`) the index is in range
  by another hypothesis or the default is the intended value.
* **Objects.** A method is a function from the state of the object to the new
  state and the result. Histories of calls are inductive predicates
  (`Reachable`, `Session`, `OptReachable`, `NlSession`, `NlLog`, `runTiming`, ...).
* **External code** is a parameter; what a theorem needs of it is a hypothesis
  named in the statement. See the trusted base.

## 2. Trusted base

1. **Lean's kernel** and the axioms `propext`, `Classical.choice`, `Quot.sound`.
   No theorem depends on any other axiom; there is no `sorry`, `native_decide`,
   `bv_decide`, `implemented_by` or `unsafe`. Concrete cases are evaluated by the
   kernel (`decide +kernel` on ℚ), which adds no axiom.
2. **Mathlib's definitions** used in the statements (ℝ, `deriv`, `iteratedDeriv`,
   the interval integral, polynomials, matrices).
3. **The translation.** That the definitions in `Verif/Model` mean what the C++ at
   the cited lines means was checked by reading only (the code could not be built
   here). Section 4 lists what is modelled.
4. **Assumptions on external code**, each a visible hypothesis of the theorems
   that use it:

| Assumption | About | Used for |
|----|----|----|
| `Spec.Complete rf` | the root finder returns every real root with imaginary part 0 (`complete_rootFinder_exists`: satisfiable; the code's root finder is treated separately in C50, C51, C61-C64) | C06, C18, C19, C39-C43, C72, ... |
| `Spec.Approx ε rf` | the root finder returns a number within `ε` of every sign change (`shifted_approx`: met by a root finder that is always off by `ε`; implied by `Complete`) | C103 |
| `Spec.Exact rf` | complete, and every returned number is a root | sharp statements, witnesses |
| `sq = Real.sqrt`, `ex = Real.exp` | `std::sqrt`, `exp` | magnitudes, time estimates, penalties |
| `Spec.IsInverse inv` | Eigen's `inverse()` inverts invertible matrices | C28-C34, optimisers |
| `Spec.IsSolver solve` | SparseQR returns a solution of every solvable system | C33, optimisers |
| `Spec.RunOf lib g o run`, `Respects` | NLopt acts on the object only through callbacks at points within the bounds it was given; the number, order and points of callbacks and the result code are arbitrary | C65-C76, C79, C80, C82 |
| `LibSpec lib` | the five library functions above together | nonlinear optimiser |
| `Spec.ReadsBack cd rnd` | yaml-cpp reads integers back unchanged and doubles up to a rounding `rnd` | C35, C36, C53, C54, C57 |
| `Spec.Copies mc`, `Copies4D` | the conversions of mav_planning_msgs copy their fields | C37, C49 |
| `conv` | the conversion of flat states to full states (mav_msgs) is an arbitrary function | C59 |
| `Spec.ExactMath m` | `fabs`, `sqrt`, powers and constants of `<cmath>` are exact (only for C63; C61, C62 need nothing) | C63 |
| `Spec.Rounding rnd u` | rounding of a `double` operation: relative error at most `u`, monotone, rounded numbers stay (`round53_rounding`: holds for 53 bits with ties to even and `u = 2^-53`) | C99-C102, C113-C116, C118, C120-C122 |
| `Spec.RoundedMath m` | `fabs` and `== 0` exact, `pow(2, .)` not 0, the first guess `exp((log(a)-log(b))/n)` positive with an n-th power of at least half of a/b, 0 for a = 0 (`flMath_rounded`: met by correctly rounded functions) | C123, C125 |
| `Spec.RoundedSqrt m` | `sqrt` correctly rounded (IEEE 754), `DBL_EPSILON` not negative (`flMath_sqrt`) | C125 |
| `Spec.ApproxOn ε a b rf` | the root finder, given rounded coefficients, returns a number within `ε` of every sign change in `[a, b]` (`roundedRoots_approx`: the exact roots rounded have it) | C114-C116, C124 |
| `Spec.DotOk u dot` | a scalar product of Eigen of two vectors of length `n` has an error of at most `n` roundings of every term (`seqDot_ok`: adding from left to right has it) | C118, C120, C121, C124 |
| `Spec.PowOk u q pow` | `pow` with a positive base and a whole exponent has an error of at most `q` roundings (`rounded_pow`: the rounded exact power has it) | C120 |
| `Spec.Orders order` | the squares of a norm are added each once, in any order (`leftToRight_orders`) | C122 |
| `Spec.ExpOk u e exp` | `exp` of a negative number has an error of at most `e` roundings | C122 |
| `draw` | the random number generator is an arbitrary stream of numbers within the bounds of the distribution | C83 |
| `Spec.IsEigenSolver eig`, `Spec.IsToQuat toQuat` | Eigen's solver returns orthonormal eigenvectors of symmetric 3 by 3 matrices, Eigen converts rotation matrices to unit quaternions | C105 |
| events of ROS | callbacks run one after the other, a timer fires only while started | C49 |


## 3. Per property

| Id | Property | Status | What is modelled | How it is proved | Theorems in `Verif/Props/` |
|----|----|----|----|----|----|
| C01 | Polynomial evaluation returns the true derivative | proved | `Polynomial::evaluate` (both forms), `computeBaseCoefficients` | Horner loops by induction against `iteratedDeriv` of the sum of powers | Polynomial |
| C02 | Derivative coefficients agree with evaluation | proved | `getCoefficients` | coefficients compared with Mathlib's iterated polynomial derivative | Polynomial, Refusals, ShortPolynomials |
| C03 | Polynomial arithmetic is function arithmetic | proved | `operator+`, `+=`, `*`, scaling, `convolve` | coefficient lists against polynomials of Mathlib | Polynomial, ShortPolynomials |
| C04 | Polynomial re-parametrisations preserve the curve | proved | `getPolynomialWithAppendedCoefficients`, `scalePolynomialInTime`, `offsetPolynomial` | function equalities for all arguments | Polynomial |
| C05 | The base-coefficient row reproduces evaluation | partial | `baseCoeffsWithTime` | row times coefficients is the derivative; a witness for times below epsilon | Polynomial, Refusals |
| C06 | computeMinMax returns the true extrema on the interval | proved | `computeMinMax`, candidates | extreme value theorem and Fermat's theorem, for a complete root finder | Polynomial, ShortPolynomials |
| C07 | Extremum candidates are safe whatever the root finder returns | proved | candidate selection | for every root finder: candidates in the interval, values attained | Polynomial |
| C08 | Trajectory bookkeeping invariant | proved | all mutators of `Trajectory` | invariant by induction over histories (`Spec.Reachable`) | Trajectory |
| C09 | Trajectory evaluation picks the right segment | proved | `Trajectory::evaluate` | induction over the segments | Trajectory |
| C10 | Derivatives of a trajectory are consistent | proved | `Trajectory::evaluate` for all orders | `deriv` inside segments, one-sided at vertices | Trajectory |
| C100 | Sums, products and scaled polynomials in floating point are accurate coefficient by coefficient | proved | `add`, `mul`, `scaleInTime` at `Fl rnd` | induction over the fold of products; the exact theorems of C03 for the polynomials of absolute values | Rounded |
| C101 | Finding the segment in floating point | proved | `setSegments`, `Trajectory.evaluate` at `Fl rnd` | the search adds the times in the same order as `setSegments`; induction over the segments | Rounded |
| C102 | Sampling a range in floating point | partial | `evaluateRange` at `Fl rnd` | induction over the loop; eleven roundings computed for the witness | Rounded |
| C103 | Extrema and limits with a root finder of limited accuracy | proved | the extremum functions with any root finder of accuracy `Approx ε` | next to an interior maximum the derivative changes its sign, finitely many candidates, mean value theorem; the magnitude is Lipschitz with the bound of the next derivative | ApproxRoots |
| C104 | Feasibility verdicts and the accuracy of the root finder | proved | the three checks with any root finder, and with any of accuracy `Approx ε` | the values compared with the limits are attained, so violations are real for every root finder; feasible: the error of each candidate list (C103) carried through the interval arithmetic of the sections, by induction on the depth | FeasibilityApprox |
| C105 | Drawn axes, arrows and covariances show their quantity | partial | `drawAxes`, `drawArrowPositionOrientation`, `drawArrowPoints`, `drawCovariance3D`; eigenvalue solver and matrix-to-quaternion conversion as parameters | quaternion algebra; orthonormal columns give orthonormal rows; the ellipsoid in the basis of the eigenvectors; both parameters shown to exist (spectral theorem, Shepperd's formula) | VisualizationShapes |
| C106 | Asking for more costs more, more freedom costs less | proved | `solveLinear`, `setFreeConstraints`, `computeCost` of two sessions | the result of one problem, with a segment split by a Taylor shift or with the times scaled, competes in the other (C33); the integral of the split segment is the sum of two | LinearCost |
| C107 | The benchmark reports what its columns say | partial | `evaluateTrajectory`, `computePathLength`, `computePointLineDistance`, `runBenchmark`, `createMarkerForPath` | extrema by C19; polygon and trapezoid rules with Lipschitz bounds between samples 10 ms apart; distance from a line as `Metric.infDist`; induction over the methods for the rows | TimeEvaluation |
| C108 | Linear methods of the benchmark, and the scaling of segment times by violation | partial | `runLinear`, `runNfabian`, `runTrapezoidal`, `runSegmentViolationScaling`, `runNonlinear` | optimality from C33, extrema of each segment from C19, time scaling from C81; witnesses from the closed form of the rest-to-rest polynomial of degree nine | ViolationScaling |
| C109 | Unusable calls of the linear optimiser are refused | partial | `LinOpt.new`, `setupFromVertices`, `updateSegmentTimes`, `setFreeConstraints`, `solveLinear` | case analysis of the checks in order; every reading of a constraint vector is within its size because each kept constraint passed `addConstraint` | LinearMisuse |
| C11 | evaluateRange returns samples at the reported, requested times | partial | `evaluateRange` | loop invariant; exact characterisation, two witnesses | Trajectory |
| C110 | Optimisers are independent of each other | partial | `NlHeap`: objects by address, `ConstraintData::this_object`, the shared `nlopt_`, the copy constructor and assignment | simulation: the heap of objects refines a list of independent values as long as pointers are separate, which every call keeps; refutations by evaluation on rational numbers | NonlinearCopies |
| C111 | The printed table of timers | partial | `Print` (rows of figures, sorted by name) and `GetHz` on the registry of C48 | invariant of the accumulators (C47) and of the registry (C48) over the history; the names by induction over the history; sorting by insertion | TimingPrint |
| C112 | Numerical maxima and costs | partial | `getMaximumMagnitude`, `computeCostNumeric` | Lipschitz bound from the right derivative, which exists at the joints too; left Riemann sums; the integral over the trajectory is the sum over the segments, which C32 equates with the reported cost | TestUtils |
| C113 | Timing statistics in double arithmetic | partial | `Acc` over `Fl rnd` | invariant by induction over the samples: ring buffer without laws of numbers, running error of the sum; counterexample with rounding to 53 bits for any number of later samples | RoundedTiming |
| C114 | Extrema of a polynomial in floating point | proved | `Poly.computeMinMaxFl` (the definitions of `Model/Polynomial` over `Fl rnd`, `C114_same_code`) | the rounded coefficients of the derivative are those of the derivative of a polynomial with close coefficients, whose extrema have a candidate within `e`; then the error bounds of C99 at the candidates | RoundedExtrema |
| C115 | Magnitude extrema in floating point | proved | `Trajectory.computeMinMaxMagnitudeG`, `maxVelocityAndAccelerationG` (the definitions of `Model/Magnitude` over `Fl rnd`, `C115_same_code`) | coefficientwise error bound of the summed convolutions by induction over the dimensions; the sum of squares differs from twice an antiderivative of the rounded polynomial by a function with a small derivative, so that the maximum of the one is near a maximum of the other; Lipschitz bound between the maximum and the candidate; error of the norm; induction over the segments | RoundedMagnitude |
| C116 | Meeting limits in floating point | proved | `Trajectory.scaleToMeetConstraintsG` (the definition of `Model/Magnitude` over `Fl rnd`, `C116_same_code`), `Spec.SlowedBy` | relation between the coefficients of the given and the scaled segments that composes over iterations; sizes of the scaled trajectory from those of the given one, so that the accuracy of C115 holds in every iteration; induction over the iterations; for success the rounded factor is large enough that the second test passes | RoundedLimits |
| C117 | Every duration can be stored | partial | `Segment.getTimeNSec` and its callers `trajectoryToYaml`, `segmentsToFile`, `trajectoryToMsg` | floor against truncation; induction over the segments before the first that cannot be stored | StoredDurations |
| C118 | Vertices are met in floating point | proved | `setupMappingMatrixG`, `invertMappingMatrixG`, `segmentCoeffsG` (the definitions of `Model/LinearOptimization` over `Fl rnd`, `C118_same_code`); `inv` (no assumption, residual in the bound), `dot` (`Spec.DotOk`) | calculus of values with a size and a number of roundings (`Near`), closed under products and scalar products; the exact identity of the Schur complement with the residual of the inverse | RoundedMapping |
| C119 | Any sampling interval is accepted | partial | `Trajectory.evaluateRangeMem`: the conversion to `size_t` and `reserve` in front of `Trajectory.evaluateRange` | floor of the expected number of samples against the room in memory | RangeMemory |
| C12 | evaluateRange never reads outside the segment list and terminates | partial | `evaluateRange` | bound on the number of iterations; no out-of-bounds access | Trajectory |
| C120 | The cost in floating point | proved | `computeQuadraticCostJacobianG`, `LinOpt.computeCostG` (the definitions of `Model/LinearOptimization` over `Fl rnd`, `C120_same_code`); `dot` (`Spec.DotOk`), `pow` (`Spec.PowOk`) | the calculus of C118 for the entries of the cost matrix, the quadratic forms and the running sum; C32 for the exact quadratic forms | RoundedCost |
| C121 | The linear optimiser as a whole in floating point | proved | `LinOpt.setupFromVerticesG`, `updateSegmentTimesG`, `updateSegmentsG`, `solveLinearG`, `setFreeConstraintsG` (the definitions of `Model/LinearOptimization` over `Fl rnd`, `C121_same_code`); parameters `OptLib`, `sol` (no assumption but `Spec.DotOk`) | induction over the calls with the invariant of C29-C34 for numbers without laws; the row of the permutation matrix has one entry, so the copy rounds a rounded number; then C118 | RoundedOptimizer |
| C122 | Time estimates with rounding after every operation | proved | The three time estimates of vertex.cpp again for numbers without laws (Model/RoundedTimes): Eigen's norm with an arbitrary tree of additions, sqrt rounded once, exp of the C library as an argument with at most e roundings. | Agreement up to a factor is kept by +, *, /, sqrt and rounding, so that errors of all operations except one are counted by powers of 1/(1-u); the subtraction distance - 2*acc_distance is treated by hand (its error is at most that of the sum it is part of), and at the border of the two cases the formulas themselves agree up to the factor. C122_same_code states that with exact numbers this is the code of C25-C27. | RoundedTimes |
| C123 | The root finder returns in floating point | proved | the definitions of `Model/Rpoly` over `Fl rnd`; `Spec.RoundedMath` for the C library | value and slope are sums of terms of one sign, so they are right up to a factor; the step is right up to 1e-7 of the argument; by convexity a tenth of the argument stays left of the zero, which keeps the new argument positive, and after the first step a step that is not small goes left by at least 1/301; the driver for numbers without laws | RpolyRounded |
| C124 | Half planes with rounding after every operation | proved | `Segment.checkHalfPlanesG`, `halfPlaneSegmentsG`, `projectionG`, `candidatesInsideG` (the definitions of `Model/Feasibility` over `Fl rnd`, `C124_same_code`); `dot` (`Spec.DotOk`), root finder (`Spec.ApproxOn`) | the candidates are near the extrema of a polynomial whose coefficients are those of the projection up to 2N+4 roundings; second order estimate at its minimum (C114); the distances at the candidates by the calculus of C118; induction over candidates, half planes and segments | RoundedHalfPlane |
| C125 | The zeros listed in floating point | proved | the definitions of `Model/Rpoly` over `Fl rnd`; `Spec.RoundedMath`, `Spec.RoundedSqrt` for the C library; `Spec.DeflationFl` | the driver for numbers without laws, with a relation kept by every step (`ChainRel`); backward error of the rounded quadratic formula; the value computed by the Horner and the quadratic recurrence differs from the exact one by a bound that the acceptance test includes; the exact scaling factor cancels | RpolyDeflation |
| C126 | Extrema of a polynomial with the root finder of the code, in floating point | proved | `Model/ExtremaRoots`: `computeMinMax` calling `findRoots` of `Model/Rpoly`, over `Fl rnd` | the root finder returns (C123), so the search is that of C114 with a fixed list of zeros; for degree at most three the zeros returned are the exact ones of a quadratic polynomial with close values (C125), whose antiderivative is close to the one searched by the mean value theorem and has its extrema at the candidates | ExtremaRoots |
| C127 | The analyses of trajectories end with the root finder of the code | proved | `Model/AnalysesRoots`: the analyses of C24-C27, C39-C43 calling `findRoots` of `Model/Rpoly` (which may give up after a number of iterations), over fields and over `Fl rnd` | the root finder returns on every polynomial (C62, C123), so there is a function it computes; each analysis calls it on finitely many polynomials of at most 43 coefficients, so with enough iterations it equals the analysis with that function; the statements for any root finder (C85, C104, a new one for the limits) apply. For low degrees the function is complete (C63) | AnalysesRoots |
| C128 | The recursive feasibility check in floating point | proved | `Model/RoundedFeasibility`: the recursive check of `Model/Feasibility` for numbers without laws (library functions, constants, the scalar product of Eigen and the call of the root finder as arguments), used with `Fl rnd`; `C128_same_code` identifies the two over a field | errors of one evaluation are carried through the sums of squares, roots and quotients as relative errors; the bounds of a section enclose all its times up to the error, the second derivative turns the accuracy of a root into an error of an extremum; rounded midpoints stay inside and shrink sections by 4/5, so recursion ends; `C128_code` uses that the root finder settles (C123). No overflow and no underflow | RoundedFeasibility |
| C129 | The recursive feasibility check accepts what keeps the limits with a margin | proved | `Model/Feasibility` (recursive check over the reals), `Model/AnalysesRoots` for the root finder of the code; `Spec.LimitsWithin`, `Spec.variation` | all candidates of a section lie inside it, so every bound computed for a section of at most two smallest sections is within `variation` of the value at any of its times; with the margin none of the comparisons fails and the section is accepted; longer sections are accepted or halved, and halves of sections of at least two smallest sections are at least one; induction over the nesting. Rounded version: `Model/RoundedFeasibility`, `Spec.LimitsWithinFl`, `Spec.variationFl`; the same induction with the rounded midpoint, which leaves halves of at least 11/10 smallest sections | FeasibilityDecides |
| C13 | Extracting a single dimension keeps the motion | partial | `getTrajectoryWithSingleDimension` | unfolding; refuted for every trajectory | Trajectory |
| C130 | The feasibility check by sampling between its samples and in floating point | proved | `Model/RoundedSampling`: the loop of `Model/Feasibility` for numbers without laws, with the conversion of the time stamp to 64 bits; `C130_same_code` identifies the two over a field | mean value theorem between a time and the sample before it; rounded sums grow by at least half of dt when dt is at least 4 roundings of the duration, so the loop ends; a time that absorbs dt is never passed, by monotonicity. The conversion of mav_msgs is an argument; of it only the error of thrust and speed is assumed, so that between the samples nothing is said about rates. No overflow and no underflow | RoundedSampling |
| C131 | The analytic feasibility check in floating point | proved | `Model/RoundedAnalytic`: the check of `Model/FeasibilityAnalytic` for numbers without laws, with the root finder as a call that may not return; `C131_same_code` identifies the two over a field | the coefficients of the thrust polynomials are those of acceleration plus gravity up to 2N+1 roundings; the candidates of a magnitude for any call of the root finder (the polynomial it is called on is one fixed polynomial), values at candidates and extrema between them by the estimates of C115; nested calls as in C128. Nothing is claimed about the roll and pitch rates of a feasible segment: the code compares the square root of jerk over thrust with the limit (C42). No overflow and no underflow | RoundedAnalytic |
| C132 | Evaluation with overflow, underflow, infinities and NaN | proved | `Model/Double`: the type `Dbl` of finite numbers, two infinities and NaN with the rounding of binary64; the definitions of `Model/Polynomial`, `Model/Segment` and the evaluation of `Model/Trajectory` are the same, used with `Dbl`. The two zeros are one number: nothing here tells them apart | `C132_arithmetic` and `C132_exact` tie the operations to the format (`Spec.IsDouble`, `Spec.Nearest`); infinities and NaN stay not finite under sums and products, so a finite result means no overflow on the way; each rounding is a relative error plus at most 2^-1075; sums of doubles do not underflow, so the search of the segment is that of C101. `C132_underflow_false`: the bound of C99 alone does not survive underflow | Double |
| C133 | A feasibility check does not accept a segment whose state is not a number | partial | `Model/DoubleChecks`: the checks of `Model/RoundedFeasibility`, `Model/RoundedSampling`, `Model/RoundedAnalytic` and `Model/AnalysesRoots` with the operations of `Dbl`; quotient, `<=`, `std::abs` and `std::sqrt` of `double` are added. The conversion of mav_msgs is an argument of which only is assumed that it carries NaN (`Spec.NanConv`) | NaN spreads through Horner's scheme and the norms; the search for extrema starts at plus and minus the largest double and no comparison with NaN succeeds, so the bounds of the recursive check become infinite and no section is accepted, while the comparisons of the other checks are false and nothing is reported; the root finder of the code strips NaN coefficients as if they were zero and returns no zeros, so these checks do return | DoubleChecks |
| C134 | The root finder follows the algorithm of Jenkins and Traub | proved | `Model/Rpoly` as for C61 to C63; the specification is `Spec/RpolySteps`: the steps and estimates in terms of polynomials, not of the arrays of the code | the arrays are read as polynomials (`decPoly`); the formulas of the scalars are checked against the division with remainder (`Proofs/RpolySteps`, `RpolyQuadStep`, `RpolyEstimate`), the bound on the moduli with the convexity of the polynomial of moduli (`RpolyModulus`), and an invariant says that every array and number the nested loops work with is one the algorithm can reach (`RpolyReach`, `RpolySearch`). `C134_fixed_modulus_false`: the comment at rpoly_ak1.cpp:329-331 says that the shift has modulus `bnd`, but the constant coefficient is set to `bnd`, not its square. Missing, and part of C63: that the iteration converges | RpolySteps |
| C135 | Sampling a range of a trajectory ends, for all doubles | partial | `Model/DoubleRange`: the conversion to `size_t` and `reserve` in front of the search and the loop of `Model/Trajectory`, with `Dbl` | as long as `t_end <= 2^51 dt` every sum advances the time by half of dt, which bounds the number of iterations; otherwise induction over the iterations with an invariant that keeps the loop running (`1 + 2^-54` rounds to 1) | DoubleRange |
| C136 | Comparisons with infinities and NaN | partial | `Model/DoubleEqual`: the comparisons of `Model/Polynomial`, `Model/Segment`, `Model/Trajectory` and `Model/Vertex` with the comparison of numbers as an argument (`C136_same_code`), used with that of `Dbl` | induction over coefficients, polynomials, segments and constraints; a difference is finite only if both numbers are | DoubleEqual |
| C137 | Planning with positions and limits that are not numbers | partial | `Model/DoublePlanning`: the estimates of `Model/RoundedTimes`, the optimiser of `Model/RoundedOptimizer` and the scaling of `Model/AnalysesRoots` with `Dbl` | NaN and infinities are carried through sums and products (`DotSpreads` is what is assumed of Eigen's scalar products); an invariant of the optimiser object over all sequences of calls; the maximum over candidates stays at its start when all are NaN and is not below any candidate that is a number, as rounding is monotone | DoublePlanning |
| C138 | Times are printed to the microsecond, in aligned columns | partial | `Model/TimingText`: `%09.6f` of `snprintf` with its buffer, the layout of `Print`, and `max_tag_length_` | the text is read back by the reader of `Spec/TimingText` (digits, point, columns): induction over digits and lines; rounding to the nearest even millionth; an invariant of histories for the width | TimingText |
| C139 | Debug output does not change an optimisation | partial | `Model/DebugOutput`: the functions of `Model/NonlinearOptimization` with the two flags, returning the lines printed (their figures, not their words) | the functions with output, forgetting it, are those without, function by function; if the scaling returns, the maxima before and after it can be computed, as scaled segments have the same shape; induction over the callbacks for what is shown | DebugOutput |
| C14 | Appending dimensions keeps both motions | partial | `getTrajectoryWithAppendedDimension` | lists; witness when N and times differ | Trajectory |
| C140 | The same seed gives the same results | partial | `Model/NloptSettings`: a program with any number of optimisers and the one generator of NLopt; NLopt's run is a function of generator, settings and problem | a relation between two executions (same optimiser, same generator) kept by every call on the optimiser, for any clock as the seed is fixed; calls on others that neither set up nor optimise change neither side | NloptSettings |
| C141 | NLopt gets the settings the user asked for | partial | `Model/NloptSettings`: the settings of the NLopt object, next to `Model/NonlinearOptimization` | an invariant over all sequences of calls that ties the settings to the parameters and the number of tolerances to that of the constraints; the iterations are counted by induction over the callbacks | NloptSettings |
| C142 | What is printed tells what there is | partial | `Model/StreamText`: the operators << of vertices and segments and `printSegment`, with Eigen's layout of vectors; how numbers are written is a parameter | the text is split into lines, and the lines into blocks, each beginning with a letter no other line of it begins with; within a line the columns are found by their separators, which do not occur in numbers and names | StreamText |
| C143 | Random paths of the timing evaluation | partial | `Model/RandomPath`: `createRandomVerticesPath` of the timing evaluation on streams of random numbers | induction on the steps; the positions are written as sums of at most two drawn vectors, then the triangle inequality; refutations by evaluation | RandomPath |
| C144 | Polynomial arithmetic with overflow, underflow, infinities and NaN | partial | the generic `Model/Polynomial` (add, smul, getCoefficients, mul, offset, withAppendedCoefficients, scaleInTime) at `Dbl`, doubles with infinities and NaN (`Model/Double`) | each operation returns a finite number only on finite numbers; error and range of a sum of products and of the powers by induction on the loops; refutation by evaluation | DoublePolynomials |
| C145 | Random numbers and comparisons of the test helpers | partial | `Model/TestHelpers`: `createRandomDouble` for exact numbers and for `Dbl`, `checkMatrices`; what `std::rand` returns is an argument | inequalities; the double nearest to a number is on the same side of every other double; refutation by evaluation | TestHelpers |
| C15 | addTrajectories concatenates in time | proved | `addTrajectories` | induction over the list of trajectories, `evaluate` of the result | Trajectory |
| C16 | offsetTrajectory translates positions and nothing else | proved | `offsetTrajectory` | `evaluate` of the result, all orders | Trajectory |
| C17 | Time scaling law | proved | `scaleSegmentTimes` | scaling law for `evaluate`, all orders | Trajectory |
| C18 | scaleSegmentTimesToMeetConstraints meets the constraints | partial | `scaleSegmentTimesToMeetConstraints` | true maxima (C06/C19) and the scaling law | Magnitude, ShortPolynomials |
| C19 | computeMinMaxMagnitude returns the true extrema of the norm | partial | `computeMinMaxMagnitude` of segment and trajectory | the convolutions give the derivative of the squared norm; extreme value theorem | Magnitude, ShortPolynomials |
| C20 | Vertices extracted from a trajectory reproduce it | proved | `getVertexAtTime` and relatives | values of `evaluate` for the vertices | MissingPositions, Vertex |
| C21 | Empty trajectories and out-of-range times are handled without undefined behaviour | partial | `Trajectory::evaluate` outside of the time range | case analysis; exact outcome for the empty trajectory | Trajectory |
| C22 | Vertex constraints behave as a map | proved | `Vertex` mutators and getters | association list refines a function, induction over histories | Vertex |
| C23 | Tolerance equality of vertices is reflexive and symmetric and means what it says | partial | `Vertex::isEqualTol` | characterised by distances of the constraint values | Vertex |
| C24 | getSubdimension projects constraints | proved | `getSubdimension` | list of constraints, entry by entry | Vertex |
| C25 | Time estimates are usable | partial | `estimateSegmentTimes*` | positivity and monotonicity, witnesses | MissingPositions, Times |
| C26 | The velocity-ramp time is the minimum time for a rest-to-rest motion | proved | `computeTimeVelocityRamp` | minimum time among all C¹ motions at rest at the ends: bounds by integration, construction of the optimal profile | Times |
| C27 | Nfabian time estimates can be fed to the optimiser | partial | `estimateSegmentTimesNfabian` | positivity from distances | MissingPositions, Times |
| C28 | The mapping matrix evaluates end-point derivatives and is invertible | partial | `setupMappingMatrix`, `invertMappingMatrix` | Hermite interpolation: the matrix is injective; block inverse | LinearOptimization |
| C29 | Constraint bookkeeping of the optimiser | proved | `setupConstraintReorderingMatrix`, fixed/free bookkeeping | invariants of the enumeration of constraints | LinearOptimization |
| C30 | The optimised trajectory meets all vertex constraints | proved | `setupFromVertices`, `solveLinear`, `getTrajectory` | constraints of the segments returned, for every session | LinearOptimization |
| C31 | The optimised trajectory is continuous up to order N/2-1 | proved | the same | the two sides of a vertex read the same compact entry | LinearOptimization |
| C32 | The quadratic cost is the integral of the squared derivative | proved | `computeQuadraticCostJacobian`, `computeCost` | sum of monomials is the integral of the squared derivative | LinearOptimization, Refusals |
| C33 | solveLinear is globally optimal | proved | `solveLinear` | positive semidefinite form: stationary points are minima; the normal equations have a solution | LinearOptimization |
| C34 | Re-using an optimiser object does not leak state | partial | object re-use | state after any history equals that of a new object (`Session`); witness | LinearOptimization |
| C35 | YAML round trip of trajectories | proved | `segmentsToYaml`, `segmentsFromYaml` | round trip by induction | Io |
| C36 | YAML loading rejects malformed input | partial | `trajectoryFromYaml` | exact set of accepted nodes, witnesses | Io |
| C37 | ROS message round trip of trajectories | proved | `trajectoryTo/FromPolynomialTrajectoryMsg` (3-D and 4-D) | round trip, for exact copies by the message conversions | RosConversions |
| C38 | Sampling returns the state at the requested time | proved | `sampleTrajectoryAtTime`, `sampleFlatStateAtTime` ... | state compared with `evaluate` | Sampling |
| C39 | Recursive feasibility check: feasible means feasible | proved | `FeasibilityRecursive` | interval bounds, induction over the recursion | FeasibilityRecursive, FeasibilityShort |
| C40 | Recursive feasibility check: infeasible verdicts are genuine | proved | the same | a violating time for every verdict | FeasibilityRecursive, FeasibilityShort |
| C41 | Recursive feasibility check terminates | partial | the same | explicit depth; witnesses for section time 0 and for short polynomials | FeasibilityRecursive, FeasibilityShort |
| C42 | Analytic feasibility check has no false positives | partial | `FeasibilityAnalytic` | extrema of the thrust; two witnesses | FeasibilityAnalytic, FeasibilityShort |
| C43 | Half-plane feasibility is exact | proved | `checkHalfPlaneFeasibility` | minimum of a polynomial (C06) | HalfPlane |
| C44 | The bounding box half planes describe the box | proved | `HalfPlane::createBoundingBox` | inside of all planes iff inside of the box | HalfPlane |
| C45 | Trajectory feasibility is the first bad segment | proved | `checkInputFeasibilityTrajectory` | induction over the segments | HalfPlane |
| C46 | Input constraints stay consistent over any history | proved | `InputConstraints` | invariant over histories | InputConstraints |
| C47 | Timing accumulator statistics | partial | `Accumulator` | invariant over histories, window statistics | Timing |
| C48 | Timing handles are stable and unique | proved | `Timing` registry | invariant over histories | Timing |
| C49 | The sampler node publishes each trajectory once, in order, and then stops | partial | `TrajectorySamplerNode` | state machine; induction over event lists | SamplerNode |
| C50 | Quadratic root formula is exact | proved | `Quad_ak1` | algebra, for exact arithmetic | Rpoly |
| C51 | Synthetic division used for deflation is exact | proved | `QuadSD_ak1` | division identity by induction | Rpoly |
| C52 | The linear solution depends only on the problem, not on the route | proved | `updateSegmentTimes`, `setFreeConstraints` | two routes, the same segments | LinearOptimization |
| C53 | Trajectory files round trip and are validated | proved | `trajectoryToFile`, `trajectoryFromFile` | round trip through text; outcomes for every file | Io |
| C54 | A failed load from a file leaves the trajectory alone | partial | `trajectoryFromFile` | outcomes; witnesses | Io |
| C55 | Sampling a range returns every state in the range and only those | partial | `sampleTrajectoryInRange`, `sampleWholeTrajectory` | number and times of the states | Sampling |
| C56 | Writing sampled states to a file is memory safe and complete | partial | `sampledTrajectoryStatesToFile` | row by row; witness | Sampling |
| C57 | Input constraints survive a YAML round trip | proved | `InputConstraints` to and from YAML | round trip | InputConstraints |
| C58 | Half planes are constructed correctly | partial | `HalfPlane` constructors | inside predicate; witness | HalfPlane |
| C59 | The sampling feasibility check decides exactly for its samples | proved | `FeasibilitySampling` | the verdict is the first violated sample | FeasibilitySampling |
| C60 | Timer objects add one sample per period | partial | `Timer` | induction over periods | TimerPeriods, Timing |
| C61 | The root finder is memory safe | proved | all of rpoly_ak1.cpp | every access in bounds, no unassigned variable read, for arbitrary arithmetic (also NaN) | Rpoly |
| C62 | The root finder terminates | proved | the same | chopping ends near zero; Newton's iteration on a convex function with one zero, exact arithmetic; the other loops have bounds in the code | Rpoly |
| C63 | Reported roots are roots | partial | the same | chain of deflations with remainder bounds, exact arithmetic | Rpoly, RpolyOrigin |
| C64 | Polynomials of unsupported degree are rejected | partial | `findRootsJenkinsTraub` | outcome by the degree; refutation | Rpoly |
| C65 | A nonlinear optimisation keeps the constraints, whatever NLopt does | proved | `PolynomialOptimizationNonLinear::optimize` | invariant over the callbacks of a run of NLopt, every method of time allocation | NonlinearOptimization |
| C66 | Segment times stay usable through an optimisation | proved | the same | bounds on the evaluated points | NonlinearOptimization |
| C67 | An optimisation returns | proved | the same | every callback returns | MellingerLimits, NonlinearOptimization |
| C68 | The optimised trajectory is the best one found | partial | the same | the last evaluated point determines the state | NonlinearOptimization |
| C69 | The objective value is the documented one | proved | objective functions | value = cost + time + penalties with true maxima | NonlinearDetails |
| C70 | NLopt starts from the present trajectory | proved | initial values of the optimisation | order of the variables, present values | NonlinearDetails |
| C71 | The bounds handed to NLopt are those of the limits | partial | `setFreeEndpointDerivativeHardConstraints` | bounds entry by entry; witness | NonlinearDetails |
| C72 | computeMaximumOfMagnitude returns the true maximum | proved | `computeMaximumOfMagnitude` | true maximum over all segments | NonlinearDetails |
| C73 | Hard limits are reported for the point asked | partial | `evaluateMaximumMagnitudeConstraint` | reported value for the last point; witness | NonlinearDetails |
| C74 | Limits are kept | partial | `addMaximumMagnitudeConstraint` | log of limits over histories; witnesses | NonlinearDetails |
| C75 | The gradient of the Mellinger method is the difference quotient of the optimal cost | proved | `getCostAndGradientMellinger` | difference quotient of the minimal cost | NonlinearDetails |
| C76 | The total cost is the value of the objective | partial | `getTotalCostWithSoftConstraints` | sum compared with the objective | NonlinearDetails |
| C77 | Equality of segments and trajectories | partial | `operator==` of segments and trajectories | characterised; refuted for different N | Equality |
| C78 | Names of derivatives | proved | motion_defines.cpp | round trip of names, default for unknown ones | Equality |
| C79 | The example planner leads from the present state to the goal within the limits | partial | `ExamplePlanner` (4-D) | composition of vertices, time estimate, optimiser; witnesses | ExamplePlanner |
| C80 | The 6-dof example planner leads from the present pose to the goal within the limits | partial | `ExamplePlanner` (6-D) | the same with scaling of the times | ExamplePlanner |
| C81 | The optimum is unique | proved | `solveLinear` | strict convexity on pinned problems; optimum for scaled times | LinearUnique |
| C82 | Limits on velocity and acceleration hold after the scaling step | partial | `scaleSegmentTimesWithViolation` | scaling law of the optimum at rest; witness | NonlinearLimits |
| C83 | Random vertices are usable | partial | `createRandomVertices` | loop over a stream of draws; witnesses | VertexGenerators |
| C84 | Square vertices close the square | proved | `createSquareVertices` | positions, closedness, edge lengths | VertexGenerators |
| C85 | Failures of the search for extrema are reported | partial | failure paths of the search for extrema | outcome for every root finder; refutations | MagnitudeFailure |
| C86 | Sampling an interval for candidates of a maximum | partial | `computeSegmentMaximumMagnitudeCandidatesBySampling` | loop invariant; refutations | MaximumSampling, SamplingOneDimension |
| C87 | The matrices handed out by the linear optimiser describe its problem | proved | `getA`, `getAInverse`, `getM`, `getMpinv`, `getR` | the matrices act as the problem prescribes | LinearGetters |
| C88 | The linear optimiser respects affine maps | proved | the linear optimiser, two sessions | the stationarity condition of the minimum is linear; the image of a minimum is stationary, and the minimum is unique | LinearAffine |
| C89 | Superposition | proved | three sessions | as C88, for a combination of two problems | LinearAffine |
| C90 | Coordinates do not influence each other | proved | two sessions | C88 for the projection to one coordinate, from both sides | LinearAffine |
| C91 | A planar problem has a planar solution | proved | one session | C88 for `u · p`, compared with the constant | LinearAffine |
| C92 | The way back is the way there run backwards | proved | two sessions | substitution `T - t` in every segment keeps the cost; uniqueness | LinearReverse |
| C93 | The drawn path is the path | partial | drawing of sampled points and of trajectories; `Line`, `Shown` | induction over the points; composition with the sampling theorem of C55 | Visualization |
| C94 | Markers along a drawn path are spaced as requested | partial | the same loop; `Spaced`, `DrawnAt` | invariant of the accumulated distance; quaternion algebra of Mathlib for the poses | Visualization |
| C95 | A group of markers moves as a rigid body | partial | marker groups; `Moved` by Mathlib quaternions | quaternion identities; maps over lists | Visualization, VisualizationMore |
| C96 | Drawing by time keeps a minimal distance in time | partial | the filter by time with arithmetic modulo 2^32 | induction with the last kept and the last seen time | VisualizationMore |
| C97 | Drawn vertices are the vertices | partial | `drawVertices`, `drawVerticesFromTrajectory` | induction over the vertices; composition with C20 | VisualizationMore |
| C98 | No marker replaces another | partial | `setMarkerProperties`, predefined groups | numbers are positions; computation for the predefined groups | VisualizationMore |
| C99 | Evaluation in floating point is backward stable | proved | `Poly.evaluate`, `Segment.evaluate` of the same model at the numbers `Fl rnd` | backward error analysis of Horner's scheme by induction; `round53` meets the assumption | Rounded |

## 4. What is modelled and what is not

| Source | Model | Not modelled |
|----|----|----|
| `polynomial.h`, `polynomial.cpp`, `convolution.h` | `Model/Polynomial` | stream output |
| `rpoly/rpoly_ak1.cpp` | `Model/Rpoly`, whole file; over numbers with rounding in C123, C125, C126 | overflow and underflow |
| `segment.h`, `segment.cpp`, `extremum.h` | `Model/Segment`, `Model/Magnitude`, `Model/StreamText` (stream output) | stream output of extrema |
| `trajectory.h`, `trajectory.cpp` | `Model/Trajectory`, `Model/Magnitude`, `Model/Vertex`, `Model/RangeMemory`, `Model/DoubleRange`, `Model/DoubleEqual` | |
| `vertex.h`, `vertex.cpp` | `Model/Vertex`, `Model/StreamText` (stream output) | the distribution of random numbers (a stream) |
| `motion_defines.h`, `motion_defines.cpp` | `Model/MotionDefines` | |
| `io.h`, `io.cpp` | `Model/Io`, `Model/Sampling` | text format of yaml-cpp (a tree with an abstract codec), the file system beyond "opens or not" |
| `timing.h`, `timing.cpp` | `Model/Timing`, `Model/TimingPrint`, `Model/TimingText` | `DummyTimer`; the clock is an argument; the sign of zero and NaN in texts |
| `trajectory_sampling.h`, `.cpp` | `Model/Sampling` | attitude arithmetic inside mav_msgs |
| `polynomial_optimization_linear.h`, impl | `Model/LinearOptimization`, `Model/LinearGetters`, `Model/MaximumSampling`, `Model/NonlinearOptimization` (magnitudes) | stream output, Eigen's and SparseQR's algorithms |
| `polynomial_optimization_nonlinear.h`, impl | `Model/NonlinearOptimization`, `Model/NonlinearCopies` (copies and assignment of objects), `Model/DebugOutput` (debug output), `Model/NloptSettings` (stopping criteria, seed) | the words and digits of the output, measured time |
| `ros_conversions.cpp` | `Model/RosConversions` | message types (abstract) |
| `trajectory_sampler_node.cpp` | `Model/SamplerNode` | services and parameters of ROS |
| `input_constraints.h`, `.cpp` | `Model/InputConstraints` | |
| `feasibility_base`, `_recursive`, `_sampling`, `_analytic` | `Model/Feasibility`, `Model/FeasibilityAnalytic`, `Model/RoundedFeasibility`, `Model/RoundedSampling`, `Model/RoundedAnalytic`, `Model/DoubleChecks` | |
| `example_planner.cc`, `example_planner_6dof.cc` | `Model/ExamplePlanner` | ROS parameters, publishers, subscribers (the first advertises a 4-D message and publishes a 3-D one) |
| `ros_visualization.cpp`, mav_visualization (`helpers.h`, `marker_group.cpp`, `hexacopter_marker.cpp`, `leica_marker.cpp`) | `Model/Visualization` | colours as `float`; `publish`; the eigenvalue solver and the conversion of matrices to quaternions are parameters; the conversion to `EigenMavState` and the attitude of a sampled point are parameters |
| `time_evaluation_node.cpp` | `Model/TimeEvaluation` | publishers and parameters of ROS, text of the results, choice of random vertices |
| `test_utils.h` | `Model/TestUtils`, `Model/TestHelpers` | NaN in `checkMatrices` |
| `polynomial_timing_evaluation.cpp` | `Model/RandomPath` (the random paths) | the measurement itself |
| tests | no | test programs |

## 5. Where the code and the properties disagree

The following 127 theorems refute a property or a part of one.

* `C05_row_false_near_zero`: refutation of the full claim. For every `0 < |t| < epsilon` the row for `N = 2, k = 0` misses the slope: it gives `p(0)` instead of `p(t)`.
* `C102_count_false`: a limit: the number of samples is not the one of exact arithmetic. With rounding to 53 bits, a trajectory of one second sampled every 0.1 seconds (the nearest number of 53 bits, which is above 0.1) has eleven samples, the last of them `2^-53` before the end, although `10 * 0.1` is not less than 1.
* `C105_arrow_reuse_false`: (arrows) is false for markers that have been used: the points of the arrow drawn before stay, and are what is shown.
* `C105_points_reuse_false`: (arrows) is false for markers that have been used: the pose of what was drawn before stays, and moves the arrow.
* `C107_area_false`: is false for the area if a segment ends where it starts. There and back along a line, the area should be zero; but it is NaN: the direction of the line is 0 divided by 0.
* `C107_nominal_length_false`: is false for the nominal length if a vertex has no position. The code looks for the next vertex with a position, but a vertex without one is also used as a start: undefined behaviour, as soon as one before the last has none.
* `C108_feasible_false`: is false for trajectories that obey the limits. One metre from rest to rest, with limits of 1 m/s and 1 m/s²: the trajectory of `runNfabian` obeys both limits, but the method with violation scaling shortens its time by a quarter, and the acceleration then exceeds 1.1 m/s². (A shorter time raises accelerations by the square of the factor.)
* `C108_violated_false`: is false for large violations. 500 m from rest to rest with limits of 100 m/s and 1 m/s²: the violation is above 1, the time divided by one minus the violation is negative, and the segment is run in 0.1 s: at a speed of more than 12 km/s.
* `C109_no_dimension_false`: is false for dimension zero: everything is accepted, but the segments do not get their times.
* `C109_one_vertex_false`: is false for a single vertex: the setup is accepted, but the matrices of the solution have the wrong sizes if a derivative is free. Asking for the matrix of the cost multiplies the same matrices.
* `C109_stale_false`: is false between `updateSegmentTimes` and the next solution: the cost is computed from the new times and the old polynomials, it is neither the old nor the new cost. The trajectory is still the old one.
* `C110_assigned_false`: is false for assignment: an optimiser that gets a temporary one with limits assigned (`optimizer = makeOptimizer()`) uses, for the limits, an object that does not exist any more, even after it was set up anew.
* `C110_destroyed_false`: is false when the original is destroyed: the copy, unchanged, then uses an object that does not exist any more. This is the case for an optimiser with limits returned from a function (unless the compiler elides the copy) or stored in a growing `std::vector`.
* `C110_hard_false`: is false for hard limits after `setupFromVertices`: the copy shares the NLopt object, and a limit added to the copy becomes a constraint of the original (evaluated, moreover, on the trajectory of the copy).
* `C110_limits_false`: is false for an optimiser with limits. A copy of it, set up with other vertices, still evaluates the limits on the trajectory of the original: the cost of a position 8 with the limit 1 is the cost of the position 2 of the original.
* `C111_deviation_false`: refuted part. The mean is that of all samples, the deviation next to it only that of the last 50: with one sample of 51 s and then fifty of 0 s the table says 1 s +- 0 s.
* `C112_no_duration_false`: refuted part. For a trajectory without duration the "maximum" is -10^9, though magnitudes are not negative.
* `C113_window_false`: refuted for the window: with doubles, after one sample of `2^60` and any number `k ≥ 50` of samples of one second the rolling mean of the timer is 0, although the last 50 samples are all one second. The error never goes away.
* `C117_always_false`: refuted: there are trajectories, such as one with a duration of -1 s, that cannot be written at all.
* `C119_any_interval_false`: is false: for every trajectory and every range that is not a single point there is a positive sampling interval for which sampling the range is undefined behaviour, and however much memory there is (less than `2^64 - 2` elements) one for which it throws.
* `C11_jump_false`: is false in a second way: at an interior vertex with a jump the range sample is the end of the earlier segment while `evaluate` takes the later segment.
* `C11_times_false`: is false: one segment `x(t) = t` of duration 2, range `[1, 2)` in steps of 1/2. Instead of the samples at 1, 3/2 reported as such, there are three, at 1, 3/2, 2, reported as 0, 1/2, 1.
* `C12_end_false`: is false: for every well-formed trajectory, starting at the final time reads one past the end of the segment list (whatever the interval and order).
* `C132_underflow_false`: underflow is to be counted: without it the bound is false. The value `2^-2000` is returned as 0.
* `C133_analytic_false`: fails for the analytic check: whatever the limits and whatever the root finder, the only answer for a segment of three dimensions with a NaN among the coefficients of the jerk is that the segment is feasible; and with the root finder of the code this is the answer when the coefficients from the third on are NaN or 0.
* `C133_half_planes_false`: fails for half planes: whatever the half planes and whatever the root finder, the only answer for a segment with a NaN coefficient is that the segment is inside; and with the root finder of the code this is the answer when the coefficients from the second on are NaN or 0.
* `C133_nan_limit_false`: fails for limits: `addConstraint` takes NaN for a limit, which then counts as present, and the check by sampling does not report a violation of limits that are NaN.
* `C133_recursive_thrust_min_false`: fails for the recursive check when only the lowest thrust is limited: the segment `nanJerk`, with a NaN coefficient in the first axis, has NaN thrust at all times and is accepted, with the root finder of the code.
* `C133_sampling_false`: fails for the check by sampling: without limits on yaw, the only answer for a segment whose velocity and acceleration in one of the first three axes are NaN is that it is feasible, whatever the limits; and this is the answer when the sampling interval is longer than the segment.
* `C134_fixed_modulus_false`: (refuted). ... so the shift is not, as the comment in the code says, a point with modulus `bnd`: here `bnd` is `1 / 4`, and the modulus is `1 / 2`.
* `C135_returns_false`: the negation of the claim without conditions: finite arguments in order, a positive interval, a range within the trajectory, few samples, and no number of iterations is enough.
* `C136_reflexive_false`: is false with NaN: a trajectory with a coefficient or a duration that is NaN is not equal to itself, nor to a copy read back from a file.
* `C136_tolerance_reflexive_false`: is false for entries that are not finite: a vertex with an infinite entry or NaN is not equal to itself, whatever the tolerance (infinity included).
* `C137_limits_code_false`: with the root finder of the code it does return when all coefficients from the third on are NaN or 0.
* `C137_limits_false`: is violated: a trajectory every segment of which has a polynomial with a NaN among the coefficients from the third on meets any limits: `scaleSegmentTimesToMeetConstraints` answers true and changes nothing, with every root finder that returns.
* `C137_pipeline_false`: is violated: vertices such that at one end of every segment a coordinate is NaN pass through the whole library. The times are estimated as 0.1 s, the optimiser takes them and solves, `getTrajectory` gives a trajectory that has a dimension with NaN coefficients only in every segment, and `scaleSegmentTimesToMeetConstraints` answers that it meets the limits.
* `C137_ramp_false`: is violated by `estimateSegmentTimesVelocityRamp`: the time of a segment at an end of which a coordinate is NaN is 0.1 s, so that nothing is left to be seen of the NaN. (`std::max(0.1, NaN)` is 0.1.)
* `C137_scaling_false`: is violated by `scaleSegmentTimes`: with NaN it answers true, as with a sensible factor, and all durations and all coefficients but the first of every polynomial are NaN afterwards. It answers false only for a factor below `1.0e-6`, and then changes nothing.
* `C138_large_false`: fails for large times: from 10^255 seconds on, the buffer of 256 characters ends before the point, and the text shows a number below 10^255. The number 2^1000 is a finite double and is not shown to half a microsecond.
* `C138_names_false`: fails for names with line ends: the table then has more lines than timers, and whoever names a timer can make up lines.
* `C139_maxima_false`: refuted for "the maxima shown are those of the trajectory returned": for the motion of `C82_moving_false` the maximum of the speed shown last is within a thousandth of the limit, and the trajectory of the optimiser is faster. The figure is measured on a local trajectory, run slower, which does not have the velocities prescribed at the vertices.
* `C13_duration_false`: is false: whatever the trajectory, a returned single-dimension trajectory has duration 0 and all its segment times are 0.
* `C140_interleaved_false`: is false when another optimiser is set up between the set-up and the optimisation, although both have fixed seeds: the generator of NLopt is shared.
* `C141_heuristic_false`: is false in one respect: the documentation of `initial_stepsize_rel` says "Heuristic value if negative", but a negative value is handed over as negative steps.
* `C142_invalid_false`: is false for derivatives above the snap: vertices that prescribe the fifth and the sixth derivative print the same, however numbers are written.
* `C143_dimension_false`: refuted: in dimension 0 no vector is longer than 0.2, and the call never returns.
* `C143_end_false`: refuted with one segment: the two vertices can be 11 apart. Line 88 puts the last vertex at the last step, seen from the origin.
* `C143_far_false`: refuted, with the arguments of the program (dimension 3, average 5, order 4) and two segments: the second and the third vertex can be 21 apart, more than the 10 that the largest step allows (line 86 keeps the step instead of the position).
* `C143_negative_false`: refuted: a negative average distance is not refused, and the constructor of the distribution is called with arguments for which its behaviour is undefined.
* `C144_appended_false`: at an infinite time this is false: the constant 1 gets NaN there.
* `C144_product_commutes_false`: for products this is false: one order of the same factors gives an infinite coefficient where the other gives a finite one.
* `C144_scale_false`: is false for scaling in time: the constant 1, as a polynomial with three coefficients, scaled by `2^600`, is no constant any more: its last coefficient is `0 * ∞`, which is NaN, and the polynomial has no finite value anywhere.
* `C145_above_false`: is false in double arithmetic at the upper end: the largest random number between `-2^53 - 2` and `1.5` is 2.
* `C14_append_false`: is false when both `N` and the times differ: appending `y = t` on [0, 2] to `x = t` (with three coefficients) on [0, 1] gives a segment of duration 2 in which `x` runs to 2 instead of 1.
* `C18_lines_false`: is false for two coefficients (straight lines) and more than one dimension, for the same reason.
* `C18_short_false`: is false for fewer than two coefficients and more than one dimension: the search for the largest speed creates a vector of negative size.
* `C19_high_order_false`: is false for an order not below the number of coefficients, one dimension: the magnitude is 0 at every time of every segment, but the largest `double` is reported as minimum and the lowest as maximum, with the flag true.
* `C19_high_order_ub_false`: is false for an order not below the number of coefficients, several dimensions: a vector of negative size is created.
* `C19_single_minimum_false`: is false for one dimension. For `x(t) = t - 1` on `[0, 2]` the distance from the origin is 0 at time 1, but the reported minimum is 1, whatever (correct) roots the root finder returns for the constant derivative polynomial 1: none is real.
* `C21_empty_false`: the empty trajectory: undefined behaviour exactly for `t ≤ 0`; the zero vector of size 0 for positive times.
* `C23_dimension_false`: is false for different dimensions. Vertices without constraints are equal whatever their dimensions.
* `C23_dimension_ub_false`: is false for different dimensions. With a common constraint of different size the vectors are subtracted all the same: undefined behaviour.
* `C25_no_position_false`: is false for vertices without a position. If of two consecutive vertices only one has a position, vectors of different sizes are subtracted: undefined behaviour.
* `C25_time_factor_false`: is false for the time factor. A larger factor need not give larger times (the result does not depend on it).
* `C27_coincident_false`: is false for coincident vertices. For two consecutive vertices at the same position the time is 0, for all parameters.
* `C27_no_position_false`: is false for vertices without a position, for the same reason.
* `C28_tiny_times_false`: is false for every positive segment time below the machine epsilon, although the optimiser accepts it (impl:298 only checks `segment_time > 0`): the mapping matrix is singular.
* `C34_reuse_false`: is false: an object on which a problem with a free derivative was solved keeps the old free values (`setupFromVertices` does not clear them), and solving a fully prescribed problem with it afterwards writes the compact vector with too many entries, while a new object solves that problem.
* `C35_dim0_false`: fails without dimensions: what is written for a trajectory with `D = 0` (whatever its segment times) is rejected when read back.
* `C35_empty_false`: also fails for the empty trajectory: what is written for it makes the reader throw.
* `C36_abort_false`: is false: an empty list of segments, and segments of different dimensions, abort the process.
* `C36_count_false`: is false: a node that announces 5 coefficients but lists 2 is loaded, with `N() = 5` and polynomials of 2 coefficients.
* `C36_throws_false`: is false: a node without the entry `segments`, a segment with fewer coefficient lists than announced dimensions, and a segment that is not a map make the function throw.
* `C36_ub_false`: is false: a negative number of coefficients is undefined behaviour.
* `C37_empty_false`: the empty trajectory is outside the claim: its message is accepted, and converting that back aborts the process.
* `C37_no_coefficients_false`: `N = 0` is outside the claim: a trajectory with 4 dimensions and no coefficients comes back with 3 dimensions.
* `C41_short_false`: is false for short polynomials. Without enough coefficients for the limits that are set, the recursive check ends the program for every segment of three or four dimensions, provided the root finder does not fail first.
* `C42_rate_false`: is false: the square root. The check compares the square root of jerk / thrust with the limit. A segment with constant jerk 40 m/s³ is accepted with a roll and pitch rate limit of 3 rad/s, although its rate at the start is 40/10 = 4 rad/s; for every complete root finder.
* `C42_section_false`: is false: the section boundaries. After halving, a section is judged by the extremum candidates of the whole segment that lie in it; its own boundaries are not candidates. With an exact root finder and a limit of 1.5 rad/s the check accepts a segment whose rate at its midpoint is 40 / √200 = 2.83 rad/s (more even than the square of the limit).
* `C42_short_false`: is false for short polynomials. A segment standing still at the origin, its polynomials one constant coefficient each, is undefined behaviour even when no limit is set; with two coefficients (constant velocity) it is when a thrust limit is set, and with three (constant acceleration) when a roll and pitch rate limit is.
* `C47_max_false`: is false for the maximum of small samples. If all samples are below the smallest positive normal double (for example 0, or negative after a clock adjustment), the reported maximum is that number, which is not a sample.
* `C49_malformed_false`: is false for malformed messages. A non-empty message whose polynomials have different numbers of coefficients is not rejected: it ends the process.
* `C49_zero_interval_false`: needs a positive interval. With interval 0 (the parameter is not validated) the first sample is published over and over and the timer never stops.
* `C53_short_false`: is false for segments whose polynomials are shorter than `N()` (which `trajectoryFromYaml` produces, see `C36_count_false`): writing them reads out of bounds.
* `C54_abort_false`: is false: for a file that does not exist, or that has no entry `segments`, `trajectoryFromFile` does not return false but aborts the process.
* `C54_replaced_false`: is false: when the second segment of a file is malformed, the function returns false, but the trajectory has been replaced by one that consists of the first segment.
* `C55_end_false`: C55. Starting at the final time is undefined behaviour (as C12_end_false).
* `C55_range_false`: is false for ranges that start inside a segment: asking for the states in `[1, 3/2]` every 1/2 s gives states up to the time 2 s.
* `C56_short_false`: is false when there are more segments than samples: rows that do not exist are written (whether or not the file can be opened).
* `C58_collinear_false`: is false for points on a line. Three points on a line (the last two may coincide) are accepted as long as the first differs from the others, the normal is zero, and no point is inside.
* `C60_stop_false`: is false for Stop without Start. Stopping a timer that was constructed stopped adds the time since the epoch of the clock as a sample.
* `C64_too_long_false`: (refuted). The root finder does not report failure for a polynomial whose degree exceeds the largest one it supports (100): it writes past the end of its buffers before the degree is compared, for every polynomial with more than 101 coefficients whose last one is not negligible.
* `C68_best_false`: refuted: the trajectory left need not be the best that was evaluated. NLopt evaluates the time 1, with the value 1, and then the time 2, with the value 4; the segment is left with the time 2.
* `C71_bounds_false`: refuted for smaller `k`: with cubic polynomials and `k = 0` a limit on the position ends up as a bound on the velocity at the first vertex.
* `C73_hard_limit_false`: refuted for other points: with a hard limit 1 on the velocity and a trajectory of duration 2, whose largest velocity is 3/4, the limit is reported as met (-1/4) for the duration 1, although the trajectory of duration 1 has the velocity 3/2; after the objective function was evaluated for the duration 1, the answer is 1/2.
* `C74_before_setup_false`: refuted: a hard limit added before any setup dereferences a null pointer.
* `C74_setup_false`: refuted: a hard limit added before the (second) setup is not enforced by NLopt any more, although it is still stored.
* `C76_objective_false`: refuted: for the method with the linear time the total cost is not the value of the objective function.
* `C77_segment_false`: is false for different numbers of coefficients: comparing two segments of the same dimension (not 0) and duration is then undefined behaviour, although they may even be the same function.
* `C77_trajectory_false`: is false for trajectories with different numbers of coefficients.
* `C79_limits_false`: the limits do not hold. From rest at the origin to rest at (1, 0, 0) with a maximum speed of 2: there is a run of NLopt for which the planned trajectory reaches a speed of 10 (limits are soft).
* `C79_same_position_false`: is false for a goal at the present position: for all parameters and velocities the program is aborted, since the estimated time is 0.
* `C80_start_velocity_false`: is false for the velocity at the start. The vehicle moves at half the maximum speed, and the planned trajectory starts with at most half of the velocity of the vehicle.
* `C82_moving_false`: refuted for vertices with prescribed velocities, although these are within the limits: from 0 to 10 in 5 s with velocity -1 at both ends, and with the limit 7/4, the speed after `scaleSegmentTimesWithViolation()` is above 7/4 by more than the tolerance. The factor is computed for the trajectory run slower, but then the optimiser solves again with the same velocities at the vertices.
* `C83_reversed_false`: refuted: with the bounds of one dimension in the wrong order the checks pass and the constructor of the distribution is called with arguments for which its behaviour is undefined.
* `C83_small_box_false`: refuted: the interval from 0 to 0.3 passes the checks; if the first position drawn is the middle, the call never returns, whatever is drawn afterwards.
* `C85_flag_false`: refuted: `computeMinMaxMagnitude` never returns false, for no arguments and no root finder, unless a duration is negative.
* `C85_no_dimensions_false`: refuted: without dimensions (for every trajectory) the call returns true and reports the largest `double` as minimum and the lowest as maximum.
* `C85_out_of_range_false`: refuted: so it does for several dimensions the first of which does not exist.
* `C85_root_failure_false`: refuted: if the root finder reports failure (and no roots), nobody notices: when velocity and acceleration at the ends of the segments are within the limits, `scaleSegmentTimesToMeetConstraints` returns true and changes nothing.
* `C85_single_out_of_range_false`: refuted: for a single dimension that does not exist the behaviour is undefined.
* `C86_long_interval_false`: With a long sampling interval the claim is false also in one dimension: `10 t - 10 t²` sampled at thirds. The candidates are the two ends, where the value is 0.
* `C86_maximum_false`: However small the step, the maximum can be missed: the next derivative does not vanish where the magnitude of a vector is largest. Here the candidates are the ends of the interval only, where the magnitude is at most 1, although it exceeds 2 in the middle.
* `C86_step_false`: With a step that is zero or negative the function does not return (unless the interval ends before the sample two steps after the start).
* `C93_end_false`: what is missing: the line does not reach the end of the trajectory. For a duration of 0.25 it ends at the position of time 0.2, 20 cm before the goal at this speed.
* `C94_disable_false`: what is missing: a distance of 0 does not disable the additional markers. One point off the origin suffices.
* `C94_origin_false`: what is missing: which points are marked depends on where the origin of the frame is. A path that consists of the origin has no markers, the same path shifted by 1 has.
* `C95_mesh_false`: what is missing: the meshes of the other form of the hexacopter have the orientation 0, and keep it however the vehicle is turned.
* `C96_empty_false`: what is missing: without points the behaviour is undefined.
* `C96_last_false`: what is missing: the last point is drawn even if it is too close. Two points, one nanosecond apart, `dt` ten nanoseconds.
* `C96_long_false`: what is missing: with `dt` of five seconds the behaviour is undefined, whatever the points.
* `C96_start_false`: what is missing: when the first point is not at time 0, the next one may be too close. Points at 5, 6 and 20 ns, `dt` 3 ns: the point at 6 ns is drawn.
* `C97_dimension_false`: what is missing: with a vertex of another dimension the function returns early; the array then holds a line without a frame, so that it cannot be shown. The positions of a trajectory with yaw are of this kind.
* `C97_reuse_false`: what is missing: when the array is used for a second drawing, the line of the first one is still there.
* `C97_yaw_false`: what is missing, for trajectories: for a trajectory with yaw nothing is drawn.
* `C98_leica_false`: what is missing: the markers of the laser tracker do not have different numbers. Its first leg and its second leg share a number, so that only one of them is shown at a time.
* `C99_relative_false`: a limit: the relative error of the value itself is not small. With rounding to 53 bits the value of `t² - (1 + 2^-29)` at `t = 1 + 2^-30` is computed as 0, although it is `2^-60`.

Observations without a theorem: `example_planner.cc` advertises
`PolynomialTrajectory4D` but publishes `PolynomialTrajectory`.

## 6. Seeded edits

The theorems were tried against wrong programs: in a copy outside of this
directory one definition of the model is edited as a realistic bug would
(boundary, missed case, swapped argument, dropped update), the project is rebuilt,
and the property theorems that fail, or that depend on a helper lemma that fails,
are collected.
`seeded/LOG.jsonl` has one line per edit: the definition, the edit, the claim it
breaks, the theorems that failed, and what was tightened when none of the right
ones did. An edit counts as caught if a theorem of the property it violates fails.
