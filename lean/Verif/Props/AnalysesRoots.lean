import Verif.Proofs.AnalysesRoots
import Verif.Props.FeasibilityApprox
import Verif.Props.FeasibilityShort

/-
Property C127: the analyses end with the root finder of the code.

The theorems about extrema of magnitudes (C24 to C26, C85, C103, C115), limits (C27, C116), half planes (C43, C124) and
feasibility (C39 to C42, C104) take a function for the root finder. The code calls an iterative one that might not end. Here the
analyses call the model of that root finder, with a number of iterations after which it gives up without an answer, and the
statements hold for every sufficiently large number: no assumption on the root finder is left.
-/
namespace Verif

open Polynomial Spec Set Filter

/-! ### C127 analyses with the root finder of the code -/

/-- **C127 (magnitudes).** The extrema of a magnitude with the root finder of the code: the function returns true, both extrema
are attained at the reported times, and nothing at the ends of the segments lies outside them. -/
theorem C127_magnitude (m : RMath ℝ) (hm : ExactMath m) (tr : Trajectory ℝ) (h : tr.WF) (hne : tr.segments ≠ [])
    (k : ℕ) (hk : k < tr.N) (hk2 : k + 1 < 22) (ds : List ℕ) (hds0 : ds ≠ []) (hds : ∀ d ∈ ds, d < tr.D)
    (hfin : ∀ s ∈ tr.segments, magnitude s.polys ds k 0 < dblMax) (mn0 mx0 : Extremum ℝ) :
    ∃ mn mx F, (∀ n, F ≤ n → tr.computeMinMaxMagnitudeM (fieldLib Real.sqrt) (codeRoots m n) k
        (ds.map fun (d : ℕ) => (d : ℤ)) mn0 mx0 = .ok (true, mn, mx)) ∧
      (∃ hj : mx.segmentIdx < tr.segments.length, mx.time ∈ Icc 0 tr.segments[mx.segmentIdx].time ∧
        mx.value = magnitude tr.segments[mx.segmentIdx].polys ds k mx.time) ∧
      (∃ hj : mn.segmentIdx < tr.segments.length, mn.time ∈ Icc 0 tr.segments[mn.segmentIdx].time ∧
        mn.value = magnitude tr.segments[mn.segmentIdx].polys ds k mn.time) ∧
      ∀ s ∈ tr.segments, mn.value ≤ magnitude s.polys ds k 0 ∧ mn.value ≤ magnitude s.polys ds k s.time ∧
        magnitude s.polys ds k 0 ≤ mx.value ∧ magnitude s.polys ds k s.time ≤ mx.value := by
  obtain ⟨rf, hl⟩ := codeRoots_limit_exact m hm
  obtain ⟨mn, mx, e, h1, h2, h3⟩ := C85_attained_partial rf tr h hne k hk hk2 ds hds0 hds hfin mn0 mx0
  have hev := computeMinMaxMagnitudeM_ev hl (fieldLib Real.sqrt) tr (fun s hs => (h.wf s hs).isSmall) k (by omega)
    (ds.map fun (d : ℕ) => (d : ℤ)) mn0 mx0
  rw [(C115_same_code rf Real.sqrt tr k _ mn0 mx0).1, e] at hev
  obtain ⟨F, hF⟩ := eventually_atTop.mp hev
  exact ⟨mn, mx, F, hF, h1, h2, h3⟩

/-- **C127 (limits).** Scaling to meet limits with the root finder of the code: the function returns, the result is the given
trajectory slowed down by one factor of at least 1, and when it returns true the speeds and accelerations at both ends of every
segment are within the limits up to the tolerance. -/
theorem C127_limits (m : RMath ℝ) (hm : ExactMath m) (tr : Trajectory ℝ) (h : tr.WF) (hne : tr.segments ≠ [])
    (hD : 0 < tr.D) (hN : 3 ≤ tr.N)
    (hfin : ∀ s ∈ tr.segments, ∀ t ∈ Icc 0 s.time,
      magnitude s.polys (List.range tr.D) 1 t < dblMax ∧
      magnitude s.polys (List.range tr.D) 2 t < dblMax)
    (vMax aMax : ℝ) (hv : 0 < vMax) (ha : 0 < aMax) :
    ∃ b r c F, (∀ n, F ≤ n → tr.scaleToMeetConstraintsM (fieldLib Real.sqrt) (1 + 1 / 1000) (codeRoots m n) vMax aMax =
        .ok (b, r)) ∧ 1 ≤ c ∧
      r.getSegmentTimes = tr.getSegmentTimes.map (· * c) ∧ r.maxTime = tr.maxTime * c ∧
      (∀ t (k : ℕ), r.evaluate (c * t) k = (fun v => v.map (· / c ^ k)) <$> tr.evaluate t k) ∧
      (b = true → ∀ s ∈ r.segments, ∀ t, t = 0 ∨ t = s.time →
        magnitude s.polys (List.range tr.D) 1 t ≤ (1 + 1 / 1000) * vMax ∧
        magnitude s.polys (List.range tr.D) 2 t ≤ (1 + 1 / 1000) * aMax) := by
  obtain ⟨rf, hl⟩ := codeRoots_limit_exact m hm
  obtain ⟨b, r, c, e, hs, h1⟩ := scaleLoop_any rf tr hD hN hfin vMax aMax hv ha 20 tr 1 (Slowed.refl h hne)
  have hev := scaleToMeetLoopM_ev hl (fieldLib Real.sqrt) (1 + 1 / 1000) vMax aMax 20 tr (fun s hs => (h.wf s hs).isSmall)
  rw [show scaleToMeetLoopG (fieldLib Real.sqrt) (1 + 1 / 1000) rf vMax aMax 20 tr =
    scaleToMeetLoop rf Real.sqrt vMax aMax 20 tr from scaleToMeetLoopG_field rf Real.sqrt vMax aMax 20 tr, e] at hev
  obtain ⟨F, hF⟩ := eventually_atTop.mp hev
  exact ⟨b, r, c, F, hF, hs.one, hs.times, hs.total, hs.eval, h1⟩

/-- **C127 (half planes).** The half plane check with the root finder of the code returns, and when it returns false the
position leaves one of the half planes. -/
theorem C127_half_planes (m : RMath ℝ) (hm : ExactMath m) (s : Segment ℝ) (h : s.WF) (hD : s.D = 3 ∨ s.D = 4)
    (hN : 1 ≤ s.N) (hT : 0 ≤ s.time) (hps : List (HalfPlane ℝ)) :
    ∃ b F, (∀ n, F ≤ n → s.checkHalfPlanesM (fun x => |x|) dblEpsilon (fun _ a b => ∑ i, a i * b i) (codeRoots m n) hps =
        .ok b) ∧
      (b = false → ∃ hp ∈ hps, ∃ t ∈ Icc 0 s.time, ¬ Inside hp (vec3 s.polys 0 t)) := by
  obtain ⟨rf, hl⟩ := codeRoots_limit_exact m hm
  obtain ⟨b, e, h1, -⟩ := C104_half_planes rf s h hD hN hT hps
  have hev := halfPlaneLoopM_on (rc := codeRoots m) (rf := rf) (fun x => |x|) dblEpsilon (fun _ a b => ∑ i, a i * b i) s hps
    fun hp _ p hp' => hl.coefficients p (by rw [projectionG_N s _ p hp']; exact h.small.trans (by norm_num)) 1
  rw [halfPlaneLoopG_field] at hev
  unfold Segment.checkHalfPlanes at e
  rw [if_pos hD] at e
  rw [e] at hev
  obtain ⟨F, hF⟩ := eventually_atTop.mp hev
  refine ⟨b, F, fun n hn => ?_, h1⟩
  unfold Segment.checkHalfPlanesM
  rw [if_pos hD, hF n hn]

/-- **C127 (recursive check).** With the root finder of the code and a positive minimum section time the recursive check returns
one verdict for all sufficient numbers of iterations and nested calls, and when it is a reason for infeasibility the named limit
is violated at some time. -/
theorem C127_recursive (m : RMath ℝ) (hm : ExactMath m) (ic : InputConstraints ℝ) (g : Fin 3 → ℝ)
    (minSection : ℝ) (hms : 0 < minSection) (s : Segment ℝ) (h : s.WF) (hD : s.D = 3 ∨ s.D = 4)
    (hN : 4 ≤ s.N) (hT : 0 ≤ s.time)
    (hom : ∀ l, ic.getConstraint kOmegaXYMax = some l → l < dblMax) (hfin : Bounded s.polys s.time)
    (depth : ℕ) (hn : s.time < minSection * 2 ^ depth) :
    ∃ r F, (∀ n fuel, F ≤ n → depth < fuel →
        s.checkRecursiveM (codeRoots m n) Real.sqrt ic g minSection fuel = .ok r) ∧
      (r ≠ .feasible → r ≠ .indeterminable → r ≠ .rollPitchRates ∧ ∃ t ∈ Icc 0 s.time, Violated ic g s.polys t r) := by
  obtain ⟨rf, hl⟩ := codeRoots_limit_exact m hm
  obtain ⟨r, e⟩ := C104_terminates rf ic g minSection hms s h hD hN hT hom hfin depth hn
  obtain ⟨F, hF⟩ := eventually_atTop.mp (checkRecursiveM_on (rc := codeRoots m) (rf := rf) Real.sqrt ic g minSection s
    fun p hp d _ => hl.coefficients p ((h.isSmall.2 p hp).trans (by norm_num)) d)
  exact ⟨r, F, fun n fuel h1 h2 => by rw [hF n h1 fuel, e fuel h2], fun h1 h2 =>
    C104_genuine rf ic g minSection hms.le s h hD hN hT hom hfin (depth + 1) r (e _ (by omega)) h1 h2⟩

/-- **C127 (analytic check).** The same for the analytic check. -/
theorem C127_analytic (m : RMath ℝ) (hm : ExactMath m) (ic : InputConstraints ℝ) (g : Fin 3 → ℝ)
    (minSection : ℝ) (s : Segment ℝ) (h : s.WF) (hD : s.D = 3 ∨ s.D = 4)
    (hN : 4 ≤ s.N) (hT : 0 ≤ s.time) (hfin : Bounded s.polys s.time)
    (depth : ℕ) (hn : s.time < minSection * 2 ^ depth) :
    ∃ r F, (∀ n fuel, F ≤ n → depth < fuel →
        s.checkAnalyticM (codeRoots m n) Real.sqrt ic g minSection fuel = .ok r) ∧
      (r ≠ .feasible → r ≠ .indeterminable → r ≠ .rollPitchRates ∧ ∃ t ∈ Icc 0 s.time, Violated ic g s.polys t r) := by
  obtain ⟨rf, hl⟩ := codeRoots_limit_exact m hm
  obtain ⟨r, e⟩ := C104_analytic_terminates rf ic g minSection s h hD hN hT hfin depth hn
  obtain ⟨F, hF⟩ := eventually_atTop.mp (checkAnalyticM_ev hl Real.sqrt ic g minSection s h.isSmall)
  exact ⟨r, F, fun n fuel h1 h2 => by rw [hF n h1 fuel, e fuel h2], fun h1 h2 =>
    C104_analytic_genuine rf ic g minSection s h hD hN hT hfin (depth + 1) r (e _ (by omega)) h1 h2⟩

/-- **C127 (recursive check, degree four).** On segments of degree at most four, whose coefficients are zero or at least the
smallest number the root finder takes for one, the recursive check of the code is right in exact arithmetic: a feasible segment
respects all limits at every time, and another reason means a violation. -/
theorem C127_degree_four (m : RMath ℝ) (hm : ExactMath m) (ic : InputConstraints ℝ) (g : Fin 3 → ℝ)
    (minSection : ℝ) (hms : 0 < minSection) (s : Segment ℝ) (h : s.WF) (hD : s.D = 3 ∨ s.D = 4)
    (hN : 4 ≤ s.N) (hdeg : ∀ p ∈ s.polys, ∀ j, 5 ≤ j → p.coeffs.getD j 0 = 0)
    (hnorm : ∀ p ∈ s.polys, ∀ j, p.coeffs.getD j 0 = 0 ∨ m.dblMin ≤ |p.coeffs.getD j 0|) (hT : 0 ≤ s.time)
    (hom : ∀ l, ic.getConstraint kOmegaXYMax = some l → l < dblMax) (hfin : Bounded s.polys s.time)
    (depth : ℕ) (hn : s.time < minSection * 2 ^ depth) :
    ∃ r F, (∀ n fuel, F ≤ n → depth < fuel →
        s.checkRecursiveM (codeRoots m n) Real.sqrt ic g minSection fuel = .ok r) ∧
      (r = .feasible → (∀ t ∈ Icc 0 s.time, LimitsHold ic g s.polys t) ∧
        (s.D = 4 → ∀ t ∈ Icc 0 s.time, YawLimitsHold ic s.polys t)) ∧
      (r ≠ .feasible → r ≠ .indeterminable → r ≠ .rollPitchRates ∧ ∃ t ∈ Icc 0 s.time, Violated ic g s.polys t r) := by
  obtain ⟨rf, hc, hl⟩ := low_rootFinder m hm
  obtain ⟨r, e⟩ := C104_terminates rf ic g minSection hms s h hD hN hT hom hfin depth hn
  obtain ⟨F, hF⟩ := eventually_atTop.mp (checkRecursiveM_on (rc := codeRoots m) (rf := rf) Real.sqrt ic g minSection s
    fun p hp d hd c hcd => hl c (low_coefficients m p (h.isSmall.2 p hp) 2 (hdeg p hp) (fun j _ => hnorm p hp j) d hd c hcd))
  refine ⟨r, F, fun n fuel h1 h2 => by rw [hF n h1 fuel, e fuel h2], fun h1 => ?_, fun h1 h2 =>
    C104_genuine rf ic g minSection hms.le s h hD hN hT hom hfin (depth + 1) r (e _ (by omega)) h1 h2⟩
  subst h1
  exact C39_any rf hc ic g minSection hms.le s h hD hT hom hfin (depth + 1) (e _ (by omega))

/-- **C127 (half planes, degree three).** When the distance to every half plane is a polynomial of degree at most three along
the segment, whose coefficients are zero or not too small, the half plane check of the code returns true exactly when the
position is strictly inside all half planes at every time. -/
theorem C127_degree_three (m : RMath ℝ) (hm : ExactMath m) (s : Segment ℝ) (h : s.WF) (hD : s.D = 3 ∨ s.D = 4)
    (hN : 1 ≤ s.N) (hT : 0 ≤ s.time) (hps : List (HalfPlane ℝ))
    (hdeg : ∀ hp ∈ hps, ∃ c0 c1 c2 c3 : ℝ, (∀ t, ∑ i, vec3 s.polys 0 t i * hp.normal i = c0 + c1 * t + c2 * t ^ 2 + c3 * t ^ 3) ∧
      ∀ c ∈ [c1, c2, c3], c = 0 ∨ m.dblMin ≤ |c|) :
    ∃ b F, (∀ n, F ≤ n → s.checkHalfPlanesM (fun x => |x|) dblEpsilon (fun _ a b => ∑ i, a i * b i) (codeRoots m n) hps =
        .ok b) ∧
      (b = true ↔ ∀ hp ∈ hps, ∀ t ∈ Icc 0 s.time, Inside hp (vec3 s.polys 0 t)) := by
  obtain ⟨rf, hc, hl⟩ := low_rootFinder m hm
  obtain ⟨b, e, h1⟩ := C43_exact rf hc s h hD hN hT hps
  have hev := halfPlaneLoopM_on (rc := codeRoots m) (rf := rf) (fun x => |x|) dblEpsilon (fun _ a b => ∑ i, a i * b i) s hps
    fun hp hmem p hp' c hcd => by
      refine hl c ?_
      obtain ⟨q, hq, hqN, hqe⟩ := projection_ok s h (by omega) hp.normal
      have : projectionG s hp.normal = .ok q := hq
      rw [hp'] at this
      cases Res.ok.inj this
      obtain ⟨c0, c1, c2, c3, hpoly, hnorm⟩ := hdeg hp hmem
      have hP : ofCoeffs p.coeffs = C c0 + C c1 * X + C c2 * X ^ 2 + C c3 * X ^ 3 := by
        apply Polynomial.funext
        intro t
        rw [hqe, hpoly]
        simp
      have hco : ∀ j, p.coeffs.getD j 0 = (C c0 + C c1 * X + C c2 * X ^ 2 + C c3 * X ^ 3 : ℝ[X]).coeff j := by
        intro j
        rw [← hP, coeff_ofCoeffs]
      refine low_coefficients m p (by rw [hqN]; exact h.small) 1 ?_ ?_ 1 le_rfl c hcd
      · intro j hj
        rw [hco]
        simp [coeff_X, coeff_X_pow, coeff_C]
        have : j ≠ 0 ∧ 1 ≠ j ∧ j ≠ 2 ∧ j ≠ 3 := by omega
        simp [this]
      · intro j hj
        rw [hco]
        match j, hj with
        | 1, _ => simpa [coeff_X, coeff_X_pow, coeff_C] using hnorm c1 (by simp)
        | 2, _ => simpa [coeff_X, coeff_X_pow, coeff_C] using hnorm c2 (by simp)
        | 3, _ => simpa [coeff_X, coeff_X_pow, coeff_C] using hnorm c3 (by simp)
        | j + 4, _ => left; simp
  rw [halfPlaneLoopG_field] at hev
  unfold Segment.checkHalfPlanes at e
  rw [if_pos hD] at e
  rw [e] at hev
  obtain ⟨F, hF⟩ := eventually_atTop.mp hev
  refine ⟨b, F, fun n hn => ?_, h1⟩
  unfold Segment.checkHalfPlanesM
  rw [if_pos hD, hF n hn]

/-- **C127 (rounding).** With rounding after every operation: there is one function of the coefficients that the root finder of
the code computes when it has enough iterations, and with enough iterations each of the analyses is the analysis with that
function. The assumptions of C115, C116 and C124 on the root finder are therefore statements about the numbers the root finder
of the code returns, and it has to be called only once to check them for a given polynomial. -/
theorem C127_rounded {rnd : ℝ → ℝ} {u : ℝ} (h : Rounding rnd u) (hu : u ≤ 1 / 10 ^ 11) (m : RMath (Fl rnd))
    (hm : RoundedMath m) :
    ∃ rf : RootFinder (Fl rnd),
      (∀ c, c.length ≤ 101 → ∃ F, ∀ n, F ≤ n → ∃ zs, findRoots m n c = .ok ((rf c).1, zs) ∧ zs.getD [] = (rf c).2) ∧
      ∀ (lib : MagLib (Fl rnd)) (tr : Trajectory (Fl rnd)), (∀ s ∈ tr.segments, s.WF) →
        (∀ (k : ℕ) (dims : List ℤ) (mn mx : Extremum (Fl rnd)), ∃ F, ∀ n, F ≤ n →
          tr.computeMinMaxMagnitudeM lib (codeRoots m n) k dims mn mx = tr.computeMinMaxMagnitudeG lib rf k dims mn mx) ∧
        (∃ F, ∀ n, F ≤ n → tr.maxVelocityAndAccelerationM lib (codeRoots m n) = tr.maxVelocityAndAccelerationG lib rf) ∧
        (∀ lim vMax aMax : Fl rnd, ∃ F, ∀ n, F ≤ n →
          tr.scaleToMeetConstraintsM lib lim (codeRoots m n) vMax aMax = tr.scaleToMeetConstraintsG lib lim rf vMax aMax) ∧
        (∀ (abs : Fl rnd → Fl rnd) (eps : Fl rnd) (dot : Dot (Fl rnd)) (hps : List (HalfPlane (Fl rnd))), ∃ F, ∀ n, F ≤ n →
          halfPlaneSegmentsM abs eps dot (codeRoots m n) hps tr.segments =
            halfPlaneSegmentsG abs eps dot rf hps tr.segments) := by
  obtain ⟨rf, hl⟩ := codeRoots_limit h hu m hm
  refine ⟨rf, fun c hc => ?_, fun lib tr hwf => ⟨fun k dims mn mx => ?_, ?_, fun lim vMax aMax => ?_, fun abs eps dot hps => ?_⟩⟩
  · obtain ⟨F, hF⟩ := eventually_atTop.mp (hl c hc)
    refine ⟨F, fun n hn => ?_⟩
    have := hF n hn
    unfold codeRoots at this
    rw [Res.bind_eq_ok] at this
    obtain ⟨r, hr, h1⟩ := this
    have h2 := Res.ok.inj h1
    refine ⟨r.2, ?_, by rw [← h2]⟩
    rw [hr, ← h2]
  · exact eventually_atTop.mp (computeMinMaxMagnitudeM_ev hl lib tr (fun s hs => (hwf s hs).isSmall) k (by omega) dims mn mx)
  · exact eventually_atTop.mp (maxVelocityAndAccelerationM_ev hl lib tr fun s hs => (hwf s hs).isSmall)
  · exact eventually_atTop.mp (scaleToMeetLoopM_ev hl lib lim vMax aMax 20 tr fun s hs => (hwf s hs).isSmall)
  · exact eventually_atTop.mp (halfPlaneSegmentsM_ev hl abs eps dot hps tr.segments fun s hs => (hwf s hs).small)

/-! ### the hypotheses are met -/

/-- A trajectory of the magnitudes and limits. -/
example : ExactMath realMath ∧ exTrR.WF ∧ exTrR.segments ≠ [] ∧ 0 < exTrR.D ∧ 3 ≤ exTrR.N ∧
    ∀ s ∈ exTrR.segments, ∀ t ∈ Icc 0 s.time,
      magnitude s.polys (List.range exTrR.D) 1 t < dblMax ∧ magnitude s.polys (List.range exTrR.D) 2 t < dblMax :=
  ⟨realMath_exact, exTrR_wf, by simp [exTrR], by simp [exTrR], by simp [exTrR], exTrR_magnitudes⟩

theorem realMath_dblMin_le_one : realMath.dblMin ≤ 1 := by
  change (1 / 2 ^ 1022 : ℝ) ≤ 1
  have h2 : (1 : ℝ) ≤ 2 ^ 1022 := one_le_pow₀ (by norm_num)
  generalize (2 : ℝ) ^ 1022 = y at h2
  rw [div_le_one (by linarith)]
  exact h2

/-- The straight flight of `exCruise` has degree one and coefficients zero and one. -/
example : exCruise.WF ∧ exCruise.D = 4 ∧ 4 ≤ exCruise.N ∧ 0 ≤ exCruise.time ∧ Bounded exCruise.polys exCruise.time ∧
    (∀ p ∈ exCruise.polys, ∀ j, 5 ≤ j → p.coeffs.getD j 0 = 0) ∧
    (∀ p ∈ exCruise.polys, ∀ j, p.coeffs.getD j 0 = 0 ∨ realMath.dblMin ≤ |p.coeffs.getD j 0|) := by
  refine ⟨exCruise_wf, rfl, by simp [exCruise], by simp [exCruise], exCruise_bounded, ?_, ?_⟩
  · intro p hp j hj
    obtain ⟨i, rfl⟩ : ∃ i, j = i + 5 := ⟨j - 5, by omega⟩
    simp only [exCruise, List.mem_cons, List.not_mem_nil, or_false] at hp
    rcases hp with rfl | rfl | rfl | rfl <;> simp
  · intro p hp j
    simp only [exCruise, List.mem_cons, List.not_mem_nil, or_false] at hp
    match j with
    | 0 => rcases hp with rfl | rfl | rfl | rfl <;> simp
    | 1 => rcases hp with rfl | rfl | rfl | rfl <;> simp [realMath_dblMin_le_one]
    | 2 => rcases hp with rfl | rfl | rfl | rfl <;> simp
    | 3 => rcases hp with rfl | rfl | rfl | rfl <;> simp
    | j + 4 => rcases hp with rfl | rfl | rfl | rfl <;> simp

/-- Its distance to the plane `x = -1`. -/
example (t : ℝ) : ∑ i, vec3 exCruise.polys 0 t i * (![1, 0, 0] : Fin 3 → ℝ) i = 0 + 1 * t + 0 * t ^ 2 + 0 * t ^ 3 := by
  have : vec3 exCruise.polys 0 t 0 = t := by
    rw [show vec3 exCruise.polys 0 t 0 = derivAt (exCruise.polys[0]'(by simp [exCruise])).coeffs 0 t from
      vec3_eq exCruise 0 t 0 (by simp [exCruise, Segment.D])]
    rw [derivAt_eq_sum]
    simp [exCruise, Finset.sum_range_succ]
  rw [Fin.sum_univ_three, this]
  simp

/-- The doubles. -/
example : Rounding round53 (1 / 2 ^ 53) ∧ (1 / 2 ^ 53 : ℝ) ≤ 1 / 10 ^ 11 ∧ RoundedMath (flMath round53) :=
  ⟨round53_rounding, by norm_num, flMath_rounded round53_rounding (by norm_num)⟩

end Verif
