import Verif.Proofs.MagnitudeShort
import Verif.Props.Magnitude

/- Theorems at the ends of the ranges of sizes and orders: the last row of the table of factors, sizes that do not fit
together, and orders not below the number of coefficients. -/
namespace Verif

open Polynomial Spec Set

variable {K : Type}

/-! ### C02 and C06: the table has 22 rows -/

/-- **C02** at the end of the range: with 22 coefficients the 22nd derivative is read from behind the table. -/
theorem C02_last_row [Field K] (p : Poly K) (hN : p.N = 22) : p.getCoefficients 22 = .ub := by
  unfold Poly.getCoefficients
  rw [Res.check_of (by rw [hN]; norm_num), Res.ok_bind, if_neg (by norm_num),
    if_pos (by unfold kMaxConvolutionSize; norm_num)]

example : (Poly.zero 22 : Poly ℚ).N = 22 := by decide +kernel

/-- **C06** at the end of the range: so are the candidates for the extrema of the 21st derivative of a polynomial with 22
coefficients. -/
theorem C06_last_row [Field K] [LinearOrder K] (rf : RootFinder K) (p : Poly K) (hN : p.N = 22) (a b : K) :
    p.computeMinMax rf a b 21 = .ub := by
  unfold Poly.computeMinMax Poly.computeMinMaxCandidates Poly.getRoots
  rw [if_neg (by rw [hN]; norm_num)]
  norm_num
  rw [C02_last_row p hN]
  rfl

/-- **C06.** An order not below the number of coefficients is refused, whatever it is. -/
theorem C06_order_refused [Field K] [LinearOrder K] (rf : RootFinder K) (p : Poly K) (k : ℤ)
    (hk : (p.N : ℤ) ≤ k) (a b : K) : p.computeMinMax rf a b k = .ok none := by
  unfold Poly.computeMinMax Poly.computeMinMaxCandidates
  rw [if_pos (by omega)]
  rfl

example : ((⟨[1, 2]⟩ : Poly ℚ).N : ℤ) ≤ 40 := by decide +kernel

/-! ### C03: sizes that do not fit together -/

/-- **C03.** The sum of polynomials with different numbers of coefficients, and the product of two polynomials without
any, are undefined. -/
theorem C03_sizes [Field K] (p q : Poly K) :
    (p.N ≠ q.N → p.add q = .ub) ∧ (p.N = 0 → q.N = 0 → p.mul q = .ub) := by
  constructor
  · intro h
    unfold Poly.add
    rw [if_neg h]
  · intro h1 h2
    unfold Poly.mul convolve
    unfold Poly.N at h1 h2
    rw [if_pos (by omega)]
    rfl

example : (⟨[1, 2]⟩ : Poly ℚ).N ≠ (⟨[1]⟩ : Poly ℚ).N := by decide

/-! ### C19: orders not below the number of coefficients -/

/-- **C19 is false for an order not below the number of coefficients,** one dimension: the magnitude is 0 at every time
of every segment, but the largest `double` is reported as minimum and the lowest as maximum, with the flag true. -/
theorem C19_high_order_false (rf : RootFinder ℝ) (tr : Trajectory ℝ) (h : tr.WF) (k : ℕ) (hk : tr.N ≤ k) (d : ℕ)
    (hd : d < tr.D) (mn0 mx0 : Extremum ℝ) :
    tr.computeMinMaxMagnitude rf Real.sqrt k [(d : ℤ)] mn0 mx0 =
        .ok (true, { mn0 with value := dblMax }, { mx0 with value := -dblMax }) ∧
      ∀ s ∈ tr.segments, ∀ t, magnitude s.polys [d] k t = 0 :=
  ⟨minMaxMagnitude_short rf tr h (by omega) k hk d hd mn0 mx0,
    fun s hs t => magnitude_short tr h k hk [d] s hs t⟩

/-- **C19 is false for an order not below the number of coefficients,** several dimensions: a vector of negative size is
created. -/
theorem C19_high_order_ub_false (rf : RootFinder ℝ) (tr : Trajectory ℝ) (h : tr.WF) (hne : tr.segments ≠ []) (k : ℕ)
    (hk : tr.N ≤ k) (d d' : ℤ) (ds : List ℤ) (mn0 mx0 : Extremum ℝ) :
    tr.computeMinMaxMagnitude rf Real.sqrt k (d :: d' :: ds) mn0 mx0 = .ub := by
  unfold Trajectory.computeMinMaxMagnitude
  match hs : tr.segments with
  | [] => exact absurd hs hne
  | s :: ss =>
    have hN := h.coeffs s (by rw [hs]; simp)
    unfold minMaxMagnitudeLoop Segment.magnitudeCandidates Segment.candidateTimes
    dsimp only
    rw [if_pos (by omega)]
    rfl

example : exCross.WF ∧ exCross.segments ≠ [] ∧ exCross.N ≤ 2 ∧ 0 < exCross.D :=
  ⟨exCross_wf, by simp [exCross], by simp [exCross], by simp [exCross]⟩

/-! ### C18: few coefficients -/

/-- **C18 is false for fewer than two coefficients** and more than one dimension: the search for the largest speed
creates a vector of negative size. -/
theorem C18_short_false (rf : RootFinder ℝ) (tr : Trajectory ℝ) (h : tr.WF) (hne : tr.segments ≠ [])
    (hD : 2 ≤ tr.D) (hN : tr.N ≤ 1) (vMax aMax : ℝ) :
    tr.scaleToMeetConstraints rf Real.sqrt vMax aMax = .ub := by
  obtain ⟨d, hd⟩ : ∃ d, tr.D = d + 2 := ⟨tr.D - 2, by omega⟩
  unfold Trajectory.scaleToMeetConstraints
  rw [scaleToMeetLoop]
  unfold Trajectory.maxVelocityAndAcceleration
  obtain ⟨ds, hds⟩ : ∃ ds, ((List.range tr.D).map fun (i : ℕ) => (i : ℤ)) = 0 :: 1 :: ds := by
    rw [hd]
    exact ⟨(List.range d).map fun i => ((i + 2 : ℕ) : ℤ), by
      rw [List.range_succ_eq_map, List.range_succ_eq_map]; simp [Function.comp_def, add_assoc]⟩
  rw [hds]
  dsimp only
  have := C19_high_order_ub_false rf tr h hne 1 hN 0 1 ds Extremum.zero Extremum.zero
  simp only [Nat.cast_one] at this
  rw [this]
  rfl

/-- **C18 is false for two coefficients** (straight lines) and more than one dimension, for the same reason. -/
theorem C18_lines_false (rf : RootFinder ℝ) (hrf : Complete rf) (tr : Trajectory ℝ) (h : tr.WF)
    (hne : tr.segments ≠ []) (hD : 2 ≤ tr.D) (hN : tr.N = 2) (vMax aMax : ℝ)
    (hfin : ∀ s ∈ tr.segments, ∀ t ∈ Icc 0 s.time, magnitude s.polys (List.range tr.D) 1 t < dblMax) :
    tr.scaleToMeetConstraints rf Real.sqrt vMax aMax = .ub := by
  obtain ⟨d, hd⟩ : ∃ d, tr.D = d + 2 := ⟨tr.D - 2, by omega⟩
  obtain ⟨mn, mx, h1, -⟩ := C19_maximum_partial rf hrf tr h hne 1 (by omega) (by norm_num) (List.range tr.D)
    (by rw [hd]; simp [List.range_succ]) (fun d hd => List.mem_range.mp hd) hfin Extremum.zero Extremum.zero
  unfold Trajectory.scaleToMeetConstraints
  rw [scaleToMeetLoop]
  unfold Trajectory.maxVelocityAndAcceleration
  simp only [Nat.cast_one] at h1
  dsimp only
  rw [h1, Res.ok_bind]
  obtain ⟨ds, hds⟩ : ∃ ds, ((List.range tr.D).map fun (i : ℕ) => (i : ℤ)) = 0 :: 1 :: ds := by
    rw [hd]
    exact ⟨(List.range d).map fun i => ((i + 2 : ℕ) : ℤ), by
      rw [List.range_succ_eq_map, List.range_succ_eq_map]; simp [Function.comp_def, add_assoc]⟩
  rw [hds]
  have := C19_high_order_ub_false rf tr h hne 2 (by omega) 0 1 ds Extremum.zero Extremum.zero
  simp only [Nat.cast_ofNat] at this
  rw [this]
  rfl

/-- **C18** for one dimension and fewer than three coefficients. -/
theorem C18_one_dimension (rf : RootFinder ℝ) (hrf : Complete rf) (tr : Trajectory ℝ) (h : tr.WF)
    (hne : tr.segments ≠ []) (hD : tr.D = 1) (hN : tr.N ≤ 2)
    (hfin : ∀ s ∈ tr.segments, ∀ t ∈ Icc 0 s.time,
      magnitude s.polys (List.range tr.D) 1 t < dblMax ∧
      magnitude s.polys (List.range tr.D) 2 t < dblMax)
    (vMax aMax : ℝ) (hv : 0 < vMax) (ha : 0 < aMax) :
    ∃ r c, tr.scaleToMeetConstraints rf Real.sqrt vMax aMax = .ok (true, r) ∧ 1 ≤ c ∧
      r.getSegmentTimes = tr.getSegmentTimes.map (· * c) ∧ r.maxTime = tr.maxTime * c ∧
      (∀ t (k : ℕ), r.evaluate (c * t) k = (fun v => v.map (· / c ^ k)) <$> tr.evaluate t k) ∧
      (∀ t ∈ Icc 0 r.maxTime, ∃ v, r.evaluate t 1 = .ok v ∧ v.length = tr.D ∧
        Real.sqrt (v.map (· ^ 2)).sum ≤ (1 + 1 / 1000) * vMax) ∧
      (∀ t ∈ Icc 0 r.maxTime, ∃ a, r.evaluate t 2 = .ok a ∧ a.length = tr.D ∧
        Real.sqrt (a.map (· ^ 2)).sum ≤ (1 + 1 / 1000) * aMax) ∧
      (c = 1 ∨ (∃ s ∈ tr.segments, ∃ t ∈ Icc 0 s.time,
          magnitude s.polys (List.range tr.D) 1 t = c * vMax) ∨
        ∃ s ∈ tr.segments, ∃ t ∈ Icc 0 s.time,
          magnitude s.polys (List.range tr.D) 2 t = c ^ 2 * aMax) := by
  obtain ⟨r, c, h1, h2, h3, h4, h5, h6, h7, h8, h9, h10⟩ :=
    scaleToMeet_of rf tr h hne hfin (fun tr' w1 w2 w3 w4 w5 => maxVA_short rf hrf tr' w1 w2 (by omega) (by omega) w5)
      vMax aMax hv ha
  refine ⟨r, c, h1, h2, h6, h7, h8, ?_, ?_, h10⟩ <;> intro t ht
  · obtain ⟨s, hs, x, hx, e⟩ := evaluate_local r h3 h4 1 t ht.1 ht.2
    have hlen : (valuesAt s.polys 1 x).length = tr.D := by
      rw [← h5, ← h3.dims s hs]; simp [valuesAt, Segment.D]
    refine ⟨_, by simpa using e, hlen, ?_⟩
    have := (h9 s hs x hx).1
    unfold magnitude at this
    rwa [map_range_getD _ _ hlen] at this
  · obtain ⟨s, hs, x, hx, e⟩ := evaluate_local r h3 h4 2 t ht.1 ht.2
    have hlen : (valuesAt s.polys 2 x).length = tr.D := by
      rw [← h5, ← h3.dims s hs]; simp [valuesAt, Segment.D]
    refine ⟨_, by simpa using e, hlen, ?_⟩
    have := (h9 s hs x hx).2
    unfold magnitude at this
    rwa [map_range_getD _ _ hlen] at this

/-- **C18.** A trajectory without segments meets all limits and is left as it is. -/
theorem C18_empty (rf : RootFinder ℝ) (tr : Trajectory ℝ) (he : tr.segments = []) (vMax aMax : ℝ) (hv : 0 < vMax)
    (ha : 0 < aMax) : tr.scaleToMeetConstraints rf Real.sqrt vMax aMax = .ok (true, tr) := by
  have hdm : (0 : ℝ) < dblMax := lt_trans (by norm_num) dblMax_gt
  unfold Trajectory.scaleToMeetConstraints
  rw [scaleToMeetLoop]
  unfold Trajectory.maxVelocityAndAcceleration Trajectory.computeMinMaxMagnitude
  simp only [he, minMaxMagnitudeLoop, Res.ok_bind, Res.pure_eq]
  rw [if_pos]
  have h1 : ∀ m : ℝ, 0 < m → -dblMax / m ≤ 1 + 1 / 1000 := by
    intro m hm
    have : -dblMax / m ≤ 0 := div_nonpos_of_nonpos_of_nonneg (by linarith) hm.le
    linarith
  exact ⟨h1 vMax hv, h1 aMax ha⟩

/-- Straight lines in the rationals: in one dimension the speed 4 is halved to meet the limit 2, in two dimensions the
program is undefined. -/
example :
    (⟨1, 2, 1, [⟨[⟨[0, 4]⟩], 1, 2⟩]⟩ : Trajectory ℚ).scaleToMeetConstraints (fun _ => (true, []))
      (fun x => if x = 16 then 4 else if x = 4 then 2 else 0) 2 1 =
        .ok (true, ⟨1, 2, 2, [⟨[⟨[0, 2]⟩], 2, 2⟩]⟩) ∧
    (⟨2, 2, 1, [⟨[⟨[0, 4]⟩, ⟨[0, 0]⟩], 1, 2⟩]⟩ : Trajectory ℚ).scaleToMeetConstraints (fun _ => (true, []))
      (fun x => if x = 16 then 4 else if x = 4 then 2 else 0) 2 1 = .ub := by decide +kernel

example : ∃ rf : RootFinder ℝ, Complete rf ∧ exCross.WF ∧ exCross.D = 1 ∧ exCross.N ≤ 2 ∧
    ∀ s ∈ exCross.segments, ∀ t ∈ Icc 0 s.time, magnitude s.polys (List.range exCross.D) 1 t < dblMax ∧
      magnitude s.polys (List.range exCross.D) 2 t < dblMax := by
  obtain ⟨rf, hrf⟩ := complete_rootFinder_exists
  have hdm : (1 : ℝ) < dblMax := lt_trans (by norm_num) dblMax_gt
  refine ⟨rf, hrf, exCross_wf, rfl, by simp [exCross], fun s hs t _ => ?_⟩
  rw [magnitude_short exCross exCross_wf 2 (by simp [exCross]) _ s hs]
  refine ⟨?_, by linarith⟩
  simp only [exCross, List.mem_cons, List.not_mem_nil, or_false] at hs
  subst hs
  unfold magnitude
  rw [← segValue_eq_valuesAt ⟨[⟨[-1, 1]⟩], 2, 2⟩]
  simpa [segValue, derivAt_eq_sum, exCross, Finset.sum_range_succ] using hdm

end Verif
