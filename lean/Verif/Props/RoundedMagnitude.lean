import Verif.Proofs.RoundedMagnitude
import Verif.Props.RoundedExtrema

/-
Property C115 (magnitude extrema in floating point): the extrema of the magnitude of a derivative over a trajectory with
numbers `Fl rnd`, every operation of which rounds its result, and with a root finder of limited accuracy that gets the
rounded coefficients. `Spec.realPolys` are the polynomials that are stored, `Spec.magnitude` the exact Euclidean norm,
`Spec.absSize` the size of the numbers involved.
-/
set_option linter.unusedSectionVars false

namespace Verif

open Polynomial Spec Set

section
variable {K : Type} [Field K] [LinearOrder K]

theorem computeMinMaxCandidatesG_field (rf : RootFinder K) (sq : K → K) (p : Poly K) (a b : K) (d : ℤ) :
    p.computeMinMaxCandidatesG (fieldLib sq).abs (fieldLib sq).eps rf a b d = p.computeMinMaxCandidates rf a b d := by
  unfold Poly.computeMinMaxCandidatesG Poly.computeMinMaxCandidates Poly.getRoots
  by_cases h : (p.N : ℤ) - d - 1 < 0
  · rw [if_pos h, if_pos h]
  · rw [if_neg h, if_neg h]
    rcases p.getCoefficients (d + 1) with c | _ | _ | _ | _ <;> rfl

theorem candidateTimesG_field (rf : RootFinder K) (sq : K → K) (s : Segment K) (d : ℤ) (a b : K) (dims : List ℤ) :
    s.candidateTimesG (fieldLib sq) rf d a b dims = s.candidateTimes rf d a b dims := by
  rcases dims with _ | ⟨x, _ | ⟨y, zs⟩⟩
  · rfl
  · simp only [Segment.candidateTimesG, Segment.candidateTimes, computeMinMaxCandidatesG_field]
  · simp only [Segment.candidateTimesG, Segment.candidateTimes, computeMinMaxCandidatesG_field]
    split
    · rfl
    · congr 1

theorem squaresG_field (sq : K → K) (s : Segment K) (d : ℤ) (t : K) (dims : List ℤ) (acc : K) :
    s.squaresG (fieldLib sq) d t dims acc = s.squares d t dims acc := by
  induction dims generalizing acc with
  | nil => rfl
  | cons x xs ih =>
    simp only [Segment.squaresG, Segment.squares, ih]
    rfl

theorem magnitudeCandidatesG_field (rf : RootFinder K) (sq : K → K) (s : Segment K) (d : ℤ) (a b : K) (dims : List ℤ) :
    s.magnitudeCandidatesG (fieldLib sq) rf d a b dims = s.magnitudeCandidates rf sq d a b dims := by
  unfold Segment.magnitudeCandidatesG Segment.magnitudeCandidates
  simp only [candidateTimesG_field, squaresG_field]
  rfl

theorem minMaxMagnitudeLoopG_field (rf : RootFinder K) (sq : K → K) (d : ℤ) (dims : List ℤ) (segs : List (Segment K))
    (i : ℕ) (mn mx : Extremum K) :
    minMaxMagnitudeLoopG (fieldLib sq) rf d dims segs i mn mx = minMaxMagnitudeLoop rf sq d dims segs i mn mx := by
  induction segs generalizing i mn mx with
  | nil => rfl
  | cons s ss ih =>
    simp only [minMaxMagnitudeLoopG, minMaxMagnitudeLoop, magnitudeCandidatesG_field, ih]
    rfl

/-- **C115.** The functions used below are those of the other theorems (C09, C10), with other numbers. -/
theorem C115_same_code (rf : RootFinder K) (sq : K → K) (tr : Trajectory K) (d : ℤ) (dims : List ℤ) (mn mx : Extremum K) :
    tr.computeMinMaxMagnitudeG (fieldLib sq) rf d dims mn mx = tr.computeMinMaxMagnitude rf sq d dims mn mx ∧
      tr.maxVelocityAndAccelerationG (fieldLib sq) rf = tr.maxVelocityAndAcceleration rf sq := by
  have h : ∀ d dims mn mx, tr.computeMinMaxMagnitudeG (fieldLib sq) rf d dims mn mx =
      tr.computeMinMaxMagnitude rf sq d dims mn mx := by
    intro d dims mn mx
    unfold Trajectory.computeMinMaxMagnitudeG Trajectory.computeMinMaxMagnitude
    rw [minMaxMagnitudeLoopG_field]
    rfl
  refine ⟨h d dims mn mx, ?_⟩
  unfold Trajectory.maxVelocityAndAccelerationG Trajectory.maxVelocityAndAcceleration
  simp only [h]

end

variable {rnd : ℝ → ℝ} {u : ℝ}

/-- **C115.** With rounding and a root finder of accuracy `ε`, `computeMinMaxMagnitude` returns for a trajectory two places
on it, with the magnitudes there up to the error `V` of their evaluation; no magnitude on the trajectory is larger than the
maximum by more than `V + W`, and with at least two dimensions none is smaller than the minimum by more than `V + W`.
`T` bounds the durations, `A₀` and `A₁` the size of the derivative asked for and of the next one. -/
theorem C115_minMaxMagnitude (h : Rounding rnd u) (rf : RootFinder (Fl rnd)) {ε : ℝ} (hε : 0 ≤ ε) (tr : Trajectory (Fl rnd))
    (hne : tr.segments ≠ []) (hwf : ∀ s ∈ tr.segments, s.WF ∧ s.N = tr.N ∧ s.D = tr.D)
    (k : ℕ) (hk : k < tr.N) (hk2 : k + 1 < 22) (ds : List ℕ) (hds0 : ds ≠ []) (hds : ∀ d ∈ ds, d < tr.D)
    (T : ℝ) (hT : ∀ s ∈ tr.segments, 0 ≤ s.time.val ∧ s.time.val ≤ T)
    (hrf : ∀ s ∈ tr.segments, ApproxOn ε 0 s.time.val rf) (A₀ A₁ : ℝ)
    (hA : ∀ s ∈ tr.segments, absSize s ds k T ≤ A₀ ∧ absSize s ds (k + 1) T ≤ A₁) (E V W : ℝ)
    (hE : ((1 + u) ^ (2 * tr.N) - 1) * A₀ ≤ E) (hV : E + ((1 + u) ^ (ds.length + 2) - 1) * (A₀ + E) ≤ V)
    (hW : A₁ * ε + 2 * E + Real.sqrt (2 * ((1 + u) ^ (5 * tr.N + 1 + ds.length) - 1) * (A₀ * A₁) * T) ≤ W)
    (hfin : A₀ + V < dblMax) (mn0 mx0 : Extremum (Fl rnd)) :
    ∃ mn mx, tr.computeMinMaxMagnitudeG (flLib rnd) rf k (asInts ds) mn0 mx0 = .ok (true, mn, mx) ∧
      (∀ s ∈ tr.segments, ∀ t ∈ Icc 0 s.time.val, magnitude (realPolys s) ds k t ≤ mx.value.val + (V + W)) ∧
      (2 ≤ ds.length → ∀ s ∈ tr.segments, ∀ t ∈ Icc 0 s.time.val,
        mn.value.val - (V + W) ≤ magnitude (realPolys s) ds k t) ∧
      (∃ s, tr.segments[mx.segmentIdx]? = some s ∧ mx.time.val ∈ Icc 0 s.time.val ∧
        |mx.value.val - magnitude (realPolys s) ds k mx.time.val| ≤ V) ∧
      (∃ s, tr.segments[mn.segmentIdx]? = some s ∧ mn.time.val ∈ Icc 0 s.time.val ∧
        |mn.value.val - magnitude (realPolys s) ds k mn.time.val| ≤ V) := by
  have hu := rounding_nonneg h
  have hγ : ∀ n, 0 ≤ (1 + u) ^ n - 1 := fun n => sub_nonneg.mpr (one_le_pow_u h n)
  have hok : ∀ s ∈ tr.segments, SegOk u ε rf k ds T E V W s := by
    intro s hs
    obtain ⟨w1, w2, w3⟩ := hwf s hs
    obtain ⟨a0, a1⟩ := hA s hs
    have hT0 : 0 ≤ T := (hT s hs).1.trans (hT s hs).2
    have hdss : ∀ d ∈ ds, d < s.D := by rw [w3]; exact hds
    have n0 := absSize_nonneg s ds hdss k hT0
    have n1 := absSize_nonneg s ds hdss (k + 1) hT0
    refine ⟨w1, by rw [w2]; exact hk, hdss, (hT s hs).1, (hT s hs).2, hrf s hs, ?_, ?_, ?_, by linarith⟩
    · rw [w2]
      exact (mul_le_mul_of_nonneg_left a0 (hγ _)).trans hE
    · refine le_trans ?_ hV
      have := mul_le_mul_of_nonneg_left (add_le_add_left a0 E) (hγ (ds.length + 2))
      linarith
    · rw [w2]
      refine le_trans ?_ hW
      have e1 : absSize s ds (k + 1) T * ε ≤ A₁ * ε := mul_le_mul_of_nonneg_right a1 hε
      have e2 : Real.sqrt (2 * ((1 + u) ^ (5 * tr.N + 1 + ds.length) - 1) *
          (absSize s ds k T * absSize s ds (k + 1) T) * T) ≤
          Real.sqrt (2 * ((1 + u) ^ (5 * tr.N + 1 + ds.length) - 1) * (A₀ * A₁) * T) := by
        apply Real.sqrt_le_sqrt
        refine mul_le_mul_of_nonneg_right ?_ hT0
        refine mul_le_mul_of_nonneg_left (mul_le_mul a0 a1 n1 (n0.trans a0)) ?_
        have := hγ (5 * tr.N + 1 + ds.length)
        positivity
      linarith
  obtain ⟨mn, mx, hrun, -, -, g3, g4, g5, g6, g7⟩ := minMaxMagnitudeLoopG_ok h rf hε k hk2 ds hds0 tr.segments hok 0
    { mn0 with value := (flLib rnd).max } { mx0 with value := -(flLib rnd).max }
  obtain ⟨s0, hs0⟩ := List.exists_mem_of_ne_nil _ hne
  obtain ⟨f1, f2⟩ := g7 s0 hs0
  refine ⟨mn, mx, hrun, g3, g4, ?_, ?_⟩
  · rcases g5 with g5 | ⟨j, hj, j1, j2, j3⟩
    · rw [g5] at f2
      exact absurd f2 (lt_irrefl _)
    · rw [zero_add] at j1
      exact ⟨tr.segments[j], by rw [j1]; exact List.getElem?_eq_getElem hj, j2, j3⟩
  · rcases g6 with g6 | ⟨j, hj, j1, j2, j3⟩
    · rw [g6] at f1
      exact absurd f1 (lt_irrefl _)
    · rw [zero_add] at j1
      exact ⟨tr.segments[j], by rw [j1]; exact List.getElem?_eq_getElem hj, j2, j3⟩

/-- **C115.** With rounding, `computeMaxVelocityAndAcceleration` reports numbers that the speed and the acceleration of the
trajectory do not exceed by more than the accuracy `Q`, and that are reached up to `Q`. -/
theorem C115_maxVelocityAndAcceleration (h : Rounding rnd u) (rf : RootFinder (Fl rnd)) {ε : ℝ} (hε : 0 ≤ ε)
    (tr : Trajectory (Fl rnd)) (hne : tr.segments ≠ []) (hwf : ∀ s ∈ tr.segments, s.WF ∧ s.N = tr.N ∧ s.D = tr.D)
    (hD : 0 < tr.D) (hN : 3 ≤ tr.N) (T : ℝ) (hT : ∀ s ∈ tr.segments, 0 ≤ s.time.val ∧ s.time.val ≤ T)
    (hrf : ∀ s ∈ tr.segments, ApproxOn ε 0 s.time.val rf) (A : ℝ)
    (hA : ∀ s ∈ tr.segments, ∀ k, 1 ≤ k → k ≤ 3 → absSize s (List.range tr.D) k T ≤ A) (E V Q : ℝ)
    (hE : ((1 + u) ^ (2 * tr.N) - 1) * A ≤ E) (hV : E + ((1 + u) ^ (tr.D + 2) - 1) * (A + E) ≤ V)
    (hQ : V + (A * ε + 2 * E + Real.sqrt (2 * ((1 + u) ^ (5 * tr.N + 1 + tr.D) - 1) * (A * A) * T)) ≤ Q)
    (hfin : A + V < dblMax) :
    ∃ v a : Fl rnd, tr.maxVelocityAndAccelerationG (flLib rnd) rf = .ok (true, v, a) ∧
      (∀ s ∈ tr.segments, ∀ t ∈ Icc 0 s.time.val,
        magnitude (realPolys s) (List.range tr.D) 1 t ≤ v.val + Q ∧
        magnitude (realPolys s) (List.range tr.D) 2 t ≤ a.val + Q) ∧
      (∃ s ∈ tr.segments, ∃ t ∈ Icc 0 s.time.val, |v.val - magnitude (realPolys s) (List.range tr.D) 1 t| ≤ Q) ∧
      (∃ s ∈ tr.segments, ∃ t ∈ Icc 0 s.time.val, |a.val - magnitude (realPolys s) (List.range tr.D) 2 t| ≤ Q) := by
  have hu := rounding_nonneg h
  obtain ⟨s0, hs0⟩ := List.exists_mem_of_ne_nil _ hne
  have hT0 : 0 ≤ T := (hT s0 hs0).1.trans (hT s0 hs0).2
  have hA0 : 0 ≤ A := by
    refine le_trans ?_ (hA s0 hs0 1 le_rfl (by norm_num))
    exact absSize_nonneg s0 _ (by intro d hd; rw [(hwf s0 hs0).2.2]; simpa using hd) 1 hT0
  have hE0 : 0 ≤ E := (mul_nonneg (sub_nonneg.mpr (one_le_pow_u h _)) hA0).trans hE
  have hne' : List.range tr.D ≠ [] := by
    intro h0
    rw [List.range_eq_nil] at h0
    omega
  have hds : ∀ d ∈ List.range tr.D, d < tr.D := fun d hd => List.mem_range.mp hd
  have hl : (List.range tr.D).length = tr.D := List.length_range
  have hVQ : V ≤ Q := by
    have := Real.sqrt_nonneg (2 * ((1 + u) ^ (5 * tr.N + 1 + tr.D) - 1) * (A * A) * T)
    have := mul_nonneg hA0 hε
    linarith
  have run : ∀ k, 1 ≤ k → k ≤ 2 → _ := fun k h1 h2 => C115_minMaxMagnitude h rf hε tr hne hwf k (by omega) (by omega)
    (List.range tr.D) hne' hds T hT hrf A A (fun s hs => ⟨hA s hs k h1 (by omega), hA s hs (k + 1) (by omega) (by omega)⟩)
    E V _ hE (by rw [hl]; exact hV) le_rfl hfin Extremum.zero Extremum.zero
  rw [hl] at run
  obtain ⟨mn1, mx1, r1, b1, -, ⟨s1, e1, t1, v1⟩, -⟩ := run 1 le_rfl (by norm_num)
  obtain ⟨mn2, mx2, r2, b2, -, ⟨s2, e2, t2, v2⟩, -⟩ := run 2 (by norm_num) le_rfl
  refine ⟨mx1.value, mx2.value, ?_, fun s hs t ht => ⟨?_, ?_⟩, ?_, ?_⟩
  · unfold Trajectory.maxVelocityAndAccelerationG
    dsimp only
    unfold asInts at r1 r2
    rw [show ((1 : ℕ) : ℤ) = 1 by rfl] at r1
    rw [show ((2 : ℕ) : ℤ) = 2 by rfl] at r2
    rw [r1, Res.ok_bind, r2, Res.ok_bind]
    rfl
  · exact (b1 s hs t ht).trans (by linarith)
  · exact (b2 s hs t ht).trans (by linarith)
  · exact ⟨s1, List.mem_of_getElem? e1, mx1.time.val, t1, v1.trans hVQ⟩
  · exact ⟨s2, List.mem_of_getElem? e2, mx2.time.val, t2, v2.trans hVQ⟩

/-- A segment in the plane with the velocity `(1 - 2 t, 1)` on `[0, 1]`. -/
def exSeg115 : Segment (Fl round53) := ⟨[⟨[⟨0⟩, ⟨1⟩, ⟨-1⟩]⟩, ⟨[⟨0⟩, ⟨1⟩, ⟨0⟩]⟩], ⟨1⟩, 3⟩

theorem exSeg115_magnitude (t : ℝ) : magnitude (realPolys exSeg115) [0, 1] 1 t = Real.sqrt ((1 - 2 * t) ^ 2 + 1) := by
  unfold magnitude
  congr 1
  simp only [List.map_cons, List.map_nil, List.sum_cons, List.sum_nil, add_zero]
  rw [realPolys_value exSeg115 1 t (d := 0) (by simp [exSeg115]), realPolys_value exSeg115 1 t (d := 1) (by simp [exSeg115])]
  simp only [exSeg115, List.getElem_cons_zero, List.getElem_cons_succ, derivAt_eq_sum, vals, List.map_cons, List.map_nil]
  norm_num [Finset.sum_range_succ, Nat.descFactorial]
  ring

theorem exSeg115_size : absSize exSeg115 [0, 1] 1 1 = 4 ∧ absSize exSeg115 [0, 1] 2 1 = 2 := by
  have hds : ∀ d ∈ [0, 1], d < exSeg115.D := by simp [exSeg115, Segment.D]
  rw [absSize_eq exSeg115 _ hds, absSize_eq exSeg115 _ hds]
  simp only [exSeg115, segVals, derivAt_eq_sum, vals, List.map_cons, List.map_nil, List.sum_cons, List.sum_nil,
    List.getD_cons_zero, List.getD_cons_succ]
  norm_num [Finset.sum_range_succ, Nat.descFactorial]

/-- With doubles and a root finder that rounds to doubles, the reported maximum of the speed of that segment, which is `√2`,
is off by less than `10^-6`, and so is the reported minimum, which is 1. -/
example : ∃ mn mx : Extremum (Fl round53),
    (⟨2, 3, ⟨1⟩, [exSeg115]⟩ : Trajectory (Fl round53)).computeMinMaxMagnitudeG (flLib round53) (roundedRoots round53) 1
      [0, 1] Extremum.zero Extremum.zero = .ok (true, mn, mx) ∧
      |mx.value.val - Real.sqrt 2| ≤ 1 / 10 ^ 6 ∧ |mn.value.val - 1| ≤ 1 / 10 ^ 6 := by
  obtain ⟨z1, z2⟩ := exSeg115_size
  have hsq : Real.sqrt (2 * ((1 + 1 / 2 ^ 53) ^ (5 * 3 + 1 + 2) - 1) * (4 * 2) * 1) ≤ 2 / 10 ^ 7 := by
    rw [Real.sqrt_le_left (by norm_num)]
    norm_num
  obtain ⟨mn, mx, e, hmax, hmin, ⟨s1, i1, t1, v1⟩, ⟨s2, i2, t2, v2⟩⟩ := C115_minMaxMagnitude round53_rounding
    (roundedRoots round53) (ε := 1 / 2 ^ 53 * 1) (by norm_num) (⟨2, 3, ⟨1⟩, [exSeg115]⟩ : Trajectory (Fl round53))
    (by simp) (by
      intro s hs
      rw [List.mem_singleton] at hs
      subst hs
      refine ⟨⟨?_, by simp [exSeg115]⟩, rfl, rfl⟩
      simp [exSeg115, Poly.N]) 1 (by norm_num) (by norm_num) [0, 1] (by simp) (by simp) 1
    (by
      intro s hs
      rw [List.mem_singleton] at hs
      subst hs
      simp [exSeg115])
    (by
      intro s hs
      rw [List.mem_singleton] at hs
      subst hs
      exact roundedRoots_approx round53_rounding (by norm_num) (by simp [exSeg115])) 4 2
    (by
      intro s hs
      rw [List.mem_singleton] at hs
      subst hs
      exact ⟨z1.le, z2.le⟩) (1 / 10 ^ 14) (1 / 10 ^ 13) (3 / 10 ^ 7) (by norm_num) (by norm_num)
    (by
      refine le_trans (add_le_add_right hsq _) ?_
      norm_num)
    (by
      have := dblMax_gt (K := ℝ)
      norm_num at this ⊢
      linarith) Extremum.zero Extremum.zero
  refine ⟨mn, mx, e, ?_, ?_⟩
  · have q1 := hmax exSeg115 (by simp) 0 (by simp [exSeg115])
    rw [exSeg115_magnitude] at q1
    norm_num at q1
    have hs1 : s1 = exSeg115 := List.mem_singleton.mp (List.mem_of_getElem? i1)
    subst hs1
    rw [exSeg115_magnitude] at v1
    have t1' : mx.time.val ∈ Icc (0 : ℝ) 1 := t1
    have q2 : Real.sqrt ((1 - 2 * mx.time.val) ^ 2 + 1) ≤ Real.sqrt 2 := by
      apply Real.sqrt_le_sqrt
      nlinarith [t1'.1, t1'.2]
    have q3 := abs_le.mp v1
    norm_num at q3
    rw [abs_le]
    norm_num
    constructor
    · linarith
    · linarith [q3.2]
  · have q1 := hmin (by simp) exSeg115 (by simp) (1 / 2) (by simp [exSeg115]; norm_num)
    rw [exSeg115_magnitude] at q1
    norm_num at q1
    have hs2 : s2 = exSeg115 := List.mem_singleton.mp (List.mem_of_getElem? i2)
    subst hs2
    rw [exSeg115_magnitude] at v2
    have q2 : 1 ≤ Real.sqrt ((1 - 2 * mn.time.val) ^ 2 + 1) := by
      rw [Real.one_le_sqrt]
      nlinarith [sq_nonneg (1 - 2 * mn.time.val)]
    have q3 := abs_le.mp v2
    norm_num at q3
    rw [abs_le]
    norm_num
    constructor
    · linarith [q3.1]
    · linarith

/-- The speed and the acceleration of that segment are reported up to `10^-6`. -/
example : ∃ v a : Fl round53,
    (⟨2, 3, ⟨1⟩, [exSeg115]⟩ : Trajectory (Fl round53)).maxVelocityAndAccelerationG (flLib round53) (roundedRoots round53) =
      .ok (true, v, a) ∧ Real.sqrt 2 - 1 / 10 ^ 6 ≤ v.val := by
  obtain ⟨z1, z2⟩ := exSeg115_size
  have z3 : absSize exSeg115 [0, 1] 3 1 = 0 := by
    have hds : ∀ d ∈ [0, 1], d < exSeg115.D := by simp [exSeg115, Segment.D]
    rw [absSize_eq exSeg115 _ hds]
    simp only [exSeg115, segVals, derivAt_eq_sum, vals, List.map_cons, List.map_nil, List.sum_cons, List.sum_nil,
      List.getD_cons_zero, List.getD_cons_succ]
    norm_num
  have hsq : Real.sqrt (2 * ((1 + 1 / 2 ^ 53) ^ (5 * 3 + 1 + 2) - 1) * (4 * 4) * 1) ≤ 3 / 10 ^ 7 := by
    rw [Real.sqrt_le_left (by norm_num)]
    norm_num
  obtain ⟨v, a, e, hmax, -, -⟩ := C115_maxVelocityAndAcceleration round53_rounding
    (roundedRoots round53) (ε := 1 / 2 ^ 53 * 1) (by norm_num) (⟨2, 3, ⟨1⟩, [exSeg115]⟩ : Trajectory (Fl round53))
    (by simp) (by
      intro s hs
      rw [List.mem_singleton] at hs
      subst hs
      refine ⟨⟨?_, by simp [exSeg115]⟩, rfl, rfl⟩
      simp [exSeg115, Poly.N]) (by norm_num) (by norm_num) 1
    (by
      intro s hs
      rw [List.mem_singleton] at hs
      subst hs
      simp [exSeg115])
    (by
      intro s hs
      rw [List.mem_singleton] at hs
      subst hs
      exact roundedRoots_approx round53_rounding (by norm_num) (by simp [exSeg115])) 4
    (by
      intro s hs k h1 h3
      rw [List.mem_singleton] at hs
      subst hs
      change absSize exSeg115 [0, 1] k 1 ≤ 4
      rcases (by omega : k = 1 ∨ k = 2 ∨ k = 3) with rfl | rfl | rfl
      · rw [z1]
      · rw [z2]; norm_num
      · rw [z3]; norm_num) (1 / 10 ^ 14) (1 / 10 ^ 13) (4 / 10 ^ 7) (by norm_num) (by norm_num)
    (by
      refine le_trans (add_le_add_right (add_le_add_right hsq _) _) ?_
      norm_num)
    (by
      have := dblMax_gt (K := ℝ)
      norm_num at this ⊢
      linarith)
  refine ⟨v, a, e, ?_⟩
  have q1 := (hmax exSeg115 (by simp) 0 (by simp [exSeg115])).1
  change magnitude (realPolys exSeg115) [0, 1] 1 0 ≤ _ at q1
  rw [exSeg115_magnitude] at q1
  norm_num at q1 ⊢
  linarith

end Verif
