import Mathlib.MeasureTheory.Integral.DivergenceTheorem
import Mathlib.Analysis.Calculus.Deriv.Prod
import Mathlib.Analysis.Calculus.FDeriv.WithLp
import Verif.Model.TimeEvaluation
import Verif.Spec.TimeEvaluation
import Verif.Props.Trajectory
import Verif.Props.Sampling
import Verif.Props.Magnitude

/-
Lemmas on the figures of the benchmark.
-/
namespace Verif

open Spec Set

set_option linter.unusedSectionVars false

theorem point_norm {v : List ℝ} (hv : v.length = 3) : ‖point v‖ = vecNorm Real.sqrt v := by
  match v, hv with
  | [a, b, c], _ =>
    rw [EuclideanSpace.norm_eq]
    simp [point, vecNorm, Fin.sum_univ_three, add_assoc]

theorem point_sub {v w : List ℝ} (hv : v.length = 3) (hw : w.length = 3) :
    point (List.zipWith (· - ·) v w) = point v - point w := by
  match v, hv, w, hw with
  | [a, b, c], _, [a', b', c'], _ =>
    ext i
    fin_cases i <;> simp [point]

theorem point_ok {v : List ℝ} : at3 (.ok v) = point v := rfl

theorem pointLine_ok {a b c : List ℝ} (ha : a.length = 3) (hb : b.length = 3) (hc : c.length = 3)
    (hne : point b ≠ point c) :
    computePointLineDistance Real.sqrt a b c = some (lineDist (point b) (point c) (point a)) := by
  have hn : vecNorm Real.sqrt (List.zipWith (· - ·) c b) = ‖point c - point b‖ := by
    rw [← point_sub hc hb, point_norm (by simp [hb, hc])]
  have hn0 : ‖point c - point b‖ ≠ 0 := by
    rw [norm_ne_zero_iff, sub_ne_zero]; exact hne.symm
  unfold computePointLineDistance
  simp only []
  rw [hn, if_neg hn0]
  congr 1
  set n := ‖point c - point b‖ with hnd
  set d : List ℝ := (List.zipWith (· - ·) c b).map (· / n) with hd
  set t : ℝ := (List.zipWith (· * ·) (List.zipWith (· - ·) a b) d).sum with ht
  have hdp : point d = (1 / n) • (point c - point b) := by
    match b, hb, c, hc with
    | [b1, b2, b3], _, [c1, c2, c3], _ =>
      ext i
      fin_cases i <;> simp [point, hd] <;> ring
  have htp : t = inner ℝ (point a - point b) (point d) := by
    match a, ha, b, hb, c, hc with
    | [a1, a2, a3], _, [b1, b2, b3], _, [c1, c2, c3], _ =>
      simp [point, ht, hd, Fin.sum_univ_three, PiLp.inner_apply]
      ring
  have hP : point (List.zipWith (· + ·) b (d.map (t * ·))) = point b + t • point d := by
    match b, hb, c, hc with
    | [b1, b2, b3], _, [c1, c2, c3], _ =>
      ext i
      fin_cases i <;> simp [point, hd]
  rw [← point_norm (by simp [hd, hb, hc, ha]), point_sub (by simp [hd, hb, hc]) ha, hP]
  have hdd : inner ℝ (point d) (point d) = (1 : ℝ) := by
    rw [hdp, inner_smul_left, inner_smul_right, real_inner_self_eq_norm_sq, ← hnd]
    simp
    field_simp
  -- orthogonality of the foot point
  have hmem : point b + t • point d ∈ {p | ∃ u : ℝ, p = point b + u • (point c - point b)} :=
    ⟨t * (1 / n), by rw [hdp, smul_smul]⟩
  unfold lineDist
  apply le_antisymm
  · apply (Metric.le_infDist ⟨_, hmem⟩).mpr
    rintro p ⟨u, rfl⟩
    rw [dist_eq_norm]
    have e : point c - point b = n • point d := by
      rw [hdp, smul_smul, mul_one_div_cancel hn0, one_smul]
    rw [e, smul_smul, ← norm_neg (point b + t • point d - point a)]
    have horth : inner ℝ (-(point b + t • point d - point a)) (point d) = 0 := by
      have : -(point b + t • point d - point a) = (point a - point b) - t • point d := by module
      rw [this, inner_sub_left, inner_smul_left, hdd, ← htp]
      simp
    have e2 : point a - (point b + (u * n) • point d) =
        -(point b + t • point d - point a) + (t - u * n) • point d := by module
    rw [e2]
    have h2 : ‖-(point b + t • point d - point a) + (t - u * n) • point d‖ ^ 2 =
        ‖-(point b + t • point d - point a)‖ ^ 2 + (t - u * n) ^ 2 := by
      rw [norm_add_sq_real, inner_smul_right, horth, norm_smul, mul_pow, ← real_inner_self_eq_norm_sq (point d), hdd]
      simp
    apply le_of_sq_le_sq _ (norm_nonneg _)
    rw [h2]
    nlinarith [sq_nonneg (t - u * n)]
  · refine (Metric.infDist_le_dist_of_mem hmem).trans_eq ?_
    rw [dist_comm, dist_eq_norm]

/-! ### the motion as a curve in space -/

section
variable {tr : Trajectory ℝ} (h : tr.WF) (hne : tr.segments ≠ []) (hD : 3 ≤ tr.D)
include h hne hD

theorem at3_continuous {k : ℕ} (hj : tr.JoinsAt k) : ContinuousOn (fun t => at3 (tr.evaluate t k)) (Icc 0 tr.maxTime) := by
  have hc : ∀ d : Fin 3, ContinuousOn (fun t => component (tr.evaluate t k) d) (Icc 0 tr.maxTime) :=
    fun d => C10_continuous tr h hne k hj d (by omega)
  refine (PiLp.continuous_toLp 2 (fun _ : Fin 3 => ℝ)).comp_continuousOn (continuousOn_pi.mpr fun d => ?_)
  fin_cases d
  · exact hc 0
  · exact hc 1
  · exact hc 2

theorem at3_deriv (k : ℕ) {i : ℕ} (hi : i < tr.segments.length) {t : ℝ}
    (h1 : startTime tr.getSegmentTimes i < t) (h2 : t < startTime tr.getSegmentTimes (i + 1)) :
    HasDerivAt (fun t => at3 (tr.evaluate t k)) (at3 (tr.evaluate t (k + 1 : ℕ))) t := by
  have hc : ∀ d : Fin 3, HasDerivAt (fun t => component (tr.evaluate t k) d)
      (component (tr.evaluate t (k + 1 : ℕ)) d) t := fun d => C10_derivative tr h i hi t h1 h2 k d (by omega)
  have hp : HasDerivAt (fun t => ![component (tr.evaluate t k) 0, component (tr.evaluate t k) 1,
      component (tr.evaluate t k) 2]) ![component (tr.evaluate t (k + 1 : ℕ)) 0, component (tr.evaluate t (k + 1 : ℕ)) 1,
      component (tr.evaluate t (k + 1 : ℕ)) 2] t := by
    refine hasDerivAt_pi.mpr fun d => ?_
    fin_cases d
    · exact hc 0
    · exact hc 1
    · exact hc 2
  exact (PiLp.hasFDerivAt_toLp (𝕜 := ℝ) 2 _).comp_hasDerivAt t hp

/-- The fundamental theorem over the whole trajectory. -/
theorem at3_integral {k : ℕ} (hj : tr.JoinsAt k) (hj' : tr.JoinsAt (k + 1)) {a b : ℝ} (h0 : 0 ≤ a) (hab : a ≤ b)
    (hb : b ≤ tr.maxTime) :
    ∫ t in a..b, at3 (tr.evaluate t (k + 1 : ℕ)) = at3 (tr.evaluate b k) - at3 (tr.evaluate a k) := by
  have hsub : Icc a b ⊆ Icc 0 tr.maxTime := Icc_subset_Icc h0 hb
  refine MeasureTheory.integral_eq_of_hasDerivAt_off_countable_of_le (fun t => at3 (tr.evaluate t k))
    (fun t => at3 (tr.evaluate t (k + 1 : ℕ))) hab
    (s := ((fun i => startTime tr.getSegmentTimes i) '' univ)) ((countable_univ).image _)
    ((at3_continuous h hne hD hj).mono hsub) ?_ ?_
  · rintro t ⟨⟨ht1, ht2⟩, hts⟩
    obtain ⟨i, hi, g1, g2⟩ := exists_segment tr h t (by linarith) (by linarith)
    refine at3_deriv h hne hD k hi (lt_of_le_of_ne g1 ?_) g2
    intro he
    exact hts ⟨i, mem_univ _, he⟩
  · exact ContinuousOn.intervalIntegrable (by
      rw [uIcc_of_le hab]
      exact (at3_continuous h hne hD hj').mono hsub)

theorem at3_norm_integrable {k : ℕ} (hj : tr.JoinsAt k) {a b : ℝ} (h0 : 0 ≤ a) (hab : a ≤ b)
    (hb : b ≤ tr.maxTime) : IntervalIntegrable (fun t => ‖at3 (tr.evaluate t k)‖) MeasureTheory.volume a b :=
  ContinuousOn.intervalIntegrable (by
    rw [uIcc_of_le hab]
    exact ((at3_continuous h hne hD hj).mono (Icc_subset_Icc h0 hb)).norm)

theorem at3_chord_le {k : ℕ} (hj : tr.JoinsAt k) (hj' : tr.JoinsAt (k + 1)) {a b : ℝ} (h0 : 0 ≤ a) (hab : a ≤ b)
    (hb : b ≤ tr.maxTime) :
    ‖at3 (tr.evaluate b k) - at3 (tr.evaluate a k)‖ ≤ ∫ t in a..b, ‖at3 (tr.evaluate t (k + 1 : ℕ))‖ := by
  rw [← at3_integral h hne hD hj hj' h0 hab hb]
  exact intervalIntegral.norm_integral_le_integral_norm hab

theorem at3_lipschitz {k : ℕ} (hj : tr.JoinsAt k) (hj' : tr.JoinsAt (k + 1)) {A : ℝ}
    (hA : ∀ t, 0 ≤ t → t ≤ tr.maxTime → ‖at3 (tr.evaluate t (k + 1 : ℕ))‖ ≤ A) {a b : ℝ} (h0 : 0 ≤ a) (hab : a ≤ b)
    (hb : b ≤ tr.maxTime) : ‖at3 (tr.evaluate b k) - at3 (tr.evaluate a k)‖ ≤ A * (b - a) := by
  rw [← at3_integral h hne hD hj hj' h0 hab hb]
  have := intervalIntegral.norm_integral_le_of_norm_le_const (a := a) (b := b) (C := A)
    (f := fun t => at3 (tr.evaluate t (k + 1 : ℕ))) (fun t ht => by
      rw [uIoc_of_le hab] at ht
      exact hA t (by linarith [ht.1]) (by linarith [ht.2]))
  rwa [abs_of_nonneg (by linarith)] at this

/-- A chord is not much shorter than the arc. -/
theorem at3_arc_le {k : ℕ} (hj : tr.JoinsAt k) (hj' : tr.JoinsAt (k + 1)) (hj'' : tr.JoinsAt (k + 1 + 1)) {A : ℝ}
    (hA : ∀ t, 0 ≤ t → t ≤ tr.maxTime → ‖at3 (tr.evaluate t (k + 1 + 1 : ℕ))‖ ≤ A) {a b : ℝ} (h0 : 0 ≤ a) (hab : a ≤ b)
    (hb : b ≤ tr.maxTime) : ∫ t in a..b, ‖at3 (tr.evaluate t (k + 1 : ℕ))‖ ≤
      ‖at3 (tr.evaluate b k) - at3 (tr.evaluate a k)‖ + 2 * A * (b - a) ^ 2 := by
  set v : ℝ → EuclideanSpace ℝ (Fin 3) := fun t => at3 (tr.evaluate t (k + 1 : ℕ)) with hv
  have hA0 : 0 ≤ A := (norm_nonneg _).trans (hA a h0 (hab.trans hb))
  have hvi : IntervalIntegrable v MeasureTheory.volume a b :=
    ContinuousOn.intervalIntegrable (by
      rw [uIcc_of_le hab]
      exact (at3_continuous h hne hD hj').mono (Icc_subset_Icc h0 hb))
  have hbd : ∀ t ∈ Icc a b, ‖v t - v a‖ ≤ A * (b - a) := by
    intro t ht
    exact (at3_lipschitz h hne hD hj' hj'' hA h0 ht.1 (ht.2.trans hb)).trans
      (mul_le_mul_of_nonneg_left (by linarith [ht.2]) hA0)
  have h1 : ∫ t in a..b, ‖v t‖ ≤ ∫ t in a..b, (‖v a‖ + A * (b - a)) := by
    refine intervalIntegral.integral_mono_on hab hvi.norm intervalIntegrable_const fun t ht => ?_
    have := norm_add_le (v a) (v t - v a)
    rw [add_sub_cancel] at this
    linarith [hbd t ht]
  rw [intervalIntegral.integral_const, smul_eq_mul] at h1
  have h2 : ∫ t in a..b, v t = at3 (tr.evaluate b k) - at3 (tr.evaluate a k) := at3_integral h hne hD hj hj' h0 hab hb
  have h3 : ‖∫ t in a..b, (v t - v a)‖ ≤ A * (b - a) * (b - a) := by
    have := intervalIntegral.norm_integral_le_of_norm_le_const (a := a) (b := b) (C := A * (b - a))
      (f := fun t => v t - v a) (fun t ht => by
        rw [uIoc_of_le hab] at ht
        exact hbd t ⟨ht.1.le, ht.2⟩)
    rwa [abs_of_nonneg (by linarith : (0 : ℝ) ≤ b - a)] at this
  rw [intervalIntegral.integral_sub hvi intervalIntegrable_const, intervalIntegral.integral_const, h2] at h3
  have h4 : (b - a) * ‖v a‖ ≤ ‖at3 (tr.evaluate b k) - at3 (tr.evaluate a k)‖ + A * (b - a) * (b - a) := by
    have e : (b - a) * ‖v a‖ = ‖(b - a) • v a‖ := by
      rw [norm_smul, Real.norm_of_nonneg (by linarith)]
    rw [e]
    have := norm_sub_norm_le ((b - a) • v a) (at3 (tr.evaluate b k) - at3 (tr.evaluate a k))
    rw [norm_sub_rev ((b - a) • v a)] at this
    linarith
  nlinarith

end

/-! ### the length of the sampled path -/

theorem pathLength_some {l : List ℝ} {ps : List (List ℝ)} (hl : l.length = 3) (hp : ∀ p ∈ ps, p.length = 3) (acc : ℝ) :
    pathLengthLoop Real.sqrt (some l) ps acc = .ok (acc + ∑ j ∈ Finset.range ps.length,
      ‖point ((l :: ps).getD (j + 1) []) - point ((l :: ps).getD j [])‖) := by
  induction ps generalizing l acc with
  | nil => simp [pathLengthLoop]
  | cons p ps ih =>
    have h3 := hp p (by simp)
    unfold pathLengthLoop vecSub
    rw [if_pos (by rw [h3, hl]), Res.ok_bind, ih h3 fun q hq => hp q (by simp [hq]), List.length_cons,
      Finset.sum_range_succ', ← point_norm (by simp [h3, hl]), point_sub h3 hl, Res.ok.injEq]
    simp only [List.getD_cons_succ, List.getD_cons_zero]
    ring

theorem pathLength_ok {ps : List (List ℝ)} (hp : ∀ p ∈ ps, p.length = 3) :
    pathLengthLoop Real.sqrt none ps 0 = .ok (∑ j ∈ Finset.range (ps.length - 1),
      ‖point (ps.getD (j + 1) []) - point (ps.getD j [])‖) := by
  match ps with
  | [] => simp [pathLengthLoop]
  | p :: ps =>
    unfold pathLengthLoop
    rw [pathLength_some (hp p (by simp)) fun q hq => hp q (by simp [hq]), zero_add]
    rfl

section
variable {tr : Trajectory ℝ} (h : tr.WF) (hne : tr.segments ≠ []) (hD : 3 ≤ tr.D)
include h hne hD

theorem polygon_bounds (hj0 : tr.JoinsAt 0) (hj1 : tr.JoinsAt 1) (hj2 : tr.JoinsAt 2) {A : ℝ}
    (hA : ∀ t, 0 ≤ t → t ≤ tr.maxTime → ‖at3 (tr.evaluate t 2)‖ ≤ A) {dt : ℝ} (hdt : 0 ≤ dt) (m : ℕ)
    (hm : m * dt ≤ tr.maxTime) :
    (∑ j ∈ Finset.range m, ‖at3 (tr.evaluate ((j + 1 : ℕ) * dt) 0) - at3 (tr.evaluate (j * dt) 0)‖ ≤
      ∫ t in (0 : ℝ)..m * dt, ‖at3 (tr.evaluate t 1)‖) ∧
    ∫ t in (0 : ℝ)..m * dt, ‖at3 (tr.evaluate t 1)‖ ≤
      ∑ j ∈ Finset.range m, ‖at3 (tr.evaluate ((j + 1 : ℕ) * dt) 0) - at3 (tr.evaluate (j * dt) 0)‖ +
        m * (2 * A * dt ^ 2) := by
  induction m with
  | zero => simp
  | succ m ih =>
    have hstep : (m : ℝ) * dt ≤ (m + 1 : ℕ) * dt := by push_cast; nlinarith
    have h0 : 0 ≤ (m : ℝ) * dt := by positivity
    obtain ⟨i1, i2⟩ := ih (hstep.trans hm)
    have hint1 := at3_norm_integrable h hne hD hj1 le_rfl h0 (hstep.trans hm)
    have hint2 := at3_norm_integrable h hne hD hj1 h0 hstep hm
    have c1 := at3_chord_le (k := 0) h hne hD hj0 hj1 h0 hstep hm
    have c2 := at3_arc_le (k := 0) h hne hD hj0 hj1 hj2 hA h0 hstep hm
    have hadd := intervalIntegral.integral_add_adjacent_intervals hint1 hint2
    have hd : ((m + 1 : ℕ) : ℝ) * dt - m * dt = dt := by push_cast; ring
    rw [hd] at c2
    simp only [Nat.cast_zero, zero_add, Nat.cast_one] at c1 c2 hadd
    rw [Finset.sum_range_succ, ← hadd]
    refine ⟨by linarith, ?_⟩
    have e : ((m + 1 : ℕ) : ℝ) * (2 * A * dt ^ 2) = m * (2 * A * dt ^ 2) + 2 * A * dt ^ 2 := by push_cast; ring
    rw [e]
    linarith

end

/-! ### the deviation from the straight line -/

/-- The area of the trapezoids between the samples. -/
noncomputable def trapArea (s : Segment ℝ) : ℝ :=
  ∑ i ∈ Finset.range (⌈100 * s.time⌉₊ - 1), 1 / 2 * (devAt s ((i + 1 : ℕ) / 100) + devAt s (i / 100)) *
    ‖at3 (s.evaluate ((i + 1 : ℕ) / 100) 0) - at3 (s.evaluate (i / 100) 0)‖

theorem vec3_eval {s : Segment ℝ} (h : s.WF) (hD : s.D = 3) (t : ℝ) :
    ∃ v, s.evaluate t 0 = .ok v ∧ v.length = 3 ∧ vec3 v = .ok v ∧ point v = at3 (s.evaluate t 0) := by
  have e := segment_evaluate_ok s h t 0
  rw [Nat.cast_zero] at e
  have hl : (segValue s 0 t).length = 3 := by rw [segValue_length, hD]
  refine ⟨_, e, hl, ?_, ?_⟩
  · unfold vec3
    rw [if_pos hl]
  · rw [e, point_ok]

theorem sample_lt {T : ℝ} {j : ℕ} : (j : ℝ) / 100 < T ↔ j < ⌈100 * T⌉₊ := by
  rw [Nat.lt_ceil, div_lt_iff₀ (by norm_num)]
  constructor <;> intro h <;> linarith

section
variable {s : Segment ℝ} (h : s.WF) (hD : s.D = 3) {start stop : List ℝ} (h0 : s.evaluate 0 0 = .ok start)
  (h1 : s.evaluate s.time 0 = .ok stop) (l0 : start.length = 3) (l1 : stop.length = 3)
include h hD h0 h1 l0 l1

theorem dev_dist (hne : at3 (s.evaluate 0 0) ≠ at3 (s.evaluate s.time 0)) {t : ℝ} {p : List ℝ}
    (hp : s.evaluate t 0 = .ok p) (lp : p.length = 3) :
    computePointLineDistance Real.sqrt p start stop = some (devAt s t) := by
  unfold devAt
  rw [h0, h1, point_ok, point_ok] at hne
  rw [pointLine_ok lp l0 l1 hne, hp, h0, h1, point_ok, point_ok, point_ok]

theorem dev_tail (hne : at3 (s.evaluate 0 0) ≠ at3 (s.evaluate s.time 0)) (r m : ℕ)
    (hr : m + 1 + r = ⌈100 * s.time⌉₊) (st : Deviation ℝ) (hp : point st.point = at3 (s.evaluate (m / 100) 0))
    (lp : st.point.length = 3) (hd : st.dist = some (devAt s (m / 100))) (fuel : ℕ) (hf : r + 1 ≤ fuel) :
    ∃ st', deviationLoop Real.sqrt s start stop fuel ((m + 1 : ℕ) / 100) st = .ok st' ∧
      (∃ y, st'.dist = some y) ∧
      st'.area = st.area.map (· + ∑ i ∈ Finset.range r, 1 / 2 * (devAt s ((m + i + 1 : ℕ) / 100) +
        devAt s ((m + i : ℕ) / 100)) * ‖at3 (s.evaluate ((m + i + 1 : ℕ) / 100) 0) - at3 (s.evaluate ((m + i : ℕ) / 100) 0)‖) ∧
      st.maxDist ≤ st'.maxDist ∧ (∀ j, m < j → j < ⌈100 * s.time⌉₊ → devAt s (j / 100) ≤ st'.maxDist) ∧
      (st'.maxDist = st.maxDist ∨ ∃ j : ℕ, j < ⌈100 * s.time⌉₊ ∧ st'.maxDist = devAt s (j / 100)) := by
  induction r generalizing m st fuel with
  | zero =>
    obtain ⟨fuel, rfl⟩ : ∃ f, fuel = f + 1 := ⟨fuel - 1, by omega⟩
    refine ⟨st, ?_, ⟨_, hd⟩, ?_, le_rfl, ?_, Or.inl rfl⟩
    · unfold deviationLoop
      rw [if_neg (by rw [sample_lt]; omega)]
    · cases st.area <;> simp
    · intro j h2 h3
      omega
  | succ r ih =>
    obtain ⟨fuel, rfl⟩ : ∃ f, fuel = f + 1 := ⟨fuel - 1, by omega⟩
    obtain ⟨p, hpe, hpl, hpv, hpp⟩ := vec3_eval h hD (((m + 1 : ℕ) : ℝ) / 100)
    have hdist := dev_dist h hD h0 h1 l0 l1 hne hpe hpl
    set x := devAt s (((m + 1 : ℕ) : ℝ) / 100) with hx
    set seg := 1 / 2 * (x + devAt s (m / 100)) *
      ‖at3 (s.evaluate (((m + 1 : ℕ) : ℝ) / 100) 0) - at3 (s.evaluate (m / 100) 0)‖ with hseg
    obtain ⟨st', e1, e2, e3, e4, e5, e6⟩ := ih (m + 1) (by omega)
      ⟨p, some x, if x > st.maxDist then x else st.maxDist, st.area.map (· + seg)⟩ hpp hpl rfl fuel (by omega)
    refine ⟨st', ?_, e2, ?_, ?_, ?_, ?_⟩
    · unfold deviationLoop
      rw [if_pos (by rw [sample_lt]; omega), hpe, Res.ok_bind, hpv, Res.ok_bind]
      dsimp only
      rw [hdist, hd]
      have et : ((m + 1 : ℕ) : ℝ) / 100 + 1 / 100 = ((m + 1 + 1 : ℕ) : ℝ) / 100 := by push_cast; ring
      rw [et, ← e1]
      congr 2
      have hn : vecNorm Real.sqrt (List.zipWith (· - ·) p st.point) =
          ‖at3 (s.evaluate (((m + 1 : ℕ) : ℝ) / 100) 0) - at3 (s.evaluate (m / 100) 0)‖ := by
        rw [← hpp, ← hp, ← point_sub hpl lp, point_norm (by simp [hpl, lp])]
      cases st.area with
      | none => rfl
      | some a =>
        dsimp only [Option.map_some]
        rw [hn]
    · rw [e3, Finset.sum_range_succ']
      cases st.area with
      | none => rfl
      | some a =>
        simp only [Option.map_some, Option.some.injEq, add_zero, hseg, hx]
        have : ∀ i, m + 1 + i = m + (i + 1) := fun i => by omega
        simp only [this]
        ring
    · refine le_trans ?_ e4
      dsimp only
      split_ifs with hg
      · exact hg.le
      · exact le_rfl
    · intro j hj1 hj2
      rcases (Nat.succ_le_of_lt hj1).eq_or_lt with rfl | hj1
      · refine le_trans ?_ e4
        dsimp only
        split_ifs with hg
        · exact le_rfl
        · exact not_lt.mp hg
      · exact e5 j hj1 hj2
    · rcases e6 with e6 | e6
      · dsimp only at e6
        split_ifs at e6 with hg
        · exact Or.inr ⟨m + 1, by omega, e6⟩
        · exact Or.inl e6
      · exact Or.inr e6

/-- One segment whose ends differ. -/
theorem dev_segment (hT : 0 < s.time) (hne : at3 (s.evaluate 0 0) ≠ at3 (s.evaluate s.time 0)) (st : Deviation ℝ)
    (hst : st.area = none ∨ ∃ y, st.dist = some y) (hp : st.point = start) (fuel : ℕ) (hf : ⌈100 * s.time⌉₊ + 1 ≤ fuel) :
    ∃ st', deviationLoop Real.sqrt s start stop fuel 0 st = .ok st' ∧ (∃ y, st'.dist = some y) ∧
      st'.area = st.area.map (· + trapArea s) ∧
      st.maxDist ≤ st'.maxDist ∧ (∀ j : ℕ, j / 100 < s.time → devAt s (j / 100) ≤ st'.maxDist) ∧
      (st'.maxDist = st.maxDist ∨ ∃ j : ℕ, (j : ℝ) / 100 < s.time ∧ st'.maxDist = devAt s (j / 100)) := by
  obtain ⟨fuel, rfl⟩ : ∃ f, fuel = f + 1 := ⟨fuel - 1, by omega⟩
  have hn : 0 < ⌈100 * s.time⌉₊ := Nat.ceil_pos.mpr (by linarith)
  obtain ⟨p, hpe, hpl, hpv, hpp⟩ := vec3_eval h hD (0 : ℝ)
  have hps : p = start := by
    rw [h0] at hpe
    exact (Res.ok.inj hpe).symm
  have hdist := dev_dist h hD h0 h1 l0 l1 hne hpe hpl
  obtain ⟨st', e1, e2, e3, e4, e5, e6⟩ := dev_tail h hD h0 h1 l0 l1 hne (⌈100 * s.time⌉₊ - 1) 0 (by omega)
    ⟨p, some (devAt s 0), if devAt s 0 > st.maxDist then devAt s 0 else st.maxDist, st.area⟩ (by simpa using hpp) hpl
    (by simp) fuel (by omega)
  refine ⟨st', ?_, e2, ?_, ?_, ?_, ?_⟩
  · unfold deviationLoop
    rw [if_pos hT, hpe, Res.ok_bind, hpv, Res.ok_bind]
    dsimp only
    rw [hdist, hp, hps]
    have et : (0 : ℝ) + 1 / 100 = ((0 + 1 : ℕ) : ℝ) / 100 := by norm_num
    rw [et, ← e1, hps]
    congr 2
    have hz : vecNorm Real.sqrt (List.zipWith (· - ·) start start) = 0 := by
      rw [← point_norm (by simp [l0]), point_sub l0 l0, sub_self, norm_zero]
    rcases hst with hst | ⟨y, hy⟩
    · rw [hst]
    · rw [hy]
      cases st.area with
      | none => rfl
      | some a =>
        dsimp only
        rw [hz]
        simp
  · rw [e3]
    unfold trapArea
    simp only [zero_add]
  · refine le_trans ?_ e4
    dsimp only
    split_ifs with hg
    · exact hg.le
    · exact le_rfl
  · intro j hj
    rcases Nat.eq_zero_or_pos j with rfl | hj1
    · refine le_trans ?_ e4
      dsimp only
      simp only [Nat.cast_zero, zero_div]
      split_ifs with hg
      · exact le_rfl
      · exact not_lt.mp hg
    · exact e5 j hj1 (sample_lt.mp hj)
  · rcases e6 with e6 | ⟨j, hj, e6⟩
    · dsimp only at e6
      split_ifs at e6 with hg
      · exact Or.inr ⟨0, by simpa using hT, by simpa using e6⟩
      · exact Or.inl e6
    · exact Or.inr ⟨j, sample_lt.mpr hj, e6⟩

/-- One segment that ends where it starts. -/
theorem dev_segment_same (hT : 0 < s.time) (he : at3 (s.evaluate 0 0) = at3 (s.evaluate s.time 0)) (st : Deviation ℝ)
    (fuel : ℕ) (hf : ⌈100 * s.time⌉₊ + 1 ≤ fuel) :
    ∃ st', deviationLoop Real.sqrt s start stop fuel 0 st = .ok st' ∧ st'.area = none ∧ st'.maxDist = st.maxDist := by
  have hdist : ∀ p, computePointLineDistance Real.sqrt p start stop = none := by
    intro p
    unfold computePointLineDistance
    rw [h0, h1, point_ok, point_ok] at he
    rw [if_pos]
    rw [← point_norm (by simp [l0, l1]), point_sub l1 l0, he, sub_self, norm_zero]
  have key : ∀ r j : ℕ, j + r = ⌈100 * s.time⌉₊ → ∀ st : Deviation ℝ, st.area = none → ∀ fuel, r + 1 ≤ fuel →
      ∃ st', deviationLoop Real.sqrt s start stop fuel (j / 100) st = .ok st' ∧ st'.area = none ∧
        st'.maxDist = st.maxDist := by
    intro r
    induction r with
    | zero =>
      intro j hj st hst fuel hf
      obtain ⟨fuel, rfl⟩ : ∃ f, fuel = f + 1 := ⟨fuel - 1, by omega⟩
      refine ⟨st, ?_, hst, rfl⟩
      unfold deviationLoop
      rw [if_neg (by rw [sample_lt]; omega)]
    | succ r ih =>
      intro j hj st hst fuel hf
      obtain ⟨fuel, rfl⟩ : ∃ f, fuel = f + 1 := ⟨fuel - 1, by omega⟩
      obtain ⟨p, hpe, hpl, hpv, hpp⟩ := vec3_eval h hD ((j : ℝ) / 100)
      unfold deviationLoop
      rw [if_pos (by rw [sample_lt]; omega), hpe, Res.ok_bind, hpv, Res.ok_bind]
      dsimp only
      rw [hdist, hst]
      have et : (j : ℝ) / 100 + 1 / 100 = ((j + 1 : ℕ) : ℝ) / 100 := by push_cast; ring
      rw [et]
      exact ih (j + 1) (by omega) ⟨p, none, st.maxDist, none⟩ rfl fuel (by omega)
  obtain ⟨fuel, rfl⟩ : ∃ f, fuel = f + 1 := ⟨fuel - 1, by omega⟩
  have hn : 0 < ⌈100 * s.time⌉₊ := Nat.ceil_pos.mpr (by linarith)
  obtain ⟨p, hpe, hpl, hpv, hpp⟩ := vec3_eval h hD (0 : ℝ)
  unfold deviationLoop
  rw [if_pos hT, hpe, Res.ok_bind, hpv, Res.ok_bind]
  dsimp only
  rw [hdist]
  have et : (0 : ℝ) + 1 / 100 = ((1 : ℕ) : ℝ) / 100 := by norm_num
  rw [et]
  obtain ⟨st', e1, e2, e3⟩ := key (⌈100 * s.time⌉₊ - 1) 1 (by omega) ⟨p, none, st.maxDist, none⟩ rfl fuel (by omega)
  refine ⟨st', ?_, e2, e3⟩
  rw [← e1]
  congr 2
  cases st.area <;> rfl

end

theorem deviationLoop_mono {s : Segment ℝ} {start stop : List ℝ} {f : ℕ} {t : ℝ} {st st' : Deviation ℝ}
    (hf : deviationLoop Real.sqrt s start stop f t st = .ok st') {fuel : ℕ} (hfu : f ≤ fuel) :
    deviationLoop Real.sqrt s start stop fuel t st = .ok st' := by
  induction f generalizing fuel t st with
  | zero => simp [deviationLoop] at hf
  | succ f ih =>
    obtain ⟨fuel, rfl⟩ : ∃ g, fuel = g + 1 := ⟨fuel - 1, by omega⟩
    unfold deviationLoop at hf ⊢
    by_cases hc : t < s.time
    · rw [if_pos hc] at hf ⊢
      rw [Res.bind_eq_ok] at hf
      obtain ⟨v, hv, hf⟩ := hf
      rw [Res.bind_eq_ok] at hf
      obtain ⟨p, hp, hf⟩ := hf
      rw [hv, Res.ok_bind, hp, Res.ok_bind]
      exact ih hf (by omega)
    · rw [if_neg hc] at hf ⊢
      exact hf

theorem dev_segments (ss : List (Segment ℝ)) (hwf : ∀ s ∈ ss, s.WF ∧ s.D = 3 ∧ 0 ≤ s.time) (st : Deviation ℝ)
    (hst : st.area = none ∨ ∃ y, st.dist = some y) :
    ∃ st', (∃ F, ∀ fuel, F ≤ fuel → deviationSegments fuel Real.sqrt ss st = .ok st') ∧
      st.maxDist ≤ st'.maxDist ∧
      (∀ s ∈ ss, EndsDiffer s → ∀ j : ℕ, j / 100 < s.time → devAt s (j / 100) ≤ st'.maxDist) ∧
      (st'.maxDist = st.maxDist ∨ ∃ s ∈ ss, EndsDiffer s ∧ ∃ j : ℕ, (j : ℝ) / 100 < s.time ∧
        st'.maxDist = devAt s (j / 100)) ∧
      ((∀ s ∈ ss, 0 < s.time → EndsDiffer s) → st'.area = st.area.map (· + (ss.map trapArea).sum)) ∧
      (st.area = none ∨ (∃ s ∈ ss, 0 < s.time ∧ ¬ EndsDiffer s) → st'.area = none) := by
  induction ss generalizing st with
  | nil =>
    refine ⟨st, ⟨0, fun _ _ => rfl⟩, le_rfl, by simp, Or.inl rfl, fun _ => ?_, ?_⟩
    · cases st.area <;> simp
    · rintro (hn | ⟨s, hs, _⟩)
      · exact hn
      · simp at hs
  | cons s ss ih =>
    obtain ⟨hs, hD, hT0⟩ := hwf s (by simp)
    obtain ⟨v0, a1, a2, a3, -⟩ := vec3_eval hs hD (0 : ℝ)
    obtain ⟨v1, b1, b2, b3, -⟩ := vec3_eval hs hD s.time
    have unfoldSeg : ∀ fuel st1, deviationLoop Real.sqrt s v0 v1 fuel 0 { st with point := v0 } = .ok st1 →
        deviationSegments fuel Real.sqrt (s :: ss) st = deviationSegments fuel Real.sqrt ss st1 := by
      intro fuel st1 e
      rw [deviationSegments, a1, Res.ok_bind, a3, Res.ok_bind, b1, Res.ok_bind, b3, Res.ok_bind, e, Res.ok_bind]
    rcases hT0.eq_or_lt with hT | hT
    · -- no samples
      obtain ⟨st', ⟨F, hF⟩, e1, e2, e3, e4, e5⟩ := ih (fun q hq => hwf q (by simp [hq])) { st with point := v0 } hst
      have htrap : trapArea s = 0 := by simp [trapArea, ← hT]
      refine ⟨st', ⟨F + 1, fun fuel hfu => ?_⟩, e1, ?_, ?_, ?_, ?_⟩
      · rw [unfoldSeg fuel { st with point := v0 }, hF fuel (by omega)]
        obtain ⟨f, rfl⟩ : ∃ f, fuel = f + 1 := ⟨fuel - 1, by omega⟩
        unfold deviationLoop
        rw [if_neg (by rw [← hT]; exact lt_irrefl _)]
      · intro q hq hqd j hj
        rcases List.mem_cons.mp hq with rfl | hq
        · have : (0 : ℝ) ≤ j / 100 := by positivity
          linarith
        · exact e2 q hq hqd j hj
      · rcases e3 with e3 | ⟨q, hq, e3⟩
        · exact Or.inl e3
        · exact Or.inr ⟨q, by simp [hq], e3⟩
      · intro hall
        rw [e4 fun q hq => hall q (by simp [hq]), List.map_cons, List.sum_cons, htrap, zero_add]
      · rintro (hn | ⟨q, hq, hq0, hqe⟩)
        · exact e5 (Or.inl hn)
        · rcases List.mem_cons.mp hq with rfl | hq
          · linarith
          · exact e5 (Or.inr ⟨q, hq, hq0, hqe⟩)
    · by_cases hne : EndsDiffer s
      · obtain ⟨st1, c1, c2, c3, c4, c5, c6⟩ := dev_segment hs hD a1 b1 a2 b2 hT hne { st with point := v0 } hst rfl
          (⌈100 * s.time⌉₊ + 1) le_rfl
        have hall : ∀ fuel, ⌈100 * s.time⌉₊ + 1 ≤ fuel →
            deviationLoop Real.sqrt s v0 v1 fuel 0 { st with point := v0 } = .ok st1 := by
          intro fuel hf
          exact deviationLoop_mono c1 hf
        obtain ⟨st', ⟨F, hF⟩, e1, e2, e3, e4, e5⟩ := ih (fun q hq => hwf q (by simp [hq])) st1 (Or.inr c2)
        refine ⟨st', ⟨F + (⌈100 * s.time⌉₊ + 1), fun fuel hfu => ?_⟩, c4.trans e1, ?_, ?_, ?_, ?_⟩
        · rw [unfoldSeg fuel st1 (hall fuel (by omega)), hF fuel (by omega)]
        · intro q hq hqd j hj
          rcases List.mem_cons.mp hq with rfl | hq
          · exact (c5 j hj).trans e1
          · exact e2 q hq hqd j hj
        · rcases e3 with e3 | ⟨q, hq, e3⟩
          · rcases c6 with c6 | ⟨j, hj, c6⟩
            · exact Or.inl (e3.trans c6)
            · exact Or.inr ⟨s, by simp, hne, j, hj, e3.trans c6⟩
          · exact Or.inr ⟨q, by simp [hq], e3⟩
        · intro hd
          rw [e4 fun q hq => hd q (by simp [hq]), c3]
          cases st.area with
          | none => rfl
          | some a => simp [add_assoc]
        · rintro (hn | ⟨q, hq, hq0, hqe⟩)
          · exact e5 (Or.inl (by rw [c3]; simp [hn]))
          · rcases List.mem_cons.mp hq with rfl | hq
            · exact absurd hne hqe
            · exact e5 (Or.inr ⟨q, hq, hq0, hqe⟩)
      · unfold EndsDiffer at hne
        rw [not_not] at hne
        obtain ⟨st1, c1, c2, c3⟩ := dev_segment_same hs hD a1 b1 a2 b2 hT hne { st with point := v0 }
          (⌈100 * s.time⌉₊ + 1) le_rfl
        obtain ⟨st', ⟨F, hF⟩, e1, e2, e3, e4, e5⟩ := ih (fun q hq => hwf q (by simp [hq])) st1 (Or.inl c2)
        rw [c3] at e1 e3
        refine ⟨st', ⟨F + (⌈100 * s.time⌉₊ + 1), fun fuel hfu => ?_⟩, e1, ?_, ?_, ?_, ?_⟩
        · rw [unfoldSeg fuel st1 (deviationLoop_mono c1 (by omega)), hF fuel (by omega)]
        · intro q hq hqd j hj
          rcases List.mem_cons.mp hq with rfl | hq
          · exact absurd hne hqd
          · exact e2 q hq hqd j hj
        · rcases e3 with e3 | ⟨q, hq, e3⟩
          · exact Or.inl e3
          · exact Or.inr ⟨q, by simp [hq], e3⟩
        · intro hd
          exact absurd hne (hd s (by simp) hT)
        · intro _
          exact e5 (Or.inl c2)

/-! ### a segment as a curve -/

/-- A segment on its own. -/
def alone (s : Segment ℝ) : Trajectory ℝ := ⟨s.D, s.N, s.time, [s]⟩

section
variable {s : Segment ℝ} (h : s.WF) (hD : s.D = 3) (hT : 0 ≤ s.time)
include h hD hT

theorem alone_wf : (alone s).WF where
  dims := by simp [alone]
  coeffs := by simp [alone]
  total := by simp [alone, Trajectory.getSegmentTimes]
  wf := by simpa [alone] using h
  nonneg := by simpa [alone] using hT

theorem alone_joins (k : ℕ) : (alone s).JoinsAt k := by
  intro i hi
  simp [alone] at hi

theorem alone_evaluate (k : ℕ) {t : ℝ} (h0 : 0 ≤ t) (h1 : t ≤ s.time) : (alone s).evaluate t k = s.evaluate t k := by
  have := evaluate_closed (alone s) (alone_wf h hD hT) k (alone_joins h hD hT k) 0 (by simp [alone]) t
    (by rw [startTime_zero]; exact h0) (by simpa [alone, Trajectory.getSegmentTimes, startTime] using h1)
  rw [startTime_zero, sub_zero] at this
  rw [this, segment_evaluate_ok s h]
  rfl

/-- The distance from the line changes no faster than the position. -/
theorem devAt_lipschitz {V : ℝ} (hV : ∀ t, 0 ≤ t → t ≤ s.time → ‖at3 (s.evaluate t 1)‖ ≤ V) {a b : ℝ} (h0 : 0 ≤ a)
    (hab : a ≤ b) (hb : b ≤ s.time) : |devAt s b - devAt s a| ≤ V * (b - a) := by
  have hl := at3_lipschitz (k := 0) (alone_wf h hD hT) (by simp [alone]) (by simp [alone, hD]) (alone_joins h hD hT 0)
    (alone_joins h hD hT 1) (A := V) (fun t g0 g1 => by
      rw [alone_evaluate h hD hT _ g0 g1]; exact hV t g0 g1) h0 hab hb
  rw [alone_evaluate h hD hT _ (h0.trans hab) hb, alone_evaluate h hD hT _ h0 (hab.trans hb)] at hl
  refine le_trans ?_ hl
  unfold devAt lineDist
  rw [← dist_eq_norm, ← Real.dist_eq]
  exact (Metric.lipschitz_infDist_pt _).dist_le_mul _ _ |>.trans (by simp)

/-- A sample is not far. -/
theorem devAt_le_samples {V M : ℝ} (hV : ∀ t, 0 ≤ t → t ≤ s.time → ‖at3 (s.evaluate t 1)‖ ≤ V)
    (hM : ∀ j : ℕ, j / 100 < s.time → devAt s (j / 100) ≤ M) (h0 : 0 < s.time) {t : ℝ} (ht0 : 0 ≤ t) (ht1 : t ≤ s.time) :
    devAt s t ≤ M + V / 100 := by
  have hV0 : 0 ≤ V := (norm_nonneg _).trans (hV t ht0 ht1)
  -- the last sample before `t`, or the last one of all
  obtain ⟨j, hj1, hj2, hj3⟩ : ∃ j : ℕ, (j : ℝ) / 100 ≤ t ∧ (j : ℝ) / 100 < s.time ∧ t - j / 100 ≤ 1 / 100 := by
    have hn : 0 < ⌈100 * s.time⌉₊ := Nat.ceil_pos.mpr (by linarith)
    by_cases hlt : t < s.time
    · refine ⟨⌊100 * t⌋₊, ?_, ?_, ?_⟩
      · have := Nat.floor_le (by linarith : 0 ≤ 100 * t); linarith
      · have := Nat.floor_le (by linarith : 0 ≤ 100 * t); linarith
      · have := Nat.lt_floor_add_one (100 * t); linarith
    · have hte : t = s.time := le_antisymm ht1 (not_lt.mp hlt)
      have hlt' := (sample_lt (T := s.time) (j := ⌈100 * s.time⌉₊ - 1)).mpr (by omega)
      refine ⟨⌈100 * s.time⌉₊ - 1, by rw [hte]; exact hlt'.le, hlt', ?_⟩
      have := Nat.le_ceil (100 * s.time)
      rw [Nat.cast_sub (by omega), hte]
      push_cast
      linarith
  have := devAt_lipschitz h hD hT hV (by positivity) hj1 ht1
  have h2 := (abs_le.mp this).2
  have h3 : V * (t - j / 100) ≤ V * (1 / 100) := mul_le_mul_of_nonneg_left hj3 hV0
  linarith [hM j hj2]

theorem devAt_continuous : ContinuousOn (devAt s) (Icc 0 s.time) := by
  have hc := at3_continuous (k := 0) (alone_wf h hD hT) (by simp [alone]) (by simp [alone, hD]) (alone_joins h hD hT 0)
  have : ContinuousOn (fun t => at3 (s.evaluate t 0)) (Icc 0 s.time) := hc.congr fun t ht => by
    dsimp only
    rw [alone_evaluate h hD hT 0 ht.1 ht.2, Nat.cast_zero]
  exact (Metric.continuous_infDist_pt _).comp_continuousOn this

theorem speed_continuous : ContinuousOn (fun t => ‖at3 (s.evaluate t 1)‖) (Icc 0 s.time) := by
  have hc := at3_continuous (k := 1) (alone_wf h hD hT) (by simp [alone]) (by simp [alone, hD]) (alone_joins h hD hT 1)
  have : ContinuousOn (fun t => at3 (s.evaluate t 1)) (Icc 0 s.time) := hc.congr fun t ht => by
    dsimp only
    rw [alone_evaluate h hD hT 1 ht.1 ht.2, Nat.cast_one]
  exact this.norm

theorem devAt_nonneg (t : ℝ) : 0 ≤ devAt s t := Metric.infDist_nonneg

/-- One trapezoid. -/
theorem trap_step {V A W : ℝ} (hV : ∀ t, 0 ≤ t → t ≤ s.time → ‖at3 (s.evaluate t 1)‖ ≤ V)
    (hA : ∀ t, 0 ≤ t → t ≤ s.time → ‖at3 (s.evaluate t 2)‖ ≤ A)
    (hW : ∀ t, 0 ≤ t → t ≤ s.time → devAt s t ≤ W) {a b : ℝ} (h0 : 0 ≤ a) (hab : a ≤ b) (hb : b ≤ s.time) :
    |1 / 2 * (devAt s b + devAt s a) * ‖at3 (s.evaluate b 0) - at3 (s.evaluate a 0)‖ -
      ∫ t in a..b, devAt s t * ‖at3 (s.evaluate t 1)‖| ≤ (V ^ 2 + 2 * A * W) * (b - a) ^ 2 := by
  have hsub : Icc a b ⊆ Icc 0 s.time := Icc_subset_Icc h0 hb
  have hV0 : 0 ≤ V := (norm_nonneg _).trans (hV a h0 (hab.trans hb))
  have hA0 : 0 ≤ A := (norm_nonneg _).trans (hA a h0 (hab.trans hb))
  set m := 1 / 2 * (devAt s b + devAt s a) with hm
  have hm0 : 0 ≤ m := by
    have := devAt_nonneg h hD hT b; have := devAt_nonneg h hD hT a; rw [hm]; linarith
  have hmW : m ≤ W := by
    have := hW b (h0.trans hab) hb; have := hW a h0 (hab.trans hb); rw [hm]; linarith
  have cu : ∀ {f : ℝ → ℝ}, ContinuousOn f (Icc 0 s.time) → IntervalIntegrable f MeasureTheory.volume a b := fun hf =>
    ContinuousOn.intervalIntegrable (by rw [uIcc_of_le hab]; exact hf.mono hsub)
  have i1 := cu (speed_continuous h hD hT)
  have i2 : IntervalIntegrable (fun t => devAt s t * ‖at3 (s.evaluate t 1)‖) MeasureTheory.volume a b :=
    cu ((devAt_continuous h hD hT).mul (speed_continuous h hD hT))
  have i3 : IntervalIntegrable (fun t => m * ‖at3 (s.evaluate t 1)‖) MeasureTheory.volume a b := i1.const_mul m
  -- replacing the distance by the mean
  have s1 : |(∫ t in a..b, devAt s t * ‖at3 (s.evaluate t 1)‖) - m * ∫ t in a..b, ‖at3 (s.evaluate t 1)‖| ≤
      V * (b - a) * V * (b - a) := by
    rw [← intervalIntegral.integral_const_mul, ← intervalIntegral.integral_sub i2 i3, ← Real.norm_eq_abs]
    have := intervalIntegral.norm_integral_le_of_norm_le_const (a := a) (b := b) (C := V * (b - a) * V)
      (f := fun t => devAt s t * ‖at3 (s.evaluate t 1)‖ - m * ‖at3 (s.evaluate t 1)‖) (fun t ht => by
        rw [uIoc_of_le hab] at ht
        have ht0 : 0 ≤ t := by linarith [ht.1]
        have htT : t ≤ s.time := by linarith [ht.2]
        rw [← sub_mul, norm_mul, norm_norm]
        refine mul_le_mul ?_ (hV t ht0 htT) (norm_nonneg _) (mul_nonneg hV0 (by linarith))
        have d1 := abs_le.mp (devAt_lipschitz h hD hT hV h0 ht.1.le htT)
        have d2 := abs_le.mp (devAt_lipschitz h hD hT hV ht0 ht.2 hb)
        have e1 : V * (t - a) + V * (b - t) = V * (b - a) := by ring
        have p1 : 0 ≤ V * (t - a) := mul_nonneg hV0 (by linarith [ht.1])
        have p2 : 0 ≤ V * (b - t) := mul_nonneg hV0 (by linarith [ht.2])
        rw [Real.norm_eq_abs, abs_le, hm]
        constructor <;> linarith [d1.1, d1.2, d2.1, d2.2])
    rwa [abs_of_nonneg (by linarith : (0 : ℝ) ≤ b - a)] at this
  -- replacing the arc by the chord
  have ev : ∀ (k : ℕ) {t : ℝ}, 0 ≤ t → t ≤ s.time → (alone s).evaluate t k = s.evaluate t k :=
    fun k t g0 g1 => alone_evaluate h hD hT k g0 g1
  have hint : ∫ t in a..b, ‖at3 ((alone s).evaluate t (0 + 1 : ℕ))‖ = ∫ t in a..b, ‖at3 (s.evaluate t 1)‖ := by
    refine intervalIntegral.integral_congr fun t ht => ?_
    rw [uIcc_of_le hab] at ht
    rw [ev _ (h0.trans ht.1) (ht.2.trans hb)]
    rfl
  have c1 := at3_chord_le (k := 0) (alone_wf h hD hT) (by simp [alone]) (by simp [alone, hD]) (alone_joins h hD hT 0)
    (alone_joins h hD hT 1) h0 hab hb
  have c2 := at3_arc_le (k := 0) (alone_wf h hD hT) (by simp [alone]) (by simp [alone, hD]) (alone_joins h hD hT 0)
    (alone_joins h hD hT 1) (alone_joins h hD hT 2) (A := A) (fun t g0 g1 => by
      rw [ev _ g0 g1]; exact hA t g0 g1) h0 hab hb
  rw [hint, ev 0 (h0.trans hab) hb, ev 0 h0 (hab.trans hb), Nat.cast_zero] at c1 c2
  set L := ∫ t in a..b, ‖at3 (s.evaluate t 1)‖
  set c := ‖at3 (s.evaluate b 0) - at3 (s.evaluate a 0)‖
  have e1 : m * L ≤ m * c + W * (2 * A * (b - a) ^ 2) := by
    have g1 := mul_le_mul_of_nonneg_left c2 hm0
    have g2 : m * (2 * A * (b - a) ^ 2) ≤ W * (2 * A * (b - a) ^ 2) :=
      mul_le_mul_of_nonneg_right hmW (by positivity)
    linarith
  have e2 : m * c ≤ m * L := mul_le_mul_of_nonneg_left c1 hm0
  obtain ⟨s1, s2⟩ := abs_le.mp s1
  have e3 : 0 ≤ W * (2 * A * (b - a) ^ 2) := mul_nonneg (hm0.trans hmW) (by positivity)
  rw [abs_le]
  constructor <;> nlinarith

/-- The trapezoids of a segment and the area between the curve and the line. -/
theorem trapArea_bound {V A W : ℝ} (h0 : 0 < s.time) (hV : ∀ t, 0 ≤ t → t ≤ s.time → ‖at3 (s.evaluate t 1)‖ ≤ V)
    (hA : ∀ t, 0 ≤ t → t ≤ s.time → ‖at3 (s.evaluate t 2)‖ ≤ A)
    (hW : ∀ t, 0 ≤ t → t ≤ s.time → devAt s t ≤ W) :
    |trapArea s - ∫ t in (0 : ℝ)..s.time, devAt s t * ‖at3 (s.evaluate t 1)‖| ≤
      (s.time * (V ^ 2 + 2 * A * W) + W * V) / 100 := by
  have hV0 : 0 ≤ V := (norm_nonneg _).trans (hV 0 le_rfl hT)
  have hA0 : 0 ≤ A := (norm_nonneg _).trans (hA 0 le_rfl hT)
  have hW0 : 0 ≤ W := (devAt_nonneg h hD hT 0).trans (hW 0 le_rfl hT)
  have hcont := (devAt_continuous h hD hT).mul (speed_continuous h hD hT)
  have cu : ∀ {a b : ℝ}, 0 ≤ a → a ≤ b → b ≤ s.time →
      IntervalIntegrable (fun t => devAt s t * ‖at3 (s.evaluate t 1)‖) MeasureTheory.volume a b := fun g1 g2 g3 =>
    ContinuousOn.intervalIntegrable (by rw [uIcc_of_le g2]; exact hcont.mono (Icc_subset_Icc g1 g3))
  have key : ∀ m : ℕ, (m : ℝ) / 100 ≤ s.time →
      |(∑ i ∈ Finset.range m, 1 / 2 * (devAt s ((i + 1 : ℕ) / 100) + devAt s (i / 100)) *
        ‖at3 (s.evaluate ((i + 1 : ℕ) / 100) 0) - at3 (s.evaluate (i / 100) 0)‖) -
        ∫ t in (0 : ℝ)..m / 100, devAt s t * ‖at3 (s.evaluate t 1)‖| ≤ m * ((V ^ 2 + 2 * A * W) * (1 / 100) ^ 2) := by
    intro m
    induction m with
    | zero => intro _; simp
    | succ m ih =>
      intro hm
      have hle : (m : ℝ) / 100 ≤ ((m + 1 : ℕ) : ℝ) / 100 := by push_cast; linarith
      have g0 : (0 : ℝ) ≤ m / 100 := by positivity
      have i1 := ih (hle.trans hm)
      have i2 := trap_step h hD hT hV hA hW g0 hle hm
      have hadd := intervalIntegral.integral_add_adjacent_intervals (cu le_rfl g0 (hle.trans hm)) (cu g0 hle hm)
      have hd : ((m + 1 : ℕ) : ℝ) / 100 - m / 100 = 1 / 100 := by push_cast; ring
      rw [hd] at i2
      rw [Finset.sum_range_succ, ← hadd]
      have e : ((m + 1 : ℕ) : ℝ) * ((V ^ 2 + 2 * A * W) * (1 / 100) ^ 2) =
          m * ((V ^ 2 + 2 * A * W) * (1 / 100) ^ 2) + (V ^ 2 + 2 * A * W) * (1 / 100) ^ 2 := by push_cast; ring
      rw [e]
      obtain ⟨i1, i1'⟩ := abs_le.mp i1
      obtain ⟨i2, i2'⟩ := abs_le.mp i2
      rw [abs_le]
      constructor <;> linarith
  have hn : 0 < ⌈100 * s.time⌉₊ := Nat.ceil_pos.mpr (by linarith)
  set m := ⌈100 * s.time⌉₊ - 1 with hm
  have hm1 : (m : ℝ) / 100 < s.time := sample_lt.mpr (by omega)
  have hm2 : s.time - m / 100 ≤ 1 / 100 := by
    have := Nat.le_ceil (100 * s.time)
    rw [hm, Nat.cast_sub (by omega)]
    push_cast
    linarith
  have g0 : (0 : ℝ) ≤ m / 100 := by positivity
  have k1 := key m hm1.le
  have hadd := intervalIntegral.integral_add_adjacent_intervals (cu le_rfl g0 hm1.le) (cu g0 hm1.le le_rfl)
  have last : |∫ t in (m : ℝ) / 100..s.time, devAt s t * ‖at3 (s.evaluate t 1)‖| ≤ W * V * (1 / 100) := by
    have := intervalIntegral.norm_integral_le_of_norm_le_const (a := (m : ℝ) / 100) (b := s.time) (C := W * V)
      (f := fun t => devAt s t * ‖at3 (s.evaluate t 1)‖) (fun t ht => by
        rw [uIoc_of_le hm1.le] at ht
        have ht0 : 0 ≤ t := by linarith [ht.1]
        rw [norm_mul, norm_norm, Real.norm_of_nonneg (devAt_nonneg h hD hT t)]
        exact mul_le_mul (hW t ht0 ht.2) (hV t ht0 ht.2) (norm_nonneg _) hW0)
    rw [abs_of_nonneg (by linarith : (0 : ℝ) ≤ s.time - m / 100), Real.norm_eq_abs] at this
    exact this.trans (mul_le_mul_of_nonneg_left hm2 (mul_nonneg hW0 hV0))
  have e : (m : ℝ) * ((V ^ 2 + 2 * A * W) * (1 / 100) ^ 2) ≤ s.time * (V ^ 2 + 2 * A * W) / 100 := by
    have : (m : ℝ) / 100 * (V ^ 2 + 2 * A * W) ≤ s.time * (V ^ 2 + 2 * A * W) :=
      mul_le_mul_of_nonneg_right hm1.le (by positivity)
    nlinarith
  unfold trapArea
  rw [← hm, ← hadd]
  obtain ⟨k1, k1'⟩ := abs_le.mp k1
  obtain ⟨l1, l1'⟩ := abs_le.mp last
  rw [abs_le]
  constructor <;> linarith

end

/-! ### the extrema -/

theorem seg_magnitude {s : Segment ℝ} (h : s.WF) (hD : s.D = 3) (k : ℕ) (t : ℝ) :
    ‖at3 (s.evaluate t k)‖ = magnitude s.polys [0, 1, 2] k t := by
  rw [segment_evaluate_ok s h, point_ok]
  have hl : (segValue s k t).length = 3 := by rw [segValue_length, hD]
  rw [point_norm hl]
  unfold magnitude vecNorm
  rw [← segValue_eq_valuesAt]
  match segValue s k t, hl with
  | [a, b, c], _ => simp [pow_two]

section
variable {tr : Trajectory ℝ} (h : tr.WF) (hne : tr.segments ≠ []) (hD : tr.D = 3)
include h hne hD

theorem traj_at {k : ℕ} {t : ℝ} (h0 : 0 ≤ t) (h1 : t ≤ tr.maxTime) :
    ∃ s ∈ tr.segments, ∃ x ∈ Icc 0 s.time, tr.evaluate t k = s.evaluate x k := by
  rcases h1.eq_or_lt with rfl | h1
  · have hl : 0 < tr.segments.length := List.length_pos_of_ne_nil hne
    exact ⟨_, List.getElem_mem (by omega), _, ⟨h.nonneg _ (List.getElem_mem _), le_rfl⟩, evaluate_end tr h hl k⟩
  · obtain ⟨i, hi, g1, g2⟩ := exists_segment tr h t h0 h1
    refine ⟨_, List.getElem_mem hi, t - startTime tr.getSegmentTimes i, ⟨by linarith, ?_⟩,
      evaluate_inside tr h i hi t g1 g2 k⟩
    rw [times_getElem tr i hi] at g2
    linarith

theorem seg_in_traj {k : ℕ} (hj : tr.JoinsAt k) {s : Segment ℝ} (hs : s ∈ tr.segments) {x : ℝ} (hx : x ∈ Icc 0 s.time) :
    ∃ t, 0 ≤ t ∧ t ≤ tr.maxTime ∧ tr.evaluate t k = s.evaluate x k := by
  obtain ⟨i, hi, rfl⟩ := List.getElem_of_mem hs
  have hb : startTime tr.getSegmentTimes (i + 1) ≤ tr.maxTime := by
    rw [h.total, ← startTime_length]
    exact startTime_mono _ h.times_nonneg (by rw [getSegmentTimes_length]; omega)
  have h0 := startTime_nonneg _ h.times_nonneg i
  rw [times_getElem tr i hi] at hb
  refine ⟨startTime tr.getSegmentTimes i + x, by linarith [hx.1], by linarith [hx.2], ?_⟩
  rw [evaluate_closed tr h k hj i hi _ (by linarith [hx.1]) (by rw [times_getElem tr i hi]; linarith [hx.2]),
    add_sub_cancel_left, segment_evaluate_ok _ (h.wf _ hs)]

theorem largest (rf : RootFinder ℝ) (hrf : Complete rf) {k : ℕ} (hk : k < tr.N) (hk2 : k + 1 < 22) (hj : tr.JoinsAt k)
    (hfin : ∀ t, 0 ≤ t → t ≤ tr.maxTime → ‖at3 (tr.evaluate t k)‖ < dblMax) (mn0 mx0 : Extremum ℝ) :
    ∃ mn mx, tr.computeMinMaxMagnitude rf Real.sqrt k [0, 1, 2] mn0 mx0 = .ok (true, mn, mx) ∧
      LargestOn (fun t => ‖at3 (tr.evaluate t k)‖) tr.maxTime mx.value := by
  have hd3 : ∀ s ∈ tr.segments, s.D = 3 := fun s hs => (h.dims s hs).trans hD
  obtain ⟨mn, mx, e1, e2, ⟨hi, e3, e4⟩, -⟩ := C19_maximum_partial rf hrf tr h hne k hk hk2 [0, 1, 2] (by simp)
    (by simp [hD]) (fun s hs x hx => by
      obtain ⟨t, t0, t1, te⟩ := seg_in_traj h hne hD hj hs hx
      rw [← seg_magnitude (h.wf s hs) (hd3 s hs), ← te]
      exact hfin t t0 t1) mn0 mx0
  refine ⟨mn, mx, e1, ?_, ?_⟩
  · have hs := List.getElem_mem hi
    obtain ⟨t, t0, t1, te⟩ := seg_in_traj h hne hD hj hs e3
    exact ⟨t, t0, t1, by dsimp only; rw [te, seg_magnitude (h.wf _ hs) (hd3 _ hs), e4]⟩
  · intro t t0 t1
    obtain ⟨s, hs, x, hx, te⟩ := traj_at (k := k) h hne hD t0 t1
    dsimp only
    rw [te, seg_magnitude (h.wf _ hs) (hd3 _ hs)]
    exact e2 s hs x hx

/-- The length of the sampled path. -/
theorem length_bounds (hj : ∀ k ≤ 4, tr.JoinsAt k) (hpos : 0 < tr.maxTime) (hns : tr.maxTime * 10 ^ 9 < 2 ^ 63) {V A : ℝ}
    (hV : ∀ t, 0 ≤ t → t ≤ tr.maxTime → ‖at3 (tr.evaluate t 1)‖ ≤ V)
    (hA : ∀ t, 0 ≤ t → t ≤ tr.maxTime → ‖at3 (tr.evaluate t 2)‖ ≤ A) :
    ∃ L len, (∃ F, ∀ fuel, F ≤ fuel → sampleWholeTrajectory fuel tr (1 / 100) = .ok (some L)) ∧
      computePathLength Real.sqrt L = .ok len ∧ len ≤ arcLength tr ∧
      arcLength tr ≤ len + (V + 2 * A * tr.maxTime) / 100 := by
  obtain ⟨L, hF, hcount, hst⟩ := C55_whole tr h (by omega) hj hpos hns (1 / 100) (by norm_num)
  have hlen : 0 < L.length := (hcount 0).mpr (by simpa using hpos)
  have hpt : ∀ j, (hjL : j < L.length) → (L[j].position).length = 3 ∧
      point L[j].position = at3 (tr.evaluate ((j : ℝ) * (1 / 100)) 0) := by
    intro j hjL
    have hle := ((hcount j).mp hjL).le
    obtain ⟨st, v, a1, a2, a3⟩ := C38_at_time tr h hne (by omega) ((j : ℝ) * (1 / 100)) (by positivity) hle
      (lt_of_le_of_lt (mul_le_mul_of_nonneg_right hle (by positivity)) hns)
    rw [hst j hjL, Res.ok.injEq, Option.some.injEq] at a1
    obtain ⟨b1, b2⟩ := a2 0 (by omega)
    rw [Nat.cast_zero] at b1
    rw [a1, a3.position, b1, point_ok, List.take_of_length_le (by omega)]
    exact ⟨by rw [b2, hD], rfl⟩
  have hpos3 : ∀ p ∈ L.map (·.position), p.length = 3 := by
    intro p hp
    obtain ⟨st, hst', rfl⟩ := List.mem_map.mp hp
    obtain ⟨j, hjL, rfl⟩ := List.getElem_of_mem hst'
    exact (hpt j hjL).1
  refine ⟨L, _, hF, pathLength_ok hpos3, ?_⟩
  have hsum : ∑ j ∈ Finset.range ((L.map (·.position)).length - 1),
      ‖point ((L.map (·.position)).getD (j + 1) []) - point ((L.map (·.position)).getD j [])‖ =
      ∑ j ∈ Finset.range (L.length - 1),
        ‖at3 (tr.evaluate ((j + 1 : ℕ) * (1 / 100)) 0) - at3 (tr.evaluate (j * (1 / 100)) 0)‖ := by
    rw [List.length_map]
    refine Finset.sum_congr rfl fun j hj' => ?_
    have hj1 : j + 1 < L.length := by have := Finset.mem_range.mp hj'; omega
    have g : ∀ i, (hi : i < L.length) → (L.map (·.position)).getD i [] = L[i].position := fun i hi => by simp [hi]
    rw [g _ hj1, g _ (by omega), (hpt _ hj1).2, (hpt j (by omega)).2]
  rw [hsum]
  set m := L.length - 1 with hm
  have hm1 : (m : ℝ) * (1 / 100) < tr.maxTime := (hcount m).mp (by omega)
  have hm2 : tr.maxTime - m * (1 / 100) ≤ 1 / 100 := by
    have : ¬ ((m + 1 : ℕ) : ℝ) * (1 / 100) < tr.maxTime := fun g => by
      have := (hcount (m + 1)).mpr g
      omega
    push_cast at this
    linarith
  have hA0 : 0 ≤ A := (norm_nonneg _).trans (hA 0 le_rfl hpos.le)
  have hV0 : 0 ≤ V := (norm_nonneg _).trans (hV 0 le_rfl hpos.le)
  obtain ⟨b1, b2⟩ := polygon_bounds h hne (by omega) (hj 0 (by omega)) (hj 1 (by omega)) (hj 2 (by omega)) hA
    (by norm_num : (0 : ℝ) ≤ 1 / 100) m hm1.le
  have g0 : 0 ≤ (m : ℝ) * (1 / 100) := by positivity
  have hadd := intervalIntegral.integral_add_adjacent_intervals
    (at3_norm_integrable h hne (by omega) (hj 1 (by omega)) le_rfl g0 hm1.le)
    (at3_norm_integrable h hne (by omega) (hj 1 (by omega)) g0 hm1.le le_rfl)
  rw [Nat.cast_one] at hadd
  have l0 : 0 ≤ ∫ t in (m : ℝ) * (1 / 100)..tr.maxTime, ‖at3 (tr.evaluate t 1)‖ :=
    intervalIntegral.integral_nonneg hm1.le fun t _ => norm_nonneg _
  have l1 : ∫ t in (m : ℝ) * (1 / 100)..tr.maxTime, ‖at3 (tr.evaluate t 1)‖ ≤ V * (1 / 100) := by
    have := intervalIntegral.norm_integral_le_of_norm_le_const (a := (m : ℝ) * (1 / 100)) (b := tr.maxTime) (C := V)
      (f := fun t => ‖at3 (tr.evaluate t 1)‖) (fun t ht => by
        rw [uIoc_of_le hm1.le] at ht
        rw [norm_norm]
        exact hV t (by linarith [ht.1]) ht.2)
    rw [abs_of_nonneg (by linarith : (0 : ℝ) ≤ tr.maxTime - m * (1 / 100)), Real.norm_of_nonneg l0] at this
    exact this.trans (mul_le_mul_of_nonneg_left hm2 hV0)
  have e : (m : ℝ) * (2 * A * (1 / 100) ^ 2) ≤ 2 * A * tr.maxTime / 100 := by
    have := mul_le_mul_of_nonneg_left hm1.le (by positivity : 0 ≤ 2 * A)
    nlinarith
  unfold arcLength
  rw [← hadd]
  exact ⟨by linarith, by linarith⟩

/-- The area of the whole trajectory. -/
theorem area_bound {V A W : ℝ} (hj : ∀ k ≤ 4, tr.JoinsAt k)
    (hV : ∀ t, 0 ≤ t → t ≤ tr.maxTime → ‖at3 (tr.evaluate t 1)‖ ≤ V)
    (hA : ∀ t, 0 ≤ t → t ≤ tr.maxTime → ‖at3 (tr.evaluate t 2)‖ ≤ A)
    (hW0 : 0 ≤ W) (hW : ∀ s ∈ tr.segments, 0 < s.time → ∀ t, 0 ≤ t → t ≤ s.time → devAt s t ≤ W) :
    |(tr.segments.map trapArea).sum - sweptArea tr| ≤
      (tr.maxTime * (V ^ 2 + 2 * A * W) + tr.segments.length * (W * V)) / 100 := by
  have hT0 : 0 ≤ tr.maxTime := by rw [h.total]; exact List.sum_nonneg fun x hx => by
                                    obtain ⟨s, hs, rfl⟩ := List.mem_map.mp hx
                                    exact h.nonneg s hs
  have hV0 : 0 ≤ V := (norm_nonneg _).trans (hV 0 le_rfl hT0)
  have key : ∀ ss : List (Segment ℝ), (∀ s ∈ ss, s ∈ tr.segments) →
      |(ss.map trapArea).sum - (ss.map fun s => ∫ t in (0 : ℝ)..s.time, devAt s t * ‖at3 (s.evaluate t 1)‖).sum| ≤
      ((ss.map (·.time)).sum * (V ^ 2 + 2 * A * W) + ss.length * (W * V)) / 100 := by
    intro ss
    induction ss with
    | nil => intro _; simp
    | cons s ss ih =>
      intro hsub
      have hs := hsub s (by simp)
      have i1 := ih fun q hq => hsub q (by simp [hq])
      have i2 : |trapArea s - ∫ t in (0 : ℝ)..s.time, devAt s t * ‖at3 (s.evaluate t 1)‖| ≤
          (s.time * (V ^ 2 + 2 * A * W) + W * V) / 100 := by
        rcases (h.nonneg s hs).eq_or_lt with h0 | h0
        · have : trapArea s = 0 := by simp [trapArea, ← h0]
          rw [this, ← h0]
          simp only [intervalIntegral.integral_same, sub_zero, abs_zero, zero_mul, zero_add]
          positivity
        · refine trapArea_bound (h.wf s hs) ((h.dims s hs).trans hD) h0.le h0 ?_ ?_ (hW s hs h0)
          · intro x x0 x1
            obtain ⟨t, t0, t1, te⟩ := seg_in_traj h hne hD (hj 1 (by omega)) hs (x := x) ⟨x0, x1⟩
            rw [Nat.cast_one] at te
            rw [← te]
            exact hV t t0 t1
          · intro x x0 x1
            obtain ⟨t, t0, t1, te⟩ := seg_in_traj h hne hD (hj 2 (by omega)) hs (x := x) ⟨x0, x1⟩
            rw [Nat.cast_ofNat] at te
            rw [← te]
            exact hA t t0 t1
      rw [List.map_cons, List.map_cons, List.map_cons, List.sum_cons, List.sum_cons, List.sum_cons, List.length_cons]
      obtain ⟨i1, i1'⟩ := abs_le.mp i1
      obtain ⟨i2, i2'⟩ := abs_le.mp i2
      have e : (((s.time + (ss.map (·.time)).sum) * (V ^ 2 + 2 * A * W) + ((ss.length + 1 : ℕ) : ℝ) * (W * V)) / 100 : ℝ) =
        ((ss.map (·.time)).sum * (V ^ 2 + 2 * A * W) + ss.length * (W * V)) / 100 +
          (s.time * (V ^ 2 + 2 * A * W) + W * V) / 100 := by
        push_cast; ring
      rw [e, abs_le]
      constructor <;> linarith
  have := key tr.segments fun _ hs => hs
  rw [h.total]
  exact this

end

end Verif
