import Mathlib.Analysis.Calculus.Deriv.Prod
import Mathlib.Analysis.Calculus.FDeriv.WithLp
import Mathlib.Analysis.Calculus.MeanValue
import Mathlib.MeasureTheory.Integral.IntervalIntegral.Basic
import Verif.Model.TestUtils
import Verif.Spec.TestUtils
import Verif.Spec.LinearOptimization
import Verif.Props.Trajectory

/-
Lemmas on the numerical helpers.
-/
namespace Verif

open Spec Set

set_option linter.unusedSectionVars false

theorem vectorOf_norm {D : ℕ} {v : List ℝ} (hv : v.length = D) : ‖vectorOf D (.ok v)‖ = vecNorm Real.sqrt v := by
  unfold vecNorm vectorOf
  rw [EuclideanSpace.norm_eq]
  congr 1
  simp only [Real.norm_eq_abs, sq_abs]
  subst hv
  rw [← List.sum_ofFn]
  congr 1
  apply List.ext_getElem
  · simp
  · intro i h1 h2
    simp [component]

theorem vectorOf_normSq {D : ℕ} {v : List ℝ} (hv : v.length = D) :
    ‖vectorOf D (.ok v)‖ ^ 2 = (v.map (· ^ 2)).sum := by
  rw [vectorOf_norm hv, vecNorm, Real.sq_sqrt]
  exact List.sum_nonneg fun x hx => by
    obtain ⟨y, -, rfl⟩ := List.mem_map.mp hx
    positivity

section
variable {tr : Trajectory ℝ} (h : tr.WF) (hne : tr.segments ≠ [])
include h hne

theorem evaluate_exists {t : ℝ} (h0 : 0 ≤ t) (h1 : t < tr.maxTime) (k : ℕ) :
    ∃ v, tr.evaluate t k = .ok v ∧ v.length = tr.D := by
  obtain ⟨i, hi, g1, g2⟩ := exists_segment tr h t h0 h1
  refine ⟨_, (evaluate_inside tr h i hi t g1 g2 k).trans
    (segment_evaluate_ok _ (h.wf _ (List.getElem_mem hi)) _ k), ?_⟩
  rw [segValue_length]
  exact h.dims _ (List.getElem_mem hi)

theorem vectorOf_continuous {k : ℕ} (hj : tr.JoinsAt k) :
    ContinuousOn (fun t => vectorOf tr.D (tr.evaluate t k)) (Icc 0 tr.maxTime) :=
  (PiLp.continuous_toLp 2 (fun _ : Fin tr.D => ℝ)).comp_continuousOn
    (continuousOn_pi.mpr fun d => C10_continuous tr h hne k hj d d.2)

/-- The derivative from the right exists everywhere, at the joints too. -/
theorem vectorOf_deriv (k : ℕ) {t : ℝ} (h0 : 0 ≤ t) (h1 : t < tr.maxTime) :
    HasDerivWithinAt (fun t => vectorOf tr.D (tr.evaluate t k)) (vectorOf tr.D (tr.evaluate t (k + 1 : ℕ))) (Ici t) t := by
  obtain ⟨i, hi, g1, g2⟩ := exists_segment tr h t h0 h1
  have hs := List.getElem_mem hi
  have hp : HasDerivWithinAt (fun t => fun d : Fin tr.D => component (tr.evaluate t k) d)
      (fun d : Fin tr.D => component (tr.evaluate t (k + 1 : ℕ)) d) (Ici t) t := by
    refine hasDerivWithinAt_pi.mpr fun d => ?_
    have hd : (d : ℕ) < tr.segments[i].polys.length := by
      have := h.dims _ hs
      unfold Segment.D at this
      omega
    have e : ∀ (m : ℕ) x, x ∈ Ico t (startTime tr.getSegmentTimes (i + 1)) → component (tr.evaluate x m) d =
        derivAt (tr.segments[i].polys[(d : ℕ)]).coeffs m (x - startTime tr.getSegmentTimes i) := by
      intro m x hx
      rw [evaluate_inside tr h i hi x (g1.trans hx.1) hx.2 m, segment_evaluate_ok _ (h.wf _ hs)]
      exact segValue_getD _ m _ d hd
    have hD : HasDerivAt (fun x => derivAt (tr.segments[i].polys[(d : ℕ)]).coeffs k (x - startTime tr.getSegmentTimes i))
        (derivAt (tr.segments[i].polys[(d : ℕ)]).coeffs (k + 1) (t - startTime tr.getSegmentTimes i)) t := by
      have := (hasDerivAt_derivAt (tr.segments[i].polys[(d : ℕ)]).coeffs k (t - startTime tr.getSegmentTimes i)).comp t
        ((hasDerivAt_id t).sub_const (startTime tr.getSegmentTimes i))
      rw [mul_one] at this
      exact this
    rw [e (k + 1) t ⟨le_rfl, g2⟩]
    refine (hD.hasDerivWithinAt (s := Ici t)).congr_of_eventuallyEq ?_ (e k t ⟨le_rfl, g2⟩)
    filter_upwards [Ico_mem_nhdsGE g2] with x hx
    exact e k x hx
  exact (PiLp.hasFDerivAt_toLp (𝕜 := ℝ) 2 _).comp_hasDerivWithinAt t hp

theorem vectorOf_lipschitz {k : ℕ} (hj : tr.JoinsAt k) {A : ℝ}
    (hA : ∀ t, 0 ≤ t → t < tr.maxTime → ‖vectorOf tr.D (tr.evaluate t (k + 1 : ℕ))‖ ≤ A) {a b : ℝ} (h0 : 0 ≤ a)
    (hab : a ≤ b) (hb : b ≤ tr.maxTime) :
    ‖vectorOf tr.D (tr.evaluate b k) - vectorOf tr.D (tr.evaluate a k)‖ ≤ A * (b - a) :=
  norm_image_sub_le_of_norm_deriv_right_le_segment ((vectorOf_continuous h hne hj).mono (Icc_subset_Icc h0 hb))
    (fun x hx => vectorOf_deriv h hne k (h0.trans hx.1) (hx.2.trans_le hb))
    (fun x hx => hA x (h0.trans hx.1) (hx.2.trans_le hb)) b ⟨hab, le_rfl⟩

end

/-- The sum of the samples times the step, against the integral. -/
theorem costNumericLoop_ok {tr : Trajectory ℝ} {k : ℕ} {dt : ℝ} (hdt : 0 < dt) {f : ℝ → ℝ} {L C : ℝ}
    (hf : ∀ t, 0 ≤ t → t < tr.maxTime → ∃ v, tr.evaluate t k = .ok v ∧ (v.map (· ^ 2)).sum = f t)
    (hC : ∀ t, 0 ≤ t → t < tr.maxTime → |f t| ≤ C)
    (hL : ∀ a b, 0 ≤ a → a ≤ b → b ≤ tr.maxTime → |f b - f a| ≤ L * (b - a))
    (hi : ∀ a b, 0 ≤ a → a ≤ b → b ≤ tr.maxTime → IntervalIntegrable f MeasureTheory.volume a b) (hL0 : 0 ≤ L) (n : ℕ) :
    ∀ ts cost, 0 ≤ ts → tr.maxTime ≤ ts + n * dt → ∃ c, (∀ fuel, n + 1 ≤ fuel →
      costNumericLoop tr k dt fuel ts cost = .ok c) ∧ (tr.maxTime ≤ ts → c = cost) ∧
      (ts < tr.maxTime → |c - cost - ∫ t in ts..tr.maxTime, f t| ≤ (L * (tr.maxTime - ts) + C) * dt) := by
  have step : ∀ a b, 0 ≤ a → a ≤ b → b ≤ tr.maxTime → |(∫ t in a..b, f t) - f a * (b - a)| ≤ L * (b - a) * (b - a) := by
    intro a b h0 hab hb
    have e : (∫ t in a..b, f t) - f a * (b - a) = ∫ t in a..b, (f t - f a) := by
      rw [intervalIntegral.integral_sub (hi a b h0 hab hb) intervalIntegrable_const, intervalIntegral.integral_const,
        smul_eq_mul]
      ring
    rw [e, ← Real.norm_eq_abs]
    have := intervalIntegral.norm_integral_le_of_norm_le_const (a := a) (b := b) (C := L * (b - a))
      (f := fun t => f t - f a) (fun t ht => by
        rw [uIoc_of_le hab] at ht
        rw [Real.norm_eq_abs]
        exact (hL a t h0 ht.1.le (ht.2.trans hb)).trans (mul_le_mul_of_nonneg_left (by linarith [ht.2]) hL0))
    rwa [abs_of_nonneg (by linarith : (0 : ℝ) ≤ b - a)] at this
  induction n with
  | zero =>
    intro ts cost h0 hn
    rw [Nat.cast_zero, zero_mul, add_zero] at hn
    refine ⟨cost, ?_, fun _ => rfl, fun h => absurd h (not_lt.mpr hn)⟩
    intro fuel hfuel
    obtain ⟨fuel, rfl⟩ : ∃ f, fuel = f + 1 := ⟨fuel - 1, by omega⟩
    unfold costNumericLoop
    rw [if_neg (not_lt.mpr hn)]
  | succ n ih =>
    intro ts cost h0 hn
    by_cases hts : ts < tr.maxTime
    · obtain ⟨v, ev, es⟩ := hf ts h0 hts
      obtain ⟨c, c1, c2, c3⟩ := ih (ts + dt) (cost + f ts * dt) (by linarith) (by push_cast at hn; linarith)
      refine ⟨c, ?_, fun h => absurd hts (not_lt.mpr h), fun _ => ?_⟩
      · intro fuel hfuel
        obtain ⟨fuel, rfl⟩ : ∃ f, fuel = f + 1 := ⟨fuel - 1, by omega⟩
        unfold costNumericLoop
        rw [if_pos hts, ev, Res.ok_bind, es]
        exact c1 fuel (by omega)
      · by_cases hend : ts + dt < tr.maxTime
        · have k1 := c3 hend
          have k2 := step ts (ts + dt) h0 (by linarith) hend.le
          rw [← intervalIntegral.integral_add_adjacent_intervals (hi ts (ts + dt) h0 (by linarith) hend.le)
            (hi (ts + dt) tr.maxTime (by linarith) hend.le le_rfl)]
          rw [abs_le] at k1 k2 ⊢
          constructor <;> nlinarith [k1.1, k1.2, k2.1, k2.2]
        · have k1 := c2 (not_lt.mp hend)
          have k2 := step ts tr.maxTime h0 hts.le le_rfl
          have k3 := hC ts h0 hts
          have hgap : 0 ≤ dt - (tr.maxTime - ts) := by linarith [not_lt.mp hend]
          subst k1
          have e : cost + f ts * dt - cost - ∫ t in ts..tr.maxTime, f t =
              f ts * (dt - (tr.maxTime - ts)) - ((∫ t in ts..tr.maxTime, f t) - f ts * (tr.maxTime - ts)) := by ring
          rw [e]
          refine (abs_sub _ _).trans ?_
          rw [abs_mul, abs_of_nonneg hgap]
          have k4 : |f ts| * (dt - (tr.maxTime - ts)) ≤ C * dt :=
            mul_le_mul k3 (by linarith) hgap ((abs_nonneg _).trans k3)
          have k5 : L * (tr.maxTime - ts) * (tr.maxTime - ts) ≤ L * (tr.maxTime - ts) * dt :=
            mul_le_mul_of_nonneg_left (by linarith) (mul_nonneg hL0 (by linarith))
          linarith
    · refine ⟨cost, ?_, fun _ => rfl, fun h => absurd h hts⟩
      intro fuel hfuel
      obtain ⟨fuel, rfl⟩ : ∃ f, fuel = f + 1 := ⟨fuel - 1, by omega⟩
      unfold costNumericLoop
      rw [if_neg hts]

/-- The loop of `getMaximumMagnitude`. -/
theorem maximumMagnitudeLoop_ok {tr : Trajectory ℝ} {k : ℕ} {dt : ℝ} (hdt : 0 < dt) {f : ℝ → ℝ} {A : ℝ}
    (hf : ∀ t, 0 ≤ t → t < tr.maxTime → ∃ v, tr.evaluate t k = .ok v ∧ vecNorm Real.sqrt v = f t)
    (hL : ∀ a b, 0 ≤ a → a ≤ b → b ≤ tr.maxTime → |f b - f a| ≤ A * (b - a)) (hA : 0 ≤ A) (n : ℕ) :
    ∀ ts m, 0 ≤ ts → tr.maxTime ≤ ts + n * dt → ∃ m', (∀ fuel, n + 1 ≤ fuel →
      maximumMagnitudeLoop Real.sqrt tr k dt fuel ts m = .ok m') ∧ m ≤ m' ∧
      (m' = m ∨ ∃ t, ts ≤ t ∧ t < tr.maxTime ∧ m' = f t) ∧ (ts < tr.maxTime → f ts ≤ m') ∧
      ∀ t, ts ≤ t → t ≤ tr.maxTime → ts < tr.maxTime → f t ≤ m' + A * dt := by
  induction n with
  | zero =>
    intro ts m h0 hn
    rw [Nat.cast_zero, zero_mul, add_zero] at hn
    refine ⟨m, ?_, le_rfl, .inl rfl, fun h => absurd h (not_lt.mpr hn), fun t h1 h2 h3 => absurd h3 (not_lt.mpr hn)⟩
    intro fuel hfuel
    obtain ⟨fuel, rfl⟩ : ∃ f, fuel = f + 1 := ⟨fuel - 1, by omega⟩
    unfold maximumMagnitudeLoop
    rw [if_neg (not_lt.mpr hn)]
  | succ n ih =>
    intro ts m h0 hn
    by_cases hts : ts < tr.maxTime
    · obtain ⟨v, ev, es⟩ := hf ts h0 hts
      have hm : (if m < f ts then f ts else m) = max m (f ts) := by
        split_ifs with hlt
        · exact (max_eq_right hlt.le).symm
        · exact (max_eq_left (not_lt.mp hlt)).symm
      obtain ⟨m', c1, c2, c3, -, c4⟩ := ih (ts + dt) (max m (f ts)) (by linarith) (by push_cast at hn; linarith)
      refine ⟨m', ?_, (le_max_left _ _).trans c2, ?_, fun _ => (le_max_right _ _).trans c2, ?_⟩
      · intro fuel hfuel
        obtain ⟨fuel, rfl⟩ : ∃ f, fuel = f + 1 := ⟨fuel - 1, by omega⟩
        unfold maximumMagnitudeLoop
        rw [if_pos hts, ev, Res.ok_bind]
        dsimp only
        rw [es, hm]
        exact c1 fuel (by omega)
      · rcases c3 with c3 | ⟨t, t1, t2, t3⟩
        · rcases max_cases m (f ts) with ⟨e, -⟩ | ⟨e, -⟩
          · exact .inl (c3.trans e)
          · exact .inr ⟨ts, le_rfl, hts, c3.trans e⟩
        · exact .inr ⟨t, by linarith, t2, t3⟩
      · intro t t1 t2 _
        by_cases ht : t ≤ ts + dt
        · have k1 := hL ts t h0 t1 t2
          have k2 : A * (t - ts) ≤ A * dt := mul_le_mul_of_nonneg_left (by linarith) hA
          have k3 := (le_max_right m (f ts)).trans c2
          linarith [(abs_le.mp k1).2]
        · exact c4 t (by linarith) t2 (by linarith)
    · refine ⟨m, ?_, le_rfl, .inl rfl, fun h => absurd h hts, fun t h1 h2 h3 => absurd h3 hts⟩
      intro fuel hfuel
      obtain ⟨fuel, rfl⟩ : ∃ f, fuel = f + 1 := ⟨fuel - 1, by omega⟩
      unfold maximumMagnitudeLoop
      rw [if_neg hts]

theorem integral_list_sum {ι : Type} (l : List ι) (g : ι → ℝ → ℝ) (hg : ∀ i ∈ l, Continuous (g i)) (a b : ℝ) :
    ∫ t in a..b, (l.map fun i => g i t).sum = (l.map fun i => ∫ t in a..b, g i t).sum := by
  induction l with
  | nil => simp
  | cons i l ih =>
    have hc : ∀ l' : List ι, (∀ i ∈ l', Continuous (g i)) → Continuous fun t => (l'.map fun i => g i t).sum := by
      intro l'
      induction l' with
      | nil => intro _; simpa using continuous_const
      | cons j l' ih' =>
        intro hl
        simp only [List.map_cons, List.sum_cons]
        exact (hl j (by simp)).add (ih' fun i hi => hl i (by simp [hi]))
    simp only [List.map_cons, List.sum_cons]
    rw [intervalIntegral.integral_add ((hg i (by simp)).intervalIntegrable _ _)
      ((hc l fun i hi => hg i (by simp [hi])).intervalIntegrable _ _), ih fun i hi => hg i (by simp [hi])]

/-- The integral over the whole trajectory is the sum over the segments. -/
theorem integral_eq_cost {tr : Trajectory ℝ} (h : tr.WF) (hne : tr.segments ≠ []) {k : ℕ} (hj : tr.JoinsAt k) :
    ∫ t in (0 : ℝ)..tr.maxTime, ‖vectorOf tr.D (tr.evaluate t k)‖ ^ 2 = cost k tr.segments := by
  set a : ℕ → ℝ := startTime tr.getSegmentTimes with ha
  set f : ℝ → ℝ := fun t => ‖vectorOf tr.D (tr.evaluate t k)‖ ^ 2 with hf
  have hend : a tr.segments.length = tr.maxTime := by
    rw [ha, h.total, ← startTime_length, getSegmentTimes_length]
  have hcont : ContinuousOn f (Icc 0 tr.maxTime) := (vectorOf_continuous h hne hj).norm.pow 2
  have hmono : ∀ i j, i ≤ j → a i ≤ a j := fun i j hij => startTime_mono _ h.times_nonneg hij
  have h0 : ∀ i, 0 ≤ a i := startTime_nonneg _ h.times_nonneg
  have hint : ∀ i < tr.segments.length, IntervalIntegrable f MeasureTheory.volume (a i) (a (i + 1)) := by
    intro i hi
    refine ContinuousOn.intervalIntegrable ?_
    rw [uIcc_of_le (hmono i (i + 1) (by omega))]
    refine hcont.mono (Icc_subset_Icc (h0 i) ?_)
    rw [← hend]
    exact hmono _ _ (by omega)
  have hsum := intervalIntegral.sum_integral_adjacent_intervals hint
  rw [hend, show a 0 = 0 from startTime_zero _] at hsum
  rw [← hsum]
  unfold cost
  have hlist : ∀ (G : Segment ℝ → ℝ), (tr.segments.map G).sum = ∑ i : Fin tr.segments.length, G tr.segments[i] := by
    intro G
    rw [← List.sum_ofFn]
    congr 1
    apply List.ext_getElem
    · simp
    · intro i h1 h2
      simp
  rw [hlist, Finset.sum_range]
  refine Finset.sum_congr rfl fun i _ => ?_
  have hs := List.getElem_mem i.2
  have hstep : a (i + 1) = a i + tr.segments[(i : ℕ)].time := times_getElem tr i i.2
  have e : ∫ t in a i..a (i + 1), f t =
      ∫ t in a i..a (i + 1), (fun x => (tr.segments[(i : ℕ)].polys.map fun p =>
        (iteratedDeriv k (curve p.coeffs) x) ^ 2).sum) (t - a i) := by
    refine intervalIntegral.integral_congr fun t ht => ?_
    rw [uIcc_of_le (hmono i (i + 1) (by omega))] at ht
    show ‖vectorOf tr.D (tr.evaluate t k)‖ ^ 2 = _
    rw [evaluate_closed tr h k hj i i.2 t ht.1 ht.2, vectorOf_normSq (by
      rw [segValue_length]
      exact h.dims _ hs), segValue_eq_valuesAt, valuesAt, List.map_map]
    rfl
  rw [e, intervalIntegral.integral_comp_sub_right (fun x => (tr.segments[(i : ℕ)].polys.map fun p =>
        (iteratedDeriv k (curve p.coeffs) x) ^ 2).sum), sub_self, hstep, add_sub_cancel_left]
  refine integral_list_sum _ _ (fun p _ => ?_) _ _
  have : (fun t => iteratedDeriv k (curve p.coeffs) t) = fun t => derivAt p.coeffs k t := by
    funext t
    rw [iteratedDeriv_curve]
  exact (this ▸ continuous_derivAt p.coeffs k : Continuous fun t => iteratedDeriv k (curve p.coeffs) t).pow 2

end Verif
