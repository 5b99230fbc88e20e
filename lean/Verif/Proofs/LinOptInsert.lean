import Verif.Proofs.LinOptReverse

/-
Splitting a segment of a trajectory in two.
-/
namespace Verif

open Spec Set Polynomial

set_option linter.unusedSectionVars false

/-- The coefficients of `t ↦ p (t + T)`. -/
noncomputable def shiftCoef (n : ℕ) (T : ℝ) (f : ℕ → ℝ) : ℕ → ℝ :=
  ((ofCoeffs ((List.range n).map f)).comp (X + C T)).coeff

theorem iterate_derivative_shift (p : ℝ[X]) (T : ℝ) (q : ℕ) :
    derivative^[q] (p.comp (X + C T)) = (derivative^[q] p).comp (X + C T) := by
  induction q with
  | zero => simp
  | succ q ih =>
    rw [Function.iterate_succ_apply', ih, Function.iterate_succ_apply', derivative_comp]
    simp

theorem dvL_shift {n : ℕ} (hn : 0 < n) (T : ℝ) (f : ℕ → ℝ) (q : ℕ) (t : ℝ) :
    dvL n q t (shiftCoef n T f) = dvL n q (t + T) f := by
  have hdeg : ((ofCoeffs ((List.range n).map f)).comp (X + C T)).natDegree < n := by
    have h1 := natDegree_ofCoeffs_lt ((List.range n).map f) (by simpa using hn)
    rw [natDegree_comp, natDegree_X_add_C, mul_one]
    simpa using h1
  rw [dvL_apply, dvL_apply]
  unfold derivAt shiftCoef
  rw [ofCoeffs_coeff n _ hdeg, iterate_derivative_shift]
  simp [eval_comp]

/-- The coefficients after segment `m` was split at local time `T`. -/
noncomputable def splitCf (n m : ℕ) (T : ℝ) (c : ℕ → ℕ → ℕ → ℝ) (i d : ℕ) : ℕ → ℝ :=
  if i ≤ m then c i d else if i = m + 1 then shiftCoef n T (c m d) else c (i - 1) d

section
variable {h n dim : ℕ} {ta tb : List ℝ} {T₁ T₂ : ℝ} {a : List (Segment ℝ)} {va vb : List (Vertex ℝ)} {v : Vertex ℝ}

theorem split_time_lt {i : ℕ} (hi : i < ta.length) :
    (ta ++ T₁ :: T₂ :: tb).getD i 0 = (ta ++ (T₁ + T₂) :: tb).getD i 0 := by
  simp [List.getD_eq_getElem?_getD, List.getElem?_append_left hi]

theorem split_time_m : (ta ++ T₁ :: T₂ :: tb).getD ta.length 0 = T₁ := by
  simp [List.getD_eq_getElem?_getD]

theorem split_time_m' : (ta ++ (T₁ + T₂) :: tb).getD ta.length 0 = T₁ + T₂ := by
  simp [List.getD_eq_getElem?_getD]

theorem split_time_m1 : (ta ++ T₁ :: T₂ :: tb).getD (ta.length + 1) 0 = T₂ := by
  simp [List.getD_eq_getElem?_getD]

theorem split_time_gt {i : ℕ} (hi : ta.length + 1 < i) :
    (ta ++ T₁ :: T₂ :: tb).getD i 0 = (ta ++ (T₁ + T₂) :: tb).getD (i - 1) 0 := by
  obtain ⟨j, rfl⟩ : ∃ j, i = ta.length + 2 + j := ⟨i - (ta.length + 2), by omega⟩
  rw [show ta.length + 2 + j - 1 = ta.length + (j + 1) by omega, show ta.length + 2 + j = ta.length + (j + 2) by omega]
  simp [List.getD_eq_getElem?_getD, List.getElem?_append_right]

/-- The segments with segment number `ta.length` split in two. -/
noncomputable def splitSegs (n dim : ℕ) (ta tb : List ℝ) (T₁ T₂ : ℝ) (a : List (Segment ℝ)) : List (Segment ℝ) :=
  mkSegs n dim (ta ++ T₁ :: T₂ :: tb) (splitCf n ta.length T₁ (cf a))

theorem split_shape : Shape n dim (ta ++ T₁ :: T₂ :: tb) (splitSegs n dim ta tb T₁ T₂ a) := mkSegs_shape _ _ _ _

theorem split_cf {i d : ℕ} (hi : i < (ta ++ T₁ :: T₂ :: tb).length) (hd : d < dim) (q : ℕ) (t : ℝ) :
    dvL n q t (cf (splitSegs n dim ta tb T₁ T₂ a) i d) = dvL n q t (splitCf n ta.length T₁ (cf a) i d) :=
  cf_mkSegs _ hi hd q t

theorem splitCf_le {i d : ℕ} (hi : i ≤ ta.length) : splitCf n ta.length T₁ (cf a) i d = cf a i d := if_pos hi

theorem splitCf_gt {i d : ℕ} (hi : ta.length + 1 < i) : splitCf n ta.length T₁ (cf a) i d = cf a (i - 1) d := by
  unfold splitCf
  rw [if_neg (by omega), if_neg (by omega)]

theorem splitCf_m1 (hn : 0 < n) {d q : ℕ} {t : ℝ} :
    dvL n q t (splitCf n ta.length T₁ (cf a) (ta.length + 1) d) = dvL n q (t + T₁) (cf a ta.length d) := by
  unfold splitCf
  rw [if_neg (by omega), if_pos rfl, dvL_shift hn]

theorem pin_lt {i q : ℕ} (hi : i ≤ ta.length) (hva : va.length = ta.length + 1) :
    pinAt (va ++ v :: vb) i q = pinAt (va ++ vb) i q := by
  unfold pinAt
  rw [List.getElem?_append_left (by omega), List.getElem?_append_left (by omega)]

theorem pin_m1 {q : ℕ} (hva : va.length = ta.length + 1) :
    pinAt (va ++ v :: vb) (ta.length + 1) q = v.getConstraint (q : ℕ) := by
  unfold pinAt
  rw [List.getElem?_append_right (by omega), hva]
  simp

theorem pin_gt {i q : ℕ} (hi : ta.length + 1 < i) (hva : va.length = ta.length + 1) :
    pinAt (va ++ v :: vb) i q = pinAt (va ++ vb) (i - 1) q := by
  unfold pinAt
  rw [List.getElem?_append_right (by omega), List.getElem?_append_right (by omega), hva]
  obtain ⟨j, rfl⟩ : ∃ j, i = ta.length + 2 + j := ⟨i - (ta.length + 2), by omega⟩
  rw [show ta.length + 2 + j - (ta.length + 1) = j + 1 by omega,
    show ta.length + 2 + j - 1 - (ta.length + 1) = j by omega]
  simp

theorem split_meets (hn : 0 < n) (hva : va.length = ta.length + 1)
    (ha : Shape n dim (ta ++ (T₁ + T₂) :: tb) a) (ma : MeetsConstraints h dim (va ++ vb) a)
    (hv : ∀ q < h, ∀ c, v.getConstraint (q : ℕ) = some c → ∀ d < dim, dvL n q T₁ (cf a ta.length d) = c.getD d 0) :
    MeetsConstraints h dim (va ++ v :: vb) (splitSegs n dim ta tb T₁ T₂ a) := by
  rw [meets_iff split_shape]
  have mm := (meets_iff ha).mp ma
  intro i q hq c hc d hd
  have hlen : (ta ++ T₁ :: T₂ :: tb).length = (ta ++ (T₁ + T₂) :: tb).length + 1 := by simp; omega
  have hlm : ta.length < (ta ++ (T₁ + T₂) :: tb).length := by simp
  rw [hlen]
  rcases Nat.lt_trichotomy i (ta.length + 1) with hi | rfl | hi
  · rw [pin_lt (by omega) hva] at hc
    obtain ⟨m1, m2⟩ := mm i q hq c hc d hd
    refine ⟨fun h1 => ?_, fun j hj hjl => ?_⟩
    · rw [split_cf (by omega) hd, splitCf_le (by omega)]
      exact m1 (by omega)
    · rw [split_cf (by omega) hd, splitCf_le (by omega), split_time_lt (by omega)]
      exact m2 j hj (by omega)
  · rw [pin_m1 hva] at hc
    refine ⟨fun h1 => ?_, fun j hj hjl => ?_⟩
    · rw [split_cf (by omega) hd, splitCf_m1 hn, zero_add]
      exact hv q hq c hc d hd
    · obtain rfl : j = ta.length := by omega
      rw [split_cf (by omega) hd, splitCf_le le_rfl, split_time_m]
      exact hv q hq c hc d hd
  · rw [pin_gt hi hva] at hc
    obtain ⟨m1, m2⟩ := mm (i - 1) q hq c hc d hd
    refine ⟨fun h1 => ?_, fun j hj hjl => ?_⟩
    · rw [split_cf (by omega) hd, splitCf_gt (by omega)]
      exact m1 (by omega)
    · rcases Nat.lt_or_ge (ta.length + 1) j with hj' | hj'
      · rw [split_cf (by omega) hd, splitCf_gt hj', split_time_gt hj']
        exact m2 (j - 1) (by omega) (by omega)
      · obtain rfl : j = ta.length + 1 := by omega
        rw [split_cf (by omega) hd, splitCf_m1 hn, split_time_m1, add_comm, ← split_time_m' (ta := ta) (tb := tb)]
        exact m2 ta.length (by omega) hlm

theorem split_continuous (hn : 0 < n) (ha : Shape n dim (ta ++ (T₁ + T₂) :: tb) a) (ca : Spec.Continuous h dim a) :
    Spec.Continuous h dim (splitSegs n dim ta tb T₁ T₂ a) := by
  rw [continuous_iff split_shape]
  have cc := (continuous_iff ha).mp ca
  intro i hi q hq d hd
  have hlen : (ta ++ T₁ :: T₂ :: tb).length = (ta ++ (T₁ + T₂) :: tb).length + 1 := by simp; omega
  have hlm : ta.length < (ta ++ (T₁ + T₂) :: tb).length := by simp
  rw [split_cf (by omega) hd, split_cf hi hd]
  rcases Nat.lt_trichotomy i ta.length with h1 | rfl | h1
  · rw [splitCf_le (by omega), splitCf_le (by omega), split_time_lt h1]
    exact cc i (by omega) q hq d hd
  · rw [splitCf_le le_rfl, splitCf_m1 hn, split_time_m, zero_add]
  · rcases Nat.lt_or_ge (ta.length + 1) i with h2 | h2
    · rw [splitCf_gt h2, splitCf_gt (by omega), split_time_gt h2]
      have := cc (i - 1) (by omega) q hq d hd
      rwa [show i - 1 + 1 = i + 1 - 1 by omega] at this
    · obtain rfl : i = ta.length + 1 := by omega
      rw [splitCf_m1 hn, splitCf_gt (by omega), split_time_m1, add_comm, ← split_time_m' (ta := ta) (tb := tb)]
      exact cc ta.length (by omega) q hq d hd

theorem split_cost (hn : 0 < n) (k : ℕ) (ha : Shape n dim (ta ++ (T₁ + T₂) :: tb) a) :
    cost k (splitSegs n dim ta tb T₁ T₂ a) = cost k a := by
  unfold splitSegs
  rw [cost_mkSegs, cost_cf k ha]
  have hlen : (ta ++ T₁ :: T₂ :: tb).length = ta.length + 2 + tb.length := by simp; omega
  have hlen' : (ta ++ (T₁ + T₂) :: tb).length = ta.length + 1 + tb.length := by simp; omega
  rw [hlen, hlen', Finset.sum_range_add, Finset.sum_range_add _ (ta.length + 1), Finset.sum_range_succ _ (ta.length + 1),
    Finset.sum_range_succ, Finset.sum_range_succ]
  congr 1
  · rw [add_assoc]
    congr 1
    · refine Finset.sum_congr rfl fun i hi => Finset.sum_congr rfl fun d _ => ?_
      have hi' : i < ta.length := by simpa using hi
      rw [split_time_lt hi', splitCf_le (by omega)]
    · rw [← Finset.sum_add_distrib]
      refine Finset.sum_congr rfl fun d _ => ?_
      rw [split_time_m, split_time_m1, split_time_m', splitCf_le le_rfl]
      simp only [splitCf_m1 hn]
      have hc : _root_.Continuous fun t => (dvL n k t (cf a ta.length d)) ^ 2 := (dvL_continuous _ _ _).pow 2
      rw [intervalIntegral.integral_comp_add_right (fun t => (dvL n k t (cf a ta.length d)) ^ 2) T₁, zero_add,
        intervalIntegral.integral_add_adjacent_intervals (hc.intervalIntegrable _ _) (hc.intervalIntegrable _ _),
        add_comm T₂ T₁]
  · refine Finset.sum_congr rfl fun i _ => Finset.sum_congr rfl fun d _ => ?_
    rw [split_time_gt (by omega), splitCf_gt (by omega)]
    rw [show ta.length + 2 + i - 1 = ta.length + 1 + i by omega]

end

end Verif
