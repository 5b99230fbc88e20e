import Mathlib.Analysis.SpecialFunctions.Integrals.Basic
import Mathlib.LinearAlgebra.Dual.Lemmas
import Verif.Proofs.LinOptResult

/- Helper lemmas: the quadratic cost and its minimum. -/
namespace Verif

open Spec

set_option linter.unusedSectionVars false

/-! #### The cost matrix is an integral -/

theorem costEntry_eq {K : Type} [Field K] (n k : ℕ) (t : K) (i j : ℕ) (hn : n ≤ 22) (hk : k < n)
    (hi : i < n) (hj : j < n) :
    costEntry n k t i j = if k ≤ i ∧ k ≤ j then
      (i.descFactorial k : K) * (j.descFactorial k : K) * t ^ (i - k + (j - k) + 1) * 2 /
        ((i - k + (j - k) + 1 : ℕ) : K) else 0 := by
  unfold costEntry
  simp only
  have e : (n - 1 - i < n - k ∧ n - 1 - j < n - k) ↔ (k ≤ i ∧ k ≤ j) := by omega
  simp only [e]
  split_ifs with h
  · have e2 : (n - 1 - k) * 2 + 1 - (n - 1 - i) - (n - 1 - j) = i - k + (j - k) + 1 := by omega
    rw [e2, baseCoeff_eq (by unfold kMaxConvolutionSize; omega),
      baseCoeff_eq (by unfold kMaxConvolutionSize; omega)]
  · rfl

theorem costMat_symm {K : Type} [Field K] (h k : ℕ) (hN : h + h ≤ 22) (hk : k < h + h) (T : K) :
    (costMat h k T).transpose = costMat h k T := by
  ext i j
  simp only [Matrix.transpose_apply, costMat]
  rw [costEntry_eq _ _ _ _ _ hN hk j.2 i.2, costEntry_eq _ _ _ _ _ hN hk i.2 j.2]
  by_cases h1 : k ≤ (i : ℕ) ∧ k ≤ (j : ℕ)
  · rw [if_pos h1, if_pos h1.symm, Nat.add_comm ((j : ℕ) - k)]
    ring
  · rw [if_neg h1, if_neg (fun h2 => h1 h2.symm)]

/-- The integral of the square of a polynomial given by its coefficients. -/
theorem integral_square (a : ℕ → ℝ) (m : ℕ) (T : ℝ) :
    ∫ t in (0 : ℝ)..T, (∑ i ∈ Finset.range m, a i * t ^ i) ^ 2 =
      ∑ i ∈ Finset.range m, ∑ j ∈ Finset.range m,
        a i * a j * (T ^ (i + j + 1) / ((i + j + 1 : ℕ) : ℝ)) := by
  have e : (fun t : ℝ => (∑ i ∈ Finset.range m, a i * t ^ i) ^ 2) = fun t =>
      ∑ i ∈ Finset.range m, ∑ j ∈ Finset.range m, a i * a j * t ^ (i + j) := by
    funext t
    rw [sq, Finset.sum_mul_sum]
    refine Finset.sum_congr rfl fun i _ => Finset.sum_congr rfl fun j _ => ?_
    rw [pow_add]; ring
  rw [e, intervalIntegral.integral_finsetSum]
  · refine Finset.sum_congr rfl fun i _ => ?_
    rw [intervalIntegral.integral_finsetSum]
    · refine Finset.sum_congr rfl fun j _ => ?_
      rw [intervalIntegral.integral_const_mul, integral_pow]
      push_cast
      simp
    · intro j _
      exact (Continuous.intervalIntegrable (by fun_prop) _ _)
  · intro i _
    exact (Continuous.intervalIntegrable (by fun_prop) _ _)

theorem sum_fin_ge (n k : ℕ) (hk : k ≤ n) (f : ℕ → ℝ) :
    ∑ i : Fin n, (if k ≤ (i : ℕ) then f i else 0) = ∑ i ∈ Finset.range (n - k), f (k + i) := by
  rw [Fin.sum_univ_eq_sum_range (fun i => if k ≤ i then f i else 0) n]
  obtain ⟨m, rfl⟩ := Nat.exists_eq_add_of_le hk
  rw [Finset.sum_range_add]
  rw [Finset.sum_eq_zero (fun i hi => by
    rw [if_neg]
    simp at hi
    omega), zero_add, Nat.add_sub_cancel_left]
  exact Finset.sum_congr rfl fun i _ => by rw [if_pos (by omega)]

/-- The quadratic form of the cost matrix. -/
theorem costMat_integral (h k : ℕ) (hN : h + h ≤ 22) (hk : k < h + h) (T : ℝ)
    (x : Fin (h + h) → ℝ) :
    x ⬝ᵥ (costMat h k T).mulVec x =
      2 * ∫ t in (0 : ℝ)..T, (iteratedDeriv k (curve (List.ofFn x)) t) ^ 2 := by
  have e1 : (fun t : ℝ => (iteratedDeriv k (curve (List.ofFn x)) t) ^ 2) = fun t =>
      (∑ i ∈ Finset.range (h + h - k),
        (((k + i).descFactorial k : ℝ) * (List.ofFn x).getD (k + i) 0) * t ^ i) ^ 2 := by
    funext t
    rw [iteratedDeriv_curve, derivAt_eq_sum]
    simp
  rw [e1, integral_square (fun i => ((k + i).descFactorial k : ℝ) * (List.ofFn x).getD (k + i) 0)]
  have e2 : ∀ i j : Fin (h + h), x i * (costMat h k T i j * x j) =
      if k ≤ (i : ℕ) then (if k ≤ (j : ℕ) then
        2 * ((((i : ℕ).descFactorial k : ℝ) * (List.ofFn x).getD i 0) *
          (((j : ℕ).descFactorial k : ℝ) * (List.ofFn x).getD j 0) *
          (T ^ ((i : ℕ) - k + ((j : ℕ) - k) + 1) / (((i : ℕ) - k + ((j : ℕ) - k) + 1 : ℕ) : ℝ)))
        else 0) else 0 := by
    intro i j
    rw [costMat, costEntry_eq _ _ _ _ _ hN hk i.2 j.2, ofFn_getD, ofFn_getD]
    by_cases hi : k ≤ (i : ℕ) <;> by_cases hj : k ≤ (j : ℕ) <;> simp [hi, hj]
    ring
  have e3 : x ⬝ᵥ (costMat h k T).mulVec x =
      ∑ i : Fin (h + h), ∑ j : Fin (h + h), x i * (costMat h k T i j * x j) := by
    simp only [dotProduct, Matrix.mulVec, Finset.mul_sum]
  rw [e3]
  simp only [e2]
  have e4 : ∀ i : Fin (h + h), (∑ j : Fin (h + h), if k ≤ (i : ℕ) then (if k ≤ (j : ℕ) then
        2 * ((((i : ℕ).descFactorial k : ℝ) * (List.ofFn x).getD i 0) *
          (((j : ℕ).descFactorial k : ℝ) * (List.ofFn x).getD j 0) *
          (T ^ ((i : ℕ) - k + ((j : ℕ) - k) + 1) / (((i : ℕ) - k + ((j : ℕ) - k) + 1 : ℕ) : ℝ)))
        else 0) else 0) = if k ≤ (i : ℕ) then
          (fun i : ℕ => ∑ j ∈ Finset.range (h + h - k), 2 * (((i.descFactorial k : ℝ) *
            (List.ofFn x).getD i 0) *
          (((k + j).descFactorial k : ℝ) * (List.ofFn x).getD (k + j) 0) *
          (T ^ (i - k + (k + j - k) + 1) / ((i - k + (k + j - k) + 1 : ℕ) : ℝ)))) i else 0 := by
    intro i
    split_ifs with hi
    · exact sum_fin_ge (h + h) k (by omega) (fun j => 2 * ((((i : ℕ).descFactorial k : ℝ) *
          (List.ofFn x).getD i 0) * ((j.descFactorial k : ℝ) * (List.ofFn x).getD j 0) *
          (T ^ ((i : ℕ) - k + (j - k) + 1) / (((i : ℕ) - k + (j - k) + 1 : ℕ) : ℝ))))
    · simp
  rw [Finset.sum_congr rfl (fun i _ => e4 i)]
  refine (sum_fin_ge (h + h) k (by omega)
    (fun i : ℕ => ∑ j ∈ Finset.range (h + h - k), 2 * (((i.descFactorial k : ℝ) *
            (List.ofFn x).getD i 0) *
          (((k + j).descFactorial k : ℝ) * (List.ofFn x).getD (k + j) 0) *
          (T ^ (i - k + (k + j - k) + 1) / ((i - k + (k + j - k) + 1 : ℕ) : ℝ))))).trans ?_
  rw [Finset.mul_sum]
  refine Finset.sum_congr rfl fun i _ => ?_
  rw [Finset.mul_sum]
  refine Finset.sum_congr rfl fun j _ => ?_
  rw [Nat.add_sub_cancel_left, Nat.add_sub_cancel_left]

theorem costMat_nonneg (h k : ℕ) (hN : h + h ≤ 22) (hk : k < h + h) (T : ℝ) (hT : 0 ≤ T)
    (x : Fin (h + h) → ℝ) : 0 ≤ x ⬝ᵥ (costMat h k T).mulVec x := by
  rw [costMat_integral h k hN hk]
  have := intervalIntegral.integral_nonneg (μ := MeasureTheory.volume) hT
    (fun t _ => sq_nonneg (iteratedDeriv k (curve (List.ofFn x)) t))
  linarith

/-! #### Minimising a positive semidefinite form over some of the variables -/

/-- A system with a symmetric matrix has a solution when the right-hand side is orthogonal to the
kernel. -/
theorem symm_solvable {n : ℕ} (A : Matrix (Fin n) (Fin n) ℝ) (hA : A.transpose = A) (b : Fin n → ℝ)
    (hb : ∀ w, A.mulVec w = 0 → w ⬝ᵥ b = 0) : ∃ x, A.mulVec x = b := by
  by_contra hne
  have hb' : b ∉ LinearMap.range A.mulVecLin := by
    rintro ⟨x, hx⟩
    exact hne ⟨x, by simpa using hx⟩
  obtain ⟨f, hf1, hf2⟩ := Submodule.exists_le_ker_of_notMem hb'
  set w : Fin n → ℝ := fun i => f (Pi.single i 1) with hw
  have hfw : ∀ y, f y = w ⬝ᵥ y := by
    intro y
    conv_lhs => rw [pi_eq_sum_univ' y]
    rw [map_sum]
    simp only [map_smul, smul_eq_mul, dotProduct, hw]
    refine Finset.sum_congr rfl fun i _ => ?_
    rw [mul_comm]
  have hAw : A.mulVec w = 0 := by
    have : ∀ x, w ⬝ᵥ A.mulVec x = 0 := by
      intro x
      rw [← hfw]
      exact hf2 ⟨x, by simp⟩
    rw [← hA, Matrix.mulVec_transpose]
    have h2 : ∀ x, Matrix.vecMul w A ⬝ᵥ x = 0 := by
      intro x
      rw [← Matrix.dotProduct_mulVec]
      exact this x
    funext i
    have := h2 (Pi.single i 1)
    simpa using this
  apply hf1
  rw [hfw]
  exact hb w hAw

/-- The form with entries `R` on vectors with `n` entries. -/
def form (R : ℕ → ℕ → ℝ) (n : ℕ) (X Z : ℕ → ℝ) : ℝ :=
  ∑ a ∈ Finset.range n, ∑ b ∈ Finset.range n, R a b * X a * Z b

theorem form_add_left (R : ℕ → ℕ → ℝ) (n : ℕ) (X Y Z : ℕ → ℝ) :
    form R n (X + Y) Z = form R n X Z + form R n Y Z := by
  unfold form
  simp only [← Finset.sum_add_distrib, Pi.add_apply]
  refine Finset.sum_congr rfl fun a _ => Finset.sum_congr rfl fun b _ => by ring

theorem form_add_right (R : ℕ → ℕ → ℝ) (n : ℕ) (X Y Z : ℕ → ℝ) :
    form R n X (Y + Z) = form R n X Y + form R n X Z := by
  unfold form
  simp only [← Finset.sum_add_distrib, Pi.add_apply]
  refine Finset.sum_congr rfl fun a _ => Finset.sum_congr rfl fun b _ => by ring

theorem form_smul_left (R : ℕ → ℕ → ℝ) (n : ℕ) (t : ℝ) (X Z : ℕ → ℝ) :
    form R n (t • X) Z = t * form R n X Z := by
  unfold form
  simp only [Finset.mul_sum, Pi.smul_apply, smul_eq_mul]
  refine Finset.sum_congr rfl fun a _ => Finset.sum_congr rfl fun b _ => by ring

theorem form_smul_right (R : ℕ → ℕ → ℝ) (n : ℕ) (t : ℝ) (X Z : ℕ → ℝ) :
    form R n X (t • Z) = t * form R n X Z := by
  unfold form
  simp only [Finset.mul_sum, Pi.smul_apply, smul_eq_mul]
  refine Finset.sum_congr rfl fun a _ => Finset.sum_congr rfl fun b _ => by ring

/-- A vector of cost zero is orthogonal to everything. -/
theorem form_zero (R : ℕ → ℕ → ℝ) (n : ℕ) (hs : ∀ X Z, form R n X Z = form R n Z X)
    (hp : ∀ X, 0 ≤ form R n X X) (X : ℕ → ℝ) (hX : form R n X X = 0) (Z : ℕ → ℝ) :
    form R n X Z = 0 := by
  have key : ∀ t : ℝ, 0 ≤ form R n Z Z + 2 * t * form R n X Z := by
    intro t
    have := hp (Z + t • X)
    rw [form_add_left, form_add_right, form_add_right, form_smul_left, form_smul_right,
      form_smul_left, form_smul_right, hX, hs Z X] at this
    linarith
  by_contra hne
  have := key (-(form R n Z Z + 1) / (2 * form R n X Z))
  have e : 2 * (-(form R n Z Z + 1) / (2 * form R n X Z)) * form R n X Z = -(form R n Z Z + 1) := by
    field_simp
  rw [e] at this
  linarith

/-- Minimum of the form when the first `nf` entries are given. -/
theorem form_min (R : ℕ → ℕ → ℝ) (nf np : ℕ)
    (hs : ∀ X Z, form R (nf + np) X Z = form R (nf + np) Z X)
    (hp : ∀ X, 0 ≤ form R (nf + np) X X) (X Y : ℕ → ℝ) (hXY : ∀ c < nf, X c = Y c)
    (hsol : ∀ a < np, ∑ b ∈ Finset.range (nf + np), R (nf + a) b * X b = 0) :
    form R (nf + np) X X ≤ form R (nf + np) Y Y := by
  set D : ℕ → ℝ := Y - X with hD
  have hY : Y = X + D := by rw [hD]; simp
  have h0 : form R (nf + np) D X = 0 := by
    unfold form
    apply Finset.sum_eq_zero
    intro a ha
    rcases Nat.lt_or_ge a nf with h1 | h1
    · apply Finset.sum_eq_zero
      intro b _
      have : D a = 0 := by rw [hD]; simp [hXY a h1]
      rw [this]; ring
    · obtain ⟨a', rfl⟩ := Nat.exists_eq_add_of_le h1
      have : ∑ b ∈ Finset.range (nf + np), R (nf + a') b * D (nf + a') * X b =
          D (nf + a') * ∑ b ∈ Finset.range (nf + np), R (nf + a') b * X b := by
        rw [Finset.mul_sum]
        exact Finset.sum_congr rfl fun b _ => by ring
      rw [this, hsol a' (by simp at ha; omega), mul_zero]
  rw [hY, form_add_left, form_add_right, form_add_right, h0, hs X D, h0]
  linarith [hp D]

/-- The block system of the free entries. -/
theorem free_system (R : ℕ → ℕ → ℝ) (nf np : ℕ) (F x : ℕ → ℝ) (a : ℕ)
    (X : ℕ → ℝ) (hX1 : ∀ c < nf, X c = F c) (hX2 : ∀ c < np, X (nf + c) = x c) :
    ∑ b ∈ Finset.range (nf + np), R (nf + a) b * X b =
      ∑ b : Fin nf, R (nf + a) b * F b + ∑ b : Fin np, R (nf + a) (nf + b) * x b := by
  rw [Finset.sum_range_add]
  congr 1
  · rw [Fin.sum_univ_eq_sum_range (fun b => R (nf + a) b * F b) nf]
    exact Finset.sum_congr rfl fun b hb => by rw [hX1 b (by simpa using hb)]
  · rw [Fin.sum_univ_eq_sum_range (fun b => R (nf + a) (nf + b) * x b) np]
    exact Finset.sum_congr rfl fun b hb => by rw [hX2 b (by simpa using hb)]

/-- The normal equations always have a solution. -/
theorem normal_solvable (R : ℕ → ℕ → ℝ) (nf np : ℕ) (hR : ∀ a b, R a b = R b a)
    (hp : ∀ X, 0 ≤ form R (nf + np) X X) (F : ℕ → ℝ) :
    ∃ x, Matrix.mulVec (fun a b : Fin np => R (nf + a) (nf + b)) x =
      Matrix.mulVec (-(Matrix.of fun (a : Fin np) (b : Fin nf) => R (nf + a) b))
        fun b => F b := by
  have hs : ∀ X Z, form R (nf + np) X Z = form R (nf + np) Z X := by
    intro X Z
    unfold form
    rw [Finset.sum_comm]
    exact Finset.sum_congr rfl fun a _ => Finset.sum_congr rfl fun b _ => by rw [hR]; ring
  apply symm_solvable
  · ext a b
    exact hR _ _
  · intro w hw
    set W : ℕ → ℝ := fun c => if hc : nf ≤ c ∧ c - nf < np then w ⟨c - nf, hc.2⟩ else 0 with hW
    set G : ℕ → ℝ := fun c => if c < nf then F c else 0 with hG
    have hW1 : ∀ c < nf, W c = 0 := by
      intro c hc
      simp only [hW]
      rw [dif_neg (by omega)]
    have hW2 : ∀ c : Fin np, W (nf + c) = w c := by
      intro c
      simp only [hW]
      rw [dif_pos ⟨by omega, by simp [c.2]⟩]
      congr 1
      ext
      simp
    have hform : ∀ Z : ℕ → ℝ, form R (nf + np) W Z =
        ∑ a : Fin np, w a * ∑ b ∈ Finset.range (nf + np), R (nf + a) b * Z b := by
      intro Z
      unfold form
      rw [Finset.sum_range_add, Finset.sum_eq_zero (fun a ha => by
        apply Finset.sum_eq_zero
        intro b _
        rw [hW1 a (by simpa using ha)]; ring), zero_add, ← Fin.sum_univ_eq_sum_range]
      refine Finset.sum_congr rfl fun a _ => ?_
      rw [Finset.mul_sum, hW2]
      exact Finset.sum_congr rfl fun b _ => by ring
    have hWW : form R (nf + np) W W = 0 := by
      rw [hform]
      apply Finset.sum_eq_zero
      intro a _
      rw [Finset.sum_range_add, Finset.sum_eq_zero (fun b hb => by
        rw [hW1 b (by simpa using hb), mul_zero]), zero_add, ← Fin.sum_univ_eq_sum_range
          (fun b => R (nf + a) (nf + b) * W (nf + b))]
      have := congrFun hw a
      simp only [Matrix.mulVec, dotProduct, Pi.zero_apply] at this
      simp only [hW2]
      rw [this, mul_zero]
    have hz := form_zero R (nf + np) hs hp W hWW G
    rw [hform] at hz
    have e : w ⬝ᵥ Matrix.mulVec (-(Matrix.of fun (a : Fin np) (b : Fin nf) => R (nf + a) b))
        (fun b => F b) =
        - ∑ a : Fin np, w a * ∑ b ∈ Finset.range (nf + np), R (nf + a) b * G b := by
      rw [Matrix.neg_mulVec, dotProduct_neg]
      congr 1
      simp only [dotProduct, Matrix.mulVec, Matrix.of_apply]
      refine Finset.sum_congr rfl fun a _ => ?_
      congr 1
      rw [Finset.sum_range_add, Finset.sum_eq_zero (s := Finset.range np) (fun b _ => by
        simp only [hG]
        rw [if_neg (by omega), mul_zero]), add_zero,
        Fin.sum_univ_eq_sum_range (fun b => R (nf + a) b * F b) nf]
      refine Finset.sum_congr rfl fun b hb => ?_
      simp only [hG]
      rw [if_pos (by simpa using hb)]
    rw [e, hz, neg_zero]

end Verif
