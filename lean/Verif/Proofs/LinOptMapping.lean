import Mathlib.Algebra.Polynomial.FieldDivision
import Mathlib.LinearAlgebra.Matrix.NonsingularInverse
import Mathlib.LinearAlgebra.Matrix.ToLin
import Verif.Proofs.PolynomialArith
import Verif.Model.LinearOptimization
import Verif.Spec.LinearOptimization

/- Helper lemmas: the mapping matrix and its inverse. -/
namespace Verif

open Polynomial Spec

set_option linter.unusedSectionVars false

variable {K : Type}

theorem ofFn_getD {n : ℕ} [Zero K] (x : Fin n → K) (i : Fin n) : (List.ofFn x).getD i 0 = x i := by
  simp [List.getD_eq_getElem?_getD]

theorem ofFn_getD' {n : ℕ} [Zero K] (x : Fin n → K) (i : ℕ) (hi : i < n) :
    (List.ofFn x).getD i 0 = x ⟨i, hi⟩ := by
  simp [List.getD_eq_getElem?_getD, hi]

theorem ofFn_of_getD [Zero K] (c : List K) {n : ℕ} (hn : c.length = n) :
    List.ofFn (fun i : Fin n => c.getD i 0) = c := by
  subst hn
  apply List.ext_getElem <;> simp [List.getD_eq_getElem?_getD]

theorem dot_ofFn [Field K] (row : List K) {n : ℕ} (hn : row.length = n) (x : Fin n → K) :
    dot row (List.ofFn x) = ∑ j : Fin n, row.getD j 0 * x j := by
  subst hn
  unfold dot
  have : List.zipWith (· * ·) row (List.ofFn x) =
      List.ofFn fun j : Fin row.length => row.getD j 0 * x j := by
    apply List.ext_getElem <;> simp [List.getD_eq_getElem?_getD]
  rw [this, List.sum_ofFn]

theorem derivAt_zero [Field K] (c : List K) (k : ℕ) :
    derivAt c k 0 = (k.factorial : K) * c.getD k 0 := by
  rw [derivAt_eq_sum]
  rcases Nat.eq_zero_or_pos (c.length - k) with h | h
  · rw [h]
    rw [getD_of_ge _ _ _ (by omega)]
    simp
  · rw [show c.length - k = (c.length - k - 1) + 1 by omega, Finset.sum_range_succ']
    simp [Nat.descFactorial_self]

section Order
variable [Field K] [LinearOrder K] [IsStrictOrderedRing K]

/-- A polynomial with `h + h` coefficients whose derivatives of order below `h` vanish at `0` and at
`T ≠ 0` is zero. -/
theorem hermite_unique {h : ℕ} (c : List K) (hc : c.length = h + h) (T : K) (hT : T ≠ 0)
    (h0 : ∀ k < h, derivAt c k 0 = 0) (h1 : ∀ k < h, derivAt c k T = 0) :
    ∀ i, c.getD i 0 = 0 := by
  have hP : ofCoeffs c = 0 := by
    by_contra hne
    rcases Nat.eq_zero_or_pos h with rfl | hpos
    · have : c = [] := List.eq_nil_of_length_eq_zero (by simpa using hc)
      subst this
      exact hne ofCoeffs_nil
    have key : ∀ a : K, (∀ k < h, derivAt c k a = 0) → (X - C a) ^ h ∣ ofCoeffs c := by
      intro a ha
      have : h - 1 < (ofCoeffs c).rootMultiplicity a := by
        rw [lt_rootMultiplicity_iff_isRoot_iterate_derivative hne]
        intro m hm
        exact ha m (by omega)
      exact (pow_dvd_pow _ (by omega)).trans (pow_rootMultiplicity_dvd _ a)
    have hcop : IsCoprime ((X - C (0 : K)) ^ h) ((X - C T) ^ h) :=
      (isCoprime_X_sub_C_of_isUnit_sub (by simpa using hT)).pow
    have hd := hcop.mul_dvd (key 0 h0) (key T h1)
    have hle := natDegree_le_of_dvd hd hne
    have hlt := natDegree_ofCoeffs_lt c (by omega)
    rw [((monic_X_sub_C (0 : K)).pow h).natDegree_mul ((monic_X_sub_C T).pow h),
      natDegree_pow, natDegree_pow, natDegree_X_sub_C, natDegree_X_sub_C] at hle
    omega
  intro i
  rw [← coeff_ofCoeffs, hP, coeff_zero]

/-- The time at which the second half of the mapping matrix is really evaluated. -/
def effTime (T : K) : K := if |T| < dblEpsilon then 0 else T

theorem mapping_ok (h : ℕ) (T : K) (hN : h + h ≤ kMaxConvolutionSize) :
    ∃ A : SqMat h K, setupMappingMatrix h T = .ok A ∧
      ∀ (x : Fin (h + h) → K) (i : Fin h),
        A.mulVec x (Fin.castAdd h i) = derivAt (List.ofFn x) i 0 ∧
        A.mulVec x (Fin.natAdd h i) = derivAt (List.ofFn x) i (effTime T) := by
  have hrow : ∀ (t : K) (i : ℕ), ∃ row, i < h → (baseCoeffsWithTime (h + h) (i : ℕ) t = .ok row ∧
      row.length = h + h ∧
      ∀ c : List K, c.length = h + h → dot row c = derivAt c i (effTime t)) := by
    intro t i
    by_cases hi : i < h
    · obtain ⟨row, hr⟩ := baseCoeffsWithTime_ok (h + h) i t (by omega) hN
      exact ⟨row, fun _ => hr⟩
    · exact ⟨[], fun h' => absurd h' hi⟩
  choose row hr using hrow
  have e0 := Res.mapM_ok (l := List.range h)
    (f := fun i => baseCoeffsWithTime (h + h) (i : ℕ) (0 : K)) (g := row 0)
    (fun i hi => (hr 0 i (by simpa using hi)).1)
  have eT := Res.mapM_ok (l := List.range h)
    (f := fun i => baseCoeffsWithTime (h + h) (i : ℕ) T) (g := row T)
    (fun i hi => (hr T i (by simpa using hi)).1)
  unfold setupMappingMatrix
  rw [e0, Res.ok_bind, eT, Res.ok_bind]
  refine ⟨_, rfl, ?_⟩
  intro x i
  have hz : effTime (0 : K) = 0 := by simp [effTime]
  constructor
  · obtain ⟨_, h2, h3⟩ := hr 0 i i.2
    rw [hz] at h3
    rw [← h3 _ (by simp), dot_ofFn _ h2]
    simp [Matrix.mulVec, dotProduct, List.getD_eq_getElem?_getD, List.getElem?_append, i.2]
  · obtain ⟨_, h2, h3⟩ := hr T i i.2
    rw [← h3 _ (by simp), dot_ofFn _ h2]
    simp [Matrix.mulVec, dotProduct, List.getD_eq_getElem?_getD, i.2]

/-- What the mapping matrix does determines it to be invertible, and the block formula gives its
inverse. -/
theorem invert_ok {h : ℕ} (A : SqMat h K) (T : K) (hT : T ≠ 0)
    (hA : ∀ (x : Fin (h + h) → K) (i : Fin h),
        A.mulVec x (Fin.castAdd h i) = derivAt (List.ofFn x) i 0 ∧
        A.mulVec x (Fin.natAdd h i) = derivAt (List.ofFn x) i T)
    (inv : Matrix (Fin h) (Fin h) K → Matrix (Fin h) (Fin h) K) (hinv : IsInverse inv) :
    invertMappingMatrix inv A * A = 1 := by
  have htop : ∀ (x : Fin (h + h) → K) (i : Fin h),
      A.mulVec x (Fin.castAdd h i) = (((i : ℕ).factorial : ℕ) : K) * x (Fin.castAdd h i) := by
    intro x i
    rw [(hA x i).1, derivAt_zero]
    congr 1
    exact ofFn_getD x (Fin.castAdd h i)
  have hinj : ∀ x, A.mulVec x = 0 → x = 0 := by
    intro x hx
    have := hermite_unique (h := h) (List.ofFn x) (by simp) T hT
      (fun k hk => by rw [← (hA x ⟨k, hk⟩).1, hx]; rfl)
      (fun k hk => by rw [← (hA x ⟨k, hk⟩).2, hx]; rfl)
    funext i
    rw [← ofFn_getD x i]
    exact this i
  set D : Matrix (Fin h) (Fin h) K := fun i j => A (Fin.natAdd h i) (Fin.natAdd h j) with hD
  set C : Matrix (Fin h) (Fin h) K := fun i j => A (Fin.natAdd h i) (Fin.castAdd h j) with hC
  have hbot : ∀ (x : Fin (h + h) → K) (i : Fin h), A.mulVec x (Fin.natAdd h i) =
      C.mulVec (fun j => x (Fin.castAdd h j)) i + D.mulVec (fun j => x (Fin.natAdd h j)) i := by
    intro x i
    simp only [Matrix.mulVec, dotProduct, Fin.sum_univ_add, hC, hD]
  have hDu : IsUnit D := by
    rw [← Matrix.mulVec_injective_iff_isUnit]
    intro y z hyz
    have h0 : D.mulVec (y - z) = 0 := by
      rw [Matrix.mulVec_sub]; exact sub_eq_zero.mpr hyz
    have := hinj (Fin.addCases (fun _ => 0) (y - z)) (by
      funext r
      refine Fin.addCases (fun i => ?_) (fun i => ?_) r
      · rw [htop]; simp
      · rw [hbot]
        have e1 : (fun j => (Fin.addCases (fun _ => 0) (y - z) : Fin (h + h) → K) (Fin.castAdd h j)) =
            (0 : Fin h → K) := by
          funext j; simp
        have e2 : (fun j => (Fin.addCases (fun _ => 0) (y - z) : Fin (h + h) → K) (Fin.natAdd h j)) =
            y - z := by
          funext j; simp only [Fin.addCases_right]
        rw [e1, e2, Matrix.mulVec_zero, h0]
        simp)
    have h2 : y - z = 0 := by
      funext j
      have := congrFun this (Fin.natAdd h j)
      simp only [Fin.addCases_right] at this
      exact this
    exact sub_eq_zero.mp h2
  have hdiag : ∀ i : Fin h, A (Fin.castAdd h i) (Fin.castAdd h i) = (((i : ℕ).factorial : ℕ) : K) := by
    intro i
    have := htop (Pi.single (Fin.castAdd h i) 1) i
    rw [Matrix.mulVec_single_one] at this
    simpa using this
  have hI := hinv D hDu
  apply Matrix.ext_of_mulVec_single
  intro c
  rw [← Matrix.mulVec_mulVec, Matrix.one_mulVec]
  generalize (Pi.single c 1 : Fin (h + h) → K) = x
  have hAinv : ∀ i : Fin h, (A (Fin.castAdd h i) (Fin.castAdd h i))⁻¹ *
      A.mulVec x (Fin.castAdd h i) = x (Fin.castAdd h i) := by
    intro i
    rw [htop, hdiag, inv_mul_cancel_left₀]
    exact_mod_cast Nat.factorial_ne_zero _
  funext r
  refine Fin.addCases (fun i => ?_) (fun i => ?_) r
  · rw [Matrix.mulVec, dotProduct, Fin.sum_univ_add]
    simp only [invertMappingMatrix, Fin.addCases_left, Fin.addCases_right, zero_mul,
      Finset.sum_const_zero, add_zero, Matrix.diagonal_apply]
    simp only [ite_mul, zero_mul, Finset.sum_ite_eq, Finset.mem_univ, if_true]
    exact hAinv i
  · rw [Matrix.mulVec, dotProduct, Fin.sum_univ_add]
    simp only [invertMappingMatrix, Fin.addCases_left, Fin.addCases_right]
    have e1 : ∑ j, (-inv D * C * Matrix.diagonal fun i =>
        (A (Fin.castAdd h i) (Fin.castAdd h i))⁻¹) i j * A.mulVec x (Fin.castAdd h j) =
        - (inv D).mulVec (C.mulVec fun j => x (Fin.castAdd h j)) i := by
      have : (fun j => x (Fin.castAdd h j)) = (Matrix.diagonal fun i =>
          (A (Fin.castAdd h i) (Fin.castAdd h i))⁻¹).mulVec
            (fun j => A.mulVec x (Fin.castAdd h j)) := by
        funext j
        rw [Matrix.mulVec_diagonal]
        exact (hAinv j).symm
      rw [this, Matrix.mulVec_mulVec, Matrix.mulVec_mulVec, Matrix.neg_mul, Matrix.neg_mul,
        Matrix.mul_assoc]
      simp only [Matrix.neg_apply, neg_mul, Finset.sum_neg_distrib]
      rfl
    have e2 : ∑ j, inv D i j * A.mulVec x (Fin.natAdd h j) =
        (inv D).mulVec (C.mulVec fun j => x (Fin.castAdd h j)) i + x (Fin.natAdd h i) := by
      have : (fun j => A.mulVec x (Fin.natAdd h j)) =
          C.mulVec (fun j => x (Fin.castAdd h j)) + D.mulVec (fun j => x (Fin.natAdd h j)) := by
        funext j; exact hbot x j
      have h3 : ∑ j, inv D i j * A.mulVec x (Fin.natAdd h j) =
          (inv D).mulVec (fun j => A.mulVec x (Fin.natAdd h j)) i := rfl
      rw [h3, this, Matrix.mulVec_add, Matrix.mulVec_mulVec _ (inv D) D, hI, Matrix.one_mulVec]
      rfl
    rw [e1, e2]
    ring

end Order
end Verif
