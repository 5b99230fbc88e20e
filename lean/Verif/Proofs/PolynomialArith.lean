import Mathlib.Algebra.BigOperators.Intervals
import Mathlib.Algebra.Polynomial.Coeff
import Verif.Proofs.Polynomial

/- Helper lemmas: sums, products, re-parametrisations and the base-coefficient row. -/
namespace Verif

open Polynomial Spec

variable {K : Type}

theorem foldl_add_eq_sum [AddCommMonoid K] (f : ℕ → K) (n : ℕ) (a : K) :
    (List.range n).foldl (fun acc s => acc + f s) a = a + ∑ s ∈ Finset.range n, f s := by
  induction n with
  | zero => simp
  | succ n ih => rw [List.range_succ, List.foldl_append, ih, Finset.sum_range_succ]; simp [add_assoc]

theorem getD_of_ge {α : Type} (l : List α) (i : ℕ) (a : α) (h : l.length ≤ i) : l.getD i a = a := by
  simp [List.getD, List.getElem?_eq_none h]

section CommSemiring
variable [CommSemiring K]

theorem convolveEntry_eq (data kernel : List K) (i : ℕ) :
    convolveEntry data kernel i =
      ∑ n ∈ Finset.range (i + 1), kernel.getD n 0 * data.getD (i - n) 0 := by
  unfold convolveEntry
  simp only
  rw [foldl_add_eq_sum, zero_add]
  set lo := i + 1 - data.length with hlo
  set hi := min kernel.length (i + 1) with hhi
  have hsub : ∑ n ∈ Finset.range (i + 1), kernel.getD n 0 * data.getD (i - n) 0
      = ∑ n ∈ Finset.Ico lo hi, kernel.getD n 0 * data.getD (i - n) 0 := by
    symm
    apply Finset.sum_subset
    · intro n hn
      simp at hn ⊢
      omega
    · intro n hn hn'
      simp at hn hn'
      by_cases h : n < kernel.length
      · have : data.length ≤ i - n := by omega
        rw [getD_of_ge data _ _ this, mul_zero]
      · rw [getD_of_ge kernel _ _ (by omega), zero_mul]
  rw [hsub, Finset.sum_Ico_eq_sum_range, ← Finset.sum_range_reflect]
  have hL : ((min (kernel.length : ℤ) (data.length - ((i : ℤ) - kernel.length + 1)))
      - max 0 (-((i : ℤ) - kernel.length + 1))).toNat = hi - lo := by omega
  rw [hL]
  apply Finset.sum_congr rfl
  intro s hs
  simp at hs
  have h1 : (max 0 (-((i : ℤ) - kernel.length + 1)) + ((hi - lo - 1 - s : ℕ) : ℤ)).toNat =
      kernel.length - 1 - (lo + s) := by omega
  have h2 : ((i : ℤ) - kernel.length + 1 + max 0 (-((i : ℤ) - kernel.length + 1)) +
      ((hi - lo - 1 - s : ℕ) : ℤ)).toNat = i - (lo + s) := by omega
  rw [h1, h2]
  congr 1
  have h3 : lo + s < kernel.length := by omega
  rw [List.getD_eq_getElem?_getD, List.getD_eq_getElem?_getD, List.getElem?_reverse (by omega)]
  congr 2
  omega

theorem convolve_ok (a b : List K) (h : 0 < a.length + b.length) :
    ∃ c, convolve a b = .ok c ∧ c.length = a.length + b.length - 1 ∧
      ofCoeffs c = ofCoeffs a * ofCoeffs b := by
  unfold convolve
  rw [if_neg (by omega)]
  refine ⟨_, rfl, by simp, ?_⟩
  ext m
  rw [coeff_ofCoeffs, coeff_mul]
  have hsum : ∑ x ∈ Finset.antidiagonal m, (ofCoeffs a).coeff x.1 * (ofCoeffs b).coeff x.2
      = ∑ n ∈ Finset.range (m + 1), b.getD n 0 * a.getD (m - n) 0 := by
    rw [Finset.Nat.sum_antidiagonal_eq_sum_range_succ_mk, ← Finset.sum_range_reflect]
    apply Finset.sum_congr rfl
    intro n hn
    simp only [Finset.mem_range] at hn
    rw [coeff_ofCoeffs, coeff_ofCoeffs, mul_comm]
    congr 2
    omega
  rw [hsum]
  by_cases hm : m < a.length + b.length - 1
  · rw [List.getD_eq_getElem?_getD, List.getElem?_map, List.getElem?_range hm]
    simp only [Option.map_some, Option.getD_some]
    rw [convolveEntry_eq]
  · rw [getD_of_ge _ _ _ (by simpa using hm)]
    symm
    apply Finset.sum_eq_zero
    intro n hn
    simp at hn
    by_cases h1 : n < b.length
    · rw [getD_of_ge a _ _ (by omega), mul_zero]
    · rw [getD_of_ge b _ _ (by omega), zero_mul]

theorem ofCoeffs_zipWith_add (a b : List K) (h : a.length = b.length) :
    ofCoeffs (List.zipWith (· + ·) a b) = ofCoeffs a + ofCoeffs b := by
  ext m
  rw [coeff_add, coeff_ofCoeffs, coeff_ofCoeffs, coeff_ofCoeffs]
  by_cases hm : m < a.length
  · simp [List.getD_eq_getElem?_getD, hm, show m < b.length by omega]
  · rw [getD_of_ge _ _ _ (by simp; omega), getD_of_ge _ _ _ (by omega),
      getD_of_ge _ _ _ (by omega), add_zero]

theorem ofCoeffs_map_mul (a : List K) (s : K) :
    ofCoeffs (a.map (· * s)) = C s * ofCoeffs a := by
  ext m
  rw [coeff_C_mul, coeff_ofCoeffs, coeff_ofCoeffs]
  by_cases hm : m < a.length
  · simp [List.getD_eq_getElem?_getD, hm, mul_comm]
  · rw [getD_of_ge _ _ _ (by simp; omega), getD_of_ge _ _ _ (by omega), mul_zero]

theorem ofCoeffs_append_zeros (a : List K) (n : ℕ) :
    ofCoeffs (a ++ List.replicate n 0) = ofCoeffs a := by
  ext m
  rw [coeff_ofCoeffs, coeff_ofCoeffs]
  by_cases hm : m < a.length
  · rw [List.getD_eq_getElem?_getD, List.getElem?_append_left hm, ← List.getD_eq_getElem?_getD]
  · rw [getD_of_ge a _ _ (by omega), List.getD_eq_getElem?_getD,
      List.getElem?_append_right (by omega), List.getElem?_replicate]
    split <;> rfl

theorem scaleLoop_length (b s : K) (c : List K) : (scaleLoop b s c).length = c.length := by
  induction c generalizing s with
  | nil => rfl
  | cons x xs ih => simp [scaleLoop, ih]

theorem scaleLoop_getD (b s : K) (c : List K) (i : ℕ) :
    (scaleLoop b s c).getD i 0 = c.getD i 0 * (s * b ^ i) := by
  induction c generalizing s i with
  | nil => simp [scaleLoop]
  | cons x xs ih =>
    cases i with
    | zero => simp [scaleLoop]
    | succ i => simp only [scaleLoop, List.getD_cons_succ, ih, pow_succ]; ring

theorem scaleInTime_coeffs_length (p : Poly K) (b : K) : (p.scaleInTime b).N = p.N :=
  scaleLoop_length _ _ _

theorem derivAt_scaleInTime (p : Poly K) (b : K) (k : ℕ) (t : K) :
    derivAt (p.scaleInTime b).coeffs k t = b ^ k * derivAt p.coeffs k (b * t) := by
  rw [derivAt_eq_sum, derivAt_eq_sum, Finset.mul_sum]
  have : (p.scaleInTime b).coeffs.length = p.coeffs.length := scaleLoop_length _ _ _
  rw [this]
  apply Finset.sum_congr rfl
  intro i _
  unfold Poly.scaleInTime
  rw [scaleLoop_getD, pow_add, mul_pow]
  ring

theorem offset_N (p : Poly K) (o : K) : (p.offset o).N = p.N := by
  unfold Poly.offset Poly.N
  split
  · rfl
  · next h => simp [h]

theorem ofCoeffs_offset (p : Poly K) (o : K) (h : 0 < p.N) :
    ofCoeffs (p.offset o).coeffs = ofCoeffs p.coeffs + C o := by
  unfold Poly.N at h
  unfold Poly.offset
  split
  · next h' => simp [h'] at h
  · next c cs h' =>
    ext m
    rw [coeff_add, coeff_ofCoeffs, coeff_ofCoeffs, h', coeff_C]
    cases m with
    | zero => simp
    | succ m => simp

theorem derivAt_offset (p : Poly K) (o : K) (h : 0 < p.N) (k : ℕ) (t : K) :
    derivAt (p.offset o).coeffs k t = derivAt p.coeffs k t + if k = 0 then o else 0 := by
  unfold derivAt
  rw [ofCoeffs_offset p o h]
  cases k with
  | zero => simp
  | succ k =>
    rw [if_neg (by omega), add_zero]
    simp only [Function.iterate_succ_apply, derivative_add, derivative_C, add_zero]

theorem derivAt_append_zeros (a : List K) (n k : ℕ) (t : K) :
    derivAt (a ++ List.replicate n 0) k t = derivAt a k t := by
  unfold derivAt; rw [ofCoeffs_append_zeros]

theorem derivAt_replicate_zero (n k : ℕ) (t : K) : derivAt (List.replicate n (0:K)) k t = 0 := by
  have := derivAt_append_zeros ([] : List K) n k t
  simp only [List.nil_append] at this
  rw [this]
  simp [derivAt, ofCoeffs_nil]

theorem dot_nil (b : List K) : dot ([] : List K) b = 0 := by simp [dot]

theorem dot_cons (x : K) (a : List K) (y : K) (b : List K) :
    dot (x :: a) (y :: b) = x * y + dot a b := by simp [dot]

theorem dot_replicate_zero (n : ℕ) (a b : List K) :
    dot (List.replicate n 0 ++ a) b = dot a (b.drop n) := by
  induction n generalizing b with
  | zero => simp
  | succ n ih =>
    cases b with
    | nil => simp [dot]
    | cons y b => simp only [List.replicate_succ, List.cons_append, dot_cons, zero_mul, zero_add,
        List.drop_succ_cons, ih]

theorem dot_zeros (n : ℕ) (b : List K) : dot (List.replicate n 0) b = 0 := by
  have := dot_replicate_zero n [] b
  simpa [dot] using this

theorem dot_baseCoeffsLoop (d : ℕ) (t : K) (n j : ℕ) (tp : K) (b : List K) (hb : b.length = n)
    (hj : j + n ≤ kMaxConvolutionSize) :
    dot (baseCoeffsLoop d t n j tp) b =
      ∑ i ∈ Finset.range n, ((j + i).descFactorial d : K) * b.getD i 0 * (tp * t ^ i) := by
  induction n generalizing j tp b with
  | zero => simp [baseCoeffsLoop, dot_nil]
  | succ n ih =>
    cases b with
    | nil => simp at hb
    | cons y b =>
      simp only [baseCoeffsLoop, dot_cons]
      rw [ih (j + 1) (tp * t) b (by simpa using hb) (by omega), Finset.sum_range_succ',
        baseCoeff_eq (by omega), add_comm]
      congr 1
      · apply Finset.sum_congr rfl
        intro i _
        simp only [List.getD_cons_succ]
        rw [show j + 1 + i = j + (i + 1) by omega]
        ring
      · simp; ring

theorem baseCoeffsLoop_length (d : ℕ) (t : K) (n j : ℕ) (tp : K) :
    (baseCoeffsLoop d t n j tp).length = n := by
  induction n generalizing j tp with
  | zero => rfl
  | succ n ih => simp [baseCoeffsLoop, ih]

end CommSemiring

section Row
variable [Field K] [LinearOrder K]

theorem baseCoeffsWithTime_ok (n k : ℕ) (t : K) (hk : k < n) (hn : n ≤ kMaxConvolutionSize) :
    ∃ row, baseCoeffsWithTime n k t = .ok row ∧ row.length = n ∧
      ∀ c : List K, c.length = n →
        dot row c = derivAt c k (if |t| < dblEpsilon then 0 else t) := by
  unfold baseCoeffsWithTime
  rw [Res.check_of (by exact_mod_cast hk), Res.ok_bind, Res.check_of (by omega), Res.ok_bind,
    if_neg (by omega)]
  simp only [Int.toNat_natCast]
  split
  · refine ⟨_, rfl, by simp; omega, ?_⟩
    intro c hc
    rw [List.append_assoc, dot_replicate_zero]
    have hdrop : c.drop k = c.getD k 0 :: c.drop (k + 1) := by
      rw [List.drop_eq_getElem_cons (by omega)]
      simp [List.getD_eq_getElem?_getD, show k < c.length by omega]
    rw [hdrop, List.singleton_append, dot_cons, dot_zeros, add_zero, derivAt_eq_sum,
      baseCoeff_eq (by omega)]
    rw [show c.length - k = (c.length - k - 1) + 1 by omega, Finset.sum_range_succ']
    simp
  · rw [if_neg (by omega)]
    refine ⟨_, rfl, ?_, ?_⟩
    · rw [List.length_append, List.length_append, baseCoeffsLoop_length]
      simp; omega
    · intro c hc
      rw [List.append_assoc, dot_replicate_zero]
      have hdrop : c.drop k = c.getD k 0 :: c.drop (k + 1) := by
        rw [List.drop_eq_getElem_cons (by omega)]
        simp [List.getD_eq_getElem?_getD, show k < c.length by omega]
      rw [hdrop, List.singleton_append, dot_cons,
        dot_baseCoeffsLoop k t _ _ _ _ (by simp; omega) (by omega), derivAt_eq_sum,
        baseCoeff_eq (by omega)]
      rw [show c.length - k = (n - 1 - k) + 1 by omega, Finset.sum_range_succ', add_comm]
      congr 1
      · apply Finset.sum_congr rfl
        intro i _
        simp only [List.getD_eq_getElem?_getD, List.getElem?_drop]
        rw [show k + 1 + i = k + (i + 1) by omega]
        ring
      · simp

end Row
end Verif
