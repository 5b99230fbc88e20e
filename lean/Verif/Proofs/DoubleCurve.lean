import Verif.Proofs.DoubleEval

/-
Lemmas about the value of a polynomial with `double`.
-/
namespace Verif

open Spec

theorem getD_map_fin (c : List ℝ) (j : ℕ) : (c.map Dbl.fin).getD j 0 = .fin (c.getD j 0) := by
  rw [List.getD_eq_getElem?_getD, List.getD_eq_getElem?_getD, List.getElem?_map]
  cases c[j]? <;> rfl

theorem getD_map_abs (c : List ℝ) (j : ℕ) : (c.map abs).getD j 0 = |c.getD j 0| := by
  rw [List.getD_eq_getElem?_getD, List.getD_eq_getElem?_getD, List.getElem?_map]
  cases c[j]? <;> simp

/-- One term: the entry of the table times the coefficient. -/
theorem term_double {d j : ℕ} (hd : d ≤ 22) (hj : j < 22) {x g : ℝ}
    (h : (baseCoeff d j : Dbl) * .fin x = .fin g) : ∃ ρ ε, |ρ| ≤ (1 + u64) ^ (2 * d + 1) - 1 ∧ |ε| ≤ tiny64 ∧
      g = (j.descFactorial d : ℝ) * x * (1 + ρ) + ε := by
  obtain ⟨θ, b1, b2⟩ := baseCoeff_double d j hd hj
  rw [b2] at h
  obtain ⟨δ, ε, e1, e2, e3⟩ := ofReal_factor h
  obtain ⟨ρ, r1, r2⟩ := factor_mul u64_pos.le b1 (factor_one e2)
  refine ⟨ρ, ε, r2, e3, ?_⟩
  rw [e1, ← r1]
  ring

/-- The value of `evaluate` when it is finite. -/
theorem evalCore_double (p : Poly Dbl) (c : List ℝ) (hc : p.coeffs = c.map .fin) (hN : p.N ≤ 22) (d : ℕ)
    (hd : d < p.N) (τ v : ℝ) (h : p.evalCore (.fin τ) d = .fin v) :
    |v - derivAt c d τ| ≤ ((1 + u64) ^ (2 * p.N) - 1) * derivAt (c.map abs) d |τ| + underflowError p.N τ := by
  have hu := u64_pos.le
  have ht := tiny64_pos.le
  have hlen : p.N = c.length := by unfold Poly.N; rw [hc, List.length_map]
  unfold Poly.evalCore at h
  dsimp only at h
  obtain ⟨n, hn⟩ : ∃ n, p.N = d + n + 1 := ⟨p.N - 1 - d, by omega⟩
  rw [show p.N - 1 - d = n by omega, show p.N - 1 = d + n by omega] at h
  obtain ⟨h1, -, h2⟩ := hornerDown_finite _ _ _ _ _ ⟨v, h⟩
  have hterm : ∀ i, i ≤ n → ∃ g ρ ε, (baseCoeff d (d + i) : Dbl) * p.coeffs.getD (d + i) 0 = .fin g ∧
      |ρ| ≤ (1 + u64) ^ (2 * d + 1) - 1 ∧ |ε| ≤ tiny64 ∧
      g = ((d + i).descFactorial d : ℝ) * c.getD (d + i) 0 * (1 + ρ) + ε := by
    intro i hi
    have hf : IsFinite ((baseCoeff d (d + i) : Dbl) * p.coeffs.getD (d + i) 0) := by
      rcases hi.lt_or_eq with hi | hi
      · exact h2 i hi
      · rw [hi]; exact h1
    obtain ⟨g, hg⟩ := hf
    have hg' := hg
    rw [hc, getD_map_fin] at hg'
    obtain ⟨ρ, ε, k1, k2, k3⟩ := term_double (by omega) (by omega) hg'
    exact ⟨g, ρ, ε, hg, k1, k2, k3⟩
  choose! g ρ ε g1 g2 g3 g4 using hterm
  rw [g1 n le_rfl] at h
  obtain ⟨θ, ζ, E, k1, k2, k3, k4⟩ := hornerDown_double _ τ d n g (fun i hi => g1 i hi.le) _ _ h
  set σ : ℕ → ℝ := fun i => if i = n then ζ else θ i with hσ
  have hσb : ∀ i, i ≤ n → |σ i| ≤ (1 + u64) ^ (2 * i + 1) - 1 := by
    intro i hi
    simp only [hσ]
    split_ifs with e
    · subst e
      exact factor_mono hu (by omega) k2
    · exact k1 i
  have hv : v = ∑ i ∈ Finset.range (n + 1), g i * τ ^ i * (1 + σ i) + E := by
    rw [k4, Finset.sum_range_succ]
    have : ∑ i ∈ Finset.range n, g i * τ ^ i * (1 + σ i) = ∑ i ∈ Finset.range n, g i * τ ^ i * (1 + θ i) :=
      Finset.sum_congr rfl fun i hi => by simp only [hσ]; rw [if_neg (Finset.mem_range.mp hi).ne]
    rw [this]
    simp only [hσ, if_true]
    ring
  have hprod : ∀ i, i ≤ n → |(1 + ρ i) * (1 + σ i) - 1| ≤ (1 + u64) ^ (2 * p.N) - 1 := by
    intro i hi
    obtain ⟨w, w1, w2⟩ := factor_mul hu (g2 i hi) (hσb i hi)
    rw [w1, add_sub_cancel_left]
    exact factor_mono hu (by omega) w2
  have hone : ∀ i, i ≤ n → |1 + σ i| ≤ (1 + u64) ^ (2 * p.N) := fun i hi =>
    one_add_le (factor_mono hu (by omega) (hσb i hi))
  have hdiff : v - derivAt c d τ =
      ∑ i ∈ Finset.range (n + 1), (((d + i).descFactorial d : ℝ) * c.getD (d + i) 0 * τ ^ i *
        ((1 + ρ i) * (1 + σ i) - 1)) + ∑ i ∈ Finset.range (n + 1), ε i * τ ^ i * (1 + σ i) + E := by
    rw [hv, derivAt_eq_sum, show c.length - d = n + 1 by omega]
    have e : ∑ i ∈ Finset.range (n + 1), g i * τ ^ i * (1 + σ i) =
        ∑ i ∈ Finset.range (n + 1), ((d + i).descFactorial d : ℝ) * c.getD (d + i) 0 * τ ^ i +
        ∑ i ∈ Finset.range (n + 1), (((d + i).descFactorial d : ℝ) * c.getD (d + i) 0 * τ ^ i *
          ((1 + ρ i) * (1 + σ i) - 1)) + ∑ i ∈ Finset.range (n + 1), ε i * τ ^ i * (1 + σ i) := by
      rw [← Finset.sum_add_distrib, ← Finset.sum_add_distrib]
      refine Finset.sum_congr rfl fun i hi => ?_
      rw [g4 i (Nat.lt_succ_iff.mp (Finset.mem_range.mp hi))]
      ring
    rw [e]
    ring
  rw [hdiff]
  have a1 : |∑ i ∈ Finset.range (n + 1), (((d + i).descFactorial d : ℝ) * c.getD (d + i) 0 * τ ^ i *
        ((1 + ρ i) * (1 + σ i) - 1))| ≤ ((1 + u64) ^ (2 * p.N) - 1) * derivAt (c.map abs) d |τ| := by
    rw [derivAt_eq_sum, List.length_map, show c.length - d = n + 1 by omega, Finset.mul_sum]
    refine (Finset.abs_sum_le_sum_abs _ _).trans (Finset.sum_le_sum fun i hi => ?_)
    rw [abs_mul, abs_mul, abs_mul, abs_pow, getD_map_abs, Nat.abs_cast, mul_comm]
    exact mul_le_mul_of_nonneg_right (hprod i (Nat.lt_succ_iff.mp (Finset.mem_range.mp hi))) (by positivity)
  set Q := (1 + u64) ^ (2 * p.N) with hQ
  have hQ0 : 0 ≤ Q := by positivity
  have a2 : |∑ i ∈ Finset.range (n + 1), ε i * τ ^ i * (1 + σ i)| ≤
      tiny64 * Q * ∑ i ∈ Finset.range p.N, |τ| ^ i := by
    refine (Finset.abs_sum_le_sum_abs _ _).trans ?_
    calc ∑ i ∈ Finset.range (n + 1), |ε i * τ ^ i * (1 + σ i)| ≤
          ∑ i ∈ Finset.range (n + 1), tiny64 * Q * |τ| ^ i := by
            refine Finset.sum_le_sum fun i hi => ?_
            have hi := Nat.lt_succ_iff.mp (Finset.mem_range.mp hi)
            rw [abs_mul, abs_mul, abs_pow]
            have := mul_le_mul (mul_le_mul_of_nonneg_right (g3 i hi) (by positivity : 0 ≤ |τ| ^ i)) (hone i hi)
              (abs_nonneg _) (by positivity)
            linarith
      _ = tiny64 * Q * ∑ i ∈ Finset.range (n + 1), |τ| ^ i := by rw [Finset.mul_sum]
      _ ≤ _ := mul_le_mul_of_nonneg_left (Finset.sum_le_sum_of_subset_of_nonneg (by
            intro i hi
            rw [Finset.mem_range] at hi ⊢
            omega) fun i _ _ => by positivity) (by positivity)
  have a3 : |E| ≤ 2 * tiny64 * Q * ∑ i ∈ Finset.range p.N, |τ| ^ i := by
    refine k3.trans ?_
    refine mul_le_mul (mul_le_mul_of_nonneg_left ?_ (by positivity)) (Finset.sum_le_sum_of_subset_of_nonneg (by
            intro i hi
            rw [Finset.mem_range] at hi ⊢
            omega) fun i _ _ => by positivity) (Finset.sum_nonneg fun i _ => by positivity) (by positivity)
    exact pow_le_pow_right₀ (by linarith) (by omega)
  have a4 := abs_add_le (∑ i ∈ Finset.range (n + 1), (((d + i).descFactorial d : ℝ) * c.getD (d + i) 0 * τ ^ i *
        ((1 + ρ i) * (1 + σ i) - 1)) + ∑ i ∈ Finset.range (n + 1), ε i * τ ^ i * (1 + σ i)) E
  have a5 := abs_add_le (∑ i ∈ Finset.range (n + 1), (((d + i).descFactorial d : ℝ) * c.getD (d + i) 0 * τ ^ i *
        ((1 + ρ i) * (1 + σ i) - 1))) (∑ i ∈ Finset.range (n + 1), ε i * τ ^ i * (1 + σ i))
  unfold underflowError
  rw [← hQ]
  linarith

theorem round64_le (x : ℝ) : |round64 x| ≤ (1 + u64) * (|x| + tiny64) := by
  obtain ⟨δ, ε, h1, h2, h3⟩ := round64_factor x
  rw [h1]
  refine (abs_add_le _ _).trans ?_
  rw [abs_mul]
  have h4 := one_add_le (factor_one h2)
  rw [pow_one] at h4
  have h5 := mul_le_mul_of_nonneg_left h4 (abs_nonneg x)
  have := mul_nonneg u64_pos.le tiny64_pos.le
  nlinarith

/-- Horner's scheme without overflow. -/
theorem hornerDown_range (f : ℕ → Dbl) (τ T : ℝ) (hT : 1 ≤ T) (hτ : |τ| ≤ T) (d n : ℕ) (g : ℕ → ℝ)
    (hg : ∀ i < n, f (d + i) = .fin (g i)) : ∀ a : ℝ,
    (1 + u64) ^ (2 * n) * (|a| * T ^ n + ∑ i ∈ Finset.range n, (|g i| + 2 * tiny64) * T ^ i) ≤
      (2 : ℝ) ^ (1023 : ℤ) → IsFinite (hornerDown f (.fin τ) d n (.fin a)) := by
  have hu := u64_pos.le
  have ht := tiny64_pos.le
  induction n with
  | zero => exact fun a _ => ⟨a, rfl⟩
  | succ n ih =>
    intro a ha
    rw [hornerDown, hg n (Nat.lt_succ_self n), fin_mul]
    have hP : (1 : ℝ) ≤ (1 + u64) ^ (2 * n) := one_le_pow₀ (by linarith)
    have hTn : 1 ≤ T ^ n := one_le_pow₀ hT
    have hS : 0 ≤ ∑ i ∈ Finset.range n, (|g i| + 2 * tiny64) * T ^ i :=
      Finset.sum_nonneg fun i _ => by positivity
    rw [Finset.sum_range_succ, show 2 * (n + 1) = 2 * n + 1 + 1 by ring, pow_succ, pow_succ, pow_succ] at ha
    set P := (1 + u64) ^ (2 * n)
    set S := ∑ i ∈ Finset.range n, (|g i| + 2 * tiny64) * T ^ i
    generalize hM : (2 : ℝ) ^ (1023 : ℤ) = M at *
    set w := (1 + u64) * (1 + u64) with hw
    have hw1 : 1 ≤ w := by nlinarith
    -- the new value
    have hat : |a * τ| ≤ |a| * T := by
      rw [abs_mul]
      exact mul_le_mul_of_nonneg_left hτ (abs_nonneg a)
    set B := |a| * T + |g n| + 2 * tiny64 with hB
    have hB0 : 0 ≤ B := by positivity
    have hmain : P * (w * B * T ^ n + w * S) ≤ M := by
      have e : P * (w * B * T ^ n + w * S) =
          P * (1 + u64) * (1 + u64) * (|a| * (T ^ n * T) + (S + (|g n| + 2 * tiny64) * T ^ n)) := by
        rw [hB, hw]; ring
      rw [e]
      exact ha
    have hwB : w * B ≤ M := by
      have h1 : w * B ≤ w * B * T ^ n := le_mul_of_one_le_right (by positivity) hTn
      have h2 : w * B * T ^ n + w * S ≤ P * (w * B * T ^ n + w * S) := le_mul_of_one_le_left (by positivity) hP
      have h3 : 0 ≤ w * S := by positivity
      linarith
    have hBM : B ≤ M := (le_mul_of_one_le_left hB0 hw1).trans hwB
    have f1 : Dbl.ofReal (a * τ) = .fin (round64 (a * τ)) := ofReal_half (by
      rw [hM]
      have := abs_nonneg (g n)
      linarith)
    have r1 := round64_le (a * τ)
    have hsum : |round64 (a * τ) + g n| ≤ (1 + u64) * B - tiny64 := by
      refine (abs_add_le _ _).trans ?_
      have h1 : (1 + u64) * (|a * τ| + tiny64) ≤ (1 + u64) * (|a| * T + tiny64) :=
        mul_le_mul_of_nonneg_left (by linarith) (by linarith)
      have h2 := mul_nonneg hu (abs_nonneg (g n))
      have h3 := mul_nonneg hu ht
      rw [hB]
      nlinarith
    have f2 : Dbl.ofReal (round64 (a * τ) + g n) = .fin (round64 (round64 (a * τ) + g n)) := ofReal_half (by
      rw [hM]
      have : (1 + u64) * B ≤ w * B := by
        rw [hw]
        nlinarith [mul_nonneg hu hB0]
      linarith)
    rw [f1, fin_add, f2]
    refine ih (fun i hi => hg i (Nat.lt_succ_of_lt hi)) _ ?_
    have r2 := round64_le (round64 (a * τ) + g n)
    have h5 : |round64 (round64 (a * τ) + g n)| ≤ w * B := by
      refine r2.trans ?_
      have := mul_le_mul_of_nonneg_left (by linarith : |round64 (a * τ) + g n| + tiny64 ≤ (1 + u64) * B)
        (by linarith : 0 ≤ 1 + u64)
      refine this.trans (le_of_eq ?_)
      rw [hw]; ring
    refine (mul_le_mul_of_nonneg_left ?_ (by linarith)).trans hmain
    have h6 : |round64 (round64 (a * τ) + g n)| * T ^ n ≤ w * B * T ^ n :=
      mul_le_mul_of_nonneg_right h5 (by positivity)
    have h7 : S ≤ w * S := le_mul_of_one_le_left hS hw1
    linarith

/-- `evaluate` without overflow. -/
theorem evalCore_range (p : Poly Dbl) (c : List ℝ) (hc : p.coeffs = c.map .fin) (hN : p.N ≤ 22) (d : ℕ)
    (hd : d < p.N) (τ T : ℝ) (hT1 : 1 ≤ T) (hτ : |τ| ≤ T) (hT2 : T ≤ 2 ^ 40)
    (hS : derivAt (c.map abs) d T ≤ (2 : ℝ) ^ (1021 : ℤ)) : IsFinite (p.evalCore (.fin τ) d) := by
  have hu := u64_pos.le
  have ht := tiny64_pos.le
  have hlen : p.N = c.length := by unfold Poly.N; rw [hc, List.length_map]
  obtain ⟨n, hn⟩ : ∃ n, p.N = d + n + 1 := ⟨p.N - 1 - d, by omega⟩
  have hM : (2 : ℝ) ^ (1023 : ℤ) = 4 * (2 : ℝ) ^ (1021 : ℤ) := by
    rw [show (1023 : ℤ) = 2 + 1021 by norm_num, zpow_add₀ (by norm_num)]
    norm_num
  rw [derivAt_eq_sum, List.length_map, show c.length - d = n + 1 by omega] at hS
  have hterm0 : ∀ i, 0 ≤ ((d + i).descFactorial d : ℝ) * |c.getD (d + i) 0| := fun i => by positivity
  have hle : ∀ i, i ≤ n → ((d + i).descFactorial d : ℝ) * |c.getD (d + i) 0| ≤ (2 : ℝ) ^ (1021 : ℤ) := by
    intro i hi
    refine le_trans ?_ hS
    have h1 : ((d + i).descFactorial d : ℝ) * |c.getD (d + i) 0| ≤
        ((d + i).descFactorial d : ℝ) * (c.map abs).getD (d + i) 0 * T ^ i := by
      rw [getD_map_abs]
      exact le_mul_of_one_le_right (hterm0 i) (one_le_pow₀ hT1)
    refine h1.trans (Finset.single_le_sum (f := fun i => ((d + i).descFactorial d : ℝ) *
      (c.map abs).getD (d + i) 0 * T ^ i) (fun k _ => ?_) (Finset.mem_range.mpr (Nat.lt_succ_of_le hi)))
    rw [getD_map_abs]
    have := hterm0 k
    positivity
  have hterm : ∀ i, i ≤ n → ∃ g, (baseCoeff d (d + i) : Dbl) * p.coeffs.getD (d + i) 0 = .fin g ∧
      |g| ≤ (1 + u64) ^ (2 * d + 1) * (((d + i).descFactorial d : ℝ) * |c.getD (d + i) 0|) + tiny64 := by
    intro i hi
    obtain ⟨θ, b1, b2⟩ := baseCoeff_double d (d + i) (by omega) (by omega)
    have hf : (baseCoeff d (d + i) : Dbl) * p.coeffs.getD (d + i) 0 =
        .fin (round64 (((d + i).descFactorial d : ℝ) * (1 + θ) * c.getD (d + i) 0)) := by
      rw [hc, getD_map_fin, b2, fin_mul]
      refine ofReal_half ?_
      have e : |((d + i).descFactorial d : ℝ) * (1 + θ) * c.getD (d + i) 0| =
          |1 + θ| * (((d + i).descFactorial d : ℝ) * |c.getD (d + i) 0|) := by
        rw [abs_mul, abs_mul, Nat.abs_cast]; ring
      rw [e, hM]
      have h1 := (one_add_le b1).trans (pow44_le (by omega))
      have h2 := mul_le_mul h1 (hle i hi) (hterm0 i) (by norm_num)
      have := zpow2_pos 1021
      clear hM
      generalize (2 : ℝ) ^ (1021 : ℤ) = A at *
      linarith
    have hf' := hf
    rw [hc, getD_map_fin] at hf'
    obtain ⟨ρ, ε, k1, k2, k3⟩ := term_double (by omega) (by omega) hf'
    refine ⟨_, hf, ?_⟩
    rw [k3]
    refine (abs_add_le _ _).trans (add_le_add ?_ k2)
    rw [abs_mul, abs_mul, Nat.abs_cast, mul_comm]
    exact mul_le_mul_of_nonneg_right (one_add_le k1) (hterm0 i)
  choose! g g1 g2 using hterm
  unfold Poly.evalCore
  dsimp only
  rw [show p.N - 1 - d = n by omega, show p.N - 1 = d + n by omega, g1 n le_rfl]
  refine hornerDown_range _ τ T hT1 hτ d n g (fun i hi => g1 i hi.le) (g n) ?_
  have hT0 : 0 ≤ T := by linarith
  have e1 : |g n| * T ^ n + ∑ i ∈ Finset.range n, (|g i| + 2 * tiny64) * T ^ i ≤
      ∑ i ∈ Finset.range (n + 1), (|g i| + 2 * tiny64) * T ^ i := by
    rw [Finset.sum_range_succ]
    have : 0 ≤ 2 * tiny64 * T ^ n := by positivity
    linarith
  have e2 : ∑ i ∈ Finset.range (n + 1), (|g i| + 2 * tiny64) * T ^ i ≤
      (1 + u64) ^ (2 * d + 1) * (2 : ℝ) ^ (1021 : ℤ) + 1 := by
    have e3 : ∑ i ∈ Finset.range (n + 1), (|g i| + 2 * tiny64) * T ^ i ≤
        ∑ i ∈ Finset.range (n + 1), ((1 + u64) ^ (2 * d + 1) *
          (((d + i).descFactorial d : ℝ) * (c.map abs).getD (d + i) 0 * T ^ i) + 1 / 22) := by
      refine Finset.sum_le_sum fun i hi => ?_
      have hi := Nat.lt_succ_iff.mp (Finset.mem_range.mp hi)
      rw [getD_map_abs]
      have q1 := mul_le_mul_of_nonneg_right (g2 i hi) (by positivity : 0 ≤ T ^ i)
      have q2 : 3 * tiny64 * T ^ i ≤ 1 / 22 := by
        have r1 : T ^ i ≤ (2 ^ 40) ^ 21 :=
          (pow_le_pow_left₀ hT0 hT2 i).trans (pow_le_pow_right₀ (by norm_num) (by omega))
        have r2 : (((2 : ℝ) ^ 40) ^ 21) = (2 : ℝ) ^ (840 : ℤ) := by
          rw [← pow_mul, ← zpow_natCast]
          norm_num
        have r3 : tiny64 * (2 : ℝ) ^ (840 : ℤ) = (2 : ℝ) ^ (-235 : ℤ) := by
          unfold tiny64
          rw [← zpow_add₀ (by norm_num)]
          norm_num
        have r4 : (2 : ℝ) ^ (-235 : ℤ) ≤ (2 : ℝ) ^ (-10 : ℤ) := zpow_le_zpow_right₀ (by norm_num) (by norm_num)
        have r5 : (2 : ℝ) ^ (-10 : ℤ) = 1 / 1024 := by norm_num
        rw [r2] at r1
        have r6 := mul_le_mul_of_nonneg_left r1 ht
        rw [r3] at r6
        rw [r5] at r4
        clear r1 r2 r3 r5 hM hS hle
        generalize (2 : ℝ) ^ (-235 : ℤ) = z at *
        linarith
      clear hM hS hle
      nlinarith
    refine e3.trans ?_
    rw [Finset.sum_add_distrib, ← Finset.mul_sum, Finset.sum_const, Finset.card_range, nsmul_eq_mul]
    refine add_le_add (mul_le_mul_of_nonneg_left hS (by positivity)) ?_
    have : ((n + 1 : ℕ) : ℝ) ≤ 22 := by
      have : n + 1 ≤ 22 := by omega
      exact_mod_cast this
    clear hM hS hle e3
    linarith
  have e4 := mul_le_mul_of_nonneg_left (e1.trans e2) (by positivity : 0 ≤ (1 + u64) ^ (2 * n))
  refine e4.trans ?_
  have e5 : (1 + u64) ^ (2 * n) * ((1 + u64) ^ (2 * d + 1) * (2 : ℝ) ^ (1021 : ℤ) + 1) =
      (1 + u64) ^ (2 * n + (2 * d + 1)) * (2 : ℝ) ^ (1021 : ℤ) + (1 + u64) ^ (2 * n) := by
    rw [pow_add]; ring
  rw [e5, hM]
  have e6 := pow44_le (m := 2 * n + (2 * d + 1)) (by omega)
  have e7 := pow44_le (m := 2 * n) (by omega)
  have e8 : (1 : ℝ) ≤ (2 : ℝ) ^ (1021 : ℤ) := by
    have := zpow_le_zpow_right₀ (by norm_num : (1 : ℝ) ≤ 2) (by norm_num : (0 : ℤ) ≤ 1021)
    rwa [zpow_zero] at this
  clear hM e5 e4
  generalize (2 : ℝ) ^ (1021 : ℤ) = A at *
  have := mul_le_mul_of_nonneg_right e6 (by linarith : 0 ≤ A)
  linarith

end Verif
