import Verif.Proofs.Double
import Verif.Proofs.RoundedTrajectory

/-
Lemmas about the evaluation with `double`.
-/
namespace Verif

open Spec

theorem hornerDown_finite (f : ℕ → Dbl) (t : Dbl) (d n : ℕ) : ∀ acc : Dbl, IsFinite (hornerDown f t d n acc) →
    IsFinite acc ∧ (0 < n → IsFinite t) ∧ ∀ i < n, IsFinite (f (d + i)) := by
  induction n with
  | zero => exact fun acc h => ⟨h, fun h => absurd h (lt_irrefl 0), fun i hi => absurd hi (Nat.not_lt_zero i)⟩
  | succ n ih =>
    intro acc h
    obtain ⟨⟨s, hs⟩, -, h2⟩ := ih (acc * t + f (d + n)) h
    obtain ⟨m, g, e1, e2, -⟩ := add_eq_fin hs
    obtain ⟨a, τ, e3, e4, -⟩ := mul_eq_fin e1
    refine ⟨⟨a, e3⟩, fun _ => ⟨τ, e4⟩, fun i hi => ?_⟩
    rcases Nat.lt_succ_iff_lt_or_eq.mp hi with hi | hi
    · exact h2 i hi
    · exact ⟨g, by rw [hi]; exact e2⟩

theorem factor_one {δ : ℝ} (h : |δ| ≤ u64) : |δ| ≤ (1 + u64) ^ 1 - 1 := by rwa [pow_one, add_sub_cancel_left]

theorem one_add_le {m : ℕ} {δ : ℝ} (h : |δ| ≤ (1 + u64) ^ m - 1) : |1 + δ| ≤ (1 + u64) ^ m := by
  refine (abs_add_le _ _).trans ?_
  rw [abs_one]
  linarith

/-- Horner's scheme with overflow and underflow: when the result is finite. -/
theorem hornerDown_double (f : ℕ → Dbl) (τ : ℝ) (d n : ℕ) (g : ℕ → ℝ) (hg : ∀ i < n, f (d + i) = .fin (g i)) :
    ∀ a z, hornerDown f (.fin τ) d n (.fin a) = .fin z → ∃ (θ : ℕ → ℝ) (ζ E : ℝ),
      (∀ i, |θ i| ≤ (1 + u64) ^ (2 * i + 1) - 1) ∧ |ζ| ≤ (1 + u64) ^ (2 * n) - 1 ∧
      |E| ≤ 2 * tiny64 * (1 + u64) ^ (2 * n) * ∑ i ∈ Finset.range n, |τ| ^ i ∧
      z = a * τ ^ n * (1 + ζ) + ∑ i ∈ Finset.range n, g i * τ ^ i * (1 + θ i) + E := by
  have hu := u64_pos.le
  have ht := tiny64_pos.le
  induction n with
  | zero =>
    intro a z h
    refine ⟨fun _ => 0, 0, 0, fun i => factor_zero hu _, factor_zero hu _, by simp, ?_⟩
    rw [hornerDown, Dbl.fin.injEq] at h
    simp [h]
  | succ n ih =>
    intro a z h
    rw [hornerDown, hg n (Nat.lt_succ_self n)] at h
    obtain ⟨⟨s, hs⟩, -, -⟩ := hornerDown_finite f (.fin τ) d n _ ⟨z, h⟩
    rw [hs] at h
    obtain ⟨θ, ζ, E, h1, h2, h3, h4⟩ := ih (fun i hi => hg i (Nat.lt_succ_of_lt hi)) s z h
    obtain ⟨m, g', e1, e2, e3⟩ := add_eq_fin hs
    rw [Dbl.fin.injEq] at e2
    subst e2
    obtain ⟨δ₁, ε₁, f1, b1, c1⟩ := ofReal_factor e1
    obtain ⟨δ₂, ε₂, f2, b2, c2⟩ := ofReal_factor e3
    obtain ⟨x, ex, bx⟩ := factor_mul hu (factor_one b2) h2
    obtain ⟨y, ey, by'⟩ := factor_mul hu (factor_one b1) bx
    refine ⟨fun i => if i = n then x else θ i, y, (ε₁ * (1 + δ₂) + ε₂) * τ ^ n * (1 + ζ) + E, ?_, ?_, ?_, ?_⟩
    · intro i
      dsimp only
      split_ifs with hi
      · subst hi
        exact factor_mono hu (by omega) bx
      · exact h1 i
    · exact factor_mono hu (by omega) by'
    · rw [Finset.sum_range_succ]
      refine (abs_add_le _ _).trans ?_
      rw [abs_mul, abs_mul, abs_pow]
      have k1 : |ε₁ * (1 + δ₂) + ε₂| ≤ 2 * tiny64 * (1 + u64) := by
        refine (abs_add_le _ _).trans ?_
        rw [abs_mul]
        have k2 := one_add_le (factor_one b2)
        rw [pow_one] at k2
        have k3 := mul_le_mul c1 k2 (abs_nonneg _) ht
        nlinarith
      have k4 := one_add_le h2
      have hp : 1 ≤ (1 + u64) ^ (2 * n) := one_le_pow₀ (by linarith)
      set P := (1 + u64) ^ (2 * n) with hP
      set S := ∑ i ∈ Finset.range n, |τ| ^ i
      have hS : 0 ≤ S := Finset.sum_nonneg fun i _ => by positivity
      have hT : 0 ≤ |τ| ^ n := by positivity
      have k5 : |ε₁ * (1 + δ₂) + ε₂| * |τ| ^ n * |1 + ζ| ≤ 2 * tiny64 * (1 + u64) * |τ| ^ n * P :=
        mul_le_mul (mul_le_mul_of_nonneg_right k1 hT) k4 (abs_nonneg _) (by positivity)
      have k6 : (1 + u64) ^ (2 * (n + 1)) = (1 + u64) * (1 + u64) * P := by
        rw [hP, show 2 * (n + 1) = 2 * n + 1 + 1 by ring, pow_succ, pow_succ]
        ring
      rw [k6]
      have q1 : 2 * tiny64 * (1 + u64) * |τ| ^ n * P ≤ 2 * tiny64 * ((1 + u64) * (1 + u64) * P) * |τ| ^ n := by
        have : 0 ≤ 2 * tiny64 * |τ| ^ n * P * (1 + u64) := by positivity
        nlinarith
      have q2 : 2 * tiny64 * P * S ≤ 2 * tiny64 * ((1 + u64) * (1 + u64) * P) * S := by
        have h5 : 0 ≤ 2 * tiny64 * P * S := by positivity
        have h6 : 1 ≤ (1 + u64) * (1 + u64) := by nlinarith
        have := mul_le_mul_of_nonneg_left h6 h5
        linarith
      linarith
    · rw [h4, f2, f1, Finset.sum_range_succ]
      dsimp only
      have hs : ∑ i ∈ Finset.range n, g i * τ ^ i * (1 + if i = n then x else θ i) =
          ∑ i ∈ Finset.range n, g i * τ ^ i * (1 + θ i) :=
        Finset.sum_congr rfl fun i hi => by rw [if_neg (Finset.mem_range.mp hi).ne]
      rw [if_pos rfl, hs, ← ey, ← ex]
      ring

theorem pow44_le {m : ℕ} (h : m ≤ 44) : (1 + u64) ^ m ≤ 2 := by
  have h1 : (1 + u64) ^ m ≤ (1 + u64) ^ 44 := pow_le_pow_right₀ (by linarith [u64_pos]) h
  refine h1.trans ?_
  unfold u64
  norm_num

theorem round64_nat (n : ℕ) : round64 (n : ℝ) = round53 n := by
  rcases Nat.eq_zero_or_pos n with h | h
  · subst h
    rw [Nat.cast_zero, round64_zero, rnd_zero round53_rounding]
  · refine round64_one_le ?_
    rw [abs_of_nonneg (by positivity)]
    exact_mod_cast h

theorem round53_one : round53 1 = 1 := by
  have := round53_fix (m := 1) (e := 0) (by decide)
  simpa using this

theorem le_half_range {x : ℝ} (h : |x| ≤ 2 ^ 200) : |x| ≤ (2 : ℝ) ^ (1023 : ℤ) := by
  refine h.trans ?_
  rw [← zpow_natCast]
  exact zpow_le_zpow_right₀ (by norm_num) (by norm_num)

theorem baseRow_succ_getD {K : Type} [Zero K] [One K] [Mul K] [NatCast K] (size d j : ℕ) (hj : j < size) :
    (baseRow size (d + 1) : List K).getD j 0 =
      if d ≤ j then ((j - d : ℕ) : K) * (baseRow size d).getD j 0 else 0 := by
  rw [baseRow, List.getD_eq_getElem?_getD, List.getElem?_map, List.getElem?_range hj, Option.map_some,
    Option.getD_some]

/-- The table of coefficients: neither overflow nor underflow. -/
theorem baseRow_double (d : ℕ) (hd : d ≤ 22) (j : ℕ) (hj : j < 22) :
    (baseRow 22 d : List Dbl).getD j 0 = .fin ((baseRow 22 d : List (Fl round53)).getD j 0).val ∧
      (((baseRow 22 d : List (Fl round53)).getD j 0).val = 0 ∨
        1 ≤ ((baseRow 22 d : List (Fl round53)).getD j 0).val) := by
  induction d with
  | zero =>
    simp only [baseRow, List.getD_eq_getElem?_getD, List.getElem?_replicate, if_pos hj, Option.getD_some]
    exact ⟨rfl, Or.inr le_rfl⟩
  | succ d ih =>
    obtain ⟨ih1, ih2⟩ := ih (by omega)
    obtain ⟨θ, b1, b2⟩ := baseRow_rounded round53_rounding 22 d j hj
    set w := ((baseRow 22 d : List (Fl round53)).getD j 0).val with hw
    have hwn : 0 ≤ w := by rcases ih2 with h | h <;> linarith
    have hwb : w ≤ 21 ^ 22 * 2 := by
      have h1 : 1 + θ ≤ 2 := (le_abs_self _).trans ((one_add_le b1).trans (pow44_le (by omega)))
      have h2 : (j.descFactorial d : ℝ) ≤ 21 ^ 22 := by
        have := (Nat.descFactorial_le_pow j d).trans (Nat.pow_le_pow_left (by omega : j ≤ 21) d)
        have := this.trans (Nat.pow_le_pow_right (by norm_num) (by omega : d ≤ 22))
        exact_mod_cast this
      rw [b2]
      by_cases h0 : 0 ≤ 1 + θ
      · exact mul_le_mul h2 h1 h0 (by positivity)
      · have : (j.descFactorial d : ℝ) * (1 + θ) ≤ 0 := mul_nonpos_of_nonneg_of_nonpos (by positivity) (by linarith)
        refine this.trans (by norm_num)
    rw [baseRow_succ_getD _ _ _ hj, baseRow_succ_getD _ _ _ hj]
    split_ifs with hdj
    · rw [ih1]
      change Dbl.ofReal ((j - d : ℕ) : ℝ) * Dbl.fin w = .fin (round53 (round53 ((j - d : ℕ) : ℝ) * w)) ∧
        (round53 (round53 ((j - d : ℕ) : ℝ) * w) = 0 ∨ 1 ≤ round53 (round53 ((j - d : ℕ) : ℝ) * w))
      have hn : ((j - d : ℕ) : ℝ) ≤ 22 := by
        have : j - d ≤ 22 := by omega
        exact_mod_cast this
      have hr : round53 ((j - d : ℕ) : ℝ) = ((j - d : ℕ) : ℝ) := by
        have := round53_fix (m := ((j - d : ℕ) : ℤ)) (e := 0) (by
          rw [abs_of_nonneg (by positivity)]
          have : ((j - d : ℕ) : ℤ) ≤ 22 := by omega
          refine lt_of_le_of_lt this (by decide))
        rwa [zpow_zero, mul_one, Int.cast_natCast] at this
      have h0 : (0 : ℝ) ≤ ((j - d : ℕ) : ℝ) := by positivity
      rw [ofReal_half (le_half_range (by rw [abs_of_nonneg h0]; exact hn.trans (by norm_num))), round64_nat, hr, fin_mul]
      have hprod : ((j - d : ℕ) : ℝ) * w = 0 ∨ 1 ≤ ((j - d : ℕ) : ℝ) * w := by
        rcases ih2 with h | h
        · left; rw [h, mul_zero]
        · rcases Nat.eq_zero_or_pos (j - d) with h' | h'
          · left; rw [h', Nat.cast_zero, zero_mul]
          · right
            have : (1 : ℝ) ≤ ((j - d : ℕ) : ℝ) := by exact_mod_cast h'
            nlinarith
      have hb : |((j - d : ℕ) : ℝ) * w| ≤ 2 ^ 200 := by
        rw [abs_of_nonneg (mul_nonneg h0 hwn)]
        calc ((j - d : ℕ) : ℝ) * w ≤ 22 * (21 ^ 22 * 2) := mul_le_mul hn hwb hwn (by norm_num)
          _ ≤ 2 ^ 200 := by norm_num
      rw [ofReal_half (le_half_range hb)]
      rcases hprod with h | h
      · rw [h, round64_zero, rnd_zero round53_rounding]
        exact ⟨rfl, Or.inl rfl⟩
      · rw [round64_one_le (h.trans (le_abs_self _))]
        refine ⟨rfl, Or.inr ?_⟩
        have := round53_rounding.mono h
        rwa [round53_one] at this
    · exact ⟨rfl, Or.inl rfl⟩

theorem baseCoeff_double (d j : ℕ) (hd : d ≤ 22) (hj : j < 22) : ∃ θ, |θ| ≤ (1 + u64) ^ (2 * d) - 1 ∧
    (baseCoeff d j : Dbl) = .fin ((j.descFactorial d : ℝ) * (1 + θ)) := by
  obtain ⟨θ, b1, b2⟩ := baseRow_rounded round53_rounding 22 d j hj
  refine ⟨θ, b1, ?_⟩
  unfold baseCoeff
  rw [show kMaxConvolutionSize = 22 from rfl, (baseRow_double d hd j hj).1, b2]

end Verif
