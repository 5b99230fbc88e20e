import Verif.Proofs.DoublePolynomials
import Verif.Props.Double

/-
Property C144: sums, products and scaled polynomials with overflow, underflow, infinities and NaN.

`Spec.Nearest x v` says that `v` is a double and none is nearer to `x`, `Spec.IsFinite` that a number is neither
infinite nor NaN. `ofCoeffs c` is Mathlib's polynomial with the coefficients `c`; `u64` is `2^-53`, `tiny64`
is `2^-1075`.
-/
namespace Verif

open Spec

/-- **C144**, sums. A coefficient of the sum is a finite number only if both coefficients are, and then it is the double
nearest to their sum; it is finite unless that is above the range of the format; NaN stays. -/
theorem C144_sum (p q : Poly Dbl) (hpq : p.N = q.N) :
    ∃ r, p.add q = .ok r ∧ r.N = p.N ∧ ∀ (i : ℕ) a b, p.coeffs[i]? = some a → q.coeffs[i]? = some b →
      ∃ z, r.coeffs[i]? = some z ∧
        (∀ v, z = .fin v → ∃ x y, a = .fin x ∧ b = .fin y ∧ Nearest (x + y) v) ∧
        (∀ x y, a = .fin x → b = .fin y → |x + y| < (2 : ℝ) ^ (1024 : ℤ) - (2 : ℝ) ^ (970 : ℤ) → IsFinite z) ∧
        (a = .nan ∨ b = .nan → z = .nan) := by
  refine ⟨_, if_pos hpq, ?_, fun i a b ha hb => ⟨a + b, ?_, fun v hv => ?_, ?_, ?_⟩⟩
  · unfold Poly.N at hpq ⊢
    simp [← hpq]
  · rw [List.getElem?_zipWith, ha, hb]
  · obtain ⟨x, y, h1, h2, h3⟩ := add_eq_fin hv
    exact ⟨x, y, h1, h2, ofReal_nearest h3⟩
  · rintro x y rfl rfl h
    exact ⟨_, ofReal_finite h⟩
  · rintro (rfl | rfl)
    · exact nan_add _
    · cases a <;> rfl

/-- **C144**, multiples, in the same way. -/
theorem C144_multiple (p : Poly Dbl) (f : Dbl) :
    (p.smul f).N = p.N ∧ ∀ (i : ℕ) a, p.coeffs[i]? = some a → ∃ z, (p.smul f).coeffs[i]? = some z ∧
      (∀ v, z = .fin v → ∃ x y, a = .fin x ∧ f = .fin y ∧ Nearest (x * y) v) ∧
      (∀ x y, a = .fin x → f = .fin y → |x * y| < (2 : ℝ) ^ (1024 : ℤ) - (2 : ℝ) ^ (970 : ℤ) → IsFinite z) ∧
      (a = .nan ∨ f = .nan → z = .nan) := by
  refine ⟨by simp [Poly.smul, Poly.N], fun i a ha => ⟨a * f, ?_, fun v hv => ?_, ?_, ?_⟩⟩
  · show (p.coeffs.map (· * f))[i]? = _
    rw [List.getElem?_map, ha]
    rfl
  · obtain ⟨x, y, h1, h2, h3⟩ := mul_eq_fin hv
    exact ⟨x, y, h1, h2, ofReal_nearest h3⟩
  · rintro x y rfl rfl h
    exact ⟨_, ofReal_finite h⟩
  · rintro (rfl | rfl)
    · exact nan_mul _
    · exact mul_nan _

/-- **C144**, an offset is added to the first coefficient in the same way; the others stay. -/
theorem C144_offset (p : Poly Dbl) (o : Dbl) :
    (p.offset o).N = p.N ∧ (∀ i, 0 < i → (p.offset o).coeffs[i]? = p.coeffs[i]?) ∧
      ∀ a, p.coeffs[0]? = some a → ∃ z, (p.offset o).coeffs[0]? = some z ∧
        (∀ v, z = .fin v → ∃ x y, a = .fin x ∧ o = .fin y ∧ Nearest (x + y) v) ∧
        ∀ x y, a = .fin x → o = .fin y → |x + y| < (2 : ℝ) ^ (1024 : ℤ) - (2 : ℝ) ^ (970 : ℤ) → IsFinite z := by
  rcases p with ⟨_ | ⟨c, cs⟩⟩
  · exact ⟨rfl, fun _ _ => rfl, fun a h => by simp at h⟩
  · refine ⟨rfl, fun i hi => ?_, fun a ha => ⟨c + o, rfl, fun v hv => ?_, ?_⟩⟩
    · obtain ⟨j, rfl⟩ : ∃ j, i = j + 1 := ⟨i - 1, by omega⟩
      rfl
    · obtain rfl : c = a := by simpa using ha
      obtain ⟨x, y, h1, h2, h3⟩ := add_eq_fin hv
      exact ⟨x, y, h1, h2, ofReal_nearest h3⟩
    · obtain rfl : c = a := by simpa using ha
      rintro x y rfl rfl h
      exact ⟨_, ofReal_finite h⟩

/-- **C144**, an offset changes no derivative, at any time, not even by rounding or when it is infinite or NaN. -/
theorem C144_offset_derivatives (p : Poly Dbl) (o t : Dbl) (d : ℤ) (hd : 0 < d) :
    (p.offset o).evaluate t d = p.evaluate t d := by
  obtain ⟨hN, hc, -⟩ := C144_offset p o
  unfold Poly.evaluate
  rw [hN]
  split_ifs with h1 h2
  · rfl
  · rfl
  · obtain ⟨k, rfl⟩ : ∃ k : ℕ, d = k + 1 := ⟨(d - 1).toNat, by omega⟩
    have hk : ((k : ℤ) + 1).toNat = k + 1 := by omega
    have hterm : ∀ j, 0 < j → (p.offset o).coeffs.getD j 0 = p.coeffs.getD j 0 := by
      intro j hj
      rw [List.getD_eq_getElem?_getD, hc j hj, ← List.getD_eq_getElem?_getD]
    have hcongr : ∀ (f g : ℕ → Dbl) (n : ℕ) (acc : Dbl), (∀ j, 0 < j → f j = g j) →
        hornerDown f t (k + 1) n acc = hornerDown g t (k + 1) n acc := by
      intro f g n
      induction n with
      | zero => intro acc _; rfl
      | succ n ih =>
        intro acc h
        rw [hornerDown, hornerDown, ih _ h, h _ (by omega)]
    unfold Poly.evalCore
    dsimp only
    rw [hk, hN, hterm (p.N - 1) (by omega)]
    congr 1
    exact hcongr _ _ _ _ fun j hj => by rw [hterm j hj]

/-- **C144**, derivatives. The table of coefficients is exact, and a coefficient of the `d`-th derivative is finite only
if that of the polynomial is, and then is the double nearest to `j (j - 1) … (j - d + 1)` times it. -/
theorem C144_derivative (p : Poly Dbl) (hN : p.N ≤ 22) (d : ℕ) (hd0 : 0 < d) (hd : d < p.N) :
    ∃ l, p.getCoefficients d = .ok l ∧ l.length = p.N ∧
      (∀ i, p.N - d ≤ i → i < p.N → l[i]? = some (.fin 0)) ∧
      ∀ (i : ℕ) a, p.coeffs[i + d]? = some a → ∃ z, l[i]? = some z ∧
        (∀ v, z = .fin v → ∃ x, a = .fin x ∧ Nearest (x * (i + d).descFactorial d) v) ∧
        (∀ x, a = .fin x → |x * (i + d).descFactorial d| < (2 : ℝ) ^ (1024 : ℤ) - (2 : ℝ) ^ (970 : ℤ) → IsFinite z) ∧
        (a = .nan → z = .nan) := by
  refine ⟨((List.range (p.N - d)).map fun i => p.coeffs.getD (d + i) 0 * baseCoeff d (d + i)) ++ List.replicate d 0,
    ?_, ?_, fun i h1 h2 => ?_, fun i a ha => ?_⟩
  · unfold Poly.getCoefficients
    rw [Res.check_of (by exact_mod_cast hd.le), Res.ok_bind, if_neg (by omega),
      if_neg (by unfold kMaxConvolutionSize; omega)]
    simp only [Int.toNat_natCast]
    rfl
  · simp only [List.length_append, List.length_map, List.length_range, List.length_replicate]
    omega
  · rw [List.getElem?_append_right (by simpa using h1), List.getElem?_replicate, if_pos (by simp; omega)]
    rfl
  · have hi : i + d < p.N := (List.getElem?_eq_some_iff.mp ha).1
    refine ⟨a * .fin ((i + d).descFactorial d : ℝ), ?_, fun v hv => ?_, ?_, ?_⟩
    · rw [List.getElem?_append_left (by simp; omega), List.getElem?_map, List.getElem?_range (by omega), Option.map_some,
        Nat.add_comm d i, List.getD_eq_getElem?_getD, ha, baseCoeff_exact_double (i + d) (by omega) d (by omega)]
      rfl
    · obtain ⟨x, y, h1, h2, h3⟩ := mul_eq_fin hv
      rw [Dbl.fin.injEq] at h2
      subst h2
      exact ⟨x, h1, ofReal_nearest h3⟩
    · rintro x rfl h
      exact ⟨_, ofReal_finite h⟩
    · rintro rfl
      exact nan_mul _

/-- **C144**, a polynomial with appended coefficients has the same values and derivatives at all finite times, bit by
bit. -/
theorem C144_appended (p : Poly Dbl) (newN : ℕ) (h : p.N ≤ newN) (hN : newN ≤ 22) :
    ∃ q, p.withAppendedCoefficients newN = (true, q) ∧ q.N = newN ∧
      ∀ (t : ℝ) (d : ℤ), q.evaluate (.fin t) d = p.evaluate (.fin t) d := by
  rcases Nat.eq_or_lt_of_le h with h | h
  · exact ⟨p, if_pos h.symm, h, fun _ _ => rfl⟩
  refine ⟨⟨p.coeffs ++ List.replicate (newN - p.N) 0⟩, ?_, ?_, fun t d => ?_⟩
  · unfold Poly.withAppendedCoefficients
    rw [if_neg (by omega), if_neg (by omega)]
  · unfold Poly.N at h ⊢
    rw [List.length_append, List.length_replicate]
    omega
  have hq : (⟨p.coeffs ++ List.replicate (newN - p.N) 0⟩ : Poly Dbl).N = newN := by
    unfold Poly.N at h ⊢
    rw [List.length_append, List.length_replicate]
    omega
  rcases lt_or_ge d 0 with hd | hd
  · unfold Poly.evaluate
    rw [if_neg (by omega), if_pos (Or.inl hd), if_neg (by omega), if_pos (Or.inl hd)]
  obtain ⟨d, rfl⟩ : ∃ n : ℕ, d = n := ⟨d.toNat, by omega⟩
  have low : ∀ j < p.N, (p.coeffs ++ List.replicate (newN - p.N) 0).getD j 0 = p.coeffs.getD j 0 := by
    intro j hj
    rw [List.getD_eq_getElem?_getD, List.getElem?_append_left hj, ← List.getD_eq_getElem?_getD]
  have high : ∀ j, p.N ≤ j → j < 22 → d < 22 →
      (baseCoeff d j : Dbl) * (p.coeffs ++ List.replicate (newN - p.N) 0).getD j 0 = .fin 0 := by
    intro j hj hj2 hd2
    have : (p.coeffs ++ List.replicate (newN - p.N) (0 : Dbl)).getD j 0 = .fin 0 := by
      rw [List.getD_eq_getElem?_getD, List.getElem?_append_right hj, List.getElem?_replicate]
      split_ifs <;> rfl
    rw [this, baseCoeff_exact_double j hj2 d (by omega), fin_mul, mul_zero, ofReal_zero]
  unfold Poly.evaluate
  rw [hq]
  by_cases h1 : (d : ℤ) ≥ newN
  · rw [if_pos h1, if_pos (by omega)]
  rw [if_neg h1, if_neg (by unfold kMaxConvolutionSize; omega), Int.toNat_natCast]
  unfold Poly.evalCore
  dsimp only
  rw [hq, high (newN - 1) (by omega) (by omega) (by omega)]
  by_cases h2 : (d : ℤ) ≥ p.N
  · rw [if_pos h2, hornerDown_zeros _ _ _ _ fun i hi => high (d + i) (by omega) (by omega) (by omega)]
    rfl
  · rw [if_neg h2, if_neg (by unfold kMaxConvolutionSize; omega),
      show newN - 1 - d = (p.N - 1 - d) + (1 + (newN - 1 - p.N)) by omega, hornerDown_split,
      show d + (p.N - 1 - d) = p.N - 1 by omega, hornerDown_split, show p.N - 1 + 1 = p.N by omega,
      hornerDown_zeros _ _ _ _ fun i hi => high (p.N + i) (by omega) (by omega) (by omega)]
    rw [show ∀ (f : ℕ → Dbl) (a : Dbl), hornerDown f (.fin t) (p.N - 1) 1 a = a * .fin t + f (p.N - 1) from fun _ _ => rfl,
      fin_mul, zero_mul, ofReal_zero, zero_add_mul, low (p.N - 1) (by omega)]
    have hcongr : ∀ (f g : ℕ → Dbl) (n : ℕ) (acc : Dbl), (∀ i < n, f (d + i) = g (d + i)) →
        hornerDown f (.fin t) d n acc = hornerDown g (.fin t) d n acc := by
      intro f g n
      induction n with
      | zero => intro acc _; rfl
      | succ n ih =>
        intro acc h
        rw [hornerDown, hornerDown, ih _ fun i hi => h i (by omega), h n (by omega)]
    congr 1
    exact hcongr _ _ _ _ fun i hi => by rw [low _ (by omega)]

/-- **C144**, at an infinite time this is false: the constant 1 gets NaN there. -/
theorem C144_appended_false : ∃ (p q : Poly Dbl), p.withAppendedCoefficients 2 = (true, q) ∧
    p.evaluate (.inf false) 0 = .ok (.fin 1) ∧ q.evaluate (.inf false) 0 = .ok .nan := by
  have one : Dbl.ofReal 1 = .fin 1 := by
    have h1 : IsDouble 1 := ⟨1, 0, by norm_num, by norm_num, by norm_num, by norm_num⟩
    unfold Dbl.ofReal
    rw [h1.round64, if_pos h1.lt]
  refine ⟨⟨[.fin 1]⟩, ⟨[.fin 1, .fin 0]⟩, rfl, ?_, ?_⟩
  · show Res.ok (Dbl.fin 1 * .fin 1) = _
    rw [fin_mul, mul_one, one]
  · show Res.ok (Dbl.fin 1 * .fin 0 * .inf false + Dbl.fin 1 * .fin 1) = _
    rw [fin_mul, mul_zero, ofReal_zero]
    show Res.ok (Dbl.infMul false 0 + Dbl.fin 1 * .fin 1) = _
    unfold Dbl.infMul
    rw [if_pos rfl, nan_add]

theorem mul_returns (p q : Poly Dbl) (hpq : 0 < p.N + q.N) :
    p.mul q = .ok ⟨(List.range (p.N + q.N - 1)).map (convolveEntry p.coeffs q.coeffs)⟩ := by
  unfold Poly.mul convolve
  rw [if_neg (by unfold Poly.N at hpq; omega)]
  rfl

/-- **C144**, products. A coefficient of the product is a finite number only if all coefficients of the factors that
contribute to it are. -/
theorem C144_product_finite (p q : Poly Dbl) (hpq : 0 < p.N + q.N) :
    ∃ r, p.mul q = .ok r ∧ r.N = p.N + q.N - 1 ∧ ∀ (j k : ℕ) a b v, p.coeffs[j]? = some a → q.coeffs[k]? = some b →
      r.coeffs[j + k]? = some (.fin v) → IsFinite a ∧ IsFinite b := by
  refine ⟨_, mul_returns p q hpq, by simp [Poly.N], fun j k a b v ha hb hv => ?_⟩
  obtain ⟨hj, -⟩ := List.getElem?_eq_some_iff.mp ha
  obtain ⟨hk, -⟩ := List.getElem?_eq_some_iff.mp hb
  rw [List.getElem?_map, List.getElem?_range (by unfold Poly.N; omega), Option.map_some, Option.some.injEq] at hv
  unfold convolveEntry at hv
  dsimp only at hv
  set lo : ℤ := max 0 (-(((j + k : ℕ) : ℤ) - q.coeffs.length + 1)) with hlo
  set hi : ℤ := min (q.coeffs.length : ℤ) (p.coeffs.length - (((j + k : ℕ) : ℤ) - q.coeffs.length + 1)) with hhi
  obtain ⟨-, h2⟩ := dot_finite (fun s : ℕ => q.coeffs.reverse.getD (lo + s).toNat 0)
    (fun s : ℕ => p.coeffs.getD (((j + k : ℕ) : ℤ) - q.coeffs.length + 1 + lo + s).toNat 0) _ _ _ hv
  have h3 := h2 (q.coeffs.length - 1 - k - lo.toNat) (List.mem_range.mpr (by omega))
  have e1 : (lo + ((q.coeffs.length - 1 - k - lo.toNat : ℕ) : ℤ)).toNat = q.coeffs.length - 1 - k := by omega
  have e2 : (((j + k : ℕ) : ℤ) - q.coeffs.length + 1 + lo + ((q.coeffs.length - 1 - k - lo.toNat : ℕ) : ℤ)).toNat = j := by
    omega
  rw [e1, e2] at h3
  rw [List.getD_eq_getElem?_getD, List.getElem?_reverse (by omega), List.getD_eq_getElem?_getD, ha,
    show q.coeffs.length - 1 - (q.coeffs.length - 1 - k) = k by omega, hb] at h3
  exact ⟨h3.2, h3.1⟩

/-- An entry of the product of finite coefficients as a sum, and the same for the exact one. -/
theorem entry_fold (c e : List ℝ) (i : ℕ) (hi : i < c.length + e.length - 1) :
    ∃ (f g : ℕ → ℝ) (n : ℕ), n ≤ e.length ∧
      convolveEntry (c.map Dbl.fin) (e.map Dbl.fin) i =
        (List.range n).foldl (fun acc s => acc + .fin (f s) * .fin (g s)) (Dbl.fin 0) ∧
      (ofCoeffs c * ofCoeffs e).coeff i = ((List.range n).map fun s => f s * g s).sum ∧
      (ofCoeffs (c.map abs) * ofCoeffs (e.map abs)).coeff i = ((List.range n).map fun s => |f s * g s|).sum := by
  have hconv : ∀ a b : List ℝ, a.length = c.length → b.length = e.length →
      (ofCoeffs a * ofCoeffs b).coeff i = convolveEntry a b i := by
    intro a b ha hb
    obtain ⟨r, h1, h2, h3⟩ := convolve_ok a b (by omega)
    unfold convolve at h1
    rw [if_neg (by omega), Res.ok.injEq] at h1
    rw [← h3, ← h1, coeff_ofCoeffs, List.getD_eq_getElem?_getD, List.getElem?_map,
      List.getElem?_range (by rw [ha, hb]; exact hi)]
    rfl
  have gd : ∀ (l : List ℝ) (n : ℕ), (l.map Dbl.fin).getD n 0 = .fin (l.getD n 0) := by
    intro l n
    rw [List.getD_eq_getElem?_getD, List.getElem?_map, List.getD_eq_getElem?_getD]
    cases l[n]? <;> rfl
  have ga : ∀ (l : List ℝ) (n : ℕ), (l.map abs).getD n 0 = |l.getD n 0| := by
    intro l n
    rw [List.getD_eq_getElem?_getD, List.getElem?_map, List.getD_eq_getElem?_getD]
    cases l[n]? <;> simp
  have fold : ∀ (f : ℕ → ℝ) (n : ℕ), (List.range n).foldl (fun acc s => acc + f s) 0 = ((List.range n).map f).sum := by
    intro f n
    induction n with
    | zero => rfl
    | succ n ih => rw [List.range_succ, List.foldl_append, ih]; simp
  rw [hconv _ _ rfl rfl, hconv _ _ (by simp) (by simp)]
  unfold convolveEntry
  simp only [List.length_map, ← List.map_reverse, gd, ga]
  refine ⟨fun s => e.reverse.getD (max 0 (-((i : ℤ) - e.length + 1)) + s).toNat 0,
    fun s => c.getD ((i : ℤ) - e.length + 1 + max 0 (-((i : ℤ) - e.length + 1)) + s).toNat 0, _, ?_, rfl, ?_, ?_⟩
  · omega
  · rw [fold]
  · rw [fold]
    simp only [abs_mul]

/-- **C144**, products: a coefficient that is a finite number is the exact one up to `q.N + 1` relative errors of `2^-53`
of each term, and to what underflow can add. -/
theorem C144_product (p q : Poly Dbl) (c e : List ℝ) (hc : p.coeffs = c.map .fin) (he : q.coeffs = e.map .fin)
    (r : Poly Dbl) (hr : p.mul q = .ok r) (i : ℕ) (v : ℝ) (hv : r.coeffs[i]? = some (.fin v)) :
    |v - (ofCoeffs c * ofCoeffs e).coeff i| ≤
      ((1 + 1 / 2 ^ 53 : ℝ) ^ (q.N + 1) - 1) * (ofCoeffs (c.map abs) * ofCoeffs (e.map abs)).coeff i +
        2 * q.N * (1 + 1 / 2 ^ 53 : ℝ) ^ (q.N + 1) * (2 : ℝ) ^ (-1075 : ℤ) := by
  have hp : p.N = c.length := by simp [Poly.N, hc]
  have hq : q.N = e.length := by simp [Poly.N, he]
  have hpq : 0 < p.N + q.N := by
    by_contra h0
    unfold Poly.mul convolve at hr
    rw [if_pos (by unfold Poly.N at h0; omega)] at hr
    cases hr
  rw [mul_returns p q hpq, Res.ok.injEq] at hr
  subst hr
  rw [List.getElem?_map, Option.map_eq_some_iff] at hv
  obtain ⟨i', hi', hv⟩ := hv
  obtain ⟨hi, rfl⟩ := List.getElem?_eq_some_iff.mp hi'
  rw [List.length_range, hp, hq] at hi
  rw [List.getElem_range, hc, he] at hv
  obtain ⟨f, g, n, hn, h1, h2, h3⟩ := entry_fold c e i hi
  rw [h1] at hv
  have key := dot_error f g _ _ _ hv
  rw [h2, h3, hq]
  rw [zero_add, abs_zero, mul_zero, zero_add, List.length_range] at key
  have hu := u64_pos
  have ht := tiny64_pos
  have hpow : (1 + u64) ^ (n + 1) ≤ (1 + u64) ^ (e.length + 1) := pow_le_pow_right₀ (by linarith) (by omega)
  have hcast : (n : ℝ) ≤ e.length := by exact_mod_cast hn
  refine key.trans (add_le_add (mul_le_mul_of_nonneg_right (sub_le_sub_right hpow 1) ?_)
    (mul_le_mul_of_nonneg_right (mul_le_mul (by linarith) hpow (by positivity) (by positivity)) ht.le))
  refine List.sum_nonneg fun x hx => ?_
  obtain ⟨s, -, rfl⟩ := List.mem_map.mp hx
  positivity

/-- **C144**, products: a coefficient is finite if that of the product of the polynomials with the absolute coefficients is
at most `2^1021`. -/
theorem C144_product_range (p q : Poly Dbl) (c e : List ℝ) (hc : p.coeffs = c.map .fin) (he : q.coeffs = e.map .fin)
    (hN : q.N ≤ 2 ^ 50) (r : Poly Dbl) (hr : p.mul q = .ok r) (i : ℕ) (hi : i < r.N)
    (hA : (ofCoeffs (c.map abs) * ofCoeffs (e.map abs)).coeff i ≤ (2 : ℝ) ^ (1021 : ℤ)) :
    ∃ v, r.coeffs[i]? = some (.fin v) := by
  have hp : p.N = c.length := by simp [Poly.N, hc]
  have hq : q.N = e.length := by simp [Poly.N, he]
  have hpq : 0 < p.N + q.N := by
    by_contra h0
    unfold Poly.mul convolve at hr
    rw [if_pos (by unfold Poly.N at h0; omega)] at hr
    cases hr
  rw [mul_returns p q hpq, Res.ok.injEq] at hr
  subst hr
  have hi' : i < p.N + q.N - 1 := by simpa [Poly.N] using hi
  rw [List.getElem?_map, List.getElem?_range hi', Option.map_some, hc, he]
  rw [hp, hq] at hi'
  obtain ⟨f, g, n, hn, h1, h2, h3⟩ := entry_fold c e i hi'
  rw [h1]
  obtain ⟨v, hv⟩ := dot_range f g (List.range n) 0 (by
    rw [← h3, abs_zero, zero_add, List.length_range]
    have hn2 : n ≤ 2 ^ 50 := by omega
    have hcast : (n : ℝ) ≤ 2 ^ 50 := by exact_mod_cast hn2
    have hf := factor_bound (2 * n) (by omega)
    have hu := u64_pos
    have ht := tiny64_pos
    have hg2 : (1 + u64) ^ (2 * n) ≤ 2 := by
      refine hf.trans ?_
      have : (n : ℝ) * u64 ≤ 2 ^ 50 * u64 := mul_le_mul_of_nonneg_right hcast hu.le
      have e : (2 : ℝ) ^ 50 * u64 = 1 / 8 := by unfold u64; norm_num
      push_cast
      linarith
    have hs : 2 * (n : ℝ) * tiny64 ≤ (2 : ℝ) ^ (1021 : ℤ) := by
      calc 2 * (n : ℝ) * tiny64 ≤ 2 * 2 ^ 50 * tiny64 := mul_le_mul_of_nonneg_right (by linarith) ht.le
        _ = (2 : ℝ) ^ (-1024 : ℤ) := by
          unfold tiny64
          rw [show (2 : ℝ) * 2 ^ 50 = (2 : ℝ) ^ (51 : ℤ) by norm_num, ← zpow_add₀ (by norm_num)]
          norm_num
        _ ≤ _ := zpow_le_zpow_right₀ (by norm_num) (by norm_num)
    have hA0 : 0 ≤ (ofCoeffs (c.map abs) * ofCoeffs (e.map abs)).coeff i := by
      rw [h3]
      refine List.sum_nonneg fun x hx => ?_
      obtain ⟨s, -, rfl⟩ := List.mem_map.mp hx
      positivity
    have e3 : (2 : ℝ) ^ (1023 : ℤ) = 2 * ((2 : ℝ) ^ (1021 : ℤ) + (2 : ℝ) ^ (1021 : ℤ)) := by
      rw [show (1023 : ℤ) = 2 + 1021 by norm_num, zpow_add₀ (by norm_num)]
      rw [show (2 : ℝ) ^ (2 : ℤ) = 4 by norm_num]
      ring
    rw [e3]
    exact mul_le_mul hg2 (by linarith) (by positivity) (by norm_num))
  exact ⟨v, congrArg some hv⟩

/-- **C144**, sums do not depend on the order of the operands. -/
theorem C144_sum_commutes (p q : Poly Dbl) (hpq : p.N = q.N) : ∃ r, p.add q = .ok r ∧ q.add p = .ok r := by
  have comm : ∀ a b : Dbl, a + b = b + a := by
    intro a b
    cases a <;> cases b <;> first
      | rfl
      | (rw [fin_add, fin_add, add_comm])
      | (rename_i s r
         show (if s = r then Dbl.inf s else .nan) = if r = s then Dbl.inf r else .nan
         by_cases h : s = r
         · rw [h]
         · rw [if_neg h, if_neg fun h' => h h'.symm])
  refine ⟨_, if_pos hpq, ?_⟩
  unfold Poly.add
  rw [if_pos hpq.symm]
  congr 2
  exact List.zipWith_comm_of_comm fun a b => comm a b

/-- **C144**, for products this is false: one order of the same factors gives an infinite coefficient where the other
gives a finite one. -/
theorem C144_product_commutes_false : ∃ (p q r s : Poly Dbl) (v : ℝ), p.mul q = .ok r ∧ q.mul p = .ok s ∧
    r.coeffs[2]? = some (.inf false) ∧ s.coeffs[2]? = some (.fin v) := by
  obtain ⟨M, hM⟩ : ∃ M : ℝ, M = (2 : ℝ) ^ (1023 : ℤ) := ⟨_, rfl⟩
  have dM : IsDouble M := ⟨2 ^ 52, 971, by norm_num, by norm_num, by norm_num, by
    rw [hM, show (1023 : ℤ) = 52 + 971 by norm_num, zpow_add₀ (by norm_num)]
    congr 1
    norm_num⟩
  have d0 : IsDouble 0 := ⟨0, 0, by norm_num, by norm_num, by norm_num, by norm_num⟩
  have e2 : Dbl.ofReal (M + M) = .inf false := by
    have h2 : M + M = (2 : ℝ) ^ (1024 : ℤ) := by
      rw [hM, show (1024 : ℤ) = 1 + 1023 by norm_num, zpow_add₀ (by norm_num), zpow_one]
      ring
    rw [h2]
    rcases hx : Dbl.ofReal ((2 : ℝ) ^ (1024 : ℤ)) with w | s | _
    · exfalso
      obtain ⟨h3, h4⟩ := ofReal_eq_fin hx
      have hn := round64_nearest ((2 : ℝ) ^ (1024 : ℤ)) (m := 1) (e := 1024) (by norm_num) (by norm_num)
      rw [Int.cast_one, one_mul, sub_self, abs_zero, ← h3] at hn
      rw [sub_eq_zero.mp (abs_nonpos_iff.mp hn), abs_of_pos (zpow2_pos _)] at h4
      exact lt_irrefl _ h4
    · have := ofReal_eq_inf hx
      cases s
      · rfl
      · exact absurd (this.mp rfl) (not_lt.mpr (zpow2_pos _).le)
    · exact absurd hx (ofReal_ne_nan _)
  refine ⟨⟨[.fin M, .fin M, .fin (-M)]⟩, ⟨[.fin 1, .fin 1, .fin 1]⟩, _, _, M, mul_returns _ _ (by simp [Poly.N]),
    mul_returns _ _ (by simp [Poly.N]), ?_, ?_⟩
  · rw [List.getElem?_map, List.getElem?_range (by simp [Poly.N]), Option.map_some]
    have e : convolveEntry [Dbl.fin M, .fin M, .fin (-M)] [.fin 1, .fin 1, .fin 1] 2 =
      ((Dbl.fin 0 + .fin 1 * .fin M) + .fin 1 * .fin M) + .fin 1 * .fin (-M) := rfl
    rw [e, fin_mul, fin_mul, one_mul, one_mul, ofReal_double dM, ofReal_double dM.neg, fin_add, zero_add, ofReal_double dM,
      fin_add, e2]
    rfl
  · rw [List.getElem?_map, List.getElem?_range (by simp [Poly.N]), Option.map_some]
    have e : convolveEntry [Dbl.fin 1, .fin 1, .fin 1] [Dbl.fin M, .fin M, .fin (-M)] 2 =
      ((Dbl.fin 0 + .fin (-M) * .fin 1) + .fin M * .fin 1) + .fin M * .fin 1 := rfl
    rw [e, fin_mul, fin_mul, mul_one, mul_one, ofReal_double dM, ofReal_double dM.neg, fin_add, zero_add,
      ofReal_double dM.neg, fin_add, neg_add_cancel, ofReal_double d0, fin_add, zero_add, ofReal_double dM]

/-- **C144**, scaling in time. A coefficient is a finite number only if it was and, but for the first one, the factor is; it
then is `c_i b^i` up to `i + 1` relative errors and to what underflow of the powers can add. -/
theorem C144_scale (p : Poly Dbl) (b : Dbl) :
    (p.scaleInTime b).N = p.N ∧ ∀ (i : ℕ) v, (p.scaleInTime b).coeffs[i]? = some (.fin v) →
      ∃ x, p.coeffs[i]? = some (.fin x) ∧ (0 < i → IsFinite b) ∧ ∀ y, b = .fin y →
        |v - x * y ^ i| ≤ ((1 + 1 / 2 ^ 53 : ℝ) ^ (i + 1) - 1) * |x * y ^ i| +
          (2 : ℝ) ^ (-1075 : ℤ) * (1 + (1 + 1 / 2 ^ 53 : ℝ) ^ (i + 1) * |x| * ∑ j ∈ Finset.range i, |y| ^ j) := by
  refine ⟨?_, fun i v hv => ?_⟩
  · have : ∀ (l : List Dbl) (s : Dbl), (scaleLoop b s l).length = l.length := by
      intro l
      induction l with
      | nil => intro s; rfl
      | cons c l ih => intro s; simp [scaleLoop, ih]
    exact this _ _
  · obtain ⟨⟨x, hx⟩, -, hb⟩ := scale_finite b _ _ i v hv
    refine ⟨x, hx, hb, ?_⟩
    rintro y rfl
    have := scale_error y p.coeffs 0 1 i v x (by simp) hv hx
    rw [Nat.zero_add] at this
    exact this

/-- **C144**, partial. The scaled polynomial has only finite coefficients if the powers of the factor are at most
`2^1020`, and the coefficients times one and times their powers are. Missing: finite exact results without the bound on
the powers; they do not suffice (`C144_scale_false`). -/
theorem C144_scale_range_partial (p : Poly Dbl) (c : List ℝ) (hc : p.coeffs = c.map .fin) (hN : p.N ≤ 2 ^ 50) (b : ℝ)
    (hb : ∀ j < p.N, |b| ^ j ≤ (2 : ℝ) ^ (1020 : ℤ))
    (hx : ∀ (i : ℕ) x, c[i]? = some x → |x| ≤ (2 : ℝ) ^ (1020 : ℤ) ∧ |x * b ^ i| ≤ (2 : ℝ) ^ (1020 : ℤ))
    (i : ℕ) (hi : i < p.N) : ∃ v, (p.scaleInTime (.fin b)).coeffs[i]? = some (.fin v) := by
  have hl : i < c.length := by simpa [Poly.N, hc] using hi
  have e3 : (2 : ℝ) ^ (1023 : ℤ) = 8 * (2 : ℝ) ^ (1020 : ℤ) := by
    rw [show (1023 : ℤ) = 3 + 1020 by norm_num, zpow_add₀ (by norm_num)]
    norm_num
  have hp := zpow2_pos 1020
  have hone : (1 : ℝ) ≤ (2 : ℝ) ^ (1020 : ℤ) := one_le_zpow₀ (by norm_num) (by norm_num)
  have hmax : ∀ j : ℕ, max 1 |b| ^ j = 1 ∨ max 1 |b| ^ j = |b| ^ j := by
    intro j
    rcases max_choice 1 |b| with h | h
    · left; rw [h, one_pow]
    · right; rw [h]
  obtain ⟨h1, h2⟩ := hx i _ (List.getElem?_eq_getElem hl)
  refine scale_range b (max 1 |b|) (le_max_right _ _) (le_max_left _ _) p.coeffs 0 1 i c[i] (by simp) (by omega)
    (fun j hj => ?_) (by rw [hc, List.getElem?_map, List.getElem?_eq_getElem hl]; rfl) ?_
  · rw [Nat.zero_add]
    have := hb j (by omega)
    rw [e3]
    clear e3
    generalize (2 : ℝ) ^ (1020 : ℤ) = M at *
    rcases hmax j with h | h <;> rw [h] <;> linarith
  · rw [Nat.zero_add]
    rw [abs_mul, abs_pow] at h2
    rw [e3]
    clear e3
    generalize (2 : ℝ) ^ (1020 : ℤ) = M at *
    rcases hmax i with h | h <;> rw [h]
    · linarith
    · linarith

/-- **C144**, scaling in time is exact as long as the powers and the results are doubles, so for powers of two without
overflow and underflow. -/
theorem C144_scale_exact (p : Poly Dbl) (c : List ℝ) (hc : p.coeffs = c.map .fin) (b : ℝ)
    (hb : ∀ j ≤ p.N, IsDouble (b ^ j)) (hx : ∀ (i : ℕ) x, c[i]? = some x → IsDouble (x * b ^ i)) (i : ℕ) (x : ℝ)
    (hi : c[i]? = some x) : (p.scaleInTime (.fin b)).coeffs[i]? = some (.fin (x * b ^ i)) := by
  have hlen : p.N = c.length := by simp [Poly.N, hc]
  have key := scale_exact b c 0 (fun j hj => hb j (by omega)) (fun i x h => by rw [Nat.zero_add]; exact hx i x h)
  show (scaleLoop (.fin b) 1 p.coeffs)[i]? = _
  rw [hc]
  rw [pow_zero] at key
  rw [show (1 : Dbl) = .fin 1 from rfl, key, List.getElem?_mapIdx, hi, Option.map_some, Nat.zero_add]

/-- **C144** is false for scaling in time: the constant 1, as a polynomial with three coefficients, scaled by `2^600`, is no
constant any more: its last coefficient is `0 * ∞`, which is NaN, and the polynomial has no finite value anywhere. -/
theorem C144_scale_false : ∃ p : Poly Dbl, p.coeffs = [.fin 1, .fin 0, .fin 0] ∧
    ∀ t, ∃ z, (p.scaleInTime (.fin ((2 : ℝ) ^ (600 : ℤ)))).evaluate t 0 = .ok z ∧ ¬ IsFinite z := by
  refine ⟨⟨[.fin 1, .fin 0, .fin 0]⟩, rfl, fun t => ?_⟩
  have hlen : (Poly.scaleInTime ⟨[Dbl.fin 1, .fin 0, .fin 0]⟩ (Dbl.fin ((2 : ℝ) ^ (600 : ℤ)))).coeffs.length = 3 := rfl
  obtain ⟨z, hz⟩ : ∃ z, (Poly.scaleInTime ⟨[Dbl.fin 1, .fin 0, .fin 0]⟩ (.fin ((2 : ℝ) ^ (600 : ℤ)))).evaluate t 0 = .ok z := by
    unfold Poly.evaluate
    rw [if_neg (by unfold Poly.N; rw [hlen]; omega), if_neg (by unfold Poly.N kMaxConvolutionSize; rw [hlen]; omega)]
    exact ⟨_, rfl⟩
  refine ⟨z, hz, ?_⟩
  rintro ⟨v, rfl⟩
  have hone : IsDouble ((2 : ℝ) ^ (600 : ℤ)) := ⟨1, 600, by norm_num, by norm_num, by norm_num, by norm_num⟩
  have e1 : (1 : Dbl) * .fin ((2 : ℝ) ^ (600 : ℤ)) = .fin ((2 : ℝ) ^ (600 : ℤ)) := by
    have := (C132_exact 1 ((2 : ℝ) ^ (600 : ℤ))).2 (by rwa [one_mul])
    rw [one_mul] at this
    exact this
  have e2 : Dbl.fin ((2 : ℝ) ^ (600 : ℤ)) * .fin ((2 : ℝ) ^ (600 : ℤ)) = .inf false := by
    rw [fin_mul, ← zpow_add₀ (by norm_num), show (600 : ℤ) + 600 = 1200 by norm_num]
    rcases hx : Dbl.ofReal ((2 : ℝ) ^ (1200 : ℤ)) with w | s | _
    · exfalso
      obtain ⟨h1, h2⟩ := ofReal_eq_fin hx
      have hn := round64_nearest ((2 : ℝ) ^ (1200 : ℤ)) (m := 1) (e := 1200) (by norm_num) (by norm_num)
      rw [Int.cast_one, one_mul, sub_self, abs_zero, ← h1] at hn
      have h3 := abs_nonpos_iff.mp hn
      rw [show w = (2 : ℝ) ^ (1200 : ℤ) by linarith, abs_of_pos (zpow2_pos _)] at h2
      exact absurd h2 (not_lt.mpr (zpow_le_zpow_right₀ (by norm_num) (by norm_num)))
    · have := ofReal_eq_inf hx
      have hp := zpow2_pos 1200
      cases s
      · rfl
      · exact absurd (this.mp rfl) (not_lt.mpr hp.le)
    · exact absurd hx (ofReal_ne_nan _)
  have e3 : (Poly.scaleInTime ⟨[Dbl.fin 1, .fin 0, .fin 0]⟩ (.fin ((2 : ℝ) ^ (600 : ℤ)))).coeffs[2]? = some Dbl.nan := by
    simp only [Poly.scaleInTime, scaleLoop, List.getElem?_cons_succ, List.getElem?_cons_zero, e1, e2]
    show some (Dbl.infMul false 0) = _
    unfold Dbl.infMul
    rw [if_pos rfl]
  obtain ⟨h1, -⟩ := C132_propagates _ t 0 v (by simp [Poly.N, Poly.scaleInTime, scaleLoop]) hz
  obtain ⟨x, hx⟩ := h1 2 _ (by omega) e3
  cases hx

/-! Cases that meet the hypotheses. -/

/-- A finite coefficient of a sum, and the one of opposite infinities. -/
example : ∃ r, Poly.add ⟨[.fin 1, .inf false]⟩ ⟨[.fin 2, .inf true]⟩ = .ok r ∧ IsFinite (r.coeffs.getD 0 .nan) ∧
    r.coeffs[1]? = some (Dbl.inf false + .inf true) := by
  obtain ⟨r, h1, h2, h3⟩ := C144_sum ⟨[.fin 1, .inf false]⟩ ⟨[.fin 2, .inf true]⟩ rfl
  refine ⟨r, h1, ?_, ?_⟩
  · obtain ⟨z, hz, -, h4, -⟩ := h3 0 _ _ rfl rfl
    rw [List.getD_eq_getElem?_getD, hz]
    refine h4 1 2 rfl rfl (lt_of_le_of_lt ?_ half_range)
    rw [show |(1 : ℝ) + 2| = 3 by norm_num]
    calc (3 : ℝ) ≤ (2 : ℝ) ^ (2 : ℤ) := by norm_num
      _ ≤ _ := zpow_le_zpow_right₀ (by norm_num) (by norm_num)
  · have : r = ⟨[Dbl.fin 1 + .fin 2, Dbl.inf false + .inf true]⟩ := by
      have e : Poly.add ⟨[.fin 1, .inf false]⟩ ⟨[.fin 2, .inf true]⟩ =
          .ok ⟨[Dbl.fin 1 + .fin 2, Dbl.inf false + .inf true]⟩ := if_pos rfl
      rw [e, Res.ok.injEq] at h1
      exact h1.symm
    rw [this]
    rfl

example : ∃ r, Poly.add ⟨[Dbl.fin 1, .inf false]⟩ ⟨[.nan, .inf true]⟩ = .ok r ∧
    Poly.add ⟨[.nan, .inf true]⟩ ⟨[Dbl.fin 1, .inf false]⟩ = .ok r := C144_sum_commutes _ _ rfl

/-- The slope of `1 + 3 x` stays when NaN is added. -/
example : (Poly.offset ⟨[Dbl.fin 1, .fin 3]⟩ Dbl.nan).coeffs = [Dbl.nan, .fin 3] ∧
    (Poly.offset ⟨[Dbl.fin 1, .fin 3]⟩ Dbl.nan).evaluate (Dbl.fin 5) 1 = Poly.evaluate ⟨[Dbl.fin 1, .fin 3]⟩ (Dbl.fin 5) 1 :=
  ⟨rfl, C144_offset_derivatives _ _ _ _ (by norm_num)⟩

/-- A polynomial with an infinite coefficient and two more coefficients. -/
example : ∃ q, Poly.withAppendedCoefficients ⟨[Dbl.fin 1, .inf true]⟩ 4 = (true, q) ∧ q.N = 4 ∧
    ∀ (t : ℝ) (d : ℤ), q.evaluate (.fin t) d = Poly.evaluate ⟨[Dbl.fin 1, .inf true]⟩ (.fin t) d :=
  C144_appended _ 4 (by simp [Poly.N]) (by norm_num)

/-- The derivative of `1 + 3 x + ∞ x²`. -/
example : ∃ l, Poly.getCoefficients ⟨[.fin 1, .fin 3, .inf false]⟩ 1 = .ok l ∧ l[2]? = some (Dbl.fin 0) ∧
    ∃ z, l[0]? = some z ∧ IsFinite z := by
  obtain ⟨l, h1, -, h2, h3⟩ := C144_derivative ⟨[.fin 1, .fin 3, .inf false]⟩ (by simp [Poly.N]) 1 (by norm_num)
    (by simp [Poly.N])
  obtain ⟨z, h4, -, h5, -⟩ := h3 0 (.fin 3) rfl
  refine ⟨l, h1, h2 2 (by simp [Poly.N]) (by simp [Poly.N]), z, h4, h5 3 rfl (lt_of_le_of_lt ?_ half_range)⟩
  rw [Nat.zero_add, Nat.descFactorial_one, Nat.cast_one, mul_one, abs_of_pos (by norm_num)]
  calc (3 : ℝ) ≤ (2 : ℝ) ^ (2 : ℤ) := by norm_num
    _ ≤ _ := zpow_le_zpow_right₀ (by norm_num) (by norm_num)

/-- `(1 + x) (3 + x)`: the coefficients are finite and close to 3, 4 and 1. -/
example : ∃ (r : Poly Dbl) (v : ℝ), Poly.mul ⟨[.fin 1, .fin 1]⟩ ⟨[.fin 3, .fin 1]⟩ = .ok r ∧ r.coeffs[1]? = some (Dbl.fin v) ∧
    |v - 4| ≤ ((1 + 1 / 2 ^ 53 : ℝ) ^ 3 - 1) * 4 + 4 * (1 + 1 / 2 ^ 53 : ℝ) ^ 3 * (2 : ℝ) ^ (-1075 : ℤ) := by
  obtain ⟨r, h1, h2, -⟩ := C144_product_finite ⟨[.fin 1, .fin 1]⟩ ⟨[.fin 3, .fin 1]⟩ (by simp [Poly.N])
  have e : (ofCoeffs [1, 1] * ofCoeffs [3, 1] : Polynomial ℝ).coeff 1 = 4 := by
    rw [Polynomial.coeff_mul, Finset.Nat.sum_antidiagonal_eq_sum_range_succ_mk]
    simp [coeff_ofCoeffs, Finset.sum_range_succ]
    norm_num
  have ea : (ofCoeffs ([1, 1].map abs) * ofCoeffs ([3, 1].map abs) : Polynomial ℝ).coeff 1 = 4 := by
    rw [← e]
    simp
  obtain ⟨v, hv⟩ := C144_product_range ⟨[.fin 1, .fin 1]⟩ ⟨[.fin 3, .fin 1]⟩ [1, 1] [3, 1] rfl rfl (by simp [Poly.N]) r h1 1
    (by rw [h2]; simp [Poly.N]) (by
      rw [ea]
      calc (4 : ℝ) ≤ (2 : ℝ) ^ (2 : ℤ) := by norm_num
        _ ≤ _ := zpow_le_zpow_right₀ (by norm_num) (by norm_num))
  refine ⟨r, v, h1, hv, ?_⟩
  have := C144_product ⟨[.fin 1, .fin 1]⟩ ⟨[.fin 3, .fin 1]⟩ [1, 1] [3, 1] rfl rfl r h1 1 v hv
  rw [e, ea] at this
  refine this.trans (le_of_eq ?_)
  simp [Poly.N]
  norm_num

/-- `1 + 3 x` at twice the speed. -/
example : ∃ v, (Poly.scaleInTime ⟨[.fin 1, .fin 3]⟩ (.fin 2)).coeffs[1]? = some (Dbl.fin v) ∧
    |v - 3 * 2 ^ 1| ≤ ((1 + 1 / 2 ^ 53 : ℝ) ^ (1 + 1) - 1) * |3 * 2 ^ 1| +
      (2 : ℝ) ^ (-1075 : ℤ) * (1 + (1 + 1 / 2 ^ 53 : ℝ) ^ (1 + 1) * |3| * ∑ j ∈ Finset.range 1, |(2 : ℝ)| ^ j) := by
  have big : (8 : ℝ) ≤ (2 : ℝ) ^ (1020 : ℤ) := by
    calc (8 : ℝ) = (2 : ℝ) ^ (3 : ℤ) := by norm_num
      _ ≤ _ := zpow_le_zpow_right₀ (by norm_num) (by norm_num)
  obtain ⟨v, hv⟩ := C144_scale_range_partial ⟨[.fin 1, .fin 3]⟩ [1, 3] rfl (by simp [Poly.N]) 2 (fun j hj => by
      have : j < 2 := hj
      refine le_trans ?_ big
      rcases (by omega : j = 0 ∨ j = 1) with rfl | rfl
      · norm_num
      · norm_num) (fun i x h => by
      match i, h with
      | 0, h => obtain rfl : (1 : ℝ) = x := by simpa using h
                exact ⟨le_trans (by norm_num) big, le_trans (by norm_num) big⟩
      | 1, h => obtain rfl : (3 : ℝ) = x := by simpa using h
                exact ⟨le_trans (by norm_num) big, le_trans (by norm_num [abs_mul]) big⟩
      | n + 2, h => simp at h) 1 (by simp [Poly.N])
  refine ⟨v, hv, ?_⟩
  obtain ⟨x, hx, -, h⟩ := (C144_scale ⟨[.fin 1, .fin 3]⟩ (.fin 2)).2 1 v hv
  obtain rfl : (3 : ℝ) = x := by simpa using hx
  exact h 2 rfl

/-- `1 + 3 x` at half the speed is `1 + 1.5 x`. -/
example : (Poly.scaleInTime ⟨[.fin 1, .fin 3]⟩ (.fin (1 / 2))).coeffs[1]? = some (Dbl.fin (3 * (1 / 2) ^ 1)) := by
  refine C144_scale_exact ⟨[.fin 1, .fin 3]⟩ [1, 3] rfl (1 / 2) (fun j hj => ?_) (fun i x h => ?_) 1 3 rfl
  · have : j ≤ 2 := hj
    refine ⟨1, -j, by norm_num, by omega, by omega, ?_⟩
    rw [zpow_neg, zpow_natCast, Int.cast_one, one_mul, one_div, inv_pow]
  · match i, h with
    | 0, h => obtain rfl : (1 : ℝ) = x := by simpa using h
              exact ⟨1, 0, by norm_num, by norm_num, by norm_num, by norm_num⟩
    | 1, h => obtain rfl : (3 : ℝ) = x := by simpa using h
              exact ⟨3, -1, by norm_num, by norm_num, by norm_num, by norm_num⟩
    | n + 2, h => simp at h

end Verif
