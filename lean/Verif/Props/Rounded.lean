import Mathlib.Tactic.NormNum
import Verif.Proofs.RoundedTrajectory

/-
Properties C99 - C102: the same functions computed with rounding.

`Fl rnd` are numbers whose operations round the exact result by `rnd`; `Spec.Rounding rnd u` says that rounding
changes a number by at most `u` times its size, that it is monotone and that rounded numbers are not changed.
`round53` is the rounding to 53 bits, for which `u = 2^-53` (`C99_binary64`). Overflow and underflow are not
modelled.
-/
set_option linter.unusedSectionVars false

namespace Verif

open Spec

variable {rnd : ℝ → ℝ} {u : ℝ}

/-! ### C99 evaluation with rounding -/

/-- **C99.** Rounding to 53 bits meets the assumptions with `u = 2^-53`, and then all the errors of an evaluation
with the largest supported number of coefficients are less than `2^-47`. -/
theorem C99_binary64 : Rounding round53 (1 / 2 ^ 53) ∧ ∀ n ≤ 22, ((1 + 1 / 2 ^ 53 : ℝ)) ^ (2 * n) - 1 ≤ 1 / 2 ^ 47 := by
  refine ⟨round53_rounding, fun n hn => ?_⟩
  have h1 : ((1 + 1 / 2 ^ 53 : ℝ)) ^ (2 * n) ≤ (1 + 1 / 2 ^ 53) ^ 44 :=
    pow_le_pow_right₀ (by norm_num) (by omega)
  refine (sub_le_sub_right h1 1).trans ?_
  norm_num

/-- **C99.** The number computed by `evaluate(t, d)` is the exact `d`-th derivative at `t` of a polynomial whose
coefficients differ from the given ones by relative errors only: at most `2 N` of them. -/
theorem C99_evaluate (h : Rounding rnd u) (p : Poly (Fl rnd)) (hN : p.N ≤ 22) (t : Fl rnd) (d : ℕ) :
    ∃ v c, p.evaluate t d = .ok v ∧ List.Forall₂ (Close u (2 * p.N)) c (vals p.coeffs) ∧
      v.val = iteratedDeriv d (curve c) t.val := by
  have hu := rounding_nonneg h
  unfold Poly.evaluate
  by_cases hd : (d : ℤ) ≥ p.N
  · rw [if_pos hd]
    refine ⟨0, vals p.coeffs, rfl, ?_, ?_⟩
    · refine List.forall₂_same.mpr fun x _ => ?_
      unfold Close
      rw [sub_self]
      have := factor_zero hu (2 * p.N)
      rw [abs_zero] at this ⊢
      exact mul_nonneg this (abs_nonneg _)
    · rw [iteratedDeriv_curve, derivAt_eq_sum, vals, List.length_map]
      unfold Poly.N at hd
      rw [show p.coeffs.length - d = 0 by omega]
      simp
      rfl
  · rw [if_neg hd, if_neg (by unfold kMaxConvolutionSize; omega), Int.toNat_natCast]
    obtain ⟨c, h1, h2, h3⟩ := evalCore_rounded h p t d (by omega) hN
    refine ⟨_, c, rfl, ?_, by rw [iteratedDeriv_curve]; exact h3⟩
    rw [List.forall₂_iff_get]
    unfold vals
    refine ⟨by rw [h1, List.length_map]; rfl, fun j hj hj' => ?_⟩
    rw [List.length_map] at hj'
    obtain ⟨θ, g1, g2⟩ := h2 j p.coeffs[j] (List.getElem?_eq_getElem hj')
    rw [List.getElem?_eq_getElem hj, Option.some.injEq] at g2
    simp only [List.get_eq_getElem, List.getElem_map]
    rw [g2]
    refine close_of_factor (factor_mono hu ?_ g1)
    have : j < p.N := hj'
    omega

/-- Derivatives of polynomials with close coefficients. -/
theorem derivAt_close {m d : ℕ} {c c' : List ℝ} (h : List.Forall₂ (Close u m) c' c) (t : ℝ) :
    |derivAt c' d t - derivAt c d t| ≤ ((1 + u) ^ m - 1) * derivAt (c.map abs) d |t| := by
  rw [derivAt_eq_sum, derivAt_eq_sum, derivAt_eq_sum, h.length_eq, List.length_map, ← Finset.sum_sub_distrib,
    Finset.mul_sum]
  refine (Finset.abs_sum_le_sum_abs _ _).trans (Finset.sum_le_sum fun i hi => ?_)
  have hi : d + i < c.length := by have := Finset.mem_range.mp hi; omega
  have hi' : d + i < c'.length := by rw [h.length_eq]; exact hi
  have h1 : Close u m (c'.getD (d + i) 0) (c.getD (d + i) 0) := by
    have := (List.forall₂_iff_get.mp h).2 (d + i) hi' hi
    simpa [List.getD_eq_getElem?_getD, hi, hi'] using this
  have h2 : (c.map abs).getD (d + i) 0 = |c.getD (d + i) 0| := by
    simp [List.getD_eq_getElem?_getD, hi]
  rw [h2, ← sub_mul, ← mul_sub, abs_mul, abs_mul, abs_pow, Nat.abs_cast]
  unfold Close at h1
  have h3 : (0 : ℝ) ≤ (d + i).descFactorial d := Nat.cast_nonneg _
  calc _ ≤ ((d + i).descFactorial d : ℝ) * (((1 + u) ^ m - 1) * |c.getD (d + i) 0|) * |t| ^ i := by gcongr
    _ = _ := by ring

/-- **C99.** The error of `evaluate(t, d)` is at most `(1 + u)^(2N) - 1` times the value at `|t|` of the `d`-th
derivative of the polynomial whose coefficients are the absolute values of the given ones. -/
theorem C99_error (h : Rounding rnd u) (p : Poly (Fl rnd)) (hN : p.N ≤ 22) (t : Fl rnd) (d : ℕ) :
    ∃ v, p.evaluate t d = .ok v ∧
      |v.val - iteratedDeriv d (curve (vals p.coeffs)) t.val| ≤
        ((1 + u) ^ (2 * p.N) - 1) * iteratedDeriv d (curve ((vals p.coeffs).map abs)) |t.val| := by
  obtain ⟨v, c, h1, h2, h3⟩ := C99_evaluate h p hN t d
  refine ⟨v, h1, ?_⟩
  rw [h3, iteratedDeriv_curve, iteratedDeriv_curve, iteratedDeriv_curve]
  exact derivAt_close h2 _

/-- **C99.** Every dimension of a segment is evaluated with the same accuracy. -/
theorem C99_segment (h : Rounding rnd u) (s : Segment (Fl rnd)) (hN : ∀ p ∈ s.polys, p.N ≤ 22) (t : Fl rnd) (d : ℕ) :
    ∃ l, s.evaluate t d = .ok l ∧ List.Forall₂ (fun (p : Poly (Fl rnd)) v => ∃ c,
      List.Forall₂ (Close u (2 * p.N)) c (vals p.coeffs) ∧ v.val = iteratedDeriv d (curve c) t.val) s.polys l := by
  unfold Segment.evaluate
  generalize s.polys = ps at hN
  induction ps with
  | nil => exact ⟨[], rfl, .nil⟩
  | cons p ps ih =>
    obtain ⟨v, c, h1, h2, h3⟩ := C99_evaluate h p (hN p (by simp)) t d
    obtain ⟨l, g1, g2⟩ := ih fun q hq => hN q (by simp [hq])
    refine ⟨v :: l, ?_, .cons ⟨c, h2, h3⟩ g2⟩
    rw [List.mapM_cons, h1, Res.ok_bind, g1]
    rfl

/-- **C99**, a limit: the relative error of the value itself is not small. With rounding to 53 bits the value of
`t² - (1 + 2^-29)` at `t = 1 + 2^-30` is computed as 0, although it is `2^-60`. -/
theorem C99_relative_false : ¬ ∀ (p : Poly (Fl round53)) (t v : Fl round53), p.N ≤ 22 → p.evaluate t 0 = .ok v →
    |v.val - curve (vals p.coeffs) t.val| ≤ 1 / 2 * |curve (vals p.coeffs) t.val| := by
  intro H
  have r1 : round53 1 = 1 := by
    rw [round53_eq 0 (2 ^ 52) (by norm_num) (by norm_num) (by norm_num) (by norm_num)]; norm_num
  have r2 : round53 (1 + 1 / 2 ^ 30) = 1 + 1 / 2 ^ 30 := by
    rw [round53_eq 0 (2 ^ 52 + 2 ^ 22) (by norm_num) (by norm_num) (by norm_num) (by norm_num)]; norm_num
  have r3 : round53 (1 + 1 / 2 ^ 29) = 1 + 1 / 2 ^ 29 := by
    rw [round53_eq 0 (2 ^ 52 + 2 ^ 23) (by norm_num) (by norm_num) (by norm_num) (by norm_num)]; norm_num
  have r4 : round53 ((1 + 1 / 2 ^ 30) * (1 + 1 / 2 ^ 30)) = 1 + 1 / 2 ^ 29 := by
    rw [round53_eq 0 (2 ^ 52 + 2 ^ 23) (by norm_num) (by norm_num) (by norm_num) (by norm_num)]; norm_num
  have r0 : round53 0 = 0 := rnd_zero round53_rounding
  have key : (⟨[⟨-(1 + 1 / 2 ^ 29)⟩, ⟨0⟩, ⟨1⟩]⟩ : Poly (Fl round53)).evaluate ⟨1 + 1 / 2 ^ 30⟩ 0 = .ok ⟨0⟩ := by
    unfold Poly.evaluate
    rw [if_neg (by simp [Poly.N]), if_neg (by simp [Poly.N, kMaxConvolutionSize])]
    have b : ∀ j, j < 22 → (baseCoeff 0 j : Fl round53) = ⟨1⟩ := by
      intro j hj
      unfold baseCoeff baseRow kMaxConvolutionSize
      rw [List.getD_eq_getElem?_getD, List.getElem?_replicate, if_pos (by omega)]
      rfl
    have mulv : ∀ a b : Fl round53, a * b = ⟨round53 (a.val * b.val)⟩ := fun _ _ => rfl
    have addv : ∀ a b : Fl round53, a + b = ⟨round53 (a.val + b.val)⟩ := fun _ _ => rfl
    simp only [Poly.evalCore, Poly.N, List.length_cons, List.length_nil, Int.toNat_zero, hornerDown]
    simp only [Nat.reduceAdd, Nat.reduceSub, hornerDown, b 0 (by norm_num), b 1 (by norm_num), b 2 (by norm_num),
      Nat.zero_add, List.getD_cons_zero, List.getD_cons_succ, mulv, addv, one_mul, round53_neg, r0, r1, r2, r3, r4,
      add_zero, add_neg_cancel]
  have h2 := H _ _ _ (by simp [Poly.N]) key
  simp only [vals, curve, List.map_cons, List.map_nil, List.length_cons, List.length_nil, Finset.sum_range_succ,
    Finset.sum_range_zero, List.getD_cons_zero, List.getD_cons_succ] at h2
  norm_num at h2

example : ∃ (p : Poly (Fl round53)) (t : Fl round53) (c : List ℝ) (v : Fl round53), p.N = 3 ∧ t.val ≠ 0 ∧
    p.evaluate t (1 : ℕ) = .ok v ∧ List.Forall₂ (Close (1 / 2 ^ 53) 6) c (vals p.coeffs) ∧
      v.val = iteratedDeriv 1 (curve c) t.val := by
  obtain ⟨v, c, h1, h2, h3⟩ := C99_evaluate round53_rounding ⟨[⟨1⟩, ⟨2⟩, ⟨3⟩]⟩ (by simp [Poly.N]) ⟨1 / 3⟩ 1
  exact ⟨_, _, c, v, rfl, by norm_num, h1, h2, h3⟩

/-! ### C100 arithmetic of polynomials with rounding -/

/-- **C100.** Every coefficient of a sum is rounded once. -/
theorem C100_sum (h : Rounding rnd u) (p q : Poly (Fl rnd)) (hpq : p.N = q.N) :
    ∃ r, p.add q = .ok r ∧ r.N = p.N ∧ ∀ (i : ℕ) x y, p.coeffs[i]? = some x → q.coeffs[i]? = some y →
      ∃ z, r.coeffs[i]? = some z ∧ |z.val - (x.val + y.val)| ≤ u * |x.val + y.val| := by
  refine ⟨_, if_pos hpq, ?_, fun i x y hx hy => ⟨x + y, ?_, h.rel _⟩⟩
  · unfold Poly.N at hpq ⊢
    simp [← hpq]
  · rw [List.getElem?_zipWith, hx, hy]

/-- **C100.** The error of every coefficient of a product is a multiple of the coefficient of the product of the
polynomials with the absolute values: at most `n + 1` relative errors, `n` the number of coefficients of the second
factor. -/
theorem C100_product (h : Rounding rnd u) (p q : Poly (Fl rnd)) (hpq : 0 < p.N + q.N) :
    ∃ r, p.mul q = .ok r ∧ r.N = p.N + q.N - 1 ∧ ∀ (i : ℕ) z, r.coeffs[i]? = some z →
      |z.val - (ofCoeffs (vals p.coeffs) * ofCoeffs (vals q.coeffs)).coeff i| ≤
        ((1 + u) ^ (q.N + 1) - 1) *
          (ofCoeffs ((vals p.coeffs).map abs) * ofCoeffs ((vals q.coeffs).map abs)).coeff i := by
  have hu := rounding_nonneg h
  have hc : convolve p.coeffs q.coeffs =
      .ok ((List.range (p.coeffs.length + q.coeffs.length - 1)).map (convolveEntry p.coeffs q.coeffs)) := by
    unfold convolve
    rw [if_neg (by unfold Poly.N at hpq; omega)]
  refine ⟨⟨(List.range (p.coeffs.length + q.coeffs.length - 1)).map (convolveEntry p.coeffs q.coeffs)⟩, ?_,
    by simp [Poly.N], fun i z hz => ?_⟩
  · unfold Poly.mul
    rw [hc]
    rfl
  · rw [List.getElem?_map, Option.map_eq_some_iff] at hz
    obtain ⟨i', hi', rfl⟩ := hz
    obtain ⟨hi, rfl⟩ := List.getElem?_eq_some_iff.mp hi'
    rw [List.length_range] at hi
    rw [List.getElem_range] at *
    have hconv : ∀ a b : List ℝ, a.length = p.coeffs.length → b.length = q.coeffs.length →
        (ofCoeffs a * ofCoeffs b).coeff i = convolveEntry a b i := by
      intro a b ha hb
      obtain ⟨c, h1, h2, h3⟩ := convolve_ok a b (by rw [ha, hb]; exact hpq)
      unfold convolve at h1
      rw [if_neg (by rw [ha, hb]; unfold Poly.N at hpq; omega), Res.ok.injEq] at h1
      rw [← h3, ← h1, coeff_ofCoeffs, List.getD_eq_getElem?_getD, List.getElem?_map,
        List.getElem?_range (by rw [ha, hb]; exact hi)]
      rfl
    have l1 : (vals p.coeffs).length = p.coeffs.length := by simp [vals]
    have l2 : (vals q.coeffs).length = q.coeffs.length := by simp [vals]
    rw [hconv _ _ l1 l2, hconv _ _ (by rw [List.length_map, l1]) (by rw [List.length_map, l2])]
    have gv : ∀ (l : List (Fl rnd)) (n : ℕ), (vals l).getD n 0 = (l.getD n 0).val := by
      intro l n
      unfold vals
      rw [List.getD_eq_getElem?_getD, List.getElem?_map, List.getD_eq_getElem?_getD]
      cases l[n]? <;> rfl
    have ga : ∀ (l : List ℝ) (n : ℕ), (l.map abs).getD n 0 = |l.getD n 0| := by
      intro l n
      rw [List.getD_eq_getElem?_getD, List.getElem?_map, List.getD_eq_getElem?_getD]
      cases l[n]? <;> simp
    have rv : (vals q.coeffs).reverse = vals q.coeffs.reverse := by simp [vals]
    have ra : ((vals q.coeffs).map abs).reverse = (vals q.coeffs.reverse).map abs := by simp [vals]
    have fold : ∀ (f : ℕ → ℝ) (n : ℕ), (List.range n).foldl (fun acc s => acc + f s) 0 = ((List.range n).map f).sum := by
      intro f n
      induction n with
      | zero => rfl
      | succ n ih => rw [List.range_succ, List.foldl_append, ih]; simp
    unfold convolveEntry
    simp only [l1, l2, List.length_map, rv, ra, ga, gv]
    rw [fold, fold]
    set lo : ℤ := max 0 (-((i : ℤ) - q.coeffs.length + 1)) with hlo
    set hi' : ℤ := min (q.coeffs.length : ℤ) (p.coeffs.length - ((i : ℤ) - q.coeffs.length + 1)) with hhi
    have key := foldl_rounded h (fun s : ℕ => q.coeffs.reverse.getD (lo + s).toNat 0)
      (fun s : ℕ => p.coeffs.getD ((i : ℤ) - q.coeffs.length + 1 + lo + s).toNat 0) (List.range (hi' - lo).toNat) 0
    have e0 : (0 : Fl rnd).val = 0 := rfl
    rw [e0, zero_add, abs_zero, mul_zero, zero_add, List.length_range] at key
    refine key.trans (mul_le_mul_of_nonneg_right ?_ ?_)
    · refine sub_le_sub_right (pow_le_pow_right₀ (by linarith) ?_) 1
      unfold Poly.N
      omega
    · refine List.sum_nonneg fun x hx => ?_
      obtain ⟨s, -, rfl⟩ := List.mem_map.mp hx
      positivity

/-- **C100.** A polynomial scaled in time by `b` and then evaluated at `t`: the result is the exact value at `b t`
of a polynomial whose coefficients differ from the original ones by at most `3 N` relative errors. -/
theorem C100_scale (h : Rounding rnd u) (p : Poly (Fl rnd)) (hN : p.N ≤ 22) (b t : Fl rnd) :
    ∃ v c, (p.scaleInTime b).evaluate t 0 = .ok v ∧ List.Forall₂ (Close u (3 * p.N)) c (vals p.coeffs) ∧
      v.val = curve c (b.val * t.val) := by
  have hu := rounding_nonneg h
  have hlen : ∀ (l : List (Fl rnd)) (s : Fl rnd), (scaleLoop b s l).length = l.length := by
    intro l
    induction l with
    | nil => intro s; rfl
    | cons c l ih => intro s; simp [scaleLoop, ih]
  have hN' : (p.scaleInTime b).N = p.N := hlen _ _
  obtain ⟨v, c, h1, h2, h3⟩ := C99_evaluate h (p.scaleInTime b) (by rw [hN']; exact hN) t 0
  rw [hN'] at h2
  have hcl : c.length = p.coeffs.length := by
    rw [h2.length_eq]
    simp only [vals, List.length_map]
    exact hN'
  have key : ∀ j, j < p.coeffs.length → ∃ θ, |θ| ≤ (1 + u) ^ (3 * p.N) - 1 ∧
      c.getD j 0 = (p.coeffs.getD j 0).val * b.val ^ j * (1 + θ) := by
    intro j hj
    obtain ⟨y, θ, g1, g2, g3⟩ := scaleLoop_rounded h b p.coeffs 0 1 ⟨0, factor_zero hu _, by
      change (1 : ℝ) = _
      simp⟩ j p.coeffs[j] (List.getElem?_eq_getElem hj)
    have hjl : j < (scaleLoop b 1 p.coeffs).length := by rw [hlen]; exact hj
    have h4 := (List.forall₂_iff_get.mp h2).2 j (by rw [hcl]; exact hj) (by simpa [vals, Poly.scaleInTime] using hjl)
    rw [List.getElem?_eq_getElem hjl, Option.some.injEq] at g1
    simp only [List.get_eq_getElem, vals, List.getElem_map, Poly.scaleInTime] at h4
    rw [g1] at h4
    obtain ⟨η, g4, g5⟩ := close_factor hu h4
    obtain ⟨ζ, g6, g7⟩ := factor_mul hu g2 g4
    refine ⟨ζ, factor_mono hu ?_ g7, ?_⟩
    · have : j < p.N := hj
      omega
    · rw [List.getD_eq_getElem?_getD, List.getElem?_eq_getElem (by rw [hcl]; exact hj), Option.getD_some, g5, g3,
        List.getD_eq_getElem?_getD, List.getElem?_eq_getElem hj, Option.getD_some, ← g6, zero_add]
      ring
  choose! θ k1 k2 using key
  refine ⟨v, (List.range p.coeffs.length).map fun j => (p.coeffs.getD j 0).val * (1 + θ j), h1, ?_, ?_⟩
  · rw [List.forall₂_iff_get]
    refine ⟨by simp [vals], fun j hj hj' => ?_⟩
    simp only [List.length_map, List.length_range] at hj
    simp only [List.get_eq_getElem, List.getElem_map, List.getElem_range, vals]
    rw [List.getD_eq_getElem?_getD, List.getElem?_eq_getElem hj]
    exact close_of_factor (k1 j hj)
  · rw [h3, iteratedDeriv_zero]
    unfold curve
    rw [hcl, List.length_map, List.length_range]
    refine Finset.sum_congr rfl fun j hj => ?_
    have hj := Finset.mem_range.mp hj
    rw [k2 j hj, List.getD_eq_getElem?_getD (l := List.map _ _), List.getElem?_map, List.getElem?_range hj,
      Option.map_some, Option.getD_some, mul_pow]
    ring

example : ∃ (p q r : Poly (Fl round53)), p.mul q = .ok r ∧ p.N = 2 ∧ q.N = 3 ∧ r.N = 4 := by
  obtain ⟨r, h1, h2, -⟩ := C100_product round53_rounding ⟨[⟨1⟩, ⟨1 / 3⟩]⟩ ⟨[⟨2⟩, ⟨1 / 5⟩, ⟨7⟩]⟩ (by simp [Poly.N])
  exact ⟨_, _, r, h1, rfl, rfl, h2⟩

/-! ### C101 finding the segment with rounding -/

/-- **C101.** With rounding, a time that is not greater than `getMaxTime()` is never reported as outside the
trajectory. The segment `i` that is used is the one that contains `t` up to relative errors of its start and its end,
and the time inside the segment is `t` minus the exact start of the segment up to `u t` and `i + 3` relative errors of
the end of the segment. (No assumption about rounding but `Rounding` is used.) -/
theorem C101_lookup (h : Rounding rnd u) {segs : List (Segment (Fl rnd))} {tr : Trajectory (Fl rnd)}
    (hset : Trajectory.setSegments segs = .ok tr) (hn : ∀ s ∈ segs, 0 ≤ s.time.val) (t : Fl rnd) (ht0 : 0 ≤ t.val)
    (ht1 : t.val ≤ tr.maxTime.val) (d : ℕ) :
    ∃ i s τ, segs[i]? = some s ∧ tr.evaluate t d = s.evaluate τ d ∧
      exactStart segs i - ((1 + u) ^ (i + 1) - 1) * exactStart segs i ≤ t.val ∧
      t.val ≤ exactStart segs (i + 1) + ((1 + u) ^ (i + 1) - 1) * exactStart segs (i + 1) ∧
      |τ.val - (t.val - exactStart segs i)| ≤ u * t.val + ((1 + u) ^ (i + 3) - 1) * exactStart segs (i + 1) := by
  have hu := rounding_nonneg h
  obtain ⟨hne, e1, e2⟩ := setSegments_fold hset
  have hpos : 0 < segs.length := List.length_pos_iff.mpr hne
  have local_time := fun i s a hs hc => (local_time_rounded h hn t ht0 i s a hs hc).2
  have lower : ∀ {m : ℕ} {x y : ℝ}, 0 ≤ y → Close u m x y → y - ((1 + u) ^ m - 1) * y ≤ x := by
    intro m x y hy hc
    unfold Close at hc
    rw [abs_of_nonneg hy] at hc
    linarith [(abs_le.mp hc).1]
  have upper : ∀ {m : ℕ} {x y : ℝ}, 0 ≤ y → Close u m x y → x ≤ y + ((1 + u) ^ m - 1) * y := by
    intro m x y hy hc
    unfold Close at hc
    rw [abs_of_nonneg hy] at hc
    linarith [(abs_le.mp hc).2]
  obtain ⟨k, a, g1, g2⟩ := findSegment_rounded h hn t segs.length 0 0 (by omega) (by omega)
    (by unfold Close exactStart; simp; rfl) (by omega)
  rw [List.drop_zero] at g1 g2
  rcases g2 with ⟨hk, hlt, hc, b, hb1, hb2⟩ | ⟨hk, hc, hle, hfold⟩
  · have hs : segs[k]? = some segs[k] := List.getElem?_eq_getElem hk
    refine ⟨k, segs[k], t - (a - segs[k].time), hs, ?_, ?_, ?_, local_time k _ a hs hc⟩
    · unfold Trajectory.evaluate
      rw [e1, g1]
      dsimp only
      rw [if_neg (show ¬ t > a from not_lt.mpr hlt.le), if_neg (by omega), Res.at'_of_lt hk, Res.ok_bind]
    · rcases Nat.eq_zero_or_pos k with h0 | h0
      · subst h0
        simp [exactStart]
        exact ht0
      · exact (lower (exactStart_nonneg hn k) (close_mono hu (Nat.le_succ k) hb1)).trans (hb2 h0)
    · exact hlt.le.trans (upper (exactStart_nonneg hn _) hc)
  · have hk' : segs.length - 1 < segs.length := by omega
    have hs : segs[segs.length - 1]? = some segs[segs.length - 1] := List.getElem?_eq_getElem hk'
    have hk1 : segs.length - 1 + 1 = k := by omega
    refine ⟨segs.length - 1, segs[segs.length - 1], t - (a - segs[segs.length - 1].time), hs, ?_, ?_, ?_,
      local_time _ _ a hs (by rw [hk1]; exact hc)⟩
    · unfold Trajectory.evaluate
      rw [e1, g1]
      dsimp only
      rw [if_neg, if_pos (by omega), Res.at'_of_lt hk', Res.ok_bind]
      rw [hfold, ← e2]
      exact not_lt.mpr ht1
    · have h1 : exactStart segs (segs.length - 1) ≤ exactStart segs k := by
        rw [← hk1, exactStart_succ hs]
        linarith [hn _ (List.getElem_mem hk')]
      have h2 := lower (exactStart_nonneg hn k) hc
      have h3 := hle (by omega)
      have h4 := exactStart_nonneg hn (segs.length - 1)
      rw [hk1]
      by_cases hg : (1 + u) ^ k - 1 ≤ 1
      · have : exactStart segs (segs.length - 1) * (1 - ((1 + u) ^ k - 1)) ≤ exactStart segs k * (1 - ((1 + u) ^ k - 1)) :=
          mul_le_mul_of_nonneg_right h1 (by linarith)
        linarith
      · have : exactStart segs (segs.length - 1) ≤ ((1 + u) ^ k - 1) * exactStart segs (segs.length - 1) :=
          le_mul_of_one_le_left h4 (by linarith)
        linarith
    · rw [hk1]
      refine ht1.trans (le_of_eq_of_le ?_ (upper (exactStart_nonneg hn k) hc))
      rw [hfold, ← e2]

/-- **C101.** With rounding, a time after `getMaxTime()` gives the zero vector. -/
theorem C101_beyond (h : Rounding rnd u) {segs : List (Segment (Fl rnd))} {tr : Trajectory (Fl rnd)}
    (hset : Trajectory.setSegments segs = .ok tr) (hn : ∀ s ∈ segs, 0 ≤ s.time.val) (t : Fl rnd)
    (ht1 : tr.maxTime.val < t.val) (d : ℕ) :
    tr.evaluate t d = .ok (List.replicate tr.D 0) := by
  obtain ⟨hne, e1, e2⟩ := setSegments_fold hset
  have step : ∀ (l : List (Segment (Fl rnd))) (acc : Fl rnd) (i : ℕ), (∀ s ∈ l, 0 ≤ s.time.val) →
      rnd acc.val = acc.val →
      acc.val ≤ ((l.map fun s => s.time).foldl (· + ·) acc).val ∧
      (((l.map fun s => s.time).foldl (· + ·) acc).val < t.val →
        findSegment t l acc i = (i + l.length, (l.map fun s => s.time).foldl (· + ·) acc)) := by
    intro l
    induction l with
    | nil => intro acc i _ _; exact ⟨le_rfl, fun _ => rfl⟩
    | cons s l ih =>
      intro acc i hl hr
      have h1 : acc.val ≤ (acc + s.time).val := by
        change acc.val ≤ rnd (acc.val + s.time.val)
        rw [← hr]
        refine (h.mono ?_)
        rw [hr]
        linarith [hl s (by simp)]
      obtain ⟨g1, g2⟩ := ih (acc + s.time) (i + 1) (fun s hs => hl s (by simp [hs])) (h.idem _)
      refine ⟨h1.trans g1, fun hlt => ?_⟩
      rw [findSegment, if_neg]
      · rw [g2 hlt]
        simp only [List.length_cons, List.map_cons, List.foldl_cons]
        congr 1
        omega
      · exact not_lt.mpr (g1.trans hlt.le)
  obtain ⟨-, g⟩ := step segs 0 0 hn (rnd_zero h)
  unfold Trajectory.evaluate
  rw [e1, g (by rw [← e2]; exact ht1)]
  dsimp only
  rw [if_pos (by rw [← e2]; exact ht1)]

/-- Two segments used as an example. -/
noncomputable def exRounded : List (Segment (Fl round53)) :=
  [⟨[⟨[⟨1⟩, ⟨2⟩]⟩], ⟨1⟩, 2⟩, ⟨[⟨[⟨3⟩, ⟨4⟩]⟩], ⟨1 / 2⟩, 2⟩]

example : ∃ tr, Trajectory.setSegments exRounded = .ok tr ∧ (∀ s ∈ exRounded, 0 ≤ s.time.val) ∧
    (1 : ℝ) ≤ tr.maxTime.val := by
  have r1 : round53 1 = 1 := by
    rw [round53_eq 0 (2 ^ 52) (by norm_num) (by norm_num) (by norm_num) (by norm_num)]; norm_num
  refine ⟨⟨1, 2, ⟨round53 (round53 (0 + 1) + 1 / 2)⟩, exRounded⟩, rfl, ?_, ?_⟩
  · intro s hs
    simp only [exRounded, List.mem_cons, List.not_mem_nil, or_false] at hs
    rcases hs with rfl | rfl <;> norm_num
  · change (1 : ℝ) ≤ round53 (round53 (0 + 1) + 1 / 2)
    rw [zero_add, r1]
    have := round53_rounding.mono (by norm_num : (1 : ℝ) ≤ 1 + 1 / 2)
    rwa [r1] at this

/-! ### C102 sampling with rounding -/

/-- **C102.** The sampling times of `evaluateRange` begin at the start of the segment that contains the start time
and are the multiples of the interval from there up to relative errors, one for each sample. The values are those of
a segment at the matching time inside it, up to one relative error for each sample and each segment. `i0`, `start`
and `offset` are the segment in which sampling begins, the time reported for the first sample and its time in the
segment. Missing: the number of samples (`C102_count_false`). -/
theorem C102_samples_partial (h : Rounding rnd u) {tr : Trajectory (Fl rnd)} (hn : ∀ s ∈ tr.segments, 0 ≤ s.time.val)
    {fuel : ℕ} {tStart tEnd dt : Fl rnd} (ht0 : 0 ≤ tStart.val) (hdt : 0 ≤ dt.val) {d : ℤ}
    {l : List (Fl rnd × List (Fl rnd))} (hl : tr.evaluateRange fuel tStart tEnd dt d = .ok l) (hne : l ≠ []) :
    ∃ (i0 : ℕ) (start offset : ℝ),
      |start - exactStart tr.segments i0| ≤ ((1 + u) ^ (i0 + 2) - 1) * exactStart tr.segments (i0 + 1) ∧
      |offset - (tStart.val - exactStart tr.segments i0)| ≤
        u * tStart.val + ((1 + u) ^ (i0 + 3) - 1) * exactStart tr.segments (i0 + 1) ∧
      ∀ (j : ℕ) time v, l[j]? = some (time, v) → time.val < tEnd.val ∧
      |time.val - (start + j * dt.val)| ≤ ((1 + u) ^ j - 1) * (|start| + j * dt.val) ∧
      ∃ k s τ, i0 ≤ k ∧ tr.segments[k]? = some s ∧ s.evaluate τ d = .ok v ∧ τ.val ≤ s.time.val ∧
        |τ.val - (offset + j * dt.val - (exactStart tr.segments k - exactStart tr.segments i0))| ≤
          ((1 + u) ^ (j + (k - i0)) - 1) *
            (|offset| + j * dt.val + (exactStart tr.segments k - exactStart tr.segments i0)) := by
  have hu := rounding_nonneg h
  unfold Trajectory.evaluateRange at hl
  by_cases h1 : dt = 0 ∨ (tEnd - tStart) / dt + 1 ≤ -1
  · rw [if_pos h1] at hl
    simp at hl
  rw [if_neg h1] at hl
  dsimp only at hl
  by_cases h2 : tStart > (findSegment tStart tr.segments 0 0).2
  · rw [if_pos h2, Res.ok.injEq] at hl
    exact absurd hl.symm hne
  · rw [if_neg h2, Res.bind_eq_ok] at hl
    obtain ⟨s, hs, hl⟩ := hl
    rw [Res.at'_eq_ok] at hs
    obtain ⟨i0, a, g1, g2⟩ := findSegment_rounded h hn tStart tr.segments.length 0 0 (by omega) (by omega)
      (by unfold Close exactStart; simp; rfl) (by omega)
    rw [List.drop_zero] at g1
    rw [g1] at hl hs
    dsimp only at hl hs
    have hc : Close u (i0 + 1) a.val (exactStart tr.segments (i0 + 1)) := by
      rcases g2 with ⟨-, -, hc, -⟩ | ⟨hk, -⟩
      · exact hc
      · rw [hk, List.getElem?_length] at hs
        simp at hs
    obtain ⟨k1, k2⟩ := local_time_rounded h hn tStart ht0 i0 s a hs hc
    refine ⟨i0, _, _, k1, k2, fun j time v hj => ?_⟩
    obtain ⟨g0, k, s', τ, g1, g2, g3, g4, g5, g6⟩ := evaluateRangeLoop_rounded h hn tEnd dt hdt d fuel _ _ _ l 0 0
      _ _ _ _ hl (by rw [sub_self, abs_zero, pow_zero, sub_self, zero_mul]) le_rfl
      (by rw [sub_self, abs_zero, pow_zero, sub_self, zero_mul]) le_rfl j time v hj
    rw [zero_add] at g5
    rw [zero_add] at g6
    exact ⟨g0, g5, k, s', τ, g1, g2, g3, g4, g6⟩

/-- The interval 0.1 as a number with 53 bits. -/
noncomputable def tenth : Fl round53 := ⟨7205759403792794 / 2 ^ 56⟩

/-- A segment of duration 1. -/
noncomputable def exSecond : Trajectory (Fl round53) := ⟨1, 1, ⟨1⟩, [⟨[⟨[⟨5⟩]⟩], ⟨1⟩, 1⟩]⟩

/-- Eleven samples of one second. -/
theorem exSecond_samples : ∃ l, exSecond.evaluateRange 12 0 ⟨1⟩ tenth 0 = .ok l ∧ l.length = 11 := by
  have r1 : round53 1 = 1 := by
    rw [round53_eq 0 (2 ^ 52) (by norm_num) (by norm_num) (by norm_num) (by norm_num)]; norm_num
  have r0 : round53 0 = 0 := rnd_zero round53_rounding
  have s1 : round53 (0 + 7205759403792794 / 2 ^ 56) = 7205759403792794 / 2 ^ 56 := by
    rw [round53_eq_even (-4) 7205759403792794 (by decide) (by norm_num) (by norm_num) (by norm_num) (by norm_num)]
    norm_num
  have s2 : round53 (7205759403792794 / 2 ^ 56 + 7205759403792794 / 2 ^ 56) = 7205759403792794 / 2 ^ 55 := by
    rw [round53_eq_even (-3) 7205759403792794 (by decide) (by norm_num) (by norm_num) (by norm_num) (by norm_num)]
    norm_num
  have s3 : round53 (7205759403792794 / 2 ^ 55 + 7205759403792794 / 2 ^ 56) = 5404319552844596 / 2 ^ 54 := by
    rw [round53_eq_even (-2) 5404319552844596 (by decide) (by norm_num) (by norm_num) (by norm_num) (by norm_num)]
    norm_num
  have s4 : round53 (5404319552844596 / 2 ^ 54 + 7205759403792794 / 2 ^ 56) = 7205759403792794 / 2 ^ 54 := by
    rw [round53_eq_even (-2) 7205759403792794 (by decide) (by norm_num) (by norm_num) (by norm_num) (by norm_num)]
    norm_num
  have s5 : round53 (7205759403792794 / 2 ^ 54 + 7205759403792794 / 2 ^ 56) = 4503599627370496 / 2 ^ 53 := by
    rw [round53_eq_even (-1) 4503599627370496 (by decide) (by norm_num) (by norm_num) (by norm_num) (by norm_num)]
    norm_num
  have s6 : round53 (4503599627370496 / 2 ^ 53 + 7205759403792794 / 2 ^ 56) = 5404319552844595 / 2 ^ 53 := by
    rw [round53_eq (-1) 5404319552844595 (by norm_num) (by norm_num) (by norm_num) (by norm_num)]
    norm_num
  have s7 : round53 (5404319552844595 / 2 ^ 53 + 7205759403792794 / 2 ^ 56) = 6305039478318694 / 2 ^ 53 := by
    rw [round53_eq_even (-1) 6305039478318694 (by decide) (by norm_num) (by norm_num) (by norm_num) (by norm_num)]
    norm_num
  have s8 : round53 (6305039478318694 / 2 ^ 53 + 7205759403792794 / 2 ^ 56) = 7205759403792793 / 2 ^ 53 := by
    rw [round53_eq (-1) 7205759403792793 (by norm_num) (by norm_num) (by norm_num) (by norm_num)]
    norm_num
  have s9 : round53 (7205759403792793 / 2 ^ 53 + 7205759403792794 / 2 ^ 56) = 8106479329266892 / 2 ^ 53 := by
    rw [round53_eq_even (-1) 8106479329266892 (by decide) (by norm_num) (by norm_num) (by norm_num) (by norm_num)]
    norm_num
  have s10 : round53 (8106479329266892 / 2 ^ 53 + 7205759403792794 / 2 ^ 56) = 9007199254740991 / 2 ^ 53 := by
    rw [round53_eq (-1) 9007199254740991 (by norm_num) (by norm_num) (by norm_num) (by norm_num)]
    norm_num
  have s11 : round53 (9007199254740991 / 2 ^ 53 + 7205759403792794 / 2 ^ 56) = 4953959590107545 / 2 ^ 52 := by
    rw [round53_eq (0) 4953959590107545 (by norm_num) (by norm_num) (by norm_num) (by norm_num)]
    norm_num
  have step : ∀ (fuel n : ℕ) (a b : ℝ), round53 (a + 7205759403792794 / 2 ^ 56) = b → a < 1 →
      (∃ l, evaluateRangeLoop exSecond.segments ⟨1⟩ tenth 0 fuel 0 ⟨b⟩ ⟨b⟩ = .ok l ∧ l.length = n) →
      ∃ l, evaluateRangeLoop exSecond.segments ⟨1⟩ tenth 0 (fuel + 1) 0 ⟨a⟩ ⟨a⟩ = .ok l ∧ l.length = n + 1 := by
    intro fuel n a b hb ha ⟨l, hl1, hl2⟩
    subst hb
    obtain ⟨v, hv, -⟩ := C99_segment round53_rounding ⟨[⟨[⟨5⟩]⟩], ⟨1⟩, 1⟩ (by simp [Poly.N]) ⟨a⟩ 0
    refine ⟨(⟨a⟩, v) :: l, ?_, by simp [hl2]⟩
    rw [evaluateRangeLoop, if_pos (show (⟨a⟩ : Fl round53) < ⟨1⟩ from ha)]
    have hat : Res.at' exSecond.segments 0 = .ok ⟨[⟨[⟨5⟩]⟩], ⟨1⟩, 1⟩ := rfl
    rw [hat, Res.ok_bind, if_neg (show ¬ (⟨a⟩ : Fl round53) > ⟨1⟩ from not_lt.mpr ha.le)]
    rw [show ((0 : ℕ) : ℤ) = 0 from rfl] at hv
    rw [hv, Res.ok_bind]
    have : (⟨a⟩ : Fl round53) + tenth = ⟨round53 (a + 7205759403792794 / 2 ^ 56)⟩ := rfl
    rw [this, hl1]
    rfl
  have done : ∃ l, evaluateRangeLoop exSecond.segments ⟨1⟩ tenth 0 1 0 ⟨4953959590107545 / 2 ^ 52⟩
      ⟨4953959590107545 / 2 ^ 52⟩ = .ok l ∧ l.length = 0 := by
    refine ⟨[], ?_, rfl⟩
    rw [evaluateRangeLoop, if_neg]
    change ¬ (4953959590107545 / 2 ^ 52 : ℝ) < 1
    norm_num
  have all := step _ _ _ _ s1 (by norm_num) (step _ _ _ _ s2 (by norm_num) (step _ _ _ _ s3 (by norm_num)
    (step _ _ _ _ s4 (by norm_num) (step _ _ _ _ s5 (by norm_num) (step _ _ _ _ s6 (by norm_num)
    (step _ _ _ _ s7 (by norm_num) (step _ _ _ _ s8 (by norm_num) (step _ _ _ _ s9 (by norm_num)
    (step _ _ _ _ s10 (by norm_num) (step _ _ _ _ s11 (by norm_num) done))))))))))
  obtain ⟨l, hl1, hl2⟩ := all
  have hfind : findSegment (0 : Fl round53) exSecond.segments 0 0 = (0, ⟨1⟩) := by
    have : (0 : Fl round53) + ⟨1⟩ = ⟨1⟩ := by
      change (⟨round53 (0 + 1)⟩ : Fl round53) = _
      rw [zero_add, r1]
    unfold exSecond
    rw [findSegment, this, if_pos]
    change (0 : ℝ) < 1
    norm_num
  have hrange : exSecond.evaluateRange 12 0 ⟨1⟩ tenth 0 = .ok l := by
    unfold Trajectory.evaluateRange
    rw [if_neg]
    · rw [hfind]
      dsimp only
      rw [if_neg (show ¬ (0 : Fl round53) > ⟨1⟩ from not_lt.mpr (by change (0 : ℝ) ≤ 1; norm_num))]
      have hat : Res.at' exSecond.segments 0 = .ok ⟨[⟨[⟨5⟩]⟩], ⟨1⟩, 1⟩ := rfl
      rw [hat, Res.ok_bind]
      have e1 : (⟨1⟩ : Fl round53) - ⟨1⟩ = ⟨0⟩ := by
        change (⟨round53 (1 - 1)⟩ : Fl round53) = _
        rw [sub_self, r0]
      have e2 : (0 : Fl round53) - ⟨0⟩ = ⟨0⟩ := by
        change (⟨round53 (0 - 0)⟩ : Fl round53) = _
        rw [sub_self, r0]
      rw [e1, e2]
      exact hl1
    · rintro (h | h)
      · have := congrArg Fl.val h
        change (7205759403792794 / 2 ^ 56 : ℝ) = 0 at this
        norm_num at this
      · change round53 (round53 (round53 (1 - 0) / (7205759403792794 / 2 ^ 56)) + 1) ≤ -1 at h
        have m := round53_rounding.mono
        have a1 : 0 ≤ round53 (round53 (1 - 0) / (7205759403792794 / 2 ^ 56)) := by
          rw [sub_zero, r1]
          have := m (show (0 : ℝ) ≤ 1 / (7205759403792794 / 2 ^ 56) by norm_num)
          rwa [r0] at this
        have a2 := m (show (0 : ℝ) ≤ round53 (round53 (1 - 0) / (7205759403792794 / 2 ^ 56)) + 1 by linarith)
        rw [r0] at a2
        linarith
  exact ⟨l, hrange, hl2⟩

/-- **C102**, a limit: the number of samples is not the one of exact arithmetic. With rounding to 53 bits, a
trajectory of one second sampled every 0.1 seconds (the nearest number of 53 bits, which is above 0.1) has eleven
samples, the last of them `2^-53` before the end, although `10 * 0.1` is not less than 1. -/
theorem C102_count_false : ¬ ∀ (tr : Trajectory (Fl round53)) (fuel : ℕ) (tEnd dt : Fl round53)
    (l : List (Fl round53 × List (Fl round53))), tr.evaluateRange fuel 0 tEnd dt 0 = .ok l → 0 < dt.val →
    tEnd = tr.maxTime → (l.length : ℝ) < tEnd.val / dt.val + 1 := by
  intro H
  obtain ⟨l, hrange, hl2⟩ := exSecond_samples
  have h2 := H exSecond 12 ⟨1⟩ tenth l hrange (by unfold tenth; norm_num) rfl
  rw [hl2] at h2
  unfold tenth at h2
  norm_num at h2

example : ∃ (tr : Trajectory (Fl round53)) (fuel : ℕ) (tEnd dt : Fl round53) (l : List _),
    (∀ s ∈ tr.segments, 0 ≤ s.time.val) ∧ 0 ≤ (0 : Fl round53).val ∧ 0 ≤ dt.val ∧
      tr.evaluateRange fuel 0 tEnd dt 0 = .ok l ∧ l ≠ [] := by
  obtain ⟨l, h1, h2⟩ := exSecond_samples
  refine ⟨exSecond, 12, ⟨1⟩, tenth, l, ?_, le_rfl, by unfold tenth; norm_num, h1, by rintro rfl; simp at h2⟩
  intro s hs
  simp only [exSecond, List.mem_cons, List.not_mem_nil, or_false] at hs
  subst hs
  norm_num

end Verif
