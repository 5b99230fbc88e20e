import Verif.Proofs.RpolyQuadStep
import Mathlib.Algebra.Polynomial.Div
import Mathlib.Tactic.ComputeDegree

/-
The new quadratic computed by the root finder.
-/
namespace Verif
open Verif.Spec Polynomial

theorem quadr_natDegree (u v : ℝ) : (quadr u v).natDegree = 2 := by
  unfold quadr
  compute_degree!

theorem quadr_dvd_linear (u v r1 r0 : ℝ) (h : quadr u v ∣ C r1 * X + C r0) : r1 = 0 ∧ r0 = 0 := by
  have hz : (C r1 * X + C r0 : ℝ[X]) = 0 := by
    by_contra hne
    have h1 := natDegree_le_of_dvd h hne
    have h2 : (C r1 * X + C r0 : ℝ[X]).natDegree ≤ 1 := natDegree_linear_le
    rw [quadr_natDegree] at h1
    omega
  constructor
  · have := congrArg (fun f => coeff f 1) hz
    simpa [coeff_C] using this
  · have := congrArg (fun f => coeff f 0) hz
    simpa using this

theorem quadr_coprime_X (u v : ℝ) (hv : v ≠ 0) : IsCoprime (quadr u v) X := by
  refine ⟨C (1 / v), C (-(1 / v)) * (X + C u), ?_⟩
  have e : (C (1 / v) * C v : ℝ[X]) = 1 := by rw [← C_mul, one_div, inv_mul_cancel₀ hv, C_1]
  unfold quadr
  rw [map_neg]
  linear_combination e

theorem quadr_dvd_X_sq (u v : ℝ) (hv : v ≠ 0) (Y : ℝ[X]) : quadr u v ∣ Y ↔ quadr u v ∣ X ^ 2 * Y :=
  ⟨fun h => h.mul_left _, fun h => (quadr_coprime_X u v hv).pow_right.dvd_of_dvd_mul_left h⟩

/-- When a combination of the polynomials is divisible. -/
theorem combination_dvd (u v a b c d b1 b2 x y z : ℝ) (hv : v ≠ 0) (P K K1 K2 Qp Qk : ℝ[X])
    (hP : P = quadr u v * Qp + C b * (X + C u) + C a) (hK : K = quadr u v * Qk + C d * (X + C u) + C c)
    (h1 : X * K1 = K + C b1 * P) (h2 : X * K2 = K1 + C b2 * P) :
    quadr u v ∣ C x * K + C y * K1 + C z * K2 ↔
      (y - x * u) * c + (z - x * v) * d + (b1 * y + b2 * z) * a + b1 * z * b = 0 ∧
      (z - x * v) * (d * u + c) - v * (y - x * u) * d + b1 * z * (b * u + a) - v * (b1 * y + b2 * z) * b = 0 := by
  rw [quadr_dvd_X_sq u v hv]
  have e : X ^ 2 * (C x * K + C y * K1 + C z * K2) =
      quadr u v * ((C x * X ^ 2 + C y * X + C z) * Qk + (C (b1 * y + b2 * z) * X + C (b1 * z)) * Qp +
        C x * (C d * X + C (d * u + c)) + C ((y - x * u) * d) + C ((b1 * y + b2 * z) * b)) +
      (C ((y - x * u) * c + (z - x * v) * d + (b1 * y + b2 * z) * a + b1 * z * b) * X +
       C ((z - x * v) * (d * u + c) - v * (y - x * u) * d + b1 * z * (b * u + a) - v * (b1 * y + b2 * z) * b)) := by
    have e1 : X ^ 2 * (C x * K + C y * K1 + C z * K2) = C x * X ^ 2 * K + C y * X * (X * K1) + C z * X * (X * K2) := by ring
    rw [e1, h2, h1]
    have e2 : C z * X * (K1 + C b2 * P) = C z * (X * K1) + C z * C b2 * X * P := by ring
    rw [e2, h1, hP, hK]
    simp only [map_add, map_sub, map_mul]
    unfold quadr
    ring
  rw [e, dvd_add_right (dvd_mul_right _ _)]
  constructor
  · exact quadr_dvd_linear u v _ _
  · rintro ⟨e1, e2⟩
    rw [e1, e2]
    simp

theorem newest_estimate (m : RMath ℝ) (hm : ExactMath m) (u v : ℝ) (p k : List ℝ) (r : List ℝ × ℝ × ℝ) (sc : SC ℝ)
    (w : ℝ × ℝ) (hp : p.length = k.length + 1) (hk : 2 ≤ k.length) (hv : v ≠ 0) (hp0 : (decPoly p).coeff 0 ≠ 0)
    (hr : quadSD u v p = .ok r) (hsc : calcSC m r.2.1 r.2.2 k u v = .ok sc)
    (h : newest m sc r.2.1 r.2.2 u v k p = .ok w) :
    QuadraticEstimate m.eps u v (decPoly p) (decPoly k) w.1 w.2 := by
  obtain ⟨lp, hlp, hP⟩ := quadSD_spec u v p r hr
  obtain ⟨⟨lk, hlk, hlk', hK⟩, hs⟩ := calcSC_ok m hm _ _ u v k sc hk hsc
  obtain ⟨q, a, b⟩ := r
  obtain ⟨qk, c, d, s⟩ := sc
  dsimp only at *
  have hP' : decPoly p = quadr u v * decPoly lp + C b * (X + C u) + C a := hP
  generalize hPP : decPoly p = P at *
  generalize hKK : decPoly k = KK at *
  have ex : ∀ Y : ℝ[X], ∃ Y', X * Y' = Y - C (Y.coeff 0 / P.coeff 0) * P := by
    intro Y
    have : X ∣ Y - C (Y.coeff 0 / P.coeff 0) * P := by
      rw [X_dvd_iff, coeff_sub, coeff_C_mul, div_mul_cancel₀ _ hp0, sub_self]
    obtain ⟨Y', e⟩ := this
    exact ⟨Y', e.symm⟩
  obtain ⟨K1, h1⟩ := ex KK
  obtain ⟨K2, h2⟩ := ex K1
  refine ⟨K1, K2, h1, h2, ?_⟩
  have hdK : quadr u v ∣ KK - (C d * (X + C u) + C c) := ⟨decPoly lk, by rw [hK]; ring⟩
  rcases hs with ⟨rfl, hc, hd⟩ | ⟨s', t, rfl, ok⟩
  · unfold newest at h
    dsimp only at h
    rw [Res.ok.injEq] at h
    subst h
    right
    refine ⟨by rw [num_eq]; simp, by rw [num_eq]; simp, Or.inr ⟨c, d, hdK, hc, hd⟩⟩
  · unfold newest at h
    dsimp only at h
    unfold newestScaled at h
    rw [Res.bind_eq_ok] at h
    obtain ⟨k1, hk1, h⟩ := h
    rw [Res.bind_eq_ok] at h
    obtain ⟨pn, hpn, h⟩ := h
    rw [Res.bind_eq_ok] at h
    obtain ⟨k2, hk2, h⟩ := h
    rw [Res.bind_eq_ok] at h
    obtain ⟨pn1, hpn1, h⟩ := h
    have c1 : k1 = KK.coeff 0 ∧ k2 = KK.coeff 1 := by
      obtain ⟨l, y, x, rfl⟩ := split_last_two k hk
      rw [← hKK, decPoly_coeff_zero', decPoly_coeff_one]
      have e : p.length - 1 = (l ++ [y, x]).length := by rw [hp]; simp
      rw [e] at hk1 hk2
      exact ⟨at'_last' _ _ _ _ _ (by simp) hk1, at'_butlast _ _ _ _ _ (by simp) hk2⟩
    have c2 : pn = P.coeff 0 ∧ pn1 = P.coeff 1 := by
      obtain ⟨l, y, x, rfl⟩ := split_last_two p (by omega)
      rw [← hPP, decPoly_coeff_zero', decPoly_coeff_one]
      exact ⟨at'_last' _ _ _ _ _ (by simp) hpn, at'_butlast _ _ _ _ _ (by simp) hpn1⟩
    have c3 : K1.coeff 0 = KK.coeff 1 - KK.coeff 0 / P.coeff 0 * P.coeff 1 := by
      have := congrArg (fun f => coeff f 1) h1
      simpa [coeff_X_mul, coeff_C_mul] using this
    dsimp only at h
    generalize hb1 : -k1 / pn = b1 at h
    generalize hb2 : -(k2 + b1 * pn1) / pn = b2 at h
    have hb1' : KK.coeff 0 / P.coeff 0 = -b1 := by rw [← hb1, c1.1, c2.1]; ring
    have hb2' : K1.coeff 0 / P.coeff 0 = -b2 := by
      rw [← hb2, c3, hb1', c1.2, c2.1, c2.2]; ring
    rw [hb1', map_neg, neg_mul, sub_neg_eq_add] at h1
    rw [hb2', map_neg, neg_mul, sub_neg_eq_add] at h2
    have comb := fun x y z => combination_dvd u v a b c d b1 b2 x y z hv P KK K1 K2 _ _ hP' hK h1 h2
    have comb1 : ∀ y z, quadr u v ∣ C y * K1 + C z * K2 ↔
        y * (c + b1 * a) + z * (d + b1 * b + b2 * a) = 0 ∧
        z * (d * u + c + b1 * (b * u + a) - b2 * v * b) - y * (v * (d + b1 * b)) = 0 := by
      intro y z
      have := comb 0 y z
      rw [C_0, zero_mul, zero_add] at this
      rw [this]
      constructor <;> rintro ⟨e1, e2⟩ <;> exact ⟨by linear_combination e1, by linear_combination e2⟩
    have a4 := ok.a4
    have a5 := ok.a5
    generalize (if s'.two then (a + s'.g) * s'.f + s'.h else a + u * b + s'.h * s'.f) = A4 at h a4
    generalize (if s'.two then (s'.f + u) * c + v * d else c + (u + v * s'.f) * d) = A5 at h a5
    have hdet : t * (-(-(b1 * s'.a7 + b1 * b1 * s'.a3) + v * b2 * s'.a1) + A5 + b1 * A4) =
        (c + b1 * a) * (d * u + c + b1 * (b * u + a) - b2 * v * b) + (d + b1 * b + b2 * a) * (v * (d + b1 * b)) := by
      linear_combination b1 * ok.a7 + b1 * b1 * ok.a3 - v * b2 * ok.a1 + a5 + b1 * a4
    generalize hT : -(-(b1 * s'.a7 + b1 * b1 * s'.a3) + v * b2 * s'.a1) + A5 + b1 * A4 = T at h hdet
    by_cases hz : m.isZero T = true
    · rw [if_pos hz, Res.pure_eq, Res.ok.injEq] at h
      rw [(hm.isZero T).mp hz, mul_zero] at hdet
      right
      refine ⟨by rw [← h, num_eq]; simp, by rw [← h, num_eq]; simp, Or.inl ?_⟩
      by_cases hA : c + b1 * a = 0 ∧ d + b1 * b + b2 * a = 0
      · by_cases hE : d * u + c + b1 * (b * u + a) - b2 * v * b = 0 ∧ v * (d + b1 * b) = 0
        · exact ⟨1, 0, Or.inl one_ne_zero, (comb1 1 0).mpr ⟨by rw [hA.1]; ring, by rw [hE.2]; ring⟩⟩
        · refine ⟨d * u + c + b1 * (b * u + a) - b2 * v * b, v * (d + b1 * b), ?_, (comb1 _ _).mpr ⟨?_, by ring⟩⟩
          · by_contra hcon
            push Not at hcon
            exact hE hcon
          · rw [hA.1, hA.2]; ring
      · refine ⟨d + b1 * b + b2 * a, -(c + b1 * a), ?_, (comb1 _ _).mpr ⟨by ring, ?_⟩⟩
        · by_contra hcon
          push Not at hcon
          exact hA ⟨by linarith [hcon.2], hcon.1⟩
        · linear_combination hdet
    · rw [if_neg hz, Res.pure_eq, Res.ok.injEq] at h
      have hT0 : T ≠ 0 := fun e => hz ((hm.isZero T).mpr e)
      have htT : t * T ≠ 0 := mul_ne_zero ok.ne hT0
      left
      constructor
      · have := (comb 1 w.1 w.2).mpr
        simp only [C_1, one_mul] at this
        apply this
        have hU : t * T * w.1 = ((c + b1 * a) * (d * u + c + b1 * (b * u + a) - b2 * v * b) +
            (d + b1 * b + b2 * a) * (v * (d + b1 * b))) * u - (u * (b1 * b1 * (a ^ 2 + u * a * b + v * b ^ 2) +
            b1 * (u * a * d + v * b * d + a * c)) + v * (b1 * (b * c - a * d) + b2 * (u * a * d + v * b * d + a * c))) := by
          rw [← hdet, ← ok.a3, ← ok.a7, ← ok.a1, ← h]
          dsimp only
          field_simp
          ring
        have hV : t * T * w.2 = v * ((c + b1 * a) * (d * u + c + b1 * (b * u + a) - b2 * v * b) +
            (d + b1 * b + b2 * a) * (v * (d + b1 * b)) + (-(b1 * (u * a * d + v * b * d + a * c) +
            b1 * b1 * (a ^ 2 + u * a * b + v * b ^ 2)) + v * b2 * (b * c - a * d))) := by
          rw [← hdet, ← ok.a3, ← ok.a7, ← ok.a1, ← h, num_eq]
          dsimp only
          push_cast
          field_simp
        constructor
        · apply mul_left_cancel₀ htT
          rw [mul_zero]
          linear_combination (c + b1 * a) * hU + (d + b2 * a + b1 * b) * hV - (u * c + v * d) * hdet
        · apply mul_left_cancel₀ htT
          rw [mul_zero]
          linear_combination (-v * d - v * b1 * b) * hU + (d * u + c + b1 * (b * u + a) - v * b2 * b) * hV -
            (v * (d * u + c) - v * u * d) * hdet
      · intro y z hyz
        obtain ⟨e1, e2⟩ := (comb1 y z).mp hyz
        have hne := htT
        rw [hdet] at hne
        constructor
        · have : y * ((c + b1 * a) * (d * u + c + b1 * (b * u + a) - b2 * v * b) +
              (d + b1 * b + b2 * a) * (v * (d + b1 * b))) = 0 := by
            linear_combination (d * u + c + b1 * (b * u + a) - b2 * v * b) * e1 - (d + b1 * b + b2 * a) * e2
          exact (mul_eq_zero.mp this).resolve_right hne
        · have : z * ((c + b1 * a) * (d * u + c + b1 * (b * u + a) - b2 * v * b) +
              (d + b1 * b + b2 * a) * (v * (d + b1 * b))) = 0 := by
            linear_combination (v * (d + b1 * b)) * e1 + (c + b1 * a) * e2
          exact (mul_eq_zero.mp this).resolve_right hne

end Verif
