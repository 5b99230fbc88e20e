import Verif.Proofs.RpolyRoundedZeros
import Verif.Proofs.RpolyBounds
import Verif.Proofs.RpolyChainOf
import Verif.Proofs.RoundedHalfPlane
import Mathlib.Data.List.GetD

/-
The test of the real iteration with rounding after every operation.
-/
set_option linter.unusedSectionVars false

namespace Verif

open Spec Polynomial

variable {rnd : ℝ → ℝ} {u : ℝ}

theorem rnd_le_mul (h : Rounding rnd u) {x y : ℝ} (hx : x ≤ y) (hy : 0 ≤ y) : rnd x ≤ (1 + u) * y := by
  have h1 := h.mono hx
  have h2 := (abs_le.mp (h.rel y)).2
  rw [abs_of_nonneg hy] at h2
  linarith

theorem rnd_nonneg' (h : Rounding rnd u) {x : ℝ} (hx : 0 ≤ x) : 0 ≤ rnd x := by
  rw [← rnd_zero h]
  exact h.mono hx

/-- Scaling with rounding. -/
def Scaled (u c : ℝ) (p p' : List ℝ) : Prop :=
  p'.length = p.length ∧ ∀ k, ∃ θ, |θ| ≤ u ∧ p'.getD k 0 = c * p.getD k 0 * (1 + θ)

theorem scaled_map (h : Rounding rnd u) (p : List (Fl rnd)) (x : Fl rnd) :
    Scaled u x.val (vals p) (vals (p.map fun c => c * x)) := by
  have hu0 := rounding_nonneg h
  refine ⟨by simp [vals], fun k => ?_⟩
  rw [vals_getD, vals_getD]
  by_cases hk : k < p.length
  · rw [mulMap_getD _ _ _ hk]
    obtain ⟨θ, e, hθ⟩ := rnd_factor h ((p.getD k 0).val * x.val)
    refine ⟨θ, by rw [pow_one] at hθ; linarith, ?_⟩
    change rnd _ = _
    rw [e]
    ring
  · refine ⟨0, by simpa using hu0, ?_⟩
    have : ∀ l : List (Fl rnd), l.length = p.length → l.getD k 0 = 0 := fun l hl => by
      rw [List.getD_eq_getElem?_getD, List.getElem?_eq_none (by omega)]
      rfl
    rw [this _ (by simp), this _ rfl]
    change (0 : ℝ) = _ * (0 : ℝ) * _
    ring

theorem scaleCoeffs_fl (h : Rounding rnd u) (m : RMath (Fl rnd)) (hm : RoundedMath m) (p : List (Fl rnd)) :
    ∃ c : ℝ, c ≠ 0 ∧ Scaled u c (vals p) (vals (scaleCoeffs m p)) := by
  have hu0 := rounding_nonneg h
  unfold scaleCoeffs
  dsimp only
  split
  · exact ⟨_, hm.pow2 _, scaled_map h p _⟩
  · exact ⟨1, one_ne_zero, rfl, fun k => ⟨0, by simpa using hu0, by ring⟩⟩

theorem Scaled.snoc {c : ℝ} {p p' : List ℝ} {x x' : ℝ} (h : Scaled u c (p ++ [x]) (p' ++ [x'])) :
    Scaled u c p p' ∧ ∃ θ, |θ| ≤ u ∧ x' = c * x * (1 + θ) := by
  obtain ⟨hl, hk⟩ := h
  have hl' : p'.length = p.length := by simpa using hl
  refine ⟨⟨hl', fun k => ?_⟩, ?_⟩
  · obtain ⟨θ, h1, h2⟩ := hk k
    by_cases hkl : k < p.length
    · refine ⟨θ, h1, ?_⟩
      rw [List.getD_append _ _ _ _ (by omega), List.getD_append _ _ _ _ hkl] at h2
      exact h2
    · refine ⟨θ, h1, ?_⟩
      rw [List.getD_eq_default _ _ (by omega), List.getD_eq_default _ _ (by omega)]
      ring
  · obtain ⟨θ, h1, h2⟩ := hk p.length
    refine ⟨θ, h1, ?_⟩
    rw [List.getD_append_right _ _ _ _ (by omega), List.getD_append_right _ _ _ _ le_rfl, hl', Nat.sub_self] at h2
    simpa using h2

/-- The value of the scaled polynomial, and the sum of the moduli. -/
theorem Scaled.values {c ρ : ℝ} (hρ : 0 ≤ ρ) (w : ℂ) (hw : ‖w‖ ≤ ρ) : ∀ p p' : List ℝ, Scaled u c p p' →
    ‖((decPoly p').map (algebraMap ℝ ℂ)).eval w - c * ((decPoly p).map (algebraMap ℝ ℂ)).eval w‖ ≤ u * (|c| * absValue p ρ) ∧
      absValue p' ρ ≤ (1 + u) * (|c| * absValue p ρ) := by
  intro p
  induction p using List.reverseRecOn with
  | nil =>
    intro p' h
    have : p' = [] := List.eq_nil_of_length_eq_zero (by simpa using h.1)
    subst this
    simp [decPoly_nil, absValue]
  | append_singleton p x ih =>
    intro p' h
    have hp' : p' ≠ [] := fun e => by
      have := h.1
      rw [e] at this
      simp at this
    obtain ⟨l, y, rfl⟩ : ∃ l y, p' = l ++ [y] := ⟨p'.dropLast, p'.getLast hp', (List.dropLast_append_getLast hp').symm⟩
    obtain ⟨h1, θ, hθ, rfl⟩ := h.snoc
    obtain ⟨g1, g2⟩ := ih l h1
    have hA := absValue_nonneg p hρ
    have hcx := mul_nonneg (abs_nonneg c) (abs_nonneg x)
    constructor
    · rw [decPoly_snoc, decPoly_snoc, absValue_snoc]
      simp only [Polynomial.map_add, Polynomial.map_mul, Polynomial.map_X, Polynomial.map_C, eval_add, eval_mul, eval_X, eval_C]
      have e : w * ((decPoly l).map (algebraMap ℝ ℂ)).eval w + (algebraMap ℝ ℂ) (c * x * (1 + θ)) -
          c * (w * ((decPoly p).map (algebraMap ℝ ℂ)).eval w + (algebraMap ℝ ℂ) x) =
          w * (((decPoly l).map (algebraMap ℝ ℂ)).eval w - c * ((decPoly p).map (algebraMap ℝ ℂ)).eval w) +
            ((c * x * θ : ℝ) : ℂ) := by
        simp only [Complex.coe_algebraMap]
        push_cast
        ring
      rw [e]
      refine (norm_add_le _ _).trans ?_
      rw [norm_mul, Complex.norm_real, Real.norm_eq_abs, abs_mul, abs_mul]
      have k1 := mul_le_mul hw g1 (norm_nonneg _) hρ
      have k2 := mul_le_mul_of_nonneg_left hθ hcx
      linarith
    · rw [absValue_snoc, absValue_snoc, abs_mul, abs_mul]
      have k1 := mul_le_mul_of_nonneg_left g2 hρ
      have k2 : |1 + θ| ≤ 1 + u := (abs_add_le _ _).trans (by rw [abs_one]; linarith)
      have k3 := mul_le_mul_of_nonneg_left k2 hcx
      linarith

/-- Horner's scheme and the error bound of the code. -/
theorem hornerLoop_fl (h : Rounding rnd u) (m : RMath (Fl rnd)) (hm : RoundedMath m) (s : Fl rnd) :
    ∀ (xs : List (Fl rnd)) (pre : List ℝ) (pv e : Fl rnd) (n : ℕ),
    Near u n pv.val ((decPoly pre).eval s.val) (absValue pre |s.val|) → 0 ≤ e.val →
    e.val ≤ (1 + u) ^ (n + 1) * (pre.length * absValue pre |s.val|) →
    Near u (n + 2 * xs.length) (hornerLoop s pv xs).2.val ((decPoly (pre ++ vals xs)).eval s.val)
      (absValue (pre ++ vals xs) |s.val|) ∧
    0 ≤ ((hornerLoop s pv xs).1.foldl (fun ee x => ee * m.fabs s + m.fabs x) e).val ∧
    ((hornerLoop s pv xs).1.foldl (fun ee x => ee * m.fabs s + m.fabs x) e).val ≤
      (1 + u) ^ (n + 2 * xs.length + 1) * ((pre ++ vals xs).length * absValue (pre ++ vals xs) |s.val|) := by
  have hu0 := rounding_nonneg h
  intro xs
  induction xs with
  | nil =>
    intro pre pv e n h1 h2 h3
    simpa [hornerLoop, vals] using ⟨h1, h2, h3⟩
  | cons x xs ih =>
    intro pre pv e n h1 h2 h3
    have hs := abs_nonneg s.val
    have hA := absValue_nonneg pre hs
    have hpow : 0 ≤ (1 + u) ^ (n + 1) := by positivity
    have hq : Near u (n + 2) (pv * s + x).val ((decPoly (pre ++ [x.val])).eval s.val) (absValue (pre ++ [x.val]) |s.val|) := by
      change Near u (n + 2) (rnd (rnd (pv.val * s.val) + x.val)) _ _
      have k1 : Near u (n + 1) (rnd (pv.val * s.val)) ((decPoly pre).eval s.val * s.val) (absValue pre |s.val| * |s.val|) := by
        have := (h1.mul hu0 (Near.self (u := u) s.val)).rounded h
        simpa using this
      have k2 := (k1.add ((Near.self (u := u) x.val).mono hu0 (Nat.zero_le (n + 1)))).rounded h
      rw [decPoly_snoc, absValue_snoc, eval_add, eval_mul, eval_X, eval_C, mul_comm s.val, mul_comm |s.val|]
      exact k2
    have he : (e * m.fabs s + m.fabs (pv * s + x)).val = rnd (rnd (e.val * |s.val|) + |(pv * s + x).val|) := by
      change rnd (rnd (e.val * (m.fabs s).val) + (m.fabs (pv * s + x)).val) = _
      rw [hm.fabs, hm.fabs]
    have hes : 0 ≤ e.val * |s.val| := mul_nonneg h2 hs
    have hq2 := hq.abs_le
    have e0 : 0 ≤ (e * m.fabs s + m.fabs (pv * s + x)).val := by
      rw [he]
      exact rnd_nonneg' h (add_nonneg (rnd_nonneg' h hes) (abs_nonneg _))
    have e1 : (e * m.fabs s + m.fabs (pv * s + x)).val ≤ (1 + u) ^ (n + 2 + 1) *
        ((pre ++ [x.val]).length * absValue (pre ++ [x.val]) |s.val|) := by
      rw [he]
      have j1 := rnd_le_mul h (le_refl (e.val * |s.val|)) hes
      have j2 := rnd_le_mul h (le_refl (rnd (e.val * |s.val|) + |(pv * s + x).val|))
        (add_nonneg (rnd_nonneg' h hes) (abs_nonneg _))
      refine j2.trans ?_
      have j3 : e.val * |s.val| ≤ (1 + u) ^ (n + 1) * (pre.length * absValue pre |s.val|) * |s.val| :=
        mul_le_mul_of_nonneg_right h3 hs
      have j4 : absValue pre |s.val| * |s.val| ≤ absValue (pre ++ [x.val]) |s.val| := by
        rw [absValue_snoc]
        linarith [abs_nonneg x.val, mul_comm |s.val| (absValue pre |s.val|)]
      have j5 : (pre.length : ℝ) * (absValue pre |s.val| * |s.val|) ≤ pre.length * absValue (pre ++ [x.val]) |s.val| :=
        mul_le_mul_of_nonneg_left j4 (Nat.cast_nonneg _)
      have j6 := mul_le_mul_of_nonneg_left j5 hpow
      have j7 : rnd (e.val * |s.val|) ≤ (1 + u) * ((1 + u) ^ (n + 1) * (pre.length * absValue (pre ++ [x.val]) |s.val|)) :=
        j1.trans (mul_le_mul_of_nonneg_left (by linarith) (by linarith))
      have j8 : rnd (e.val * |s.val|) + |(pv * s + x).val| ≤ (1 + u) ^ (n + 2) * (pre.length * absValue (pre ++ [x.val]) |s.val|) +
          (1 + u) ^ (n + 2) * absValue (pre ++ [x.val]) |s.val| := by
        refine add_le_add (j7.trans (le_of_eq ?_)) hq2
        ring
      refine (mul_le_mul_of_nonneg_left j8 (by linarith : 0 ≤ 1 + u)).trans (le_of_eq ?_)
      rw [List.length_append, List.length_singleton]
      push_cast
      ring
    have := ih (pre ++ [x.val]) (pv * s + x) _ (n + 2) hq e0 e1
    have el : n + 2 + 2 * xs.length = n + 2 * (x :: xs).length := by rw [List.length_cons]; omega
    rw [el] at this
    have ev : pre ++ [x.val] ++ vals xs = pre ++ vals (x :: xs) := by simp [vals]
    rw [ev] at this
    exact this

/-- A real zero that has passed the test. -/
theorem real_bound_fl (h : Rounding rnd u) (hu : u ≤ 1 / 10 ^ 11) (hnat : ∀ n : ℕ, n < 2 ^ 53 → rnd n = n)
    (m : RMath (Fl rnd)) (hm : RoundedMath m) (hs : RoundedSqrt m) (s : Fl rnd) (p : List (Fl rnd)) (hl : p.length ≤ 101)
    (r : List (Fl rnd) × Fl rnd) (hr : horner s p = .ok r)
    (ht : m.fabs r.2 ≤ num 20 * m.eps * (num 2 * realError m s r.1 - m.fabs r.2)) :
    |(decPoly (vals p)).eval s.val| ≤ (81 / 2 * m.eps.val + 203 / 100 * u) * p.length * absValue (vals p) |s.val| := by
  have hu0 := rounding_nonneg h
  match p, hr, hl with
  | p0 :: ps, hr, hl =>
    cases hr
    have hc : ∀ n : ℕ, n < 2 ^ 53 → (num n : Fl rnd).val = n := hnat
    have hA := absValue_nonneg (vals (p0 :: ps)) (abs_nonneg s.val)
    have hn1 : (num 1 / num 2 * m.fabs p0).val = rnd (rnd (1 / 2) * |p0.val|) := by
      change rnd (rnd ((num 1 : Fl rnd).val / (num 2 : Fl rnd).val) * (m.fabs p0).val) = _
      rw [hc 1 (by norm_num), hc 2 (by norm_num), hm.fabs]
      norm_num
    have hh : 0 ≤ rnd (1 / 2) := rnd_nonneg' h (by norm_num)
    obtain ⟨g1, g2, g3⟩ := hornerLoop_fl h m hm s ps [p0.val] p0 (num 1 / num 2 * m.fabs p0) 0
      (by rw [decPoly_single, eval_C, absValue_single]; exact Near.self _)
      (by
        rw [hn1]
        exact rnd_nonneg' h (mul_nonneg hh (abs_nonneg _)))
      (by
        rw [hn1, absValue_single]
        have k1 := rnd_le_mul h (le_refl (1 / 2 : ℝ)) (by norm_num)
        have k2 := mul_le_mul_of_nonneg_right k1 (abs_nonneg p0.val)
        have k3 := rnd_le_mul h k2 (by positivity)
        refine k3.trans ?_
        have k4 : 0 ≤ (1 + u) * |p0.val| := by positivity
        have k5 : (1 + u) / 2 ≤ 1 := by linarith [hu, show (1 : ℝ) / 10 ^ 11 ≤ 1 by norm_num]
        have k6 := mul_le_mul_of_nonneg_left k5 k4
        simp only [List.length_singleton, Nat.cast_one]
        rw [pow_one]
        linarith)
    have ev : [p0.val] ++ vals ps = vals (p0 :: ps) := by simp [vals]
    rw [ev] at g1 g3
    obtain ⟨ee, hee⟩ : ∃ ee, ee = realError m s (p0 :: (hornerLoop s p0 ps).1) := ⟨_, rfl⟩
    have hee' : (hornerLoop s p0 ps).1.foldl (fun ee x => ee * m.fabs s + m.fabs x) (num 1 / num 2 * m.fabs p0) = ee := by
      rw [hee]
      rfl
    rw [hee'] at g2 g3
    dsimp only at ht ⊢
    rw [← hee] at ht
    have hlp : ps.length ≤ 100 := by rw [List.length_cons] at hl; omega
    have hlpr : (ps.length : ℝ) ≤ 100 := by exact_mod_cast hlp
    have hut : 20200 * u ≤ 1 / 100000 := by linarith [hu, show 20200 * ((1 : ℝ) / 10 ^ 11) ≤ 1 / 100000 by norm_num]
    have hmu : (ps.length : ℝ) * u ≤ 100 * u := mul_le_mul_of_nonneg_right hlpr hu0
    have s1 := pow_small hu0 (0 + 2 * ps.length) (by push_cast; linarith)
    have s2 := pow_small hu0 (0 + 2 * ps.length + 1) (by push_cast; linarith)
    push_cast at s1 s2
    have hR := g1.2
    generalize (hornerLoop s p0 ps).2 = rr at ht hR
    generalize (decPoly (vals (p0 :: ps))).eval s.val = P at hR ⊢
    have hL : ((vals (p0 :: ps)).length : ℝ) = ps.length + 1 := by simp [vals]
    have hL' : (((p0 :: ps).length : ℕ) : ℝ) = ps.length + 1 := by simp
    rw [hL] at g3
    rw [hL']
    generalize absValue (vals (p0 :: ps)) |s.val| = A at hR g3 hA ⊢
    have ht' : |rr.val| ≤ rnd (rnd (20 * m.eps.val) * rnd (rnd (2 * ee.val) - |rr.val|)) := by
      have : (m.fabs rr).val ≤ rnd (rnd ((num 20 : Fl rnd).val * m.eps.val) *
          rnd (rnd ((num 2 : Fl rnd).val * ee.val) - (m.fabs rr).val)) := ht
      rw [hc 20 (by norm_num), hc 2 (by norm_num), hm.fabs] at this
      exact_mod_cast this
    have heps := hs.eps
    have hlen : (0 : ℝ) ≤ ps.length := Nat.cast_nonneg _
    have b1 : ee.val ≤ 1001 / 1000 * ((ps.length + 1) * A) := by
      refine g3.trans (mul_le_mul_of_nonneg_right ?_ (by positivity))
      linarith
    have b2 : rnd (rnd (2 * ee.val) - |rr.val|) ≤ (1 + u) * ((1 + u) * (2 * ee.val)) :=
      rnd_le_mul h (by linarith [rnd_le_mul h (le_refl (2 * ee.val)) (by linarith), abs_nonneg rr.val]) (by positivity)
    have b3 : rnd (20 * m.eps.val) ≤ (1 + u) * (20 * m.eps.val) := rnd_le_mul h le_rfl (by positivity)
    have b4 : 0 ≤ rnd (20 * m.eps.val) := rnd_nonneg' h (by positivity)
    have b5 : rnd (20 * m.eps.val) * rnd (rnd (2 * ee.val) - |rr.val|) ≤
        (1 + u) * (20 * m.eps.val) * ((1 + u) * ((1 + u) * (2 * ee.val))) :=
      (mul_le_mul_of_nonneg_left b2 b4).trans (mul_le_mul_of_nonneg_right b3 (by positivity))
    have b6 := rnd_le_mul h b5 (by positivity)
    have b7 : |rr.val| ≤ (1 + u) ^ 4 * (40 * m.eps.val * ee.val) := ht'.trans (b6.trans (le_of_eq (by ring)))
    have s4 := pow_small hu0 4 (by push_cast; linarith)
    push_cast at s4
    have b8 : (1 + u) ^ 4 ≤ 1001 / 1000 := by linarith
    have b9 : 40 * m.eps.val * ee.val ≤ 40 * m.eps.val * (1001 / 1000 * ((ps.length + 1) * A)) :=
      mul_le_mul_of_nonneg_left b1 (by positivity)
    have b10 : |rr.val| ≤ 1001 / 1000 * (40 * m.eps.val * (1001 / 1000 * ((ps.length + 1) * A))) :=
      b7.trans ((mul_le_mul_of_nonneg_left b9 (by positivity)).trans (mul_le_mul_of_nonneg_right b8 (by positivity)))
    have c1 : |rr.val - P| ≤ 101 / 100 * ((0 + 2 * ps.length) * u) * A := hR.trans (mul_le_mul_of_nonneg_right s1 hA)
    have c2 : |P| ≤ |rr.val| + |rr.val - P| := by
      have := abs_sub rr.val (rr.val - P)
      rwa [sub_sub_cancel] at this
    have c3 : 0 ≤ m.eps.val * ((ps.length + 1) * A) := by positivity
    have c4 : 0 ≤ u * A := by positivity
    have c5 : 0 ≤ ps.length * (u * A) := by positivity
    linarith

end Verif
