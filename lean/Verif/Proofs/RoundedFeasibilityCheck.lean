import Verif.Proofs.RoundedFeasibility
import Verif.Proofs.RoundedHalfPlane

/- Helper lemmas: sections, recursion and the whole recursive feasibility check with rounded numbers. -/
set_option linter.unusedSectionVars false

namespace Verif

open Polynomial Spec Set

variable {rnd : ℝ → ℝ} {u : ℝ}

/-! #### comparisons of rounded norms with limits -/

theorem norm_rel (h : Rounding rnd u) (hu : u ≤ 1 / 100) {S Q : ℝ} (hQ : 0 ≤ Q) (hS : |S - Q| ≤ ((1 + u) ^ 4 - 1) * Q) :
    |rnd (Real.sqrt S) - Real.sqrt Q| ≤ 6 * u * Real.sqrt Q := by
  have hu0 := rounding_nonneg h
  refine (sqrt_near h hQ hS).trans (mul_le_mul_of_nonneg_right ?_ (Real.sqrt_nonneg _))
  have h2 : u ^ 2 ≤ 1 / 100 * u := by nlinarith
  have h3 : u ^ 3 ≤ 1 / 10000 * u := by nlinarith [sq_nonneg u]
  have h4 : u ^ 4 ≤ 1 / 1000000 * u := by nlinarith [pow_nonneg hu0 3]
  have h5 : u ^ 5 ≤ 1 / 100000000 * u := by nlinarith [pow_nonneg hu0 4]
  have e : (1 + u) ^ (4 + 1) - 1 = 5 * u + 10 * u ^ 2 + 10 * u ^ 3 + 5 * u ^ 4 + u ^ 5 := by ring
  rw [e]
  linarith

theorem AccOf.rel (h : Rounding rnd u) {acc : Fl rnd} {Q : ℝ} (ha : AccOf u 3 acc Q) :
    |acc.val - Q| ≤ ((1 + u) ^ 4 - 1) * Q := by
  have hu0 := rounding_nonneg h
  have h1 := ha.lower
  have h2 := ha.upper
  have h3 : 1 - (1 - u) ^ 4 ≤ (1 + u) ^ 4 - 1 := by nlinarith [sq_nonneg u, sq_nonneg (u ^ 2)]
  have h4 := mul_le_mul_of_nonneg_right h3 ha.nonneg
  rw [abs_le]
  norm_num at h1 h2
  constructor <;> linarith

theorem AccOf.norm (h : Rounding rnd u) (hu : u ≤ 1 / 100) {acc : Fl rnd} {Q : ℝ} (ha : AccOf u 3 acc Q) :
    |((flLib rnd).sqrt acc).val - Real.sqrt Q| ≤ 6 * u * Real.sqrt Q := norm_rel h hu ha.nonneg (ha.rel h)

theorem rel_le (hu0 : 0 ≤ u) (hu : u ≤ 1 / 100) {f q l : ℝ} (hq : 0 ≤ q) (hf : |f - q| ≤ 6 * u * q) (hl : f ≤ l) :
    q ≤ l + 16 * u * |l| := by
  have h1 := (abs_le.mp hf).1
  have h2 : (1 - 6 * u) * q ≤ l := by linarith
  have hl0 : 0 ≤ l := le_trans (mul_nonneg (by linarith) hq) h2
  rw [abs_of_nonneg hl0]
  have h3 : 0 ≤ u * l := mul_nonneg hu0 hl0
  have h4 : l ≤ (1 - 6 * u) * (l + 16 * u * l) := by
    have : u * (u * l) ≤ 1 / 100 * (u * l) := mul_le_mul_of_nonneg_right hu h3
    nlinarith
  have h5 : 0 < 1 - 6 * u := by linarith
  exact le_of_mul_le_mul_left (h2.trans h4) h5

theorem rel_ge (hu0 : 0 ≤ u) {f q l : ℝ} (hq : 0 ≤ q) (hf : |f - q| ≤ 6 * u * q) (hl : l ≤ f) :
    l ≤ q + 16 * u * |l| := by
  have h1 := (abs_le.mp hf).2
  rcases le_total l 0 with h0 | h0
  · have : 0 ≤ u * |l| := mul_nonneg hu0 (abs_nonneg _)
    linarith
  rw [abs_of_nonneg h0]
  by_contra hc
  have hc := not_le.mp hc
  have h2 : l ≤ (1 + 6 * u) * q := by linarith
  have h3 : (1 + 6 * u) * q < (1 + 6 * u) * (l - 16 * u * l) := mul_lt_mul_of_pos_left (by linarith) (by linarith)
  have h4 : 0 ≤ u * l := mul_nonneg hu0 h0
  have h5 : 0 ≤ u * (u * l) := mul_nonneg hu0 h4
  nlinarith

theorem rel_lt (hu0 : 0 ≤ u) (hu : u ≤ 1 / 100) {f q l : ℝ} (hq : 0 ≤ q) (hf : |f - q| ≤ 6 * u * q) (hl : f < l) :
    q < l + 16 * u * |l| := by
  have h1 := (abs_le.mp hf).1
  have hf0 : 0 ≤ f := by
    have : 0 ≤ (1 - 6 * u) * q := mul_nonneg (by linarith) hq
    linarith
  have := rel_le hu0 hu hq hf le_rfl
  rw [abs_of_nonneg hf0] at this
  rw [abs_of_pos (lt_of_le_of_lt hf0 hl)]
  have : u * f ≤ u * l := mul_le_mul_of_nonneg_left hl.le hu0
  linarith

theorem rel_gt (hu0 : 0 ≤ u) {f q l : ℝ} (hq : 0 ≤ q) (hf : |f - q| ≤ 6 * u * q) (hl : l < f) :
    l < q + 16 * u * |l| := by
  have h1 := (abs_le.mp hf).2
  rcases lt_or_ge l 0 with h0 | h0
  · have : 0 ≤ u * |l| := mul_nonneg hu0 (abs_nonneg _)
    linarith
  rw [abs_of_nonneg h0]
  by_contra hc
  have hc := not_lt.mp hc
  have h2 : l < (1 + 6 * u) * q := by linarith
  have h3 : (1 + 6 * u) * q ≤ (1 + 6 * u) * (l - 16 * u * l) := mul_le_mul_of_nonneg_left (by linarith) (by linarith)
  have h4 : 0 ≤ u * l := mul_nonneg hu0 h0
  have h5 : 0 ≤ u * (u * l) := mul_nonneg hu0 h4
  nlinarith

/-- The bound on the rates from the bounds on squared jerk and squared thrust. -/
theorem omega_rel (h : Rounding rnd u) (hu : u ≤ 1 / 100) {J' F' : Fl rnd} {J F l : ℝ} (hJ : AccOf u 3 J' J)
    (hF : AccOf u 3 F' F) (hpos : 0 < F'.val) (hl : ((flLib rnd).sqrt (J' / F')).val ≤ l) :
    0 < F ∧ 0 ≤ l ∧ Real.sqrt J ≤ l * (1 + 16 * u) * Real.sqrt F := by
  have hu0 := rounding_nonneg h
  have hFpos : 0 < F := by
    rcases hF.nonneg.lt_or_eq with hh | hh
    · exact hh
    · have := hF.upper
      rw [← hh, mul_zero] at this
      linarith
  have hJ'0 : 0 ≤ J'.val := le_trans (mul_nonneg (pow_nonneg (by linarith) _) hJ.nonneg) hJ.lower
  set x := rnd (J'.val / F'.val) with hx
  have hq0 : 0 ≤ J'.val / F'.val := div_nonneg hJ'0 hpos.le
  have hx1 := (abs_le.mp (h.rel (J'.val / F'.val))).1
  rw [abs_of_nonneg hq0, ← hx] at hx1
  have hx0 : 0 ≤ x := by
    have := mul_nonneg (by linarith : 0 ≤ 1 - u) hq0
    linarith
  have hl' : rnd (Real.sqrt x) ≤ l := hl
  have hs1 := (abs_le.mp (h.rel (Real.sqrt x))).1
  rw [abs_of_nonneg (Real.sqrt_nonneg x)] at hs1
  have hs2 : (1 - u) * Real.sqrt x ≤ l := by linarith
  have hl0 : 0 ≤ l := le_trans (mul_nonneg (by linarith) (Real.sqrt_nonneg _)) hs2
  have hsq : (1 - u) ^ 2 * x ≤ l ^ 2 := by
    have := mul_self_le_mul_self (mul_nonneg (by linarith : 0 ≤ 1 - u) (Real.sqrt_nonneg x)) hs2
    have e : (1 - u) * Real.sqrt x * ((1 - u) * Real.sqrt x) = (1 - u) ^ 2 * x := by
      rw [show (1 - u) * Real.sqrt x * ((1 - u) * Real.sqrt x) = (1 - u) ^ 2 * (Real.sqrt x * Real.sqrt x) by ring,
        Real.mul_self_sqrt hx0]
    rw [e] at this
    linarith [pow_two l]
  have h1 : (1 - u) ^ 3 * J'.val ≤ l ^ 2 * F'.val := by
    have a1 : (1 - u) * J'.val ≤ x * F'.val := by
      have : (1 - u) * (J'.val / F'.val) ≤ x := by linarith
      have := mul_le_mul_of_nonneg_right this hpos.le
      rwa [mul_assoc, div_mul_cancel₀ _ hpos.ne'] at this
    have a2 := mul_le_mul_of_nonneg_left a1 (by positivity : 0 ≤ (1 - u) ^ 2)
    have a3 := mul_le_mul_of_nonneg_right hsq hpos.le
    calc (1 - u) ^ 3 * J'.val = (1 - u) ^ 2 * ((1 - u) * J'.val) := by ring
      _ ≤ (1 - u) ^ 2 * (x * F'.val) := a2
      _ = (1 - u) ^ 2 * x * F'.val := by ring
      _ ≤ _ := a3
  have h2 : (1 - u) ^ 7 * J ≤ l ^ 2 * ((1 + u) ^ 4 * F) := by
    have a1 := mul_le_mul_of_nonneg_left hJ.lower (pow_nonneg (by linarith) 3 : 0 ≤ (1 - u) ^ 3)
    have a2 := mul_le_mul_of_nonneg_left hF.upper (sq_nonneg l)
    calc (1 - u) ^ 7 * J = (1 - u) ^ 3 * ((1 - u) ^ (3 + 1) * J) := by ring
      _ ≤ _ := a1
      _ ≤ _ := h1
      _ ≤ _ := a2
  have hk : (1 + u) ^ 2 ≤ (1 + 16 * u) * (1 - u) ^ 4 := by
    have b1 : 1 - 4 * u ≤ (1 - u) ^ 4 := by
      have := one_add_mul_le_pow (a := -u) (by linarith) 4
      norm_num at this
      linarith [show (1 + -u) ^ 4 = (1 - u) ^ 4 by ring]
    have b2 := mul_le_mul_of_nonneg_left b1 (by linarith : 0 ≤ 1 + 16 * u)
    nlinarith
  have hk2 : (1 + u) ^ 4 ≤ (1 + 16 * u) ^ 2 * (1 - u) ^ 7 := by
    have c1 := mul_self_le_mul_self (by positivity) hk
    have c2 : (1 - u) ^ 8 ≤ (1 - u) ^ 7 := pow_le_pow_of_le_one (by linarith) (by linarith) (by norm_num)
    have c3 := mul_le_mul_of_nonneg_left c2 (sq_nonneg (1 + 16 * u))
    calc (1 + u) ^ 4 = (1 + u) ^ 2 * (1 + u) ^ 2 := by ring
      _ ≤ _ := c1
      _ = (1 + 16 * u) ^ 2 * (1 - u) ^ 8 := by ring
      _ ≤ _ := c3
  have h3 : J ≤ (l * (1 + 16 * u)) ^ 2 * F := by
    have c := mul_le_mul_of_nonneg_left hk2 (mul_nonneg (sq_nonneg l) hFpos.le)
    have h7 : 0 < (1 - u) ^ 7 := pow_pos (by linarith) 7
    refine le_of_mul_le_mul_left (a := (1 - u) ^ 7) ?_ h7
    linarith [show l ^ 2 * F * (1 + u) ^ 4 = l ^ 2 * ((1 + u) ^ 4 * F) by ring,
      show l ^ 2 * F * ((1 + 16 * u) ^ 2 * (1 - u) ^ 7) = (1 - u) ^ 7 * ((l * (1 + 16 * u)) ^ 2 * F) by ring]
  refine ⟨hFpos, hl0, ?_⟩
  have h16 : 0 ≤ l * (1 + 16 * u) := mul_nonneg hl0 (by linarith)
  calc Real.sqrt J ≤ Real.sqrt ((l * (1 + 16 * u)) ^ 2 * F) := Real.sqrt_le_sqrt h3
    _ = _ := by rw [Real.sqrt_mul (by positivity), Real.sqrt_sq h16]

/-! #### values at the ends of a section -/

/-- Moving three components by at most `δ` moves the norm by at most `√3 δ`. -/
theorem norm3_near {x y : Fin 3 → ℝ} {δ : ℝ} (hδ : 0 ≤ δ) (hxy : ∀ i, |x i - y i| ≤ δ) :
    |Real.sqrt (∑ i, x i ^ 2) - Real.sqrt (∑ i, y i ^ 2)| ≤ Real.sqrt 3 * δ := by
  have key : ∀ x y : Fin 3 → ℝ, (∀ i, |x i - y i| ≤ δ) →
      Real.sqrt (∑ i, x i ^ 2) ≤ Real.sqrt (∑ i, y i ^ 2) + Real.sqrt 3 * δ := by
    intro x y hxy
    rw [Fin.sum_univ_three, Fin.sum_univ_three]
    refine le_trans (Real.sqrt_le_sqrt ?_) (sqrt_add_le _ _ _ δ hδ)
    have hsq : ∀ i, x i ^ 2 ≤ (|y i| + δ) ^ 2 := by
      intro i
      rw [← sq_abs (x i)]
      apply pow_le_pow_left₀ (abs_nonneg _)
      have := abs_add_le (x i - y i) (y i)
      rw [sub_add_cancel] at this
      linarith [hxy i]
    linarith [hsq 0, hsq 1, hsq 2]
  rw [abs_le]
  constructor
  · linarith [key y x (fun i => by rw [abs_sub_comm]; exact hxy i)]
  · linarith [key x y hxy]

theorem dot3_rel (h : Rounding rnd u) (hu : u ≤ 1 / 100) {dot : Dot (Fl rnd)} (hd : DotOk u dot) (x : Fin 3 → Fl rnd) :
    |((flLib rnd).sqrt (dot 3 x x)).val - Real.sqrt (∑ i, (x i).val ^ 2)| ≤ 6 * u * Real.sqrt (∑ i, (x i).val ^ 2) := by
  have hu0 := rounding_nonneg h
  have hQ : 0 ≤ ∑ i, (x i).val ^ 2 := Finset.sum_nonneg fun i _ => sq_nonneg _
  refine norm_rel h hu hQ ?_
  have := hd 3 x x
  have e1 : ∑ i, (x i).val * (x i).val = ∑ i, (x i).val ^ 2 := Finset.sum_congr rfl fun i _ => (pow_two _).symm
  have e2 : ∑ i, |(x i).val| * |(x i).val| = ∑ i, (x i).val ^ 2 :=
    Finset.sum_congr rfl fun i _ => by rw [abs_mul_abs_self, pow_two]
  rw [e1, e2] at this
  refine this.trans (mul_le_mul_of_nonneg_right ?_ hQ)
  have := pow_le_pow_right₀ (by linarith : 1 ≤ 1 + u) (by norm_num : 3 ≤ 4)
  linarith

section
variable (h : Rounding rnd u) (hu : u ≤ 1 / 100) (dot : Dot (Fl rnd)) (hd : DotOk u dot) (s : Segment (Fl rnd)) (hs : s.WF)
  (g : Fin 3 → Fl rnd) (E B : ℕ → ℝ) (F : ℝ) (he : FeasErrors u s g E B F) (hD : 3 ≤ s.D)
include h hu hd hs he hD

omit hu hd in
theorem eval_nonneg (hT : 0 ≤ s.time.val) (k : ℕ) (hk : k ≤ 3) : 0 ≤ E k := by
  refine le_trans ?_ (he.eval k hk 0 (by omega))
  have h1 := axisReal_le s k 0 (t := 0) (T := s.time.val) (by omega) (by simpa using hT)
  exact mul_nonneg (by linarith [one_le_pow_u h (2 * s.N)]) ((abs_nonneg _).trans h1)

omit hu hd in
theorem second_nonneg (hT : 0 ≤ s.time.val) (k : ℕ) (hk : k ≤ 3) : 0 ≤ B (k + 2) := by
  refine le_trans ?_ (he.second k hk 0 (by omega))
  have h1 := axisReal_le s (k + 2) 0 (t := 0) (T := s.time.val) (by omega) (by simpa using hT)
  exact mul_nonneg (by linarith [one_le_pow_u h (2 * s.N)]) ((abs_nonneg _).trans h1)

omit hu hd in
theorem thrust_nonneg (hT : 0 ≤ s.time.val) : E 2 ≤ F ∧ 0 ≤ F := by
  have h0 := eval_nonneg h s hs g E B F he hD hT 2 (by omega)
  have h1 := axisReal_le s 2 (0 : Fin 3) (t := 0) (T := s.time.val) (by simp; omega) (by simpa using hT)
  have h2 := he.thrust 0
  have h3 : 0 ≤ u * (axisSize s 2 (0 : Fin 3) s.time.val + E 2 + |(g 0).val|) :=
    mul_nonneg (rounding_nonneg h) (by linarith [abs_nonneg (g 0).val, (abs_nonneg _).trans h1])
  exact ⟨by linarith, by linarith⟩

omit hu hd in
/-- An evaluation of the segment. -/
theorem evaluate3_near (k : ℕ) (hk : k ≤ 3) (t : Fl rnd) (ht0 : 0 ≤ t.val) (ht : t.val ≤ s.time.val) :
    ∃ v x, s.evaluate t k = .ok v ∧ vecHead3 v = .ok x ∧ ∀ i : Fin 3, |(x i).val - axisVal (realSeg s) k i t.val| ≤ E k := by
  have hu := rounding_nonneg h
  obtain ⟨p0, p1, p2, ps, hp⟩ : ∃ p0 p1 p2 ps, s.polys = p0 :: p1 :: p2 :: ps := by
    unfold Segment.D at hD
    match e : s.polys, hD with
    | p0 :: p1 :: p2 :: ps, _ => exact ⟨p0, p1, p2, ps, rfl⟩
  have hsm : ∀ p ∈ s.polys, p.N ≤ 22 := fun p hp => by rw [hs.polysN p hp]; exact hs.small
  obtain ⟨v, hv, hf⟩ := C99_segment h s hsm t k
  have hval : ∀ (i : ℕ) (hi : i < s.D) (p : Poly (Fl rnd)), s.polys[i]'hi = p → ∀ y : Fl rnd,
      (∃ c, List.Forall₂ (Close u (2 * p.N)) c (vals p.coeffs) ∧ y.val = iteratedDeriv k (curve c) t.val) →
      |y.val - axisVal (realSeg s) k i t.val| ≤ E k := by
    rintro i hi p hpi y ⟨c, hc, hy⟩
    have hpN : p.N = s.N := hs.polysN p (hpi ▸ List.getElem_mem _)
    rw [axisReal_eq s k i _ hi, hy, iteratedDeriv_curve, hpi]
    have q := derivAt_close (d := k) hc t.val
    rw [hpN] at q
    have q2 := (abs_derivAt_le (vals p.coeffs) k (by rw [abs_of_nonneg ht0]; exact ht : |t.val| ≤ s.time.val)).2.1
    have e1 := he.eval k hk i hi
    rw [axisSize_eq s k i _ hi, hpi] at e1
    exact q.trans ((mul_le_mul_of_nonneg_left q2 (by linarith [one_le_pow_u h (2 * s.N)])).trans e1)
  rw [hp] at hf
  match v, hf with
  | y0 :: y1 :: y2 :: ys, .cons f0 (.cons f1 (.cons f2 _)) =>
    refine ⟨_, ![y0, y1, y2], hv, rfl, ?_⟩
    intro i
    fin_cases i
    · exact hval 0 (by omega) p0 (by simp [hp]) y0 f0
    · exact hval 1 (by omega) p1 (by simp [hp]) y1 f1
    · exact hval 2 (by omega) p2 (by simp [hp]) y2 f2

theorem evaluateSpeedG_near (hT : 0 ≤ s.time.val) (t : Fl rnd) (ht0 : 0 ≤ t.val) (ht : t.val ≤ s.time.val) :
    ∃ f q, evaluateSpeedG (flFeasLib rnd dot) s t = .ok f ∧ 0 ≤ q ∧ |f.val - q| ≤ 6 * u * q ∧
      |q - speed (realPolys s) t.val| ≤ Real.sqrt 3 * E 1 := by
  obtain ⟨v, x, e1, e2, hx⟩ := evaluate3_near h s hs g E B F he hD 1 (by omega) t ht0 ht
  refine ⟨_, Real.sqrt (∑ i, (x i).val ^ 2), ?_, Real.sqrt_nonneg _, dot3_rel h hu hd x, ?_⟩
  · unfold evaluateSpeedG
    have e1' : s.evaluate t 1 = .ok v := e1
    rw [e1', Res.ok_bind, e2, Res.ok_bind]
    rfl
  · exact norm3_near (eval_nonneg h s hs g E B F he hD hT 1 (by omega)) hx

theorem evaluateThrustG_near (hT : 0 ≤ s.time.val) (t : Fl rnd) (ht0 : 0 ≤ t.val) (ht : t.val ≤ s.time.val) :
    ∃ f q, evaluateThrustG (flFeasLib rnd dot) g s t = .ok f ∧ 0 ≤ q ∧ |f.val - q| ≤ 6 * u * q ∧
      |q - thrust (fun i => (g i).val) (realPolys s) t.val| ≤ Real.sqrt 3 * F := by
  have hu0 := rounding_nonneg h
  obtain ⟨v, x, e1, e2, hx⟩ := evaluate3_near h s hs g E B F he hD 2 (by omega) t ht0 ht
  refine ⟨_, Real.sqrt (∑ i, (x i + g i).val ^ 2), ?_, Real.sqrt_nonneg _, dot3_rel h hu hd fun i => x i + g i, ?_⟩
  · unfold evaluateThrustG
    have e1' : s.evaluate t 2 = .ok v := e1
    rw [e1', Res.ok_bind, e2, Res.ok_bind]
    rfl
  · refine norm3_near (thrust_nonneg h s hs g E B F he hD hT).2 fun i => ?_
    have h0 := hx i
    have h1 := axisReal_le s 2 i (T := s.time.val) (by omega) (by rw [abs_of_nonneg ht0]; exact ht : |t.val| ≤ s.time.val)
    have h2 : |(x i).val| ≤ axisSize s 2 i s.time.val + E 2 := by
      have := abs_add_le ((x i).val - axisVal (realSeg s) 2 i t.val) (axisVal (realSeg s) 2 i t.val)
      rw [sub_add_cancel] at this
      linarith
    have h3 := h.rel ((x i).val + (g i).val)
    have h4 := abs_add_le (x i).val (g i).val
    have h5 : u * |(x i).val + (g i).val| ≤ u * (axisSize s 2 i s.time.val + E 2 + |(g i).val|) :=
      mul_le_mul_of_nonneg_left (by linarith) hu0
    have h6 := he.thrust i
    change |rnd ((x i).val + (g i).val) - (axisVal (realSeg s) 2 i t.val + (g i).val)| ≤ F
    have h7 := abs_le.mp h3
    have h8 := abs_le.mp h0
    rw [abs_le]
    constructor <;> linarith [h7.1, h7.2, h8.1, h8.2]

end

/-! #### one section -/

theorem hasConstraintG_iff {K : Type} (ic : InputConstraints K) (t : ℤ) :
    ic.hasConstraint t = true ↔ ∃ l, ic.getConstraint t = some l := by
  unfold InputConstraints.hasConstraint InputConstraints.getConstraint
  rw [Option.isSome_iff_exists]

theorem classifyG_spec (dot : Dot (Fl rnd)) (ic : InputConstraints (Fl rnd)) (fMin fMax vMax jMax : Fl rnd) :
    (classifyG (flFeasLib rnd dot) ic fMin fMax vMax jMax = some .thrustLow →
      ∃ l, ic.getConstraint kFMin = some l ∧ ((flLib rnd).sqrt fMax).val < l.val) ∧
    (classifyG (flFeasLib rnd dot) ic fMin fMax vMax jMax = some .thrustHigh →
      ∃ l, ic.getConstraint kFMax = some l ∧ l.val < ((flLib rnd).sqrt fMin).val) ∧
    (classifyG (flFeasLib rnd dot) ic fMin fMax vMax jMax = some .feasible →
      (∀ l, ic.getConstraint kFMin = some l → l.val ≤ ((flLib rnd).sqrt fMin).val) ∧
      (∀ l, ic.getConstraint kFMax = some l → ((flLib rnd).sqrt fMax).val ≤ l.val) ∧
      (∀ l, ic.getConstraint kVMax = some l → ((flLib rnd).sqrt vMax).val ≤ l.val) ∧
      (∀ l, ic.getConstraint kOmegaXYMax = some l →
        (if fMin > (⟨rnd (1 / 10 ^ 6)⟩ : Fl rnd) then (flLib rnd).sqrt (jMax / fMin) else ⟨dblMax⟩ : Fl rnd).val ≤ l.val)) ∧
    (classifyG (flFeasLib rnd dot) ic fMin fMax vMax jMax = none ∨
      classifyG (flFeasLib rnd dot) ic fMin fMax vMax jMax = some .thrustLow ∨
      classifyG (flFeasLib rnd dot) ic fMin fMax vMax jMax = some .thrustHigh ∨
      classifyG (flFeasLib rnd dot) ic fMin fMax vMax jMax = some .feasible) := by
  have e : classifyG (flFeasLib rnd dot) ic fMin fMax vMax jMax =
      if limitSuchThatG ic kFMin fun lim => (flLib rnd).sqrt fMax < lim then some .thrustLow
      else if limitSuchThatG ic kFMax fun lim => (flLib rnd).sqrt fMin > lim then some .thrustHigh
      else if limitSuchThatG ic kFMin (fun lim => (flLib rnd).sqrt fMin < lim) ∨
          limitSuchThatG ic kFMax (fun lim => (flLib rnd).sqrt fMax > lim) ∨
          limitSuchThatG ic kVMax (fun lim => (flLib rnd).sqrt vMax > lim) ∨
          limitSuchThatG ic kOmegaXYMax (fun lim =>
            (if fMin > (⟨rnd (1 / 10 ^ 6)⟩ : Fl rnd) then (flLib rnd).sqrt (jMax / fMin) else ⟨dblMax⟩) > lim) then none
      else some .feasible := rfl
  rw [e]
  generalize (if fMin > (⟨rnd (1 / 10 ^ 6)⟩ : Fl rnd) then (flLib rnd).sqrt (jMax / fMin) else ⟨dblMax⟩ : Fl rnd) = om
  have lt_val : ∀ {x y : Fl rnd}, decide (x < y) = true → x.val < y.val := fun hh => of_decide_eq_true hh
  have val_lt : ∀ {x y : Fl rnd}, x.val < y.val → decide (x < y) = true := fun hh => decide_eq_true hh
  split
  · next h1 =>
    obtain ⟨l, hl, hp⟩ := limitSuchThatG_true.mp h1
    refine ⟨fun _ => ⟨l, hl, lt_val hp⟩, by simp, by simp, by simp⟩
  · split
    · next h1 h2 =>
      obtain ⟨l, hl, hp⟩ := limitSuchThatG_true.mp h2
      refine ⟨by simp, fun _ => ⟨l, hl, lt_val hp⟩, by simp, by simp⟩
    · split
      · exact ⟨by simp, by simp, by simp, by simp⟩
      · next h1 h2 h3 =>
        push Not at h3
        obtain ⟨h4, h5, h6, h7⟩ := h3
        refine ⟨by simp, by simp, fun _ => ⟨?_, ?_, ?_, ?_⟩, by simp⟩
        · intro l hl
          by_contra hc
          exact h4 (limitSuchThatG_true.mpr ⟨l, hl, val_lt (not_le.mp hc)⟩)
        · intro l hl
          by_contra hc
          exact h5 (limitSuchThatG_true.mpr ⟨l, hl, val_lt (not_le.mp hc)⟩)
        · intro l hl
          by_contra hc
          exact h6 (limitSuchThatG_true.mpr ⟨l, hl, val_lt (not_le.mp hc)⟩)
        · intro l hl
          by_contra hc
          exact h7 (limitSuchThatG_true.mpr ⟨l, hl, val_lt (not_le.mp hc)⟩)

/-- The roots that are needed are there. -/
structure RootsOkG (rc : RootCall (Fl rnd)) (ic : InputConstraints (Fl rnd)) (s : Segment (Fl rnd))
    (ra rj rs : List (List (Fl rnd × Fl rnd))) : Prop where
  acc : ic.hasConstraint kVMax = true → RootsForG rc s 2 ra
  jerk : ic.hasConstraint kFMin = true ∨ ic.hasConstraint kFMax = true ∨
    ic.hasConstraint kOmegaXYMax = true → RootsForG rc s 3 rj
  snap : ic.hasConstraint kOmegaXYMax = true → RootsForG rc s 4 rs

/-- What the verdict on an interval means. -/
def VerdictFl (u : ℝ) (A : Prop) (e e' : ℕ → ℝ) (ic : InputConstraints (Fl rnd)) (g : Fin 3 → Fl rnd) (s : Segment (Fl rnd))
    (a b : ℝ) (v : Verdict) : Prop :=
  (v = .feasible ∧ (A → ∀ t ∈ Icc a b, LimitsUpTo (16 * u) e ic g (realPolys s) t)) ∨
  ((v = .thrustHigh ∨ v = .thrustLow ∨ v = .velocity) ∧
    ∃ t ∈ Icc a b, ∀ y, ViolatedUpTo (16 * u) e' y ic g (realPolys s) t v)

section
variable (h : Rounding rnd u) (hu : u ≤ 1 / 100) (dot : Dot (Fl rnd)) (hd : DotOk u dot) (rc : RootCall (Fl rnd)) (ε : ℝ)
  (ic : InputConstraints (Fl rnd)) (s : Segment (Fl rnd)) (hs : s.WF) (hN : 4 ≤ s.N)
  (g : Fin 3 → Fl rnd) (E B : ℕ → ℝ) (F : ℝ) (he : FeasErrors u s g E B F) (hD : 3 ≤ s.D)
  (hom : ∀ l, ic.getConstraint kOmegaXYMax = some l → l.val < dblMax)
  {a b : Fl rnd} (ha : 0 ≤ a.val) (hab : a.val ≤ b.val) (hb : b.val ≤ s.time.val)
include h hu hd hs he hD ha hab hb

theorem thrustAtEndsG_near :
    ∃ r, thrustAtEndsG (flFeasLib rnd dot) ic g s a b = .ok r ∧
      (r = none ∨ ∃ v, r = some v ∧ (v = .thrustHigh ∨ v = .thrustLow) ∧
        ∃ t ∈ Icc a.val b.val, ∀ y, ViolatedUpTo (16 * u) (evalErrors E F) y ic g (realPolys s) t v) := by
  have hu0 := rounding_nonneg h
  have hT : 0 ≤ s.time.val := ha.trans (hab.trans hb)
  obtain ⟨f1, q1, e1, p1, r1, n1⟩ := evaluateThrustG_near h hu dot hd s hs g E B F he hD hT a ha (hab.trans hb)
  obtain ⟨f2, q2, e2, p2, r2, n2⟩ := evaluateThrustG_near h hu dot hd s hs g E B F he hD hT b (ha.trans hab) hb
  have n1 := abs_le.mp n1
  have n2 := abs_le.mp n2
  have hE : evalErrors E F 2 = Real.sqrt 3 * F := by simp [evalErrors]
  unfold thrustAtEndsG
  split
  · rw [e1, Res.ok_bind, e2, Res.ok_bind]
    split
    · next hc =>
      refine ⟨_, rfl, Or.inr ⟨_, rfl, Or.inr rfl, ?_⟩⟩
      obtain ⟨l, hl, hp⟩ := limitSuchThatG_true.mp hc
      have hp' : (stdMinVal f1 f2).val < l.val := of_decide_eq_true hp
      rw [stdMinVal_val] at hp'
      rcases min_lt_iff.mp hp' with hx | hx
      · refine ⟨a.val, ⟨le_rfl, hab⟩, fun _ => ⟨l, hl, ?_⟩⟩
        have := rel_lt hu0 hu p1 r1 hx
        rw [hE]; linarith [n1.1]
      · refine ⟨b.val, ⟨hab, le_rfl⟩, fun _ => ⟨l, hl, ?_⟩⟩
        have := rel_lt hu0 hu p2 r2 hx
        rw [hE]; linarith [n2.1]
    · split
      · next hc =>
        refine ⟨_, rfl, Or.inr ⟨_, rfl, Or.inl rfl, ?_⟩⟩
        obtain ⟨l, hl, hp⟩ := limitSuchThatG_true.mp hc
        have hp' : l.val < (stdMaxVal f1 f2).val := of_decide_eq_true hp
        rw [stdMaxVal_val] at hp'
        rcases lt_max_iff.mp hp' with hx | hx
        · refine ⟨a.val, ⟨le_rfl, hab⟩, fun _ => ⟨l, hl, ?_⟩⟩
          have := rel_gt hu0 p1 r1 hx
          rw [hE]; linarith [n1.2]
        · refine ⟨b.val, ⟨hab, le_rfl⟩, fun _ => ⟨l, hl, ?_⟩⟩
          have := rel_gt hu0 p2 r2 hx
          rw [hE]; linarith [n2.2]
      · exact ⟨_, rfl, Or.inl rfl⟩
  · exact ⟨_, rfl, Or.inl rfl⟩

theorem speedAtEndsG_near :
    ∃ r, speedAtEndsG (flFeasLib rnd dot) ic s a b = .ok r ∧
      (r = none ∨ r = some .velocity ∧
        ∃ t ∈ Icc a.val b.val, ∀ y, ViolatedUpTo (16 * u) (evalErrors E F) y ic g (realPolys s) t .velocity) := by
  have hu0 := rounding_nonneg h
  have hT : 0 ≤ s.time.val := ha.trans (hab.trans hb)
  obtain ⟨f1, q1, e1, p1, r1, n1⟩ := evaluateSpeedG_near h hu dot hd s hs g E B F he hD hT a ha (hab.trans hb)
  obtain ⟨f2, q2, e2, p2, r2, n2⟩ := evaluateSpeedG_near h hu dot hd s hs g E B F he hD hT b (ha.trans hab) hb
  have n1 := abs_le.mp n1
  have n2 := abs_le.mp n2
  have hE : evalErrors E F 1 = Real.sqrt 3 * E 1 := by simp [evalErrors]
  unfold speedAtEndsG
  cases hl : ic.getConstraint kVMax with
  | none => exact ⟨_, rfl, Or.inl rfl⟩
  | some l =>
    simp only
    rw [e1, Res.ok_bind, e2, Res.ok_bind]
    refine ⟨_, rfl, ?_⟩
    split
    · next hc =>
      right
      refine ⟨rfl, ?_⟩
      have hp' : l.val < (stdMaxVal f1 f2).val := hc
      rw [stdMaxVal_val] at hp'
      rcases lt_max_iff.mp hp' with hx | hx
      · refine ⟨a.val, ⟨le_rfl, hab⟩, fun _ => ⟨l, hl, ?_⟩⟩
        have := rel_gt hu0 p1 r1 hx
        rw [hE]; linarith [n1.2]
      · refine ⟨b.val, ⟨hab, le_rfl⟩, fun _ => ⟨l, hl, ?_⟩⟩
        have := rel_gt hu0 p2 r2 hx
        rw [hE]; linarith [n2.2]
    · exact Or.inl rfl

include hN hom

theorem sectionCheckG_near (ra rj rs : List (List (Fl rnd × Fl rnd))) (hr : RootsOkG rc ic s ra rj rs) :
    ∃ r, sectionCheckG (flFeasLib rnd dot) ic g s ra rj rs a b = .ok r ∧
      ∀ v, r = some v → VerdictFl u (0 ≤ ε ∧ ApproxCall ε 0 s.time.val rc) (boundErrors ε E B F) (evalErrors E F) ic g s
        a.val b.val v := by
  have hu0 := rounding_nonneg h
  have hu1 : u < 1 := by linarith
  have hT : 0 ≤ s.time.val := ha.trans (hab.trans hb)
  set A : Prop := 0 ≤ ε ∧ ApproxCall ε 0 s.time.val rc with hA
  have hax : ∀ k, k ≤ 3 → ∀ roots, RootsForG rc s (k + 1) roots → ∀ i < 3,
      ∃ m, axisMinMaxG (flFeasLib rnd dot) s k roots a b i = .ok m ∧
        NearFl (GoodFl A (E k) (B (k + 2) * ε ^ 2) a.val b.val) (E k) (axisVal (realSeg s) k i) a.val b.val m := by
    intro k hk roots hroots i hi
    exact axisMinMaxG_near h dot rc s hs hN g E B F he hD k hk roots hroots i hi ha hab hb ε A id
  have hE0 : ∀ k ≤ 3, 0 ≤ E k := eval_nonneg h s hs g E B F he hD hT
  have hF0 := thrust_nonneg h s hs g E B F he hD hT
  have hB0 : ∀ k ≤ 3, 0 ≤ B (k + 2) * ε ^ 2 := fun k hk => mul_nonneg (second_nonneg h s hs g E B F he hD hT k hk) (sq_nonneg _)
  have h3 : 1 ≤ Real.sqrt 3 := by rw [Real.one_le_sqrt]; norm_num
  unfold sectionCheckG
  obtain ⟨r1, e1, h1⟩ := thrustAtEndsG_near h hu dot hd ic s hs g E B F he hD ha hab hb
  rw [e1, Res.ok_bind]
  rcases h1 with rfl | ⟨v, rfl, hv, t, ht, hvi⟩
  swap
  · refine ⟨some v, rfl, ?_⟩
    intro v' hv'
    obtain rfl : v = v' := by simpa using hv'
    exact Or.inr ⟨hv.imp_right Or.inl, t, ht, hvi⟩
  obtain ⟨r2, e2, h2⟩ := speedAtEndsG_near h hu dot hd ic s hs g E B F he hD ha hab hb
  simp only
  rw [e2, Res.ok_bind]
  rcases h2 with rfl | ⟨rfl, t, ht, hvi⟩
  swap
  · refine ⟨some .velocity, rfl, ?_⟩
    intro v' hv'
    obtain rfl : Verdict.velocity = v' := by simpa using hv'
    exact Or.inr ⟨Or.inr (Or.inr rfl), t, ht, hvi⟩
  simp only
  -- velocity bound
  obtain ⟨x, ex, hx⟩ : ∃ x, velocityPartG (flFeasLib rnd dot) ic s ra a b = Res.ok x ∧
      ((x = .inl .velocity ∧ ∃ t ∈ Icc a.val b.val,
          ∀ y, ViolatedUpTo (16 * u) (evalErrors E F) y ic g (realPolys s) t .velocity) ∨
        ∃ r, x = .inr r ∧ ∀ l, ic.getConstraint kVMax = some l → ∃ Q, AccOf u 3 r Q ∧ (A → ∀ t ∈ Icc a.val b.val,
          speed (realPolys s) t ≤ Real.sqrt Q + boundErrors ε E B F 1)) := by
    unfold velocityPartG
    cases hl : ic.getConstraint kVMax with
    | none => exact ⟨.inr 0, rfl, Or.inr ⟨0, rfl, by simp⟩⟩
    | some l =>
      simp only
      have hroots := hr.acc ((hasConstraintG_iff ic kVMax).mpr ⟨l, hl⟩)
      rcases velocityLoopG_near h hu1 dot _ (E 1) s (lim := l) ra [0, 1, 2]
        (fun i hi => hax 1 (by omega) ra hroots i (by
          simp only [List.mem_cons, List.not_mem_nil, or_false] at hi; omega)) 0 0 0 accOf_zero with
        ⟨q1, i, hi, t, ht, q2⟩ | ⟨r, Q, q1, q2, q3⟩
      · refine ⟨_, q1, Or.inl ⟨rfl, t, ht, fun _ => ⟨l, hl, ?_⟩⟩⟩
        have hi3 : i < 3 := by
          simp only [List.mem_cons, List.not_mem_nil, or_false] at hi; omega
        have w1 := abs_le_speed (realSeg s) t i hi3
        have w2 : E 1 ≤ evalErrors E F 1 := by
          have : evalErrors E F 1 = Real.sqrt 3 * E 1 := by simp [evalErrors]
          rw [this]
          exact le_mul_of_one_le_left (hE0 1 (by omega)) h3
        have w3 : 0 ≤ u * |l.val| := mul_nonneg hu0 (abs_nonneg _)
        have w4 : (realSeg s).polys = realPolys s := rfl
        rw [w4] at w1
        linarith
      · refine ⟨_, q1, Or.inr ⟨r, rfl, ?_⟩⟩
        intro l' _
        refine ⟨Q, q2, ?_⟩
        intro hA' t ht
        have q4 := q3 t _ (Or.inr ⟨hA', ht, rfl⟩)
        have hδ : 0 ≤ 3 * E 1 + B (1 + 2) * ε ^ 2 := by linarith [hE0 1 (by omega), hB0 1 (by omega)]
        have q5 := sqrt_sub_le (axisVal (realSeg s) 1 0 t) (axisVal (realSeg s) 1 1 t) (axisVal (realSeg s) 1 2 t) _ hδ
        have w4 : speed (realPolys s) t = speed (realSeg s).polys t := rfl
        rw [w4, speed_eq]
        simp only [List.map_cons, List.map_nil, List.sum_cons, List.sum_nil] at q4 ⊢
        have hbe : boundErrors ε E B F 1 = Real.sqrt 3 * (3 * E 1 + B (1 + 2) * ε ^ 2) := by simp [boundErrors]
        rw [hbe]
        refine le_trans (le_trans (le_of_eq (by congr 1; ring)) q5) ?_
        gcongr
        linarith
  rw [ex, Res.ok_bind]
  rcases hx with ⟨rfl, t, ht, hvi⟩ | ⟨vMax, rfl, hvel⟩
  · refine ⟨some .velocity, rfl, ?_⟩
    intro v' hv'
    obtain rfl : Verdict.velocity = v' := by simpa using hv'
    exact Or.inr ⟨Or.inr (Or.inr rfl), t, ht, hvi⟩
  simp only
  -- thrust bounds
  have hGF : ∀ t δ, GoodFl A F (B (2 + 2) * ε ^ 2) a.val b.val t δ → 0 ≤ δ := by
    rintro t δ (⟨_, rfl⟩ | ⟨_, _, rfl⟩)
    · exact hF0.2
    · linarith [hF0.2, hB0 2 (by omega)]
  obtain ⟨y, ey, hy⟩ : ∃ y, (if ic.hasConstraint kFMin ∨ ic.hasConstraint kFMax ∨
        ic.hasConstraint kOmegaXYMax
          then thrustLoopG (flFeasLib rnd dot) ic g s rj a b [0, 1, 2] (0, 0) else .ok (.inr (0, 0))) = Res.ok y ∧
      ((y = .inl .thrustHigh ∧ ∃ t ∈ Icc a.val b.val,
          ∀ y, ViolatedUpTo (16 * u) (evalErrors E F) y ic g (realPolys s) t .thrustHigh) ∨
        ∃ fMin fMax, y = .inr (fMin, fMax) ∧ ((ic.hasConstraint kFMin = true ∨
          ic.hasConstraint kFMax = true ∨ ic.hasConstraint kOmegaXYMax = true) → ∃ P Q, AccOf u 3 fMin P ∧ AccOf u 3 fMax Q ∧
          ∀ t δ, GoodFl A F (B (2 + 2) * ε ^ 2) a.val b.val t δ →
          Real.sqrt P ≤ thrust (fun i => (g i).val) (realPolys s) t + Real.sqrt 3 * δ ∧
          thrust (fun i => (g i).val) (realPolys s) t ≤ Real.sqrt Q + Real.sqrt 3 * δ)) := by
    by_cases hc : ic.hasConstraint kFMin ∨ ic.hasConstraint kFMax ∨ ic.hasConstraint kOmegaXYMax
    · rw [if_pos hc]
      rcases thrustLoopG_near h hu1 dot _ hGF F s ic g rj (fun i => by
          obtain ⟨m, m1, m2⟩ := hax 2 (by omega) rj (hr.jerk hc) i i.2
          exact ⟨m, m1, thrustAxis_near h s hs hN g E B F he hD i ha hb _ A m m2⟩) [0, 1, 2] (0, 0) 0 0 0 accOf_zero
          accOf_zero with
        ⟨q1, l, hl, i, _, t, ht, q2⟩ | ⟨r, P, Q, q1, qP, qQ, q2⟩
      · refine ⟨_, q1, Or.inl ⟨rfl, t, ht, fun _ => ⟨l, hl, ?_⟩⟩⟩
        have w1 := abs_le_thrust (fun i => (g i).val) (realSeg s) t i
        have w2 : F ≤ evalErrors E F 2 := by
          have : evalErrors E F 2 = Real.sqrt 3 * F := by simp [evalErrors]
          rw [this]
          exact le_mul_of_one_le_left hF0.2 h3
        have w3 : 0 ≤ u * |l.val| := mul_nonneg hu0 (abs_nonneg _)
        have w4 : (realSeg s).polys = realPolys s := rfl
        rw [w4] at w1
        linarith
      · refine ⟨_, q1, Or.inr ⟨r.1, r.2, rfl, ?_⟩⟩
        intro _
        refine ⟨P, Q, qP, qQ, ?_⟩
        intro t δ ht
        have hδ := hGF t δ ht
        obtain ⟨q3, q4⟩ := q2 t δ ht
        have hx0 := sqrt_add_le (axisVal (realSeg s) 2 (0 : Fin 3) t + (g 0).val) (axisVal (realSeg s) 2 (1 : Fin 3) t + (g 1).val)
          (axisVal (realSeg s) 2 (2 : Fin 3) t + (g 2).val) δ hδ
        have hx1 := sqrt_sub_le (axisVal (realSeg s) 2 (0 : Fin 3) t + (g 0).val) (axisVal (realSeg s) 2 (1 : Fin 3) t + (g 1).val)
          (axisVal (realSeg s) 2 (2 : Fin 3) t + (g 2).val) δ hδ
        have hth : thrust (fun i => (g i).val) (realPolys s) t =
            Real.sqrt ((axisVal (realSeg s) 2 (0 : Fin 3) t + (g 0).val) ^ 2 +
            (axisVal (realSeg s) 2 (1 : Fin 3) t + (g 1).val) ^ 2 + (axisVal (realSeg s) 2 (2 : Fin 3) t + (g 2).val) ^ 2) :=
          thrust_eq3 (fun i => (g i).val) (realSeg s) t
        simp only [List.map_cons, List.map_nil, List.sum_cons, List.sum_nil, zero_add, add_zero] at q3 q4
        rw [hth]
        constructor
        · refine le_trans (Real.sqrt_le_sqrt ?_) hx0
          linarith
        · refine le_trans hx1 ?_
          gcongr
          linarith
    · rw [if_neg hc]
      exact ⟨_, rfl, Or.inr ⟨0, 0, rfl, fun hc' => absurd hc' hc⟩⟩
  rw [ey, Res.ok_bind]
  rcases hy with ⟨rfl, t, ht, hvi⟩ | ⟨fMin, fMax, rfl, hthr⟩
  · refine ⟨some .thrustHigh, rfl, ?_⟩
    intro v' hv'
    obtain rfl : Verdict.thrustHigh = v' := by simpa using hv'
    exact Or.inr ⟨Or.inl rfl, t, ht, hvi⟩
  simp only
  -- jerk bound
  obtain ⟨jMax, ej, hj⟩ : ∃ j, (if ic.hasConstraint kOmegaXYMax then jerkLoopG (flFeasLib rnd dot) s rs a b [0, 1, 2] 0
        else .ok 0) = Res.ok j ∧ (ic.hasConstraint kOmegaXYMax = true → ∃ Q, AccOf u 3 j Q ∧ (A →
          ∀ t ∈ Icc a.val b.val, jerk (realPolys s) t ≤ Real.sqrt Q + boundErrors ε E B F 3)) := by
    by_cases hc : ic.hasConstraint kOmegaXYMax = true
    · rw [if_pos hc]
      obtain ⟨r, Q, q1, qQ, q2⟩ := jerkLoopG_near h hu1 dot _ (E 3) s rs [0, 1, 2]
        (fun i hi => hax 3 le_rfl rs (hr.snap hc) i (by
          simp only [List.mem_cons, List.not_mem_nil, or_false] at hi; omega)) 0 0 0 accOf_zero
      refine ⟨r, q1, fun _ => ⟨Q, qQ, fun hA' t ht => ?_⟩⟩
      have q3 := q2 t _ (Or.inr ⟨hA', ht, rfl⟩)
      have hδ : 0 ≤ 3 * E 3 + B (3 + 2) * ε ^ 2 := by linarith [hE0 3 (by omega), hB0 3 (by omega)]
      have q4 := sqrt_sub_le (axisVal (realSeg s) 3 0 t) (axisVal (realSeg s) 3 1 t) (axisVal (realSeg s) 3 2 t) _ hδ
      have w4 : jerk (realPolys s) t = jerk (realSeg s).polys t := rfl
      rw [w4, jerk_eq]
      simp only [List.map_cons, List.map_nil, List.sum_cons, List.sum_nil] at q3 ⊢
      have hbe : boundErrors ε E B F 3 = Real.sqrt 3 * (3 * E 3 + B (3 + 2) * ε ^ 2) := by simp [boundErrors]
      rw [hbe]
      refine le_trans (le_trans (le_of_eq (by congr 1; ring)) q4) ?_
      gcongr
      linarith
    · rw [if_neg hc]
      exact ⟨0, rfl, fun hc' => absurd hc' hc⟩
  rw [ej, Res.ok_bind]
  refine ⟨_, rfl, ?_⟩
  have hleft : GoodFl A F (B (2 + 2) * ε ^ 2) a.val b.val a.val F := Or.inl ⟨rfl, rfl⟩
  have hE2 : evalErrors E F 2 = Real.sqrt 3 * F := by simp [evalErrors]
  have hB2 : boundErrors ε E B F 2 = Real.sqrt 3 * (3 * F + B (2 + 2) * ε ^ 2) := by simp [boundErrors]
  obtain ⟨c1, c2, c3, c4⟩ := classifyG_spec dot ic fMin fMax vMax jMax
  intro v hv
  rcases c4 with c4 | c4 | c4 | c4
  · rw [c4] at hv; simp at hv
  · rw [c4] at hv
    obtain rfl : Verdict.thrustLow = v := by simpa using hv
    obtain ⟨l, hl, hlt⟩ := c1 c4
    refine Or.inr ⟨Or.inr (Or.inl rfl), a.val, ⟨le_rfl, hab⟩, fun _ => ⟨l, hl, ?_⟩⟩
    obtain ⟨P, Q, qP, qQ, q⟩ := hthr (Or.inl ((hasConstraintG_iff ic _).mpr ⟨l, hl⟩))
    have := (q a.val F hleft).2
    have := rel_lt hu0 hu (Real.sqrt_nonneg _) (qQ.norm h hu) hlt
    rw [hE2]
    linarith
  · rw [c4] at hv
    obtain rfl : Verdict.thrustHigh = v := by simpa using hv
    obtain ⟨l, hl, hlt⟩ := c2 c4
    refine Or.inr ⟨Or.inl rfl, a.val, ⟨le_rfl, hab⟩, fun _ => ⟨l, hl, ?_⟩⟩
    obtain ⟨P, Q, qP, qQ, q⟩ := hthr (Or.inr (Or.inl ((hasConstraintG_iff ic _).mpr ⟨l, hl⟩)))
    have := (q a.val F hleft).1
    have := rel_gt hu0 (Real.sqrt_nonneg _) (qP.norm h hu) hlt
    rw [hE2]
    linarith
  · rw [c4] at hv
    obtain rfl : Verdict.feasible = v := by simpa using hv
    obtain ⟨d1, d2, d3, d4⟩ := c3 c4
    refine Or.inl ⟨rfl, ?_⟩
    intro hA' t ht
    have hgt : GoodFl A F (B (2 + 2) * ε ^ 2) a.val b.val t (3 * F + B (2 + 2) * ε ^ 2) := Or.inr ⟨hA', ht, rfl⟩
    refine ⟨?_, ?_, ?_, ?_⟩
    · intro l hl
      obtain ⟨P, Q, qP, qQ, q⟩ := hthr (Or.inl ((hasConstraintG_iff ic _).mpr ⟨l, hl⟩))
      have q1 := (q t _ hgt).1
      have := rel_ge hu0 (Real.sqrt_nonneg _) (qP.norm h hu) (d1 l hl)
      rw [hB2]
      linarith
    · intro l hl
      obtain ⟨P, Q, qP, qQ, q⟩ := hthr (Or.inr (Or.inl ((hasConstraintG_iff ic _).mpr ⟨l, hl⟩)))
      have q1 := (q t _ hgt).2
      have := rel_le hu0 hu (Real.sqrt_nonneg _) (qQ.norm h hu) (d2 l hl)
      rw [hB2]
      linarith
    · intro l hl
      obtain ⟨Q, qQ, q⟩ := hvel l hl
      have q1 := q hA' t ht
      have := rel_le hu0 hu (Real.sqrt_nonneg _) (qQ.norm h hu) (d3 l hl)
      linarith
    · intro l hl
      have hh := (hasConstraintG_iff ic _).mpr ⟨l, hl⟩
      have hd4 := d4 l hl
      obtain ⟨P, Q, qP, qQ, q⟩ := hthr (Or.inr (Or.inr hh))
      have hf := (q t _ hgt).1
      obtain ⟨J, qJ, hjj⟩ := hj hh
      have hjj := hjj hA' t ht
      by_cases hc : fMin > (⟨rnd (1 / 10 ^ 6)⟩ : Fl rnd)
      swap
      · rw [if_neg hc] at hd4
        exact absurd hd4 (not_le.mpr (hom l hl))
      rw [if_pos hc] at hd4
      have hpos : 0 < fMin.val := by
        have c1 : rnd (1 / 10 ^ 6) < fMin.val := hc
        have c2 := h.mono (by norm_num : (0 : ℝ) ≤ 1 / 10 ^ 6)
        rw [rnd_zero h] at c2
        linarith
      obtain ⟨w1, w2, w3⟩ := omega_rel h hu qJ qP hpos hd4
      have hsf : 0 < Real.sqrt P := Real.sqrt_pos.mpr w1
      rw [hB2]
      refine ⟨lt_of_lt_of_le hsf hf, ?_⟩
      have : l.val * (1 + 16 * u) * Real.sqrt P ≤ l.val * (1 + 16 * u) * (thrust (fun i => (g i).val) (realPolys s) t +
          Real.sqrt 3 * (3 * F + B (2 + 2) * ε ^ 2)) :=
        mul_le_mul_of_nonneg_left hf (mul_nonneg w2 (by linarith))
      linarith

end

/-! #### the recursion -/

theorem recursiveFeasibilityG_succ (lib : FeasLib (Fl rnd)) (ic : InputConstraints (Fl rnd)) (g : Fin 3 → Fl rnd)
    (m : Fl rnd) (s : Segment (Fl rnd)) (ra rj rs : List (List (Fl rnd × Fl rnd))) (fuel : ℕ) (t1 t2 : Fl rnd) :
    recursiveFeasibilityG lib ic g m s ra rj rs (fuel + 1) t1 t2 =
    if t2 - t1 < m then .ok .indeterminable
    else (do
      match ← sectionCheckG lib ic g s ra rj rs t1 t2 with
      | some r => pure r
      | none =>
        let r1 ← recursiveFeasibilityG lib ic g m s ra rj rs fuel t1 ((t1 + t2) / lib.two)
        if r1 = .feasible then recursiveFeasibilityG lib ic g m s ra rj rs fuel ((t1 + t2) / lib.two) t2
        else pure r1) := rfl

/-- The computed middle of a section that is not too short lies inside, and both halves are shorter. -/
theorem half_inside (h : Rounding rnd u) (hu : u ≤ 1 / 100) {a b m : Fl rnd} {T : ℝ} (ha : 0 ≤ a.val) (hb : b.val ≤ T)
    (hm : 0 < m.val) (hmT : 8 * u * T ≤ m.val) (hlen : ¬ b - a < m) (dot : Dot (Fl rnd)) :
    let c := (a + b) / (flFeasLib rnd dot).two
    a.val ≤ b.val ∧ a.val ≤ c.val ∧ c.val ≤ b.val ∧ c.val - a.val ≤ 4 / 5 * (b.val - a.val) ∧
      b.val - c.val ≤ 4 / 5 * (b.val - a.val) := by
  have hu0 := rounding_nonneg h
  have hlen' : m.val ≤ rnd (b.val - a.val) := not_lt.mp hlen
  have hab : a.val ≤ b.val := by
    by_contra hc
    have := h.mono (by linarith [not_le.mp hc] : b.val - a.val ≤ 0)
    rw [rnd_zero h] at this
    linarith
  have hL := abs_le.mp (h.rel (b.val - a.val))
  rw [abs_of_nonneg (by linarith)] at hL
  have h1 : m.val ≤ (1 + u) * (b.val - a.val) := by linarith [hL.2]
  have hs0 : 0 ≤ a.val + b.val := by linarith
  have hs := abs_le.mp (h.rel (a.val + b.val))
  rw [abs_of_nonneg hs0] at hs
  set x := rnd (a.val + b.val) with hx
  have hx0 : 0 ≤ x := by
    have := mul_nonneg (by linarith : 0 ≤ 1 - u) hs0
    linarith [hs.1]
  have hc := abs_le.mp (h.rel (x / 2))
  rw [abs_of_nonneg (by linarith)] at hc
  have hu2 : u * (a.val + b.val) ≤ 2 * (u * T) := by
    have := mul_le_mul_of_nonneg_left (by linarith : a.val + b.val ≤ 2 * T) hu0
    linarith
  have hux : u * x ≤ 101 / 100 * (u * (a.val + b.val)) := by
    have hx1 : x ≤ 101 / 100 * (a.val + b.val) := by
      have := mul_le_mul_of_nonneg_right hu hs0
      linarith [hs.2]
    have := mul_le_mul_of_nonneg_left hx1 hu0
    linarith
  have hmid : |rnd (x / 2) - (a.val + b.val) / 2| ≤ 201 / 100 * (u * T) := by
    rw [abs_le]
    constructor <;> linarith [hc.1, hc.2, hs.1, hs.2]
  have hmid := abs_le.mp hmid
  have huL : u * (b.val - a.val) ≤ 1 / 100 * (b.val - a.val) := mul_le_mul_of_nonneg_right hu (by linarith)
  intro c
  have ec : c.val = rnd (x / 2) := rfl
  rw [ec]
  refine ⟨hab, ?_, ?_, ?_, ?_⟩ <;> linarith [hmid.1, hmid.2]

section
variable (h : Rounding rnd u) (hu : u ≤ 1 / 100) (dot : Dot (Fl rnd)) (hd : DotOk u dot) (rc : RootCall (Fl rnd)) (ε : ℝ)
  (ic : InputConstraints (Fl rnd)) (s : Segment (Fl rnd)) (hs : s.WF) (hN : 4 ≤ s.N)
  (g : Fin 3 → Fl rnd) (E B : ℕ → ℝ) (F : ℝ) (he : FeasErrors u s g E B F) (hD : 3 ≤ s.D)
  (hom : ∀ l, ic.getConstraint kOmegaXYMax = some l → l.val < dblMax)
  (ra rj rs : List (List (Fl rnd × Fl rnd))) (hr : RootsOkG rc ic s ra rj rs)
  (m : Fl rnd) (hm : 0 < m.val) (hmT : 8 * u * s.time.val ≤ m.val)
include h hu hd hs hN he hD hom hr hm hmT

theorem recursiveG_near (fuel : ℕ) {a b : Fl rnd} (ha : 0 ≤ a.val) (hb : b.val ≤ s.time.val) :
    recursiveFeasibilityG (flFeasLib rnd dot) ic g m s ra rj rs fuel a b = .hang ∨
    ∃ r, recursiveFeasibilityG (flFeasLib rnd dot) ic g m s ra rj rs fuel a b = .ok r ∧
      (r = .indeterminable ∨ VerdictFl u (0 ≤ ε ∧ ApproxCall ε 0 s.time.val rc) (boundErrors ε E B F) (evalErrors E F) ic g s
        a.val b.val r) := by
  induction fuel generalizing a b with
  | zero => left; rfl
  | succ fuel ih =>
    rw [recursiveFeasibilityG_succ]
    split
    · right; exact ⟨_, rfl, Or.inl rfl⟩
    · next hlen =>
      obtain ⟨hab, h1, h2, -, -⟩ := half_inside h hu ha hb hm hmT hlen dot
      obtain ⟨r, hr1, hr2⟩ := sectionCheckG_near h hu dot hd rc ε ic s hs hN g E B F he hD hom ha hab hb ra rj rs hr
      rw [hr1, Res.ok_bind]
      cases r with
      | some v => right; exact ⟨v, rfl, Or.inr (hr2 v rfl)⟩
      | none =>
        simp only
        rcases ih ha (h2.trans hb) with e | ⟨r1, e, hv1⟩
        · left; rw [e]; rfl
        · rw [e, Res.ok_bind]
          by_cases hf : r1 = .feasible
          · rw [if_pos hf]
            subst hf
            rcases ih (ha.trans h1) hb with e2 | ⟨r2, e2, hv2⟩
            · left; exact e2
            · right
              refine ⟨r2, e2, ?_⟩
              rcases hv2 with hv2 | ⟨rfl, hv2⟩ | ⟨hv2, t, ht, hv3⟩
              · exact Or.inl hv2
              · right; left
                refine ⟨rfl, ?_⟩
                rcases hv1 with hv1 | ⟨_, hv1⟩ | ⟨hv1, _⟩
                · simp at hv1
                · intro hA t ht
                  rcases le_total t ((a + b) / (flFeasLib rnd dot).two).val with hh | hh
                  · exact hv1 hA t ⟨ht.1, hh⟩
                  · exact hv2 hA t ⟨hh, ht.2⟩
                · simp at hv1
              · right; right
                exact ⟨hv2, t, ⟨le_trans h1 ht.1, ht.2⟩, hv3⟩
          · right
            rw [if_neg hf]
            refine ⟨r1, rfl, ?_⟩
            rcases hv1 with hv1 | ⟨hv1, _⟩ | ⟨hv1, t, ht, hv3⟩
            · exact Or.inl hv1
            · exact absurd hv1 hf
            · right; right
              exact ⟨hv1, t, ⟨ht.1, le_trans ht.2 h2⟩, hv3⟩

theorem recursiveG_terminates (n : ℕ) {a b : Fl rnd} (ha : 0 ≤ a.val) (hb : b.val ≤ s.time.val)
    (hlen : b.val - a.val < m.val / 2 * (5 / 4) ^ n) :
    ∃ r, ∀ fuel, n < fuel → recursiveFeasibilityG (flFeasLib rnd dot) ic g m s ra rj rs fuel a b = .ok r := by
  have hu0 := rounding_nonneg h
  induction n generalizing a b with
  | zero =>
    refine ⟨.indeterminable, ?_⟩
    intro fuel hf
    obtain ⟨f, rfl⟩ : ∃ f, fuel = f + 1 := ⟨fuel - 1, by omega⟩
    rw [recursiveFeasibilityG_succ, if_pos]
    change rnd (b.val - a.val) < m.val
    rw [pow_zero, mul_one] at hlen
    rcases le_total (b.val - a.val) 0 with h0 | h0
    · have := h.mono h0
      rw [rnd_zero h] at this
      linarith
    · have := (abs_le.mp (h.rel (b.val - a.val))).2
      rw [abs_of_nonneg h0] at this
      have h3 := mul_le_mul_of_nonneg_right hu h0
      linarith
  | succ n ih =>
    by_cases hlen0 : b - a < m
    · refine ⟨.indeterminable, ?_⟩
      intro fuel hf
      obtain ⟨f, rfl⟩ : ∃ f, fuel = f + 1 := ⟨fuel - 1, by omega⟩
      rw [recursiveFeasibilityG_succ, if_pos hlen0]
    · obtain ⟨hab, h1, h2, h3, h4⟩ := half_inside h hu ha hb hm hmT hlen0 dot
      obtain ⟨r, hr1, hr2⟩ := sectionCheckG_near h hu dot hd rc 0 ic s hs hN g E B F he hD hom ha hab hb ra rj rs hr
      rw [pow_succ] at hlen
      obtain ⟨r1, e1⟩ := ih (a := a) (b := (a + b) / (flFeasLib rnd dot).two) ha (h2.trans hb) (by linarith)
      obtain ⟨r2, e2⟩ := ih (a := (a + b) / (flFeasLib rnd dot).two) (b := b) (ha.trans h1) hb (by linarith)
      cases r with
      | some v =>
        refine ⟨v, ?_⟩
        intro fuel hf
        obtain ⟨f, rfl⟩ : ∃ f, fuel = f + 1 := ⟨fuel - 1, by omega⟩
        rw [recursiveFeasibilityG_succ, if_neg hlen0, hr1, Res.ok_bind]
        rfl
      | none =>
        refine ⟨if r1 = .feasible then r2 else r1, ?_⟩
        intro fuel hf
        obtain ⟨f, rfl⟩ : ∃ f, fuel = f + 1 := ⟨fuel - 1, by omega⟩
        rw [recursiveFeasibilityG_succ, if_neg hlen0, hr1, Res.ok_bind]
        simp only
        rw [e1 f (by omega), Res.ok_bind, e2 f (by omega)]
        split <;> rfl

end

/-! #### yaw -/

section
variable (h : Rounding rnd u) (dot : Dot (Fl rnd)) (rc : RootCall (Fl rnd)) (ε : ℝ)
  (ic : InputConstraints (Fl rnd)) (s : Segment (Fl rnd)) (hs : s.WF) (hN : 4 ≤ s.N)
  (g : Fin 3 → Fl rnd) (E B : ℕ → ℝ) (F : ℝ) (he : FeasErrors u s g E B F) (hT : 0 ≤ s.time.val)
include h hs hN he hT

omit h hs hN he hT in
theorem computeMinMaxM_eq (p : Poly (Fl rnd)) (k : ℕ) (hk : k < p.N) (a b : Fl rnd) (c : List (Fl rnd))
    (hc : p.getCoefficients ((k : ℤ) + 1) = .ok c) :
    p.computeMinMaxM (flLib rnd).abs (flLib rnd).eps (flLib rnd).max rc a b k = (do
      let r ← rc c
      p.selectMinMaxFromRootsG (flLib rnd) a b k r.2) := by
  unfold Poly.computeMinMaxM Poly.computeMinMaxCandidatesM Poly.selectMinMaxFromRootsG
  rw [if_neg (by omega), hc, Res.ok_bind]
  cases rc c with
  | ok r =>
    rw [Res.ok_bind, Res.ok_bind]
    cases candidatesG (flLib rnd).abs (flLib rnd).eps a b r.2 <;> rfl
  | abort => rfl
  | throws => rfl
  | ub => rfl
  | hang => rfl

/-- The check of one yaw limit: the call of the root finder does not return, or the verdict is right up to the errors. -/
theorem yawCheckG_near (hD : 3 < s.D) (type : ℤ) (k : ℕ) (hk : k ≤ 3) (bad : Verdict) :
    ∃ c, c.length = s.N ∧ ((∃ x, rc c = .ok x) ∨ ic.getConstraint type = none →
      ∃ r, yawCheckG (flFeasLib rnd dot) rc ic s type k bad = .ok r) ∧
    ∀ r, yawCheckG (flFeasLib rnd dot) rc ic s type k bad = .ok r →
    ((r = none ∧ ∀ l, ic.getConstraint type = some l → 0 ≤ ε ∧ ApproxCall ε 0 s.time.val rc → ∀ t ∈ Icc 0 s.time.val,
          |yaw (realPolys s) k t| ≤ l.val + (3 * E k + B (k + 2) * ε ^ 2)) ∨
       (r = some bad ∧ ∃ l, ic.getConstraint type = some l ∧ ∃ t ∈ Icc 0 s.time.val,
          l.val < |yaw (realPolys s) k t| + E k)) := by
  set p := s.polys[3]'hD with hp
  have hval : ∀ k t, yaw (realPolys s) k t = derivAt (vals p.coeffs) k t := fun k t => axisReal_eq s k 3 t hD
  have hpN : p.N = s.N := hs.polysN p (List.getElem_mem _)
  have hsm : s.N ≤ 22 := hs.small
  obtain ⟨c, hc, hlen, -, -⟩ := getCoefficients_near h p (k + 1) (by omega) (by omega) (by omega)
  have hc' : p.getCoefficients ((k : ℤ) + 1) = .ok c := by simpa using hc
  refine ⟨c, by omega, ?_⟩
  have e1 := he.eval k hk 3 hD
  have e2 := he.second k hk 3 hD
  have e3 := he.finite k hk 3 hD
  rw [axisSize_eq s _ 3 _ hD] at e1 e2 e3
  unfold yawCheckG
  cases hl : ic.getConstraint type with
  | none =>
    refine ⟨fun _ => ⟨none, rfl⟩, fun r hr => Or.inl ⟨(Res.ok.inj hr).symm, by simp⟩⟩
  | some l =>
    simp only
    have hcm : ∀ x, rc c = .ok x → p.computeMinMaxM (flFeasLib rnd dot).abs (flFeasLib rnd dot).eps (flFeasLib rnd dot).max rc 0
        s.time k = p.selectMinMaxFromRootsG (flLib rnd) 0 s.time k x.2 := by
      intro x hx
      have := computeMinMaxM_eq rc p k (by omega) 0 s.time c hc'
      rw [hx, Res.ok_bind] at this
      exact this
    have hsel := selectRoots_near h p (by omega) k (by omega) (by omega) (a := 0) (b := s.time) hT s.time.val
      (by rw [show (0 : Fl rnd).val = 0 from rfl, abs_zero]; exact hT) (by rw [abs_of_nonneg hT]) (E k) (by rw [hpN]; exact e1) e3
    have hz : (0 : Fl rnd).val = 0 := rfl
    rw [hz] at hsel
    rw [segment_get_ok s 3 hD, Res.ok_bind, show s.polys[3]'hD = p from rfl]
    refine ⟨?_, ?_⟩
    · rintro (⟨x, hx⟩ | hx)
      · obtain ⟨m, M, q1, -⟩ := hsel x.2
        rw [hcm x hx, q1, Res.ok_bind]
        exact ⟨_, rfl⟩
      · simp at hx
    intro r hr
    rw [Res.bind_eq_ok] at hr
    obtain ⟨mo, hmo, hr⟩ := hr
    obtain ⟨x, hx⟩ : ∃ x, rc c = .ok x := by
      have e : p.computeMinMaxM (flFeasLib rnd dot).abs (flFeasLib rnd dot).eps (flFeasLib rnd dot).max rc 0
        s.time k = _ := computeMinMaxM_eq rc p k (by omega) 0 s.time c hc'
      rw [e, Res.bind_eq_ok] at hmo
      obtain ⟨x, hx, -⟩ := hmo
      exact ⟨x, hx⟩
    rw [hcm x hx] at hmo
    obtain ⟨m, M, q1, q2, q3, q4, q5, q6, q7, q8⟩ := hsel x.2
    rw [q1] at hmo
    cases Res.ok.inj hmo
    have hr := Res.ok.inj hr
    dsimp only at hr
    subst hr
    split
    · next hc2 =>
      right
      refine ⟨rfl, l, rfl, ?_⟩
      have hc2' : l.val < (maxAbsG (flFeasLib rnd dot) m.2 M.2).val := hc2
      rw [maxAbsG_val] at hc2'
      have key : ∀ y t : ℝ, |y - derivAt (vals p.coeffs) k t| ≤ E k → |y| ≤ |derivAt (vals p.coeffs) k t| + E k := by
        intro y t hy
        have := abs_add_le (y - derivAt (vals p.coeffs) k t) (derivAt (vals p.coeffs) k t)
        rw [sub_add_cancel] at this
        linarith
      rcases lt_max_iff.mp hc2' with hx | hx
      · exact ⟨_, q2, by rw [hval]; exact lt_of_lt_of_le hx (key _ _ q4)⟩
      · exact ⟨_, q3, by rw [hval]; exact lt_of_lt_of_le hx (key _ _ q5)⟩
    · next hc2 =>
      left
      refine ⟨rfl, ?_⟩
      intro l' hl' hA t ht
      obtain rfl : l = l' := by simpa using hl'
      have hc2' : (maxAbsG (flFeasLib rnd dot) m.2 M.2).val ≤ l.val := not_lt.mp hc2
      rw [maxAbsG_val] at hc2'
      have hb := q8 ε (B (k + 2)) c hA.1 hc' (approxCall_covers hA.2 le_rfl le_rfl hx) (by rw [hpN]; exact e2) t ht
      rw [← hval] at hb
      rw [abs_le]
      constructor
      · have q1 := neg_abs_le m.2.val
        have q2 := le_max_left |m.2.val| |M.2.val|
        linarith [hb.1]
      · have q1 := le_abs_self M.2.val
        have q2 := le_max_right |m.2.val| |M.2.val|
        linarith [hb.2]

theorem yawChecksG_near :
    ∀ r, yawChecksG (flFeasLib rnd dot) rc ic s = .ok r →
      ((r = none ∧ (s.D = 4 → 0 ≤ ε ∧ ApproxCall ε 0 s.time.val rc → ∀ t ∈ Icc 0 s.time.val,
          YawLimitsUpTo (fun k => 3 * E k + B (k + 2) * ε ^ 2) ic (realPolys s) t)) ∨
       (∃ v, r = some v ∧ (v = .yawRates ∨ v = .yawAcc) ∧ ∃ t ∈ Icc 0 s.time.val, ∀ ρ e,
          ViolatedUpTo ρ e E ic g (realPolys s) t v)) := by
  intro r hr
  unfold yawChecksG at hr
  by_cases hD : s.D = 4
  · rw [if_pos hD] at hr
    obtain ⟨c1, -, -, h1⟩ := yawCheckG_near h dot rc ε ic s hs hN g E B F he hT (by omega) kOmegaZMax 1 (by omega) .yawRates
    obtain ⟨c2, -, -, h2⟩ := yawCheckG_near h dot rc ε ic s hs hN g E B F he hT (by omega) kOmegaZDotMax 2 (by omega) .yawAcc
    rw [Res.bind_eq_ok] at hr
    obtain ⟨r1, e1, hr⟩ := hr
    rcases h1 r1 e1 with ⟨rfl, h1⟩ | ⟨rfl, l, hl, t, ht, hlt⟩
    · rcases h2 r hr with ⟨rfl, h2⟩ | ⟨rfl, l, hl, t, ht, hlt⟩
      · left
        exact ⟨rfl, fun _ hA t ht => ⟨fun l hl => h1 l hl hA t ht, fun l hl => h2 l hl hA t ht⟩⟩
      · right
        exact ⟨_, rfl, Or.inr rfl, t, ht, fun _ _ => ⟨l, hl, hlt⟩⟩
    · cases Res.ok.inj hr
      exact Or.inr ⟨_, rfl, Or.inl rfl, t, ht, fun _ _ => ⟨l, hl, hlt⟩⟩
  · rw [if_neg hD] at hr
    cases Res.ok.inj hr
    exact Or.inl ⟨rfl, fun hh => absurd hh hD⟩

theorem yawChecksG_returns (hrc : ∀ c, c.length = s.N → ∃ x, rc c = .ok x) :
    ∃ r, yawChecksG (flFeasLib rnd dot) rc ic s = .ok r := by
  unfold yawChecksG
  by_cases hD : s.D = 4
  · rw [if_pos hD]
    obtain ⟨c1, l1, h1, -⟩ := yawCheckG_near h dot rc 0 ic s hs hN g E B F he hT (by omega) kOmegaZMax 1 (by omega) .yawRates
    obtain ⟨c2, l2, h2, -⟩ := yawCheckG_near h dot rc 0 ic s hs hN g E B F he hT (by omega) kOmegaZDotMax 2 (by omega) .yawAcc
    obtain ⟨r1, e1⟩ := h1 (Or.inl (hrc c1 l1))
    obtain ⟨r2, e2⟩ := h2 (Or.inl (hrc c2 l2))
    have e1' : yawCheckG (flFeasLib rnd dot) rc ic s kOmegaZMax 1 .yawRates = .ok r1 := e1
    have e2' : yawCheckG (flFeasLib rnd dot) rc ic s kOmegaZDotMax 2 .yawAcc = .ok r2 := e2
    rw [e1', Res.ok_bind]
    cases r1 with
    | none => exact ⟨r2, e2'⟩
    | some v => exact ⟨_, rfl⟩
  · rw [if_neg hD]
    exact ⟨_, rfl⟩

/-! #### the roots -/

omit he hT in
theorem rootsLoopG_ok (hD : 3 ≤ s.D) (k : ℕ) (hk : k ≤ s.N) (hk2 : k < 22) (r : Option (List (List (Fl rnd × Fl rnd))))
    (hr : rootsLoopG rc s k [0, 1, 2] [] = .ok r) : r = none ∨ ∃ roots, r = some roots ∧ RootsForG rc s k roots := by
  have hsm : s.N ≤ 22 := hs.small
  have step : ∀ (i : ℕ) (hi : i < s.D) (is : List ℕ) (acc : List (List (Fl rnd × Fl rnd))),
      rootsLoopG rc s k (i :: is) acc = .ok r → r = none ∨ ∃ c x, (s.polys[i]'hi).getCoefficients (k : ℤ) = .ok c ∧
        rc c = .ok x ∧ rootsLoopG rc s k is (acc ++ [x.2]) = .ok r := by
    intro i hi is acc hacc
    have hpN : (s.polys[i]'hi).N = s.N := hs.polysN _ (List.getElem_mem _)
    obtain ⟨c, hc, -⟩ := getCoefficients_near h (s.polys[i]'hi) k (by omega) (by omega) hk2
    unfold rootsLoopG at hacc
    rw [segment_get_ok s i hi, Res.ok_bind, hc, Res.ok_bind, Res.bind_eq_ok] at hacc
    obtain ⟨x, hx, hacc⟩ := hacc
    by_cases hf : x.1 = true
    · rw [if_pos hf] at hacc
      exact Or.inr ⟨c, x, hc, hx, hacc⟩
    · rw [if_neg hf] at hacc
      exact Or.inl (Res.ok.inj hacc).symm
  rcases step 0 (by omega) _ _ hr with h0 | ⟨c0, x0, a0, b0, h0⟩
  · exact Or.inl h0
  rcases step 1 (by omega) _ _ h0 with h1 | ⟨c1, x1, a1, b1, h1⟩
  · exact Or.inl h1
  rcases step 2 (by omega) _ _ h1 with h2 | ⟨c2, x2, a2, b2, h2⟩
  · exact Or.inl h2
  right
  refine ⟨_, (Res.ok.inj h2).symm, rfl, ?_⟩
  intro i hi hiD
  match i, hi with
  | 0, _ => exact ⟨c0, x0, a0, b0, rfl⟩
  | 1, _ => exact ⟨c1, x1, a1, b1, rfl⟩
  | 2, _ => exact ⟨c2, x2, a2, b2, rfl⟩

omit he hT in
theorem rootsLoopG_returns (hrc : ∀ c, c.length = s.N → ∃ x, rc c = .ok x) (k : ℕ) (hk : k ≤ s.N) (hk2 : k < 22)
    (is : List ℕ) (his : ∀ i ∈ is, i < s.D) (acc : List (List (Fl rnd × Fl rnd))) :
    ∃ r, rootsLoopG rc s k is acc = .ok r := by
  have hsm : s.N ≤ 22 := hs.small
  induction is generalizing acc with
  | nil => exact ⟨_, rfl⟩
  | cons i is ih =>
    have hi := his i (by simp)
    have hpN : (s.polys[i]'hi).N = s.N := hs.polysN _ (List.getElem_mem _)
    obtain ⟨c, hc, hl, -⟩ := getCoefficients_near h (s.polys[i]'hi) k (by omega) (by omega) hk2
    obtain ⟨x, hx⟩ := hrc c (by omega)
    unfold rootsLoopG
    rw [segment_get_ok s i hi, Res.ok_bind, hc, Res.ok_bind, hx, Res.ok_bind]
    split
    · exact ih (fun j hj => his j (by simp [hj])) _
    · exact ⟨_, rfl⟩

end

/-! #### the whole check -/

section
variable (h : Rounding rnd u) (hu : u ≤ 1 / 100) (dot : Dot (Fl rnd)) (hd : DotOk u dot) (rc : RootCall (Fl rnd)) (ε : ℝ)
  (ic : InputConstraints (Fl rnd)) (s : Segment (Fl rnd)) (hs : s.WF) (hN : 4 ≤ s.N)
  (g : Fin 3 → Fl rnd) (E B : ℕ → ℝ) (F : ℝ) (he : FeasErrors u s g E B F) (hD : s.D = 3 ∨ s.D = 4) (hT : 0 ≤ s.time.val)
  (hom : ∀ l, ic.getConstraint kOmegaXYMax = some l → l.val < dblMax)
  (m : Fl rnd) (hm : 0 < m.val) (hmT : 8 * u * s.time.val ≤ m.val)
include h hs hN hD

/-- The roots and what follows. -/
theorem checkRecursiveG_cases (fuel : ℕ) (r : Verdict) (hr : s.checkRecursiveFl dot rc ic g m fuel = .ok r) :
    r = .indeterminable ∨ ∃ ra rj rs, RootsOkG rc ic s ra rj rs ∧
      ∃ r0, recursiveFeasibilityG (flFeasLib rnd dot) ic g m s ra rj rs fuel 0 s.time = .ok r0 ∧
        ((r0 ≠ .feasible ∧ r = r0) ∨ (r0 = .feasible ∧ ∃ y, yawChecksG (flFeasLib rnd dot) rc ic s = .ok y ∧
          r = y.getD .feasible)) := by
  have hD3 : 3 ≤ s.D := by omega
  have roots : ∀ (k : ℕ), k ≤ 4 → ∀ (c : Prop) [Decidable c] (x : Option (List (List (Fl rnd × Fl rnd)))),
      (if c then rootsLoopG rc s k [0, 1, 2] [] else .ok (some [])) = .ok x →
      x = none ∨ ∃ y, x = some y ∧ (c → RootsForG rc s k y) := by
    intro k hk c _ x hx
    by_cases hc : c
    · rw [if_pos hc] at hx
      rcases rootsLoopG_ok h rc s hs hN hD3 k (by omega) (by omega) x hx with h1 | ⟨y, h1, h2⟩
      · exact Or.inl h1
      · exact Or.inr ⟨y, h1, fun _ => h2⟩
    · rw [if_neg hc] at hx
      exact Or.inr ⟨[], (Res.ok.inj hx).symm, fun h => absurd h hc⟩
  unfold Segment.checkRecursiveFl Segment.checkRecursiveG at hr
  rw [if_pos hD, Res.bind_eq_ok] at hr
  obtain ⟨x1, e1, hr⟩ := hr
  rcases roots 2 (by omega) _ x1 e1 with rfl | ⟨ra, rfl, hra⟩
  · exact Or.inl (Res.ok.inj hr).symm
  simp only at hr
  rw [Res.bind_eq_ok] at hr
  obtain ⟨x2, e2, hr⟩ := hr
  rcases roots 3 (by omega) _ x2 e2 with rfl | ⟨rj, rfl, hrj⟩
  · exact Or.inl (Res.ok.inj hr).symm
  simp only at hr
  rw [Res.bind_eq_ok] at hr
  obtain ⟨x3, e3, hr⟩ := hr
  rcases roots 4 (by omega) _ x3 e3 with rfl | ⟨rs, rfl, hrs⟩
  · exact Or.inl (Res.ok.inj hr).symm
  simp only at hr
  rw [Res.bind_eq_ok] at hr
  obtain ⟨r0, e0, hr⟩ := hr
  refine Or.inr ⟨ra, rj, rs, ⟨hra, hrj, hrs⟩, r0, e0, ?_⟩
  by_cases hf : r0 = .feasible
  · right
    subst hf
    rw [if_neg (by simp), Res.bind_eq_ok] at hr
    obtain ⟨y, ey, hr⟩ := hr
    refine ⟨rfl, y, ey, ?_⟩
    cases y <;> exact (Res.ok.inj hr).symm
  · left
    rw [if_pos hf] at hr
    exact ⟨hf, (Res.ok.inj hr).symm⟩

include hu hd he hT hom hm hmT

theorem checkRecursiveFl_near (fuel : ℕ) (r : Verdict) (hr : s.checkRecursiveFl dot rc ic g m fuel = .ok r) :
    r = .indeterminable ∨
       (r = .feasible ∧ (0 ≤ ε ∧ ApproxCall ε 0 s.time.val rc →
         (∀ t ∈ Icc 0 s.time.val, LimitsUpTo (16 * u) (boundErrors ε E B F) ic g (realPolys s) t) ∧
         (s.D = 4 → ∀ t ∈ Icc 0 s.time.val, YawLimitsUpTo (fun k => 3 * E k + B (k + 2) * ε ^ 2) ic (realPolys s) t))) ∨
       (r ≠ .feasible ∧ r ≠ .rollPitchRates ∧ ∃ t ∈ Icc 0 s.time.val,
         ViolatedUpTo (16 * u) (evalErrors E F) E ic g (realPolys s) t r) := by
  have hD3 : 3 ≤ s.D := by omega
  rcases checkRecursiveG_cases h dot rc ic s hs hN g hD m fuel r hr with rfl | ⟨ra, rj, rs, hroots, r0, e0, hcase⟩
  · exact Or.inl rfl
  have hz : (0 : Fl rnd).val = 0 := rfl
  rcases recursiveG_near h hu dot hd rc ε ic s hs hN g E B F he hD3 hom ra rj rs hroots m hm hmT fuel (a := 0) (b := s.time)
    (by rw [hz]) le_rfl with e | ⟨r1, e, hv⟩
  · rw [e] at e0; simp at e0
  rw [e] at e0
  obtain rfl : r1 = r0 := Res.ok.inj e0
  rw [hz] at hv
  rcases hcase with ⟨hf, rfl⟩ | ⟨rfl, y, ey, rfl⟩
  · rcases hv with hv | ⟨hv, -⟩ | ⟨hv, t, ht, hvi⟩
    · exact Or.inl hv
    · exact absurd hv hf
    · refine Or.inr (Or.inr ⟨hf, ?_, t, ht, hvi E⟩)
      rcases hv with rfl | rfl | rfl <;> simp
  · have hv' : 0 ≤ ε ∧ ApproxCall ε 0 s.time.val rc → ∀ t ∈ Icc 0 s.time.val,
        LimitsUpTo (16 * u) (boundErrors ε E B F) ic g (realPolys s) t := by
      rcases hv with hv | ⟨-, hv⟩ | ⟨hv, -⟩
      · simp at hv
      · exact hv
      · simp at hv
    rcases yawChecksG_near h dot rc ε ic s hs hN g E B F he hT y ey with ⟨rfl, hy⟩ | ⟨v, rfl, hy, t, ht, hvi⟩
    · exact Or.inr (Or.inl ⟨rfl, fun hA => ⟨hv' hA, fun h4 => hy h4 hA⟩⟩)
    · refine Or.inr (Or.inr ⟨?_, ?_, t, ht, hvi _ _⟩) <;> rcases hy with rfl | rfl <;> simp

theorem checkRecursiveFl_returns (hrc : ∀ c, c.length = s.N → ∃ x, rc c = .ok x) (n : ℕ)
    (hn : s.time.val < m.val / 2 * (5 / 4) ^ n) :
    ∃ r, ∀ fuel, n < fuel → s.checkRecursiveFl dot rc ic g m fuel = .ok r := by
  have hD3 : 3 ≤ s.D := by omega
  have roots : ∀ (k : ℕ), k ≤ 4 → ∀ (c : Prop) [Decidable c],
      ∃ x, (if c then rootsLoopG rc s k [0, 1, 2] [] else .ok (some [])) = .ok x ∧
      (x = none ∨ ∃ y, x = some y ∧ (c → RootsForG rc s k y)) := by
    intro k hk c _
    by_cases hc : c
    · rw [if_pos hc]
      obtain ⟨x, hx⟩ := rootsLoopG_returns h rc s hs hN hrc k (by omega) (by omega) [0, 1, 2] (fun i hi => by
        simp only [List.mem_cons, List.not_mem_nil, or_false] at hi; omega) []
      refine ⟨x, hx, ?_⟩
      rcases rootsLoopG_ok h rc s hs hN hD3 k (by omega) (by omega) x hx with h1 | ⟨y, h1, h2⟩
      · exact Or.inl h1
      · exact Or.inr ⟨y, h1, fun _ => h2⟩
    · rw [if_neg hc]
      exact ⟨_, rfl, Or.inr ⟨[], rfl, fun h => absurd h hc⟩⟩
  have hz : (0 : Fl rnd).val = 0 := rfl
  unfold Segment.checkRecursiveFl Segment.checkRecursiveG
  simp only [if_pos hD]
  obtain ⟨x1, e1, h1⟩ := roots 2 (by omega) (ic.hasConstraint kVMax = true)
  have e1' : (if ic.hasConstraint kVMax = true then rootsLoopG rc s 2 [0, 1, 2] [] else .ok (some [])) = .ok x1 := e1
  simp only [e1', Res.ok_bind]
  rcases h1 with rfl | ⟨ra, rfl, hra⟩
  · exact ⟨_, fun _ _ => rfl⟩
  simp only
  obtain ⟨x2, e2, h2⟩ := roots 3 (by omega)
    (ic.hasConstraint kFMin = true ∨ ic.hasConstraint kFMax = true ∨ ic.hasConstraint kOmegaXYMax = true)
  have e2' : (if ic.hasConstraint kFMin = true ∨ ic.hasConstraint kFMax = true ∨ ic.hasConstraint kOmegaXYMax = true
      then rootsLoopG rc s 3 [0, 1, 2] [] else .ok (some [])) = .ok x2 := e2
  simp only [e2', Res.ok_bind]
  rcases h2 with rfl | ⟨rj, rfl, hrj⟩
  · exact ⟨_, fun _ _ => rfl⟩
  simp only
  obtain ⟨x3, e3, h3⟩ := roots 4 (by omega) (ic.hasConstraint kOmegaXYMax = true)
  have e3' : (if ic.hasConstraint kOmegaXYMax = true then rootsLoopG rc s 4 [0, 1, 2] [] else .ok (some [])) = .ok x3 := e3
  simp only [e3', Res.ok_bind]
  rcases h3 with rfl | ⟨rs, rfl, hrs⟩
  · exact ⟨_, fun _ _ => rfl⟩
  simp only
  obtain ⟨r0, e0⟩ := recursiveG_terminates h hu dot hd rc ic s hs hN g E B F he hD3 hom ra rj rs ⟨hra, hrj, hrs⟩ m hm hmT n
    (a := 0) (b := s.time) (by rw [hz]) le_rfl (by rw [hz]; linarith)
  obtain ⟨y, ey⟩ := yawChecksG_returns h dot rc ic s hs hN g E B F he hT hrc
  refine ⟨if r0 ≠ .feasible then r0 else y.getD .feasible, fun fuel hf => ?_⟩
  rw [e0 fuel hf, Res.ok_bind, ey, Res.ok_bind]
  split
  · rfl
  · cases y <;> rfl

end

end Verif
