import Verif.Spec.RoundedTimes
import Verif.Proofs.Rounded
import Verif.Props.Times

/- Helper lemmas for the time estimates with rounded numbers. -/
set_option linter.unusedSectionVars false

namespace Verif

open Spec

variable {rnd : ℝ → ℝ} {u : ℝ}

/-- One rounding as a factor. -/
noncomputable def flα (u : ℝ) : ℝ := (1 - u)⁻¹

theorem flα_ge (h : Rounding rnd u) (hu : u < 1) : 1 ≤ flα u := by
  have h0 := rounding_nonneg h
  unfold flα
  rw [one_le_inv₀ (by linarith)]
  linarith

theorem flα_pow (h : Rounding rnd u) (hu : u < 1) (n : ℕ) : 1 ≤ flα u ^ n := one_le_pow₀ (flα_ge h hu)

theorem factor_refl {q x : ℝ} (hq : 1 ≤ q) (hx : 0 ≤ x) : Factor q x x :=
  ⟨le_mul_of_one_le_left hx hq, le_mul_of_one_le_left hx hq⟩

theorem Spec.Factor.symm {q x y : ℝ} (h : Factor q x y) : Factor q y x := ⟨h.2, h.1⟩

theorem Spec.Factor.mono {q r x y : ℝ} (h : Factor q x y) (hx : 0 ≤ x) (hy : 0 ≤ y) (hqr : q ≤ r) : Factor r x y :=
  ⟨h.1.trans (mul_le_mul_of_nonneg_right hqr hy), h.2.trans (mul_le_mul_of_nonneg_right hqr hx)⟩

theorem Spec.Factor.trans {q r x y z : ℝ} (h : Factor q x y) (h' : Factor r y z) (hq : 0 ≤ q) (hr : 0 ≤ r) :
    Factor (q * r) x z := by
  refine ⟨h.1.trans ?_, h'.2.trans ?_⟩
  · rw [mul_assoc]
    exact mul_le_mul_of_nonneg_left h'.1 hq
  · rw [mul_comm q r, mul_assoc]
    exact mul_le_mul_of_nonneg_left h.2 hr

theorem Spec.Factor.nonneg {q x y : ℝ} (h : Factor q x y) (hq : 0 < q) (hy : 0 ≤ y) : 0 ≤ x := by
  by_contra hc
  push Not at hc
  have := mul_neg_of_pos_of_neg hq hc
  have := h.2
  linarith

theorem Spec.Factor.add {q x y x' y' : ℝ} (h : Factor q x y) (h' : Factor q x' y') : Factor q (x + x') (y + y') := by
  refine ⟨?_, ?_⟩
  · rw [mul_add]; exact add_le_add h.1 h'.1
  · rw [mul_add]; exact add_le_add h.2 h'.2

theorem Spec.Factor.mul {q r x y x' y' : ℝ} (h : Factor q x y) (h' : Factor r x' y') (hq : 0 < q) (hr : 0 < r)
    (hy : 0 ≤ y) (hy' : 0 ≤ y') : Factor (q * r) (x * x') (y * y') := by
  have hx := h.nonneg hq hy
  have hx' := h'.nonneg hr hy'
  refine ⟨?_, ?_⟩
  · calc x * x' ≤ (q * y) * (r * y') := mul_le_mul h.1 h'.1 hx' (by positivity)
      _ = q * r * (y * y') := by ring
  · calc y * y' ≤ (q * x) * (r * x') := mul_le_mul h.2 h'.2 hy' (by positivity)
      _ = q * r * (x * x') := by ring

theorem Spec.Factor.div_right {q x y : ℝ} (h : Factor q x y) {c : ℝ} (hc : 0 < c) : Factor q (x / c) (y / c) := by
  refine ⟨?_, ?_⟩
  · rw [← mul_div_assoc]; exact div_le_div_of_nonneg_right h.1 hc.le
  · rw [← mul_div_assoc]; exact div_le_div_of_nonneg_right h.2 hc.le

theorem Spec.Factor.mul_left {q x y : ℝ} (h : Factor q x y) {c : ℝ} (hc : 0 ≤ c) : Factor q (c * x) (c * y) := by
  refine ⟨?_, ?_⟩
  · rw [mul_left_comm]; exact mul_le_mul_of_nonneg_left h.1 hc
  · rw [mul_left_comm]; exact mul_le_mul_of_nonneg_left h.2 hc

theorem Spec.Factor.sqrt {q x y : ℝ} (h : Factor (q ^ 2) x y) (hq : 0 ≤ q) : Factor q (Real.sqrt x) (Real.sqrt y) := by
  refine ⟨?_, ?_⟩
  · rw [show q * Real.sqrt y = Real.sqrt (q ^ 2 * y) by
      rw [Real.sqrt_mul (by positivity), Real.sqrt_sq hq]]
    exact Real.sqrt_le_sqrt h.1
  · rw [show q * Real.sqrt x = Real.sqrt (q ^ 2 * x) by
      rw [Real.sqrt_mul (by positivity), Real.sqrt_sq hq]]
    exact Real.sqrt_le_sqrt h.2

theorem Spec.Factor.max {q x y z w : ℝ} (h : Factor q x y) (h' : Factor q z w) (hq : 0 ≤ q) : Factor q (max x z) (max y w) := by
  refine ⟨?_, ?_⟩
  · rw [mul_max_of_nonneg _ _ hq]
    exact max_le_max h.1 h'.1
  · rw [mul_max_of_nonneg _ _ hq]
    exact max_le_max h.2 h'.2

/-- Rounding a number that is not negative. -/
theorem factor_rnd (h : Rounding rnd u) (hu : u < 1) {x : ℝ} (hx : 0 ≤ x) : Factor (flα u) (rnd x) x := by
  have h0 := rounding_nonneg h
  have h1 := abs_le.mp (h.rel x)
  rw [abs_of_nonneg hx] at h1
  have hp : 0 < 1 - u := by linarith
  unfold flα
  refine ⟨?_, ?_⟩
  · have : (1 + u) * x ≤ (1 - u)⁻¹ * x := by
      apply mul_le_mul_of_nonneg_right _ hx
      rw [← one_div, le_div_iff₀ hp]
      nlinarith
    linarith
  · rw [← div_eq_inv_mul, le_div_iff₀ hp]
    linarith

theorem factor_rnd_neg (h : Rounding rnd u) (hu : u < 1) {x : ℝ} (hx : 0 ≤ x) : Factor (flα u) (-rnd (-x)) x := by
  have h0 := rounding_nonneg h
  have h1 := abs_le.mp (h.rel (-x))
  rw [abs_neg, abs_of_nonneg hx] at h1
  have hp : 0 < 1 - u := by linarith
  unfold flα
  refine ⟨?_, ?_⟩
  · have : (1 + u) * x ≤ (1 - u)⁻¹ * x := by
      apply mul_le_mul_of_nonneg_right _ hx
      rw [← one_div, le_div_iff₀ hp]
      nlinarith
    linarith
  · rw [← div_eq_inv_mul, le_div_iff₀ hp]
    linarith

/-- A further rounding. -/
theorem Spec.Factor.rounded (h : Rounding rnd u) (hu : u < 1) {n : ℕ} {x y : ℝ} (hf : Factor (flα u ^ n) x y) (hy : 0 ≤ y) :
    Factor (flα u ^ (n + 1)) (rnd x) y := by
  have hα := flα_ge h hu
  have hx := hf.nonneg (by positivity) hy
  rw [pow_succ']
  exact (factor_rnd h hu hx).trans hf (by positivity) (by positivity)

/-- The same number of roundings or more. -/
theorem Spec.Factor.up (h : Rounding rnd u) (hu : u < 1) {n m : ℕ} {x y : ℝ} (hf : Factor (flα u ^ n) x y) (hy : 0 ≤ y)
    (hnm : n ≤ m) : Factor (flα u ^ m) x y :=
  hf.mono (hf.nonneg (by have := flα_ge h hu; positivity) hy) hy (pow_le_pow_right₀ (flα_ge h hu) hnm)

/-! ### norms -/

theorem AddOrder.indices_pos (o : AddOrder) : 0 < o.indices.length := by
  induction o with
  | leaf i => simp [AddOrder.indices]
  | node l r ihl ihr => simp [AddOrder.indices]; omega

theorem factor_sum (h : Rounding rnd u) (hu : u < 1) (x : ℕ → Fl rnd) (y : ℕ → ℝ) (hy : ∀ i, 0 ≤ y i)
    (hxy : ∀ i, Factor (flα u) (x i).val (y i)) (o : AddOrder) :
    Factor (flα u ^ o.indices.length) (o.sum x).val (o.indices.map y).sum := by
  have hα := flα_ge h hu
  induction o with
  | leaf i => simpa [AddOrder.indices, AddOrder.sum] using hxy i
  | node l r ihl ihr =>
    have hnn : ∀ o : AddOrder, 0 ≤ (o.indices.map y).sum := fun o =>
      List.sum_nonneg fun z hz => by
        obtain ⟨i, _, rfl⟩ := List.mem_map.mp hz
        exact hy i
    have hl := l.indices_pos
    have hr := r.indices_pos
    have e1 : Factor (flα u ^ (l.indices.length + r.indices.length - 1)) (l.sum x).val (l.indices.map y).sum :=
      ihl.up h hu (hnn l) (by omega)
    have e2 : Factor (flα u ^ (l.indices.length + r.indices.length - 1)) (r.sum x).val (r.indices.map y).sum :=
      ihr.up h hu (hnn r) (by omega)
    have e3 := (e1.add e2).rounded h hu (add_nonneg (hnn l) (hnn r))
    rw [show l.indices.length + r.indices.length - 1 + 1 = l.indices.length + r.indices.length by omega] at e3
    simp only [AddOrder.indices, List.length_append, List.map_append, List.sum_append, AddOrder.sum]
    exact e3

theorem sum_map_range (x : ℕ → ℝ) (n : ℕ) : ((List.range n).map x).sum = ∑ i ∈ Finset.range n, x i := by
  induction n with
  | zero => simp
  | succ n ih => rw [List.range_succ, List.map_append, List.sum_append, ih, Finset.sum_range_succ]; simp

theorem sqrt_pow_bound (h : Rounding rnd u) (hu : u < 1) {n : ℕ} {x y : ℝ} (hf : Factor (flα u ^ n) x y) (hy : 0 ≤ y) :
    Factor (flα u ^ ((n + 1) / 2)) (Real.sqrt x) (Real.sqrt y) := by
  have hα := flα_ge h hu
  apply Factor.sqrt _ (by positivity)
  rw [← pow_mul]
  exact hf.up h hu hy (by omega)

theorem orderedNorm_ok (h : Rounding rnd u) (hu : u < 1) {order : ℕ → AddOrder} (ho : Orders order)
    (x : List (Fl rnd)) :
    Factor (flα u ^ ((x.length + 1) / 2 + 1))
      (orderedNorm (fun x : Fl rnd => (⟨rnd (Real.sqrt x.val)⟩ : Fl rnd)) order x).val
      (Real.sqrt (∑ i ∈ Finset.range x.length, (x.getD i 0).val ^ 2)) := by
  have hα := flα_ge h hu
  unfold orderedNorm
  by_cases h0 : x.length = 0
  · rw [if_pos h0, h0]
    have hz : rnd 0 = 0 := rnd_zero h
    have : (0 : Fl rnd).val = 0 := rfl
    simp [this, hz, Factor]
  · rw [if_neg h0]
    have hp := ho x.length (by omega)
    have e := factor_sum h hu (fun i => x.getD i 0 * x.getD i 0) (fun i => (x.getD i 0).val ^ 2) (fun i => sq_nonneg _)
      (fun i => by
        have := factor_rnd h hu (mul_self_nonneg (x.getD i 0).val)
        rw [pow_two]
        exact this) (order x.length)
    rw [hp.length_eq, List.length_range, (hp.map _).sum_eq, sum_map_range] at e
    have hnn : 0 ≤ ∑ i ∈ Finset.range x.length, (x.getD i 0).val ^ 2 :=
      Finset.sum_nonneg fun i _ => sq_nonneg _
    exact (sqrt_pow_bound h hu e hnn).rounded h hu (Real.sqrt_nonneg _)

theorem zipWith_getD_val (a b : List (Fl rnd)) (hab : a.length = b.length) (i : ℕ) (hi : i < a.length) :
    ((List.zipWith (· - ·) a b).getD i 0).val = rnd ((vals a).getD i 0 - (vals b).getD i 0) := by
  have hb : i < b.length := by omega
  have hz : i < (List.zipWith (· - ·) a b).length := by simp; omega
  rw [List.getD_eq_getElem?_getD, List.getElem?_eq_getElem hz, List.getD_eq_getElem?_getD, List.getD_eq_getElem?_getD]
  unfold vals
  rw [List.getElem?_map, List.getElem?_map, List.getElem?_eq_getElem hi, List.getElem?_eq_getElem hb]
  simp only [Option.getD_some, Option.map_some, List.getElem_zipWith]
  rfl

/-- The number of roundings in a distance of two vectors of size `n`. -/
def distErr (n : ℕ) : ℕ := (n + 1) / 2 + 2

theorem factor_distance (h : Rounding rnd u) (hu : u < 1) {order : ℕ → AddOrder} (ho : Orders order)
    (a b : List (Fl rnd)) (hab : a.length = b.length) :
    Factor (flα u ^ distErr a.length)
      (orderedNorm (fun x : Fl rnd => (⟨rnd (Real.sqrt x.val)⟩ : Fl rnd)) order (List.zipWith (· - ·) a b)).val
      (distance (vals a) (vals b)) := by
  have hα := flα_ge h hu
  have hlen : (List.zipWith (· - ·) a b).length = a.length := by simp [hab]
  have e := orderedNorm_ok h hu ho (List.zipWith (· - ·) a b)
  rw [hlen] at e
  have e2 : Factor (flα u) (Real.sqrt (∑ i ∈ Finset.range a.length, ((List.zipWith (· - ·) a b).getD i 0).val ^ 2))
      (distance (vals a) (vals b)) := by
    unfold distance
    have hl : (vals a).length = a.length := by simp [vals]
    rw [hl]
    apply Factor.sqrt _ (by positivity)
    have key : ∀ i ∈ Finset.range a.length,
        Factor (flα u ^ 2) (((List.zipWith (· - ·) a b).getD i 0).val ^ 2)
          (((vals a).getD i 0 - (vals b).getD i 0) ^ 2) := by
      intro i hi
      rw [zipWith_getD_val a b hab i (Finset.mem_range.mp hi)]
      set z := (vals a).getD i 0 - (vals b).getD i 0 with hz
      have hfac : Factor (flα u) |rnd z| |z| := by
        rcases le_total 0 z with hz0 | hz0
        · have := factor_rnd h hu hz0
          rw [abs_of_nonneg hz0, abs_of_nonneg (this.nonneg (by positivity) hz0)]
          exact this
        · have := factor_rnd_neg h hu (x := -z) (by linarith)
          rw [neg_neg] at this
          have hn := this.nonneg (by positivity) (by linarith)
          rw [abs_of_nonpos hz0, abs_of_nonpos (by linarith)]
          exact this
      have := hfac.mul hfac (by positivity) (by positivity) (abs_nonneg z) (abs_nonneg z)
      rwa [← pow_two, ← pow_two, ← pow_two, sq_abs, sq_abs] at this
    constructor
    · rw [Finset.mul_sum]
      exact Finset.sum_le_sum fun i hi => (key i hi).1
    · rw [Finset.mul_sum]
      exact Finset.sum_le_sum fun i hi => (key i hi).2
  have := e.trans e2 (by positivity) (by positivity)
  rw [← pow_succ] at this
  exact this

/-! ### the velocity ramp -/

theorem rampTime_nonneg {d v a : ℝ} (hd : 0 ≤ d) (hv : 0 < v) (ha : 0 < a) : 0 ≤ rampTime d v a := by
  unfold rampTime
  split <;> positivity

/-- At the border of the two cases the formulas agree up to the factor by which the distance is off. -/
theorem ramp_cases {d v a β : ℝ} (hd : 0 ≤ d) (hv : 0 < v) (ha : 0 < a) (hβ : 1 ≤ β) :
    (d ≤ β * (v ^ 2 / a) → Factor β (2 * Real.sqrt (d / a)) (rampTime d v a)) ∧
    (v ^ 2 / a ≤ β * d → Factor β (v / a + d / v) (rampTime d v a)) := by
  have hamgm : 2 * Real.sqrt (d / a) ≤ v / a + d / v := by
    have hw : 0 ≤ v / a := by positivity
    have hx : 0 ≤ d / v := by positivity
    have e : Real.sqrt (d / a) = Real.sqrt (v / a) * Real.sqrt (d / v) := by
      rw [← Real.sqrt_mul hw]
      congr 1
      field_simp
    rw [e]
    nlinarith [sq_nonneg (Real.sqrt (v / a) - Real.sqrt (d / v)), Real.sq_sqrt hw, Real.sq_sqrt hx]
  have hs : 0 ≤ Real.sqrt (d / a) := Real.sqrt_nonneg _
  have hT2 : 0 ≤ v / a + d / v := by positivity
  unfold rampTime
  constructor
  · intro hle
    split
    · exact factor_refl hβ (by positivity)
    · rename_i hc
      rw [not_lt] at hc
      refine ⟨hamgm.trans (le_mul_of_one_le_left hT2 hβ), ?_⟩
      have h1 : v / a ≤ Real.sqrt (d / a) := by
        apply Real.le_sqrt_of_sq_le
        rw [div_pow, div_le_div_iff₀ (by positivity) ha]
        rw [div_le_iff₀ ha] at hc
        nlinarith
      have h2 : d / v ≤ β * (v / a) := by
        rw [div_le_iff₀ hv]
        calc d ≤ β * (v ^ 2 / a) := hle
          _ = β * (v / a) * v := by ring
      have h3 : 0 ≤ v / a := by positivity
      nlinarith
  · intro hle
    split
    · rename_i hc
      refine ⟨?_, hamgm.trans (le_mul_of_one_le_left hT2 hβ)⟩
      have h2 : d / v ≤ v / a := by
        rw [div_le_iff₀ hv]
        calc d ≤ v ^ 2 / a := hc.le
          _ = v / a * v := by ring
      have h1 : v / a ≤ β * Real.sqrt (d / a) := by
        rw [show β * Real.sqrt (d / a) = Real.sqrt (β ^ 2 * (d / a)) by
          rw [Real.sqrt_mul (by positivity), Real.sqrt_sq (by linarith)]]
        apply Real.le_sqrt_of_sq_le
        have h3 : v ^ 2 / a ≤ β ^ 2 * d := hle.trans (by nlinarith [mul_nonneg (by linarith : (0:ℝ) ≤ β) hd])
        calc (v / a) ^ 2 = v ^ 2 / a / a := by field_simp
          _ ≤ β ^ 2 * d / a := div_le_div_of_nonneg_right h3 ha.le
          _ = β ^ 2 * (d / a) := by ring
      linarith
    · exact factor_refl hβ hT2

theorem ramp_value (h : Rounding rnd u) (hu : u < 1) {order : ℕ → AddOrder} (ho : Orders order)
    (exp : Fl rnd → Fl rnd) (a b : List (Fl rnd)) (hab : a.length = b.length) (vMax aMax : Fl rnd)
    (hv : 0 < vMax.val) (ha : 0 < aMax.val) :
    ∃ t, computeTimeVelocityRampG (flTimeLib rnd order exp) a b vMax aMax = .ok t ∧
      Factor (flα u ^ (a.length + 16)) t.val (rampTime (distance (vals a) (vals b)) vMax.val aMax.val) := by
  have hα := flα_ge h hu
  have hα0 : 0 < flα u := by linarith
  set v := vMax.val with hv'
  set α := aMax.val with ha'
  set q := flα u with hq
  set d := distance (vals a) (vals b) with hd'
  have hd : 0 ≤ d := Real.sqrt_nonneg _
  have hR := rampTime_nonneg hd hv ha
  set p := distErr a.length with hp
  have hp2 : p + p + 11 ≤ a.length + 16 := by rw [hp]; unfold distErr; omega
  set D := (flTimeLib rnd order exp).norm (List.zipWith (· - ·) a b) with hD
  have eD : Factor (q ^ p) D.val d := factor_distance h hu ho a b hab
  have hD0 : 0 ≤ D.val := eD.nonneg (by positivity) hd
  set w := vMax / aMax with hw
  have ew : Factor (q ^ 1) w.val (v / α) := by
    rw [pow_one]
    exact factor_rnd h hu (by positivity)
  have ewnn : 0 ≤ w.val := ew.nonneg (by positivity) (by positivity)
  have eh : Factor (q ^ 1) ((⟨1 / 2⟩ : Fl rnd) * vMax).val (1 / 2 * v) := by
    rw [pow_one]
    exact factor_rnd h hu (by positivity)
  have eacc : Factor (q ^ 3) ((⟨1 / 2⟩ : Fl rnd) * vMax * w).val (1 / 2 * v * (v / α)) := by
    have := eh.mul ew (by positivity) (by positivity) (by positivity) (by positivity)
    rw [← pow_add] at this
    exact this.rounded h hu (by positivity)
  set A := (⟨2⟩ : Fl rnd) * ((⟨1 / 2⟩ : Fl rnd) * vMax * w) with hA
  have eA : Factor (q ^ 4) A.val (v ^ 2 / α) := by
    have := (eacc.mul_left (c := 2) (by norm_num)).rounded h hu (by positivity)
    rw [show 2 * (1 / 2 * v * (v / α)) = v ^ 2 / α by ring] at this
    exact this
  have hA0 : 0 ≤ A.val := eA.nonneg (by positivity) (by positivity)
  unfold computeTimeVelocityRampG vecSubG
  rw [if_pos hab, Res.ok_bind]
  dsimp only
  have hsplit : q ^ 4 * q ^ p = q ^ (p + 4) := by rw [← pow_add, add_comm]
  have hβ : 1 ≤ q ^ (p + 4) := flα_pow h hu _
  by_cases hc : D.val < A.val
  · refine ⟨(⟨2⟩ : Fl rnd) * ⟨rnd (Real.sqrt (D / aMax).val)⟩, ?_, ?_⟩
    · exact if_pos hc
    · have e1 : Factor (q ^ (p + 1)) (D / aMax).val (d / α) := (eD.div_right ha).rounded h hu (by positivity)
      have e2 := (sqrt_pow_bound h hu e1 (by positivity)).rounded h hu (Real.sqrt_nonneg _)
      have e3 := (e2.mul_left (c := 2) (by norm_num)).rounded h hu (by positivity)
      have hb : d ≤ q ^ (p + 4) * (v ^ 2 / α) := by
        calc d ≤ q ^ p * D.val := eD.2
          _ ≤ q ^ p * A.val := mul_le_mul_of_nonneg_left hc.le (by positivity)
          _ ≤ q ^ p * (q ^ 4 * (v ^ 2 / α)) := mul_le_mul_of_nonneg_left eA.1 (by positivity)
          _ = q ^ (p + 4) * (v ^ 2 / α) := by rw [pow_add]; ring
      have e4 := (ramp_cases hd hv ha hβ).1 hb
      have e5 := e3.trans e4 (by positivity) (by positivity)
      rw [← pow_add] at e5
      exact e5.up h hu hR (by omega)
  · refine ⟨(⟨2⟩ : Fl rnd) * w + (D - A) / vMax, ?_, ?_⟩
    · exact if_neg hc
    · rw [not_lt] at hc
      have e1 : Factor (q ^ 1) ((⟨2⟩ : Fl rnd) * w).val (2 * w.val) := by
        rw [pow_one]; exact factor_rnd h hu (by positivity)
      have e2 : Factor (q ^ 2) ((D - A) / vMax).val ((D.val - A.val) / v) := by
        have : Factor (q ^ 1) (D - A).val (D.val - A.val) := by
          rw [pow_one]; exact factor_rnd h hu (by linarith)
        exact (this.div_right hv).rounded h hu (div_nonneg (by linarith) hv.le)
      have hnn1 : 0 ≤ (D.val - A.val) / v := div_nonneg (by linarith) hv.le
      have e3 : Factor (q ^ 2) ((⟨2⟩ : Fl rnd) * w).val (2 * (v / α)) := by
        have := e1.trans (ew.mul_left (c := 2) (by norm_num)) (by positivity) (by positivity)
        rw [← pow_add] at this
        exact this
      have e4 : Factor (q ^ 3) ((⟨2⟩ : Fl rnd) * w + (D - A) / vMax).val (2 * (v / α) + (D.val - A.val) / v) :=
        (e3.add e2).rounded h hu (by positivity)
      have e5 : Factor (q ^ 4) (2 * (v / α) + (D.val - A.val) / v) (v / α + D.val / v) := by
        have hB : 1 ≤ q ^ 4 := flα_pow h hu _
        have hW : 0 ≤ v / α := by positivity
        have hX : 0 ≤ D.val / v := by positivity
        have hYX : A.val / v ≤ D.val / v := div_le_div_of_nonneg_right hc hv.le
        have hY0 : 0 ≤ A.val / v := by positivity
        have hY1 : A.val / v ≤ q ^ 4 * (v / α) := by
          rw [div_le_iff₀ hv]
          calc A.val ≤ q ^ 4 * (v ^ 2 / α) := eA.1
            _ = q ^ 4 * (v / α) * v := by ring
        have hY2 : v / α ≤ q ^ 4 * (A.val / v) := by
          rw [← mul_div_assoc, le_div_iff₀ hv]
          calc v / α * v = v ^ 2 / α := by ring
            _ ≤ _ := eA.2
        rw [sub_div]
        set B := q ^ 4
        set W := v / α
        set X := D.val / v
        set Y := A.val / v
        constructor
        · nlinarith [mul_nonneg (sub_nonneg.mpr hB) hX, mul_nonneg (sub_nonneg.mpr hB) hW, mul_nonneg (sub_nonneg.mpr hB) hY0]
        · nlinarith [mul_le_mul_of_nonneg_left hYX (sub_nonneg.mpr hB), mul_nonneg (sub_nonneg.mpr hB) hW]
      have e6 : Factor (q ^ p) (v / α + D.val / v) (v / α + d / v) :=
        (factor_refl (flα_pow h hu p) (by positivity)).add (eD.div_right hv)
      have hb : v ^ 2 / α ≤ q ^ (p + 4) * d := by
        calc v ^ 2 / α ≤ q ^ 4 * A.val := eA.2
          _ ≤ q ^ 4 * D.val := mul_le_mul_of_nonneg_left hc (by positivity)
          _ ≤ q ^ 4 * (q ^ p * d) := mul_le_mul_of_nonneg_left eD.1 (by positivity)
          _ = q ^ (p + 4) * d := by rw [pow_add]; ring
      have e7 := (ramp_cases hd hv ha hβ).2 hb
      have e8 := ((e4.trans e5 (by positivity) (by positivity)).trans e6 (by positivity) (by positivity)).trans e7
        (by positivity) (by positivity)
      rw [← pow_add, ← pow_add, ← pow_add] at e8
      exact e8.up h hu hR (by omega)

/-! ### Nfabian -/

theorem distance_neg_comm (a b : List (Fl rnd)) (hab : a.length = b.length) :
    distance (vals b) (vals a) = distance (vals a) (vals b) :=
  distance_comm _ _ (by simp [vals, hab])

/-- The exponential of numbers that agree up to a factor. -/
theorem exp_factor {q z z' : ℝ} (hq : 1 ≤ q) (hz : 0 ≤ z) (hf : Factor q z' z) :
    Factor (Real.exp ((q - 1) * z)) (Real.exp (-z')) (Real.exp (-z)) := by
  rw [Factor, ← Real.exp_add, ← Real.exp_add, Real.exp_le_exp, Real.exp_le_exp]
  have h1 := hf.1
  have h2 := hf.2
  constructor
  · have hqp : 0 < q := by linarith
    have h3 : z / q ≤ z' := by rw [div_le_iff₀ hqp]; linarith
    have h4 : (2 - q) * z ≤ z / q := by
      rw [le_div_iff₀ hqp]
      nlinarith [mul_nonneg hz (sq_nonneg (q - 1))]
    linarith
  · linarith

theorem nfabian_value (h : Rounding rnd u) (hu : u < 1) {order : ℕ → AddOrder} (ho : Orders order)
    {exp : Fl rnd → Fl rnd} {e : ℕ} (he : ExpOk u e exp) (a b : List (Fl rnd)) (hab : a.length = b.length)
    (vMax aMax magic : Fl rnd) (hv : 0 < vMax.val) (ha : 0 < aMax.val) (hm : 0 ≤ magic.val) :
    ∃ t, nfabianTimeG (flTimeLib rnd order exp) a b vMax aMax magic = .ok t ∧
      2 * distance (vals a) (vals b) / vMax.val ≤ flα u ^ (a.length + 8) * t.val ∧
      Factor (flα u ^ (a.length + e + 11) *
          Real.exp ((flα u ^ (a.length + 6) - 1) * (2 * distance (vals a) (vals b) / vMax.val))) t.val
        (2 * distance (vals a) (vals b) / vMax.val *
          (1 + magic.val * (vMax.val / aMax.val) *
            Real.exp (-(2 * distance (vals a) (vals b) / vMax.val)))) := by
  have hα := flα_ge h hu
  have hα0 : 0 < flα u := by linarith
  set v := vMax.val with hv'
  set α := aMax.val with ha'
  set q := flα u with hq
  have hdc := distance_neg_comm a b hab
  set d := distance (vals a) (vals b) with hd'
  have hd : 0 ≤ d := Real.sqrt_nonneg _
  set p := distErr a.length with hp
  have hp2 : p + 2 ≤ a.length + 6 := by rw [hp]; unfold distErr; omega
  set D := (flTimeLib rnd order exp).norm (List.zipWith (· - ·) b a) with hD
  have eD : Factor (q ^ p) D.val d := by
    have := factor_distance h hu ho b a hab.symm
    rw [hdc, ← hab] at this
    exact this
  have hD0 : 0 ≤ D.val := eD.nonneg (by positivity) hd
  set z := 2 * d / v with hz
  have hz0 : 0 ≤ z := by positivity
  -- the first factor
  have ex : Factor (q ^ (p + 2)) (D / vMax * (⟨2⟩ : Fl rnd)).val z := by
    have e1 : Factor (q ^ (p + 1)) (D / vMax).val (d / v) := (eD.div_right hv).rounded h hu (by positivity)
    have e2 := (e1.mul_left (c := 2) (by norm_num)).rounded h hu (by positivity)
    rw [show 2 * (d / v) = z by rw [hz]; ring] at e2
    have : (D / vMax * (⟨2⟩ : Fl rnd)).val = rnd (2 * (D / vMax).val) := by
      rw [mul_comm]; rfl
    rw [this]
    exact e2
  -- the exponential
  have ey : Factor (q ^ (p + 2)) (-(-D / vMax * (⟨2⟩ : Fl rnd)).val) z := by
    have e1 : Factor (q ^ (p + 1)) (-(-D / vMax).val) (d / v) := by
      have : Factor q (-(-D / vMax).val) (D.val / v) := by
        have := factor_rnd_neg h hu (x := D.val / v) (by positivity)
        rw [← neg_div] at this
        exact this
      have := this.trans (eD.div_right hv) (by positivity) (by positivity)
      rw [← pow_succ'] at this
      exact this
    have hnn := e1.nonneg (by positivity) (by positivity)
    have : Factor q (-(-D / vMax * (⟨2⟩ : Fl rnd)).val) (2 * (-(-D / vMax).val)) := by
      have := factor_rnd_neg h hu (x := 2 * (-(-D / vMax).val)) (by positivity)
      rw [show -(2 * (-(-D / vMax).val)) = (-D / vMax).val * 2 by ring] at this
      exact this
    have := this.trans (e1.mul_left (c := 2) (by norm_num)) (by positivity) (by positivity)
    rw [← pow_succ', show 2 * (d / v) = z by rw [hz]; ring] at this
    exact this
  set Y := -D / vMax * (⟨2⟩ : Fl rnd) with hY
  have hY0 : Y.val ≤ 0 := by
    have := ey.nonneg (by positivity) hz0
    linarith
  set E := Real.exp ((q ^ (a.length + 6) - 1) * z) with hE
  have hE1 : 1 ≤ E := by
    rw [hE]
    apply Real.one_le_exp
    have := flα_pow h hu (a.length + 6)
    exact mul_nonneg (by linarith) hz0
  have eexp : Factor (q ^ e * E) (exp Y).val (Real.exp (-z)) := by
    have e1 := he Y hY0
    have e2 := exp_factor (flα_pow h hu _) hz0 (ey.up h hu hz0 hp2)
    rw [neg_neg] at e2
    exact e1.trans e2 (by positivity) (by positivity)
  have eexp0 : 0 ≤ (exp Y).val := eexp.nonneg (by positivity) (Real.exp_pos _).le
  -- the second factor
  have emv : Factor (q ^ 2) (magic * vMax / aMax).val (magic.val * (v / α)) := by
    have e1 : Factor (q ^ 1) (magic * vMax).val (magic.val * v) := by
      rw [pow_one]; exact factor_rnd h hu (by positivity)
    have := (e1.div_right ha).rounded h hu (by positivity)
    rw [mul_div_assoc] at this
    exact this
  have emv0 : 0 ≤ (magic * vMax / aMax).val := emv.nonneg (by positivity) (by positivity)
  have exp0 := (Real.exp_pos (-z)).le
  have eprod : Factor (q ^ (e + 3) * E) (magic * vMax / aMax * exp Y).val (magic.val * (v / α) * Real.exp (-z)) := by
    have e1 := emv.mul eexp (by positivity) (by positivity) (by positivity) exp0
    have e2 := (factor_rnd h hu (mul_nonneg emv0 eexp0)).trans e1 (by positivity) (by positivity)
    rw [show q * (q ^ 2 * (q ^ e * E)) = q ^ (e + 3) * E by rw [pow_add]; ring] at e2
    exact e2
  have eprod0 : 0 ≤ (magic * vMax / aMax * exp Y).val := eprod.nonneg (by positivity) (by positivity)
  set P := magic * vMax / aMax * exp Y with hP
  have eone : Factor (q ^ (e + 4) * E) ((⟨1⟩ : Fl rnd) + P).val (1 + magic.val * (v / α) * Real.exp (-z)) := by
    have h1 : 1 ≤ q ^ (e + 3) * E := by
      have := flα_pow h hu (e + 3)
      nlinarith
    have e1 := (factor_refl h1 zero_le_one).add eprod
    have e2 := (factor_rnd h hu (x := 1 + P.val) (by linarith)).trans e1 (by positivity) (by positivity)
    rw [show q * (q ^ (e + 3) * E) = q ^ (e + 4) * E by rw [pow_succ q (e + 3)]; ring] at e2
    exact e2
  have eone1 : 1 ≤ q * ((⟨1⟩ : Fl rnd) + P).val := by
    have := (factor_rnd h hu (x := 1 + P.val) (by linarith)).2
    have h2 : rnd (1 + P.val) = ((⟨1⟩ : Fl rnd) + P).val := rfl
    rw [h2] at this
    linarith
  set X := D / vMax * (⟨2⟩ : Fl rnd) with hX
  have hX0 : 0 ≤ X.val := ex.nonneg (by positivity) hz0
  set S := (⟨1⟩ : Fl rnd) + P with hS
  have hS0 : 0 ≤ S.val := eone.nonneg (by positivity) (by positivity)
  refine ⟨X * S, ?_, ?_, ?_⟩
  · unfold nfabianTimeG vecSubG
    rw [if_pos hab.symm, Res.ok_bind]
    rfl
  · have e1 := (factor_rnd h hu (mul_nonneg hX0 hS0)).2
    have e2 : rnd (X.val * S.val) = (X * S).val := rfl
    rw [e2] at e1
    have ht0 : 0 ≤ (X * S).val := by
      have := (factor_rnd h hu (mul_nonneg hX0 hS0)).nonneg (by positivity) (mul_nonneg hX0 hS0)
      exact this
    calc z ≤ q ^ (p + 2) * X.val := ex.2
      _ ≤ q ^ (p + 2) * (X.val * (q * S.val)) :=
        mul_le_mul_of_nonneg_left (le_mul_of_one_le_right hX0 eone1) (by positivity)
      _ = q ^ (p + 3) * (X.val * S.val) := by rw [pow_succ q (p + 2)]; ring
      _ ≤ q ^ (p + 3) * (q * (X * S).val) := mul_le_mul_of_nonneg_left e1 (by positivity)
      _ = q ^ (p + 4) * (X * S).val := by rw [pow_succ q (p + 3)]; ring
      _ ≤ q ^ (a.length + 8) * (X * S).val :=
        mul_le_mul_of_nonneg_right (pow_le_pow_right₀ hα (by omega)) ht0
  · have e1 := ex.mul eone (by positivity) (by positivity) hz0 (by positivity)
    have e2 := (factor_rnd h hu (mul_nonneg hX0 hS0)).trans e1 (by positivity) (by positivity)
    have e3 : rnd (X.val * S.val) = (X * S).val := rfl
    rw [e3] at e2
    have hR : 0 ≤ z * (1 + magic.val * (v / α) * Real.exp (-z)) := by positivity
    refine e2.mono (e2.nonneg (by positivity) hR) hR ?_
    calc q * (q ^ (p + 2) * (q ^ (e + 4) * E)) = q ^ (p + e + 7) * E := by
          ring
      _ ≤ q ^ (a.length + e + 11) * E :=
        mul_le_mul_of_nonneg_right (pow_le_pow_right₀ hα (by omega)) (by positivity)

end Verif
