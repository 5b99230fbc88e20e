import Verif.Proofs.RpolySteps
import Verif.Proofs.RpolyTermination
import Mathlib.Topology.Algebra.Polynomial
import Mathlib.Topology.Order.IntermediateValue

/-
The bound on the moduli of the zeros computed by the root finder.
-/
namespace Verif
open Verif.Spec Polynomial

/-- `x Σ |l_k| x^(n-1-k)` does not grow faster than its degree allows. -/
theorem slope_le {x r : ℝ} (hr : 0 ≤ r) (hx : r ≤ x) (l : List ℝ) :
    slope x l * (x - r) ≤ l.length * (x * absValue l x - r * absValue l r) := by
  have hx0 := hr.trans hx
  induction l using List.reverseRecOn with
  | nil => simp [slope]
  | append_singleton l a ih =>
    have hA := absValue_nonneg l hr
    have hM := absValue_mono l hr hx
    have hA' := absValue_nonneg l hx0
    by_cases hl : l = []
    · subst hl
      rw [List.nil_append, slope_single, absValue_single, absValue_single]
      simp
      nlinarith
    · rw [slope_snoc _ _ _ hl, absValue_snoc, absValue_snoc, List.length_append, List.length_singleton]
      push_cast
      have h1 := mul_le_mul_of_nonneg_left ih hx0
      have hn : (0 : ℝ) ≤ l.length := Nat.cast_nonneg _
      have ha := abs_nonneg a
      have hd : 0 ≤ x - r := by linarith
      have t1 : 0 ≤ (l.length : ℝ) * (r * absValue l r * (x - r)) := by positivity
      have t2 : 0 ≤ r * (x * absValue l x - r * absValue l r) := by
        apply mul_nonneg hr
        nlinarith
      have t3 : 0 ≤ (l.length : ℝ) * (|a| * (x - r)) := by positivity
      nlinarith

theorem absValue_ge_head (a : ℝ) (l : List ℝ) {x : ℝ} (hx : 0 ≤ x) : |a| * x ^ l.length ≤ absValue (a :: l) x := by
  induction l using List.reverseRecOn with
  | nil => simp [absValue_single]
  | append_singleton l b ih =>
    rw [← List.cons_append, absValue_snoc, List.length_append, List.length_singleton, pow_succ]
    have := mul_le_mul_of_nonneg_left ih hx
    have := abs_nonneg b
    nlinarith

theorem absValue_continuous (l : List ℝ) : Continuous fun x => absValue l x := Polynomial.continuous _

/-- The positive number at which the moduli balance. -/
theorem exists_radius (l : List ℝ) (c x : ℝ) (hc : c ≠ 0) (hx : 0 ≤ x) (h : |c| ≤ x * absValue l x) :
    ∃ r, 0 < r ∧ r * absValue l r = |c| := by
  have hcont : ContinuousOn (fun x => x * absValue l x) (Set.Icc 0 x) :=
    (continuous_id.mul (absValue_continuous l)).continuousOn
  have hmem : |c| ∈ Set.Icc ((fun x => x * absValue l x) 0) ((fun x => x * absValue l x) x) :=
    ⟨by simp, h⟩
  obtain ⟨r, hr, he⟩ := intermediate_value_Icc hx hcont hmem
  refine ⟨r, lt_of_le_of_ne hr.1 ?_, he⟩
  rintro rfl
  simp only [zero_mul] at he
  exact hc (abs_eq_zero.mp he.symm)

theorem radius_le (l : List ℝ) (c r x : ℝ) (hc : c ≠ 0) (hr : 0 < r) (he : r * absValue l r = |c|) (hx : 0 ≤ x)
    (h : |c| ≤ x * absValue l x) : r ≤ x := by
  by_contra hlt
  push Not at hlt
  have hc' := abs_pos.mpr hc
  have h1 := absValue_mono l hx hlt.le
  have h2 : 0 < absValue l r := by
    by_contra h0
    push Not at h0
    nlinarith
  have h3 := mul_le_mul_of_nonneg_left h1 hx
  nlinarith

theorem le_of_radius (l : List ℝ) (c r x : ℝ) (hr : 0 < r) (he : r * absValue l r = |c|) (h : r ≤ x) :
    |c| ≤ x * absValue l x := by
  rw [← he]
  exact mul_le_mul h (absValue_mono l hr.le h) (absValue_nonneg l hr.le) (hr.le.trans h)

theorem eval_norm_le (l : List ℝ) (z : ℂ) :
    ‖((decPoly l).map (algebraMap ℝ ℂ)).eval z‖ ≤ absValue l ‖z‖ := by
  induction l using List.reverseRecOn with
  | nil => simp [decPoly_nil, absValue]
  | append_singleton l a ih =>
    rw [absValue_snoc, decPoly_snoc, Polynomial.map_add, Polynomial.map_mul, map_X, map_C, eval_add, eval_mul, eval_X, eval_C]
    refine (norm_add_le _ _).trans ?_
    rw [norm_mul]
    have h1 := mul_le_mul_of_nonneg_left ih (norm_nonneg z)
    have h2 : ‖(algebraMap ℝ ℂ) a‖ = |a| := by simp
    rw [h2]
    linarith

/-- No zero is nearer to the origin. -/
theorem radius_le_zero (l : List ℝ) (c r : ℝ) (hc : c ≠ 0) (hr : 0 < r) (he : r * absValue l r = |c|) (z : ℂ)
    (hz : ((decPoly (l ++ [c])).map (algebraMap ℝ ℂ)).eval z = 0) : r ≤ ‖z‖ := by
  refine radius_le l c r ‖z‖ hc hr he (norm_nonneg z) ?_
  rw [decPoly_snoc, Polynomial.map_add, Polynomial.map_mul, map_X, map_C, eval_add, eval_mul, eval_X, eval_C] at hz
  have h1 : (algebraMap ℝ ℂ) c = -(z * ((decPoly l).map (algebraMap ℝ ℂ)).eval z) := by linear_combination hz
  have h2 : |c| = ‖z * ((decPoly l).map (algebraMap ℝ ℂ)).eval z‖ := by
    rw [← norm_neg, ← h1]
    simp
  rw [h2, norm_mul]
  exact mul_le_mul_of_nonneg_left (eval_norm_le l z) (norm_nonneg z)

/-- Chopping does not go below the radius, and ends within a factor of ten. -/
theorem chop_radius (l : List ℝ) (c r : ℝ) (hl : l ≠ []) (hc : c ≠ 0) (hr : 0 < r) (he : r * absValue l r = |c|) :
    ∀ (fuel : ℕ) (x y : ℝ), r ≤ x → chop ((l.map fun x => |x|) ++ [-|c|]) fuel x = .ok y → r ≤ y ∧ y ≤ 10 * r := by
  intro fuel
  induction fuel with
  | zero => intro x y _ h; cases h
  | succ fuel ih =>
    intro x y hx h
    have hx' : (num 1 / num 10 * x : ℝ) = x / 10 := by simp only [num_eq]; push_cast; ring
    have hn0 : (num 0 : ℝ) = 0 := by rw [num_eq]; simp
    unfold chop at h
    dsimp only at h
    rw [hx', hn0, polyValue_snoc _ _ _ (by simpa using hl), polyValue_abs] at h
    by_cases hv : 0 < absValue l (x / 10) * (x / 10) + -|c|
    · rw [if_pos hv] at h
      refine ih (x / 10) y ?_ h
      exact radius_le l c r (x / 10) hc hr he (by linarith) (by linarith)
    · rw [if_neg hv, Res.ok.injEq] at h
      subst h
      refine ⟨hx, ?_⟩
      by_contra hlt
      push Not at hlt
      apply hv
      have h1 : r < x / 10 := by linarith
      have h2 := absValue_mono l hr.le h1.le
      have hc' := abs_pos.mpr hc
      have h3 : 0 < absValue l r := by
        by_contra h0
        push Not at h0
        nlinarith
      nlinarith

/-- Newton's iteration from the right: the result is not below the radius, and not far above. -/
theorem newton_radius (m : RMath ℝ) (hm : ExactMath m) (l : List ℝ) (c r : ℝ) (hl : l ≠ [])
    (h0 : ∀ a ∈ l.head?, a ≠ 0) (_hc : c ≠ 0) (hr : 0 < r) (he : r * absValue l r = |c|) :
    ∀ (fuel : ℕ) (x dx y : ℝ), r ≤ x → (dx = x ∨ 0 ≤ dx ∧ x - r ≤ (l.length - 1) * dx) →
      newtonBound m ((l.map fun x => |x|) ++ [-|c|]) fuel x dx = .ok y →
      r ≤ y ∧ y - r ≤ (l.length - 1) * (y / 200) := by
  have hlen : (1 : ℝ) ≤ l.length := by exact_mod_cast List.length_pos_of_ne_nil hl
  intro fuel
  induction fuel with
  | zero => intro x dx y _ _ h; cases h
  | succ fuel ih =>
    intro x dx y hx hdx h
    have hx0 : 0 < x := hr.trans_le hx
    rw [newtonBound_succ] at h
    by_cases hd : (num 1 / num 200 : ℝ) < m.fabs (dx / x)
    · rw [if_pos hd, valueDeriv_eq x l c hl] at h
      dsimp only at h
      have hs := slope_pos hx0 l hl h0
      have hv := le_of_radius l c r x hr he hx
      generalize hd' : (x * absValue l x - |c|) / slope x l = d at h
      have hds : d * slope x l = x * absValue l x - |c| := by rw [← hd']; field_simp
      have hd0 : 0 ≤ d := by rw [← hd']; exact div_nonneg (by linarith) hs.le
      have ht := tangent hx0.le hr.le l
      have hx1 : r ≤ x - d := by
        rw [he] at ht
        by_contra hneg
        push Not at hneg
        nlinarith
      refine ih (x - d) d y hx1 (Or.inr ⟨hd0, ?_⟩) h
      have hsl := slope_le hr.le hx l
      rw [he, ← hds] at hsl
      have : x - r ≤ l.length * d := by
        have h3 : slope x l * (x - r) ≤ slope x l * (l.length * d) := by linarith
        exact le_of_mul_le_mul_left h3 hs
      linarith
    · rw [if_neg hd, Res.ok.injEq] at h
      subst h
      refine ⟨hx, ?_⟩
      rw [hm.fabs] at hd
      simp only [num_eq] at hd
      push_cast at hd
      rcases hdx with rfl | ⟨h1, h2⟩
      · exfalso
        apply hd
        rw [div_self hx0.ne', abs_one]
        norm_num
      · rw [abs_of_nonneg (div_nonneg h1 hx0.le), not_lt, div_le_iff₀ hx0] at hd
        refine h2.trans ?_
        apply mul_le_mul_of_nonneg_left _ (by linarith)
        linarith

theorem lowerBound_radius (m : RMath ℝ) (hm : ExactMath m)
    (hest : ∀ a b n, 0 < a → 0 < b → 0 < n → b * m.est a b n ^ n = a) (fuel : ℕ) (l : List ℝ) (c bnd : ℝ) (hl : l ≠ [])
    (h0 : ∀ a ∈ l.head?, a ≠ 0) (hc : c ≠ 0) (h : lowerBound m fuel (l ++ [c]) = .ok bnd) :
    ∃ r, 0 < r ∧ r * absValue l r = |c| ∧ r ≤ bnd ∧ bnd - r ≤ (l.length - 1) * (bnd / 200) := by
  have hlen : (l ++ [c]).length - 1 = l.length := by simp
  have hc' := abs_pos.mpr hc
  have hlp := List.length_pos_of_ne_nil hl
  unfold lowerBound at h
  rw [hlen, moduli_snoc m hm] at h
  obtain ⟨a, l1, rfl⟩ : ∃ a l1, l = a :: l1 := by
    cases l with
    | nil => exact absurd rfl hl
    | cons a l1 => exact ⟨a, l1, rfl⟩
  have ha : 0 < |a| := abs_pos.mpr (h0 a rfl)
  obtain ⟨l2, b, hb⟩ : ∃ l2 b, a :: l1 = l2 ++ [b] := ⟨_, _, (List.dropLast_append_getLast hl).symm⟩
  rw [Res.bind_eq_ok] at h
  obtain ⟨p0, e0, h⟩ := h
  rw [Res.bind_eq_ok] at h
  obtain ⟨pn, en, h⟩ := h
  rw [Res.bind_eq_ok] at h
  obtain ⟨pn1, e1, h⟩ := h
  rw [Res.bind_eq_ok] at h
  obtain ⟨y, hy, h⟩ := h
  have q0 : p0 = |a| := by
    rw [Res.at'_eq_ok] at e0
    simpa using e0.symm
  have qn : pn = -|c| := at'_last _ _ _ _ (by simp) en
  have q1 : pn1 = |b| := by
    have e : ((a :: l1).map fun x => |x|) ++ [-|c|] = (l2.map fun x => |x|) ++ [|b|, -|c|] := by
      rw [hb, List.map_append, List.map_singleton, List.append_assoc]
      rfl
    rw [e] at e1
    refine at'_butlast _ _ _ _ _ ?_ e1
    have := congrArg List.length hb
    rw [List.length_append, List.length_singleton] at this
    rw [List.length_append, List.length_map, this]
    simp
  subst q0 qn q1
  have hstart : ∀ x, x = (if m.isZero |b| then m.est (- -|c|) |a| (a :: l1).length else
      if - -|c| / |b| < m.est (- -|c|) |a| (a :: l1).length then - -|c| / |b| else m.est (- -|c|) |a| (a :: l1).length) →
      0 ≤ x ∧ |c| ≤ x * absValue (a :: l1) x := by
    have hE : 0 ≤ m.est |c| |a| (a :: l1).length ∧ |c| ≤ m.est |c| |a| (a :: l1).length *
        absValue (a :: l1) (m.est |c| |a| (a :: l1).length) := by
      have hp := hm.est_pos |c| |a| (a :: l1).length hc' ha
      refine ⟨hp.le, ?_⟩
      have h1 := hest |c| |a| (a :: l1).length hc' ha hlp
      have h2 := mul_le_mul_of_nonneg_left (absValue_ge_head a l1 hp.le) hp.le
      have h3 : |c| = m.est |c| |a| (a :: l1).length * (|a| * m.est |c| |a| (a :: l1).length ^ l1.length) := by
        rw [List.length_cons, pow_succ] at h1
        rw [List.length_cons]
        linarith
      linarith
    intro x hx
    rw [neg_neg] at hx
    by_cases hz : m.isZero |b| = true
    · rw [if_pos hz] at hx
      rw [hx]
      exact hE
    · rw [if_neg hz] at hx
      have hb0 : |b| ≠ 0 := fun e => hz ((hm.isZero _).mpr e)
      have hbp : 0 < |b| := lt_of_le_of_ne (abs_nonneg b) (Ne.symm hb0)
      split at hx
      · rw [hx]
        have hp : 0 ≤ |c| / |b| := by positivity
        refine ⟨hp, ?_⟩
        rw [hb, absValue_snoc]
        have h1 := absValue_nonneg l2 hp
        have h2 : |c| = |c| / |b| * |b| := by field_simp
        have h3 : 0 ≤ |c| / |b| * (|c| / |b| * absValue l2 (|c| / |b|)) := by positivity
        linarith
      · rw [hx]
        exact hE
  obtain ⟨hx0, hx⟩ := hstart _ rfl
  dsimp only at hy
  generalize (if m.isZero |b| then m.est (- -|c|) |a| (a :: l1).length else
      if - -|c| / |b| < m.est (- -|c|) |a| (a :: l1).length then - -|c| / |b| else
        m.est (- -|c|) |a| (a :: l1).length) = x at hy hx0 hx
  obtain ⟨r, hr, he⟩ := exists_radius (a :: l1) c x hc hx0 hx
  have hrx := radius_le (a :: l1) c r x hc hr he hx0 hx
  have hch := chop_radius (a :: l1) c r hl hc hr he fuel x y hrx hy
  obtain ⟨k1, k2⟩ := newton_radius m hm (a :: l1) c r hl h0 hc hr he fuel y y bnd hch.1 (Or.inl rfl) h
  exact ⟨r, hr, he, k1, k2⟩

end Verif
