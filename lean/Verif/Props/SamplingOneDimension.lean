import Mathlib.Analysis.Calculus.Deriv.MeanValue
import Verif.Props.MaximumSampling

/-
C86 in one dimension: when the sampling interval is short enough for the curvature, the candidates found by sampling
do contain a sample that is as large as all others.
-/
set_option linter.unusedSectionVars false

namespace Verif
open Spec Set

/-- Where the samples turn downwards the slope is small. -/
theorem slope_at_turn {f f' f'' : ℝ → ℝ} (h1 : ∀ x, HasDerivAt f (f' x) x) (h2 : ∀ x, HasDerivAt f' (f'' x) x)
    {a b c dt M : ℝ} (hab : a < b) (hbc : b < c) (hda : b - a ≤ dt) (hdc : c - b ≤ dt)
    (hM : ∀ x ∈ Icc a c, |f'' x| ≤ M) (hfa : |f a| ≤ |f b|) (hfc : |f c| < |f b|) : |f' b| ≤ M * dt := by
  have key : ∀ {f f' f'' : ℝ → ℝ}, (∀ x, HasDerivAt f (f' x) x) → (∀ x, HasDerivAt f' (f'' x) x) →
      (∀ x ∈ Icc a c, |f'' x| ≤ M) → |f a| ≤ |f b| → |f c| < |f b| → 0 ≤ f b → |f' b| ≤ M * dt := by
    intro f f' f'' h1 h2 hM hfa hfc h0
    rw [abs_of_nonneg h0] at hfa hfc
    have hM0 : 0 ≤ M := (abs_nonneg _).trans (hM b ⟨hab.le, hbc.le⟩)
    obtain ⟨ξ, hξ, eξ⟩ := exists_hasDerivAt_eq_slope f f' hab (fun x _ => (h1 x).continuousAt.continuousWithinAt)
      (fun x _ => h1 x)
    obtain ⟨η, hη, eη⟩ := exists_hasDerivAt_eq_slope f f' hbc (fun x _ => (h1 x).continuousAt.continuousWithinAt)
      (fun x _ => h1 x)
    obtain ⟨x, hx, ex⟩ := exists_hasDerivAt_eq_slope f' f'' hξ.2 (fun x _ => (h2 x).continuousAt.continuousWithinAt)
      (fun x _ => h2 x)
    obtain ⟨y, hy, ey⟩ := exists_hasDerivAt_eq_slope f' f'' hη.1 (fun x _ => (h2 x).continuousAt.continuousWithinAt)
      (fun x _ => h2 x)
    have p1 : 0 ≤ f' ξ := by
      rw [eξ]
      exact div_nonneg (by linarith [le_abs_self (f a)]) (by linarith)
    have p2 : f' η ≤ 0 := by
      rw [eη]
      exact div_nonpos_of_nonpos_of_nonneg (by linarith [le_abs_self (f c)]) (by linarith)
    rw [eq_div_iff (by linarith [hξ.2])] at ex
    rw [eq_div_iff (by linarith [hη.1])] at ey
    have q1 := hM x ⟨by linarith [hx.1, hξ.1], by linarith [hx.2]⟩
    have q2 := hM y ⟨by linarith [hy.1], by linarith [hy.2, hη.2]⟩
    have r1 : -(M * dt) ≤ f'' x * (b - ξ) := by
      have := neg_le_of_abs_le q1
      have t1 : 0 ≤ b - ξ := by linarith [hξ.2]
      have t2 : b - ξ ≤ dt := by linarith [hξ.1]
      nlinarith
    have r2 : -(M * dt) ≤ f'' y * (η - b) := by
      have := neg_le_of_abs_le q2
      have t1 : 0 ≤ η - b := by linarith [hη.1]
      have t2 : η - b ≤ dt := by linarith [hη.2]
      nlinarith
    rw [abs_le]
    constructor <;> linarith
  rcases le_total 0 (f b) with h0 | h0
  · exact key h1 h2 hM hfa hfc h0
  · have := key (f := fun x => -f x) (f' := fun x => -f' x) (f'' := fun x => -f'' x) (fun x => (h1 x).neg)
      (fun x => (h2 x).neg) (fun x hx => by rw [abs_neg]; exact hM x hx) (by simpa using hfa) (by simpa using hfc)
      (by simpa using h0)
    simpa using this

/-- The samples come close to the largest absolute value. -/
theorem grid_near_maximum {f f' f'' : ℝ → ℝ} (h1 : ∀ x, HasDerivAt f (f' x) x) (h2 : ∀ x, HasDerivAt f' (f'' x) x)
    {a b dt M : ℝ} (hab : a ≤ b) (hdt : 0 < dt) (hM : ∀ x ∈ Icc a b, |f'' x| ≤ M) {m : ℝ} (hb : |f b| ≤ m)
    (hg : ∀ i : ℕ, a + i * dt ≤ b → |f (a + i * dt)| ≤ m) : ∀ x ∈ Icc a b, |f x| ≤ m + M * dt ^ 2 := by
  have hM0 : 0 ≤ M := (abs_nonneg _).trans (hM a ⟨le_rfl, hab⟩)
  obtain ⟨τ, hτ, hmax⟩ := isCompact_Icc.exists_isMaxOn (nonempty_Icc.mpr hab)
    (f := fun x => |f x|) (fun x _ => (h1 x).continuousAt.abs.continuousWithinAt)
  have hpos : 0 ≤ M * dt ^ 2 := by positivity
  suffices hs : |f τ| ≤ m + M * dt ^ 2 by
    intro x hx
    exact (hmax hx).trans hs
  rcases eq_or_lt_of_le hτ.1 with e | hl
  · have := hg 0 (by simpa using hab)
    rw [← e]
    simp only [Nat.cast_zero, zero_mul, add_zero] at this
    linarith
  rcases eq_or_lt_of_le hτ.2 with e | hr
  · rw [e]; linarith
  -- the slope vanishes at the maximum
  have hz : f' τ = 0 := by
    have hn : Icc a b ∈ nhds τ := Icc_mem_nhds hl hr
    rcases le_total 0 (f τ) with h0 | h0
    · refine IsLocalMax.hasDerivAt_eq_zero (f := f) ?_ (h1 τ)
      filter_upwards [hn] with x hx
      have := hmax hx
      dsimp only at this
      rw [abs_of_nonneg h0] at this
      exact (le_abs_self _).trans this
    · refine IsLocalMin.hasDerivAt_eq_zero (f := f) ?_ (h1 τ)
      filter_upwards [hn] with x hx
      have := hmax hx
      dsimp only at this
      rw [abs_of_nonpos h0] at this
      have h3 : |f x| ≤ -f τ := this
      linarith [neg_abs_le (f x)]
  set i := ⌊(τ - a) / dt⌋₊ with hi
  have h0 : 0 ≤ (τ - a) / dt := div_nonneg (by linarith) hdt.le
  have hlo : a + i * dt ≤ τ := by
    have := Nat.floor_le h0
    rw [← hi, le_div_iff₀ hdt] at this
    linarith
  have hhi : τ < a + i * dt + dt := by
    have := Nat.lt_floor_add_one ((τ - a) / dt)
    rw [← hi, div_lt_iff₀ hdt] at this
    linarith
  have hgi := hg i (by linarith)
  rcases eq_or_lt_of_le hlo with e | hlt
  · rw [← e]; linarith
  have ha : a ≤ a + i * dt := by
    have : (0 : ℝ) ≤ i * dt := by positivity
    linarith
  obtain ⟨ξ, hξ, eξ⟩ := exists_hasDerivAt_eq_slope f f' hlt (fun x _ => (h1 x).continuousAt.continuousWithinAt)
    (fun x _ => h1 x)
  obtain ⟨x, hx, ex⟩ := exists_hasDerivAt_eq_slope f' f'' hξ.2 (fun x _ => (h2 x).continuousAt.continuousWithinAt)
    (fun x _ => h2 x)
  rw [eq_div_iff (by linarith)] at eξ
  rw [eq_div_iff (by linarith [hξ.2]), hz] at ex
  have q := hM x ⟨by linarith [hx.1, hξ.1], by linarith [hx.2]⟩
  have b1 : |f' ξ| ≤ M * dt := by
    have : f' ξ = -(f'' x * (τ - ξ)) := by linarith
    rw [this, abs_neg, abs_mul, abs_of_pos (by linarith [hξ.2] : 0 < τ - ξ)]
    exact mul_le_mul q (by linarith [hξ.1]) (by linarith [hξ.2]) hM0
  have b2 : |f τ - f (a + i * dt)| ≤ M * dt * dt := by
    rw [← eξ, abs_mul, abs_of_pos (by linarith : 0 < τ - (a + i * dt))]
    exact mul_le_mul b1 (by linarith) (by linarith) (by positivity)
  have := abs_sub_abs_le_abs_sub (f τ) (f (a + i * dt))
  nlinarith

theorem magnitude_one (s : Segment ℝ) (p : Poly ℝ) (hp : s.polys = [p]) (k : ℕ) (t : ℝ) :
    magnitude s.polys (List.range s.D) k t = |derivAt p.coeffs k t| := by
  rw [← vecNorm_segValue, ← Real.sqrt_sq_eq_abs]
  simp [vecNorm, segValue, hp]

/-- **C86**, the last claim in one dimension. If the sampling interval `dt` is short enough for the curvature - `M`
bounds the derivative two orders above the one searched, and `M dt` is less than the threshold 0.01 - and the interval
has at least two samples after its start, one of the candidates is at least as large as all samples and the end, and no
value in between is larger by more than `M dt²`. Missing: longer sampling intervals, and more dimensions, for which this
is false (`C86_maximum_false`). -/
theorem C86_one_dimension_partial (s : Segment ℝ) (hs : s.WF) (hD : s.D = 1) (k : ℕ) (tStart tStop dt : ℝ)
    (hdt : 0 < dt) (h2 : tStart + 2 * dt ≤ tStop) (M : ℝ)
    (hM : ∀ t ∈ Icc tStart tStop, magnitude s.polys (List.range s.D) (k + 2) t ≤ M) (hstep : M * dt < 1 / 100)
    (fuel : ℕ) (acc r : List ℝ) (h : candidatesBySampling fuel Real.sqrt s k tStart tStop dt acc = .ok r) :
    ∃ found, r = acc ++ found ∧ ∃ t ∈ found,
      (∀ i : ℕ, tStart + i * dt ≤ tStop → magnitude s.polys (List.range s.D) k (tStart + i * dt) ≤
        magnitude s.polys (List.range s.D) k t) ∧
      magnitude s.polys (List.range s.D) k tStop ≤ magnitude s.polys (List.range s.D) k t ∧
      ∀ x ∈ Icc tStart tStop, magnitude s.polys (List.range s.D) k x ≤
        magnitude s.polys (List.range s.D) k t + M * dt ^ 2 := by
  obtain ⟨p, hp⟩ : ∃ p, s.polys = [p] := List.length_eq_one_iff.mp hD
  have hle : tStart ≤ tStop := by linarith
  obtain ⟨found, hr, -, -, -, hm⟩ := C86_candidates_partial s hs k tStart tStop dt hdt hle fuel acc r h
  have hd1 : ∀ x, HasDerivAt (fun t => derivAt p.coeffs k t) (derivAt p.coeffs (k + 1) x) x :=
    fun x => hasDerivAt_derivAt p.coeffs k x
  have hd2 : ∀ x, HasDerivAt (fun t => derivAt p.coeffs (k + 1) t) (derivAt p.coeffs (k + 2) x) x :=
    fun x => hasDerivAt_derivAt p.coeffs (k + 1) x
  simp only [magnitude_one s p hp] at hm hM ⊢
  suffices hs : ∃ t ∈ found, (∀ i : ℕ, tStart + i * dt ≤ tStop → |derivAt p.coeffs k (tStart + i * dt)| ≤
      |derivAt p.coeffs k t|) ∧ |derivAt p.coeffs k tStop| ≤ |derivAt p.coeffs k t| by
    obtain ⟨t, ht, g1, g2⟩ := hs
    exact ⟨found, hr, t, ht, g1, g2, grid_near_maximum hd1 hd2 hle hdt hM g2 g1⟩
  set n := ⌊(tStop - tStart) / dt⌋₊ with hn
  have hfl : ∀ i : ℕ, i ≤ n ↔ tStart + i * dt ≤ tStop := by
    intro i
    rw [hn, Nat.le_floor_iff (div_nonneg (by linarith) hdt.le), le_div_iff₀ hdt]
    constructor <;> intro h <;> linarith
  have hn2 : 2 ≤ n := (hfl 2).mpr (by push_cast; exact h2)
  set F : ℕ → ℝ := fun i => |derivAt p.coeffs k (tStart + i * dt)| with hF
  set S := (Finset.range (n + 1)).filter (fun i => ∀ j ≤ n, F j ≤ F i) with hS
  have hSne : S.Nonempty := by
    obtain ⟨i, hi, hmx⟩ := Finset.exists_max_image (Finset.range (n + 1)) F ⟨0, by simp⟩
    exact ⟨i, Finset.mem_filter.mpr ⟨hi, fun j hj => hmx j (by simp; omega)⟩⟩
  obtain ⟨hin, himax⟩ := Finset.mem_filter.mp (S.max'_mem hSne)
  have hlast : ∀ j ≤ n, S.max' hSne < j → F j < F (S.max' hSne) := by
    intro j hj hlt
    by_contra hge
    have : j ∈ S := Finset.mem_filter.mpr ⟨by simp; omega, fun l hl => (himax l hl).trans (not_lt.mp hge)⟩
    exact absurd (S.le_max' j this) (by omega)
  generalize S.max' hSne = i at hin himax hlast
  have hin' : i ≤ n := by simpa using Nat.lt_succ_iff.mp (Finset.mem_range.mp hin)
  by_cases hstop : F i ≤ |derivAt p.coeffs k tStop|
  · exact ⟨tStop, (hm _).mpr (.inr (.inl rfl)), fun j hj => (himax j ((hfl j).mpr hj)).trans hstop, le_rfl⟩
  rw [not_le] at hstop
  refine ⟨tStart + i * dt, (hm _).mpr ?_, fun j hj => himax j ((hfl j).mpr hj), hstop.le⟩
  rcases Nat.eq_zero_or_pos i with rfl | hi
  · left; simp
  right; right
  obtain ⟨j, rfl⟩ : ∃ j, i = j + 1 := ⟨i - 1, by omega⟩
  have hprev : tStart + ((j + 1 : ℕ) : ℝ) * dt - dt = tStart + (j : ℝ) * dt := by push_cast; ring
  have hnext : tStart + ((j + 1 : ℕ) : ℝ) * dt + dt = tStart + ((j + 2 : ℕ) : ℝ) * dt := by push_cast; ring
  have hj0 : (0 : ℝ) ≤ (j : ℝ) * dt := by positivity
  have hfa : |derivAt p.coeffs k (tStart + (j : ℝ) * dt)| ≤
      |derivAt p.coeffs k (tStart + ((j + 1 : ℕ) : ℝ) * dt)| := himax j (by omega)
  by_cases hend : j + 2 ≤ n
  · have hfc : |derivAt p.coeffs k (tStart + ((j + 2 : ℕ) : ℝ) * dt)| <
        |derivAt p.coeffs k (tStart + ((j + 1 : ℕ) : ℝ) * dt)| := hlast (j + 2) hend (by omega)
    have hin3 := (hfl (j + 2)).mp hend
    refine ⟨j + 1, by omega, rfl, ?_, .inl ⟨by rw [hnext]; exact hin3, ?_⟩⟩
    · refine lt_of_le_of_lt ?_ hstep
      exact slope_at_turn hd1 hd2 (a := tStart + (j : ℝ) * dt) (c := tStart + ((j + 2 : ℕ) : ℝ) * dt)
        (by push_cast; linarith) (by push_cast; linarith) (by push_cast; linarith) (by push_cast; linarith)
        (fun x hx => hM x ⟨by linarith [hx.1], by linarith [hx.2]⟩) hfa hfc
    · unfold Turns
      rw [hprev, hnext, magnitude_one s p hp, magnitude_one s p hp, magnitude_one s p hp]
      intro hiff
      exact absurd (hiff.mpr hfc) (not_lt.mpr hfa)
  · have hi1 := (hfl (j + 1)).mp hin'
    have hne : tStart + ((j + 1 : ℕ) : ℝ) * dt ≠ tStop := by
      intro e
      have : F (j + 1) = |derivAt p.coeffs k tStop| := by rw [hF]; dsimp only; rw [e]
      linarith
    have hlt := lt_of_le_of_ne hi1 hne
    have hgt : tStop < tStart + ((j + 2 : ℕ) : ℝ) * dt := by
      by_contra hge
      exact hend ((hfl (j + 2)).mpr (not_lt.mp hge))
    refine ⟨j + 1, by omega, rfl, ?_, .inr ⟨by omega, hi1, by rw [hnext]; exact hgt, ?_⟩⟩
    · refine lt_of_le_of_lt ?_ hstep
      push_cast at hgt hlt
      exact slope_at_turn hd1 hd2 (a := tStart + (j : ℝ) * dt) (c := tStop)
        (by push_cast; linarith) (by push_cast; linarith) (by push_cast; linarith) (by push_cast; linarith)
        (fun x hx => hM x ⟨by linarith [hx.1], by linarith [hx.2]⟩) hfa hstop
    · unfold Turns
      rw [hprev, magnitude_one s p hp, magnitude_one s p hp, magnitude_one s p hp]
      intro hiff
      exact absurd (hiff.mpr hstop) (not_lt.mpr hfa)

/-- The hypotheses can be met: `t - t²` with samples every 4 ms. -/
example : exHill.WF ∧ exHill.D = 1 ∧ (∀ t ∈ Icc (0 : ℝ) 1, magnitude exHill.polys (List.range exHill.D) (0 + 2) t ≤ 2) ∧
    (2 : ℝ) * (4 / 1000) < 1 / 100 ∧
    ∃ fuel r, candidatesBySampling fuel Real.sqrt exHill (0 : ℕ) 0 1 (4 / 1000) [] = .ok r := by
  refine ⟨exHill_wf, rfl, fun t _ => ?_, by norm_num, C86_returns_partial exHill exHill_wf 0 0 1 _ (by norm_num) []⟩
  rw [magnitude_one exHill ⟨[0, 1, -1]⟩ rfl]
  norm_num [derivAt, ofCoeffs, Finset.sum_range_succ]

/-- With a long sampling interval the claim is false also in one dimension: `10 t - 10 t²` sampled at thirds. The
candidates are the two ends, where the value is 0. -/
theorem C86_long_interval_false (fuel : ℕ) (r : List ℝ)
    (h : candidatesBySampling fuel Real.sqrt ⟨[⟨[0, 10, -10]⟩], 1, 3⟩ (0 : ℕ) 0 1 (1 / 3) [] = .ok r) :
    (∀ t ∈ r, magnitude [⟨[0, 10, -10]⟩] [0] 0 t = 0) ∧ 2 < magnitude [⟨[0, 10, -10]⟩] [0] 0 (1 / 3) := by
  set s : Segment ℝ := ⟨[⟨[0, 10, -10]⟩], 1, 3⟩ with hsd
  have hwf : s.WF := ⟨by intro p hp; simp only [hsd, List.mem_cons, List.not_mem_nil, or_false] at hp; subst hp; rfl,
    by norm_num [hsd, kMaxConvolutionSize]⟩
  have e : ∀ (j : ℕ) t, magnitude [⟨[0, 10, -10]⟩] [0] j t = |derivAt [0, 10, -10] j t| := fun j t =>
    magnitude_one s ⟨[0, 10, -10]⟩ rfl j t
  have e0 : ∀ t : ℝ, derivAt [0, 10, -10] 0 t = 10 * t - 10 * t ^ 2 := by
    intro t; norm_num [derivAt, ofCoeffs, Finset.sum_range_succ]; ring
  have e1 : ∀ t : ℝ, derivAt [0, 10, -10] 1 t = 10 - 20 * t := by
    intro t; norm_num [derivAt, ofCoeffs, Finset.sum_range_succ]; ring
  constructor
  · obtain ⟨found, rfl, -, -, -, hm⟩ := C86_candidates_partial s hwf 0 0 1 (1 / 3) (by norm_num) (by norm_num) fuel [] r h
    intro t ht
    rw [hm] at ht
    rw [e, e0]
    rcases ht with rfl | rfl | ⟨i, hi, rfl, hsl, hc⟩
    · norm_num
    · norm_num
    · exfalso
      rw [show magnitude s.polys (List.range s.D) (0 + 1) (0 + (i : ℝ) * (1 / 3)) =
        |derivAt [0, 10, -10] 1 (0 + (i : ℝ) * (1 / 3))| from magnitude_one s _ rfl _ _, e1, abs_lt] at hsl
      rcases i with _ | _ | i
      · omega
      · norm_num at hsl
      · push_cast at hsl
        have : (0 : ℝ) ≤ i := Nat.cast_nonneg i
        linarith [hsl.1]
  · rw [e, e0]
    norm_num

end Verif
