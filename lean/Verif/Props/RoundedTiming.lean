import Verif.Proofs.RoundedTiming

/-
Property C113 (timing statistics in double arithmetic). The accumulator of the timers is used with numbers `Fl rnd`, every
operation of which rounds its result with a relative error of at most `u` (`Spec.Rounding`). `Spec.vals` are the real
numbers that are stored, `Spec.lastN N xs` are the last `N` samples. `mx` and `mn` are the constants with which minimum
and maximum start.
-/
set_option linter.unusedSectionVars false

namespace Verif

open Spec

variable {rnd : ℝ → ℝ} {u : ℝ}

/-- **C113.** Count, minimum and maximum are not affected by rounding. Minimum and maximum are those of the samples as
soon as one sample is not outside the initial constants. -/
theorem C113_exact (h : Rounding rnd u) (hu : u ≤ 1 / 2) (N : ℕ) (hN : 0 < N) (mx mn : Fl rnd) (junk : List (Fl rnd))
    (hj : junk.length = N) (xs : List (Fl rnd)) (hn : xs.length ≤ intMax) :
    ∃ a, addAll N (Acc.start mx mn junk) xs = .ok a ∧ a.totalSamples = xs.length ∧
      ((∃ x ∈ xs, x.val < mx.val) → a.min ∈ xs ∧ ∀ x ∈ xs, a.min.val ≤ x.val) ∧
      ((∃ x ∈ xs, mn.val < x.val) → a.max ∈ xs ∧ ∀ x ∈ xs, x.val ≤ a.max.val) := by
  obtain ⟨a, e, hi⟩ := raddAll_ok h hu N hN mx mn junk hj xs hn
  refine ⟨a, e, hi.totalSamples, ?_, ?_⟩
  · rintro ⟨x, hx, hx2⟩
    rcases hi.min with ⟨-, h2⟩ | ⟨h1, -, h2⟩
    · exact absurd (h2 x hx) (not_le.mpr hx2)
    · exact ⟨h1, h2⟩
  · rintro ⟨x, hx, hx2⟩
    rcases hi.max with ⟨-, h2⟩ | ⟨h1, -, h2⟩
    · exact absurd (h2 x hx) (not_le.mpr hx2)
    · exact ⟨h1, h2⟩

/-- **C113.** Total and mean differ from those of the samples by a relative error per sample: for samples that are not
negative, like durations, the relative error of the total of `n` samples is at most `(1 + u)^n - 1`. -/
theorem C113_total (h : Rounding rnd u) (hu : u ≤ 1 / 2) (hint : ∀ n : ℕ, n ≤ intMax → rnd n = n) (N : ℕ) (hN : 0 < N)
    (mx mn : Fl rnd) (junk : List (Fl rnd)) (hj : junk.length = N) (xs : List (Fl rnd)) (hn : xs.length ≤ intMax)
    (hne : xs ≠ []) :
    ∃ a m, addAll N (Acc.start mx mn junk) xs = .ok a ∧ a.mean = some m ∧
      |a.sum.val - (vals xs).sum| ≤ ((1 + u) ^ xs.length - 1) * ((vals xs).map abs).sum ∧
      |m.val - meanOf (vals xs)| ≤ ((1 + u) ^ (xs.length + 1) - 1) * meanOf ((vals xs).map abs) := by
  obtain ⟨a, e, hi⟩ := raddAll_ok h hu N hN mx mn junk hj xs hn
  have hpos : 0 < xs.length := List.length_pos_iff.mpr hne
  refine ⟨a, ⟨rnd (a.sum.val / rnd xs.length)⟩, e, ?_, hi.sum, ?_⟩
  · unfold Acc.mean divInt
    rw [hi.totalSamples, if_neg (by omega)]
    rfl
  · have := div_step h (m := xs.length) (by exact_mod_cast hpos) hi.sum hi.sumAbs
    rw [pow_succ, hint _ hn]
    have l1 : (vals xs).length = xs.length := List.length_map _
    unfold meanOf
    rw [List.length_map, l1, ← mul_div_assoc]
    exact this

/-- **C113.** The rolling mean differs from the mean of the last `N` samples by an error relative to the largest of *all*
samples `M`, which grows with the number of all samples. The full claim, an error relative to the samples of the window,
is false (`C113_window_false`). -/
theorem C113_window_partial (h : Rounding rnd u) (hu : u ≤ 1 / 2) (hint : ∀ n : ℕ, n ≤ intMax → rnd n = n) (N : ℕ)
    (hN : 0 < N) (mx mn : Fl rnd) (junk : List (Fl rnd)) (hj : junk.length = N) (xs : List (Fl rnd))
    (hn : xs.length ≤ intMax) (hne : xs ≠ []) (M : ℝ) (hM : ∀ x ∈ xs, |x.val| ≤ M) :
    ∃ a m, addAll N (Acc.start mx mn junk) xs = .ok a ∧ a.rollingMean N = some m ∧
      |m.val - meanOf (vals (lastN N xs))| ≤
        ((1 + u) ^ (xs.length + 1) - 1) * ((N + 3) * M) / (min xs.length N : ℕ) := by
  obtain ⟨a, e, hi⟩ := raddAll_ok h hu N hN mx mn junk hj xs hn
  have hpos : 0 < xs.length := List.length_pos_iff.mpr hne
  have hM0 : 0 ≤ M := by
    obtain ⟨x, hx⟩ := List.exists_mem_of_ne_nil xs hne
    exact (abs_nonneg _).trans (hM x hx)
  have hmin : Nat.min a.windowSamples N = min xs.length N := by rw [hi.windowSamples]
  have hm0 : 0 < min xs.length N := by omega
  refine ⟨a, ⟨rnd (a.windowSum.val / rnd (min xs.length N : ℕ))⟩, e, ?_, ?_⟩
  · unfold Acc.rollingMean divInt
    rw [hmin, if_neg (by omega)]
    rfl
  · have hb : |(vals (lastN N xs)).sum| ≤ (N + 3) * M := (lastN_abs N xs M hM0 hM).trans (by nlinarith)
    have := div_step h (m := (min xs.length N : ℕ)) (by exact_mod_cast hm0) (hi.windowSum M hM hM0) hb
    rw [pow_succ, hint _ (by omega)]
    have l1 : (vals (lastN N xs)).length = min xs.length N := by
      unfold vals lastN
      rw [List.length_map, List.length_drop]
      omega
    unfold meanOf
    rw [l1]
    exact this

/-- The samples of the counterexample: one very large one and then `k` of one second. -/
noncomputable def outlier (k : ℕ) : List (Fl round53) := ⟨2 ^ 60⟩ :: List.replicate k ⟨1⟩

theorem outlier_succ (k : ℕ) : outlier (k + 1) = outlier k ++ [⟨1⟩] := by
  unfold outlier
  rw [List.replicate_succ', List.cons_append]

theorem outlier_run (mx mn : Fl round53) (junk : List (Fl round53)) (hj : junk.length = timerWindow) (k : ℕ)
    (hk : k + 1 ≤ intMax) :
    ∃ a, addAll timerWindow (Acc.start mx mn junk) (outlier k) = .ok a ∧
      RAccInv round53 (1 / 2 ^ 53) timerWindow mx mn (outlier k) a ∧
      a.windowSum.val = if k < 50 then 2 ^ 60 else 0 := by
  have hN : 0 < timerWindow := by decide
  have r60 : round53 (2 ^ 60) = 2 ^ 60 := by
    rw [round53_eq 60 (2 ^ 52) (by norm_num) (by norm_num) (by norm_num) (by norm_num)]
    norm_num
  have r61 : round53 (2 ^ 60 + 1) = 2 ^ 60 := by
    rw [round53_eq 60 (2 ^ 52) (by norm_num) (by norm_num) (by norm_num) (by norm_num)]
    norm_num
  have r59 : round53 (1 - 2 ^ 60) = -2 ^ 60 := by
    rw [show (1 - 2 ^ 60 : ℝ) = -(2 ^ 60 - 1) by ring, round53_neg,
      round53_eq 59 (2 ^ 53) (by norm_num) (by norm_num) (by norm_num) (by norm_num)]
    norm_num
  have r0 : round53 0 = 0 := rnd_zero round53_rounding
  have hlen : ∀ k, (outlier k).length = k + 1 := by simp [outlier]
  induction k with
  | zero =>
    obtain ⟨a, e, hi, hw⟩ := racc_add_ok round53_rounding (by norm_num) timerWindow hN mx mn [] _
      (raccInv_start timerWindow mx mn junk hj) (by decide) ⟨2 ^ 60⟩
    refine ⟨a, ?_, hi, ?_⟩
    · change List.foldlM (Acc.add timerWindow) _ [_] = _
      rw [List.foldlM_cons, e, Res.ok_bind]
      rfl
    · rw [if_pos (by norm_num)]
      rcases hw with ⟨-, hw⟩ | ⟨hw, -⟩
      · rw [hw]
        change round53 (0 + 2 ^ 60) = _
        rw [zero_add, r60]
      · simp at hw
  | succ k ih =>
    obtain ⟨a, e, hi, hs⟩ := ih (by omega)
    obtain ⟨a', e', hi', hw⟩ := racc_add_ok round53_rounding (by norm_num) timerWindow hN mx mn (outlier k) a hi
      (by rw [hlen]; omega) ⟨1⟩
    rw [← outlier_succ] at hi'
    refine ⟨a', ?_, hi', ?_⟩
    · rw [outlier_succ]
      unfold addAll at e ⊢
      rw [List.foldlM_append, e, Res.ok_bind, List.foldlM_cons, e', Res.ok_bind]
      rfl
    · rcases hw with ⟨hlt, hw⟩ | ⟨hlt, hge, hw⟩
      · rw [hlen] at hlt
        unfold timerWindow at hlt
        rw [if_pos (by omega)] at hs
        rw [if_pos (by omega), hw]
        change round53 (a.windowSum.val + 1) = _
        rw [hs, r61]
      · have hge' : 50 ≤ k + 1 := by
          rw [hlen] at hge
          exact hge
        rw [if_neg (by omega), hw]
        change round53 (a.windowSum.val + round53 (1 - ((outlier k)[(outlier k).length - timerWindow]).val)) = 0
        by_cases hk' : k < 50
        · have : (outlier k)[(outlier k).length - timerWindow].val = 2 ^ 60 := by
            have : (outlier k).length - timerWindow = 0 := by
              rw [hlen]
              unfold timerWindow
              omega
            simp only [this]
            rfl
          rw [this, r59, hs, if_pos hk', add_neg_cancel, r0]
        · have : (outlier k)[(outlier k).length - timerWindow].val = 1 := by
            obtain ⟨j, hj⟩ : ∃ j, (outlier k).length - timerWindow = j + 1 := by
              refine ⟨k - 50, ?_⟩
              rw [hlen]
              unfold timerWindow
              omega
            simp only [hj]
            unfold outlier
            rw [List.getElem_cons_succ, List.getElem_replicate]
          rw [this, hs, if_neg hk', sub_self, r0, add_zero, r0]

/-- **C113**, refuted for the window: with doubles, after one sample of `2^60` and any number `k ≥ 50` of samples of one
second the rolling mean of the timer is 0, although the last 50 samples are all one second. The error never goes away. -/
theorem C113_window_false (mx mn : Fl round53) (junk : List (Fl round53)) (hj : junk.length = timerWindow) (k : ℕ)
    (hk : 50 ≤ k) (hk2 : k + 1 ≤ intMax) :
    ∃ a m, addAll timerWindow (Acc.start mx mn junk) (⟨2 ^ 60⟩ :: List.replicate k ⟨1⟩) = .ok a ∧
      a.rollingMean timerWindow = some m ∧ m.val = 0 ∧
      vals (lastN timerWindow ((⟨2 ^ 60⟩ : Fl round53) :: List.replicate k ⟨1⟩)) = List.replicate 50 1 ∧
      meanOf (vals (lastN timerWindow ((⟨2 ^ 60⟩ : Fl round53) :: List.replicate k ⟨1⟩))) = 1 := by
  obtain ⟨a, e, hi, hs⟩ := outlier_run mx mn junk hj k hk2
  rw [if_neg (by omega)] at hs
  have hlen : (outlier k).length = k + 1 := by simp [outlier]
  have hv : vals (lastN timerWindow ((⟨2 ^ 60⟩ : Fl round53) :: List.replicate k ⟨1⟩)) = List.replicate 50 1 := by
    unfold lastN vals
    rw [List.length_cons, List.length_replicate, show k + 1 - timerWindow = (k - 50) + 1 by unfold timerWindow; omega,
      List.drop_succ_cons, List.drop_replicate, List.map_replicate, show k - (k - 50) = 50 by omega]
  refine ⟨a, ⟨round53 (a.windowSum.val / round53 (Nat.min a.windowSamples timerWindow : ℕ))⟩, e, ?_, ?_, hv, ?_⟩
  · unfold Acc.rollingMean divInt
    rw [if_neg]
    · rfl
    · rw [hi.windowSamples, hlen]
      change ¬ min (k + 1) 50 = 0
      omega
  · change round53 (a.windowSum.val / _) = 0
    rw [hs, zero_div]
    exact rnd_zero round53_rounding
  · rw [hv]
    unfold meanOf
    rw [List.sum_replicate, List.length_replicate]
    norm_num

/-- Rounding to 53 bits meets the assumptions of the theorems above. -/
example (N : ℕ) (hN : 0 < N) (mx mn : Fl round53) (junk : List (Fl round53)) (hj : junk.length = N) :
    ∃ a m, addAll N (Acc.start mx mn junk) [⟨1⟩, ⟨1 / 3⟩, ⟨7⟩] = .ok a ∧ a.rollingMean N = some m ∧
      |m.val - meanOf (vals (lastN N [(⟨1⟩ : Fl round53), ⟨1 / 3⟩, ⟨7⟩]))| ≤
        ((1 + 1 / 2 ^ 53) ^ 4 - 1) * ((N + 3) * 7) / (min 3 N : ℕ) :=
  C113_window_partial round53_rounding (by norm_num)
    (fun n hn => round53_nat n (lt_of_le_of_lt hn (by decide))) N hN mx mn junk hj _ (by decide) (by simp) 7
    (by
      intro x hx
      simp only [List.mem_cons, List.not_mem_nil, or_false] at hx
      rcases hx with rfl | rfl | rfl <;> norm_num [abs_of_pos])

end Verif
