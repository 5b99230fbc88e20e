import Verif.Proofs.Timing
import Verif.Proofs.RoundedTrajectory

/- Helper lemmas for the timing statistics with rounded numbers. -/
set_option linter.unusedSectionVars false

namespace Verif

open Spec

/-- One sample put into the window, for numbers without laws. -/
theorem addWindow_lawless {K : Type} [Add K] [Sub K] (N : ℕ) (hN : 0 < N) (xs : List K) (a : Acc K)
    (hw : a.windowSamples = xs.length) (hl : a.samples.length = N)
    (hs : ∀ j, (hj : j < xs.length) → xs.length ≤ j + N → a.samples[j % N]? = some xs[j])
    (hn : xs.length < intMax) (x : K) :
    ∃ sm ws, a.addWindow N x = .ok (sm, ws, xs.length + 1) ∧ sm.length = N ∧
      (∀ j, (hj : j < (xs ++ [x]).length) → (xs ++ [x]).length ≤ j + N → sm[j % N]? = some (xs ++ [x])[j]) ∧
      ((xs.length < N ∧ ws = a.windowSum + x) ∨
        ∃ h : xs.length - N < xs.length, N ≤ xs.length ∧ ws = a.windowSum + (x - xs[xs.length - N])) := by
  have hlenx : (xs ++ [x]).length = xs.length + 1 := by simp
  by_cases hlt : xs.length < N
  · refine ⟨a.samples.set xs.length x, a.windowSum + x, ?_, by simp [hl], ?_, Or.inl ⟨hlt, rfl⟩⟩
    · unfold Acc.addWindow
      rw [hw, if_pos hlt, Res.at'_of_lt (by rw [hl]; exact hlt), Res.ok_bind, incInt_ok hn]
      rfl
    · intro j hj hj2
      rw [hlenx] at hj hj2
      have hjN : j < N := by omega
      rw [Nat.mod_eq_of_lt hjN]
      by_cases e : j = xs.length
      · subst e
        rw [List.getElem?_set_self (by rw [hl]; exact hjN)]
        simp
      · have hj' : j < xs.length := by omega
        rw [List.getElem?_set_ne (Ne.symm e)]
        have := hs j hj' (by omega)
        rw [Nat.mod_eq_of_lt hjN] at this
        rw [this, List.getElem_append_left hj']
  · have hge : N ≤ xs.length := not_lt.mp hlt
    have hk : xs.length % N < a.samples.length := by rw [hl]; exact Nat.mod_lt _ hN
    have hold : xs.length - N < xs.length := by omega
    have hslot := hs (xs.length - N) hold (by omega)
    have hmod : (xs.length - N) % N = xs.length % N := by
      conv_rhs => rw [show xs.length = (xs.length - N) + N by omega]
      rw [Nat.add_mod_right]
    rw [hmod, List.getElem?_eq_getElem hk] at hslot
    have hslot' : a.samples[xs.length % N] = xs[xs.length - N] := by simpa using hslot
    refine ⟨a.samples.set (xs.length % N) x, a.windowSum + (x - xs[xs.length - N]), ?_, by simp [hl], ?_,
      Or.inr ⟨hold, hge, rfl⟩⟩
    · unfold Acc.addWindow
      rw [hw, if_neg hlt, if_neg (by omega), Res.at'_of_lt hk, Res.ok_bind, incInt_ok hn, hslot']
      rfl
    · intro j hj hj2
      rw [hlenx] at hj hj2
      by_cases e : j = xs.length
      · subst e
        rw [List.getElem?_set_self hk]
        simp
      · have hj' : j < xs.length := by omega
        have hne : xs.length % N ≠ j % N := by
          intro hc
          have h1 : (xs.length - j) % N = 0 := Nat.sub_mod_eq_zero_of_mod_eq hc
          rw [Nat.mod_eq_of_lt (by omega)] at h1
          omega
        rw [List.getElem?_set_ne hne, hs j hj' (by omega), List.getElem_append_left hj']

variable {rnd : ℝ → ℝ} {u : ℝ}

/-- The exact sum of the absolute values. -/
noncomputable def absSum (xs : List (Fl rnd)) : ℝ := ((vals xs).map abs).sum

theorem vals_append (xs ys : List (Fl rnd)) : vals (xs ++ ys) = vals xs ++ vals ys := List.map_append

/-- The sum of the window changes by the new sample and the one that leaves. -/
theorem lastN_sum (N : ℕ) (xs : List (Fl rnd)) (x : Fl rnd) :
    (xs.length < N → (vals (lastN N (xs ++ [x]))).sum = (vals (lastN N xs)).sum + x.val) ∧
    (∀ h : xs.length - N < xs.length, N ≤ xs.length → 0 < N →
      (vals (lastN N (xs ++ [x]))).sum = (vals (lastN N xs)).sum + (x.val - (xs[xs.length - N]).val)) := by
  have hlenx : (xs ++ [x]).length = xs.length + 1 := by simp
  constructor
  · intro hlt
    have e1 : lastN N (xs ++ [x]) = xs ++ [x] := by
      unfold lastN
      rw [hlenx, show xs.length + 1 - N = 0 by omega, List.drop_zero]
    have e2 : lastN N xs = xs := by
      unfold lastN
      rw [show xs.length - N = 0 by omega, List.drop_zero]
    rw [e1, e2, vals_append, List.sum_append]
    simp [vals]
  · intro hold hge hN
    have e0 : lastN N xs = xs[xs.length - N] :: xs.drop (xs.length - N + 1) := by
      unfold lastN
      exact List.drop_eq_getElem_cons hold
    have e1 : lastN N (xs ++ [x]) = xs.drop (xs.length - N + 1) ++ [x] := by
      unfold lastN
      rw [hlenx, show xs.length + 1 - N = xs.length - N + 1 by omega, List.drop_append_of_le_length (by omega)]
    rw [e1, e0, vals_append, List.sum_append]
    simp only [vals, List.map_cons, List.sum_cons, List.map_nil, List.sum_nil]
    ring

theorem lastN_abs (N : ℕ) (xs : List (Fl rnd)) (M : ℝ) (hM0 : 0 ≤ M) (hM : ∀ x ∈ xs, |x.val| ≤ M) :
    |(vals (lastN N xs)).sum| ≤ N * M := by
  have h1 : ∀ l : List (Fl rnd), (∀ x ∈ l, |x.val| ≤ M) → |(vals l).sum| ≤ l.length * M := by
    intro l
    induction l with
    | nil => intro _; simp [vals]
    | cons y ys ih =>
      intro h
      have := ih fun x hx => h x (List.mem_cons_of_mem _ hx)
      have h2 := h y List.mem_cons_self
      simp only [vals, List.map_cons, List.sum_cons, List.length_cons] at this ⊢
      push_cast
      exact (abs_add_le _ _).trans (by linarith)
  refine (h1 _ fun x hx => hM x (List.mem_of_mem_drop hx)).trans ?_
  apply mul_le_mul_of_nonneg_right _ hM0
  have : (lastN N xs).length ≤ N := by
    unfold lastN
    rw [List.length_drop]
    omega
  exact_mod_cast this

/-- The state of an accumulator of rounded numbers after the samples `xs`. -/
structure RAccInv (rnd : ℝ → ℝ) (u : ℝ) (N : ℕ) (mx mn : Fl rnd) (xs : List (Fl rnd)) (a : Acc (Fl rnd)) : Prop where
  windowSamples : a.windowSamples = xs.length
  totalSamples : a.totalSamples = xs.length
  len : a.samples.length = N
  slot : ∀ j, (hj : j < xs.length) → xs.length ≤ j + N → a.samples[j % N]? = some xs[j]
  sum : |a.sum.val - (vals xs).sum| ≤ ((1 + u) ^ xs.length - 1) * absSum xs
  sumAbs : |(vals xs).sum| ≤ absSum xs
  windowSum : ∀ M, (∀ x ∈ xs, |x.val| ≤ M) → 0 ≤ M →
    |a.windowSum.val - (vals (lastN N xs)).sum| ≤ ((1 + u) ^ xs.length - 1) * ((N + 3) * M)
  min : a.min = mx ∧ (∀ x ∈ xs, mx.val ≤ x.val) ∨ a.min ∈ xs ∧ a.min.val ≤ mx.val ∧ ∀ x ∈ xs, a.min.val ≤ x.val
  max : a.max = mn ∧ (∀ x ∈ xs, x.val ≤ mn.val) ∨ a.max ∈ xs ∧ mn.val ≤ a.max.val ∧ ∀ x ∈ xs, x.val ≤ a.max.val

theorem raccInv_start (N : ℕ) (mx mn : Fl rnd) (junk : List (Fl rnd)) (hj : junk.length = N) :
    RAccInv rnd u N mx mn [] (Acc.start mx mn junk) := by
  refine ⟨rfl, rfl, hj, by simp, ?_, by simp [vals, absSum], ?_, Or.inl ⟨rfl, by simp⟩, Or.inl ⟨rfl, by simp⟩⟩
  · have : (Acc.start mx mn junk).sum.val = 0 := rfl
    simp [vals, this]
  · intro M _ _
    have : (Acc.start mx mn junk).windowSum.val = 0 := rfl
    simp [vals, this, lastN]

/-- The error of the sum of the window after one more operation. -/
theorem window_step (h : Rounding rnd u) (hu2 : u ≤ 1 / 2) {p w W d B M : ℝ} (hM : 0 ≤ M)
    (hw : |w - W| ≤ (p - 1) * (B + 3 * M)) (hd : |d| ≤ 2 * M) (hW : |W + d| ≤ B) (d' : ℝ) (hd' : |d' - d| ≤ u * |d|) :
    |rnd (w + d') - (W + d)| ≤ (p * (1 + u) - 1) * (B + 3 * M) := by
  have hu := rounding_nonneg h
  have h1 := h.rel (w + d')
  have h2 : |d' - d| ≤ u * (2 * M) := hd'.trans (mul_le_mul_of_nonneg_left hd hu)
  have h3 : |w + d' - (W + d)| ≤ (p - 1) * (B + 3 * M) + u * (2 * M) := by
    rw [show w + d' - (W + d) = (w - W) + (d' - d) by ring]
    exact (abs_add_le _ _).trans (add_le_add hw h2)
  have h4 : |w + d'| ≤ (p - 1) * (B + 3 * M) + u * (2 * M) + B := by
    rw [show w + d' = (w + d' - (W + d)) + (W + d) by ring]
    exact (abs_add_le _ _).trans (add_le_add h3 hW)
  have h5 := mul_le_mul_of_nonneg_left h4 hu
  have h6 : |rnd (w + d') - (W + d)| ≤ u * |w + d'| + ((p - 1) * (B + 3 * M) + u * (2 * M)) := by
    rw [show rnd (w + d') - (W + d) = (rnd (w + d') - (w + d')) + (w + d' - (W + d)) by ring]
    exact (abs_add_le _ _).trans (add_le_add h1 h3)
  nlinarith [mul_nonneg hu hM, mul_nonneg (mul_nonneg hu hM) (by linarith : 0 ≤ 1 / 2 - u)]

theorem racc_add_ok (h : Rounding rnd u) (hu2 : u ≤ 1 / 2) (N : ℕ) (hN : 0 < N) (mx mn : Fl rnd) (xs : List (Fl rnd))
    (a : Acc (Fl rnd)) (hi : RAccInv rnd u N mx mn xs a) (hn : xs.length < intMax) (x : Fl rnd) :
    ∃ a', a.add N x = .ok a' ∧ RAccInv rnd u N mx mn (xs ++ [x]) a' ∧
      ((xs.length < N ∧ a'.windowSum = a.windowSum + x) ∨
        ∃ h : xs.length - N < xs.length, N ≤ xs.length ∧ a'.windowSum = a.windowSum + (x - xs[xs.length - N])) := by
  obtain ⟨sm, ws, ee, h1, h2, h3⟩ := addWindow_lawless N hN xs a hi.windowSamples hi.len hi.slot hn x
  have red : a.add N x = .ok ⟨xs.length + 1, xs.length + 1, ws, a.sum + x,
      if x < a.min then x else a.min, if x > a.max then x else a.max, sm⟩ := by
    unfold Acc.add
    rw [ee, Res.ok_bind, hi.totalSamples, incInt_ok hn]
    rfl
  have hu := rounding_nonneg h
  have st := step_sum h (b := x.val) hi.sum hi.sumAbs
  have hs : (vals (xs ++ [x])).sum = (vals xs).sum + x.val := by
    rw [vals_append, List.sum_append]
    simp [vals]
  have ha : absSum (xs ++ [x]) = absSum xs + |x.val| := by
    unfold absSum
    rw [vals_append, List.map_append, List.sum_append]
    simp [vals]
  have hlen : (xs ++ [x]).length = xs.length + 1 := by simp
  refine ⟨_, red, ⟨by simp, by simp, h1, h2, ?_, ?_, ?_, ?_, ?_⟩, h3⟩
  · rw [hs, ha, hlen]
    exact st.1
  · rw [hs, ha]
    exact st.2
  · intro M hM hM0
    have hMx : ∀ y ∈ xs, |y.val| ≤ M := fun y hy => hM y (List.mem_append_left _ hy)
    have hxM : |x.val| ≤ M := hM x (by simp)
    have hw := hi.windowSum M hMx hM0
    have hb := lastN_abs N (xs ++ [x]) M hM0 hM
    rw [hlen, pow_succ]
    rw [show ((N : ℝ) + 3) * M = N * M + 3 * M by ring] at hw ⊢
    rcases h3 with ⟨hlt, rfl⟩ | ⟨hold, hge, rfl⟩
    · rw [(lastN_sum N xs x).1 hlt] at hb ⊢
      exact window_step h hu2 hM0 hw (by linarith) hb x.val (by
        rw [sub_self, abs_zero]
        exact mul_nonneg hu (abs_nonneg _))
    · rw [(lastN_sum N xs x).2 hold hge hN] at hb ⊢
      refine window_step h hu2 hM0 hw ?_ hb (rnd (x.val - (xs[xs.length - N]).val)) (h.rel _)
      have := hMx _ (List.getElem_mem hold)
      exact (abs_sub _ _).trans (by linarith)
  · simp only
    by_cases hc : x < a.min
    · rw [if_pos hc]
      have hc' : x.val < a.min.val := hc
      right
      refine ⟨by simp, ?_, ?_⟩
      · rcases hi.min with ⟨e, -⟩ | ⟨-, e, -⟩
        · rw [e] at hc'
          exact hc'.le
        · exact hc'.le.trans e
      · intro y hy
        rcases List.mem_append.mp hy with hy | hy
        · rcases hi.min with ⟨e, e2⟩ | ⟨-, -, e⟩
          · rw [e] at hc'
            exact hc'.le.trans (e2 y hy)
          · exact hc'.le.trans (e y hy)
        · obtain rfl : y = x := by simpa using hy
          exact le_rfl
    · rw [if_neg hc]
      have hc' : a.min.val ≤ x.val := not_lt.mp hc
      rcases hi.min with ⟨e, e2⟩ | ⟨e0, e1, e2⟩
      · left
        refine ⟨e, ?_⟩
        intro y hy
        rcases List.mem_append.mp hy with hy | hy
        · exact e2 y hy
        · obtain rfl : y = x := by simpa using hy
          rwa [e] at hc'
      · right
        refine ⟨List.mem_append_left _ e0, e1, ?_⟩
        intro y hy
        rcases List.mem_append.mp hy with hy | hy
        · exact e2 y hy
        · obtain rfl : y = x := by simpa using hy
          exact hc'
  · simp only
    by_cases hc : x > a.max
    · rw [if_pos hc]
      have hc' : a.max.val < x.val := hc
      right
      refine ⟨by simp, ?_, ?_⟩
      · rcases hi.max with ⟨e, -⟩ | ⟨-, e, -⟩
        · rw [e] at hc'
          exact hc'.le
        · exact e.trans hc'.le
      · intro y hy
        rcases List.mem_append.mp hy with hy | hy
        · rcases hi.max with ⟨e, e2⟩ | ⟨-, -, e⟩
          · rw [e] at hc'
            exact (e2 y hy).trans hc'.le
          · exact (e y hy).trans hc'.le
        · obtain rfl : y = x := by simpa using hy
          exact le_rfl
    · rw [if_neg hc]
      have hc' : x.val ≤ a.max.val := not_lt.mp hc
      rcases hi.max with ⟨e, e2⟩ | ⟨e0, e1, e2⟩
      · left
        refine ⟨e, ?_⟩
        intro y hy
        rcases List.mem_append.mp hy with hy | hy
        · exact e2 y hy
        · obtain rfl : y = x := by simpa using hy
          rwa [e] at hc'
      · right
        refine ⟨List.mem_append_left _ e0, e1, ?_⟩
        intro y hy
        rcases List.mem_append.mp hy with hy | hy
        · exact e2 y hy
        · obtain rfl : y = x := by simpa using hy
          exact hc'

theorem raddAll_inv (h : Rounding rnd u) (hu2 : u ≤ 1 / 2) (N : ℕ) (hN : 0 < N) (mx mn : Fl rnd)
    (ys xs : List (Fl rnd)) (a : Acc (Fl rnd)) (hi : RAccInv rnd u N mx mn xs a) (hn : (xs ++ ys).length ≤ intMax) :
    ∃ a', addAll N a ys = .ok a' ∧ RAccInv rnd u N mx mn (xs ++ ys) a' := by
  induction ys generalizing xs a with
  | nil => exact ⟨a, rfl, by simpa using hi⟩
  | cons y ys ih =>
    simp only [List.length_append, List.length_cons] at hn
    obtain ⟨a1, e1, h1, -⟩ := racc_add_ok h hu2 N hN mx mn xs a hi (by omega) y
    obtain ⟨a2, e2, h2⟩ := ih (xs ++ [y]) a1 h1 (by simp; omega)
    refine ⟨a2, ?_, by simpa using h2⟩
    show (y :: ys).foldlM (Acc.add N) a = _
    rw [List.foldlM_cons, e1, Res.ok_bind]
    exact e2

theorem raddAll_ok (h : Rounding rnd u) (hu2 : u ≤ 1 / 2) (N : ℕ) (hN : 0 < N) (mx mn : Fl rnd)
    (junk : List (Fl rnd)) (hj : junk.length = N) (xs : List (Fl rnd)) (hn : xs.length ≤ intMax) :
    ∃ a, addAll N (Acc.start mx mn junk) xs = .ok a ∧ RAccInv rnd u N mx mn xs a := by
  simpa using raddAll_inv h hu2 N hN mx mn xs [] _ (raccInv_start N mx mn junk hj) (by simpa using hn)

/-- Division of an approximate number by an exact one. -/
theorem div_step (h : Rounding rnd u) {p s S A m : ℝ} (hm : 0 < m) (hs : |s - S| ≤ (p - 1) * A)
    (hS : |S| ≤ A) : |rnd (s / m) - S / m| ≤ (p * (1 + u) - 1) * A / m := by
  have hu := rounding_nonneg h
  have h1 := h.rel (s / m)
  rw [abs_div, abs_of_pos hm] at h1
  have h2 : |s / m - S / m| ≤ (p - 1) * A / m := by
    rw [← sub_div, abs_div, abs_of_pos hm]
    exact div_le_div_of_nonneg_right hs hm.le
  have h3 : |s| ≤ (p - 1) * A + A := by
    rw [show s = (s - S) + S by ring]
    exact (abs_add_le _ _).trans (add_le_add hs hS)
  have h4 : u * (|s| / m) ≤ u * (p * A / m) := by
    apply mul_le_mul_of_nonneg_left _ hu
    exact div_le_div_of_nonneg_right (by linarith) hm.le
  rw [show rnd (s / m) - S / m = (rnd (s / m) - s / m) + (s / m - S / m) by ring]
  refine (abs_add_le _ _).trans ((add_le_add h1 h2).trans ?_)
  have : u * (p * A / m) + (p - 1) * A / m = (p * (1 + u) - 1) * A / m := by ring
  linarith

/-- Integers below `2^53` are not rounded. -/
theorem round53_nat (n : ℕ) (hn : n < 2 ^ 53) : round53 n = n := by
  rcases Nat.eq_zero_or_pos n with rfl | hpos
  · rw [Nat.cast_zero]
    exact rnd_zero round53_rounding
  have hx : (0 : ℝ) < n := by exact_mod_cast hpos
  obtain ⟨e, h1, h2⟩ := exists_binade hx
  have he : e ≤ 52 := by
    by_contra hc
    have h3 : (2 : ℝ) ^ (53 : ℤ) ≤ 2 ^ e := zpow_le_zpow_right₀ (by norm_num) (by omega)
    have h4 : (n : ℝ) < 2 ^ (53 : ℤ) := by exact_mod_cast hn
    linarith
  obtain ⟨k, hk⟩ : ∃ k : ℕ, 52 - e = k := ⟨(52 - e).toNat, by omega⟩
  have hq : (0 : ℝ) < 2 ^ (e - 52) := by positivity
  have e1 : (((n * 2 ^ k : ℕ) : ℤ) : ℝ) * 2 ^ (e - 52) = n := by
    rw [show e - 52 = -(k : ℤ) by omega, zpow_neg, zpow_natCast]
    push_cast
    field_simp
  rw [round53_eq e ((n * 2 ^ k : ℕ) : ℤ) h1 h2 (by rw [sub_mul, e1]; linarith) (by rw [add_mul, e1]; linarith), e1]

end Verif
