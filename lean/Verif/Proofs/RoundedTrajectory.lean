import Verif.Proofs.Rounded
import Verif.Proofs.PolynomialArith
import Verif.Proofs.Io

/-
Lemmas about trajectories with rounding.
-/
set_option linter.unusedSectionVars false

namespace Verif

open Spec

variable {rnd : ℝ → ℝ} {u : ℝ}

theorem close_of_factor {m : ℕ} {x θ : ℝ} (h : |θ| ≤ (1 + u) ^ m - 1) : Close u m (x * (1 + θ)) x := by
  unfold Close
  rw [show x * (1 + θ) - x = θ * x by ring, abs_mul]
  exact mul_le_mul_of_nonneg_right h (abs_nonneg _)

theorem close_mono (hu : 0 ≤ u) {m n : ℕ} (hmn : m ≤ n) {x y : ℝ} (h : Close u m x y) : Close u n x y := by
  refine le_trans h (mul_le_mul_of_nonneg_right ?_ (abs_nonneg _))
  exact sub_le_sub_right (pow_le_pow_right₀ (by linarith) hmn) 1

/-- A number near another one is the other one times a factor near 1. -/
theorem close_factor {m : ℕ} (hu : 0 ≤ u) {x y : ℝ} (h : Close u m x y) :
    ∃ θ, |θ| ≤ (1 + u) ^ m - 1 ∧ x = y * (1 + θ) := by
  by_cases hy : y = 0
  · subst hy
    unfold Close at h
    rw [abs_zero, mul_zero, sub_zero] at h
    exact ⟨0, factor_zero hu m, by rw [abs_eq_zero.mp (le_antisymm h (abs_nonneg _))]; ring⟩
  · refine ⟨(x - y) / y, ?_, by field_simp; ring⟩
    rw [abs_div, div_le_iff₀ (abs_pos.mpr hy)]
    exact h

/-- The sum of numbers that are not negative. -/
theorem close_add (h : Rounding rnd u) {m : ℕ} {x y b : ℝ} (hx : Close u m x y) (hy : 0 ≤ y) (hb : 0 ≤ b) :
    Close u (m + 1) (rnd (x + b)) (y + b) := by
  have hu := rounding_nonneg h
  have h1 := h.rel (x + b)
  unfold Close at hx ⊢
  rw [abs_of_nonneg hy] at hx
  rw [abs_of_nonneg (add_nonneg hy hb), pow_succ]
  set p := (1 + u) ^ m with hp
  have hp1 : 1 ≤ p := one_le_pow₀ (by linarith)
  have e : rnd (x + b) - (y + b) = (rnd (x + b) - (x + b)) + (x - y) := by ring
  have h2 : |x + b| ≤ (p - 1) * y + (y + b) := by
    have : x + b = (x - y) + (y + b) := by ring
    rw [this]
    refine (abs_add_le _ _).trans (add_le_add hx ?_)
    rw [abs_of_nonneg (add_nonneg hy hb)]
  rw [e]
  refine (abs_add_le _ _).trans ?_
  have h3 := mul_le_mul_of_nonneg_left h2 hu
  nlinarith [mul_nonneg (mul_nonneg (by linarith : 0 ≤ p - 1) hb) hu, mul_nonneg (by linarith : 0 ≤ p - 1) hb]

theorem exactStart_succ {segs : List (Segment (Fl rnd))} {i : ℕ} {s : Segment (Fl rnd)} (hs : segs[i]? = some s) :
    exactStart segs (i + 1) = exactStart segs i + s.time.val := by
  unfold exactStart
  rw [List.take_add_one, hs]
  simp

theorem exactStart_nonneg {segs : List (Segment (Fl rnd))} (h : ∀ s ∈ segs, 0 ≤ s.time.val) (i : ℕ) :
    0 ≤ exactStart segs i := by
  unfold exactStart
  refine List.sum_nonneg fun x hx => ?_
  obtain ⟨s, hs, rfl⟩ := List.mem_map.mp hx
  exact h s (List.mem_of_mem_take hs)

/-- The search for the segment: either it stops in a segment, or it has added all times. -/
theorem findSegment_rounded (h : Rounding rnd u) {segs : List (Segment (Fl rnd))}
    (hn : ∀ s ∈ segs, 0 ≤ s.time.val) (t : Fl rnd) (n : ℕ) :
    ∀ (i : ℕ) (acc : Fl rnd), segs.length - i = n → i ≤ segs.length → Close u i acc.val (exactStart segs i) →
      (0 < i → acc.val ≤ t.val) →
      ∃ k a, findSegment t (segs.drop i) acc i = (k, a) ∧
        ((k < segs.length ∧ t.val < a.val ∧ Close u (k + 1) a.val (exactStart segs (k + 1)) ∧
            ∃ b, Close u k b (exactStart segs k) ∧ (0 < k → b ≤ t.val)) ∨
          (k = segs.length ∧ Close u k a.val (exactStart segs k) ∧ (0 < k → a.val ≤ t.val) ∧
            a = ((segs.drop i).map fun s => s.time).foldl (· + ·) acc)) := by
  induction n with
  | zero =>
    intro i acc h1 h2 h3 h4
    have hi : i = segs.length := by omega
    subst hi
    rw [List.drop_length]
    exact ⟨_, _, rfl, .inr ⟨rfl, h3, h4, rfl⟩⟩
  | succ n ih =>
    intro i acc h1 h2 h3 h4
    have hi : i < segs.length := by omega
    rw [List.drop_eq_getElem_cons hi, findSegment]
    have hs : segs[i]? = some segs[i] := List.getElem?_eq_getElem hi
    have hc : Close u (i + 1) (acc + segs[i].time).val (exactStart segs (i + 1)) := by
      rw [exactStart_succ hs]
      exact close_add h h3 (exactStart_nonneg hn i) (hn _ (List.getElem_mem hi))
    split_ifs with ht
    · exact ⟨i, _, rfl, .inl ⟨hi, ht, hc, acc.val, h3, h4⟩⟩
    · obtain ⟨k, a, g1, g2⟩ := ih (i + 1) (acc + segs[i].time) (by omega) hi hc (fun _ => not_lt.mp ht)
      exact ⟨k, a, g1, g2⟩

theorem addSegmentsLoop_fold {K : Type} [Add K] {D N : ℕ} {segs : List (Segment K)} :
    ∀ {m r : K}, addSegmentsLoop D N segs m = .ok r → r = (segs.map fun s => s.time).foldl (· + ·) m := by
  induction segs with
  | nil => intro m r h; simp only [addSegmentsLoop, Res.ok.injEq] at h; exact h.symm
  | cons s ss ih =>
    intro m r h
    rw [addSegmentsLoop, Res.bind_eq_ok] at h
    obtain ⟨_, _, h⟩ := h
    rw [Res.bind_eq_ok] at h
    obtain ⟨_, _, h⟩ := h
    exact ih h

theorem setSegments_fold {K : Type} [Zero K] [Add K] {segs : List (Segment K)} {tr : Trajectory K}
    (h : Trajectory.setSegments segs = .ok tr) :
    segs ≠ [] ∧ tr.segments = segs ∧ tr.maxTime = (segs.map fun s => s.time).foldl (· + ·) 0 := by
  cases segs with
  | nil => simp [Trajectory.setSegments] at h
  | cons s ss =>
    rw [Trajectory.setSegments, Trajectory.addSegments, Res.bind_eq_ok] at h
    obtain ⟨m, h1, h2⟩ := h
    rw [Res.pure_eq, Res.ok.injEq] at h2
    subst h2
    exact ⟨List.cons_ne_nil _ _, by simp, addSegmentsLoop_fold h1⟩

/-- The start of a segment and the time inside the segment. -/
theorem local_time_rounded (h : Rounding rnd u) {segs : List (Segment (Fl rnd))} (hn : ∀ s ∈ segs, 0 ≤ s.time.val)
    (t : Fl rnd) (ht0 : 0 ≤ t.val) (i : ℕ) (s : Segment (Fl rnd)) (a : Fl rnd) (hs : segs[i]? = some s)
    (hc : Close u (i + 1) a.val (exactStart segs (i + 1))) :
    |(a - s.time).val - exactStart segs i| ≤ ((1 + u) ^ (i + 2) - 1) * exactStart segs (i + 1) ∧
    |(t - (a - s.time)).val - (t.val - exactStart segs i)| ≤
      u * t.val + ((1 + u) ^ (i + 3) - 1) * exactStart segs (i + 1) := by
  have hu := rounding_nonneg h
  have h0 := exactStart_nonneg hn i
  have h1 := exactStart_nonneg hn (i + 1)
  have hs0 : 0 ≤ s.time.val := hn s (List.mem_of_getElem? hs)
  have h2 := exactStart_succ hs
  set S := exactStart segs (i + 1)
  set S0 := exactStart segs i
  unfold Close at hc
  rw [abs_of_nonneg h1] at hc
  set p := (1 + u) ^ (i + 1) with hp
  have hp1 : 1 ≤ p := one_le_pow₀ (by linarith)
  have r1 := h.rel (a.val - s.time.val)
  have r2 := h.rel (t.val - rnd (a.val - s.time.val))
  set b := rnd (a.val - s.time.val)
  have g1 : |a.val - s.time.val - S0| ≤ (p - 1) * S := by
    rw [show a.val - s.time.val - S0 = a.val - S by rw [h2]; ring]
    exact hc
  have g2 : |a.val - s.time.val| ≤ p * S := by
    have : a.val - s.time.val = (a.val - s.time.val - S0) + S0 := by ring
    rw [this]
    refine (abs_add_le _ _).trans ?_
    rw [abs_of_nonneg h0]
    nlinarith
  have g3 : |b - S0| ≤ (p * (1 + u) - 1) * S := by
    have : b - S0 = (b - (a.val - s.time.val)) + (a.val - s.time.val - S0) := by ring
    rw [this]
    refine (abs_add_le _ _).trans ?_
    have := mul_le_mul_of_nonneg_left g2 hu
    nlinarith
  have g3' : |(a - s.time).val - S0| ≤ ((1 + u) ^ (i + 2) - 1) * S := by
    rw [show (1 + u) ^ (i + 2) = p * (1 + u) by rw [hp]; ring]
    exact g3
  have g4 : |b| ≤ p * (1 + u) * S := by
    have : b = (b - S0) + S0 := by ring
    rw [this]
    refine (abs_add_le _ _).trans ?_
    rw [abs_of_nonneg h0]
    nlinarith
  have g5 : |t.val - b| ≤ t.val + p * (1 + u) * S := by
    rw [sub_eq_add_neg]
    refine (abs_add_le _ _).trans ?_
    rw [abs_neg, abs_of_nonneg ht0]
    linarith
  refine ⟨g3', ?_⟩
  have g6 : (t - (a - s.time)).val = rnd (t.val - b) := rfl
  have q : (1 + u) ^ (i + 3) = p * (1 + u) * (1 + u) := by rw [hp]; ring
  rw [g6, q]
  have : rnd (t.val - b) - (t.val - S0) = (rnd (t.val - b) - (t.val - b)) - (b - S0) := by ring
  rw [this, sub_eq_add_neg]
  refine (abs_add_le _ _).trans ?_
  rw [abs_neg]
  have := mul_le_mul_of_nonneg_left g5 hu
  nlinarith

/-- One operation of a sum with rounding: `x` is near `e`, `A` bounds all addends. -/
theorem step_sum (h : Rounding rnd u) {m : ℕ} {x e A b : ℝ} (hx : |x - e| ≤ ((1 + u) ^ m - 1) * A) (he : |e| ≤ A) :
    |rnd (x + b) - (e + b)| ≤ ((1 + u) ^ (m + 1) - 1) * (A + |b|) ∧ |e + b| ≤ A + |b| := by
  have hu := rounding_nonneg h
  have hA : 0 ≤ A := (abs_nonneg _).trans he
  have h1 := h.rel (x + b)
  rw [pow_succ]
  set p := (1 + u) ^ m with hp
  have hp1 : 1 ≤ p := one_le_pow₀ (by linarith)
  have e1 : rnd (x + b) - (e + b) = (rnd (x + b) - (x + b)) + (x - e) := by ring
  have h0 : |e + b| ≤ A + |b| := (abs_add_le _ _).trans (add_le_add_left he _)
  have h2 : |x + b| ≤ (p - 1) * A + (A + |b|) := by
    have : x + b = (x - e) + (e + b) := by ring
    rw [this]
    exact (abs_add_le _ _).trans (add_le_add hx h0)
  refine ⟨?_, h0⟩
  rw [e1]
  refine (abs_add_le _ _).trans ?_
  have h3 := mul_le_mul_of_nonneg_left h2 hu
  have hb := abs_nonneg b
  nlinarith [mul_nonneg (mul_nonneg (by linarith : 0 ≤ p - 1) hb) hu, mul_nonneg (by linarith : 0 ≤ p - 1) hb]

/-- The sampling loop with rounding. -/
theorem evaluateRangeLoop_rounded (h : Rounding rnd u) {segs : List (Segment (Fl rnd))}
    (hn : ∀ s ∈ segs, 0 ≤ s.time.val) (tEnd dt : Fl rnd) (hdt : 0 ≤ dt.val) (d : ℤ) (fuel : ℕ) :
    ∀ (i : ℕ) (acc tis : Fl rnd) (l : List (Fl rnd × List (Fl rnd))) (ka kt : ℕ) (ea et A B : ℝ),
      evaluateRangeLoop segs tEnd dt d fuel i acc tis = .ok l →
      |acc.val - ea| ≤ ((1 + u) ^ ka - 1) * A → |ea| ≤ A →
      |tis.val - et| ≤ ((1 + u) ^ kt - 1) * B → |et| ≤ B →
      ∀ (j : ℕ) time v, l[j]? = some (time, v) → time.val < tEnd.val ∧ ∃ k s τ, i ≤ k ∧ segs[k]? = some s ∧
        s.evaluate τ d = .ok v ∧ τ.val ≤ s.time.val ∧
        |time.val - (ea + j * dt.val)| ≤ ((1 + u) ^ (ka + j) - 1) * (A + j * dt.val) ∧
        |τ.val - (et + j * dt.val - (exactStart segs k - exactStart segs i))| ≤
          ((1 + u) ^ (kt + j + (k - i)) - 1) * (B + j * dt.val + (exactStart segs k - exactStart segs i)) := by
  have hu := rounding_nonneg h
  induction fuel with
  | zero => intro i acc tis l ka kt ea et A B hl; simp [evaluateRangeLoop] at hl
  | succ fuel ih =>
    intro i acc tis l ka kt ea et A B hl hA1 hA2 hB1 hB2 j time v hj
    rw [evaluateRangeLoop] at hl
    by_cases h1 : acc < tEnd
    · rw [if_pos h1, Res.bind_eq_ok] at hl
      obtain ⟨s, hs, hl⟩ := hl
      rw [Res.at'_eq_ok] at hs
      have hs0 : 0 ≤ s.time.val := hn s (List.mem_of_getElem? hs)
      split_ifs at hl with h2 h3
      · rw [Res.pure_eq, Res.ok.injEq] at hl
        subst hl
        simp at hj
      · have h4 := step_sum h (b := -s.time.val) hB1 hB2
        rw [abs_neg, abs_of_nonneg hs0] at h4
        obtain ⟨g0, k, s', τ, g1, g2, g3, g4, g5, g6⟩ := ih (i + 1) acc (tis - s.time) l ka (kt + 1) ea (et + -s.time.val)
          A (B + s.time.val) hl hA1 hA2 h4.1 h4.2 j time v hj
        refine ⟨g0, k, s', τ, by omega, g2, g3, g4, g5, ?_⟩
        rw [exactStart_succ hs] at g6
        rw [show kt + j + (k - i) = kt + 1 + j + (k - (i + 1)) by omega]
        convert g6 using 2 <;> ring_nf
      · rw [Res.bind_eq_ok] at hl
        obtain ⟨w, hw, hl⟩ := hl
        rw [Res.bind_eq_ok] at hl
        obtain ⟨rest, hr, hl⟩ := hl
        rw [Res.pure_eq, Res.ok.injEq] at hl
        subst hl
        cases j with
        | zero =>
          rw [List.getElem?_cons_zero, Option.some.injEq, Prod.mk.injEq] at hj
          obtain ⟨rfl, rfl⟩ := hj
          refine ⟨h1, i, s, tis, le_rfl, hs, hw, not_lt.mp h2, ?_, ?_⟩
          · simpa using hA1
          · simpa using hB1
        | succ j =>
          rw [List.getElem?_cons_succ] at hj
          have h4 := step_sum h (b := dt.val) hB1 hB2
          have h5 := step_sum h (b := dt.val) hA1 hA2
          rw [abs_of_nonneg hdt] at h4 h5
          obtain ⟨g0, k, s', τ, g1, g2, g3, g4, g5, g6⟩ := ih i (acc + dt) (tis + dt) rest (ka + 1) (kt + 1) (ea + dt.val)
            (et + dt.val) (A + dt.val) (B + dt.val) hr h5.1 h5.2 h4.1 h4.2 j time v hj
          refine ⟨g0, k, s', τ, g1, g2, g3, g4, ?_, ?_⟩
          · rw [show ka + (j + 1) = ka + 1 + j by omega]
            push_cast
            convert g5 using 2 <;> ring_nf
          · rw [show kt + (j + 1) + (k - i) = kt + 1 + j + (k - i) by omega]
            push_cast
            convert g6 using 2 <;> ring_nf
    · rw [if_neg h1, Res.ok.injEq] at hl
      subst hl
      simp at hj

/-! ### Values of the rounding to 53 bits -/

theorem round53_neg (x : ℝ) : round53 (-x) = -round53 x := by
  unfold round53
  rcases lt_trichotomy x 0 with h | h | h
  · rw [if_neg (by linarith), if_neg (by linarith), if_pos h, neg_neg]
  · subst h; simp
  · rw [if_pos (by linarith), if_neg (by linarith), if_neg h.ne', neg_neg]

theorem round53_eq {x : ℝ} (e : ℤ) (n : ℤ) (h1 : (2 : ℝ) ^ e ≤ x) (h2 : x < 2 ^ (e + 1))
    (h3 : ((n : ℝ) - 1 / 2) * 2 ^ (e - 52) < x) (h4 : x < ((n : ℝ) + 1 / 2) * 2 ^ (e - 52)) :
    round53 x = n * 2 ^ (e - 52) := by
  have hx : 0 < x := lt_of_lt_of_le (by positivity) h1
  have hq : (0 : ℝ) < 2 ^ (e - 52) := by positivity
  unfold round53
  rw [if_neg (by linarith), if_neg hx.ne', roundPos_eq h1 h2]
  rw [← lt_div_iff₀ hq] at h3
  rw [← div_lt_iff₀ hq] at h4
  rw [roundEven_of_lt h3 h4]

theorem round53_eq_even {x : ℝ} (e : ℤ) (n : ℤ) (hn : Even n) (h1 : (2 : ℝ) ^ e ≤ x) (h2 : x < 2 ^ (e + 1))
    (h3 : ((n : ℝ) - 1 / 2) * 2 ^ (e - 52) ≤ x) (h4 : x ≤ ((n : ℝ) + 1 / 2) * 2 ^ (e - 52)) :
    round53 x = n * 2 ^ (e - 52) := by
  have hx : 0 < x := lt_of_lt_of_le (by positivity) h1
  have hq : (0 : ℝ) < 2 ^ (e - 52) := by positivity
  unfold round53
  rw [if_neg (by linarith), if_neg hx.ne', roundPos_eq h1 h2]
  rw [← le_div_iff₀ hq] at h3
  rw [← div_le_iff₀ hq] at h4
  rw [roundEven_of_even hn h3 h4]

end Verif
