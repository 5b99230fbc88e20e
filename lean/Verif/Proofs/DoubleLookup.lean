import Verif.Proofs.DoubleCurve

/-
Lemmas about finding the segment with `double`.
-/
namespace Verif

open Spec

theorem foldl_add_finite (l : List Dbl) : ∀ a : Dbl, IsFinite (l.foldl (· + ·) a) → IsFinite a := by
  induction l with
  | nil => exact fun a h => h
  | cons x l ih =>
    intro a h
    obtain ⟨s, hs⟩ := ih (a + x) h
    obtain ⟨y, -, hy, -⟩ := add_eq_fin hs
    exact ⟨y, hy⟩

theorem Spec.IsDouble.round53 {x : ℝ} (h : IsDouble x) : Verif.round53 x = x := by
  obtain ⟨m, e, hm, -, -, rfl⟩ := h
  exact round53_fix hm

/-- A segment of which only the duration matters. -/
def onlyTime (x : ℝ) : Segment (Fl round53) := ⟨[], ⟨x⟩, 0⟩

/-- As long as the sum of the durations is finite, the segment is found as without limits of the exponent. -/
theorem findSegment_double (t M : ℝ) : ∀ (segs : List (Segment Dbl)) (ts : List ℝ) (acc : ℝ) (i : ℕ),
    segs.map (·.time) = ts.map .fin → (∀ x ∈ ts, IsDouble x ∧ 0 ≤ x) → IsDouble acc → 0 ≤ acc →
    (segs.map (·.time)).foldl (· + ·) (.fin acc) = .fin M →
    ∃ k a, findSegment (.fin t) segs (.fin acc) i = (k, .fin a) ∧
      findSegment (⟨t⟩ : Fl round53) (ts.map onlyTime) ⟨acc⟩ i = (k, ⟨a⟩) ∧ IsDouble a ∧ acc ≤ a ∧ a ≤ M ∧
      (∀ j x, i + j ≤ k → ts[j]? = some x → x ≤ a) ∧
      ((ts.map onlyTime).map (·.time)).foldl (· + ·) (⟨acc⟩ : Fl round53) = ⟨M⟩ := by
  intro segs
  induction segs with
  | nil =>
    intro ts acc i hts _ hacc _ hM
    cases ts with
    | cons _ _ => simp at hts
    | nil =>
      rw [List.map_nil, List.foldl_nil, Dbl.fin.injEq] at hM
      subst hM
      exact ⟨i, acc, rfl, rfl, hacc, le_rfl, le_rfl, fun j x _ h => by simp at h, rfl⟩
  | cons s ss ih =>
    intro ts acc i hts hd hacc hacc0 hM
    cases ts with
    | nil => simp at hts
    | cons x ts =>
      rw [List.map_cons, List.map_cons, List.cons.injEq] at hts
      obtain ⟨hx, hts⟩ := hts
      rw [List.map_cons, List.foldl_cons] at hM
      obtain ⟨b, hb⟩ := foldl_add_finite _ _ ⟨M, hM⟩
      rw [hb] at hM
      obtain ⟨hxd, hx0⟩ := hd x (by simp)
      have hb' := hb
      rw [hx, fin_add] at hb'
      have hbd : IsDouble b := (ofReal_nearest hb').1
      have hbe : b = round53 (acc + x) := by rw [(ofReal_eq_fin hb').1, round64_add hacc hxd]
      have h1 : acc ≤ b := by
        rw [hbe]
        nth_rw 1 [← hacc.round53]
        exact round53_rounding.mono (by linarith)
      have h2 : x ≤ b := by
        rw [hbe]
        nth_rw 1 [← hxd.round53]
        exact round53_rounding.mono (by linarith)
      obtain ⟨k, a, g1, g2, g3, g4, g5, g6, g7⟩ := ih ts b (i + 1) hts (fun y hy => hd y (by simp [hy])) hbd
        (hacc0.trans h1) hM
      have hfl : ((⟨acc⟩ : Fl round53) + (onlyTime x).time) = ⟨b⟩ := by rw [hbe]; rfl
      rw [findSegment, List.map_cons, findSegment, hb, List.map_cons, List.foldl_cons, hfl]
      by_cases hlt : t < b
      · rw [if_pos (show Dbl.fin b > .fin t from hlt), if_pos (show (⟨b⟩ : Fl round53) > ⟨t⟩ from hlt)]
        refine ⟨i, b, rfl, rfl, hbd, h1, g4.trans g5, fun j y hj hy => ?_, g7⟩
        have : j = 0 := by omega
        subst this
        rw [List.getElem?_cons_zero, Option.some.injEq] at hy
        rw [← hy]
        exact h2
      · rw [if_neg (show ¬ Dbl.fin b > .fin t from hlt), if_neg (show ¬ (⟨b⟩ : Fl round53) > ⟨t⟩ from hlt)]
        refine ⟨k, a, g1, g2, g3, h1.trans g4, g5, fun j y hj hy => ?_, g7⟩
        cases j with
        | zero =>
          rw [List.getElem?_cons_zero, Option.some.injEq] at hy
          rw [← hy]
          exact h2.trans g4
        | succ j => exact g6 j y (by omega) (by simpa using hy)

/-- The search with NaN or `+∞` goes to the end. -/
theorem findSegment_end (t : Dbl) (ht : ∀ a : Dbl, ¬ a > t) : ∀ (segs : List (Segment Dbl)) (acc : Dbl) (i : ℕ),
    findSegment t segs acc i = (i + segs.length, (segs.map (·.time)).foldl (· + ·) acc) := by
  intro segs
  induction segs with
  | nil => exact fun acc i => rfl
  | cons s ss ih =>
    intro acc i
    rw [findSegment, if_neg (ht _), ih, List.length_cons, List.map_cons, List.foldl_cons]
    congr 1
    omega

theorem not_gt_inf (a : Dbl) : ¬ a > .inf false := by
  cases a with
  | fin x => exact fun h => absurd (show false = true from h) (by simp)
  | inf s => exact fun h => absurd (show false = true ∧ s = false from h).1 (by simp)
  | nan => exact fun h => h

/-- `+∞` minus a number is one of the values that are not finite. -/
theorem hornerDown_nan (f : ℕ → Dbl) (t : Dbl) (d n : ℕ) : hornerDown f t d n .nan = .nan := by
  induction n with
  | zero => rfl
  | succ n ih => rw [hornerDown, nan_mul, nan_add, ih]

theorem hornerDown_nan_time (f : ℕ → Dbl) (d n : ℕ) (hn : 0 < n) (acc : Dbl) :
    hornerDown f .nan d n acc = .nan := by
  obtain ⟨m, rfl⟩ : ∃ m, n = m + 1 := ⟨n - 1, by omega⟩
  rw [hornerDown, mul_nan, nan_add, hornerDown_nan]

/-- The difference of two numbers that are not negative is finite. -/
theorem sub_finite {x y : ℝ} (hx : IsDouble x) (hy : IsDouble y) (hx0 : 0 ≤ x) (hy0 : 0 ≤ y) :
    Dbl.fin x - .fin y = .fin (round53 (x - y)) := by
  have hmax : ∀ z : ℝ, IsDouble z → |z| < (2 : ℝ) ^ (1024 : ℤ) - (2 : ℝ) ^ (970 : ℤ) := by
    intro z hz
    have h0 : (2 : ℝ) ^ (971 : ℤ) = 2 * (2 : ℝ) ^ (970 : ℤ) := by
      rw [show (971 : ℤ) = 1 + 970 by norm_num, zpow_add₀ (by norm_num), zpow_one]
    have hp := zpow2_pos 970
    obtain ⟨m, e, hm, -, he, rfl⟩ := hz
    rw [abs_mul, abs_of_pos (zpow2_pos _)]
    have h1 : |(m : ℝ)| ≤ ((2 ^ 53 - 1 : ℤ) : ℝ) := by
      have : |m| ≤ 2 ^ 53 - 1 := by omega
      exact_mod_cast this
    have h2 : (2 : ℝ) ^ e ≤ (2 : ℝ) ^ (971 : ℤ) := zpow_le_zpow_right₀ (by norm_num) he
    have h3 := mul_le_mul h1 h2 (zpow2_pos _).le (by norm_num)
    have h4 : ((2 ^ 53 - 1 : ℤ) : ℝ) * (2 : ℝ) ^ (971 : ℤ) = (2 : ℝ) ^ (1024 : ℤ) - (2 : ℝ) ^ (971 : ℤ) := by
      rw [show (1024 : ℤ) = 1023 + 1 by norm_num, zpow53, show (1023 : ℤ) - 52 = 971 by norm_num, Int.cast_sub,
        Int.cast_one]
      ring
    rw [h4, h0] at h3
    clear h4 h2 h0
    generalize (2 : ℝ) ^ (1024 : ℤ) = A at *
    generalize (2 : ℝ) ^ (970 : ℤ) = B at *
    linarith
  rw [fin_sub, ofReal_finite, sub_eq_add_neg, round64_add hx hy.neg]
  have h1 := hmax x hx
  have h2 := hmax y hy
  rw [abs_of_nonneg hx0] at h1
  rw [abs_of_nonneg hy0] at h2
  rw [abs_lt]
  generalize (2 : ℝ) ^ (1024 : ℤ) = A at *
  generalize (2 : ℝ) ^ (970 : ℤ) = B at *
  exact ⟨by linarith, by linarith⟩

theorem round53_isDouble {x y : ℝ} (hx : IsDouble x) (hy : IsDouble y) (hx0 : 0 ≤ x) (hy0 : 0 ≤ y) :
    IsDouble (round53 (x - y)) := by
  have h := sub_finite hx hy hx0 hy0
  rw [fin_sub] at h
  exact (ofReal_nearest h).1

theorem exactStart_onlyTime (ts : List ℝ) (k : ℕ) : exactStart (ts.map onlyTime) k = (ts.take k).sum := by
  unfold exactStart
  rw [← List.map_take, List.map_map]
  congr 1
  exact List.map_id _

/-- The segment and the time in it, with rounding: the bounds of C101 for the search alone. -/
theorem lookup_bounds {rnd : ℝ → ℝ} {u : ℝ} (h : Rounding rnd u) {segs : List (Segment (Fl rnd))} (hne : segs ≠ [])
    (hn : ∀ s ∈ segs, 0 ≤ s.time.val) (t : Fl rnd) (ht0 : 0 ≤ t.val)
    (ht1 : t.val ≤ Fl.val ((segs.map fun s => s.time).foldl (· + ·) (0 : Fl rnd))) :
    ∃ (k : ℕ) (a : Fl rnd) (i : ℕ) (s : Segment (Fl rnd)), findSegment t segs 0 0 = (k, a) ∧ t.val ≤ a.val ∧
      i = (if k ≥ segs.length then segs.length - 1 else k) ∧ segs[i]? = some s ∧
      exactStart segs i - ((1 + u) ^ (i + 1) - 1) * exactStart segs i ≤ t.val ∧
      t.val ≤ exactStart segs (i + 1) + ((1 + u) ^ (i + 1) - 1) * exactStart segs (i + 1) ∧
      |(t - (a - s.time)).val - (t.val - exactStart segs i)| ≤
        u * t.val + ((1 + u) ^ (i + 3) - 1) * exactStart segs (i + 1) := by
  have hu := rounding_nonneg h
  have hpos : 0 < segs.length := List.length_pos_iff.mpr hne
  have local_time := fun i s a hs hc => (local_time_rounded h hn t ht0 i s a hs hc).2
  have lower : ∀ {m : ℕ} {x y : ℝ}, 0 ≤ y → Close u m x y → y - ((1 + u) ^ m - 1) * y ≤ x := by
    intro m x y hy hc
    unfold Close at hc
    rw [abs_of_nonneg hy] at hc
    linarith [(abs_le.mp hc).1]
  have upper : ∀ {m : ℕ} {x y : ℝ}, 0 ≤ y → Close u m x y → x ≤ y + ((1 + u) ^ m - 1) * y := by
    intro m x y hy hc
    unfold Close at hc
    rw [abs_of_nonneg hy] at hc
    linarith [(abs_le.mp hc).2]
  obtain ⟨k, a, g1, g2⟩ := findSegment_rounded h hn t segs.length 0 0 (by omega) (by omega)
    (by unfold Close exactStart; simp; rfl) (by omega)
  rw [List.drop_zero] at g1 g2
  rcases g2 with ⟨hk, hlt, hc, b, hb1, hb2⟩ | ⟨hk, hc, hle, hfold⟩
  · have hs : segs[k]? = some segs[k] := List.getElem?_eq_getElem hk
    refine ⟨k, a, k, segs[k], g1, hlt.le, by rw [if_neg (by omega)], hs, ?_, ?_, local_time k _ a hs hc⟩
    · rcases Nat.eq_zero_or_pos k with h0 | h0
      · subst h0
        simp [exactStart]
        exact ht0
      · exact (lower (exactStart_nonneg hn k) (close_mono hu (Nat.le_succ k) hb1)).trans (hb2 h0)
    · exact hlt.le.trans (upper (exactStart_nonneg hn _) hc)
  · have hk' : segs.length - 1 < segs.length := by omega
    have hs : segs[segs.length - 1]? = some segs[segs.length - 1] := List.getElem?_eq_getElem hk'
    have hk1 : segs.length - 1 + 1 = k := by omega
    refine ⟨k, a, segs.length - 1, segs[segs.length - 1], g1, ?_, by rw [if_pos (by omega)], hs, ?_, ?_,
      local_time _ _ a hs (by rw [hk1]; exact hc)⟩
    · rw [hfold]
      exact ht1
    · have h1 : exactStart segs (segs.length - 1) ≤ exactStart segs k := by
        rw [← hk1, exactStart_succ hs]
        linarith [hn _ (List.getElem_mem hk')]
      have h2 := lower (exactStart_nonneg hn k) hc
      have h3 := hle (by omega)
      have h4 := exactStart_nonneg hn (segs.length - 1)
      rw [hk1]
      by_cases hg : (1 + u) ^ k - 1 ≤ 1
      · have : exactStart segs (segs.length - 1) * (1 - ((1 + u) ^ k - 1)) ≤ exactStart segs k * (1 - ((1 + u) ^ k - 1)) :=
          mul_le_mul_of_nonneg_right h1 (by linarith)
        linarith
      · have : exactStart segs (segs.length - 1) ≤ ((1 + u) ^ k - 1) * exactStart segs (segs.length - 1) :=
          le_mul_of_one_le_left h4 (by linarith)
        linarith
    · rw [hk1]
      refine ht1.trans (le_of_eq_of_le ?_ (upper (exactStart_nonneg hn k) hc))
      rw [hfold]

end Verif
