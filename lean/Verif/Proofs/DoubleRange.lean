import Verif.Model.DoubleRange
import Verif.Proofs.DoubleChecks
import Verif.Proofs.DoubleLookup

/-
Lemmas about sampling a range with `double`.
-/
namespace Verif

open Spec

theorem round64_le_double {x z : ℝ} (hz : IsDouble z) (h : x ≤ z) : round64 x ≤ z := by
  obtain ⟨m, e, hm, he, -, rfl⟩ := hz
  have h1 := round64_nearest x hm he
  rw [abs_of_nonneg (by linarith : 0 ≤ (m : ℝ) * (2 : ℝ) ^ e - x)] at h1
  linarith [(abs_le.mp h1).2]

theorem double_le_round64 {x z : ℝ} (hz : IsDouble z) (h : z ≤ x) : z ≤ round64 x := by
  obtain ⟨m, e, hm, he, -, rfl⟩ := hz
  have h1 := round64_nearest x hm he
  rw [abs_of_nonpos (by linarith : (m : ℝ) * (2 : ℝ) ^ e - x ≤ 0)] at h1
  linarith [(abs_le.mp h1).1]

theorem isDouble_zero : IsDouble 0 := ⟨0, 0, by decide, by norm_num, by norm_num, by norm_num⟩

theorem isDouble_nat {n : ℕ} (h : n < 2 ^ 53) : IsDouble n :=
  ⟨n, 0, by rw [abs_of_nonneg (by omega)]; exact_mod_cast h, by norm_num, by norm_num, by simp⟩

/-- The difference of a `double` and a number between zero and it. -/
theorem fin_sub_between {x y : ℝ} (hx : IsDouble x) (hy0 : 0 ≤ y) (hyx : y ≤ x) :
    ∃ z, Dbl.fin x - .fin y = .fin z ∧ IsDouble z ∧ 0 ≤ z ∧ z ≤ x := by
  have h1 : round64 (x - y) ≤ x := round64_le_double hx (by linarith)
  have h0 : 0 ≤ round64 (x - y) := round64_nonneg (by linarith)
  have h2 : Dbl.fin x - .fin y = .fin (round64 (x - y)) := by
    rw [fin_sub]
    unfold Dbl.ofReal
    rw [if_pos]
    rw [abs_of_nonneg h0]
    exact h1.trans_lt ((le_abs_self x).trans_lt hx.lt)
  exact ⟨_, h2, (ofReal_nearest (by rwa [fin_sub] at h2)).1, h0, h1⟩

theorem small_lt {x : ℝ} (h : |x| ≤ 2 ^ 64) : |x| ≤ (2 : ℝ) ^ (1023 : ℤ) :=
  h.trans (by
    rw [← zpow_natCast (2 : ℝ) 64]
    exact zpow_le_zpow_right₀ (by norm_num) (by norm_num))

/-- The expected number of samples of an ordinary call. -/
theorem count_ok {x y dt : ℝ} (hx : IsDouble x) (hy0 : 0 ≤ y) (hyx : y ≤ x) (hdt : 0 < dt) {n : ℕ} (hn : n ≤ 2 ^ 51)
    (hb : x ≤ n * dt) : ∃ m, ((Dbl.fin x - .fin y) / .fin dt + 1).toSize = .ok m ∧ m ≤ n + 1 := by
  obtain ⟨z, h1, -, h2, h3⟩ := fin_sub_between hx hy0 hyx
  have hnr : (n : ℝ) ≤ 2 ^ 51 := by exact_mod_cast hn
  have q0 : 0 ≤ z / dt := by positivity
  have q1 : z / dt ≤ n := by rw [div_le_iff₀ hdt]; linarith
  have hq : Dbl.fin z / .fin dt = .fin (round64 (z / dt)) := by
    change (if dt = 0 then _ else Dbl.ofReal (z / dt)) = _
    rw [if_neg hdt.ne']
    exact ofReal_half (small_lt (by rw [abs_of_nonneg q0]; linarith))
  have r0 := round64_nonneg q0
  have r1 : round64 (z / dt) ≤ n := round64_le_double (isDouble_nat (by omega)) q1
  have s0 : 0 ≤ round64 (round64 (z / dt) + 1) := round64_nonneg (by linarith)
  have s1 : round64 (round64 (z / dt) + 1) ≤ ((n + 1 : ℕ) : ℝ) :=
    round64_le_double (isDouble_nat (by omega)) (by push_cast; linarith)
  have hs : Dbl.fin (round64 (z / dt)) + 1 = .fin (round64 (round64 (z / dt) + 1)) := by
    change Dbl.ofReal (round64 (z / dt) + 1) = _
    exact ofReal_half (small_lt (by rw [abs_of_nonneg (by linarith)]; linarith))
  refine ⟨⌊round64 (round64 (z / dt) + 1)⌋.toNat, ?_, ?_⟩
  · rw [h1, hq, hs]
    unfold Dbl.toSize
    push_cast at s1
    exact if_pos ⟨by linarith, by linarith⟩
  · have : ⌊round64 (round64 (z / dt) + 1)⌋ ≤ ((n + 1 : ℕ) : ℤ) := by
      rw [Int.floor_le_iff]
      push_cast at s1 ⊢
      linarith
    omega

/-- Either the search runs to the end or it stops before. -/
theorem findSegment_stop (t : Dbl) : ∀ (segs : List (Segment Dbl)) (acc : Dbl) (i : ℕ),
    (findSegment t segs acc i = (i + segs.length, (segs.map (·.time)).foldl (· + ·) acc) ∧
      (segs = [] ∨ ¬ (segs.map (·.time)).foldl (· + ·) acc > t)) ∨
    ((findSegment t segs acc i).1 < i + segs.length ∧ (findSegment t segs acc i).2 > t) := by
  intro segs
  induction segs with
  | nil => exact fun acc i => Or.inl ⟨rfl, Or.inl rfl⟩
  | cons s ss ih =>
    intro acc i
    rw [findSegment]
    split_ifs with h
    · exact Or.inr ⟨by simp, h⟩
    · rcases ih (acc + s.time) (i + 1) with ⟨h1, h2⟩ | ⟨h1, h2⟩
      · left
        rw [h1, List.length_cons, List.map_cons, List.foldl_cons]
        refine ⟨by congr 1; omega, Or.inr ?_⟩
        rcases h2 with rfl | h2
        · exact h
        · exact h2
      · exact Or.inr ⟨by rw [List.length_cons]; omega, h2⟩

theorem segment_evaluates {K : Type} [Zero K] [One K] [Add K] [Sub K] [Mul K] [NatCast K] {s : Segment K}
    (hN : ∀ p ∈ s.polys, p.N ≤ 22) (t : K) (d : ℕ) : ∃ v, s.evaluate t d = .ok v := by
  unfold Segment.evaluate
  generalize s.polys = ps at hN
  induction ps with
  | nil => exact ⟨[], rfl⟩
  | cons p ps ih =>
    obtain ⟨l, hl⟩ := ih fun q hq => hN q (by simp [hq])
    obtain ⟨v, hv⟩ : ∃ v, p.evaluate t d = .ok v := by
      unfold Poly.evaluate
      by_cases hd : (d : ℤ) ≥ p.N
      · exact ⟨0, by rw [if_pos hd]⟩
      · have := hN p (by simp)
        exact ⟨_, by rw [if_neg hd, if_neg (by unfold kMaxConvolutionSize; omega)]⟩
    exact ⟨v :: l, by rw [List.mapM_cons, hv, Res.ok_bind, hl]; rfl⟩

section Loop
variable {segs : List (Segment Dbl)} {d : ℕ}

theorem loop_sample {s : Segment Dbl} {i : ℕ} (hs : segs[i]? = some s) {tEnd dt acc tis : Dbl} (h1 : acc < tEnd)
    (h2 : ¬ tis > s.time) {v : List Dbl} (hv : s.evaluate tis d = .ok v) (fuel : ℕ) :
    evaluateRangeLoop segs tEnd dt d (fuel + 1) i acc tis =
      (evaluateRangeLoop segs tEnd dt d fuel i (acc + dt) (tis + dt) >>= fun rest => pure ((acc, v) :: rest)) := by
  obtain ⟨hi, hsi⟩ := List.getElem?_eq_some_iff.mp hs
  rw [evaluateRangeLoop, if_pos h1, Res.at'_of_lt hi, Res.ok_bind, hsi, if_neg h2, hv, Res.ok_bind]

theorem loop_done {tEnd dt acc tis : Dbl} (h : ¬ acc < tEnd) (i fuel : ℕ) :
    evaluateRangeLoop segs tEnd dt d (fuel + 1) i acc tis = .ok [] := by
  rw [evaluateRangeLoop, if_neg h]

/-- The value of a sample. -/
def SampleOf (segs : List (Segment Dbl)) (d : ℤ) (v : List Dbl) : Prop :=
  ∃ (k : ℕ) (s : Segment Dbl) (τ : Dbl), segs[k]? = some s ∧ ¬ τ > s.time ∧ s.evaluate τ d = .ok v

/-- The loop ends when the interval is not lost in the sum. -/
theorem loop_returns (hN : ∀ s ∈ segs, ∀ p ∈ s.polys, p.N ≤ 22) {tEnd dt : ℝ} (hd : IsDouble dt) (hdt : 0 < dt)
    (hb : tEnd ≤ 2 ^ 51 * dt) : ∀ (fuel m i : ℕ) (a : ℝ) (tis : Dbl), IsDouble a → 0 ≤ a → i < segs.length →
    tEnd - a ≤ m * (dt / 2) → m + (segs.length - i) < fuel →
    ∃ l, evaluateRangeLoop segs (.fin tEnd) (.fin dt) d fuel i (.fin a) tis = .ok l ∧ l.length ≤ m ∧
      (∀ e ∈ l, ∃ x, e.1 = .fin x ∧ a ≤ x ∧ x < tEnd ∧ SampleOf segs d e.2) ∧ (l.map (·.1)).Pairwise (· < ·) := by
  intro fuel
  induction fuel with
  | zero => intro m i a tis _ _ _ _ h; omega
  | succ fuel ih =>
    intro m i a tis ha ha0 hi hm hf
    by_cases h1 : a < tEnd
    · have hm1 : 1 ≤ m := by
        by_contra hc
        have : m = 0 := by omega
        rw [this] at hm
        norm_num at hm
        linarith
      have h1' : Dbl.fin a < .fin tEnd := h1
      by_cases h2 : tis > segs[i].time
      · by_cases h3 : i + 1 ≥ segs.length
        · refine ⟨[], ?_, by simp, by simp, by simp⟩
          rw [evaluateRangeLoop, if_pos h1', Res.at'_of_lt hi, Res.ok_bind, if_pos h2, if_pos h3]
          rfl
        · obtain ⟨l, h4, h5⟩ := ih m (i + 1) a (tis - segs[i].time) ha ha0 (by omega) hm (by omega)
          refine ⟨l, ?_, h5⟩
          rw [evaluateRangeLoop, if_pos h1', Res.at'_of_lt hi, Res.ok_bind, if_pos h2, if_neg h3, h4]
      · obtain ⟨v, hv⟩ := segment_evaluates (hN _ (List.getElem_mem hi)) tis d
        have hs : SampleOf segs d v := ⟨i, segs[i], tis, List.getElem?_eq_getElem hi, h2, hv⟩
        have hstep := loop_sample (List.getElem?_eq_getElem hi) (dt := .fin dt) h1' h2 hv fuel
        rw [fin_add] at hstep
        cases hsum : Dbl.ofReal (a + dt) with
        | nan => exact absurd hsum (ofReal_ne_nan _)
        | inf s =>
          have hs' : s = false := by
            have := ofReal_eq_inf hsum
            cases s with
            | false => rfl
            | true => exact absurd (this.mp rfl) (by linarith)
          obtain ⟨f, rfl⟩ : ∃ f, fuel = f + 1 := ⟨fuel - 1, by omega⟩
          refine ⟨[(.fin a, v)], ?_, by simpa using hm1, ?_, by simp⟩
          · rw [hstep, hsum, hs', loop_done (by intro h; exact absurd h (by change ¬ (false = true); simp)), Res.ok_bind]
            rfl
          · intro e he
            rw [List.mem_singleton] at he
            subst he
            exact ⟨a, rfl, le_rfl, h1, hs⟩
        | fin b =>
          obtain ⟨hbv, -⟩ := ofReal_eq_fin hsum
          have hbd := (ofReal_nearest hsum).1
          rw [round64_add ha hd] at hbv
          have herr := round53_rounding.rel (a + dt)
          rw [← hbv, abs_of_nonneg (by linarith : 0 ≤ a + dt)] at herr
          have hge : a + dt / 2 ≤ b := by
            have h3 := (abs_le.mp herr).1
            have h4 : a + dt ≤ (2 ^ 51 + 1) * dt := by nlinarith
            have h5 : (1 / 2 ^ 53 : ℝ) * (a + dt) ≤ 1 / 2 ^ 53 * ((2 ^ 51 + 1) * dt) :=
              mul_le_mul_of_nonneg_left h4 (by positivity)
            have h6 : (1 / 2 ^ 53 : ℝ) * ((2 ^ 51 + 1) * dt) ≤ dt / 2 := by
              have : (1 / 2 ^ 53 : ℝ) * (2 ^ 51 + 1) ≤ 1 / 2 := by norm_num
              nlinarith
            linarith
          obtain ⟨l, h3, h4, h5, h6⟩ := ih (m - 1) i b (tis + .fin dt) hbd (by linarith) hi (by
            have : ((m - 1 : ℕ) : ℝ) = m - 1 := by rw [Nat.cast_sub hm1, Nat.cast_one]
            rw [this]
            linarith) (by omega)
          refine ⟨(.fin a, v) :: l, ?_, by rw [List.length_cons]; omega, ?_, ?_⟩
          · rw [hstep, hsum, h3, Res.ok_bind]
            rfl
          · intro e he
            rcases List.mem_cons.mp he with rfl | he
            · exact ⟨a, rfl, le_rfl, h1, hs⟩
            · obtain ⟨x, q1, q2, q3, q4⟩ := h5 e he
              exact ⟨x, q1, by linarith, q3, q4⟩
          · rw [List.map_cons, List.pairwise_cons]
            refine ⟨?_, h6⟩
            intro e he
            obtain ⟨w, hw, rfl⟩ := List.mem_map.mp he
            obtain ⟨x, q1, q2, -⟩ := h5 w hw
            rw [q1]
            change a < x
            linarith
    · refine ⟨[], ?_, by simp, by simp, by simp⟩
      exact loop_done h1 i fuel

/-- Zero, a negative number or minus infinity. -/
def NP (a : Dbl) : Prop := (∃ x, x ≤ 0 ∧ a = .fin x) ∨ a = .inf true

theorem np_add {a b : Dbl} (ha : NP a) (hb : NP b) : NP (a + b) := by
  have key : ∀ x : ℝ, x ≤ 0 → NP (.ofReal x) := by
    intro x hx
    unfold Dbl.ofReal
    split_ifs with h1
    · exact Or.inl ⟨_, round64_le_double isDouble_zero hx, rfl⟩
    · right
      have : x < 0 := by
        refine lt_of_le_of_ne hx ?_
        rintro rfl
        rw [round64_zero, abs_zero] at h1
        exact h1 (zpow2_pos _)
      rw [decide_eq_true this]
  rcases ha with ⟨x, hx, rfl⟩ | rfl <;> rcases hb with ⟨y, hy, rfl⟩ | rfl
  · exact key _ (by linarith)
  · exact Or.inr rfl
  · exact Or.inr rfl
  · exact Or.inr rfl

theorem NP.lt {a : Dbl} (ha : NP a) {e : ℝ} (he : 0 < e) : a < .fin e := by
  rcases ha with ⟨x, hx, rfl⟩ | rfl
  · exact lt_of_le_of_lt hx he
  · exact rfl

/-- With an interval that is not positive the loop does not come to an end. -/
theorem loop_negative {s : Segment Dbl} {i : ℕ} (hs : segs[i]? = some s) (hN : ∀ p ∈ s.polys, p.N ≤ 22) {e τ : ℝ}
    (he : 0 < e) (hτ : 0 < τ) (ht : s.time = .fin τ) {dt : Dbl} (hdt : NP dt) : ∀ (fuel : ℕ) (acc tis : Dbl), NP acc → NP tis →
    evaluateRangeLoop segs (.fin e) dt d fuel i acc tis = .hang := by
  intro fuel
  induction fuel with
  | zero => intros; rfl
  | succ fuel ih =>
    intro acc tis ha hb
    obtain ⟨v, hv⟩ := segment_evaluates hN tis d
    have h2 : ¬ tis > s.time := by
      rw [ht]
      rcases hb with ⟨x, hx, rfl⟩ | rfl
      · exact not_lt.mpr (hx.trans hτ.le)
      · intro h
        exact absurd h (by change ¬ (true = false); simp)
    rw [loop_sample hs (ha.lt he) h2 hv, ih _ _ (np_add ha hdt) (np_add hb hdt)]
    rfl

/-- An interval that is lost in the sum. -/
theorem round64_lost : round64 (1 + (2 : ℝ) ^ (-54 : ℤ)) = 1 := by
  have hp := zpow2_pos (-54)
  have h54 : (2 : ℝ) ^ (-54 : ℤ) = 1 / 2 ^ 54 := by rw [zpow_neg]; norm_num
  rw [round64_one_le (by rw [abs_of_nonneg (by linarith)]; linarith), round53_of_pos (by linarith),
    roundPos_eq (e := 0) (by rw [zpow_zero]; linarith) (by rw [h54]; norm_num)]
  have h52 : (2 : ℝ) ^ ((0 : ℤ) - 52) = 1 / 2 ^ 52 := by rw [zero_sub, zpow_neg]; norm_num
  rw [h52]
  have key : roundEven ((1 + (2 : ℝ) ^ (-54 : ℤ)) / (1 / 2 ^ 52)) = 2 ^ 52 := by
    have h1 := roundEven_nearest ((1 + (2 : ℝ) ^ (-54 : ℤ)) / (1 / 2 ^ 52)) (2 ^ 52)
    generalize roundEven ((1 + (2 : ℝ) ^ (-54 : ℤ)) / (1 / 2 ^ 52)) = r at *
    have e1 : (1 + (2 : ℝ) ^ (-54 : ℤ)) / (1 / 2 ^ 52) = 2 ^ 52 + 1 / 4 := by rw [h54]; norm_num
    rw [e1] at h1
    have e2 : |((2 ^ 52 : ℤ) : ℝ) - (2 ^ 52 + 1 / 4)| = 1 / 4 := by
      rw [show ((2 ^ 52 : ℤ) : ℝ) - (2 ^ 52 + 1 / 4) = -(1 / 4) by push_cast; ring, abs_neg]
      norm_num
    rw [e2] at h1
    obtain ⟨h2, h3⟩ := abs_le.mp h1
    have h4 : ((2 ^ 52 - 1 : ℤ) : ℝ) < r := by push_cast; linarith
    have h5 : (r : ℝ) < ((2 ^ 52 + 1 : ℤ) : ℝ) := by push_cast; linarith
    have h6 : (2 ^ 52 - 1 : ℤ) < r := by exact_mod_cast h4
    have h7 : r < (2 ^ 52 + 1 : ℤ) := by exact_mod_cast h5
    omega
  rw [key]
  norm_num

theorem loop_stall {s : Segment Dbl} {i : ℕ} (hs : segs[i]? = some s) (hN : ∀ p ∈ s.polys, p.N ≤ 22) (ht : s.time = .fin 1)
    {e : ℝ} (he : 1 < e) : ∀ (fuel : ℕ) (x : ℝ), 0 ≤ x → x ≤ 1 →
    evaluateRangeLoop segs (.fin e) (.fin ((2 : ℝ) ^ (-54 : ℤ))) d fuel i (.fin 1) (.fin x) = .hang := by
  have hp := zpow2_pos (-54)
  have hp1 : (2 : ℝ) ^ (-54 : ℤ) ≤ 1 := zpow_le_one_of_neg (by norm_num)
  intro fuel
  induction fuel with
  | zero => intros; rfl
  | succ fuel ih =>
    intro x hx0 hx1
    obtain ⟨v, hv⟩ := segment_evaluates hN (.fin x) d
    have h2 : ¬ Dbl.fin x > s.time := by rw [ht]; exact not_lt.mpr hx1
    have e1 : Dbl.fin 1 + .fin ((2 : ℝ) ^ (-54 : ℤ)) = .fin 1 := by
      rw [fin_add, ofReal_half (small_lt (by rw [abs_of_nonneg (by linarith)]; linarith)), round64_lost]
    have e2 : Dbl.fin x + .fin ((2 : ℝ) ^ (-54 : ℤ)) = .fin (round64 (x + (2 : ℝ) ^ (-54 : ℤ))) := by
      rw [fin_add, ofReal_half (small_lt (by rw [abs_of_nonneg (by linarith)]; linarith))]
    have e3 : round64 (x + (2 : ℝ) ^ (-54 : ℤ)) ≤ 1 := by
      by_cases hx : x + (2 : ℝ) ^ (-54 : ℤ) ≤ 1
      · exact round64_le_double (isDouble_nat (n := 1) (by norm_num)) (by simpa using hx) |>.trans (by simp)
      · push Not at hx
        have a1 := round53_rounding.mono (by linarith : x + (2 : ℝ) ^ (-54 : ℤ) ≤ 1 + (2 : ℝ) ^ (-54 : ℤ))
        have a2 := round64_lost
        rw [round64_one_le (by rw [abs_of_nonneg (by linarith)]; linarith)] at a2 ⊢
        rwa [a2] at a1
    rw [loop_sample hs he h2 hv, e1, e2, ih _ (round64_nonneg (by linarith)) e3]
    rfl

/-- More iterations do not change a result. -/
theorem loop_unique {tEnd dt : Dbl} : ∀ {f g i : ℕ} {acc tis : Dbl} {l l' : List (Dbl × List Dbl)},
    evaluateRangeLoop segs tEnd dt d f i acc tis = .ok l → evaluateRangeLoop segs tEnd dt d g i acc tis = .ok l' → l = l' := by
  intro f
  induction f with
  | zero => intro g i acc tis l l' h; simp [evaluateRangeLoop] at h
  | succ f ih =>
    intro g i acc tis l l' h h'
    cases g with
    | zero => simp [evaluateRangeLoop] at h'
    | succ g =>
      rw [evaluateRangeLoop] at h h'
      by_cases h1 : acc < tEnd
      · rw [if_pos h1, Res.bind_eq_ok] at h h'
        obtain ⟨s, hs, h⟩ := h
        obtain ⟨s', hs', h'⟩ := h'
        have e1 := Res.ok.inj (hs.symm.trans hs')
        subst e1
        by_cases h2 : tis > s.time
        · rw [if_pos h2] at h h'
          by_cases h3 : i + 1 ≥ segs.length
          · rw [if_pos h3] at h h'
            exact Res.ok.inj (h.symm.trans h')
          · rw [if_neg h3] at h h'
            exact ih h h'
        · rw [if_neg h2, Res.bind_eq_ok] at h h'
          obtain ⟨v, hv, h⟩ := h
          obtain ⟨v', hv', h'⟩ := h'
          have e2 := Res.ok.inj (hv.symm.trans hv')
          subst e2
          rw [Res.bind_eq_ok] at h h'
          obtain ⟨r, hr, h⟩ := h
          obtain ⟨r', hr', h'⟩ := h'
          have e3 := ih hr hr'
          subst e3
          exact Res.ok.inj (h.symm.trans h')
      · rw [if_neg h1] at h h'
        exact Res.ok.inj (h.symm.trans h')

end Loop

/-! ### The expected number of samples -/

theorem toSize_not_finite {a : Dbl} (h : ¬ IsFinite a) : a.toSize = .ub := by
  cases a with
  | fin x => exact absurd ⟨x, rfl⟩ h
  | inf s => rfl
  | nan => rfl

theorem not_finite_add {a : Dbl} (b : Dbl) (h : ¬ IsFinite a) : ¬ IsFinite (a + b) := by
  rintro ⟨z, hz⟩
  obtain ⟨x, -, hx, -⟩ := add_eq_fin hz
  exact h ⟨x, hx⟩

theorem not_finite_add' (a : Dbl) {b : Dbl} (h : ¬ IsFinite b) : ¬ IsFinite (a + b) := by
  rintro ⟨z, hz⟩
  obtain ⟨-, y, -, hy, -⟩ := add_eq_fin hz
  exact h ⟨y, hy⟩

theorem not_finite_div {a : Dbl} (b : Dbl) (h : ¬ IsFinite a) : ¬ IsFinite (a / b) := by
  rintro ⟨z, hz⟩
  cases a with
  | fin x => exact h ⟨x, rfl⟩
  | nan => rw [nan_div] at hz; simp at hz
  | inf s =>
    cases b with
    | fin y => exact absurd hz (by change Dbl.inf _ ≠ _; simp)
    | inf r => exact absurd hz (by change Dbl.nan ≠ _; simp)
    | nan => exact absurd hz (by change Dbl.nan ≠ _; simp)

theorem count_undefined {tStart tEnd dt : Dbl} (h : ¬ IsFinite tStart ∨ ¬ IsFinite tEnd ∨ dt = .nan ∨ dt = 0) :
    ((tEnd - tStart) / dt + 1).toSize = .ub := by
  refine toSize_not_finite (not_finite_add _ ?_)
  rcases h with h | h | rfl | rfl
  · refine not_finite_div _ ?_
    change ¬ IsFinite (tEnd + -tStart)
    refine not_finite_add' _ ?_
    rintro ⟨z, hz⟩
    cases tStart with
    | fin x => exact h ⟨x, rfl⟩
    | inf s => exact absurd hz (by change Dbl.inf _ ≠ _; simp)
    | nan => exact absurd hz (by change Dbl.nan ≠ _; simp)
  · exact not_finite_div _ (not_finite_add _ h)
  · rintro ⟨z, hz⟩
    generalize tEnd - tStart = a at hz
    cases a <;> exact absurd hz (by change Dbl.nan ≠ _; simp)
  · rintro ⟨z, hz⟩
    generalize tEnd - tStart = a at hz
    cases a with
    | fin x =>
      change (if (0 : ℝ) = 0 then (if x = 0 then Dbl.nan else .inf (decide (x < 0))) else Dbl.ofReal (x / 0)) = _ at hz
      rw [if_pos rfl] at hz
      split_ifs at hz
    | inf s => exact absurd hz (by change Dbl.inf _ ≠ _; simp)
    | nan => exact absurd hz (by change Dbl.nan ≠ _; simp)

theorem fin_sub_zero {e : ℝ} (he : IsDouble e) : Dbl.fin e - 0 = .fin e := by
  change Dbl.fin e - .fin 0 = _
  rw [fin_sub, sub_zero]
  unfold Dbl.ofReal
  rw [he.round64, if_pos he.lt]

theorem count_many {e dt : ℝ} (he : IsDouble e) (hdt : 0 < dt) (h : 2 ^ 64 * dt ≤ e) :
    ((Dbl.fin e - 0) / .fin dt + 1).toSize = .ub := by
  rw [fin_sub_zero he]
  have hq : Dbl.fin e / .fin dt = .ofReal (e / dt) := by
    change (if dt = 0 then _ else Dbl.ofReal (e / dt)) = _
    rw [if_neg hdt.ne']
  have h1 : (2 : ℝ) ^ (64 : ℤ) ≤ e / dt := by
    rw [le_div_iff₀ hdt, zpow_ofNat]
    exact h
  rw [hq]
  by_cases hf : IsFinite (Dbl.ofReal (e / dt))
  · obtain ⟨q, hq⟩ := hf
    have h2 := round64_mono_pow (by norm_num) h1
    rw [← (ofReal_eq_fin hq).1] at h2
    rw [hq]
    change (Dbl.ofReal (q + 1)).toSize = _
    by_cases hf2 : IsFinite (Dbl.ofReal (q + 1))
    · obtain ⟨w, hw⟩ := hf2
      have h3 := round64_mono_pow (by norm_num) (show (2 : ℝ) ^ (64 : ℤ) ≤ q + 1 by linarith)
      rw [← (ofReal_eq_fin hw).1, zpow_ofNat] at h3
      rw [hw]
      unfold Dbl.toSize
      exact if_neg fun h => absurd h.2 (not_lt.mpr h3)
    · exact toSize_not_finite hf2
  · exact toSize_not_finite (not_finite_add _ hf)

theorem ofReal_nat {n : ℕ} (hn : n < 2 ^ 53) : Dbl.ofReal n = .fin n := by
  unfold Dbl.ofReal
  rw [(isDouble_nat hn).round64, if_pos (isDouble_nat hn).lt]

theorem count_infinite {e : ℝ} (he : IsDouble e) (s : Bool) : ((Dbl.fin e - 0) / .inf s + 1).toSize = .ok 1 := by
  rw [fin_sub_zero he]
  change (Dbl.ofReal (0 + 1)).toSize = _
  have := ofReal_nat (n := 1) (by norm_num)
  rw [Nat.cast_one] at this
  rw [zero_add, this]
  unfold Dbl.toSize
  dsimp only
  rw [if_pos (by norm_num), Int.floor_one]
  rfl

theorem count_negative {e dt : ℝ} (he : IsDouble e) (he0 : 0 < e) (h : e ≤ -dt) :
    ∃ m, ((Dbl.fin e - 0) / .fin dt + 1).toSize = .ok m ∧ m ≤ 1 := by
  rw [fin_sub_zero he]
  have hdt : dt < 0 := by linarith
  have d1 : IsDouble 1 := by simpa using isDouble_nat (n := 1) (by norm_num)
  have q0 : e / dt ≤ 0 := div_nonpos_of_nonneg_of_nonpos he0.le hdt.le
  have q1 : -1 ≤ e / dt := by
    rw [le_div_iff_of_neg hdt]
    linarith
  have r0 := round64_le_double isDouble_zero q0
  have r1 := double_le_round64 d1.neg q1
  have hq : Dbl.fin e / .fin dt = .fin (round64 (e / dt)) := by
    change (if dt = 0 then _ else Dbl.ofReal (e / dt)) = _
    rw [if_neg hdt.ne]
    exact ofReal_half (small_lt (by rw [abs_le]; constructor <;> linarith))
  have s0 : 0 ≤ round64 (round64 (e / dt) + 1) := round64_nonneg (by linarith)
  have s1 : round64 (round64 (e / dt) + 1) ≤ 1 := round64_le_double d1 (by linarith)
  have hs : Dbl.fin (round64 (e / dt)) + 1 = .fin (round64 (round64 (e / dt) + 1)) := by
    change Dbl.ofReal (round64 (e / dt) + 1) = _
    exact ofReal_half (small_lt (by rw [abs_le]; constructor <;> linarith))
  refine ⟨⌊round64 (round64 (e / dt) + 1)⌋.toNat, ?_, ?_⟩
  · rw [hq, hs]
    unfold Dbl.toSize
    exact if_pos ⟨by linarith, by linarith⟩
  · have : ⌊round64 (round64 (e / dt) + 1)⌋ ≤ (1 : ℤ) := by
      rw [Int.floor_le_iff]
      push_cast
      linarith
    omega

/-- A call from the start of the trajectory. -/
theorem call_at_zero {tr : Trajectory Dbl} {segs : List (Segment Dbl)} (htr : tr.segments = segs) {s : Segment Dbl}
    (hs : segs.head? = some s) {τ : ℝ} (hτ : s.time = .fin τ) (hτd : IsDouble τ) (hτ0 : 0 < τ) {e dt : Dbl} {m room : ℕ}
    (hm : ((e - 0) / dt + 1).toSize = .ok m) (hroom : m ≤ room) (fuel : ℕ) (d : ℤ) :
    tr.evaluateRangeDbl room fuel 0 e dt d = evaluateRangeLoop segs e dt d fuel 0 0 0 := by
  cases segs with
  | nil => simp at hs
  | cons s' ss =>
    rw [List.head?_cons, Option.some.injEq] at hs
    subst hs
    have hsum : (0 : Dbl) + s'.time = .fin τ := by
      rw [hτ]
      change Dbl.ofReal (0 + τ) = _
      unfold Dbl.ofReal
      rw [zero_add, hτd.round64, if_pos hτd.lt]
    have z : ∀ x : ℝ, Dbl.fin x - .fin x = 0 := by
      intro x
      rw [fin_sub, sub_self]
      have := ofReal_nat (n := 0) (by norm_num)
      rw [Nat.cast_zero] at this
      exact this
    unfold Trajectory.evaluateRangeDbl Trajectory.rangeFrom
    rw [hm, Res.ok_bind, if_neg (by omega), htr]
    dsimp only
    rw [findSegment, hsum, if_pos (show Dbl.fin τ > 0 from hτ0)]
    dsimp only
    rw [if_neg (show ¬ (0 : Dbl) > .fin τ from not_lt.mpr hτ0.le)]
    change evaluateRangeLoop (s' :: ss) e dt d fuel 0 (.fin τ - s'.time) (0 - (.fin τ - s'.time)) = _
    rw [hτ, z, show (0 : Dbl) - 0 = 0 from z 0]

theorem lost_end_double : IsDouble (1 + (2 : ℝ) ^ (-50 : ℤ)) := by
  refine ⟨2 ^ 50 + 1, -50, by norm_num, by norm_num, by norm_num, ?_⟩
  rw [zpow_neg]
  norm_num

theorem two_seconds : (0 : Dbl) + .fin 1 + .fin 1 = .fin 2 := by
  have h1 := ofReal_nat (n := 1) (by norm_num)
  have h2 := ofReal_nat (n := 2) (by norm_num)
  rw [Nat.cast_one] at h1
  have a1 : (0 : Dbl) + .fin 1 = .fin 1 := by
    change Dbl.ofReal (0 + 1) = _
    rwa [zero_add]
  rw [a1, fin_add, show (1 : ℝ) + 1 = ((2 : ℕ) : ℝ) by norm_num, h2]
  norm_num

theorem count_lost : ((Dbl.fin (1 + (2 : ℝ) ^ (-50 : ℤ)) - 1) / .fin ((2 : ℝ) ^ (-54 : ℤ)) + 1).toSize = .ok 17 := by
  have hp := zpow2_pos (-54)
  have d50 : IsDouble ((2 : ℝ) ^ (-50 : ℤ)) := ⟨1, -50, by decide, by norm_num, by norm_num, by norm_num⟩
  have a1 : Dbl.fin (1 + (2 : ℝ) ^ (-50 : ℤ)) - 1 = .fin ((2 : ℝ) ^ (-50 : ℤ)) := by
    change Dbl.fin _ - .fin 1 = _
    rw [fin_sub, add_sub_cancel_left]
    unfold Dbl.ofReal
    rw [d50.round64, if_pos d50.lt]
  have a2 : Dbl.fin ((2 : ℝ) ^ (-50 : ℤ)) / .fin ((2 : ℝ) ^ (-54 : ℤ)) = .fin 16 := by
    change (if (2 : ℝ) ^ (-54 : ℤ) = 0 then _ else Dbl.ofReal _) = _
    rw [if_neg hp.ne', ← zpow_sub₀ (by norm_num)]
    have := ofReal_nat (n := 16) (by norm_num)
    norm_num at this ⊢
    exact this
  rw [a1, a2]
  change (Dbl.ofReal (16 + 1)).toSize = _
  have := ofReal_nat (n := 17) (by norm_num)
  rw [show (16 : ℝ) + 1 = ((17 : ℕ) : ℝ) by norm_num, this]
  unfold Dbl.toSize
  dsimp only
  rw [if_pos (by norm_num), Int.floor_natCast]
  rfl

end Verif
