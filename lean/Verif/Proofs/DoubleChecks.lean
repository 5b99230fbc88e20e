import Verif.Spec.DoubleChecks
import Verif.Proofs.DoubleLookup
import Verif.Proofs.Io
import Verif.Proofs.LinOptResult
import Verif.Proofs.RpolyFound

/-
Lemmas about the feasibility checks with NaN.
-/
namespace Verif

open Spec

theorem add_nan (a : Dbl) : a + Dbl.nan = .nan := by cases a <;> rfl
theorem nan_div (a : Dbl) : Dbl.nan / a = .nan := by cases a <;> rfl
theorem not_nan_le (a : Dbl) : ¬ Dbl.nan ≤ a := by cases a <;> exact fun h => h
theorem not_le_nan (a : Dbl) : ¬ a ≤ Dbl.nan := by cases a <;> exact fun h => h

/-! ### Evaluation -/

theorem hornerDown_has_nan (f : ℕ → Dbl) (t : Dbl) (d n : ℕ) : ∀ acc : Dbl, (acc = .nan ∨ ∃ i < n, f (d + i) = .nan) →
    hornerDown f t d n acc = .nan := by
  induction n with
  | zero =>
    rintro acc (h | ⟨i, hi, -⟩)
    · exact h
    · exact absurd hi (Nat.not_lt_zero i)
  | succ n ih =>
    rintro acc h
    rw [hornerDown]
    refine ih _ ?_
    rcases h with h | ⟨i, hi, h⟩
    · left; rw [h, nan_mul, nan_add]
    · rcases Nat.lt_succ_iff_lt_or_eq.mp hi with hi | rfl
      · exact Or.inr ⟨i, hi, h⟩
      · left; rw [h, add_nan]

theorem evaluate_nan {p : Poly Dbl} {d : ℕ} (hp : HasNan p d) (hN : p.N ≤ 22) (t : Dbl) : p.evaluate t d = .ok .nan := by
  obtain ⟨j, hj, hx⟩ := hp
  have hjN : j < p.N := (List.getElem?_eq_some_iff.mp hx).1
  have key : (baseCoeff d j : Dbl) * p.coeffs.getD j 0 = .nan := by
    rw [List.getD_eq_getElem?_getD, hx, Option.getD_some, mul_nan]
  unfold Poly.evaluate
  rw [if_neg (by omega), if_neg (by unfold kMaxConvolutionSize; omega), Int.toNat_natCast, Poly.evalCore]
  dsimp only
  congr 1
  refine hornerDown_has_nan _ _ _ _ _ ?_
  by_cases hl : j = p.N - 1
  · left; rw [← hl]; exact key
  · right
    refine ⟨j - d, by omega, ?_⟩
    rw [show d + (j - d) = j by omega]
    exact key

theorem Spec.HasNan.nanValued {p : Poly Dbl} {d : ℕ} (hp : HasNan p d) (hN : p.N ≤ 22) : NanValued p d :=
  fun t _ => evaluate_nan hp hN t

theorem Spec.HasNan.mono {p : Poly Dbl} {d e : ℕ} (hp : HasNan p e) (h : d ≤ e) : HasNan p d := by
  obtain ⟨j, hj, hx⟩ := hp
  exact ⟨j, h.trans hj, hx⟩

/-- The value when the two highest coefficients of the derivative are opposite infinities. -/
theorem horner_opposite (f : ℕ → Dbl) (t : Dbl) (ht : ¬ t < 0) (d n : ℕ) (s : Bool) (h : f (d + n) = .inf (!s)) :
    hornerDown f t d (n + 1) (.inf s) = .nan := by
  rw [hornerDown, h]
  refine hornerDown_has_nan _ _ _ _ _ (Or.inl ?_)
  cases t with
  | fin x =>
    have hx : ¬ x < 0 := ht
    change Dbl.infMul s x + _ = _
    unfold Dbl.infMul
    split_ifs with h0
    · rfl
    · rw [decide_eq_false hx, Bool.xor_false]
      change (if s = !s then _ else _) = _
      rw [if_neg (by cases s <;> simp)]
  | inf r =>
    have hr : r = false := by cases r with
      | false => rfl
      | true => exact absurd rfl ht
    subst hr
    change (Dbl.inf (s ^^ false)) + _ = _
    rw [Bool.xor_false]
    change (if s = !s then _ else _) = _
    rw [if_neg (by cases s <;> simp)]
  | nan => rfl

theorem nanValued_of_opposite {p : Poly Dbl} {d : ℕ} (hd : d + 1 < p.N) (hN : p.N ≤ 22) {s : Bool} {a b : Dbl}
    (ha : p.coeffs[p.N - 1]? = some a) (hb : p.coeffs[p.N - 2]? = some b)
    (h1 : (baseCoeff d (p.N - 1) : Dbl) * a = .inf s) (h2 : (baseCoeff d (p.N - 2) : Dbl) * b = .inf (!s)) : NanValued p d := by
  intro t ht
  unfold Poly.evaluate
  rw [if_neg (by omega), if_neg (by unfold kMaxConvolutionSize; omega), Int.toNat_natCast, Poly.evalCore]
  dsimp only
  congr 1
  rw [List.getD_eq_getElem?_getD, ha, Option.getD_some, h1, show p.N - 1 - d = (p.N - 2 - d) + 1 by omega]
  refine horner_opposite _ t ht _ _ _ ?_
  rw [show d + (p.N - 2 - d) = p.N - 2 by omega, List.getD_eq_getElem?_getD, hb, Option.getD_some, h2]

theorem segment_evaluate_nan {s : Segment Dbl} {d : ℕ} {t : Dbl} {v : List Dbl} (h : s.evaluate t d = .ok v) {i : ℕ} {p : Poly Dbl}
    (hp : s.polys[i]? = some p) (hn : p.evaluate t d = .ok .nan) : v[i]? = some .nan := by
  unfold Segment.evaluate at h
  rw [Res.mapM_forall₂] at h
  have hi := (List.getElem?_eq_some_iff.mp hp).1
  have hl := h.length_eq
  have := h.get hi (by omega)
  rw [List.get_eq_getElem, List.get_eq_getElem, (List.getElem?_eq_some_iff.mp hp).2, hn, Res.ok.injEq] at this
  rw [List.getElem?_eq_getElem (by omega), this]

theorem vecHead3_nan {v : List Dbl} {a : Fin 3 → Dbl} (h : vecHead3 v = .ok a) (i : Fin 3) (hi : v[(i : ℕ)]? = some .nan) :
    a i = .nan := by
  rcases v with _ | ⟨x, _ | ⟨y, _ | ⟨z, l⟩⟩⟩
  · exact absurd h (by simp [vecHead3])
  · exact absurd h (by simp [vecHead3])
  · exact absurd h (by simp [vecHead3])
  · rw [vecHead3, Res.ok.injEq] at h
    subst h
    fin_cases i <;> simpa using hi

/-! ### Numbers not below zero -/

/-- A number from zero to infinity. -/
def NN (a : Dbl) : Prop := (∃ x, 0 ≤ x ∧ a = .fin x) ∨ a = .inf false

theorem NN.not_neg {a : Dbl} (h : NN a) : ¬ a < 0 := by
  rcases h with ⟨x, hx, rfl⟩ | rfl
  · exact not_lt.mpr hx
  · exact fun h => absurd h (by change ¬ (false = true); simp)

theorem NN.ne_nan {a : Dbl} (h : NN a) : a ≠ .nan := by
  rcases h with ⟨x, hx, rfl⟩ | rfl <;> simp

theorem nn_of_le {a : Dbl} (h : 0 ≤ a) : NN a := by
  cases a with
  | fin x => exact Or.inl ⟨x, h, rfl⟩
  | inf s =>
    have : s = false := h
    subst this
    exact Or.inr rfl
  | nan => exact absurd h (not_le_nan _)

theorem nn_zero : NN 0 := Or.inl ⟨0, le_rfl, rfl⟩

theorem round64_nonneg {x : ℝ} (h : 0 ≤ x) : 0 ≤ round64 x := by
  unfold round64
  split_ifs with h1
  · refine mul_nonneg ?_ (zpow2_pos _).le
    have := roundEven_mono (x := 0) (y := x / (2 : ℝ) ^ (-1074 : ℤ)) (div_nonneg h (zpow2_pos _).le)
    have h0 : roundEven 0 = 0 := by
      have := roundEven_intCast 0
      simpa using this
    rw [h0] at this
    exact_mod_cast this
  · have := round53_rounding.mono h
    rwa [rnd_zero round53_rounding] at this

theorem nn_ofReal {x : ℝ} (h : 0 ≤ x) : NN (.ofReal x) := by
  unfold Dbl.ofReal
  split_ifs with h1
  · exact Or.inl ⟨_, round64_nonneg h, rfl⟩
  · rw [decide_eq_false (not_lt.mpr h)]
    exact Or.inr rfl

theorem NN.add {a b : Dbl} (ha : NN a) (hb : NN b) : NN (a + b) := by
  rcases ha with ⟨x, hx, rfl⟩ | rfl <;> rcases hb with ⟨y, hy, rfl⟩ | rfl
  · exact nn_ofReal (add_nonneg hx hy)
  · exact Or.inr rfl
  · exact Or.inr rfl
  · exact Or.inr rfl

theorem NN.add_inf {a : Dbl} (ha : NN a) : a + .inf false = .inf false := by
  rcases ha with ⟨x, hx, rfl⟩ | rfl <;> rfl

theorem NN.inf_add {a : Dbl} (ha : NN a) : .inf false + a = .inf false := by
  rcases ha with ⟨x, hx, rfl⟩ | rfl <;> rfl

theorem nn_sq {a : Dbl} (ha : a ≠ .nan) : NN (a * a) := by
  cases a with
  | fin x => exact nn_ofReal (mul_self_nonneg x)
  | inf s => right; change Dbl.inf (s ^^ s) = _; rw [Bool.xor_self]
  | nan => exact absurd rfl ha

theorem nn_abs {a : Dbl} (ha : a ≠ .nan) : NN a.abs := by
  cases a with
  | fin x => exact Or.inl ⟨_, abs_nonneg x, rfl⟩
  | inf s => exact Or.inr rfl
  | nan => exact absurd rfl ha

theorem NN.max {a b : Dbl} (ha : NN a) (hb : NN b) : NN (stdMaxVal a b) := by
  unfold stdMaxVal; split_ifs <;> assumption

theorem NN.half {a b : Dbl} (ha : NN a) (hb : NN b) : NN ((a + b) / .fin 2) := by
  rcases ha.add hb with ⟨x, hx, h⟩ | h
  · rw [h]
    change NN (if (2 : ℝ) = 0 then _ else Dbl.ofReal (x / 2))
    rw [if_neg (by norm_num)]
    exact nn_ofReal (by linarith)
  · rw [h]
    change NN (Dbl.inf (false ^^ decide ((2 : ℝ) < 0)))
    rw [decide_eq_false (by norm_num)]
    exact Or.inr rfl

/-! ### Overflow -/

theorem round64_mono_pow {x : ℝ} {e : ℤ} (he : 0 ≤ e) (h : (2 : ℝ) ^ e ≤ x) : (2 : ℝ) ^ e ≤ round64 x := by
  have h1 : (1 : ℝ) ≤ (2 : ℝ) ^ e := one_le_zpow₀ (by norm_num) he
  rw [round64_one_le (by rw [abs_of_nonneg (by linarith)]; linarith)]
  have h2 := round53_rounding.mono h
  have h3 := round53_fix (m := 1) (e := e) (by decide)
  rw [Int.cast_one, one_mul] at h3
  rwa [h3] at h2

theorem ofReal_overflow {x : ℝ} (h : (2 : ℝ) ^ (1024 : ℤ) ≤ x) : Dbl.ofReal x = .inf false := by
  have h1 := round64_mono_pow (by norm_num) h
  have h0 := zpow2_pos 1024
  unfold Dbl.ofReal
  rw [if_neg, decide_eq_false]
  · exact not_lt.mpr (h0.le.trans h)
  · rw [abs_of_nonneg (h0.le.trans h1)]
    exact not_lt.mpr h1

/-- So large that the square overflows. -/
def Big (a : Dbl) : Prop := (∃ x, (2 : ℝ) ^ (600 : ℤ) ≤ x ∧ a = .fin x) ∨ a = .inf false

theorem Big.sq {a : Dbl} (h : Big a) : a * a = .inf false := by
  rcases h with ⟨x, hx, rfl⟩ | rfl
  · refine ofReal_overflow ?_
    have h0 := zpow2_pos 600
    calc (2 : ℝ) ^ (1024 : ℤ) ≤ (2 : ℝ) ^ (600 + 600 : ℤ) := zpow_le_zpow_right₀ (by norm_num) (by norm_num)
      _ = (2 : ℝ) ^ (600 : ℤ) * (2 : ℝ) ^ (600 : ℤ) := zpow_add₀ (by norm_num) _ _
      _ ≤ x * x := mul_le_mul hx hx h0.le (h0.le.trans hx)
  · rfl

theorem Big.max {a b : Dbl} (ha : Big a) (hb : Big b) : Big (stdMaxVal a b) := by
  unfold stdMaxVal; split_ifs <;> assumption

theorem big_abs_ofReal {x : ℝ} (h : (2 : ℝ) ^ (600 : ℤ) ≤ |x|) : Big (Dbl.ofReal x).abs := by
  have key : ∀ y : ℝ, (2 : ℝ) ^ (600 : ℤ) ≤ y → (2 : ℝ) ^ (600 : ℤ) ≤ round64 y := fun y => round64_mono_pow (by norm_num)
  have hneg : round64 (-x) = -round64 x := by
    have h1 : (1 : ℝ) ≤ |x| := (one_le_zpow₀ (by norm_num) (by norm_num)).trans h
    rw [round64_one_le h1, round64_one_le (by rwa [abs_neg]), round53_neg]
  unfold Dbl.ofReal
  split_ifs with h1
  · refine Or.inl ⟨_, ?_, rfl⟩
    rcases le_abs.mp h with h2 | h2
    · exact (key _ h2).trans (le_abs_self _)
    · have := key _ h2
      rw [hneg] at this
      exact this.trans (neg_le_abs _)
  · exact Or.inr rfl

theorem dblMax_big : (2 : ℝ) ^ (1000 : ℤ) + 1 ≤ dblMax := by
  have h1 : (1 : ℝ) ≤ (2 : ℝ) ^ (971 : ℤ) := one_le_zpow₀ (by norm_num) (by norm_num)
  unfold dblMax
  rw [show (1000 : ℤ) = 29 + 971 by norm_num, zpow_add₀ (by norm_num), ← zpow_natCast (2 : ℝ) 971]
  push_cast
  generalize (2 : ℝ) ^ (971 : ℤ) = A at *
  norm_num
  linarith

/-! ### Extrema of one polynomial -/

theorem lt_ne_nan {a b : Dbl} (h : a < b) : a ≠ .nan ∧ b ≠ .nan :=
  ⟨fun e => not_nan_lt b (e ▸ h), fun e => not_lt_nan a (e ▸ h)⟩

theorem minMaxFold_ne_nan (tvs : List (Dbl × Dbl)) : ∀ st : (Dbl × Dbl) × (Dbl × Dbl), st.1.2 ≠ .nan → st.2.2 ≠ .nan →
    (tvs.foldl minMaxStepG st).1.2 ≠ .nan ∧ (tvs.foldl minMaxStepG st).2.2 ≠ .nan := by
  induction tvs with
  | nil => exact fun st h1 h2 => ⟨h1, h2⟩
  | cons tv tvs ih =>
    intro st h1 h2
    rw [List.foldl_cons]
    refine ih _ ?_ ?_
    · unfold minMaxStepG
      dsimp only
      split_ifs with h
      · exact (lt_ne_nan h).1
      · exact h1
    · unfold minMaxStepG
      dsimp only
      split_ifs with h
      · exact (lt_ne_nan h).2
      · exact h2

theorem minMaxFold_nan (tvs : List (Dbl × Dbl)) (h : ∀ tv ∈ tvs, tv.2 = .nan) (st : (Dbl × Dbl) × (Dbl × Dbl)) :
    tvs.foldl minMaxStepG st = st := by
  induction tvs with
  | nil => rfl
  | cons tv tvs ih =>
    rw [List.foldl_cons]
    have h1 := h tv (List.mem_cons_self ..)
    have : minMaxStepG st tv = st := by
      unfold minMaxStepG
      rw [h1, if_neg (not_nan_lt _), if_neg (not_lt_nan _)]
    rw [this]
    exact ih fun x hx => h x (List.mem_cons_of_mem _ hx)

theorem select_ne_nan {p : Poly Dbl} {cand : List Dbl} {d : ℤ} {m : (Dbl × Dbl) × (Dbl × Dbl)}
    (h : p.selectMinMaxFromCandidatesG (.fin dblMax) cand d = .ok (some m)) : m.1.2 ≠ .nan ∧ m.2.2 ≠ .nan := by
  unfold Poly.selectMinMaxFromCandidatesG at h
  cases cand with
  | nil => simp at h
  | cons c l =>
    dsimp only at h
    rw [Res.bind_eq_ok] at h
    obtain ⟨tvs, -, h⟩ := h
    rw [Res.pure_eq, Res.ok.injEq, Option.some.injEq] at h
    rw [← h]
    exact minMaxFold_ne_nan _ _ (by simp) (by change Dbl.fin _ ≠ _; simp)

theorem select_nan {p : Poly Dbl} {cand : List Dbl} {d : ℤ} {o : Option ((Dbl × Dbl) × (Dbl × Dbl))}
    (h : p.selectMinMaxFromCandidatesG (.fin dblMax) cand d = .ok o) (hc : cand ≠ [])
    (hn : ∀ t ∈ cand, p.evaluate t d = .ok .nan) : ∃ m, o = some m ∧ m.1.2 = .fin dblMax ∧ m.2.2 = .fin (-dblMax) := by
  unfold Poly.selectMinMaxFromCandidatesG at h
  cases cand with
  | nil => exact absurd rfl hc
  | cons c l =>
    dsimp only at h
    rw [Res.bind_eq_ok] at h
    obtain ⟨tvs, h1, h⟩ := h
    rw [Res.pure_eq, Res.ok.injEq] at h
    have : ∀ tv ∈ tvs, tv.2 = .nan := by
      intro tv htv
      obtain ⟨t, ht, h2⟩ := Res.mapM_eq_ok h1 tv htv
      rw [hn t ht, Res.ok_bind, Res.pure_eq, Res.ok.injEq] at h2
      rw [← h2]
    rw [minMaxFold_nan _ this] at h
    exact ⟨_, h.symm, rfl, rfl⟩

theorem candidatesG_mem {t1 t2 : Dbl} (h1 : NN t1) (h2 : NN t2) {roots : List (Dbl × Dbl)} {c : List Dbl}
    (h : candidatesG Dbl.abs (.fin dblEpsilon) t1 t2 roots = some c) : c ≠ [] ∧ ∀ t ∈ c, ¬ t < 0 := by
  unfold candidatesG at h
  split_ifs at h with h0
  rw [Option.some.injEq] at h
  subst h
  refine ⟨by simp, fun t ht => ?_⟩
  rcases List.mem_cons.mp ht with rfl | ht
  · exact h1.not_neg
  rcases List.mem_cons.mp ht with rfl | ht
  · exact h2.not_neg
  obtain ⟨r, -, hr⟩ := List.mem_filterMap.mp ht
  split_ifs at hr with h3 h4
  rw [Option.some.injEq] at hr
  subst hr
  intro h5
  refine h4 (Or.inl ?_)
  generalize r.1 = a at *
  cases a with
  | fin x =>
    have hx : x < 0 := h5
    rcases h1 with ⟨y, hy, rfl⟩ | rfl
    · exact lt_of_lt_of_le hx hy
    · rfl
  | inf s =>
    have hs : s = true := h5
    subst hs
    rcases h1 with ⟨y, hy, rfl⟩ | rfl
    · rfl
    · exact ⟨rfl, rfl⟩
  | nan => exact absurd h5 (not_nan_lt _)

theorem sub_lt_of_gt {t1 t2 m : Dbl} (hm : 0 < m) (h1 : NN t1) (h2 : NN t2) (h : t1 > t2) : t2 - t1 < m := by
  have key : ∀ x : ℝ, x ≤ 0 → Dbl.ofReal x < m := by
    intro x hx
    have hr : round64 x ≤ 0 := by
      by_cases h0 : x = 0
      · rw [h0, round64_zero]
      have := round64_nearest x (m := 0) (e := 0) (by decide) (by norm_num)
      rw [Int.cast_zero, zero_mul, zero_sub, abs_neg] at this
      by_contra hc
      push Not at hc
      have hx' : x < 0 := lt_of_le_of_ne hx h0
      rw [abs_of_pos (by linarith), abs_of_neg hx'] at this
      linarith
    unfold Dbl.ofReal
    cases m with
    | fin y =>
      have hy : 0 < y := hm
      split_ifs
      · exact lt_of_le_of_lt hr hy
      · have : x < 0 := by
          rcases lt_or_eq_of_le hx with h | h
          · exact h
          · rename_i hc
            rw [h, round64_zero, abs_zero] at hc
            exact absurd (zpow2_pos 1024) hc
        rw [decide_eq_true this]
        rfl
    | inf s =>
      have hs : s = false := hm
      subst hs
      split_ifs with hc
      · rfl
      · have : x < 0 := by
          rcases lt_or_eq_of_le hx with h | h
          · exact h
          · rw [h, round64_zero, abs_zero] at hc
            exact absurd (zpow2_pos 1024) hc
        rw [decide_eq_true this]
        exact ⟨rfl, rfl⟩
    | nan => exact absurd hm (not_lt_nan _)
  rcases h1 with ⟨x, hx, rfl⟩ | rfl <;> rcases h2 with ⟨y, hy, rfl⟩ | rfl
  · have : y < x := h
    rw [fin_sub]
    exact key _ (by linarith)
  · exact absurd h (by change ¬ (false = true); simp)
  · change Dbl.inf true < m
    cases m with
    | fin z => rfl
    | inf s => exact ⟨rfl, hm⟩
    | nan => exact absurd hm (not_lt_nan _)
  · exact absurd h (by change ¬ (false = true ∧ false = false); simp)

end Verif
