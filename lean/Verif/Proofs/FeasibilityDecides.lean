import Verif.Proofs.FeasibilityApprox
import Verif.Spec.FeasibilityDecides

/- Helper lemmas: short sections are decided by the recursive feasibility check when the limits hold with a margin. -/
set_option linter.unusedSectionVars false

namespace Verif

open Polynomial Spec Set

theorem axisVal_near (s : Segment ℝ) (k i : ℕ) (hi : i < s.D) {a b t L : ℝ} (hL : ∀ t ∈ Icc a b, |axisVal s (k + 1) i t| ≤ L)
    (ht : t ∈ Icc a b) : |axisVal s k i t - axisVal s k i a| ≤ L * (b - a) := by
  have hab : a ≤ b := ht.1.trans ht.2
  have hL0 : 0 ≤ L := (abs_nonneg _).trans (hL t ht)
  have key := (convex_Icc a b).norm_image_sub_le_of_norm_hasDerivWithin_le
    (f := fun t => axisVal s k i t) (f' := fun t => axisVal s (k + 1) i t) (C := L)
    (fun x _ => by
      have := hasDerivAt_derivAt (s.polys[i]'hi).coeffs k x
      simp only [axisVal_eq s _ i _ hi]
      exact this.hasDerivWithinAt)
    (fun x hx => hL x hx) (left_mem_Icc.mpr hab) ht
  simp only [Real.norm_eq_abs] at key
  refine key.trans (mul_le_mul_of_nonneg_left ?_ hL0)
  rw [abs_of_nonneg (by linarith [ht.1])]
  linarith [ht.2]

/-- Both numbers are within `δ` of `x`. -/
def PairNear (x δ : ℝ) (m : ℝ × ℝ) : Prop := |m.1 - x| ≤ δ ∧ |m.2 - x| ≤ δ

theorem PairNear.max_abs {x δ : ℝ} {m : ℝ × ℝ} (h : PairNear x δ m) : max |m.1| |m.2| ≤ |x| + δ := by
  have h1 := abs_add_le x (m.1 - x)
  have h2 := abs_add_le x (m.2 - x)
  rw [add_sub_cancel] at h1 h2
  exact max_le (by linarith [h.1]) (by linarith [h.2])

theorem PairNear.max_sq {x δ : ℝ} {m : ℝ × ℝ} (h : PairNear x δ m) : max |m.1| |m.2| ^ 2 ≤ (|x| + δ) ^ 2 :=
  pow_le_pow_left₀ ((abs_nonneg _).trans (le_max_left _ _)) h.max_abs 2

theorem PairNear.min_sq {x δ : ℝ} {m : ℝ × ℝ} (h : PairNear x δ m) :
    max (|x| - δ) 0 ^ 2 ≤ if m.1 * m.2 < 0 then 0 else min |m.1| |m.2| ^ 2 := by
  have h1 := abs_le.mp h.1
  have h2 := abs_le.mp h.2
  split_ifs with hc
  · have : |x| - δ ≤ 0 := by
      rcases mul_neg_iff.mp hc with ⟨c1, c2⟩ | ⟨c1, c2⟩
      · have : |x| ≤ δ := abs_le.mpr ⟨by linarith, by linarith⟩
        linarith
      · have : |x| ≤ δ := abs_le.mpr ⟨by linarith, by linarith⟩
        linarith
    rw [max_eq_right this]
    norm_num
  · apply pow_le_pow_left₀ (le_max_right _ _)
    have h3 := abs_sub_abs_le_abs_sub x m.1
    have h4 := abs_sub_abs_le_abs_sub x m.2
    rw [abs_sub_comm] at h3 h4
    have h5 := h.1
    have h6 := h.2
    exact max_le (le_min (by linarith) (by linarith)) (le_min (abs_nonneg _) (abs_nonneg _))

theorem velocityLoop_upper (s : Segment ℝ) {a b : ℝ} (lim : ℝ) (roots : List (List (ℝ × ℝ))) (x : ℕ → ℝ) (δ : ℝ) (is : List ℕ)
    (hm : ∀ i ∈ is, ∀ m, axisMinMax s 1 roots a b i = .ok m → PairNear (x i) δ m) (acc r : ℝ)
    (h : velocityLoop s lim roots a b is acc = .ok (.inr r)) : r ≤ acc + (is.map fun i => (|x i| + δ) ^ 2).sum := by
  induction is generalizing acc with
  | nil =>
    have := Sum.inr.inj (Res.ok.inj h)
    simp [this]
  | cons i is ih =>
    unfold velocityLoop at h
    rw [Res.bind_eq_ok] at h
    obtain ⟨m, e, h⟩ := h
    split_ifs at h with hc
    · cases h
    · have h1 := ih (fun j hj => hm j (by simp [hj])) _ h
      have h2 := (hm i (by simp) m e).max_sq
      rw [List.map_cons, List.sum_cons]
      linarith

theorem thrustLoop_between (ic : InputConstraints ℝ) (g : Fin 3 → ℝ) (s : Segment ℝ) {a b : ℝ} (roots : List (List (ℝ × ℝ)))
    (x : Fin 3 → ℝ) (δ : ℝ) (is : List (Fin 3))
    (hm : ∀ i ∈ is, ∀ m, axisMinMax s 2 roots a b (i : ℕ) = .ok m → PairNear (x i) δ m) (acc r : ℝ × ℝ)
    (h : thrustLoop ic g s roots a b is acc = .ok (.inr r)) :
    acc.1 + (is.map fun i => max (|x i + g i| - δ) 0 ^ 2).sum ≤ r.1 ∧
      r.2 ≤ acc.2 + (is.map fun i => (|x i + g i| + δ) ^ 2).sum := by
  induction is generalizing acc with
  | nil =>
    have := Sum.inr.inj (Res.ok.inj h)
    simp [this]
  | cons i is ih =>
    unfold thrustLoop at h
    rw [Res.bind_eq_ok] at h
    obtain ⟨m, e, h⟩ := h
    dsimp only at h
    split_ifs at h with hc hc2
    all_goals first | cases h | skip
    all_goals
      have hcl : PairNear (x i + g i) δ (m.1 + g i, m.2 + g i) := by
        have := hm i (by simp) m e
        exact ⟨by simpa using this.1, by simpa using this.2⟩
      have h1 := ih (fun j hj => hm j (by simp [hj])) _ h
      have h2 := hcl.max_sq
      have h3 := hcl.min_sq
      dsimp only at h1 h2 h3
      rw [List.map_cons, List.sum_cons, List.map_cons, List.sum_cons]
    · rw [if_pos hc2] at h3
      constructor <;> linarith [h1.1, h1.2]
    · rw [if_neg hc2] at h3
      constructor <;> linarith [h1.1, h1.2]

theorem jerkLoop_upper (s : Segment ℝ) {a b : ℝ} (roots : List (List (ℝ × ℝ))) (x : ℕ → ℝ) (δ : ℝ) (is : List ℕ)
    (hm : ∀ i ∈ is, ∀ m, axisMinMax s 3 roots a b i = .ok m → PairNear (x i) δ m) (acc r : ℝ)
    (h : jerkLoop s roots a b is acc = .ok r) : r ≤ acc + (is.map fun i => (|x i| + δ) ^ 2).sum := by
  induction is generalizing acc with
  | nil =>
    have := Res.ok.inj h
    simp [this]
  | cons i is ih =>
    unfold jerkLoop at h
    rw [Res.bind_eq_ok] at h
    obtain ⟨m, e, h⟩ := h
    have h1 := ih (fun j hj => hm j (by simp [hj])) _ h
    have h2 := (hm i (by simp) m e).max_sq
    rw [List.map_cons, List.sum_cons]
    linarith

/-- Why a section is split. -/
theorem classify_none (ic : InputConstraints ℝ) (fMin fMax vMax jMax : ℝ)
    (h : classify Real.sqrt ic fMin fMax vMax jMax = none) :
    (∃ l, ic.getConstraint kFMin = some l ∧ Real.sqrt fMin < l) ∨
    (∃ l, ic.getConstraint kFMax = some l ∧ l < Real.sqrt fMax) ∨
    (∃ l, ic.getConstraint kVMax = some l ∧ l < Real.sqrt vMax) ∨
    (∃ l, ic.getConstraint kOmegaXYMax = some l ∧ l < if fMin > 1 / 10 ^ 6 then Real.sqrt (jMax / fMin) else dblMax) := by
  unfold classify at h
  simp only at h
  generalize (if fMin > 1 / 10 ^ 6 then Real.sqrt (jMax / fMin) else dblMax : ℝ) = om at h ⊢
  split at h
  · cases h
  split at h
  · cases h
  split at h
  · next hc =>
    rcases hc with hc | hc | hc | hc <;> obtain ⟨l, hl, hp⟩ := limitSuchThat_true.mp hc
    · exact Or.inl ⟨l, hl, by simpa using hp⟩
    · exact Or.inr (Or.inl ⟨l, hl, by simpa using hp⟩)
    · exact Or.inr (Or.inr (Or.inl ⟨l, hl, by simpa using hp⟩))
    · exact Or.inr (Or.inr (Or.inr ⟨l, hl, by simpa using hp⟩))
  · cases h

section
variable (rf : RootFinder ℝ) (B : ℕ → ℝ) (ic : InputConstraints ℝ)
    (g : Fin 3 → ℝ) (s : Segment ℝ) (h : s.WF) (hD : 3 ≤ s.D) (ra rj rs : List (List (ℝ × ℝ)))
    (hr : RootsOk rf ic s ra rj rs) (hom : ∀ l, ic.getConstraint kOmegaXYMax = some l → l < dblMax)
    (hfin0 : ∀ k ≤ 3, ∀ i < 3, ∀ t ∈ Icc 0 s.time, |axisVal s k i t| < dblMax)
    (hB : ∀ k, k ≤ 4 → ∀ i < 3, ∀ t ∈ Icc 0 s.time, |axisVal s k i t| ≤ B k)
include h hD hr hfin0 hB

theorem section_decided {a b τ : ℝ} (hab : a ≤ b) (hin : Icc a b ⊆ Icc 0 s.time) (hτ : b - a ≤ τ)
    (hlim : LimitsWithin (variation B τ) ic g s.polys a) :
    sectionCheck Real.sqrt ic g s ra rj rs a b ≠ .ok none := by
  intro hs
  have haI : a ∈ Icc 0 s.time := hin (left_mem_Icc.mpr hab)
  have hB0 : ∀ k, k ≤ 4 → 0 ≤ B k := fun k hk => (abs_nonneg _).trans (hB k hk 0 (by norm_num) a haI)
  have hτ0 : 0 ≤ τ := by linarith
  have close : ∀ k, k ≤ 3 → ∀ roots, RootsFor rf s (k + 1) roots → ∀ i < 3, ∀ m, axisMinMax s k roots a b i = .ok m →
      PairNear (axisVal s k i a) (B (k + 1) * τ) m := by
    intro k hk roots hroots i hi m hm
    obtain ⟨m', e, hn⟩ := axisMinMax_near rf s h hD k roots hroots i hi hab (fun t ht => hfin0 k hk i hi t (hin ht)) 0 0 False
      (fun hf => hf.elim)
    rw [e] at hm
    obtain rfl : m' = m := Res.ok.inj hm
    obtain ⟨t1, ht1, e1⟩ := hn.minAt
    obtain ⟨t2, ht2, e2⟩ := hn.maxAt
    have hL : ∀ t ∈ Icc a b, |axisVal s (k + 1) i t| ≤ B (k + 1) := fun t ht => hB (k + 1) (by omega) i hi t (hin ht)
    have hstep : B (k + 1) * (b - a) ≤ B (k + 1) * τ := mul_le_mul_of_nonneg_left hτ (hB0 _ (by omega))
    exact ⟨by rw [← e1]; exact (axisVal_near s k i (by omega) hL ht1).trans hstep,
      by rw [← e2]; exact (axisVal_near s k i (by omega) hL ht2).trans hstep⟩
  unfold sectionCheck at hs
  rw [Res.bind_eq_ok] at hs
  obtain ⟨r1, -, hs⟩ := hs
  cases r1 with
  | some v => cases hs
  | none =>
  dsimp only at hs
  rw [Res.bind_eq_ok] at hs
  obtain ⟨r2, -, hs⟩ := hs
  cases r2 with
  | some v => cases hs
  | none =>
  dsimp only at hs
  rw [Res.bind_eq_ok] at hs
  obtain ⟨r3, e3, hs⟩ := hs
  cases r3 with
  | inl v => cases hs
  | inr vMax =>
  dsimp only at hs
  rw [Res.bind_eq_ok] at hs
  obtain ⟨r4, e4, hs⟩ := hs
  cases r4 with
  | inl v => cases hs
  | inr f =>
  obtain ⟨fMin, fMax⟩ := f
  dsimp only at hs
  rw [Res.bind_eq_ok] at hs
  obtain ⟨jMax, e5, hs⟩ := hs
  have hs := Res.ok.inj hs
  have thr : (ic.hasConstraint kFMin = true ∨ ic.hasConstraint kFMax = true ∨ ic.hasConstraint kOmegaXYMax = true) →
      thrust g s.polys a - variation B τ 2 ≤ Real.sqrt fMin ∧ Real.sqrt fMax ≤ thrust g s.polys a + variation B τ 2 := by
    intro hc
    rw [if_pos hc] at e4
    have := thrustLoop_between ic g s rj (fun i => axisVal s 2 i a) (B 3 * τ) [0, 1, 2]
      (fun i _ m hm => close 2 (by omega) rj (hr.jerk hc) i i.2 m hm) (0, 0) (fMin, fMax) e4
    simp only [List.map_cons, List.map_nil, List.sum_cons, List.sum_nil, add_zero, zero_add, ← add_assoc] at this
    obtain ⟨q1, q2⟩ := this
    have hδ : 0 ≤ B 3 * τ := mul_nonneg (hB0 3 (by omega)) hτ0
    have s1 := sqrt_sub_le (axisVal s 2 0 a + g 0) (axisVal s 2 1 a + g 1) (axisVal s 2 2 a + g 2) (B 3 * τ) hδ
    have s2 := sqrt_add_le (axisVal s 2 0 a + g 0) (axisVal s 2 1 a + g 1) (axisVal s 2 2 a + g 2) (B 3 * τ) hδ
    have hT := thrust_eq3 g s a
    have q1' := Real.sqrt_le_sqrt q1
    have q2' := Real.sqrt_le_sqrt q2
    rw [← hT] at s1 s2
    unfold variation
    exact ⟨by linarith!, by linarith!⟩
  rcases classify_none ic fMin fMax vMax jMax hs with ⟨l, hl, hlt⟩ | ⟨l, hl, hlt⟩ | ⟨l, hl, hlt⟩ | ⟨l, hl, hlt⟩
  · have := (thr (Or.inl ((hasConstraint_iff ic _).mpr ⟨l, hl⟩))).1
    have := hlim.fMin l hl
    linarith
  · have := (thr (Or.inr (Or.inl ((hasConstraint_iff ic _).mpr ⟨l, hl⟩)))).2
    have := hlim.fMax l hl
    linarith
  · unfold velocityPart at e3
    rw [hl] at e3
    dsimp only at e3
    have := velocityLoop_upper s l ra (fun i => axisVal s 1 i a) (B 2 * τ) [0, 1, 2]
      (fun i hi m hm => close 1 (by omega) ra (hr.acc ((hasConstraint_iff ic _).mpr ⟨l, hl⟩)) i
        (by simp only [List.mem_cons, List.not_mem_nil, or_false] at hi; omega) m hm) 0 vMax e3
    simp only [List.map_cons, List.map_nil, List.sum_cons, List.sum_nil, add_zero, zero_add, ← add_assoc] at this
    have s2 := sqrt_add_le (axisVal s 1 0 a) (axisVal s 1 1 a) (axisVal s 1 2 a) (B 2 * τ) (mul_nonneg (hB0 2 (by omega)) hτ0)
    have hT := speed_eq s a
    simp only [List.map_cons, List.map_nil, List.sum_cons, List.sum_nil, add_zero, ← add_assoc] at hT
    have q := Real.sqrt_le_sqrt this
    rw [← hT] at s2
    have := hlim.vMax l hl
    unfold variation at this
    linarith
  · have hc := (hasConstraint_iff ic _).mpr ⟨l, hl⟩
    obtain ⟨t1, t2⟩ := hlim.omegaXY l hl
    have q1 := (thr (Or.inr (Or.inr hc))).1
    rw [if_pos hc] at e5
    have := jerkLoop_upper s rs (fun i => axisVal s 3 i a) (B 4 * τ) [0, 1, 2]
      (fun i hi m hm => close 3 (by omega) rs (hr.snap hc) i
        (by simp only [List.mem_cons, List.not_mem_nil, or_false] at hi; omega) m hm) 0 jMax e5
    simp only [List.map_cons, List.map_nil, List.sum_cons, List.sum_nil, add_zero, zero_add, ← add_assoc] at this
    have s2 := sqrt_add_le (axisVal s 3 0 a) (axisVal s 3 1 a) (axisVal s 3 2 a) (B 4 * τ) (mul_nonneg (hB0 4 (by omega)) hτ0)
    have hT := jerk_eq s a
    simp only [List.map_cons, List.map_nil, List.sum_cons, List.sum_nil, add_zero, ← add_assoc] at hT
    have q := Real.sqrt_le_sqrt this
    rw [← hT] at s2
    have hj : Real.sqrt jMax ≤ jerk s.polys a + variation B τ 3 := by unfold variation; linarith
    have hf : 1 / 1000 < Real.sqrt fMin := by linarith
    have hf0 : 0 < fMin := Real.sqrt_pos.mp (by linarith)
    have hf6 : fMin > 1 / 10 ^ 6 := by
      have h1 := Real.sq_sqrt hf0.le
      have h2 : (1 / 1000 : ℝ) ^ 2 < Real.sqrt fMin ^ 2 := pow_lt_pow_left₀ hf (by norm_num) (by norm_num)
      rw [h1] at h2
      norm_num at h2 ⊢
      exact h2
    rw [if_pos hf6, Real.sqrt_div' _ hf0.le, lt_div_iff₀ (by linarith)] at hlt
    by_cases hl0 : 0 ≤ l
    · have := mul_le_mul_of_nonneg_left q1 hl0
      linarith
    · have h1 : l * (thrust g s.polys a - variation B τ 2) < 0 := mul_neg_of_neg_of_pos (not_le.mp hl0) (by linarith)
      have h2 : 0 ≤ jerk s.polys a := Real.sqrt_nonneg _
      have h3 : 0 ≤ variation B τ 3 := mul_nonneg (Real.sqrt_nonneg _) (mul_nonneg (hB0 4 (by omega)) hτ0)
      linarith

include hom

theorem recursive_decides {m : ℝ} (hm : 0 < m)
    (hlim : ∀ t ∈ Icc 0 s.time, LimitsWithin (variation B (2 * m)) ic g s.polys t) (n : ℕ) {a b : ℝ} (hma : m ≤ b - a)
    (hn : b - a < m * 2 ^ n) (hin : Icc a b ⊆ Icc 0 s.time) (fuel : ℕ) (hf : n ≤ fuel) :
    recursiveFeasibility Real.sqrt ic g m s ra rj rs fuel a b = .ok .feasible := by
  induction n generalizing a b fuel with
  | zero => simp at hn; linarith
  | succ n ih =>
    obtain ⟨f, rfl⟩ : ∃ f, fuel = f + 1 := ⟨fuel - 1, by omega⟩
    rw [recursiveFeasibility_succ, if_neg (not_lt.mpr hma)]
    have hab : a ≤ b := by linarith
    have hB0 : ∀ k, k ≤ 4 → 0 ≤ B k := fun k hk =>
      (abs_nonneg _).trans (hB k hk 0 (by norm_num) a (hin (left_mem_Icc.mpr hab)))
    have hv0 : ∀ k, k ≤ 3 → 0 ≤ variation B (2 * m) k := fun k hk =>
      mul_nonneg (Real.sqrt_nonneg _) (mul_nonneg (hB0 _ (by omega)) (by linarith))
    obtain ⟨r, e, hv⟩ := sectionCheck_near rf 0 B ic g s h hD ra rj rs hr hom hab hin
      (fun k hk i hi t ht => hfin0 k hk i hi t (hin ht))
    rw [e, Res.ok_bind]
    cases r with
    | some v =>
      rcases hv v rfl with ⟨rfl, -⟩ | ⟨hv, t, ht, hvi⟩
      · rfl
      · exfalso
        have hl := hlim t (hin ht)
        have h2 := hv0 2 (by omega)
        have h1 := hv0 1 (by omega)
        rcases hv with rfl | rfl | rfl <;> obtain ⟨l, hl', hlt⟩ := hvi
        · linarith [hl.fMax l hl']
        · linarith [hl.fMin l hl']
        · linarith [hl.vMax l hl']
    | none =>
      dsimp only
      have h2m : ¬ b - a ≤ 2 * m := fun hc =>
        section_decided rf B ic g s h hD ra rj rs hr hfin0 hB hab hin hc (hlim a (hin (left_mem_Icc.mpr hab))) e
      rw [pow_succ] at hn
      have hmid : Icc a ((a + b) / 2) ⊆ Icc a b := Icc_subset_Icc le_rfl (by linarith)
      have hmid' : Icc ((a + b) / 2) b ⊆ Icc a b := Icc_subset_Icc (by linarith) le_rfl
      rw [ih (by linarith) (by linarith) (hmid.trans hin) f (by omega), Res.ok_bind, if_pos rfl]
      exact ih (by linarith) (by linarith) (hmid'.trans hin) f (by omega)

end

end Verif
