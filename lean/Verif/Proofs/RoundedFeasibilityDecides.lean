import Verif.Proofs.RoundedFeasibilityField
import Verif.Proofs.RoundedFeasibilityCheck
import Verif.Proofs.FeasibilityDecides

/- Helper lemmas: short sections are decided by the recursive feasibility check with rounded numbers when the limits hold with a
margin. -/
set_option linter.unusedSectionVars false

namespace Verif

open Polynomial Spec Set

variable {rnd : ℝ → ℝ} {u : ℝ}

theorem velocityLoopG_upper (h : Rounding rnd u) (hu1 : u < 1) (dot : Dot (Fl rnd)) (s : Segment (Fl rnd)) {a b : Fl rnd}
    (lim : Fl rnd) (roots : List (List (Fl rnd × Fl rnd))) (x : ℕ → ℝ) (δ : ℝ) (is : List ℕ)
    (hm : ∀ i ∈ is, ∀ m, axisMinMaxG (flFeasLib rnd dot) s 1 roots a b i = .ok m → PairNear (x i) δ (m.1.val, m.2.val))
    (acc r : Fl rnd) (j : ℕ) (Q : ℝ) (hacc : AccOf u j acc Q)
    (hr : velocityLoopG (flFeasLib rnd dot) s lim roots a b is acc = .ok (.inr r)) :
    ∃ Q', AccOf u (j + is.length) r Q' ∧ Q' ≤ Q + (is.map fun i => (|x i| + δ) ^ 2).sum := by
  induction is generalizing acc j Q with
  | nil =>
    obtain rfl := Sum.inr.inj (Res.ok.inj hr)
    exact ⟨Q, hacc, by simp⟩
  | cons i is ih =>
    have e : velocityLoopG (flFeasLib rnd dot) s lim roots a b (i :: is) acc = (do
        let m ← axisMinMaxG (flFeasLib rnd dot) s 1 roots a b i
        (if stdMaxVal ((flLib rnd).pow2 m.1) ((flLib rnd).pow2 m.2) > (flLib rnd).pow2 lim then pure (.inl .velocity)
        else velocityLoopG (flFeasLib rnd dot) s lim roots a b is
          (acc + (flLib rnd).pow2 (maxAbsG (flFeasLib rnd dot) m.1 m.2)) : Res (Verdict ⊕ Fl rnd))) := rfl
    rw [e, Res.bind_eq_ok] at hr
    obtain ⟨m, em, hr⟩ := hr
    split_ifs at hr with hc
    · cases hr
    · have hp := pow2_bounds h (maxAbsG (flFeasLib rnd dot) m.1 m.2)
      rw [maxAbsG_val] at hp
      obtain ⟨Q', h1, h2⟩ := ih (fun j hj => hm j (by simp [hj])) _ (j + 1) _
        (hacc.step h hu1.le (by positivity) hp.1 hp.2) hr
      refine ⟨Q', by rw [List.length_cons]; convert h1 using 1; omega, ?_⟩
      have h3 := (hm i (by simp) m em).max_sq
      rw [List.map_cons, List.sum_cons]
      dsimp only at h3
      linarith

theorem jerkLoopG_upper (h : Rounding rnd u) (hu1 : u < 1) (dot : Dot (Fl rnd)) (s : Segment (Fl rnd)) {a b : Fl rnd}
    (roots : List (List (Fl rnd × Fl rnd))) (x : ℕ → ℝ) (δ : ℝ) (is : List ℕ)
    (hm : ∀ i ∈ is, ∀ m, axisMinMaxG (flFeasLib rnd dot) s 3 roots a b i = .ok m → PairNear (x i) δ (m.1.val, m.2.val))
    (acc r : Fl rnd) (j : ℕ) (Q : ℝ) (hacc : AccOf u j acc Q)
    (hr : jerkLoopG (flFeasLib rnd dot) s roots a b is acc = .ok r) :
    ∃ Q', AccOf u (j + is.length) r Q' ∧ Q' ≤ Q + (is.map fun i => (|x i| + δ) ^ 2).sum := by
  induction is generalizing acc j Q with
  | nil =>
    obtain rfl := Res.ok.inj hr
    exact ⟨Q, hacc, by simp⟩
  | cons i is ih =>
    have e : jerkLoopG (flFeasLib rnd dot) s roots a b (i :: is) acc = (do
        let m ← axisMinMaxG (flFeasLib rnd dot) s 3 roots a b i
        jerkLoopG (flFeasLib rnd dot) s roots a b is
          (acc + (flLib rnd).pow2 (maxAbsG (flFeasLib rnd dot) m.1 m.2))) := rfl
    rw [e, Res.bind_eq_ok] at hr
    obtain ⟨m, em, hr⟩ := hr
    have hp := pow2_bounds h (maxAbsG (flFeasLib rnd dot) m.1 m.2)
    rw [maxAbsG_val] at hp
    obtain ⟨Q', h1, h2⟩ := ih (fun j hj => hm j (by simp [hj])) _ (j + 1) _
      (hacc.step h hu1.le (by positivity) hp.1 hp.2) hr
    refine ⟨Q', by rw [List.length_cons]; convert h1 using 1; omega, ?_⟩
    have h3 := (hm i (by simp) m em).max_sq
    rw [List.map_cons, List.sum_cons]
    dsimp only at h3
    linarith

theorem thrustLoopG_between (h : Rounding rnd u) (hu1 : u < 1) (dot : Dot (Fl rnd)) (ic : InputConstraints (Fl rnd))
    (g : Fin 3 → Fl rnd) (s : Segment (Fl rnd)) {a b : Fl rnd}
    (roots : List (List (Fl rnd × Fl rnd))) (x : Fin 3 → ℝ) (δ : ℝ) (is : List (Fin 3))
    (hm : ∀ i ∈ is, ∀ m, axisMinMaxG (flFeasLib rnd dot) s 2 roots a b (i : ℕ) = .ok m →
      PairNear (x i) δ ((m.1 + g i).val, (m.2 + g i).val))
    (acc r : Fl rnd × Fl rnd) (j : ℕ) (P Q : ℝ) (hP : AccOf u j acc.1 P) (hQ : AccOf u j acc.2 Q)
    (hr : thrustLoopG (flFeasLib rnd dot) ic g s roots a b is acc = .ok (.inr r)) :
    ∃ P' Q', AccOf u (j + is.length) r.1 P' ∧ AccOf u (j + is.length) r.2 Q' ∧
      P + (is.map fun i => max (|x i| - δ) 0 ^ 2).sum ≤ P' ∧ Q' ≤ Q + (is.map fun i => (|x i| + δ) ^ 2).sum := by
  induction is generalizing acc j P Q with
  | nil =>
    obtain rfl := Sum.inr.inj (Res.ok.inj hr)
    exact ⟨P, Q, hP, hQ, by simp, by simp⟩
  | cons i is ih =>
    have e : thrustLoopG (flFeasLib rnd dot) ic g s roots a b (i :: is) acc = (do
        let m ← axisMinMaxG (flFeasLib rnd dot) s 2 roots a b i
        (if limitSuchThatG ic kFMax fun lim => maxAbsG (flFeasLib rnd dot) (m.1 + g i) (m.2 + g i) > lim then
          pure (.inl .thrustHigh)
        else thrustLoopG (flFeasLib rnd dot) ic g s roots a b is
          (acc.1 + lowerTermG (flFeasLib rnd dot) (m.1 + g i) (m.2 + g i),
            acc.2 + (flLib rnd).pow2 (maxAbsG (flFeasLib rnd dot) (m.1 + g i) (m.2 + g i))) :
          Res (Verdict ⊕ (Fl rnd × Fl rnd)))) := rfl
    rw [e, Res.bind_eq_ok] at hr
    obtain ⟨m, em, hr⟩ := hr
    split_ifs at hr with hc
    · cases hr
    · obtain ⟨q, hq0, hq, hq1, hq2⟩ := lowerTermG_bounds h hu1 dot (m.1 + g i) (m.2 + g i)
      have hp := pow2_bounds h (maxAbsG (flFeasLib rnd dot) (m.1 + g i) (m.2 + g i))
      rw [maxAbsG_val] at hp
      obtain ⟨P', Q', h1, h2, h3, h4⟩ := ih (fun j hj => hm j (by simp [hj])) _ (j + 1) _ _
        (hP.step h hu1.le hq0 hq1 hq2) (hQ.step h hu1.le (by positivity) hp.1 hp.2) hr
      refine ⟨P', Q', by rw [List.length_cons]; convert h1 using 1; omega,
        by rw [List.length_cons]; convert h2 using 1; omega, ?_, ?_⟩
      · have h5 := (hm i (by simp) m em).min_sq
        rw [List.map_cons, List.sum_cons]
        dsimp only at h5
        rw [← hq] at h5
        linarith
      · have h5 := (hm i (by simp) m em).max_sq
        rw [List.map_cons, List.sum_cons]
        dsimp only at h5
        linarith

/-- Why a section is split. -/
theorem classifyG_none (dot : Dot (Fl rnd)) (ic : InputConstraints (Fl rnd)) (fMin fMax vMax jMax : Fl rnd)
    (h : classifyG (flFeasLib rnd dot) ic fMin fMax vMax jMax = none) :
    (∃ l, ic.getConstraint kFMin = some l ∧ ((flLib rnd).sqrt fMin).val < l.val) ∨
    (∃ l, ic.getConstraint kFMax = some l ∧ l.val < ((flLib rnd).sqrt fMax).val) ∨
    (∃ l, ic.getConstraint kVMax = some l ∧ l.val < ((flLib rnd).sqrt vMax).val) ∨
    (∃ l, ic.getConstraint kOmegaXYMax = some l ∧ l.val <
      (if fMin > (⟨rnd (1 / 10 ^ 6)⟩ : Fl rnd) then (flLib rnd).sqrt (jMax / fMin) else ⟨dblMax⟩ : Fl rnd).val) := by
  have e : classifyG (flFeasLib rnd dot) ic fMin fMax vMax jMax =
      if limitSuchThatG ic kFMin fun lim => (flLib rnd).sqrt fMax < lim then some .thrustLow
      else if limitSuchThatG ic kFMax fun lim => (flLib rnd).sqrt fMin > lim then some .thrustHigh
      else if limitSuchThatG ic kFMin (fun lim => (flLib rnd).sqrt fMin < lim) ∨
          limitSuchThatG ic kFMax (fun lim => (flLib rnd).sqrt fMax > lim) ∨
          limitSuchThatG ic kVMax (fun lim => (flLib rnd).sqrt vMax > lim) ∨
          limitSuchThatG ic kOmegaXYMax (fun lim =>
            (if fMin > (⟨rnd (1 / 10 ^ 6)⟩ : Fl rnd) then (flLib rnd).sqrt (jMax / fMin) else ⟨dblMax⟩) > lim) then none
      else some .feasible := rfl
  rw [e] at h
  generalize (if fMin > (⟨rnd (1 / 10 ^ 6)⟩ : Fl rnd) then (flLib rnd).sqrt (jMax / fMin) else ⟨dblMax⟩ : Fl rnd) = om at h ⊢
  have lt_val : ∀ {x y : Fl rnd}, decide (x < y) = true → x.val < y.val := fun hh => of_decide_eq_true hh
  split at h
  · cases h
  split at h
  · cases h
  split at h
  · next hc =>
    rcases hc with hc | hc | hc | hc <;> obtain ⟨l, hl, hp⟩ := limitSuchThatG_true.mp hc
    · exact Or.inl ⟨l, hl, lt_val hp⟩
    · exact Or.inr (Or.inl ⟨l, hl, lt_val hp⟩)
    · exact Or.inr (Or.inr (Or.inl ⟨l, hl, lt_val hp⟩))
    · exact Or.inr (Or.inr (Or.inr ⟨l, hl, lt_val hp⟩))
  · cases h

/-- The computed bound on the rates is not much too large. -/
theorem omega_rel_lower (h : Rounding rnd u) (hu : u ≤ 1 / 100) {J' F' : Fl rnd} {J F l : ℝ} (hJ : AccOf u 3 J' J)
    (hF : AccOf u 3 F' F) (hpos : 0 < F'.val) (hl0 : 0 ≤ l) (hl : l < ((flLib rnd).sqrt (J' / F')).val) :
    l * (1 - 16 * u) * Real.sqrt F < Real.sqrt J := by
  have hu0 := rounding_nonneg h
  have hF0 := hF.nonneg
  have hJ'0 : 0 ≤ J'.val := le_trans (mul_nonneg (pow_nonneg (by linarith) _) hJ.nonneg) hJ.lower
  set x := rnd (J'.val / F'.val) with hx
  have hq0 : 0 ≤ J'.val / F'.val := div_nonneg hJ'0 hpos.le
  have hx1 := (abs_le.mp (h.rel (J'.val / F'.val))).2
  rw [abs_of_nonneg hq0, ← hx] at hx1
  have hx0 : 0 ≤ x := by
    have := (abs_le.mp (h.rel (J'.val / F'.val))).1
    rw [abs_of_nonneg hq0, ← hx] at this
    have := mul_nonneg (by linarith : 0 ≤ 1 - u) hq0
    linarith
  have hl' : l < rnd (Real.sqrt x) := hl
  have hs1 := (abs_le.mp (h.rel (Real.sqrt x))).2
  rw [abs_of_nonneg (Real.sqrt_nonneg x)] at hs1
  have hs2 : l < (1 + u) * Real.sqrt x := by linarith
  have hsq : l ^ 2 < (1 + u) ^ 2 * x := by
    have := pow_lt_pow_left₀ hs2 hl0 (by norm_num : 2 ≠ 0)
    rwa [mul_pow, Real.sq_sqrt hx0] at this
  have h1 : l ^ 2 * F'.val < (1 + u) ^ 3 * J'.val := by
    have a1 : x * F'.val ≤ (1 + u) * J'.val := by
      have : x ≤ (1 + u) * (J'.val / F'.val) := by linarith
      have := mul_le_mul_of_nonneg_right this hpos.le
      rwa [mul_assoc, div_mul_cancel₀ _ hpos.ne'] at this
    have a2 := mul_le_mul_of_nonneg_left a1 (by positivity : 0 ≤ (1 + u) ^ 2)
    have a3 := mul_lt_mul_of_pos_right hsq hpos
    calc l ^ 2 * F'.val < (1 + u) ^ 2 * x * F'.val := a3
      _ = (1 + u) ^ 2 * (x * F'.val) := by ring
      _ ≤ (1 + u) ^ 2 * ((1 + u) * J'.val) := a2
      _ = _ := by ring
  have h2 : l ^ 2 * ((1 - u) ^ 4 * F) < (1 + u) ^ 7 * J := by
    have a1 := mul_le_mul_of_nonneg_left hF.lower (sq_nonneg l)
    have a2 := mul_le_mul_of_nonneg_left hJ.upper (by positivity : 0 ≤ (1 + u) ^ 3)
    calc l ^ 2 * ((1 - u) ^ 4 * F) ≤ _ := a1
      _ < _ := h1
      _ ≤ _ := a2
      _ = _ := by ring
  -- (1 - 16 u)² (1 + u)⁷ ≤ (1 - u)⁴
  have hk : (1 - 16 * u) * (1 + u) ^ 4 ≤ (1 - u) ^ 2 := by
    have e1 : (1 + u) ^ 4 ≤ 1 + 5 * u := by
      have b2 : u ^ 2 ≤ 1 / 100 * u := by nlinarith
      have b3 : u ^ 3 ≤ 1 / 100 * u := by nlinarith [sq_nonneg u]
      have b4 : u ^ 4 ≤ 1 / 100 * u := by nlinarith [pow_nonneg hu0 3]
      nlinarith
    have e2 : (1 - 16 * u) * (1 + u) ^ 4 ≤ (1 - 16 * u) * (1 + 5 * u) := mul_le_mul_of_nonneg_left e1 (by linarith)
    nlinarith [sq_nonneg u]
  have hk2 : (1 - 16 * u) ^ 2 * (1 + u) ^ 7 ≤ (1 - u) ^ 4 := by
    have c1 := mul_self_le_mul_self (mul_nonneg (by linarith) (by positivity)) hk
    have c2 : (1 + u) ^ 7 ≤ (1 + u) ^ 8 := pow_le_pow_right₀ (by linarith) (by norm_num)
    have c3 := mul_le_mul_of_nonneg_left c2 (sq_nonneg (1 - 16 * u))
    calc _ ≤ _ := c3
      _ = (1 - 16 * u) * (1 + u) ^ 4 * ((1 - 16 * u) * (1 + u) ^ 4) := by ring
      _ ≤ _ := c1
      _ = _ := by ring
  have h3 : (l * (1 - 16 * u)) ^ 2 * F < J := by
    have c := mul_le_mul_of_nonneg_left hk2 (mul_nonneg (sq_nonneg l) hF0)
    have h7 : 0 < (1 + u) ^ 7 := by positivity
    refine lt_of_mul_lt_mul_left (a := (1 + u) ^ 7) ?_ h7.le
    calc (1 + u) ^ 7 * ((l * (1 - 16 * u)) ^ 2 * F) = l ^ 2 * F * ((1 - 16 * u) ^ 2 * (1 + u) ^ 7) := by ring
      _ ≤ _ := c
      _ = l ^ 2 * ((1 - u) ^ 4 * F) := by ring
      _ < _ := h2
  have h16 : 0 ≤ l * (1 - 16 * u) := mul_nonneg hl0 (by linarith)
  have := Real.sqrt_lt_sqrt (mul_nonneg (sq_nonneg _) hF0) h3
  rwa [Real.sqrt_mul (by positivity), Real.sqrt_sq h16] at this

/-- The halves of a section that is not too short are not too short. -/
theorem half_long (h : Rounding rnd u) (hu : u ≤ 1 / 100) {a b m : Fl rnd} {T : ℝ} (ha : 0 ≤ a.val) (hb : b.val ≤ T)
    (hm : 0 < m.val) (hmT : 8 * u * T ≤ m.val) (hlen : 3 * m.val < b.val - a.val) (dot : Dot (Fl rnd)) :
    let c := (a + b) / (flFeasLib rnd dot).two
    ¬ c - a < m ∧ ¬ b - c < m := by
  have hu0 := rounding_nonneg h
  have hs0 : 0 ≤ a.val + b.val := by linarith
  have hs := abs_le.mp (h.rel (a.val + b.val))
  rw [abs_of_nonneg hs0] at hs
  set x := rnd (a.val + b.val) with hx
  have hx0 : 0 ≤ x := by
    have := mul_nonneg (by linarith : 0 ≤ 1 - u) hs0
    linarith [hs.1]
  have hc := abs_le.mp (h.rel (x / 2))
  rw [abs_of_nonneg (by linarith)] at hc
  have hu2 : u * (a.val + b.val) ≤ 2 * (u * T) := by
    have := mul_le_mul_of_nonneg_left (by linarith : a.val + b.val ≤ 2 * T) hu0
    linarith
  have hux : u * x ≤ 101 / 100 * (u * (a.val + b.val)) := by
    have hx1 : x ≤ 101 / 100 * (a.val + b.val) := by
      have := mul_le_mul_of_nonneg_right hu hs0
      linarith [hs.2]
    have := mul_le_mul_of_nonneg_left hx1 hu0
    linarith
  have hmid : |rnd (x / 2) - (a.val + b.val) / 2| ≤ 201 / 100 * (u * T) := by
    rw [abs_le]
    constructor <;> linarith [hc.1, hc.2, hs.1, hs.2]
  have hmid := abs_le.mp hmid
  have long : ∀ y : ℝ, 6 / 5 * m.val ≤ y → m.val ≤ rnd y := by
    intro y hy
    have h1 := (abs_le.mp (h.rel y)).1
    rw [abs_of_nonneg (by linarith)] at h1
    have h2 := mul_le_mul_of_nonneg_right hu (by linarith : 0 ≤ y)
    linarith
  intro c
  have ec : c.val = rnd (x / 2) := rfl
  constructor
  · have := long (c.val - a.val) (by rw [ec]; linarith [hmid.1])
    exact not_lt.mpr (show m.val ≤ rnd (c.val - a.val) from this)
  · have := long (b.val - c.val) (by rw [ec]; linarith [hmid.2])
    exact not_lt.mpr (show m.val ≤ rnd (b.val - c.val) from this)

section
variable (h : Rounding rnd u) (hu : u ≤ 1 / 100) (dot : Dot (Fl rnd)) (hd : DotOk u dot) (rc : RootCall (Fl rnd))
  (ic : InputConstraints (Fl rnd)) (s : Segment (Fl rnd)) (hs : s.WF) (hN : 4 ≤ s.N)
  (g : Fin 3 → Fl rnd) (E B : ℕ → ℝ) (F : ℝ) (he : FeasErrors u s g E B F) (hD : 3 ≤ s.D)
  (hom : ∀ l, ic.getConstraint kOmegaXYMax = some l → l.val < dblMax)
include h hs he hD

theorem axisReal_below (k : ℕ) (h2 : 2 ≤ k) (h5 : k ≤ 5) (i : ℕ) (hi : i < 3) {t : ℝ} (ht : t ∈ Icc 0 s.time.val) :
    |axisVal (realSeg s) k i t| ≤ B k := by
  obtain ⟨j, rfl⟩ : ∃ j, k = j + 2 := ⟨k - 2, by omega⟩
  have h1 := axisReal_le s (j + 2) i (T := s.time.val) (by omega) (by rw [abs_of_nonneg ht.1]; exact ht.2 : |t| ≤ s.time.val)
  refine le_trans ?_ (he.second j (by omega) i (by omega))
  exact h1.trans (le_mul_of_one_le_left ((abs_nonneg _).trans h1) (one_le_pow_u h _))

include hu hd hN

theorem sectionG_decided (ra rj rs : List (List (Fl rnd × Fl rnd))) (hr : RootsOkG rc ic s ra rj rs) {a b : Fl rnd}
    (ha : 0 ≤ a.val) (hab : a.val ≤ b.val) (hb : b.val ≤ s.time.val) {τ : ℝ} (hτ : b.val - a.val ≤ τ)
    (hlim : LimitsWithinFl (16 * u) (variationFl E B F τ) ic g (realPolys s) a.val) :
    sectionCheckG (flFeasLib rnd dot) ic g s ra rj rs a b ≠ .ok none := by
  intro hsec
  have hu0 := rounding_nonneg h
  have hu1 : u < 1 := by linarith
  have hT : 0 ≤ s.time.val := ha.trans (hab.trans hb)
  have hτ0 : 0 ≤ τ := by linarith
  have hin : Icc a.val b.val ⊆ Icc 0 s.time.val := Icc_subset_Icc ha hb
  have hDr : 3 ≤ (realSeg s).D := by
    unfold Segment.D at hD ⊢
    unfold realSeg realPolys
    simpa using hD
  have hE0 : ∀ k ≤ 3, 0 ≤ E k := eval_nonneg h s hs g E B F he hD hT
  have hF0 := (thrust_nonneg h s hs g E B F he hD hT).2
  have hB0 : ∀ k, 1 ≤ k → k ≤ 3 → 0 ≤ B (k + 1) * τ := fun k h1 h3 => by
    refine mul_nonneg ?_ hτ0
    exact (abs_nonneg _).trans (axisReal_below h s hs g E B F he hD (k + 1) (by omega) (by omega) 0 (by omega)
      (t := 0) ⟨le_rfl, hT⟩)
  have hax : ∀ k, k ≤ 3 → ∀ roots, RootsForG rc s (k + 1) roots → ∀ i < 3, ∀ m,
      axisMinMaxG (flFeasLib rnd dot) s k roots a b i = .ok m →
        NearFl (GoodFl False (E k) (B (k + 2) * 0 ^ 2) a.val b.val) (E k) (axisVal (realSeg s) k i) a.val b.val m := by
    intro k hk roots hroots i hi m hm
    obtain ⟨m', e, hn⟩ := axisMinMaxG_near h dot rc s hs hN g E B F he hD k hk roots hroots i hi ha hab hb 0 False
      (fun hf => hf.elim)
    rw [e] at hm
    obtain rfl := Res.ok.inj hm
    exact hn
  have step : ∀ k, 1 ≤ k → k ≤ 3 → ∀ i < 3, ∀ t ∈ Icc a.val b.val,
      |axisVal (realSeg s) k i t - axisVal (realSeg s) k i a.val| ≤ B (k + 1) * τ := by
    intro k h1 h3 i hi t ht
    have hL : ∀ t ∈ Icc a.val b.val, |axisVal (realSeg s) (k + 1) i t| ≤ B (k + 1) := fun t ht =>
      axisReal_below h s hs g E B F he hD (k + 1) (by omega) (by omega) i hi (hin ht)
    refine (axisVal_near (realSeg s) k i (by omega) hL ht).trans (mul_le_mul_of_nonneg_left hτ ?_)
    exact (abs_nonneg _).trans (hL t ht)
  have tri : ∀ x y z p q : ℝ, |x - y| ≤ p → |y - z| ≤ q → |x - z| ≤ p + q := fun x y z p q h1 h2 =>
    (abs_sub_le x y z).trans (add_le_add h1 h2)
  have close : ∀ k, 1 ≤ k → k ≤ 3 → ∀ roots, RootsForG rc s (k + 1) roots → ∀ i < 3, ∀ m,
      axisMinMaxG (flFeasLib rnd dot) s k roots a b i = .ok m →
        PairNear (axisVal (realSeg s) k i a.val) (E k + B (k + 1) * τ) (m.1.val, m.2.val) := by
    intro k h1 h3 roots hroots i hi m hm
    have hn := hax k h3 roots hroots i hi m hm
    obtain ⟨t1, ht1, e1⟩ := hn.minAt
    obtain ⟨t2, ht2, e2⟩ := hn.maxAt
    exact ⟨tri _ _ _ _ _ e1 (step k h1 h3 i hi t1 ht1), tri _ _ _ _ _ e2 (step k h1 h3 i hi t2 ht2)⟩
  have closeT : ∀ roots, RootsForG rc s 3 roots → ∀ i : Fin 3, ∀ m,
      axisMinMaxG (flFeasLib rnd dot) s 2 roots a b i = .ok m →
        PairNear (axisVal (realSeg s) 2 i a.val + (g i).val) (F + B 3 * τ) ((m.1 + g i).val, (m.2 + g i).val) := by
    intro roots hroots i m hm
    have hn := thrustAxis_near h s hs hN g E B F he hD i ha hb _ False m (hax 2 (by omega) roots hroots i i.2 m hm)
    obtain ⟨t1, ht1, e1⟩ := hn.minAt
    obtain ⟨t2, ht2, e2⟩ := hn.maxAt
    exact ⟨tri _ _ _ _ _ e1 (by rw [add_sub_add_right_eq_sub]; exact step 2 (by omega) (by omega) i i.2 t1 ht1),
      tri _ _ _ _ _ e2 (by rw [add_sub_add_right_eq_sub]; exact step 2 (by omega) (by omega) i i.2 t2 ht2)⟩
  unfold sectionCheckG at hsec
  rw [Res.bind_eq_ok] at hsec
  obtain ⟨r1, -, hsec⟩ := hsec
  cases r1 with
  | some v => cases hsec
  | none =>
  dsimp only at hsec
  rw [Res.bind_eq_ok] at hsec
  obtain ⟨r2, -, hsec⟩ := hsec
  cases r2 with
  | some v => cases hsec
  | none =>
  dsimp only at hsec
  rw [Res.bind_eq_ok] at hsec
  obtain ⟨r3, e3, hsec⟩ := hsec
  cases r3 with
  | inl v => cases hsec
  | inr vMax =>
  dsimp only at hsec
  rw [Res.bind_eq_ok] at hsec
  obtain ⟨r4, e4, hsec⟩ := hsec
  cases r4 with
  | inl v => cases hsec
  | inr f =>
  obtain ⟨fMin, fMax⟩ := f
  dsimp only at hsec
  rw [Res.bind_eq_ok] at hsec
  obtain ⟨jMax, e5, hsec⟩ := hsec
  have hsec := Res.ok.inj hsec
  have hv2 : variationFl E B F τ 2 = Real.sqrt 3 * (F + B 3 * τ) := by simp [variationFl]
  have hv1 : variationFl E B F τ 1 = Real.sqrt 3 * (E 1 + B 2 * τ) := by simp [variationFl]
  have hv3 : variationFl E B F τ 3 = Real.sqrt 3 * (E 3 + B 4 * τ) := by simp [variationFl]
  have thr : (ic.hasConstraint kFMin = true ∨ ic.hasConstraint kFMax = true ∨ ic.hasConstraint kOmegaXYMax = true) →
      ∃ P Q, AccOf u 3 fMin P ∧ AccOf u 3 fMax Q ∧
      thrust (fun i => (g i).val) (realPolys s) a.val - variationFl E B F τ 2 ≤ Real.sqrt P ∧
      Real.sqrt Q ≤ thrust (fun i => (g i).val) (realPolys s) a.val + variationFl E B F τ 2 := by
    intro hc
    rw [if_pos hc] at e4
    have hδ : 0 ≤ F + B 3 * τ := add_nonneg hF0 (hB0 2 (by omega) (by omega))
    rw [hv2]
    generalize F + B 3 * τ = δ at hδ closeT ⊢
    obtain ⟨P, Q, hP, hQ, q1, q2⟩ := thrustLoopG_between h hu1 dot ic g s rj
      (fun i => axisVal (realSeg s) 2 i a.val + (g i).val) δ [0, 1, 2]
      (fun i _ m hm => closeT rj (hr.jerk hc) i m hm) (0, 0) (fMin, fMax) 0 0 0 accOf_zero accOf_zero e4
    simp only [List.map_cons, List.map_nil, List.sum_cons, List.sum_nil, add_zero, zero_add, ← add_assoc] at q1 q2
    have s1 := sqrt_sub_le (axisVal (realSeg s) 2 (0 : Fin 3) a.val + (g 0).val) (axisVal (realSeg s) 2 (1 : Fin 3) a.val + (g 1).val)
      (axisVal (realSeg s) 2 (2 : Fin 3) a.val + (g 2).val) _ hδ
    have s2 := sqrt_add_le (axisVal (realSeg s) 2 (0 : Fin 3) a.val + (g 0).val) (axisVal (realSeg s) 2 (1 : Fin 3) a.val + (g 1).val)
      (axisVal (realSeg s) 2 (2 : Fin 3) a.val + (g 2).val) _ hδ
    have hth : thrust (fun i => (g i).val) (realPolys s) a.val =
        Real.sqrt ((axisVal (realSeg s) 2 (0 : Fin 3) a.val + (g 0).val) ^ 2 +
        (axisVal (realSeg s) 2 (1 : Fin 3) a.val + (g 1).val) ^ 2 + (axisVal (realSeg s) 2 (2 : Fin 3) a.val + (g 2).val) ^ 2) :=
      thrust_eq3 (fun i => (g i).val) (realSeg s) a.val
    have q1' := Real.sqrt_le_sqrt q1
    have q2' := Real.sqrt_le_sqrt q2
    rw [← hth] at s1 s2
    exact ⟨P, Q, hP, hQ, by linarith!, by linarith!⟩
  rcases classifyG_none dot ic fMin fMax vMax jMax hsec with ⟨l, hl, hlt⟩ | ⟨l, hl, hlt⟩ | ⟨l, hl, hlt⟩ | ⟨l, hl, hlt⟩
  · obtain ⟨P, Q, hP, hQ, q1, q2⟩ := thr (Or.inl ((hasConstraintG_iff ic _).mpr ⟨l, hl⟩))
    have := rel_lt hu0 hu (Real.sqrt_nonneg _) (hP.norm h hu) hlt
    have := hlim.fMin l hl
    linarith
  · obtain ⟨P, Q, hP, hQ, q1, q2⟩ := thr (Or.inr (Or.inl ((hasConstraintG_iff ic _).mpr ⟨l, hl⟩)))
    have := rel_gt hu0 (Real.sqrt_nonneg _) (hQ.norm h hu) hlt
    have := hlim.fMax l hl
    linarith
  · unfold velocityPartG at e3
    rw [hl] at e3
    dsimp only at e3
    have hδ : 0 ≤ E 1 + B 2 * τ := add_nonneg (hE0 1 (by omega)) (hB0 1 le_rfl (by omega))
    have := hlim.vMax l hl
    rw [hv1] at this
    have close1 := close 1 le_rfl (by omega)
    change ∀ roots, RootsForG rc s (1 + 1) roots → ∀ i < 3, ∀ m, axisMinMaxG (flFeasLib rnd dot) s 1 roots a b i = .ok m →
        PairNear (axisVal (realSeg s) 1 i a.val) (E 1 + B 2 * τ) (m.1.val, m.2.val) at close1
    generalize E 1 + B 2 * τ = δ at hδ close1 this
    obtain ⟨Q, hQ, q⟩ := velocityLoopG_upper h hu1 dot s l ra (fun i => axisVal (realSeg s) 1 i a.val) δ [0, 1, 2]
      (fun i hi m hm => close1 ra (hr.acc ((hasConstraintG_iff ic _).mpr ⟨l, hl⟩)) i
        (by simp only [List.mem_cons, List.not_mem_nil, or_false] at hi; omega) m hm) 0 vMax 0 0 accOf_zero e3
    simp only [List.map_cons, List.map_nil, List.sum_cons, List.sum_nil, add_zero, zero_add, ← add_assoc] at q
    have s2 := sqrt_add_le (axisVal (realSeg s) 1 0 a.val) (axisVal (realSeg s) 1 1 a.val) (axisVal (realSeg s) 1 2 a.val)
      δ hδ
    have hsp := speed_eq (realSeg s) a.val
    simp only [List.map_cons, List.map_nil, List.sum_cons, List.sum_nil, add_zero, ← add_assoc] at hsp
    have q' := Real.sqrt_le_sqrt q
    rw [← hsp] at s2
    have w4 : (realSeg s).polys = realPolys s := rfl
    rw [w4] at s2
    have := rel_gt hu0 (Real.sqrt_nonneg _) (hQ.norm h hu) hlt
    linarith
  · have hc := (hasConstraintG_iff ic _).mpr ⟨l, hl⟩
    obtain ⟨t1, t2⟩ := hlim.omegaXY l hl
    obtain ⟨P, Q, hP, hQ, q1, q2⟩ := thr (Or.inr (Or.inr hc))
    rw [if_pos hc] at e5
    have hδ : 0 ≤ E 3 + B 4 * τ := add_nonneg (hE0 3 le_rfl) (hB0 3 (by omega) le_rfl)
    have close3 := close 3 (by omega) le_rfl
    change ∀ roots, RootsForG rc s (3 + 1) roots → ∀ i < 3, ∀ m, axisMinMaxG (flFeasLib rnd dot) s 3 roots a b i = .ok m →
        PairNear (axisVal (realSeg s) 3 i a.val) (E 3 + B 4 * τ) (m.1.val, m.2.val) at close3
    generalize E 3 + B 4 * τ = δ at hδ close3 hv3
    obtain ⟨J, hJ, q⟩ := jerkLoopG_upper h hu1 dot s rs (fun i => axisVal (realSeg s) 3 i a.val) δ [0, 1, 2]
      (fun i hi m hm => close3 rs (hr.snap hc) i
        (by simp only [List.mem_cons, List.not_mem_nil, or_false] at hi; omega) m hm) 0 jMax 0 0 accOf_zero e5
    simp only [List.map_cons, List.map_nil, List.sum_cons, List.sum_nil, add_zero, zero_add, ← add_assoc] at q
    have s2 := sqrt_add_le (axisVal (realSeg s) 3 0 a.val) (axisVal (realSeg s) 3 1 a.val) (axisVal (realSeg s) 3 2 a.val)
      δ hδ
    have hje := jerk_eq (realSeg s) a.val
    simp only [List.map_cons, List.map_nil, List.sum_cons, List.sum_nil, add_zero, ← add_assoc] at hje
    have q' := Real.sqrt_le_sqrt q
    rw [← hje] at s2
    have w4 : (realSeg s).polys = realPolys s := rfl
    rw [w4] at s2
    have hj : Real.sqrt J ≤ jerk (realPolys s) a.val + variationFl E B F τ 3 := by rw [hv3]; linarith
    have hf : 1 / 900 < Real.sqrt P := by linarith
    have hP0 : 0 < P := Real.sqrt_pos.mp (by linarith)
    have hP6 : 1 / 900 ^ 2 < P := by
      have h1 := Real.sq_sqrt hP0.le
      have h2 : (1 / 900 : ℝ) ^ 2 < Real.sqrt P ^ 2 := pow_lt_pow_left₀ hf (by norm_num) (by norm_num)
      rw [h1] at h2
      norm_num at h2 ⊢
      exact h2
    have hpow : (9 / 10 : ℝ) ≤ (1 - u) ^ 4 := by
      have := one_add_mul_le_pow (a := -u) (by linarith) 4
      norm_num at this
      linarith [show (1 + -u) ^ 4 = (1 - u) ^ 4 by ring]
    have hfl : 9 / 10 * P ≤ fMin.val := by
      have h1 := hP.lower
      norm_num at h1
      have := mul_le_mul_of_nonneg_right hpow hP0.le
      linarith
    have htiny : rnd (1 / 10 ^ 6) < fMin.val := by
      have h1 := (abs_le.mp (h.rel (1 / 10 ^ 6))).2
      rw [abs_of_pos (by norm_num)] at h1
      have h2 := mul_le_mul_of_nonneg_right hu (by norm_num : (0 : ℝ) ≤ 1 / 10 ^ 6)
      norm_num at h1 h2 hP6 ⊢
      linarith
    have hgt : fMin > (⟨rnd (1 / 10 ^ 6)⟩ : Fl rnd) := htiny
    rw [if_pos hgt] at hlt
    have hvn : ∀ k, 1 ≤ k → k ≤ 3 → 0 ≤ variationFl E B F τ k := by
      intro k h1 h3
      unfold variationFl
      refine mul_nonneg (Real.sqrt_nonneg _) (add_nonneg ?_ (hB0 k h1 h3))
      split
      · exact hF0
      · exact hE0 k h3
    have hjn : 0 ≤ jerk (realPolys s) a.val := Real.sqrt_nonneg _
    have h3n := hvn 3 (by omega) le_rfl
    have h16 : 0 < 1 - 16 * u := by linarith
    by_cases hl0 : 0 ≤ l.val
    · have w := omega_rel_lower h hu hJ hP (by linarith) hl0 hlt
      have := mul_le_mul_of_nonneg_left q1 (mul_nonneg hl0 h16.le)
      linarith
    · have h2 : l.val * (1 - 16 * u) * (thrust (fun i => (g i).val) (realPolys s) a.val - variationFl E B F τ 2) < 0 :=
        mul_neg_of_neg_of_pos (mul_neg_of_neg_of_pos (not_le.mp hl0) h16) (by linarith)
      linarith

include hom

theorem recursiveG_decides (ra rj rs : List (List (Fl rnd × Fl rnd))) (hr : RootsOkG rc ic s ra rj rs)
    (m : Fl rnd) (hm : 0 < m.val) (hmT : 8 * u * s.time.val ≤ m.val)
    (hlim : ∀ t ∈ Icc 0 s.time.val, LimitsWithinFl (16 * u) (variationFl E B F (3 * m.val)) ic g (realPolys s) t)
    (n : ℕ) {a b : Fl rnd} (ha : 0 ≤ a.val) (hb : b.val ≤ s.time.val) (hlen : ¬ b - a < m)
    (hn : b.val - a.val < m.val / 2 * (5 / 4) ^ n) (fuel : ℕ) (hf : n ≤ fuel) :
    recursiveFeasibilityG (flFeasLib rnd dot) ic g m s ra rj rs fuel a b = .ok .feasible := by
  have hu0 := rounding_nonneg h
  induction n generalizing a b fuel with
  | zero =>
    exfalso
    have h1 : m.val ≤ rnd (b.val - a.val) := not_lt.mp hlen
    obtain ⟨hab, -⟩ := half_inside h hu ha hb hm hmT hlen dot
    have h2 := (abs_le.mp (h.rel (b.val - a.val))).2
    rw [abs_of_nonneg (by linarith)] at h2
    have h3 := mul_le_mul_of_nonneg_right hu (by linarith : 0 ≤ b.val - a.val)
    simp at hn
    linarith
  | succ n ih =>
    obtain ⟨f, rfl⟩ : ∃ f, fuel = f + 1 := ⟨fuel - 1, by omega⟩
    rw [recursiveFeasibilityG_succ, if_neg hlen]
    obtain ⟨hab, h1, h2, h3, h4⟩ := half_inside h hu ha hb hm hmT hlen dot
    have hT : 0 ≤ s.time.val := ha.trans (hab.trans hb)
    have hin : Icc a.val b.val ⊆ Icc 0 s.time.val := Icc_subset_Icc ha hb
    obtain ⟨r, e, hv⟩ := sectionCheckG_near h hu dot hd rc 0 ic s hs hN g E B F he hD hom ha hab hb ra rj rs hr
    rw [e, Res.ok_bind]
    have hev : ∀ k, 1 ≤ k → k ≤ 3 → evalErrors E F k ≤ variationFl E B F (3 * m.val) k := by
      intro k k1 k3
      unfold evalErrors variationFl
      refine mul_le_mul_of_nonneg_left (le_add_of_nonneg_right (mul_nonneg ?_ (by linarith))) (Real.sqrt_nonneg _)
      exact (abs_nonneg _).trans (axisReal_below h s hs g E B F he hD (k + 1) (by omega) (by omega) 0 (by omega)
        (t := 0) ⟨le_rfl, hT⟩)
    cases r with
    | some v =>
      rcases hv v rfl with ⟨rfl, -⟩ | ⟨hv, t, ht, hvi⟩
      · rfl
      · exfalso
        have hl := hlim t (hin ht)
        have g1 := hev 1 le_rfl (by omega)
        have g2 := hev 2 (by omega) (by omega)
        rcases hv with rfl | rfl | rfl <;> obtain ⟨l, hl', hlt⟩ := hvi E
        · linarith [hl.fMax l hl']
        · linarith [hl.fMin l hl']
        · linarith [hl.vMax l hl']
    | none =>
      dsimp only
      have h3m : ¬ b.val - a.val ≤ 3 * m.val := fun hc =>
        sectionG_decided h hu dot hd rc ic s hs hN g E B F he hD ra rj rs hr ha hab hb hc
          (hlim a.val (hin (left_mem_Icc.mpr hab))) e
      obtain ⟨l1, l2⟩ := half_long h hu ha hb hm hmT (not_le.mp h3m) dot
      rw [pow_succ] at hn
      rw [ih ha (h2.trans hb) l1 (by linarith) f (by omega), Res.ok_bind, if_pos rfl]
      exact ih (ha.trans h1) hb l2 (by linarith) f (by omega)

end

/-- The whole check. -/
theorem checkRecursiveFl_accepts (h : Rounding rnd u) (hu : u ≤ 1 / 100) (dot : Dot (Fl rnd)) (hd : DotOk u dot)
    (rf : RootFinder (Fl rnd)) (hrf : ∀ c, (rf c).1 = true) (ic : InputConstraints (Fl rnd)) (g : Fin 3 → Fl rnd) (m : Fl rnd)
    (E B : ℕ → ℝ) (F : ℝ) (s : Segment (Fl rnd)) (hi : FeasInput u ic g m E B F s) (hT : 11 / 10 * m.val ≤ s.time.val)
    (hlim : ∀ t ∈ Icc 0 s.time.val, LimitsWithinFl (16 * u) (variationFl E B F (3 * m.val)) ic g (realPolys s) t)
    (hyaw : s.D = 4 → ∀ t ∈ Icc 0 s.time.val, YawLimitsWithin E ic (realPolys s) t)
    (n : ℕ) (hn : s.time.val < m.val / 2 * (5 / 4) ^ n) (fuel : ℕ) (hf : n < fuel) :
    s.checkRecursiveFl dot (fun c => .ok (rf c)) ic g m fuel = .ok .feasible := by
  have hz : (0 : Fl rnd).val = 0 := rfl
  have hD3 : 3 ≤ s.D := by have := hi.dim; omega
  have hu0 := rounding_nonneg h
  obtain ⟨r, hr⟩ := checkRecursiveFl_returns h hu dot hd (fun c => .ok (rf c)) ic s hi.wf hi.coeffs g E B F hi.errors hi.dim hi.time
    hi.omega m hi.section_pos hi.section_time (fun c _ => ⟨_, rfl⟩) n hn
  have hr := hr fuel hf
  rw [hr]
  congr 1
  have hlen : ¬ s.time - 0 < m := by
    refine not_lt.mpr (show m.val ≤ rnd (s.time.val - (0 : Fl rnd).val) from ?_)
    rw [hz, sub_zero]
    have h1 := (abs_le.mp (h.rel s.time.val)).1
    rw [abs_of_nonneg hi.time] at h1
    have h2 := mul_le_mul_of_nonneg_right hu hi.time
    linarith [hi.section_pos]
  have hroot : ∀ (k : ℕ), rootsLoopG (fun c => .ok (rf c)) s k [0, 1, 2] [] ≠ .ok none := by
    have gen : ∀ (k : ℕ) (is : List ℕ) (acc : List (List (Fl rnd × Fl rnd))),
        rootsLoopG (fun c => .ok (rf c)) s k is acc ≠ .ok none := by
      intro k is
      induction is with
      | nil => intro acc hh; cases hh
      | cons i is ih =>
        intro acc hh
        unfold rootsLoopG at hh
        rw [Res.bind_eq_ok] at hh
        obtain ⟨p, -, hh⟩ := hh
        rw [Res.bind_eq_ok] at hh
        obtain ⟨c, -, hh⟩ := hh
        rw [Res.ok_bind, if_pos (hrf c)] at hh
        exact ih _ hh
    exact fun k => gen k _ _
  have hcase : ∃ ra rj rs, RootsOkG (fun c => .ok (rf c)) ic s ra rj rs ∧
      ∃ r0, recursiveFeasibilityG (flFeasLib rnd dot) ic g m s ra rj rs fuel 0 s.time = .ok r0 ∧
        ((r0 ≠ .feasible ∧ r = r0) ∨ (r0 = .feasible ∧ ∃ y, yawChecksG (flFeasLib rnd dot) (fun c => .ok (rf c)) ic s = .ok y ∧
          r = y.getD .feasible)) := by
    have hno : ∀ (k : ℕ) (c : Prop) [Decidable c],
        (if c then rootsLoopG (fun c => .ok (rf c)) s k [0, 1, 2] [] else .ok (some [])) ≠ .ok none := by
      intro k c _
      split_ifs
      · exact hroot k
      · intro hh; cases hh
    rcases checkRecursiveG_cases h dot (fun c => .ok (rf c)) ic s hi.wf hi.coeffs g hi.dim m fuel r hr with hind | hh
    · -- the roots were found, so the verdict comes from the recursion, which does not leave it open
      have hr' := hr
      unfold Segment.checkRecursiveFl Segment.checkRecursiveG at hr'
      rw [if_pos hi.dim, Res.bind_eq_ok] at hr'
      obtain ⟨x1, e1, hr'⟩ := hr'
      cases x1 with
      | none => exact absurd e1 (hno 2 _)
      | some ra =>
      dsimp only at hr'
      rw [Res.bind_eq_ok] at hr'
      obtain ⟨x2, e2, hr'⟩ := hr'
      cases x2 with
      | none => exact absurd e2 (hno 3 _)
      | some rj =>
      dsimp only at hr'
      rw [Res.bind_eq_ok] at hr'
      obtain ⟨x3, e3, hr'⟩ := hr'
      cases x3 with
      | none => exact absurd e3 (hno 4 _)
      | some rs =>
      dsimp only at hr'
      rw [Res.bind_eq_ok] at hr'
      obtain ⟨r0, e0, hr'⟩ := hr'
      have ok : ∀ (k : ℕ), k ≤ 4 → ∀ (c : Prop) [Decidable c] (y : List (List (Fl rnd × Fl rnd))),
          (if c then rootsLoopG (fun c => .ok (rf c)) s k [0, 1, 2] [] else .ok (some [])) = .ok (some y) →
          c → RootsForG (fun c => .ok (rf c)) s k y := by
        intro k hk c _ y hy hc
        rw [if_pos hc] at hy
        have hN := hi.coeffs
        rcases rootsLoopG_ok h _ s hi.wf hN hD3 k (by omega) (by omega) _ hy with h1 | ⟨y', h1, h2⟩
        · cases h1
        · cases h1
          exact h2
      refine ⟨ra, rj, rs, ⟨fun hc => ok 2 (by omega) _ ra e1 hc, fun hc => ok 3 (by omega) _ rj e2 hc,
        fun hc => ok 4 le_rfl _ rs e3 hc⟩, r0, e0, ?_⟩
      by_cases hf0 : r0 = .feasible
      · right
        subst hf0
        rw [if_neg (by simp), Res.bind_eq_ok] at hr'
        obtain ⟨y, ey, hr'⟩ := hr'
        refine ⟨rfl, y, ey, ?_⟩
        cases y <;> exact (Res.ok.inj hr').symm
      · left
        rw [if_pos hf0] at hr'
        exact ⟨hf0, (Res.ok.inj hr').symm⟩
    · exact hh
  obtain ⟨ra, rj, rs, hroots, r0, e0, hc⟩ := hcase
  rw [recursiveG_decides h hu dot hd _ ic s hi.wf hi.coeffs g E B F hi.errors hD3 hi.omega ra rj rs hroots m hi.section_pos
    hi.section_time hlim n (a := 0) (b := s.time) le_rfl le_rfl hlen (by rw [hz]; linarith) fuel hf.le] at e0
  obtain rfl := Res.ok.inj e0
  rcases hc with ⟨hc, -⟩ | ⟨-, y, ey, rfl⟩
  · exact absurd rfl hc
  rcases yawChecksG_near h dot _ 0 ic s hi.wf hi.coeffs g E B F hi.errors hi.time y ey with ⟨rfl, -⟩ | ⟨v, rfl, hv, t, ht, hvi⟩
  · rfl
  · exfalso
    have h4 : s.D = 4 := by
      by_contra hne
      unfold yawChecksG at ey
      rw [if_neg hne] at ey
      cases ey
    have hY := hyaw h4 t ht
    rcases hv with rfl | rfl <;> obtain ⟨l, hl, hlt⟩ := hvi 0 E
    · linarith [hY.omegaZ l hl]
    · linarith [hY.omegaZDot l hl]

end Verif
