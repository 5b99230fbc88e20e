import Verif.Proofs.HalfPlane

/- Helper lemmas for the recursive feasibility check. -/
set_option linter.unusedSectionVars false

namespace Verif

open Polynomial Spec Set

/-- Component `i` of the `k`-th derivative. -/
noncomputable def axisVal (s : Segment ℝ) (k i : ℕ) (t : ℝ) : ℝ := (valuesAt s.polys k t).getD i 0

theorem axisVal_eq (s : Segment ℝ) (k i : ℕ) (t : ℝ) (h : i < s.D) :
    axisVal s k i t = derivAt (s.polys[i]'h).coeffs k t := by
  unfold axisVal valuesAt
  have h' : i < s.polys.length := h
  rw [List.getD_eq_getElem?_getD, List.getElem?_map, List.getElem?_eq_getElem h', Option.map_some,
    Option.getD_some, iteratedDeriv_curve]
  rfl

theorem vec3_eq_axisVal (s : Segment ℝ) (k : ℕ) (t : ℝ) (i : Fin 3) :
    vec3 s.polys k t i = axisVal s k i t := rfl

/-! #### roots -/

/-- The lists of roots for derivative `k`, one for each of the first three dimensions. -/
def RootsFor (rf : RootFinder ℝ) (s : Segment ℝ) (k : ℕ) (roots : List (List (ℝ × ℝ))) : Prop :=
  roots.length = 3 ∧ ∀ i, (hi : i < roots.length) → ∃ c, roots[i] = (rf c).2 ∧
    ∀ h : i < s.D, ofCoeffs c = derivative^[k] (ofCoeffs (s.polys[i]'h).coeffs)

theorem rootsLoop_cons {K : Type} [Field K] [LinearOrder K] (rf : RootFinder K) (s : Segment K) (d : ℤ)
    (i : ℕ) (is : List ℕ) (acc : List (List (K × K))) :
    rootsLoop rf s d (i :: is) acc = (do
      let p ← s.get i
      let r ← p.getRoots rf d
      if r.1 then rootsLoop rf s d is (acc ++ [r.2]) else pure none) := rfl

theorem rootsLoop_step (rf : RootFinder ℝ) (s : Segment ℝ) (h : s.WF) (k : ℕ) (hk : k ≤ s.N)
    (hk2 : k < 22) (i : ℕ) (hi : i < s.D) (is : List ℕ) (acc : List (List (ℝ × ℝ))) :
    ∃ c, ofCoeffs c = derivative^[k] (ofCoeffs (s.polys[i]'hi).coeffs) ∧
      rootsLoop rf s k (i :: is) acc =
        if (rf c).1 then rootsLoop rf s k is (acc ++ [(rf c).2]) else .ok none := by
  have hN : (s.polys[i]'hi).N = s.N := h.polysN _ (List.getElem_mem _)
  obtain ⟨c, hc, _, hd⟩ := getCoefficients_ok (s.polys[i]'hi) k (by rw [hN]; exact hk)
    (by rw [hN]; exact h.small) hk2
  refine ⟨c, hd, ?_⟩
  rw [rootsLoop_cons, segment_get_ok s i hi, Res.ok_bind]
  unfold Poly.getRoots
  rw [hc]
  simp only [Res.ok_bind, Res.pure_eq]

theorem rootsLoop_ok (rf : RootFinder ℝ) (s : Segment ℝ) (h : s.WF) (hD : 3 ≤ s.D) (k : ℕ)
    (hk : k ≤ s.N) (hk2 : k < 22) :
    (rootsLoop rf s k [0, 1, 2] [] = .ok none ∧ ∃ c, (rf c).1 = false) ∨
      ∃ roots, rootsLoop rf s k [0, 1, 2] [] = .ok (some roots) ∧ RootsFor rf s k roots := by
  obtain ⟨c0, d0, e0⟩ := rootsLoop_step rf s h k hk hk2 0 (by omega) [1, 2] []
  obtain ⟨c1, d1, e1⟩ := rootsLoop_step rf s h k hk hk2 1 (by omega) [2] ([] ++ [(rf c0).2])
  obtain ⟨c2, d2, e2⟩ := rootsLoop_step rf s h k hk hk2 2 (by omega) [] ([] ++ [(rf c0).2] ++ [(rf c1).2])
  rw [e0]
  cases hfc0 : (rf c0).1 with
  | false => left; exact ⟨rfl, c0, hfc0⟩
  | true =>
    rw [if_pos rfl, e1]
    cases hfc1 : (rf c1).1 with
    | false => left; exact ⟨rfl, c1, hfc1⟩
    | true =>
      rw [if_pos rfl, e2]
      cases hfc2 : (rf c2).1 with
      | false => left; exact ⟨rfl, c2, hfc2⟩
      | true =>
        right
        refine ⟨[(rf c0).2, (rf c1).2, (rf c2).2], rfl, rfl, ?_⟩
        intro i hi
        match i, hi with
        | 0, _ => exact ⟨c0, rfl, fun _ => d0⟩
        | 1, _ => exact ⟨c1, rfl, fun _ => d1⟩
        | 2, _ => exact ⟨c2, rfl, fun _ => d2⟩

/-! #### extrema on one axis -/

/-- Minimum and maximum of a function on an interval, attained there. -/
structure MinMaxOn (f : ℝ → ℝ) (a b : ℝ) (m : ℝ × ℝ) : Prop where
  lower : ∀ t ∈ Icc a b, m.1 ≤ f t
  upper : ∀ t ∈ Icc a b, f t ≤ m.2
  minAt : ∃ t ∈ Icc a b, f t = m.1
  maxAt : ∃ t ∈ Icc a b, f t = m.2

theorem axisMinMax_ok (rf : RootFinder ℝ) (hrf : Complete rf) (s : Segment ℝ) (h : s.WF) (hD : 3 ≤ s.D)
    (k : ℕ) (roots : List (List (ℝ × ℝ))) (hr : RootsFor rf s (k + 1) roots) (i : ℕ) (hi : i < 3)
    {a b : ℝ} (hab : a ≤ b) (hfin : ∀ t ∈ Icc a b, |axisVal s k i t| < dblMax) :
    ∃ m, axisMinMax s k roots a b i = .ok m ∧ MinMaxOn (axisVal s k i) a b m := by
  have hiD : i < s.D := by omega
  have hir : i < roots.length := by rw [hr.1]; exact hi
  obtain ⟨c, hc, hd⟩ := hr.2 i hir
  have hd := hd hiD
  set p := s.polys[i]'hiD with hp
  have hN : p.N ≤ kMaxConvolutionSize := by
    rw [h.polysN p (List.getElem_mem _)]; exact h.small
  obtain ⟨cand, hcand, hmem⟩ := candidates_some hab roots[i]
  have hsub : ∀ x ∈ a :: b :: cand, x ∈ Icc a b := by
    intro x hx
    rcases List.mem_cons.mp hx with rfl | hx
    · exact left_mem_Icc.mpr hab
    rcases List.mem_cons.mp hx with rfl | hx
    · exact right_mem_Icc.mpr hab
    · exact ⟨((hmem x).mp hx).1, ((hmem x).mp hx).2.1⟩
  have hval : ∀ t, axisVal s k i t = derivAt p.coeffs k t := fun t => axisVal_eq s k i t hiD
  obtain ⟨m, M, hres, h1, h2, h3, h4, h5⟩ := selectMinMaxFromCandidates_ok p hN k (a :: b :: cand)
    (by simp) (fun t ht => by rw [← hval]; exact hfin t (hsub t ht))
  have hbound : ∀ t ∈ Icc a b, m.2 ≤ axisVal s k i t ∧ axisVal s k i t ≤ M.2 := by
    intro t ht
    have hex := poly_extrema (derivative^[k] (ofCoeffs p.coeffs)) hab (a :: b :: cand)
      (by simp) (by simp) (by
        rw [← Function.iterate_succ_apply' derivative k, ← hd]
        intro hne x hx hx0
        have := hrf c hne x hx0
        right; right
        exact (hmem x).mpr ⟨hx.1, hx.2, 0, by rw [hc]; exact this, by simpa using dblEpsilon_pos.le⟩) t ht
    obtain ⟨⟨x, hx, hx'⟩, ⟨y, hy, hy'⟩⟩ := hex
    rw [hval]
    exact ⟨le_trans (h5 x hx).1 hx', le_trans hy' (h5 y hy).2⟩
  refine ⟨(m.2, M.2), ?_, fun t ht => (hbound t ht).1, fun t ht => (hbound t ht).2,
    ⟨m.1, hsub _ h1, by rw [hval, h2]⟩, ⟨M.1, hsub _ h3, by rw [hval, h4]⟩⟩
  unfold axisMinMax
  rw [segment_get_ok s i hiD, Res.ok_bind, Res.at'_of_lt hir, Res.ok_bind]
  unfold Poly.selectMinMaxFromRoots
  rw [hcand]
  simp only
  rw [hres]
  rfl

theorem sq_le_max_abs {m : ℝ × ℝ} {x : ℝ} (h1 : m.1 ≤ x) (h2 : x ≤ m.2) : x ^ 2 ≤ max |m.1| |m.2| ^ 2 := by
  rw [← sq_abs x]
  apply pow_le_pow_left₀ (abs_nonneg x)
  rw [abs_le]
  constructor
  · have := neg_abs_le m.1
    have := le_max_left |m.1| |m.2|
    linarith
  · have := le_abs_self m.2
    have := le_max_right |m.1| |m.2|
    linarith

theorem min_abs_sq_le {lo hi x : ℝ} (h1 : lo ≤ x) (h2 : x ≤ hi) :
    (if lo * hi < 0 then 0 else min |lo| |hi| ^ 2) ≤ x ^ 2 := by
  split
  · positivity
  · next hn =>
    rw [← sq_abs x]
    apply pow_le_pow_left₀ (le_min (abs_nonneg _) (abs_nonneg _))
    rw [not_lt] at hn
    by_cases hx : 0 ≤ x
    · by_cases hl : 0 ≤ lo
      · rw [abs_of_nonneg hx, abs_of_nonneg hl]
        exact le_trans (min_le_left _ _) h1
      · have hl' : lo < 0 := not_le.mp hl
        have hh : hi ≤ 0 := by
          by_contra hc
          exact absurd (mul_neg_of_neg_of_pos hl' (not_le.mp hc)) (not_lt.mpr hn)
        have hx0 : x = 0 := le_antisymm (le_trans h2 hh) hx
        have hh0 : hi = 0 := le_antisymm hh (by rw [← hx0]; exact h2)
        rw [hh0, hx0]; simp
    · have hx' : x < 0 := not_le.mp hx
      have hl' : lo < 0 := lt_of_le_of_lt h1 hx'
      have hh : hi ≤ 0 := by
        by_contra hc
        exact absurd (mul_neg_of_neg_of_pos hl' (not_le.mp hc)) (not_lt.mpr hn)
      rw [abs_of_neg hx', abs_of_nonpos hh]
      exact le_trans (min_le_right _ _) (by linarith)

/-! #### the loops -/

section Loops
variable (rf : RootFinder ℝ) (hrf : Complete rf) (s : Segment ℝ) (h : s.WF) (hD : 3 ≤ s.D)
  {a b : ℝ} (hab : a ≤ b)
include hrf h hD hab

theorem velocityLoop_ok (lim : ℝ) (roots : List (List (ℝ × ℝ))) (hr : RootsFor rf s 2 roots)
    (hfin : ∀ i < 3, ∀ t ∈ Icc a b, |axisVal s 1 i t| < dblMax) (is : List ℕ) (his : ∀ i ∈ is, i < 3)
    (acc : ℝ) :
    (velocityLoop s lim roots a b is acc = .ok (.inl .velocity) ∧
      ∃ i ∈ is, ∃ t ∈ Icc a b, lim ^ 2 < axisVal s 1 i t ^ 2) ∨
    ∃ r, velocityLoop s lim roots a b is acc = .ok (.inr r) ∧
      ∀ t ∈ Icc a b, acc + (is.map fun i => axisVal s 1 i t ^ 2).sum ≤ r := by
  induction is generalizing acc with
  | nil => right; exact ⟨acc, rfl, by simp⟩
  | cons i is ih =>
    have hi := his i (by simp)
    obtain ⟨m, hm, hmm⟩ := axisMinMax_ok rf hrf s h hD 1 roots hr i hi hab (hfin i hi)
    have e : velocityLoop s lim roots a b (i :: is) acc = (do
        let m ← axisMinMax s 1 roots a b i
        if max (m.1 ^ 2) (m.2 ^ 2) > lim ^ 2 then pure (.inl .velocity)
        else velocityLoop s lim roots a b is (acc + max |m.1| |m.2| ^ 2)) := rfl
    have hm' : axisMinMax s 1 roots a b i = .ok m := hm
    rw [e, hm', Res.ok_bind]
    by_cases hc : max (m.1 ^ 2) (m.2 ^ 2) > lim ^ 2
    · left
      rw [if_pos hc]
      refine ⟨rfl, i, by simp, ?_⟩
      rcases lt_max_iff.mp hc with hc | hc
      · obtain ⟨t, ht, hv⟩ := hmm.minAt
        exact ⟨t, ht, by rw [hv]; exact hc⟩
      · obtain ⟨t, ht, hv⟩ := hmm.maxAt
        exact ⟨t, ht, by rw [hv]; exact hc⟩
    · rw [if_neg hc]
      rcases ih (fun j hj => his j (by simp [hj])) (acc + max |m.1| |m.2| ^ 2) with
        ⟨h1, j, hj, t, ht, h2⟩ | ⟨r, h1, h2⟩
      · left; exact ⟨h1, j, by simp [hj], t, ht, h2⟩
      · right
        refine ⟨r, h1, ?_⟩
        intro t ht
        have := h2 t ht
        have hsq := sq_le_max_abs (hmm.lower t ht) (hmm.upper t ht)
        rw [List.map_cons, List.sum_cons]
        linarith

theorem thrustLoop_ok (ic : InputConstraints ℝ) (g : Fin 3 → ℝ) (roots : List (List (ℝ × ℝ)))
    (hr : RootsFor rf s 3 roots) (hfin : ∀ i < 3, ∀ t ∈ Icc a b, |axisVal s 2 i t| < dblMax)
    (is : List (Fin 3)) (acc : ℝ × ℝ) :
    (thrustLoop ic g s roots a b is acc = .ok (.inl .thrustHigh) ∧
      ∃ l, ic.getConstraint kFMax = some l ∧ ∃ i ∈ is, ∃ t ∈ Icc a b, l < |axisVal s 2 i t + g i|) ∨
    ∃ r, thrustLoop ic g s roots a b is acc = .ok (.inr r) ∧
      ∀ t ∈ Icc a b, r.1 ≤ acc.1 + (is.map fun i : Fin 3 => (axisVal s 2 i t + g i) ^ 2).sum ∧
        acc.2 + (is.map fun i : Fin 3 => (axisVal s 2 i t + g i) ^ 2).sum ≤ r.2 := by
  induction is generalizing acc with
  | nil => right; exact ⟨acc, rfl, by simp⟩
  | cons i is ih =>
    have hi : (i : ℕ) < 3 := i.2
    obtain ⟨m, hm, hmm⟩ := axisMinMax_ok rf hrf s h hD 2 roots hr i hi hab (hfin i hi)
    set acc' : ℝ × ℝ := (acc.1 + (if (m.1 + g i) * (m.2 + g i) < 0 then 0
      else min |m.1 + g i| |m.2 + g i| ^ 2), acc.2 + max |m.1 + g i| |m.2 + g i| ^ 2) with hacc
    set exceeds : Bool := limitSuchThat ic kFMax
      (fun lim => decide (max |m.1 + g i| |m.2 + g i| > lim)) with hex
    have e : thrustLoop ic g s roots a b (i :: is) acc =
        if exceeds then .ok (.inl .thrustHigh) else thrustLoop ic g s roots a b is acc' := by
      have hm' : axisMinMax s 2 roots a b i = .ok m := hm
      rw [hex, hacc]
      simp only [thrustLoop, hm', Res.ok_bind, Res.pure_eq]
    rw [e]
    cases hb : exceeds with
    | true =>
      left
      refine ⟨rfl, ?_⟩
      rw [hex] at hb
      unfold limitSuchThat at hb
      cases hl : ic.getConstraint kFMax with
      | none => rw [hl] at hb; simp at hb
      | some l =>
        rw [hl] at hb
        simp only [decide_eq_true_eq] at hb
        refine ⟨l, rfl, i, by simp, ?_⟩
        rcases lt_max_iff.mp hb with hb | hb
        · obtain ⟨t, ht, hv⟩ := hmm.minAt
          exact ⟨t, ht, by rw [hv]; exact hb⟩
        · obtain ⟨t, ht, hv⟩ := hmm.maxAt
          exact ⟨t, ht, by rw [hv]; exact hb⟩
    | false =>
      rcases ih acc' with ⟨h1, l, hl, j, hj, t, ht, h2⟩ | ⟨r, h1, h2⟩
      · left; exact ⟨h1, l, hl, j, by simp [hj], t, ht, h2⟩
      · right
        refine ⟨r, h1, ?_⟩
        intro t ht
        obtain ⟨h3, h4⟩ := h2 t ht
        have hl : m.1 + g i ≤ axisVal s 2 i t + g i := by linarith [hmm.lower t ht]
        have hu : axisVal s 2 i t + g i ≤ m.2 + g i := by linarith [hmm.upper t ht]
        have hsq := sq_le_max_abs (m := (m.1 + g i, m.2 + g i)) hl hu
        have hlo := min_abs_sq_le hl hu
        rw [List.map_cons, List.sum_cons]
        simp only [hacc] at h3 h4 hsq
        constructor <;> linarith

theorem jerkLoop_ok (roots : List (List (ℝ × ℝ))) (hr : RootsFor rf s 4 roots)
    (hfin : ∀ i < 3, ∀ t ∈ Icc a b, |axisVal s 3 i t| < dblMax) (is : List ℕ) (his : ∀ i ∈ is, i < 3)
    (acc : ℝ) :
    ∃ r, jerkLoop s roots a b is acc = .ok r ∧
      ∀ t ∈ Icc a b, acc + (is.map fun i => axisVal s 3 i t ^ 2).sum ≤ r := by
  induction is generalizing acc with
  | nil => exact ⟨acc, rfl, by simp⟩
  | cons i is ih =>
    have hi := his i (by simp)
    obtain ⟨m, hm, hmm⟩ := axisMinMax_ok rf hrf s h hD 3 roots hr i hi hab (hfin i hi)
    have e : jerkLoop s roots a b (i :: is) acc = (do
        let m ← axisMinMax s 3 roots a b i
        jerkLoop s roots a b is (acc + max |m.1| |m.2| ^ 2)) := rfl
    have hm' : axisMinMax s 3 roots a b i = .ok m := hm
    rw [e, hm', Res.ok_bind]
    obtain ⟨r, h1, h2⟩ := ih (fun j hj => his j (by simp [hj])) (acc + max |m.1| |m.2| ^ 2)
    refine ⟨r, h1, ?_⟩
    intro t ht
    have := h2 t ht
    have hsq := sq_le_max_abs (hmm.lower t ht) (hmm.upper t ht)
    rw [List.map_cons, List.sum_cons]
    linarith

end Loops

/-! #### thrust and speed -/

theorem thrust_eq (g : Fin 3 → ℝ) (s : Segment ℝ) (t : ℝ) :
    thrust g s.polys t = Real.sqrt (([0, 1, 2] : List (Fin 3)).map
      fun i : Fin 3 => (axisVal s 2 i t + g i) ^ 2).sum := by
  unfold thrust
  simp only [vec3_eq_axisVal, Fin.sum_univ_three, List.map_cons, List.map_nil, List.sum_cons, List.sum_nil]
  congr 1; ring

theorem speed_eq (s : Segment ℝ) (t : ℝ) :
    speed s.polys t = Real.sqrt (([0, 1, 2] : List ℕ).map fun i => axisVal s 1 i t ^ 2).sum := by
  unfold speed
  simp only [vec3_eq_axisVal, Fin.sum_univ_three, List.map_cons, List.map_nil, List.sum_cons, List.sum_nil]
  congr 1
  show axisVal s 1 0 t ^ 2 + axisVal s 1 1 t ^ 2 + axisVal s 1 2 t ^ 2 = _
  ring

theorem jerk_eq (s : Segment ℝ) (t : ℝ) :
    jerk s.polys t = Real.sqrt (([0, 1, 2] : List ℕ).map fun i => axisVal s 3 i t ^ 2).sum := by
  unfold jerk
  simp only [vec3_eq_axisVal, Fin.sum_univ_three, List.map_cons, List.map_nil, List.sum_cons, List.sum_nil]
  congr 1
  show axisVal s 3 0 t ^ 2 + axisVal s 3 1 t ^ 2 + axisVal s 3 2 t ^ 2 = _
  ring

theorem abs_le_thrust (g : Fin 3 → ℝ) (s : Segment ℝ) (t : ℝ) (i : Fin 3) :
    |axisVal s 2 i t + g i| ≤ thrust g s.polys t := by
  unfold thrust
  rw [← Real.sqrt_sq_eq_abs]
  apply Real.sqrt_le_sqrt
  exact Finset.single_le_sum (f := fun i : Fin 3 => (vec3 s.polys 2 t i + g i) ^ 2)
    (fun j _ => sq_nonneg _) (Finset.mem_univ i)

theorem abs_le_speed (s : Segment ℝ) (t : ℝ) (i : ℕ) (hi : i < 3) :
    |axisVal s 1 i t| ≤ speed s.polys t := by
  unfold speed
  rw [← Real.sqrt_sq_eq_abs]
  apply Real.sqrt_le_sqrt
  exact Finset.single_le_sum (f := fun i : Fin 3 => vec3 s.polys 1 t i ^ 2)
    (fun j _ => sq_nonneg _) (Finset.mem_univ (⟨i, hi⟩ : Fin 3))

theorem evaluateThrust_ok (g : Fin 3 → ℝ) (s : Segment ℝ) (h : s.WF) (hD : 3 ≤ s.D) (t : ℝ) :
    evaluateThrust Real.sqrt g s t = .ok (thrust g s.polys t) := by
  unfold evaluateThrust
  have he : (do let v ← s.evaluate t 2; vecHead3 v) = Res.ok (vec3 s.polys 2 t) := evaluate_head3 s h hD 2 t
  rw [← bind_assoc, he, Res.ok_bind]
  unfold norm3
  rw [dot3_self]
  rfl

theorem evaluateSpeed_ok (s : Segment ℝ) (h : s.WF) (hD : 3 ≤ s.D) (t : ℝ) :
    evaluateSpeed Real.sqrt s t = .ok (speed s.polys t) := by
  unfold evaluateSpeed
  have he : (do let v ← s.evaluate t 1; vecHead3 v) = Res.ok (vec3 s.polys 1 t) := evaluate_head3 s h hD 1 t
  rw [← bind_assoc, he, Res.ok_bind]
  unfold norm3
  rw [dot3_self]
  rfl

/-! #### the decision -/

theorem limitSuchThat_true {ic : InputConstraints ℝ} {t : ℤ} {p : ℝ → Bool} :
    limitSuchThat ic t p = true ↔ ∃ l, ic.getConstraint t = some l ∧ p l = true := by
  unfold limitSuchThat
  cases ic.getConstraint t <;> simp

/-- What a decision means. -/
theorem classify_spec (ic : InputConstraints ℝ) (fMin fMax vMax jMax : ℝ) :
    (classify Real.sqrt ic fMin fMax vMax jMax = some .thrustLow →
      ∃ l, ic.getConstraint kFMin = some l ∧ Real.sqrt fMax < l) ∧
    (classify Real.sqrt ic fMin fMax vMax jMax = some .thrustHigh →
      ∃ l, ic.getConstraint kFMax = some l ∧ l < Real.sqrt fMin) ∧
    (classify Real.sqrt ic fMin fMax vMax jMax = some .feasible →
      (∀ l, ic.getConstraint kFMin = some l → l ≤ Real.sqrt fMin) ∧
      (∀ l, ic.getConstraint kFMax = some l → Real.sqrt fMax ≤ l) ∧
      (∀ l, ic.getConstraint kVMax = some l → Real.sqrt vMax ≤ l) ∧
      (∀ l, ic.getConstraint kOmegaXYMax = some l →
        (if fMin > 1 / 10 ^ 6 then Real.sqrt (jMax / fMin) else dblMax) ≤ l)) ∧
    (classify Real.sqrt ic fMin fMax vMax jMax = none ∨
      classify Real.sqrt ic fMin fMax vMax jMax = some .thrustLow ∨
      classify Real.sqrt ic fMin fMax vMax jMax = some .thrustHigh ∨
      classify Real.sqrt ic fMin fMax vMax jMax = some .feasible) := by
  unfold classify
  simp only
  generalize (if fMin > 1 / 10 ^ 6 then Real.sqrt (jMax / fMin) else dblMax : ℝ) = om
  split
  · next h1 =>
    obtain ⟨l, hl, hp⟩ := limitSuchThat_true.mp h1
    refine ⟨fun _ => ⟨l, hl, by simpa using hp⟩, by simp, by simp, by simp⟩
  · split
    · next h1 h2 =>
      obtain ⟨l, hl, hp⟩ := limitSuchThat_true.mp h2
      refine ⟨by simp, fun _ => ⟨l, hl, by simpa using hp⟩, by simp, by simp⟩
    · split
      · exact ⟨by simp, by simp, by simp, by simp⟩
      · next h1 h2 h3 =>
        push Not at h3
        obtain ⟨h4, h5, h6, h7⟩ := h3
        refine ⟨by simp, by simp, fun _ => ⟨?_, ?_, ?_, ?_⟩, by simp⟩
        · intro l hl
          by_contra hc
          exact h4 (limitSuchThat_true.mpr ⟨l, hl, by simpa using hc⟩)
        · intro l hl
          by_contra hc
          exact h5 (limitSuchThat_true.mpr ⟨l, hl, by simpa using hc⟩)
        · intro l hl
          by_contra hc
          exact h6 (limitSuchThat_true.mpr ⟨l, hl, by simpa using hc⟩)
        · intro l hl
          by_contra hc
          exact h7 (limitSuchThat_true.mpr ⟨l, hl, by simpa using hc⟩)

/-! #### one section -/

theorem thrustAtEnds_ok (ic : InputConstraints ℝ) (g : Fin 3 → ℝ) (s : Segment ℝ) (h : s.WF)
    (hD : 3 ≤ s.D) (a b : ℝ) :
    ∃ r, thrustAtEnds Real.sqrt ic g s a b = .ok r ∧
      (r = none ∨ ∃ v, r = some v ∧ (v = .thrustHigh ∨ v = .thrustLow) ∧
        ∃ t, (t = a ∨ t = b) ∧ Violated ic g s.polys t v) := by
  have lowV : ∀ lo, ic.getConstraint kFMin = some lo →
      min (thrust g s.polys a) (thrust g s.polys b) < lo →
      ∃ t, (t = a ∨ t = b) ∧ Violated ic g s.polys t .thrustLow := by
    intro lo hlo hc
    rcases min_lt_iff.mp hc with hc | hc
    · exact ⟨a, Or.inl rfl, lo, hlo, hc⟩
    · exact ⟨b, Or.inr rfl, lo, hlo, hc⟩
  have highV : ∀ hi, ic.getConstraint kFMax = some hi →
      max (thrust g s.polys a) (thrust g s.polys b) > hi →
      ∃ t, (t = a ∨ t = b) ∧ Violated ic g s.polys t .thrustHigh := by
    intro hi hhi hc
    rcases lt_max_iff.mp hc with hc | hc
    · exact ⟨a, Or.inl rfl, hi, hhi, hc⟩
    · exact ⟨b, Or.inr rfl, hi, hhi, hc⟩
  unfold thrustAtEnds
  split
  · rw [evaluateThrust_ok g s h hD, Res.ok_bind, evaluateThrust_ok g s h hD, Res.ok_bind]
    cases hlo : ic.getConstraint kFMin with
    | none =>
      cases hhi : ic.getConstraint kFMax with
      | none => exact ⟨none, rfl, Or.inl rfl⟩
      | some hi =>
        refine ⟨_, rfl, ?_⟩
        split
        · next hc => exact Or.inr ⟨_, rfl, Or.inl rfl, highV hi hhi hc⟩
        · exact Or.inl rfl
    | some lo =>
      cases hhi : ic.getConstraint kFMax with
      | none =>
        refine ⟨_, rfl, ?_⟩
        split
        · next hc => exact Or.inr ⟨_, rfl, Or.inr rfl, lowV lo hlo hc⟩
        · exact Or.inl rfl
      | some hi =>
        refine ⟨_, rfl, ?_⟩
        split
        · next hc => exact Or.inr ⟨_, rfl, Or.inr rfl, lowV lo hlo hc⟩
        · split
          · next hc => exact Or.inr ⟨_, rfl, Or.inl rfl, highV hi hhi hc⟩
          · exact Or.inl rfl
  · exact ⟨none, rfl, Or.inl rfl⟩

theorem speedAtEnds_ok (ic : InputConstraints ℝ) (g : Fin 3 → ℝ) (s : Segment ℝ) (h : s.WF)
    (hD : 3 ≤ s.D) (a b : ℝ) :
    ∃ r, speedAtEnds Real.sqrt ic s a b = .ok r ∧
      (r = none ∨ (r = some .velocity ∧
        ∃ t, (t = a ∨ t = b) ∧ Violated ic g s.polys t .velocity)) := by
  unfold speedAtEnds
  cases hl : ic.getConstraint kVMax with
  | none => exact ⟨none, rfl, Or.inl rfl⟩
  | some l =>
    simp only
    rw [evaluateSpeed_ok s h hD, Res.ok_bind, evaluateSpeed_ok s h hD, Res.ok_bind]
    refine ⟨_, rfl, ?_⟩
    split
    · next hc =>
      right
      refine ⟨rfl, ?_⟩
      rcases lt_max_iff.mp hc with hc | hc
      · exact ⟨a, Or.inl rfl, l, hl, hc⟩
      · exact ⟨b, Or.inr rfl, l, hl, hc⟩
    · exact Or.inl rfl

theorem hasConstraint_iff (ic : InputConstraints ℝ) (t : ℤ) :
    ic.hasConstraint t = true ↔ ∃ l, ic.getConstraint t = some l := by
  unfold InputConstraints.hasConstraint InputConstraints.getConstraint
  rw [Option.isSome_iff_exists]

/-- The roots that are needed are there. -/
structure RootsOk (rf : RootFinder ℝ) (ic : InputConstraints ℝ) (s : Segment ℝ)
    (ra rj rs : List (List (ℝ × ℝ))) : Prop where
  acc : ic.hasConstraint kVMax = true → RootsFor rf s 2 ra
  jerk : ic.hasConstraint kFMin = true ∨ ic.hasConstraint kFMax = true ∨
    ic.hasConstraint kOmegaXYMax = true → RootsFor rf s 3 rj
  snap : ic.hasConstraint kOmegaXYMax = true → RootsFor rf s 4 rs

/-- What the verdict on an interval means. -/
def VerdictOk (ic : InputConstraints ℝ) (g : Fin 3 → ℝ) (s : Segment ℝ) (a b : ℝ) (v : Verdict) : Prop :=
  (v = .feasible ∧ ∀ t ∈ Icc a b, LimitsHold ic g s.polys t) ∨
  ((v = .thrustHigh ∨ v = .thrustLow ∨ v = .velocity) ∧ ∃ t ∈ Icc a b, Violated ic g s.polys t v)

theorem sectionCheck_ok (rf : RootFinder ℝ) (hrf : Complete rf) (ic : InputConstraints ℝ)
    (g : Fin 3 → ℝ) (s : Segment ℝ) (h : s.WF) (hD : 3 ≤ s.D) (ra rj rs : List (List (ℝ × ℝ)))
    (hr : RootsOk rf ic s ra rj rs) (hom : ∀ l, ic.getConstraint kOmegaXYMax = some l → l < dblMax)
    {a b : ℝ} (hab : a ≤ b)
    (hfin : ∀ k ≤ 3, ∀ i < 3, ∀ t ∈ Icc a b, |axisVal s k i t| < dblMax) :
    ∃ r, sectionCheck Real.sqrt ic g s ra rj rs a b = .ok r ∧ ∀ v, r = some v → VerdictOk ic g s a b v := by
  have hends : ∀ t, (t = a ∨ t = b) → t ∈ Icc a b := by
    rintro t (rfl | rfl)
    · exact left_mem_Icc.mpr hab
    · exact right_mem_Icc.mpr hab
  unfold sectionCheck
  obtain ⟨r1, e1, h1⟩ := thrustAtEnds_ok ic g s h hD a b
  rw [e1, Res.ok_bind]
  rcases h1 with rfl | ⟨v, rfl, hv, t, ht, hvi⟩
  swap
  · refine ⟨some v, rfl, ?_⟩
    intro v' hv'
    obtain rfl : v = v' := by simpa using hv'
    exact Or.inr ⟨by tauto, t, hends t ht, hvi⟩
  obtain ⟨r2, e2, h2⟩ := speedAtEnds_ok ic g s h hD a b
  simp only
  rw [e2, Res.ok_bind]
  rcases h2 with rfl | ⟨rfl, t, ht, hvi⟩
  swap
  · refine ⟨some .velocity, rfl, ?_⟩
    intro v' hv'
    obtain rfl : Verdict.velocity = v' := by simpa using hv'
    exact Or.inr ⟨by tauto, t, hends t ht, hvi⟩
  simp only
  -- velocity bound
  obtain ⟨x, ex, hx⟩ : ∃ x, velocityPart ic s ra a b = Res.ok x ∧
      ((x = .inl .velocity ∧ ∃ t ∈ Icc a b, Violated ic g s.polys t .velocity) ∨
        ∃ r, x = .inr r ∧ ∀ l, ic.getConstraint kVMax = some l → ∀ t ∈ Icc a b,
          speed s.polys t ≤ Real.sqrt r) := by
    unfold velocityPart
    cases hl : ic.getConstraint kVMax with
    | none => exact ⟨.inr 0, rfl, Or.inr ⟨0, rfl, by simp⟩⟩
    | some l =>
      simp only
      rcases velocityLoop_ok rf hrf s h hD hab l ra
        (hr.acc ((hasConstraint_iff ic kVMax).mpr ⟨l, hl⟩)) (hfin 1 (by omega)) [0, 1, 2] (by simp) 0 with
        ⟨q1, i, hi, t, ht, q2⟩ | ⟨r, q1, q2⟩
      · refine ⟨_, q1, Or.inl ⟨rfl, t, ht, l, hl, ?_⟩⟩
        have hi3 : i < 3 := by
          simp only [List.mem_cons, List.not_mem_nil, or_false] at hi; omega
        have := sq_lt_sq.mp q2
        exact lt_of_le_of_lt (le_abs_self l) (lt_of_lt_of_le this (abs_le_speed s t i hi3))
      · refine ⟨_, q1, Or.inr ⟨r, rfl, ?_⟩⟩
        intro l' _ t ht
        rw [speed_eq]
        apply Real.sqrt_le_sqrt
        have := q2 t ht
        linarith
  rw [ex, Res.ok_bind]
  rcases hx with ⟨rfl, t, ht, hvi⟩ | ⟨vMax, rfl, hvel⟩
  · refine ⟨some .velocity, rfl, ?_⟩
    intro v' hv'
    obtain rfl : Verdict.velocity = v' := by simpa using hv'
    exact Or.inr ⟨by tauto, t, ht, hvi⟩
  simp only
  -- thrust bounds
  obtain ⟨y, ey, hy⟩ : ∃ y, (if ic.hasConstraint kFMin ∨ ic.hasConstraint kFMax ∨
        ic.hasConstraint kOmegaXYMax
          then thrustLoop ic g s rj a b [0, 1, 2] (0, 0) else .ok (.inr (0, 0))) = Res.ok y ∧
      ((y = .inl .thrustHigh ∧ ∃ t ∈ Icc a b, Violated ic g s.polys t .thrustHigh) ∨
        ∃ fMin fMax, y = .inr (fMin, fMax) ∧ ((ic.hasConstraint kFMin = true ∨
          ic.hasConstraint kFMax = true ∨ ic.hasConstraint kOmegaXYMax = true) → ∀ t ∈ Icc a b,
          fMin ≤ (([0, 1, 2] : List (Fin 3)).map fun i : Fin 3 => (axisVal s 2 i t + g i) ^ 2).sum ∧
          (([0, 1, 2] : List (Fin 3)).map fun i : Fin 3 => (axisVal s 2 i t + g i) ^ 2).sum ≤ fMax)) := by
    by_cases hc : ic.hasConstraint kFMin ∨ ic.hasConstraint kFMax ∨ ic.hasConstraint kOmegaXYMax
    · rw [if_pos hc]
      rcases thrustLoop_ok rf hrf s h hD hab ic g rj (hr.jerk hc) (hfin 2 (by omega)) [0, 1, 2] (0, 0) with
        ⟨q1, l, hl, i, _, t, ht, q2⟩ | ⟨r, q1, q2⟩
      · exact ⟨_, q1, Or.inl ⟨rfl, t, ht, l, hl, lt_of_lt_of_le q2 (abs_le_thrust g s t i)⟩⟩
      · refine ⟨_, q1, Or.inr ⟨r.1, r.2, rfl, ?_⟩⟩
        intro _ t ht
        obtain ⟨q3, q4⟩ := q2 t ht
        simp only [zero_add] at q3 q4
        exact ⟨q3, q4⟩
    · rw [if_neg hc]
      exact ⟨_, rfl, Or.inr ⟨0, 0, rfl, fun hc' => absurd hc' hc⟩⟩
  rw [ey, Res.ok_bind]
  rcases hy with ⟨rfl, t, ht, hvi⟩ | ⟨fMin, fMax, rfl, hthr⟩
  · refine ⟨some .thrustHigh, rfl, ?_⟩
    intro v' hv'
    obtain rfl : Verdict.thrustHigh = v' := by simpa using hv'
    exact Or.inr ⟨by tauto, t, ht, hvi⟩
  simp only
  -- jerk bound
  obtain ⟨jMax, ej, hj⟩ : ∃ j, (if ic.hasConstraint kOmegaXYMax then jerkLoop s rs a b [0, 1, 2] 0
        else .ok 0) = Res.ok j ∧ (ic.hasConstraint kOmegaXYMax = true → ∀ t ∈ Icc a b,
          (([0, 1, 2] : List ℕ).map fun i => axisVal s 3 i t ^ 2).sum ≤ j) := by
    by_cases hc : ic.hasConstraint kOmegaXYMax = true
    · rw [if_pos hc]
      obtain ⟨r, q1, q2⟩ := jerkLoop_ok rf hrf s h hD hab rs (hr.snap hc) (hfin 3 (by omega)) [0, 1, 2]
        (by simp) 0
      refine ⟨r, q1, fun _ t ht => ?_⟩
      have := q2 t ht
      linarith
    · rw [if_neg hc]
      exact ⟨0, rfl, fun hc' => absurd hc' hc⟩
  rw [ej, Res.ok_bind]
  refine ⟨_, rfl, ?_⟩
  obtain ⟨c1, c2, c3, c4⟩ := classify_spec ic fMin fMax vMax jMax
  intro v hv
  rcases c4 with c4 | c4 | c4 | c4
  · rw [c4] at hv; simp at hv
  · rw [c4] at hv
    obtain rfl : Verdict.thrustLow = v := by simpa using hv
    obtain ⟨l, hl, hlt⟩ := c1 c4
    refine Or.inr ⟨by tauto, a, hends a (Or.inl rfl), l, hl, ?_⟩
    refine lt_of_le_of_lt ?_ hlt
    rw [thrust_eq]
    exact Real.sqrt_le_sqrt
      (hthr (Or.inl ((hasConstraint_iff ic _).mpr ⟨l, hl⟩)) a (hends a (Or.inl rfl))).2
  · rw [c4] at hv
    obtain rfl : Verdict.thrustHigh = v := by simpa using hv
    obtain ⟨l, hl, hlt⟩ := c2 c4
    refine Or.inr ⟨by tauto, a, hends a (Or.inl rfl), l, hl, ?_⟩
    refine lt_of_lt_of_le hlt ?_
    rw [thrust_eq]
    exact Real.sqrt_le_sqrt
      (hthr (Or.inr (Or.inl ((hasConstraint_iff ic _).mpr ⟨l, hl⟩))) a (hends a (Or.inl rfl))).1
  · rw [c4] at hv
    obtain rfl : Verdict.feasible = v := by simpa using hv
    obtain ⟨d1, d2, d3, d4⟩ := c3 c4
    refine Or.inl ⟨rfl, ?_⟩
    intro t ht
    refine ⟨?_, ?_, ?_, ?_⟩
    · intro l hl
      refine le_trans (d1 l hl) ?_
      rw [thrust_eq]
      exact Real.sqrt_le_sqrt (hthr (Or.inl ((hasConstraint_iff ic _).mpr ⟨l, hl⟩)) t ht).1
    · intro l hl
      refine le_trans ?_ (d2 l hl)
      rw [thrust_eq]
      exact Real.sqrt_le_sqrt (hthr (Or.inr (Or.inl ((hasConstraint_iff ic _).mpr ⟨l, hl⟩))) t ht).2
    · intro l hl
      exact le_trans (hvel l hl t ht) (d3 l hl)
    · intro l hl
      have hh := (hasConstraint_iff ic _).mpr ⟨l, hl⟩
      have hd := d4 l hl
      have hf := (hthr (Or.inr (Or.inr hh)) t ht).1
      have hjj := hj hh t ht
      have hpos : fMin > 1 / 10 ^ 6 := by
        by_contra hc
        rw [if_neg hc] at hd
        exact absurd hd (not_le.mpr (hom l hl))
      rw [if_pos hpos] at hd
      have hfm : 0 < fMin := lt_trans (by norm_num) hpos
      have hF : 0 < (([0, 1, 2] : List (Fin 3)).map fun i : Fin 3 => (axisVal s 2 i t + g i) ^ 2).sum :=
        lt_of_lt_of_le hfm hf
      refine ⟨by rw [thrust_eq]; exact Real.sqrt_pos.mpr hF, ?_⟩
      refine le_trans ?_ hd
      rw [thrust_eq, jerk_eq, ← Real.sqrt_div' _ hF.le]
      apply Real.sqrt_le_sqrt
      have hJ0 : 0 ≤ (([0, 1, 2] : List ℕ).map fun i => axisVal s 3 i t ^ 2).sum := by
        simp only [List.map_cons, List.map_nil, List.sum_cons, List.sum_nil]
        positivity
      exact div_le_div₀ (le_trans hJ0 hjj) hjj hfm hf

/-! #### the recursion -/

theorem recursiveFeasibility_succ {K : Type} [Field K] [LinearOrder K] (sq : K → K)
    (ic : InputConstraints K) (g : Fin 3 → K) (m : K) (s : Segment K) (ra rj rs : List (List (K × K)))
    (fuel : ℕ) (t1 t2 : K) :
    recursiveFeasibility sq ic g m s ra rj rs (fuel + 1) t1 t2 =
      if t2 - t1 < m then .ok .indeterminable
      else (do
        match ← sectionCheck sq ic g s ra rj rs t1 t2 with
        | some r => pure r
        | none =>
          let half := (t1 + t2) / 2
          let r1 ← recursiveFeasibility sq ic g m s ra rj rs fuel t1 half
          if r1 = .feasible then recursiveFeasibility sq ic g m s ra rj rs fuel half t2
          else pure r1) := rfl

section Rec
variable (rf : RootFinder ℝ) (hrf : Complete rf) (ic : InputConstraints ℝ)
    (g : Fin 3 → ℝ) (s : Segment ℝ) (h : s.WF) (hD : 3 ≤ s.D) (ra rj rs : List (List (ℝ × ℝ)))
    (hr : RootsOk rf ic s ra rj rs) (hom : ∀ l, ic.getConstraint kOmegaXYMax = some l → l < dblMax)
    (m : ℝ) (hm : 0 ≤ m)
include hrf h hD hr hom hm

theorem recursive_spec (fuel : ℕ) {a b : ℝ}
    (hfin : ∀ k ≤ 3, ∀ i < 3, ∀ t ∈ Icc a b, |axisVal s k i t| < dblMax) :
    recursiveFeasibility Real.sqrt ic g m s ra rj rs fuel a b = .hang ∨
    ∃ r, recursiveFeasibility Real.sqrt ic g m s ra rj rs fuel a b = .ok r ∧
      (r = .indeterminable ∨ VerdictOk ic g s a b r) := by
  induction fuel generalizing a b with
  | zero => left; rfl
  | succ fuel ih =>
    rw [recursiveFeasibility_succ]
    split
    · right; exact ⟨_, rfl, Or.inl rfl⟩
    · next hlen =>
      have hab : a ≤ b := by linarith [not_lt.mp hlen]
      obtain ⟨r, hr1, hr2⟩ := sectionCheck_ok rf hrf ic g s h hD ra rj rs hr hom hab hfin
      rw [hr1, Res.ok_bind]
      cases r with
      | some v => right; exact ⟨v, rfl, Or.inr (hr2 v rfl)⟩
      | none =>
        simp only
        have h1 : a ≤ (a + b) / 2 := by linarith
        have h2 : (a + b) / 2 ≤ b := by linarith
        have f1 : ∀ k ≤ 3, ∀ i < 3, ∀ t ∈ Icc a ((a + b) / 2), |axisVal s k i t| < dblMax :=
          fun k hk i hi t ht => hfin k hk i hi t ⟨ht.1, le_trans ht.2 h2⟩
        have f2 : ∀ k ≤ 3, ∀ i < 3, ∀ t ∈ Icc ((a + b) / 2) b, |axisVal s k i t| < dblMax :=
          fun k hk i hi t ht => hfin k hk i hi t ⟨le_trans h1 ht.1, ht.2⟩
        rcases ih f1 with e | ⟨r1, e, hv1⟩
        · left; rw [e]; rfl
        · rw [e, Res.ok_bind]
          by_cases hf : r1 = .feasible
          · rw [if_pos hf]
            subst hf
            rcases ih f2 with e2 | ⟨r2, e2, hv2⟩
            · left; exact e2
            · right
              refine ⟨r2, e2, ?_⟩
              rcases hv2 with hv2 | ⟨rfl, hv2⟩ | ⟨hv2, t, ht, hv3⟩
              · exact Or.inl hv2
              · right; left
                refine ⟨rfl, ?_⟩
                rcases hv1 with hv1 | ⟨_, hv1⟩ | ⟨hv1, _⟩
                · simp at hv1
                · intro t ht
                  rcases le_total t ((a + b) / 2) with hh | hh
                  · exact hv1 t ⟨ht.1, hh⟩
                  · exact hv2 t ⟨hh, ht.2⟩
                · simp at hv1
              · right; right
                exact ⟨hv2, t, ⟨le_trans h1 ht.1, ht.2⟩, hv3⟩
          · right
            rw [if_neg hf]
            refine ⟨r1, rfl, ?_⟩
            rcases hv1 with hv1 | ⟨hv1, _⟩ | ⟨hv1, t, ht, hv3⟩
            · exact Or.inl hv1
            · exact absurd hv1 hf
            · right; right
              exact ⟨hv1, t, ⟨ht.1, le_trans ht.2 h2⟩, hv3⟩

theorem recursive_terminates (n : ℕ) {a b : ℝ} (hlen : b - a < m * 2 ^ n)
    (hfin : ∀ k ≤ 3, ∀ i < 3, ∀ t ∈ Icc a b, |axisVal s k i t| < dblMax) :
    ∃ r, ∀ fuel, n < fuel → recursiveFeasibility Real.sqrt ic g m s ra rj rs fuel a b = .ok r := by
  induction n generalizing a b with
  | zero =>
    refine ⟨.indeterminable, ?_⟩
    intro fuel hf
    obtain ⟨f, rfl⟩ : ∃ f, fuel = f + 1 := ⟨fuel - 1, by omega⟩
    rw [recursiveFeasibility_succ, if_pos (by simpa using hlen)]
  | succ n ih =>
    by_cases hlen0 : b - a < m
    · refine ⟨.indeterminable, ?_⟩
      intro fuel hf
      obtain ⟨f, rfl⟩ : ∃ f, fuel = f + 1 := ⟨fuel - 1, by omega⟩
      rw [recursiveFeasibility_succ, if_pos hlen0]
    · have hab : a ≤ b := by linarith [not_lt.mp hlen0]
      obtain ⟨r, hr1, hr2⟩ := sectionCheck_ok rf hrf ic g s h hD ra rj rs hr hom hab hfin
      have h1 : a ≤ (a + b) / 2 := by linarith
      have h2 : (a + b) / 2 ≤ b := by linarith
      have f1 : ∀ k ≤ 3, ∀ i < 3, ∀ t ∈ Icc a ((a + b) / 2), |axisVal s k i t| < dblMax :=
        fun k hk i hi t ht => hfin k hk i hi t ⟨ht.1, le_trans ht.2 h2⟩
      have f2 : ∀ k ≤ 3, ∀ i < 3, ∀ t ∈ Icc ((a + b) / 2) b, |axisVal s k i t| < dblMax :=
        fun k hk i hi t ht => hfin k hk i hi t ⟨le_trans h1 ht.1, ht.2⟩
      rw [pow_succ] at hlen
      obtain ⟨r1, e1⟩ := ih (a := a) (b := (a + b) / 2) (by linarith) f1
      obtain ⟨r2, e2⟩ := ih (a := (a + b) / 2) (b := b) (by linarith) f2
      cases r with
      | some v =>
        refine ⟨v, ?_⟩
        intro fuel hf
        obtain ⟨f, rfl⟩ : ∃ f, fuel = f + 1 := ⟨fuel - 1, by omega⟩
        rw [recursiveFeasibility_succ, if_neg hlen0, hr1, Res.ok_bind]
        rfl
      | none =>
        refine ⟨if r1 = .feasible then r2 else r1, ?_⟩
        intro fuel hf
        obtain ⟨f, rfl⟩ : ∃ f, fuel = f + 1 := ⟨fuel - 1, by omega⟩
        rw [recursiveFeasibility_succ, if_neg hlen0, hr1, Res.ok_bind]
        simp only
        rw [e1 f (by omega), Res.ok_bind, e2 f (by omega)]
        split <;> rfl

end Rec

/-! #### yaw -/

theorem yawCheck_ok (rf : RootFinder ℝ) (hrf : Complete rf) (ic : InputConstraints ℝ) (s : Segment ℝ)
    (h : s.WF) (hD : 3 < s.D) (hT : 0 ≤ s.time) (type : ℤ) (k : ℕ) (hk : k < s.N) (hk2 : k ≤ 2)
    (bad : Verdict) (hfin : ∀ t ∈ Icc 0 s.time, |yaw s.polys k t| < dblMax) :
    ∃ r, yawCheck rf ic s type k bad = .ok r ∧
      ((r = none ∧ ∀ l, ic.getConstraint type = some l → ∀ t ∈ Icc 0 s.time, |yaw s.polys k t| ≤ l) ∨
       (r = some bad ∧ ∃ l, ic.getConstraint type = some l ∧ ∃ t ∈ Icc 0 s.time, l < |yaw s.polys k t|)) := by
  unfold yawCheck
  cases hl : ic.getConstraint type with
  | none => exact ⟨none, rfl, Or.inl ⟨rfl, by simp⟩⟩
  | some l =>
    simp only
    set p := s.polys[3]'hD with hp
    have hval : ∀ t, yaw s.polys k t = derivAt p.coeffs k t := fun t => axisVal_eq s k 3 t hD
    have hpN : p.N = s.N := h.polysN p (List.getElem_mem _)
    obtain ⟨m, M, e, h1, h2, h3, h4, h5⟩ := computeMinMax_ok rf hrf p (by rw [hpN]; exact h.small) k
      (by omega) (by unfold kMaxConvolutionSize; omega) hT
      (fun t ht => by rw [← hval]; exact hfin t ht)
    rw [segment_get_ok s 3 hD, Res.ok_bind]
    rw [show s.polys[3]'hD = p from rfl, e, Res.ok_bind]
    refine ⟨_, rfl, ?_⟩
    split
    · next hc =>
      right
      refine ⟨rfl, l, rfl, ?_⟩
      rcases lt_max_iff.mp hc with hc | hc
      · exact ⟨m.1, h1, by rw [hval, ← h2]; exact hc⟩
      · exact ⟨M.1, h3, by rw [hval, ← h4]; exact hc⟩
    · next hc =>
      left
      refine ⟨rfl, ?_⟩
      intro l' hl' t ht
      obtain rfl : l = l' := by simpa using hl'
      have hc' := not_lt.mp hc
      have hb := h5 t ht
      rw [← hval] at hb
      rw [abs_le]
      constructor
      · have q1 := neg_abs_le m.2
        have q2 := le_max_left |m.2| |M.2|
        linarith [hb.1]
      · have q1 := le_abs_self M.2
        have q2 := le_max_right |m.2| |M.2|
        linarith [hb.2]

theorem yawChecks_ok (rf : RootFinder ℝ) (hrf : Complete rf) (ic : InputConstraints ℝ) (g : Fin 3 → ℝ)
    (s : Segment ℝ) (h : s.WF) (hT : 0 ≤ s.time) (hN : 3 ≤ s.N) (hfin : Bounded s.polys s.time) :
    ∃ r, yawChecks rf ic s = .ok r ∧
      ((r = none ∧ (s.D = 4 → ∀ t ∈ Icc 0 s.time, YawLimitsHold ic s.polys t)) ∨
       (∃ v, r = some v ∧ (v = .yawRates ∨ v = .yawAcc) ∧ ∃ t ∈ Icc 0 s.time, Violated ic g s.polys t v)) := by
  unfold yawChecks
  by_cases hD : s.D = 4
  · rw [if_pos hD]
    obtain ⟨r1, e1, h1⟩ := yawCheck_ok rf hrf ic s h (by omega) hT kOmegaZMax 1 (by omega) (by omega)
      .yawRates (hfin.yaw 1 (by omega))
    have e1' : yawCheck rf ic s kOmegaZMax 1 .yawRates = .ok r1 := e1
    rw [e1', Res.ok_bind]
    rcases h1 with ⟨rfl, h1⟩ | ⟨rfl, l, hl, t, ht, hlt⟩
    · simp only
      obtain ⟨r2, e2, h2⟩ := yawCheck_ok rf hrf ic s h (by omega) hT kOmegaZDotMax 2 (by omega) (by omega)
        .yawAcc (hfin.yaw 2 (by omega))
      have e2' : yawCheck rf ic s kOmegaZDotMax 2 .yawAcc = .ok r2 := e2
      refine ⟨r2, e2', ?_⟩
      rcases h2 with ⟨rfl, h2⟩ | ⟨rfl, l, hl, t, ht, hlt⟩
      · left
        exact ⟨rfl, fun _ t ht => ⟨fun l hl => h1 l hl t ht, fun l hl => h2 l hl t ht⟩⟩
      · right
        exact ⟨_, rfl, Or.inr rfl, t, ht, l, hl, hlt⟩
    · exact ⟨_, rfl, Or.inr ⟨_, rfl, Or.inl rfl, t, ht, l, hl, hlt⟩⟩
  · rw [if_neg hD]
    exact ⟨none, rfl, Or.inl ⟨rfl, fun hh => absurd hh hD⟩⟩


/-! #### the whole check -/

/-- The roots are computed, or the root finder fails. -/
theorem roots_if (rf : RootFinder ℝ) (s : Segment ℝ) (h : s.WF) (hD : 3 ≤ s.D) (k : ℕ)
    (hk : k ≤ s.N) (hk2 : k < 22) (c : Prop) [Decidable c] :
    ((if c then rootsLoop rf s k [0, 1, 2] [] else .ok (some [])) = .ok none ∧ ∃ c, (rf c).1 = false) ∨
      ∃ roots, (if c then rootsLoop rf s k [0, 1, 2] [] else .ok (some [])) = .ok (some roots) ∧
        (c → RootsFor rf s k roots) := by
  by_cases hc : c
  · rw [if_pos hc]
    rcases rootsLoop_ok rf s h hD k hk hk2 with h1 | ⟨r, h1, h2⟩
    · exact Or.inl h1
    · exact Or.inr ⟨r, h1, fun _ => h2⟩
  · rw [if_neg hc]
    exact Or.inr ⟨[], rfl, fun h => absurd h hc⟩

/-- The whole check: the root finder fails and the verdict is `indeterminable`, or the recursion decides,
followed by the yaw checks. -/
theorem checkRecursive_cases (rf : RootFinder ℝ) (ic : InputConstraints ℝ) (g : Fin 3 → ℝ) (m : ℝ)
    (s : Segment ℝ) (h : s.WF) (hD : s.D = 3 ∨ s.D = 4) (hN : 4 ≤ s.N) :
    ((∀ fuel, s.checkRecursive rf Real.sqrt ic g m fuel = .ok .indeterminable) ∧
      ∃ c, (rf c).1 = false) ∨
    ∃ ra rj rs, RootsOk rf ic s ra rj rs ∧ ∀ fuel, s.checkRecursive rf Real.sqrt ic g m fuel = (do
      let r ← recursiveFeasibility Real.sqrt ic g m s ra rj rs fuel 0 s.time
      if r ≠ .feasible then pure r
      else
        match ← yawChecks rf ic s with
        | some r => pure r
        | none => pure .feasible) := by
  have hD3 : 3 ≤ s.D := by omega
  have r1 := roots_if rf s h hD3 2 (by omega) (by omega) (ic.hasConstraint kVMax = true)
  have r2 := roots_if rf s h hD3 3 (by omega) (by omega)
    (ic.hasConstraint kFMin = true ∨ ic.hasConstraint kFMax = true ∨ ic.hasConstraint kOmegaXYMax = true)
  have r3 := roots_if rf s h hD3 4 (by omega) (by omega) (ic.hasConstraint kOmegaXYMax = true)
  simp only [Nat.cast_ofNat] at r1 r2 r3
  rcases r1 with ⟨e1, hc⟩ | ⟨ra, e1, ha⟩
  · left
    refine ⟨fun fuel => ?_, hc⟩
    unfold Segment.checkRecursive
    rw [if_pos hD, e1]; rfl
  rcases r2 with ⟨e2, hc⟩ | ⟨rj, e2, hj⟩
  · left
    refine ⟨fun fuel => ?_, hc⟩
    unfold Segment.checkRecursive
    rw [if_pos hD, e1, Res.ok_bind]
    simp only
    rw [e2]; rfl
  rcases r3 with ⟨e3, hc⟩ | ⟨rs, e3, hs⟩
  · left
    refine ⟨fun fuel => ?_, hc⟩
    unfold Segment.checkRecursive
    rw [if_pos hD, e1, Res.ok_bind]
    simp only
    rw [e2, Res.ok_bind]
    simp only
    rw [e3]; rfl
  right
  refine ⟨ra, rj, rs, ⟨ha, hj, hs⟩, fun fuel => ?_⟩
  unfold Segment.checkRecursive
  rw [if_pos hD, e1, Res.ok_bind]
  simp only
  rw [e2, Res.ok_bind]
  simp only
  rw [e3, Res.ok_bind]
  rfl

theorem bounded_axis {s : Segment ℝ} (hfin : Bounded s.polys s.time) :
    ∀ k ≤ 3, ∀ i < 3, ∀ t ∈ Icc 0 s.time, |axisVal s k i t| < dblMax :=
  fun k hk i hi t ht => hfin.vec k hk ⟨i, hi⟩ t ht

/-- What the verdict of the whole check means. -/
theorem checkRecursive_spec (rf : RootFinder ℝ) (hrf : Complete rf) (ic : InputConstraints ℝ)
    (g : Fin 3 → ℝ) (m : ℝ) (hm : 0 ≤ m) (s : Segment ℝ) (h : s.WF) (hD : s.D = 3 ∨ s.D = 4)
    (hN : 4 ≤ s.N) (hT : 0 ≤ s.time)
    (hom : ∀ l, ic.getConstraint kOmegaXYMax = some l → l < dblMax) (hfin : Bounded s.polys s.time)
    (fuel : ℕ) :
    s.checkRecursive rf Real.sqrt ic g m fuel = .hang ∨
    ∃ r, s.checkRecursive rf Real.sqrt ic g m fuel = .ok r ∧
      (r = .indeterminable ∨
       (r = .feasible ∧ (∀ t ∈ Icc 0 s.time, LimitsHold ic g s.polys t) ∧
         (s.D = 4 → ∀ t ∈ Icc 0 s.time, YawLimitsHold ic s.polys t)) ∨
       (r ≠ .feasible ∧ r ≠ .rollPitchRates ∧ ∃ t ∈ Icc 0 s.time, Violated ic g s.polys t r)) := by
  rcases checkRecursive_cases rf ic g m s h hD hN with ⟨h1, _⟩ | ⟨ra, rj, rs, hr, h1⟩
  · exact Or.inr ⟨_, h1 fuel, Or.inl rfl⟩
  rw [h1 fuel]
  rcases recursive_spec rf hrf ic g s h (by omega) ra rj rs hr hom m hm fuel (bounded_axis hfin) with
    e | ⟨r, e, hv⟩
  · left; rw [e]; rfl
  right
  rw [e, Res.ok_bind]
  rcases hv with rfl | ⟨rfl, hv⟩ | ⟨hv, t, ht, hvi⟩
  · exact ⟨_, rfl, Or.inl rfl⟩
  · obtain ⟨y, ey, hy⟩ := yawChecks_ok rf hrf ic g s h hT (by omega) hfin
    simp only [ne_eq, not_true_eq_false, if_false]
    rw [ey, Res.ok_bind]
    rcases hy with ⟨rfl, hy⟩ | ⟨v, rfl, hy, t, ht, hvi⟩
    · exact ⟨_, rfl, Or.inr (Or.inl ⟨rfl, hv, hy⟩)⟩
    · refine ⟨v, rfl, Or.inr (Or.inr ⟨?_, ?_, t, ht, hvi⟩)⟩ <;> rcases hy with rfl | rfl <;> simp
  · refine ⟨r, ?_, Or.inr (Or.inr ⟨?_, ?_, t, ht, hvi⟩)⟩
    · rw [if_pos (by rcases hv with rfl | rfl | rfl <;> simp)]; rfl
    · rcases hv with rfl | rfl | rfl <;> simp
    · rcases hv with rfl | rfl | rfl <;> simp

end Verif
