import Verif.Model.FeasibilityAnalytic
import Verif.Proofs.FeasibilityRecursive
import Verif.Proofs.Magnitude

/- Helper lemmas for the analytic feasibility check. -/
set_option linter.unusedSectionVars false

namespace Verif

open Polynomial Spec Set

theorem kPosDim_eq : kPosDim = asInts [0, 1, 2] := rfl

theorem foldl_stdMin (val : ℝ → ℝ) (times : List ℝ) (t0 : ℝ) :
    ∃ tm ∈ t0 :: times, (times.map fun t => (⟨t, val t, 0⟩ : Extremum ℝ)).foldl Extremum.stdMin
      ⟨t0, val t0, 0⟩ = ⟨tm, val tm, 0⟩ ∧ ∀ t ∈ t0 :: times, val tm ≤ val t := by
  induction times generalizing t0 with
  | nil => exact ⟨t0, by simp, rfl, by simp⟩
  | cons t ts ih =>
    simp only [List.map_cons, List.foldl_cons]
    by_cases hc : val t < val t0
    · have e : Extremum.stdMin (⟨t0, val t0, 0⟩ : Extremum ℝ) ⟨t, val t, 0⟩ = ⟨t, val t, 0⟩ := by
        unfold Extremum.stdMin; rw [if_pos hc]
      rw [e]
      obtain ⟨tm, h1, h2, h3⟩ := ih t
      refine ⟨tm, by simp only [List.mem_cons] at h1 ⊢; tauto, h2, ?_⟩
      intro x hx
      rcases List.mem_cons.mp hx with rfl | hx
      · exact le_trans (h3 t (by simp)) hc.le
      · exact h3 x hx
    · have e : Extremum.stdMin (⟨t0, val t0, 0⟩ : Extremum ℝ) ⟨t, val t, 0⟩ = ⟨t0, val t0, 0⟩ := by
        unfold Extremum.stdMin; rw [if_neg hc]
      rw [e]
      obtain ⟨tm, h1, h2, h3⟩ := ih t0
      refine ⟨tm, by simp only [List.mem_cons] at h1 ⊢; tauto, h2, ?_⟩
      intro x hx
      rcases List.mem_cons.mp hx with rfl | hx
      · exact h3 x (by simp)
      · rcases List.mem_cons.mp hx with rfl | hx
        · exact le_trans (h3 t0 (by simp)) (not_lt.mp hc)
        · exact h3 x (by simp [hx])

theorem foldl_stdMax (val : ℝ → ℝ) (times : List ℝ) (t0 : ℝ) :
    ∃ tm ∈ t0 :: times, (times.map fun t => (⟨t, val t, 0⟩ : Extremum ℝ)).foldl Extremum.stdMax
      ⟨t0, val t0, 0⟩ = ⟨tm, val tm, 0⟩ ∧ ∀ t ∈ t0 :: times, val t ≤ val tm := by
  induction times generalizing t0 with
  | nil => exact ⟨t0, by simp, rfl, by simp⟩
  | cons t ts ih =>
    simp only [List.map_cons, List.foldl_cons]
    by_cases hc : val t0 < val t
    · have e : Extremum.stdMax (⟨t0, val t0, 0⟩ : Extremum ℝ) ⟨t, val t, 0⟩ = ⟨t, val t, 0⟩ := by
        unfold Extremum.stdMax; rw [if_pos hc]
      rw [e]
      obtain ⟨tm, h1, h2, h3⟩ := ih t
      refine ⟨tm, by simp only [List.mem_cons] at h1 ⊢; tauto, h2, ?_⟩
      intro x hx
      rcases List.mem_cons.mp hx with rfl | hx
      · exact le_trans hc.le (h3 t (by simp))
      · exact h3 x hx
    · have e : Extremum.stdMax (⟨t0, val t0, 0⟩ : Extremum ℝ) ⟨t, val t, 0⟩ = ⟨t0, val t0, 0⟩ := by
        unfold Extremum.stdMax; rw [if_neg hc]
      rw [e]
      obtain ⟨tm, h1, h2, h3⟩ := ih t0
      refine ⟨tm, by simp only [List.mem_cons] at h1 ⊢; tauto, h2, ?_⟩
      intro x hx
      rcases List.mem_cons.mp hx with rfl | hx
      · exact h3 x (by simp)
      · rcases List.mem_cons.mp hx with rfl | hx
        · exact le_trans (not_lt.mp hc) (h3 t0 (by simp))
        · exact h3 x (by simp [hx])

/-- Smallest and largest candidate are the minimum and maximum of the magnitude. -/
theorem elements_ok (rf : RootFinder ℝ) (s : Segment ℝ) (hD : 3 ≤ s.D) (k : ℕ) {a b : ℝ} (times : List ℝ)
    (hc : CandSpec rf s [0, 1, 2] k a b times) :
    (∃ tm ∈ Icc a b, minElement (times.map fun t => ⟨t, magnitude s.polys [0, 1, 2] k t, 0⟩) =
        .ok ⟨tm, magnitude s.polys [0, 1, 2] k tm, 0⟩ ∧
        ∀ t ∈ Icc a b, magnitude s.polys [0, 1, 2] k tm ≤ magnitude s.polys [0, 1, 2] k t) ∧
    (∃ tm ∈ Icc a b, maxElement (times.map fun t => ⟨t, magnitude s.polys [0, 1, 2] k t, 0⟩) =
        .ok ⟨tm, magnitude s.polys [0, 1, 2] k tm, 0⟩ ∧
        ∀ t ∈ Icc a b, magnitude s.polys [0, 1, 2] k t ≤ magnitude s.polys [0, 1, 2] k tm) := by
  have hds : ∀ d ∈ ([0, 1, 2] : List ℕ), d < s.D := by
    intro d hd
    simp only [List.mem_cons, List.not_mem_nil, or_false] at hd
    omega
  obtain ⟨rest, rfl⟩ := hc.first
  constructor
  · obtain ⟨tm, h1, h2, h3⟩ := foldl_stdMin (magnitude s.polys [0, 1, 2] k) (b :: rest) a
    refine ⟨tm, hc.inside tm h1, by rw [List.map_cons, minElement, h2], ?_⟩
    intro t ht
    obtain ⟨x, hx, hle⟩ := hc.lower (by simp) t ht
    refine le_trans (h3 x hx) ?_
    rw [magnitude_eq s _ hds, magnitude_eq s _ hds]
    exact Real.sqrt_le_sqrt hle
  · obtain ⟨tm, h1, h2, h3⟩ := foldl_stdMax (magnitude s.polys [0, 1, 2] k) (b :: rest) a
    refine ⟨tm, hc.inside tm h1, by rw [List.map_cons, maxElement, h2], ?_⟩
    intro t ht
    obtain ⟨x, hx, hle⟩ := hc.upper t ht
    refine le_trans ?_ (h3 x hx)
    rw [magnitude_eq s _ hds, magnitude_eq s _ hds]
    exact Real.sqrt_le_sqrt hle

theorem deriv_magnitude_sq (s : Segment ℝ) (ds : List ℕ) (hds : ∀ d ∈ ds, d < s.D) (k : ℕ) (t : ℝ) :
    deriv (fun x => magnitude s.polys ds k x ^ 2) t = (derivative (sqPoly s ds k)).eval t := by
  have : (fun x => magnitude s.polys ds k x ^ 2) = fun x => (sqPoly s ds k).eval x := by
    funext x
    rw [magnitude_eq s ds hds, Real.sq_sqrt (sqPoly_nonneg s ds k x)]
  rw [this, Polynomial.deriv]

theorem magnitude_speed (s : Segment ℝ) (t : ℝ) : magnitude s.polys [0, 1, 2] 1 t = speed s.polys t := by
  rw [speed_eq]; rfl

theorem magnitude_jerk (s : Segment ℝ) (t : ℝ) : magnitude s.polys [0, 1, 2] 3 t = jerk s.polys t := by
  rw [jerk_eq]; rfl

theorem thrust_eq3 (g : Fin 3 → ℝ) (s : Segment ℝ) (t : ℝ) : thrust g s.polys t =
    Real.sqrt ((axisVal s 2 0 t + g 0) ^ 2 + (axisVal s 2 1 t + g 1) ^ 2 + (axisVal s 2 2 t + g 2) ^ 2) := by
  rw [thrust_eq]
  simp only [List.map_cons, List.map_nil, List.sum_cons, List.sum_nil, add_zero, ← add_assoc]
  rfl

theorem jerk_eq3 (s : Segment ℝ) (t : ℝ) : jerk s.polys t =
    Real.sqrt (axisVal s 3 0 t ^ 2 + axisVal s 3 1 t ^ 2 + axisVal s 3 2 t ^ 2) := by
  rw [jerk_eq]
  simp only [List.map_cons, List.map_nil, List.sum_cons, List.sum_nil, add_zero, ← add_assoc]

/-! #### the thrust segment -/

theorem thrustPoly_ok (g : Fin 3 → ℝ) (s : Segment ℝ) (h : s.WF) (hD : 3 ≤ s.D) (hN : 3 ≤ s.N)
    (i : Fin 3) :
    ∃ p : Poly ℝ, thrustPoly g s i = .ok p ∧ p.N = s.N - 2 ∧
      ∀ t, derivAt p.coeffs 0 t = axisVal s 2 i t + g i := by
  have hi : (i : ℕ) < s.D := by omega
  have hpN : (s.polys[(i : ℕ)]'hi).N = s.N := h.polysN _ (List.getElem_mem _)
  obtain ⟨c, e1, hl, hd⟩ := getCoefficients_ok (s.polys[(i : ℕ)]'hi) 2 (by omega)
    (by rw [hpN]; exact h.small) (by unfold kMaxConvolutionSize; omega)
  have e2 : headN c (s.N - 2) = .ok (c.take (s.N - 2)) := by
    unfold headN; rw [if_pos (by omega)]
  have htake : ofCoeffs (c.take (s.N - 2)) = ofCoeffs c := by
    apply ofCoeffs_take
    intro m hm
    rw [hd]
    apply coeff_iterate_zero
    have : (s.polys[(i : ℕ)]'hi).coeffs.length = s.N := hpN
    omega
  match hc : c.take (s.N - 2) with
  | [] =>
    have := congrArg List.length hc
    rw [List.length_take, List.length_nil] at this
    have hl' : c.length = s.N := hl.trans hpN
    omega
  | a :: as =>
    refine ⟨⟨(a + g i) :: as⟩, ?_, ?_, ?_⟩
    · unfold thrustPoly
      have e1' : (s.polys[(i : ℕ)]'hi).getCoefficients 2 = .ok c := e1
      rw [segment_get_ok s i hi, Res.ok_bind, e1', Res.ok_bind, e2, Res.ok_bind, hc]
      rfl
    · have := congrArg List.length hc
      rw [List.length_take] at this
      have hl' : c.length = s.N := hl.trans hpN
      simp only [Poly.N, List.length_cons] at this ⊢
      omega
    · intro t
      have e3 : derivAt (a :: as) 0 t = axisVal s 2 i t := by
        rw [axisVal_eq s 2 i t hi]
        unfold derivAt
        rw [Function.iterate_zero, id_eq, ← hc, htake, hd]
      have e4 : ofCoeffs ((a + g i) :: as) = ofCoeffs (a :: as) + C (g i) := by
        ext m
        rw [coeff_add, coeff_ofCoeffs, coeff_ofCoeffs, coeff_C]
        cases m <;> simp
      unfold derivAt at e3 ⊢
      rw [Function.iterate_zero, id_eq] at e3 ⊢
      simp only
      rw [e4, eval_add, eval_C, e3]

theorem thrustSegment_ok (g : Fin 3 → ℝ) (s : Segment ℝ) (h : s.WF) (hD : 3 ≤ s.D) (hN : 3 ≤ s.N) :
    ∃ ts, thrustSegment g s = .ok ts ∧ ts.WF ∧ ts.D = 3 ∧ ts.N = s.N - 2 ∧ ts.time = s.time ∧
      ∀ t, magnitude ts.polys [0, 1, 2] 0 t = thrust g s.polys t := by
  obtain ⟨p0, e0, n0, v0⟩ := thrustPoly_ok g s h hD hN 0
  obtain ⟨p1, e1, n1, v1⟩ := thrustPoly_ok g s h hD hN 1
  obtain ⟨p2, e2, n2, v2⟩ := thrustPoly_ok g s h hD hN 2
  refine ⟨⟨[p0, p1, p2], s.time, s.N - 2⟩, ?_, ⟨?_, ?_⟩, rfl, rfl, rfl, ?_⟩
  · unfold thrustSegment
    simp only [List.mapM_cons, List.mapM_nil, e0, e1, e2, Res.ok_bind, Res.pure_eq]
  · intro p hp
    simp only [List.mem_cons, List.not_mem_nil, or_false] at hp
    rcases hp with rfl | rfl | rfl <;> assumption
  · have := h.small
    show s.N - 2 ≤ 22
    have h2 : s.N ≤ 22 := this
    omega
  · intro t
    rw [thrust_eq]
    unfold magnitude
    congr 1
    have q0 : (valuesAt [p0, p1, p2] 0 t).getD 0 0 = axisVal s 2 0 t + g 0 := by
      refine Eq.trans ?_ (v0 t); simp [valuesAt, ← iteratedDeriv_curve]
    have q1 : (valuesAt [p0, p1, p2] 0 t).getD 1 0 = axisVal s 2 1 t + g 1 := by
      refine Eq.trans ?_ (v1 t); simp [valuesAt, ← iteratedDeriv_curve]
    have q2 : (valuesAt [p0, p1, p2] 0 t).getD 2 0 = axisVal s 2 2 t + g 2 := by
      refine Eq.trans ?_ (v2 t); simp [valuesAt, ← iteratedDeriv_curve]
    simp only [List.map_cons, List.map_nil, q0, q1, q2]
    rfl

theorem candidatesViolate_ok (ic : InputConstraints ℝ) (type : ℤ) (e : Extremum ℝ)
    (p : ℝ → ℝ → Bool) :
    ∃ b, candidatesViolate ic type (.ok e) p = .ok b ∧
      (b = true ↔ ∃ l, ic.getConstraint type = some l ∧ p e.value l = true) := by
  unfold candidatesViolate
  cases hl : ic.getConstraint type with
  | none => exact ⟨false, rfl, by simp⟩
  | some l => exact ⟨p e.value l, rfl, by simp⟩

/-! #### selection in a part of the range -/

theorem selectMinMax_filter (a b : ℝ) (cands : List (Extremum ℝ)) (mn mx : Extremum ℝ) :
    selectMinMaxMagnitude a b cands mn mx =
      selectMinMaxMagnitude a b (cands.filter fun c => decide (a ≤ c.time ∧ c.time ≤ b)) mn mx := by
  unfold selectMinMaxMagnitude
  split
  · rfl
  · simp only
    have key : ∀ (l : List (Extremum ℝ)) (s0 : Extremum ℝ × Extremum ℝ),
        l.foldl (fun (s : Extremum ℝ × Extremum ℝ) c =>
          if c.time < a ∨ c.time > b then s else (s.1.stdMin c, s.2.stdMax c)) s0 =
        (l.filter fun c => decide (a ≤ c.time ∧ c.time ≤ b)).foldl
          (fun (s : Extremum ℝ × Extremum ℝ) c =>
          if c.time < a ∨ c.time > b then s else (s.1.stdMin c, s.2.stdMax c)) s0 := by
      intro l
      induction l with
      | nil => intro s0; rfl
      | cons c cs ih =>
        intro s0
        rw [List.foldl_cons, ih]
        by_cases hc : a ≤ c.time ∧ c.time ≤ b
        · rw [List.filter_cons_of_pos (by simpa using hc), List.foldl_cons]
        · rw [List.filter_cons_of_neg (by simpa using hc), if_pos]
          by_contra hn
          push Not at hn
          exact hc hn
    rw [key]

theorem select_ok (val : ℝ → ℝ) {a b : ℝ} (hab : a ≤ b) (times : List ℝ) (t0 : ℝ) (ht0 : t0 ∈ times)
    (ht0' : t0 ∈ Icc a b) (hfin : -dblMax < val t0 ∧ val t0 < dblMax) (mn0 mx0 : Extremum ℝ) :
    ∃ tm ∈ times, ∃ tM ∈ times, tm ∈ Icc a b ∧ tM ∈ Icc a b ∧
      selectMinMaxMagnitude a b (times.map fun t => (⟨t, val t, 0⟩ : Extremum ℝ)) mn0 mx0 =
        (true, ⟨tm, val tm, 0⟩, ⟨tM, val tM, 0⟩) ∧
      ∀ t ∈ times, t ∈ Icc a b → val tm ≤ val t ∧ val t ≤ val tM := by
  have e : (times.map fun t => (⟨t, val t, 0⟩ : Extremum ℝ)).filter
      (fun c => decide (a ≤ c.time ∧ c.time ≤ b)) =
      (times.filter fun t => decide (a ≤ t ∧ t ≤ b)).map fun t => (⟨t, val t, 0⟩ : Extremum ℝ) := by
    rw [List.filter_map]; rfl
  rw [selectMinMax_filter, e]
  have hm : ∀ t, t ∈ times.filter (fun t => decide (a ≤ t ∧ t ≤ b)) ↔ t ∈ times ∧ t ∈ Icc a b := by
    intro t
    rw [List.mem_filter, decide_eq_true_eq]; rfl
  obtain ⟨tm, h1, tM, h2, h3, h4⟩ := selectMinMaxMagnitude_ok val hab
    (times.filter fun t => decide (a ≤ t ∧ t ≤ b)) (fun t ht => ((hm t).mp ht).2) t0
    ((hm t0).mpr ⟨ht0, ht0'⟩) hfin mn0 mx0
  exact ⟨tm, ((hm _).mp h1).1, tM, ((hm _).mp h2).1, ((hm _).mp h1).2, ((hm _).mp h2).2, h3,
    fun t ht ht' => h4 t ((hm t).mpr ⟨ht, ht'⟩)⟩

/-- The candidates for extrema of the thrust on the whole segment. -/
structure ThrustCands (rf : RootFinder ℝ) (g : Fin 3 → ℝ) (s : Segment ℝ) (times : List ℝ) : Prop where
  zero : (0 : ℝ) ∈ times
  last : s.time ∈ times
  inside : ∀ t ∈ times, t ∈ Icc 0 s.time
  lower : ∀ x ∈ Icc 0 s.time, ∃ t ∈ times, thrust g s.polys t ≤ thrust g s.polys x
  only : Exact rf → ∀ t ∈ times, t = 0 ∨ t = s.time ∨ deriv (fun x => thrust g s.polys x ^ 2) t = 0

theorem analyticThrust_ok (rf : RootFinder ℝ) (hrf : Complete rf) (ic : InputConstraints ℝ)
    (g : Fin 3 → ℝ) (s : Segment ℝ) (h : s.WF) (hD : 3 ≤ s.D) (hN : 3 ≤ s.N) (hT : 0 ≤ s.time) :
    ∃ v times ts, analyticThrust rf Real.sqrt ic g s =
        .ok (v, times.map (fun t => ⟨t, thrust g s.polys t, 0⟩), ts) ∧ ThrustCands rf g s times ∧
      ((v = .feasible ∧ (∀ l, ic.getConstraint kFMin = some l → ∀ t ∈ Icc 0 s.time, l ≤ thrust g s.polys t) ∧
        (∀ l, ic.getConstraint kFMax = some l → ∀ t ∈ Icc 0 s.time, thrust g s.polys t ≤ l)) ∨
       ((v = .thrustLow ∨ v = .thrustHigh) ∧ ∃ t ∈ Icc 0 s.time, Violated ic g s.polys t v)) := by
  obtain ⟨ts, e, hwf, htD, htN, htt, hmag⟩ := thrustSegment_ok g s h hD hN
  have hds : ∀ d ∈ ([0, 1, 2] : List ℕ), d < ts.D := by
    intro d hd
    simp only [List.mem_cons, List.not_mem_nil, or_false] at hd
    omega
  obtain ⟨times, ec, hcs⟩ := magnitudeCandidates_ok rf hrf ts hwf 0 (by omega) (by omega) [0, 1, 2]
    (by simp) hds (a := 0) (b := ts.time) (by rw [htt]; exact hT)
  obtain ⟨⟨t1, ht1, em, hmin⟩, ⟨t2, ht2, eM, hmax⟩⟩ := elements_ok rf ts (by omega) 0 times hcs
  rw [htt] at ht1 ht2 hmin hmax
  simp only [hmag] at ec em eM hmin hmax
  have hcands : ThrustCands rf g s times := by
    obtain ⟨rest, hrest⟩ := hcs.first
    refine ⟨by rw [hrest]; simp, by rw [hrest, htt]; simp, fun t ht => htt ▸ hcs.inside t ht, ?_, ?_⟩
    swap
    · intro hex t ht
      rcases hcs.only (by simp) hex t ht with h | h | h
      · exact Or.inl h
      · exact Or.inr (Or.inl (h.trans htt))
      · right; right
        rw [← h, ← deriv_magnitude_sq ts _ hds]
        simp only [hmag]
    intro x hx
    obtain ⟨t, ht, hle⟩ := hcs.lower (by simp) x (by rw [htt]; exact hx)
    refine ⟨t, ht, ?_⟩
    rw [← hmag, ← hmag, magnitude_eq ts _ hds, magnitude_eq ts _ hds]
    exact Real.sqrt_le_sqrt hle
  obtain ⟨low, elow, hlow⟩ := candidatesViolate_ok ic kFMin ⟨t1, thrust g s.polys t1, 0⟩
    (fun v lim => decide (v < lim))
  obtain ⟨high, ehigh, hhigh⟩ := candidatesViolate_ok ic kFMax ⟨t2, thrust g s.polys t2, 0⟩
    (fun v lim => decide (v > lim))
  have ec' : ts.magnitudeCandidates rf Real.sqrt 0 0 ts.time kPosDim =
    .ok (true, times.map fun t => ⟨t, thrust g s.polys t, 0⟩) := ec
  have red : analyticThrust rf Real.sqrt ic g s = .ok (if low then
      (.thrustLow, times.map (fun t => ⟨t, thrust g s.polys t, 0⟩), ts)
      else if high then (.thrustHigh, times.map (fun t => ⟨t, thrust g s.polys t, 0⟩), ts)
      else (.feasible, times.map (fun t => ⟨t, thrust g s.polys t, 0⟩), ts)) := by
    unfold analyticThrust
    rw [e, Res.ok_bind, ec', Res.ok_bind]
    simp only [Bool.not_true, Bool.false_eq_true, if_false]
    rw [em, elow, Res.ok_bind]
    cases low
    · simp only [Bool.false_eq_true, if_false]
      rw [eM, ehigh, Res.ok_bind]
      cases high <;> rfl
    · rfl
  rw [red]
  cases low with
  | true =>
    obtain ⟨l, hl, hp⟩ := hlow.mp rfl
    refine ⟨_, times, ts, rfl, hcands, Or.inr ⟨Or.inl rfl, t1, ht1, l, hl, by simpa using hp⟩⟩
  | false =>
    have hl0 : ∀ l, ic.getConstraint kFMin = some l → ∀ t ∈ Icc 0 s.time, l ≤ thrust g s.polys t := by
      intro l hl t ht
      by_contra hc
      have := hlow.mpr ⟨l, hl, by
        rw [decide_eq_true_eq]
        exact lt_of_le_of_lt (hmin t ht) (not_le.mp hc)⟩
      simp at this
    cases high with
    | true =>
      obtain ⟨l, hl, hp⟩ := hhigh.mp rfl
      refine ⟨_, times, ts, rfl, hcands, Or.inr ⟨Or.inr rfl, t2, ht2, l, hl, by simpa using hp⟩⟩
    | false =>
      refine ⟨_, times, ts, rfl, hcands, Or.inl ⟨rfl, hl0, ?_⟩⟩
      intro l hl t ht
      by_contra hc
      have := hhigh.mpr ⟨l, hl, by
        rw [decide_eq_true_eq]
        exact lt_of_lt_of_le (not_le.mp hc) (hmax t ht)⟩
      simp at this

theorem analyticVelocity_ok (rf : RootFinder ℝ) (hrf : Complete rf) (ic : InputConstraints ℝ)
    (g : Fin 3 → ℝ) (s : Segment ℝ) (h : s.WF) (hD : 3 ≤ s.D) (hN : 2 ≤ s.N) (hT : 0 ≤ s.time) :
    ∃ r, analyticVelocity rf Real.sqrt ic s = .ok r ∧
      ((r = none ∧ ∀ l, ic.getConstraint kVMax = some l → ∀ t ∈ Icc 0 s.time, speed s.polys t ≤ l) ∨
       (r = some .velocity ∧ ∃ t ∈ Icc 0 s.time, Violated ic g s.polys t .velocity)) := by
  unfold analyticVelocity
  cases hl : ic.getConstraint kVMax with
  | none => exact ⟨none, rfl, Or.inl ⟨rfl, by simp⟩⟩
  | some l =>
    simp only
    have hds : ∀ d ∈ ([0, 1, 2] : List ℕ), d < s.D := by
      intro d hd
      simp only [List.mem_cons, List.not_mem_nil, or_false] at hd
      omega
    obtain ⟨times, ec, hcs⟩ := magnitudeCandidates_ok rf hrf s h 1 (by omega) (by omega) [0, 1, 2]
      (by simp) hds hT
    obtain ⟨_, ⟨t2, ht2, eM, hmax⟩⟩ := elements_ok rf s hD 1 times hcs
    have ec' : s.magnitudeCandidates rf Real.sqrt 1 0 s.time kPosDim =
      .ok (true, times.map fun t => ⟨t, magnitude s.polys [0, 1, 2] 1 t, 0⟩) := ec
    rw [ec', Res.ok_bind]
    simp only [Bool.not_true, Bool.false_eq_true, if_false]
    rw [eM, Res.ok_bind]
    simp only [magnitude_speed] at hmax ⊢
    refine ⟨_, rfl, ?_⟩
    split
    · next hc => exact Or.inr ⟨rfl, t2, ht2, l, hl, hc⟩
    · next hc =>
      left
      refine ⟨rfl, ?_⟩
      intro l' hl' t ht
      obtain rfl : l = l' := by simpa using hl'
      exact le_trans (hmax t ht) (not_lt.mp hc)

/-! #### the recursion -/

theorem recursiveRollPitch_succ {K : Type} [Field K] [LinearOrder K] (sq : K → K)
    (ic : InputConstraints K) (minSection : K) (tc jc : List (Extremum K)) (fuel : ℕ) (t1 t2 : K) :
    recursiveRollPitch sq ic minSection tc jc (fuel + 1) t1 t2 =
      if t2 - t1 < minSection then .ok .indeterminable
      else
        let f := selectMinMaxMagnitude t1 t2 tc Extremum.zero Extremum.zero
        if !f.1 then .ok .indeterminable
        else
          let j := selectMinMaxMagnitude t1 t2 jc Extremum.zero Extremum.zero
          if !j.1 then .ok .indeterminable
          else
            let upper := if f.2.1.value > 1 / 10 ^ 6 then sq (j.2.2.value / f.2.1.value) else dblMax
            match ic.getConstraint kOmegaXYMax with
            | none => .ok .feasible
            | some limit =>
              if upper > limit then (do
                let half := (t1 + t2) / 2
                let r1 ← recursiveRollPitch sq ic minSection tc jc fuel t1 half
                if r1 = .feasible then recursiveRollPitch sq ic minSection tc jc fuel half t2
                else pure r1)
              else .ok .feasible := rfl

theorem recursiveRollPitch_step (sq : ℝ → ℝ) (ic : InputConstraints ℝ) (m : ℝ) (hm : 0 ≤ m)
    (tc jc : List (Extremum ℝ)) (l : ℝ) (hl : ic.getConstraint kOmegaXYMax = some l) (fuel : ℕ)
    (t1 t2 : ℝ) (hlen : ¬ t2 - t1 < m) :
    recursiveRollPitch sq ic m tc jc (fuel + 1) t1 t2 =
      if (if (selectMinMaxMagnitude t1 t2 tc Extremum.zero Extremum.zero).2.1.value > 1 / 10 ^ 6
          then sq ((selectMinMaxMagnitude t1 t2 jc Extremum.zero Extremum.zero).2.2.value /
            (selectMinMaxMagnitude t1 t2 tc Extremum.zero Extremum.zero).2.1.value) else dblMax) > l
      then (do
        let r1 ← recursiveRollPitch sq ic m tc jc fuel t1 ((t1 + t2) / 2)
        if r1 = .feasible then recursiveRollPitch sq ic m tc jc fuel ((t1 + t2) / 2) t2
        else pure r1)
      else .ok .feasible := by
  have hle : ¬ t1 > t2 := by
    have := not_lt.mp hlen
    intro h
    linarith
  have flag : ∀ c : List (Extremum ℝ),
      (selectMinMaxMagnitude t1 t2 c Extremum.zero Extremum.zero).1 = true := by
    intro c
    unfold selectMinMaxMagnitude
    rw [if_neg hle]
  rw [recursiveRollPitch_succ, if_neg hlen]
  simp only [flag, Bool.not_true, Bool.false_eq_true, if_false, hl]

/-- The recursion only ever answers "feasible" or "indeterminable". -/
theorem recursiveRollPitch_range (sq : ℝ → ℝ) (ic : InputConstraints ℝ) (m : ℝ)
    (tc jc : List (Extremum ℝ)) (fuel : ℕ) (t1 t2 : ℝ) :
    recursiveRollPitch sq ic m tc jc fuel t1 t2 = .hang ∨
    recursiveRollPitch sq ic m tc jc fuel t1 t2 = .ok .feasible ∨
    recursiveRollPitch sq ic m tc jc fuel t1 t2 = .ok .indeterminable := by
  induction fuel generalizing t1 t2 with
  | zero => left; rfl
  | succ fuel ih =>
    rw [recursiveRollPitch_succ]
    split
    · simp
    · simp only
      split
      · simp
      · split
        · simp
        · cases ic.getConstraint kOmegaXYMax with
          | none => simp
          | some l =>
            simp only
            generalize (if (selectMinMaxMagnitude t1 t2 tc Extremum.zero Extremum.zero).2.1.value >
              1 / 10 ^ 6 then sq ((selectMinMaxMagnitude t1 t2 jc Extremum.zero Extremum.zero).2.2.value /
              (selectMinMaxMagnitude t1 t2 tc Extremum.zero Extremum.zero).2.1.value) else dblMax) = u
            split
            · rcases ih t1 ((t1 + t2) / 2) with e | e | e
              · left; rw [e]; rfl
              · rw [e, Res.ok_bind, if_pos rfl]
                exact ih _ _
              · right; right
                rw [e]; rfl
            · simp

theorem recursiveRollPitch_terminates (sq : ℝ → ℝ) (ic : InputConstraints ℝ) (m : ℝ)
    (tc jc : List (Extremum ℝ)) (n : ℕ) (t1 t2 : ℝ) (hlen : t2 - t1 < m * 2 ^ n) :
    ∃ r, ∀ fuel, n < fuel → recursiveRollPitch sq ic m tc jc fuel t1 t2 = .ok r := by
  induction n generalizing t1 t2 with
  | zero =>
    refine ⟨.indeterminable, ?_⟩
    intro fuel hf
    obtain ⟨f, rfl⟩ : ∃ f, fuel = f + 1 := ⟨fuel - 1, by omega⟩
    rw [recursiveRollPitch_succ, if_pos (by simpa using hlen)]
  | succ n ih =>
    rw [pow_succ] at hlen
    obtain ⟨r1, e1⟩ := ih t1 ((t1 + t2) / 2) (by linarith)
    obtain ⟨r2, e2⟩ := ih ((t1 + t2) / 2) t2 (by linarith)
    have key : ∀ fuel fuel', n + 1 < fuel → n + 1 < fuel' →
        recursiveRollPitch sq ic m tc jc fuel t1 t2 = recursiveRollPitch sq ic m tc jc fuel' t1 t2 := by
      intro fuel fuel' hf hf'
      obtain ⟨f, rfl⟩ : ∃ f, fuel = f + 1 := ⟨fuel - 1, by omega⟩
      obtain ⟨f', rfl⟩ : ∃ f, fuel' = f + 1 := ⟨fuel' - 1, by omega⟩
      rw [recursiveRollPitch_succ, recursiveRollPitch_succ]
      simp only
      rw [e1 f (by omega), e1 f' (by omega), e2 f (by omega), e2 f' (by omega)]
    have hnh : recursiveRollPitch sq ic m tc jc (n + 2) t1 t2 ≠ .hang := by
      rw [recursiveRollPitch_succ]
      simp only
      rw [e1 (n + 1) (by omega), e2 (n + 1) (by omega)]
      split
      · simp
      · split
        · simp
        · split
          · simp
          · cases ic.getConstraint kOmegaXYMax with
            | none => simp
            | some l =>
              simp only [Res.ok_bind]
              generalize (if (selectMinMaxMagnitude t1 t2 tc Extremum.zero Extremum.zero).2.1.value >
                1 / 10 ^ 6 then sq ((selectMinMaxMagnitude t1 t2 jc Extremum.zero Extremum.zero).2.2.value /
                (selectMinMaxMagnitude t1 t2 tc Extremum.zero Extremum.zero).2.1.value) else dblMax) = u
              split
              · split
                · simp
                · simp [Res.pure_eq]
              · simp
    rcases recursiveRollPitch_range sq ic m tc jc (n + 2) t1 t2 with e | e | e
    · exact absurd e hnh
    · exact ⟨_, fun fuel hf => by rw [key fuel (n + 2) hf (by omega), e]⟩
    · exact ⟨_, fun fuel hf => by rw [key fuel (n + 2) hf (by omega), e]⟩

/-! #### the whole check -/

theorem thrustPart_ok (rf : RootFinder ℝ) (hrf : Complete rf) (ic : InputConstraints ℝ)
    (g : Fin 3 → ℝ) (s : Segment ℝ) (h : s.WF) (hD : 3 ≤ s.D) (hN : 3 ≤ s.N) (hT : 0 ≤ s.time) :
    ∃ v tc, thrustPart rf Real.sqrt ic g s = .ok (v, tc) ∧
      (ic.hasConstraint kOmegaXYMax = true →
        ∃ times, ThrustCands rf g s times ∧ tc = times.map fun t => ⟨t, thrust g s.polys t, 0⟩) ∧
      ((v = .feasible ∧ (∀ l, ic.getConstraint kFMin = some l → ∀ t ∈ Icc 0 s.time, l ≤ thrust g s.polys t) ∧
        (∀ l, ic.getConstraint kFMax = some l → ∀ t ∈ Icc 0 s.time, thrust g s.polys t ≤ l)) ∨
       ((v = .thrustLow ∨ v = .thrustHigh) ∧ ∃ t ∈ Icc 0 s.time, Violated ic g s.polys t v)) := by
  unfold thrustPart
  split
  · obtain ⟨v, times, ts, e, h1, h2⟩ := analyticThrust_ok rf hrf ic g s h hD hN hT
    rw [e, Res.ok_bind]
    exact ⟨v, _, rfl, fun _ => ⟨times, h1, rfl⟩, h2⟩
  · next hc =>
    refine ⟨_, _, rfl, fun hh => absurd (Or.inr (Or.inr hh)) hc, Or.inl ⟨rfl, ?_, ?_⟩⟩
    · intro l hl
      exact absurd (Or.inl ((hasConstraint_iff ic _).mpr ⟨l, hl⟩)) hc
    · intro l hl
      exact absurd (Or.inr (Or.inl ((hasConstraint_iff ic _).mpr ⟨l, hl⟩))) hc

/-- The translational and yaw limits other than the one on roll and pitch rates hold. -/
structure OtherLimits (ic : InputConstraints ℝ) (g : Fin 3 → ℝ) (s : Segment ℝ) : Prop where
  fMin : ∀ l, ic.getConstraint kFMin = some l → ∀ t ∈ Icc 0 s.time, l ≤ thrust g s.polys t
  fMax : ∀ l, ic.getConstraint kFMax = some l → ∀ t ∈ Icc 0 s.time, thrust g s.polys t ≤ l
  vMax : ∀ l, ic.getConstraint kVMax = some l → ∀ t ∈ Icc 0 s.time, speed s.polys t ≤ l
  yaw : s.D = 4 → ∀ t ∈ Icc 0 s.time, YawLimitsHold ic s.polys t

/-- The check either finds a violation, or all limits except roll and pitch rates hold and the recursion
decides. -/
theorem checkAnalytic_cases (rf : RootFinder ℝ) (hrf : Complete rf) (ic : InputConstraints ℝ)
    (g : Fin 3 → ℝ) (m : ℝ) (s : Segment ℝ) (h : s.WF) (hD : s.D = 3 ∨ s.D = 4) (hN : 4 ≤ s.N)
    (hT : 0 ≤ s.time) (hfin : Bounded s.polys s.time) :
    (∃ v, (∀ fuel, s.checkAnalytic rf Real.sqrt ic g m fuel = .ok v) ∧
      (v = .thrustLow ∨ v = .thrustHigh ∨ v = .velocity ∨ v = .yawRates ∨ v = .yawAcc) ∧
      ∃ t ∈ Icc 0 s.time, Violated ic g s.polys t v) ∨
    (OtherLimits ic g s ∧
      ((ic.getConstraint kOmegaXYMax = none ∧
        ∀ fuel, s.checkAnalytic rf Real.sqrt ic g m fuel = .ok .feasible) ∨
       ∃ l times jtimes, ic.getConstraint kOmegaXYMax = some l ∧ ThrustCands rf g s times ∧
        CandSpec rf s [0, 1, 2] 3 0 s.time jtimes ∧
        ∀ fuel, s.checkAnalytic rf Real.sqrt ic g m fuel = recursiveRollPitch Real.sqrt ic m
          (times.map fun t => ⟨t, thrust g s.polys t, 0⟩) (jtimes.map fun t => ⟨t, jerk s.polys t, 0⟩)
          fuel 0 s.time)) := by
  have hD3 : 3 ≤ s.D := by omega
  obtain ⟨v, tc, e1, htc, h1⟩ := thrustPart_ok rf hrf ic g s h hD3 (by omega) hT
  have red1 : ∀ fuel, v ≠ .feasible → s.checkAnalytic rf Real.sqrt ic g m fuel = .ok v := by
    intro fuel hv
    unfold Segment.checkAnalytic
    rw [if_pos hD, if_neg (by omega), e1, Res.ok_bind]
    simp only
    rw [if_pos hv]; rfl
  rcases h1 with ⟨rfl, hf1, hf2⟩ | ⟨hv, hviol⟩
  swap
  · left
    exact ⟨v, fun fuel => red1 fuel (by rcases hv with rfl | rfl <;> simp), by tauto, hviol⟩
  obtain ⟨r2, e2, h2⟩ := analyticVelocity_ok rf hrf ic g s h hD3 (by omega) hT
  rcases h2 with ⟨rfl, hv⟩ | ⟨rfl, hviol⟩
  swap
  · left
    refine ⟨.velocity, fun fuel => ?_, by tauto, hviol⟩
    unfold Segment.checkAnalytic
    rw [if_pos hD, if_neg (by omega), e1, Res.ok_bind]
    simp only [ne_eq, not_true_eq_false, if_false]
    rw [e2]; rfl
  obtain ⟨r3, e3, h3⟩ := yawChecks_ok rf hrf ic g s h hT (by omega) hfin
  rcases h3 with ⟨rfl, hy⟩ | ⟨w, rfl, hw, hviol⟩
  swap
  · left
    refine ⟨w, fun fuel => ?_, by tauto, hviol⟩
    unfold Segment.checkAnalytic
    rw [if_pos hD, if_neg (by omega), e1, Res.ok_bind]
    simp only [ne_eq, not_true_eq_false, if_false]
    rw [e2, Res.ok_bind]
    simp only
    rw [e3]; rfl
  right
  refine ⟨⟨hf1, hf2, hv, hy⟩, ?_⟩
  have red : ∀ fuel, s.checkAnalytic rf Real.sqrt ic g m fuel =
      if ic.hasConstraint kOmegaXYMax then (do
        let j ← s.magnitudeCandidates rf Real.sqrt 3 0 s.time kPosDim
        if !j.1 then pure .indeterminable
        else recursiveRollPitch Real.sqrt ic m tc j.2 fuel 0 s.time)
      else pure .feasible := by
    intro fuel
    unfold Segment.checkAnalytic
    rw [if_pos hD, if_neg (by omega), e1, Res.ok_bind]
    simp only [ne_eq, not_true_eq_false, if_false]
    rw [e2, Res.ok_bind]
    simp only
    rw [e3, Res.ok_bind]
  by_cases hc : ic.hasConstraint kOmegaXYMax = true
  · right
    obtain ⟨l, hl⟩ := (hasConstraint_iff ic _).mp hc
    obtain ⟨times, hth, rfl⟩ := htc hc
    obtain ⟨jt, ec, hcs⟩ := magnitudeCandidates_ok rf hrf s h 3 (by omega) (by omega) [0, 1, 2]
      (by simp) (by
        intro d hd
        simp only [List.mem_cons, List.not_mem_nil, or_false] at hd
        omega) hT
    refine ⟨l, times, jt, hl, hth, hcs, fun fuel => ?_⟩
    have ec' : s.magnitudeCandidates rf Real.sqrt 3 0 s.time kPosDim =
      .ok (true, jt.map fun t => ⟨t, magnitude s.polys [0, 1, 2] 3 t, 0⟩) := ec
    rw [red fuel, if_pos hc, ec', Res.ok_bind]
    simp only [magnitude_jerk, Bool.not_true, Bool.false_eq_true, if_false]
  · left
    refine ⟨?_, fun fuel => by rw [red fuel, if_neg hc]; rfl⟩
    by_contra hn
    obtain ⟨l, hl⟩ := Option.ne_none_iff_exists'.mp hn
    exact hc ((hasConstraint_iff ic _).mpr ⟨l, hl⟩)

end Verif
