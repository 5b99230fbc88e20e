import Verif.Proofs.DoubleSampling

/-
The recursive check with a limit on the lowest thrust only accepts a NaN acceleration.
-/
namespace Verif

open Spec

variable {dot : Dot Dbl} {g : Fin 3 → Dbl}

theorem zero_mul_fin (x : ℝ) : (0 : Dbl) * .fin x = 0 := by
  change Dbl.ofReal (0 * x) = _
  rw [zero_mul, ofReal_zero]
  rfl

theorem fin_mul_zero (x : ℝ) : Dbl.fin x * 0 = 0 := by
  change Dbl.ofReal (x * 0) = _
  rw [mul_zero, ofReal_zero]
  rfl

theorem zero_add_zero : (0 : Dbl) + 0 = 0 := by
  change Dbl.ofReal (0 + 0) = _
  rw [add_zero, ofReal_zero]
  rfl

/-- The accelerations of a polynomial of four zero coefficients are zero. -/
theorem evaluate_zero4 (t : ℝ) : (Poly.mk [(0 : Dbl), 0, 0, 0]).evaluate (.fin t) 2 = .ok 0 := by
  have hb : ∀ j : ℕ, 2 ≤ j → j ≤ 3 → ∃ x : ℝ, (baseCoeff 2 j : Dbl) = .fin x := fun j h1 h2 => by
    obtain ⟨θ, -, h⟩ := baseCoeff_double 2 j (by omega) (by omega)
    exact ⟨_, h⟩
  obtain ⟨x2, e2⟩ := hb 2 (by omega) (by omega)
  obtain ⟨x3, e3⟩ := hb 3 (by omega) (by omega)
  unfold Poly.evaluate
  rw [if_neg (by norm_num [Poly.N]), if_neg (by norm_num [Poly.N, kMaxConvolutionSize])]
  congr 1
  change hornerDown (fun j => (baseCoeff 2 j : Dbl) * [(0 : Dbl), 0, 0, 0].getD j 0) (.fin t) 2 1
    ((baseCoeff 2 3 : Dbl) * 0) = 0
  rw [hornerDown, hornerDown]
  change (baseCoeff 2 3 : Dbl) * 0 * Dbl.fin t + (baseCoeff 2 2 : Dbl) * 0 = 0
  rw [e2, e3, fin_mul_zero, fin_mul_zero, zero_mul_fin, zero_add_zero]

theorem dblMax_double : IsDouble dblMax := by
  refine ⟨2 ^ 53 - 1, 971, by norm_num, by norm_num, le_rfl, ?_⟩
  unfold dblMax
  rw [← zpow_natCast (2 : ℝ) 971]
  push_cast
  ring

theorem Spec.IsDouble.ofReal {x : ℝ} (h : IsDouble x) : Dbl.ofReal x = .fin x := by
  unfold Dbl.ofReal
  rw [h.round64, if_pos h.lt]

theorem largest_pos : (0 : ℝ) < dblMax := by
  have := dblMax_big
  have := zpow2_pos 1000
  generalize (2 : ℝ) ^ (1000 : ℤ) = A at *
  linarith

theorem ofReal_one_le {x : ℝ} (h1 : 1 ≤ x) (h2 : x ≤ 2 ^ (20 : ℕ)) : ∃ z, Dbl.ofReal x = .fin z ∧ 1 ≤ z ∧ z ≤ 2 ^ (21 : ℕ) := by
  have h3 : (2 : ℝ) ^ (20 : ℕ) ≤ (2 : ℝ) ^ (1023 : ℤ) := by
    rw [← zpow_natCast]
    exact zpow_le_zpow_right₀ (by norm_num) (by norm_num)
  refine ⟨round64 x, ofReal_half (by rw [abs_of_nonneg (by linarith)]; exact h2.trans h3), ?_, ?_⟩
  · have := round64_mono_pow (x := x) (e := 0) le_rfl (by simpa using h1)
    simpa using this
  · have h := round64_nearest x (m := 1) (e := 20) (by norm_num) (by norm_num)
    rw [Int.cast_one, one_mul, show ((2 : ℝ) ^ (20 : ℤ)) = 2 ^ (20 : ℕ) by norm_num] at h
    have a := (abs_le.mp h).2
    rw [abs_of_nonneg (by linarith)] at a
    norm_num at a h2 ⊢
    linarith

/-- The segment with a NaN third derivative in the first axis. -/
def nanJerk : Segment Dbl := ⟨[⟨[0, 0, 0, .nan]⟩, ⟨[0, 0, 0, 0]⟩, ⟨[0, 0, 0, 0]⟩], .fin 1, 4⟩

/-- Only the limit 1 on the lowest thrust. -/
def onlyThrustMin : InputConstraints Dbl := ⟨[(kFMin, .fin 1)]⟩

theorem nanJerk_nz : ∀ p ∈ nanJerk.polys, ∀ (j : ℕ) (x : Dbl), p.coeffs[j]? = some x → NZ x := by
  intro p hp j x hx
  have hx' := List.mem_of_getElem? hx
  unfold nanJerk at hp
  simp only [List.mem_cons, List.not_mem_nil, or_false] at hp
  rcases hp with rfl | rfl | rfl <;> simp only [List.mem_cons, List.not_mem_nil, or_false] at hx' <;> unfold NZ <;> tauto

theorem nanJerk_N : ∀ p ∈ nanJerk.polys, p.N = nanJerk.N := by
  intro p hp
  unfold nanJerk at hp
  simp only [List.mem_cons, List.not_mem_nil, or_false] at hp
  rcases hp with rfl | rfl | rfl <;> rfl

theorem nanJerk_has : HasNan ⟨[0, 0, 0, .nan]⟩ 3 := ⟨3, le_rfl, rfl⟩

theorem axis_zero (roots : List (List (Dbl × Dbl))) (hr : roots = [[], [], []]) (i : ℕ) (hi : i = 1 ∨ i = 2) :
    axisMinMaxG (dblFeasLib dot) nanJerk 2 roots 0 (.fin 1) i = .ok (0, 0) := by
  have h0 : (0 : Dbl) < .fin dblMax := largest_pos
  have h1 : (0 : Dbl) > .fin (-dblMax) := neg_lt_zero.mpr largest_pos
  have hz : ¬ (0 : Dbl) < 0 := lt_irrefl (0 : ℝ)
  have h01 : ¬ (0 : Dbl) > .fin 1 := by
    change ¬ ((1 : ℝ) < 0)
    norm_num
  have hp : nanJerk.get i = .ok ⟨[0, 0, 0, 0]⟩ := by rcases hi with rfl | rfl <;> rfl
  have hr' : Res.at' roots i = .ok [] := by subst hr; rcases hi with rfl | rfl <;> rfl
  unfold axisMinMaxG
  rw [hp, Res.ok_bind, hr', Res.ok_bind]
  have : (Poly.mk [(0 : Dbl), 0, 0, 0]).selectMinMaxFromRootsG (dblFeasLib dot).toMagLib 0 (.fin 1) 2 [] =
      .ok (some ((0, 0), (0, 0))) := by
    unfold Poly.selectMinMaxFromRootsG candidatesG
    rw [if_neg h01]
    dsimp only [List.filterMap_nil]
    unfold Poly.selectMinMaxFromCandidatesG
    dsimp only
    have e0 := evaluate_zero4 0
    have e1 := evaluate_zero4 1
    change (Poly.mk [(0 : Dbl), 0, 0, 0]).evaluate 0 2 = _ at e0
    rw [List.mapM_cons, e0, Res.ok_bind, Res.pure_eq, Res.ok_bind, List.mapM_cons, e1, Res.ok_bind, Res.pure_eq, Res.ok_bind]
    change Res.ok (some (([(0, 0), (Dbl.fin 1, 0)] : List (Dbl × Dbl)).foldl minMaxStepG
      (((0 : Dbl), .fin dblMax), (0, .fin (-dblMax))))) = _
    rw [List.foldl_cons, List.foldl_cons, List.foldl_nil]
    have s1 : minMaxStepG (((0 : Dbl), Dbl.fin dblMax), ((0 : Dbl), Dbl.fin (-dblMax))) (0, 0) = ((0, 0), (0, 0)) := by
      unfold minMaxStepG
      dsimp only
      rw [if_pos h0, if_pos h1]
    have s2 : minMaxStepG (((0 : Dbl), (0 : Dbl)), ((0 : Dbl), (0 : Dbl))) (.fin 1, 0) = ((0, 0), (0, 0)) := by
      unfold minMaxStepG
      dsimp only
      rw [if_neg hz]
    rw [s1, s2]
  rw [this, Res.ok_bind]
  rfl

theorem axis_nan (roots : List (List (Dbl × Dbl))) (hr : roots = [[], [], []]) :
    axisMinMaxG (dblFeasLib dot) nanJerk 2 roots 0 (.fin 1) 0 = .ok (.fin dblMax, .fin (-dblMax)) := by
  have h01 : ¬ (0 : Dbl) > .fin 1 := by
    change ¬ ((1 : ℝ) < 0)
    norm_num
  have hN : (Poly.mk [(0 : Dbl), 0, 0, .nan]).N ≤ 22 := by change 4 ≤ 22; norm_num
  have hn : NanValued ⟨[0, 0, 0, .nan]⟩ 2 := (nanJerk_has.mono (by norm_num)).nanValued hN
  have h : (axisMinMaxG (dblFeasLib dot) nanJerk (2 : ℕ) roots 0 (.fin 1) 0).Returns := by
    unfold axisMinMaxG
    subst hr
    refine Res.Returns.bind ⟨⟨[0, 0, 0, .nan]⟩, rfl⟩ fun p hp => Res.Returns.bind ⟨[], rfl⟩ fun r hr => Res.Returns.bind ?_ fun m _ => ?_
    · have : p = ⟨[0, 0, 0, .nan]⟩ := (Res.ok.inj hp).symm
      subst this
      have : r = [] := (Res.ok.inj hr).symm
      subst this
      unfold Poly.selectMinMaxFromRootsG candidatesG
      rw [if_neg h01]
      dsimp only [List.filterMap_nil]
      unfold Poly.selectMinMaxFromCandidatesG
      dsimp only
      refine Res.Returns.bind ?_ fun _ _ => Res.returns_pure _
      obtain ⟨r, h, -⟩ := mapM_returns (f := fun t => do
        let v ← (Poly.mk [(0 : Dbl), 0, 0, .nan]).evaluate t (2 : ℕ)
        pure (t, v)) [(0 : Dbl), .fin 1] fun t _ => by
          obtain ⟨v, hv⟩ := evaluate_returns _ hN t 2
          rw [hv]
          exact ⟨_, rfl⟩
      exact ⟨r, h⟩
    · cases m <;> exact Res.returns_pure _
  obtain ⟨m, hm⟩ := h
  have := axisMinMax_nan (d := 2) hm nn_zero (nn_of_le (show (0 : ℝ) ≤ 1 by norm_num)) h01 (p := ⟨[0, 0, 0, .nan]⟩) rfl hn
  rw [← this]
  exact hm

theorem limit_only {q : Dbl → Bool} : limitSuchThatG onlyThrustMin kFMin q = q (.fin 1) := rfl
theorem limit_other {type : ℤ} {q : Dbl → Bool} (h : onlyThrustMin.getConstraint type = none) :
    limitSuchThatG onlyThrustMin type q = false := limitSuchThatG_none h

theorem evaluateThrust_nan (hdot : NanDot dot) (t : Dbl) : evaluateThrustG (dblFeasLib dot) g nanJerk t = .ok .nan := by
  have hN : ∀ p ∈ nanJerk.polys, p.N ≤ 22 := fun p hp => by rw [nanJerk_N p hp]; change 4 ≤ 22; norm_num
  have h : (evaluateThrustG (dblFeasLib dot) g nanJerk t).Returns := by
    unfold evaluateThrustG
    obtain ⟨v, ev, lv⟩ := evaluateSegment_returns hN t 2
    refine Res.Returns.bind ⟨v, ev⟩ fun v' hv' => Res.Returns.bind (vecHead3_returns ?_) fun x _ => Res.returns_pure _
    have : v' = v := Res.ok.inj (hv'.symm.trans ev)
    subst this
    rw [lv]
    exact le_rfl
  obtain ⟨r, hr⟩ := h
  rw [hr]
  unfold evaluateThrustG at hr
  rw [Res.bind_eq_ok] at hr
  obtain ⟨v, hv, hr⟩ := hr
  rw [Res.bind_eq_ok] at hr
  obtain ⟨a, ha, hr⟩ := hr
  have h1 := segment_evaluate_nan (d := 2) hv (i := 0) (p := ⟨[0, 0, 0, .nan]⟩) rfl
    (evaluate_nan (nanJerk_has.mono (by norm_num)) (by change 4 ≤ 22; norm_num) t)
  have h2 := vecHead3_nan ha 0 h1
  have h3 : (dblFeasLib dot).dot = dot := rfl
  rw [Res.pure_eq, Res.ok.injEq, h3, hdot 3 _ _ 0 (by rw [h2, nan_add])] at hr
  rw [← hr]
  rfl

theorem lowerTerm_zero : lowerTermG (dblFeasLib dot) (0 : Dbl) 0 = 0 := by
  have hz : ¬ (0 : Dbl) < 0 := lt_irrefl (0 : ℝ)
  have h0 : Dbl.abs 0 = 0 := by
    change Dbl.fin |0| = .fin 0
    rw [abs_zero]
  unfold lowerTermG
  have h1 : (0 : Dbl) * 0 = 0 := zero_mul_fin 0
  rw [h1, if_neg hz]
  unfold stdMinVal
  change (if Dbl.abs 0 < Dbl.abs 0 then Dbl.abs 0 else Dbl.abs 0) * (if Dbl.abs 0 < Dbl.abs 0 then Dbl.abs 0 else Dbl.abs 0) = 0
  rw [ite_self, h0, h1]

theorem lowerTerm_max : lowerTermG (dblFeasLib dot) (.fin dblMax) (.fin (-dblMax)) = 0 := by
  have h : Dbl.fin dblMax * .fin (-dblMax) < 0 := by
    rw [fin_mul]
    have h1 := largest_pos
    have hlt : dblMax * -dblMax < (0 : ℝ) := by rw [mul_neg]; exact neg_lt_zero.mpr (mul_pos h1 h1)
    cases he : Dbl.ofReal (dblMax * -dblMax) with
    | fin z =>
      have h2 : (1 : ℝ) ≤ dblMax := by
        have := dblMax_big
        have := zpow2_pos 1000
        generalize (2 : ℝ) ^ (1000 : ℤ) = B at *
        linarith
      have h3 : (1 : ℝ) ≤ dblMax * dblMax := one_le_mul_of_one_le_of_one_le h2 h2
      have h4 : (1 : ℝ) ≤ round64 (dblMax * dblMax) := by
        have := round64_mono_pow (x := dblMax * dblMax) (e := 0) le_rfl (by simpa using h3)
        simpa using this
      have h5 : (1 : ℝ) ≤ |dblMax * dblMax| := h3.trans (le_abs_self _)
      rw [round64_one_le h5] at h4
      have h6 := (ofReal_eq_fin he).1
      rw [mul_neg, round64_one_le (by rwa [abs_neg]), round53_neg] at h6
      change z < 0
      rw [h6]
      linarith
    | inf r =>
      have := (ofReal_eq_inf he).mpr hlt
      subst this
      rfl
    | nan => exact absurd he (ofReal_ne_nan _)
  unfold lowerTermG
  rw [if_pos h]

theorem maxAbs_same {x : ℝ} (hx : 0 ≤ x) : maxAbsG (dblFeasLib dot) (.fin x) (.fin x) = .fin x := by
  unfold maxAbsG stdMaxVal
  change (if Dbl.fin |x| < .fin |x| then Dbl.fin |x| else .fin |x|) = _
  rw [ite_self, abs_of_nonneg hx]

theorem lowerTerm_same {x : ℝ} (hx : 0 ≤ x) : lowerTermG (dblFeasLib dot) (.fin x) (.fin x) = .fin x * .fin x := by
  unfold lowerTermG
  rw [if_neg (nn_sq (by simp)).not_neg]
  unfold stdMinVal
  change (if Dbl.fin |x| < .fin |x| then Dbl.fin |x| else .fin |x|) * (if Dbl.fin |x| < .fin |x| then Dbl.fin |x| else .fin |x|) = _
  rw [ite_self, abs_of_nonneg hx]

/-- The bounds on the squared thrust: at least 1, and infinity. -/
theorem thrustLoop_min (roots : List (List (Dbl × Dbl))) (hr : roots = [[], [], []]) {x : ℝ} (hx : IsDouble x) (h1 : 1 ≤ x)
    (h2 : x ≤ 100) : ∃ z : ℝ, 1 ≤ z ∧ z ≤ 2 ^ (21 : ℕ) ∧
      thrustLoopG (dblFeasLib dot) onlyThrustMin ![0, 0, .fin x] nanJerk roots 0 (.fin 1) [0, 1, 2] (0, 0) =
        .ok (.inr (.fin z, .inf false)) := by
  have hmx : ∀ q, limitSuchThatG onlyThrustMin kFMax q = false := fun q => limit_other rfl
  have a1 : Dbl.fin dblMax + 0 = .fin dblMax := by
    change Dbl.ofReal (dblMax + 0) = _
    rw [add_zero, dblMax_double.ofReal]
  have a2 : Dbl.fin (-dblMax) + 0 = .fin (-dblMax) := by
    change Dbl.ofReal (-dblMax + 0) = _
    rw [add_zero, dblMax_double.neg.ofReal]
  have a3 : (0 : Dbl) + .fin x = .fin x := by
    change Dbl.ofReal (0 + x) = _
    rw [zero_add, hx.ofReal]
  obtain ⟨z, ez, z1, z2⟩ := ofReal_one_le (x := x * x) (by nlinarith) (by nlinarith)
  have hz : IsDouble z := (ofReal_nearest ez).1
  refine ⟨z, z1, z2, ?_⟩
  have hsq : Dbl.fin x * .fin x = .fin z := by rw [fin_mul, ez]
  have a4 : (0 : Dbl) + .fin z = .fin z := by
    change Dbl.ofReal (0 + z) = _
    rw [zero_add, hz.ofReal]
  have m0 : (dblFeasLib dot).pow2 (maxAbsG (dblFeasLib dot) (.fin dblMax) (.fin (-dblMax))) = .inf false := (maxAbs_max dot).sq
  have m1 : (dblFeasLib dot).pow2 (maxAbsG (dblFeasLib dot) 0 0) = 0 := by
    have : maxAbsG (dblFeasLib dot) 0 0 = 0 := maxAbs_same le_rfl
    rw [this]
    exact zero_mul_fin 0
  have m2 : (dblFeasLib dot).pow2 (maxAbsG (dblFeasLib dot) (.fin x) (.fin x)) = .fin z := by
    rw [maxAbs_same (by linarith)]
    exact hsq
  have i1 : Dbl.inf false + 0 = .inf false := rfl
  have i2 : (0 : Dbl) + .inf false = .inf false := rfl
  have i3 : Dbl.inf false + .fin z = .inf false := rfl
  have g0 : (![0, 0, Dbl.fin x] : Fin 3 → Dbl) 0 = 0 := rfl
  have g1 : (![0, 0, Dbl.fin x] : Fin 3 → Dbl) 1 = 0 := rfl
  have g2 : (![0, 0, Dbl.fin x] : Fin 3 → Dbl) 2 = .fin x := rfl
  have n0 : ((0 : Fin 3) : ℕ) = 0 := rfl
  have n1 : ((1 : Fin 3) : ℕ) = 1 := rfl
  have n2 : ((2 : Fin 3) : ℕ) = 2 := rfl
  rw [thrustLoopG, n0, axis_nan roots hr, Res.ok_bind]
  dsimp only
  rw [hmx, if_neg Bool.false_ne_true, g0, a1, a2, lowerTerm_max, m0, zero_add_zero, i2]
  rw [thrustLoopG, n1, axis_zero roots hr 1 (Or.inl rfl), Res.ok_bind]
  dsimp only
  rw [hmx, if_neg Bool.false_ne_true, g1, zero_add_zero, lowerTerm_zero, m1, i1, zero_add_zero]
  rw [thrustLoopG, n2, axis_zero roots hr 2 (Or.inr rfl), Res.ok_bind]
  dsimp only
  rw [hmx, if_neg Bool.false_ne_true, g2, a3, lowerTerm_same (by linarith), hsq, m2, i3, a4]
  rfl

theorem rootsLoop_nz {m : RMath Dbl} (h1 : m.fabs = Dbl.abs) (h2 : m.dblMin = .fin ((2 : ℝ) ^ (-1022 : ℤ))) (rfuel : ℕ) :
    rootsLoopG (codeRoots m rfuel) nanJerk 3 [0, 1, 2] [] = .ok (some [[], [], []]) := by
  have key : ∀ i, i < 3 → ∃ p c, nanJerk.get i = .ok p ∧ p.getCoefficients 3 = .ok c ∧
      codeRoots m rfuel c = .ok (true, []) := by
    intro i hi
    have hm := List.getElem_mem (l := nanJerk.polys) (n := i) hi
    have hN : nanJerk.polys[i].N = 4 := nanJerk_N _ hm
    obtain ⟨c, e, -, z⟩ := getCoefficients_nz (p := nanJerk.polys[i]) (d := 3) (by omega) (by omega) (by omega) (by omega)
      fun j x _ => nanJerk_nz _ hm j x
    exact ⟨_, c, get_returns hi, e, codeRoots_nz h1 h2 rfuel z⟩
  obtain ⟨p0, c0, e0, f0, r0⟩ := key 0 (by norm_num)
  obtain ⟨p1, c1, e1, f1, r1⟩ := key 1 (by norm_num)
  obtain ⟨p2, c2, e2, f2, r2⟩ := key 2 (by norm_num)
  rw [rootsLoopG, e0, Res.ok_bind, f0, Res.ok_bind, r0, Res.ok_bind, if_pos rfl, rootsLoopG, e1, Res.ok_bind, f1, Res.ok_bind, r1,
    Res.ok_bind, if_pos rfl, rootsLoopG, e2, Res.ok_bind, f2, Res.ok_bind, r2, Res.ok_bind, if_pos rfl, rootsLoopG]
  rfl

theorem classify_min {z v j : ℝ} (h1 : 1 ≤ z) (h2 : z ≤ 2 ^ (21 : ℕ)) :
    classifyG (dblFeasLib dot) onlyThrustMin (.fin z) (.inf false) (.fin v) (.fin j) = some .feasible := by
  have hs : ∃ y, Dbl.sqrt (.fin z) = .fin y ∧ 1 ≤ y := by
    have hs1 : 1 ≤ Real.sqrt z := Real.one_le_sqrt.mpr h1
    have hs2 : Real.sqrt z ≤ 2 ^ (20 : ℕ) := by
      rw [Real.sqrt_le_left (by positivity)]
      refine h2.trans ?_
      norm_num
    obtain ⟨y, ey, y1, -⟩ := ofReal_one_le hs1 hs2
    refine ⟨y, ?_, y1⟩
    change (if z < 0 then _ else Dbl.ofReal (Real.sqrt z)) = _
    rw [if_neg (by linarith), ey]
  obtain ⟨y, ey, y1⟩ := hs
  have l1 : (dblFeasLib dot).sqrt (.fin z) = .fin y := ey
  have l2 : (dblFeasLib dot).sqrt (.inf false) = .inf false := rfl
  unfold classifyG
  dsimp only
  rw [l1, l2, limit_only, limit_only, limit_other (type := kFMax) rfl, limit_other (type := kFMax) rfl,
    limit_other (type := kVMax) rfl, limit_other (type := kOmegaXYMax) rfl]
  have d1 : decide (Dbl.inf false < .fin 1) = false := decide_eq_false fun h : false = true => by cases h
  have d2 : decide (Dbl.fin y < .fin 1) = false := decide_eq_false (not_lt.mpr y1)
  rw [d1, d2]
  simp

/-- The recursive check accepts the segment whose jerk, acceleration, velocity and position are NaN. -/
theorem recursive_min_accepts (hdot : NanDot dot) {m : RMath Dbl} (h1 : m.fabs = Dbl.abs)
    (h2 : m.dblMin = .fin ((2 : ℝ) ^ (-1022 : ℤ))) (rfuel : ℕ) {x : ℝ} (hx : IsDouble x) (hx1 : 1 ≤ x) (hx2 : x ≤ 100)
    {minSection : Dbl} (hm : ¬ Dbl.fin 1 < minSection) (fuel : ℕ) :
    nanJerk.checkRecursiveDbl dot (codeRoots m rfuel) onlyThrustMin ![0, 0, .fin x] minSection (fuel + 1) = .ok .feasible := by
  have hT : nanJerk.time = .fin 1 := rfl
  have h10 : Dbl.fin 1 - 0 = .fin 1 := by
    change Dbl.fin 1 - .fin 0 = _
    rw [fin_sub, sub_zero]
    exact Spec.IsDouble.ofReal ⟨1, 0, by norm_num, by norm_num, by norm_num, by norm_num⟩
  unfold Segment.checkRecursiveDbl Segment.checkRecursiveG
  have hD : nanJerk.D = 3 := rfl
  have c1 : onlyThrustMin.hasConstraint kFMin = true := rfl
  have c2 : onlyThrustMin.hasConstraint kOmegaXYMax = false := rfl
  have c3 : onlyThrustMin.hasConstraint kVMax = false := rfl
  rw [if_pos (Or.inl hD), c3, if_neg Bool.false_ne_true, Res.ok_bind]
  dsimp only
  rw [if_pos (Or.inl c1), rootsLoop_nz h1 h2 rfuel, Res.ok_bind]
  dsimp only
  rw [c2, if_neg Bool.false_ne_true, Res.ok_bind]
  dsimp only
  rw [hT, recursiveFeasibilityG, h10, if_neg hm]
  have hsec : sectionCheckG (dblFeasLib dot) onlyThrustMin ![0, 0, .fin x] nanJerk [] [[], [], []] [] 0 (.fin 1) =
      .ok (some .feasible) := by
    unfold sectionCheckG
    have ha : thrustAtEndsG (dblFeasLib dot) onlyThrustMin ![0, 0, .fin x] nanJerk 0 (.fin 1) = .ok none := by
      unfold thrustAtEndsG
      rw [if_pos (Or.inl c1), evaluateThrust_nan hdot, Res.ok_bind, evaluateThrust_nan hdot, Res.ok_bind, limit_only,
        limit_other (type := kFMax) rfl]
      have : stdMinVal Dbl.nan .nan = .nan := by unfold stdMinVal; rw [ite_self]
      rw [this, decide_eq_false (not_nan_lt _)]
      rfl
    obtain ⟨z, z1, z2, ez⟩ := thrustLoop_min (dot := dot) [[], [], []] rfl hx hx1 hx2
    rw [ha, Res.ok_bind]
    dsimp only
    have hb : speedAtEndsG (dblFeasLib dot) onlyThrustMin nanJerk 0 (.fin 1) = .ok none := rfl
    have hc : velocityPartG (dblFeasLib dot) onlyThrustMin nanJerk [] 0 (.fin 1) = .ok (.inr 0) := rfl
    rw [hb, Res.ok_bind]
    dsimp only
    rw [hc, Res.ok_bind]
    dsimp only
    rw [if_pos (Or.inl c1), ez, Res.ok_bind]
    dsimp only
    rw [c2, if_neg Bool.false_ne_true, Res.ok_bind]
    have := classify_min (dot := dot) (v := 0) (j := 0) z1 z2
    change Res.ok (classifyG (dblFeasLib dot) onlyThrustMin (.fin z) (.inf false) (.fin 0) (.fin 0)) = _
    rw [this]
  rw [hsec, Res.ok_bind]
  rfl

end Verif
