import Verif.Proofs.DoubleOverflow

/-
C133: the feasibility checks on segments whose state is not a number, and with limits that are none. The specification is in
`Spec/DoubleChecks`: `HasNan` says that a coefficient of a derivative is NaN, `NanValued` that a derivative is NaN at all times.
Full claim: a segment whose position, velocity or acceleration is NaN is not accepted. It holds for the recursive check when the
speed or the highest thrust is limited, and for the limits on yaw; the other checks accept such a segment.
-/
namespace Verif

open Spec

/-! ### When the state is NaN -/

/-- **C133**, where NaN comes from: a NaN coefficient makes the derivatives it belongs to NaN at all times, and so do coefficients
that are all finite, when the two highest, multiplied by the factors of the derivative, overflow with opposite signs. -/
theorem C133_states (p : Poly Dbl) (d : ℕ) (hN : p.N ≤ 22) :
    (HasNan p d → NanValued p d) ∧
    (∀ a b : ℝ, d + 1 < p.N → p.coeffs[p.N - 1]? = some (.fin a) → p.coeffs[p.N - 2]? = some (.fin b) → ∀ s : Bool,
      (baseCoeff d (p.N - 1) : Dbl) * .fin a = .inf s → (baseCoeff d (p.N - 2) : Dbl) * .fin b = .inf (!s) → NanValued p d) :=
  ⟨fun h => h.nanValued hN, fun _ _ hd ha hb _ h1 h2 => nanValued_of_opposite hd hN ha hb h1 h2⟩

/-- Finite coefficients with NaN velocity and acceleration. -/
example : (∀ c ∈ overflowing.coeffs, IsFinite c) ∧ NanValued overflowing 1 ∧ NanValued overflowing 2 := by
  refine ⟨?_, overflowing_nan 1 (Or.inl rfl), overflowing_nan 2 (Or.inr rfl)⟩
  intro c hc
  unfold overflowing at hc
  simp only [List.mem_cons, List.not_mem_nil, or_false] at hc
  rcases hc with rfl | rfl | rfl | rfl | rfl | rfl | rfl | rfl | rfl | rfl <;> exact ⟨_, rfl⟩

/-! ### The recursive check -/

/-- **C133**, partial: the recursive check does not accept a segment with a NaN velocity in one of the first three axes when the
speed is limited, nor one with a NaN acceleration when the highest thrust is limited, whatever the root finder returns and in
whatever order Eigen adds. Missing: the other limits, see `C133_recursive_thrust_min_false`. -/
theorem C133_recursive_partial (dot : Dot Dbl) (rf : RootCall Dbl) (ic : InputConstraints Dbl) (g : Fin 3 → Dbl)
    (hg : ∀ j, ∃ x, |x| ≤ 100 ∧ g j = .fin x) (minSection : Dbl) (hm : 0 < minSection) (fuel : ℕ) (s : Segment Dbl)
    (hT : 0 ≤ s.time) (i : Fin 3) (p : Poly Dbl) (hp : s.polys[(i : ℕ)]? = some p) (x : ℝ)
    (h : (ic.getConstraint kVMax = some (.fin x) ∧ NanValued p 1) ∨ (ic.getConstraint kFMax = some (.fin x) ∧ NanValued p 2)) :
    s.checkRecursiveDbl dot rf ic g minSection fuel ≠ .ok .feasible :=
  checkRecursive_nan hg ⟨i, p, x, hp, h⟩ rf hm fuel hT

/-- The hypotheses of `C133_recursive_partial` hold for a segment of finite coefficients. -/
example : ∃ (s : Segment Dbl) (ic : InputConstraints Dbl) (p : Poly Dbl) (x : ℝ), 0 ≤ s.time ∧
    s.polys[((0 : Fin 3) : ℕ)]? = some p ∧ (∀ c ∈ p.coeffs, IsFinite c) ∧
    ((ic.getConstraint kVMax = some (.fin x) ∧ NanValued p 1) ∧ (ic.getConstraint kFMax = some (.fin x) ∧ NanValued p 2)) := by
  refine ⟨⟨[overflowing, ⟨List.replicate 10 0⟩, ⟨List.replicate 10 0⟩], .fin 1, 10⟩, ⟨[(kFMax, .fin 3), (kVMax, .fin 3)]⟩,
    overflowing, 3, (show (0 : ℝ) ≤ 1 by norm_num), rfl, ?_, ⟨rfl, overflowing_nan 1 (Or.inl rfl)⟩,
    ⟨rfl, overflowing_nan 2 (Or.inr rfl)⟩⟩
  intro c hc
  unfold overflowing at hc
  simp only [List.mem_cons, List.not_mem_nil, or_false] at hc
  rcases hc with rfl | rfl | rfl | rfl | rfl | rfl | rfl | rfl | rfl | rfl <;> exact ⟨_, rfl⟩

/-- **C133**, partial: neither the recursive nor the analytic check accepts a segment with a NaN yaw rate when it is limited, nor
one with a NaN yaw acceleration when that is limited. -/
theorem C133_yaw_partial (dot : Dot Dbl) (rf : RootCall Dbl) (ic : InputConstraints Dbl) (g : Fin 3 → Dbl)
    (minSection : Dbl) (fuel : ℕ) (s : Segment Dbl) (hD : s.D = 4) (hT : 0 ≤ s.time) (p : Poly Dbl)
    (hp : s.polys[3]? = some p) (x : ℝ) (hx : x < dblMax)
    (h : (ic.getConstraint kOmegaZMax = some (.fin x) ∧ NanValued p 1) ∨
      (ic.getConstraint kOmegaZDotMax = some (.fin x) ∧ NanValued p 2)) :
    s.checkRecursiveDbl dot rf ic g minSection fuel ≠ .ok .feasible ∧
    s.checkAnalyticDbl rf ic g minSection fuel ≠ .ok .feasible := by
  have hy : ∀ dot : Dot Dbl, (yawChecksG (dblFeasLib dot) rf ic s).Sat fun r => ∃ v, r = some v ∧ v ≠ .feasible := fun dot =>
    yawChecks_nan rf hD ⟨p, x, hp, hx, h⟩ hT
  constructor
  · intro hr
    unfold Segment.checkRecursiveDbl Segment.checkRecursiveG at hr
    rw [if_pos (Or.inr hD), Res.bind_eq_ok] at hr
    obtain ⟨a, -, hr⟩ := hr
    cases a with
    | none => simp [Res.pure_eq] at hr
    | some ra =>
    dsimp only at hr
    rw [Res.bind_eq_ok] at hr
    obtain ⟨a, -, hr⟩ := hr
    cases a with
    | none => simp [Res.pure_eq] at hr
    | some rj =>
    dsimp only at hr
    rw [Res.bind_eq_ok] at hr
    obtain ⟨a, -, hr⟩ := hr
    cases a with
    | none => simp [Res.pure_eq] at hr
    | some rs =>
    dsimp only at hr
    rw [Res.bind_eq_ok] at hr
    obtain ⟨r, -, hr⟩ := hr
    by_cases hf : r ≠ .feasible
    · rw [if_pos hf, Res.pure_eq, Res.ok.injEq] at hr
      exact hf hr
    · rw [if_neg hf, Res.bind_eq_ok] at hr
      obtain ⟨y, ey, hr⟩ := hr
      obtain ⟨v, rfl, hv⟩ := hy dot y ey
      dsimp only at hr
      rw [Res.pure_eq, Res.ok.injEq] at hr
      exact hv hr
  · intro hr
    unfold Segment.checkAnalyticDbl Segment.checkAnalyticG at hr
    rw [if_pos (Or.inr hD)] at hr
    by_cases hN : s.N < 2
    · rw [if_pos hN] at hr
      simp at hr
    rw [if_neg hN, Res.bind_eq_ok] at hr
    obtain ⟨t, -, hr⟩ := hr
    by_cases hf : t.1 ≠ .feasible
    · rw [if_pos hf, Res.pure_eq, Res.ok.injEq] at hr
      exact hf hr
    rw [if_neg hf, Res.bind_eq_ok] at hr
    obtain ⟨w, ew, hr⟩ := hr
    cases w with
    | some r =>
      dsimp only at hr
      rw [Res.pure_eq, Res.ok.injEq] at hr
      subst hr
      unfold analyticVelocityG at ew
      split at ew
      · simp at ew
      · rw [Res.bind_eq_ok] at ew
        obtain ⟨c, -, ew⟩ := ew
        by_cases hc : (!c.1) = true
        · rw [if_pos hc] at ew
          simp [Res.pure_eq] at ew
        · rw [if_neg hc, Res.bind_eq_ok] at ew
          obtain ⟨e, -, ew⟩ := ew
          rw [Res.pure_eq, Res.ok.injEq] at ew
          split_ifs at ew
          simp at ew
    | none =>
    dsimp only at hr
    rw [Res.bind_eq_ok] at hr
    obtain ⟨y, ey, hr⟩ := hr
    obtain ⟨v, rfl, hv⟩ := hy _ y ey
    dsimp only at hr
    rw [Res.pure_eq, Res.ok.injEq] at hr
    exact hv hr

/-- A limit and a yaw for `C133_yaw_partial`. -/
example : (3 : ℝ) < dblMax ∧ NanValued overflowing 1 ∧
    (⟨[(kOmegaZMax, .fin 3)]⟩ : InputConstraints Dbl).getConstraint kOmegaZMax = some (.fin 3) := by
  refine ⟨?_, overflowing_nan 1 (Or.inl rfl), rfl⟩
  have h1 := dblMax_big
  have h2 : (4 : ℝ) ≤ (2 : ℝ) ^ (1000 : ℤ) := by
    calc (4 : ℝ) = (2 : ℝ) ^ (2 : ℤ) := by norm_num
      _ ≤ _ := zpow_le_zpow_right₀ (by norm_num) (by norm_num)
  generalize (2 : ℝ) ^ (1000 : ℤ) = A at *
  linarith

/-- **C133** fails for the recursive check when only the lowest thrust is limited: the segment `nanJerk`, with a NaN coefficient
in the first axis, has NaN thrust at all times and is accepted, with the root finder of the code. -/
theorem C133_recursive_thrust_min_false (m : RMath Dbl) (h1 : m.fabs = Dbl.abs)
    (h2 : m.dblMin = .fin ((2 : ℝ) ^ (-1022 : ℤ))) (rfuel fuel : ℕ) (x : ℝ) (hx : IsDouble x) (hx1 : 1 ≤ x) (hx2 : x ≤ 100)
    (minSection : Dbl) (hm : ¬ Dbl.fin 1 < minSection) :
    (∀ t, evaluateThrustG (dblFeasLib Dbl.seqDot) ![0, 0, .fin x] nanJerk t = .ok .nan) ∧
    nanJerk.checkRecursiveDbl Dbl.seqDot (codeRoots m rfuel) onlyThrustMin ![0, 0, .fin x] minSection (fuel + 1) =
      .ok .feasible :=
  ⟨fun t => evaluateThrust_nan seqDot_nan t, recursive_min_accepts seqDot_nan h1 h2 rfuel hx hx1 hx2 hm fuel⟩

/-- The hypotheses of `C133_recursive_thrust_min_false`. -/
example : (∃ m : RMath Dbl, m.fabs = Dbl.abs ∧ m.dblMin = .fin ((2 : ℝ) ^ (-1022 : ℤ))) ∧ IsDouble (981 / 128) ∧
    ¬ Dbl.fin 1 < .fin (1 / 16) := by
  refine ⟨⟨⟨Dbl.abs, Dbl.sqrt, fun _ => false, .fin dblEpsilon, .fin ((2 : ℝ) ^ (-1022 : ℤ)), 0, 0, fun _ _ _ => 0, fun _ => 0, 0, 0,
    0⟩, rfl, rfl⟩, ⟨981, -7, by norm_num, by norm_num, by norm_num, by norm_num⟩, ?_⟩
  change ¬ ((1 : ℝ) < 1 / 16)
  norm_num

/-! ### Half planes -/

/-- **C133** fails for half planes: whatever the half planes and whatever the root finder, the only answer for a segment with a NaN
coefficient is that the segment is inside; and with the root finder of the code this is the answer when the coefficients
from the second on are NaN or 0. -/
theorem C133_half_planes_false (dot : Dot Dbl) (hdot : NanDot dot) (s : Segment Dbl) (hs : ∀ p ∈ s.polys, p.N = s.N)
    (hN : s.N ≤ 22) (hD : s.D = 3 ∨ s.D = 4) (i : Fin 3) (p : Poly Dbl) (hp : s.polys[(i : ℕ)]? = some p) (hn : HasNan p 0)
    (hps : List (HalfPlane Dbl)) :
    (∀ rf b, s.checkHalfPlanesDbl dot rf hps = .ok b → b = true) ∧
    ((∀ p ∈ s.polys, ∀ (j : ℕ) (x : Dbl), 1 ≤ j → p.coeffs[j]? = some x → x = .nan ∨ x = 0) → ∀ m : RMath Dbl, m.fabs = Dbl.abs →
      m.dblMin = .fin ((2 : ℝ) ^ (-1022 : ℤ)) → ∀ rfuel, s.checkHalfPlanesDbl dot (codeRoots m rfuel) hps = .ok true) := by
  have hpN := hs p (List.mem_of_getElem? hp)
  exact ⟨fun rf b h => halfPlanes_nan hdot rf hp hn (by omega) hD hps b h, fun hz m h1 h2 rfuel =>
    halfPlanes_true hdot h1 h2 rfuel hp hn hs hz hN hD hps⟩

/-- The hypotheses of `C133_half_planes_false`. -/
example : NanDot Dbl.seqDot ∧ (∀ p ∈ nanJerk.polys, p.N = nanJerk.N) ∧ nanJerk.D = 3 ∧
    nanJerk.polys[((0 : Fin 3) : ℕ)]? = some ⟨[0, 0, 0, .nan]⟩ ∧ HasNan ⟨[0, 0, 0, .nan]⟩ 0 ∧
    ∀ p ∈ nanJerk.polys, ∀ (j : ℕ) (x : Dbl), 1 ≤ j → p.coeffs[j]? = some x → x = .nan ∨ x = 0 :=
  ⟨seqDot_nan, nanJerk_N, rfl, rfl, nanJerk_has.mono (by norm_num), fun p hp j x _ => nanJerk_nz p hp j x⟩

/-! ### The analytic check -/

/-- **C133** fails for the analytic check: whatever the limits and whatever the root finder, the only answer for a segment of
three dimensions with a NaN among the coefficients of the jerk is that the segment is feasible; and with the root finder
of the code this is the answer when the coefficients from the third on are NaN or 0. -/
theorem C133_analytic_false (ic : InputConstraints Dbl) (g : Fin 3 → Dbl) (s : Segment Dbl) (hs : ∀ p ∈ s.polys, p.N = s.N)
    (hN : s.N ≤ 22) (hD : s.D = 3) (i : Fin 3) (p : Poly Dbl) (hp : s.polys[(i : ℕ)]? = some p) (hn : HasNan p 3)
    (minSection : Dbl) (hm : 0 < minSection) (hT : 0 ≤ s.time) (hT' : ¬ s.time - 0 < minSection) (fuel : ℕ) :
    (∀ rf v, s.checkAnalyticDbl rf ic g minSection (fuel + 1) = .ok v → v = .feasible) ∧
    ((∀ p ∈ s.polys, ∀ (j : ℕ) (x : Dbl), 2 ≤ j → p.coeffs[j]? = some x → x = .nan ∨ x = 0) → ∀ m : RMath Dbl, m.fabs = Dbl.abs →
      m.dblMin = .fin ((2 : ℝ) ^ (-1022 : ℤ)) → ∀ rfuel,
      s.checkAnalyticDbl (codeRoots m rfuel) ic g minSection (fuel + 1) = .ok .feasible) := by
  have hpN := hs p (List.mem_of_getElem? hp)
  exact ⟨fun rf v h => analytic_nan rf hp hn hpN hN hD hm hT hT' fuel v h, fun hz m h1 h2 rfuel =>
    analytic_feasible h1 h2 rfuel hp hn hs hz hN hD hm hT hT' fuel⟩

/-- The times of `C133_analytic_false`; the segment is the one of the example above. -/
example : (0 : Dbl) < .fin (1 / 16) ∧ 0 ≤ nanJerk.time ∧ ¬ nanJerk.time - 0 < .fin (1 / 16) := by
  refine ⟨show (0 : ℝ) < 1 / 16 by norm_num, show (0 : ℝ) ≤ 1 by norm_num, ?_⟩
  have h10 : nanJerk.time - 0 = .fin 1 := by
    change Dbl.fin 1 - .fin 0 = _
    rw [fin_sub, sub_zero]
    exact Spec.IsDouble.ofReal ⟨1, 0, by norm_num, by norm_num, by norm_num, by norm_num⟩
  rw [h10]
  change ¬ ((1 : ℝ) < 1 / 16)
  norm_num

/-! ### The check by sampling -/

/-- **C133** fails for the check by sampling: without limits on yaw, the only answer for a segment whose velocity and acceleration
in one of the first three axes are NaN is that it is feasible, whatever the limits; and this is the answer when the
sampling interval is longer than the segment. -/
theorem C133_sampling_false (conv : List (List Dbl) → MavState Dbl) (hc : NanConv conv) (ic : InputConstraints Dbl)
    (hz : ic.getConstraint kOmegaZMax = none) (hz' : ic.getConstraint kOmegaZDotMax = none) (s : Segment Dbl)
    (hs : ∀ p ∈ s.polys, p.N ≤ 22) (hD : s.D = 3 ∨ s.D = 4) (i : Fin 3) (p : Poly Dbl) (hp : s.polys[(i : ℕ)]? = some p)
    (h1 : NanValued p 1) (h2 : NanValued p 2) (dt : Dbl) (hdt : 0 ≤ dt) :
    (∀ fuel v, s.checkSamplingDbl conv ic dt fuel = .ok v → v = .feasible) ∧
    (¬ 0 + dt ≤ s.time → ∀ fuel, s.checkSamplingDbl conv ic dt (fuel + 2) = .ok .feasible) := by
  have h := fun fuel => sampling_nan hc hp h1 h2 hz hz' hD hdt fuel
  refine ⟨fun fuel v hv => h fuel v hv, fun h0 fuel => ?_⟩
  obtain ⟨v, hv⟩ := sampling_returns (conv := conv) (ic := ic) hD hs h0 fuel
  rw [hv, h _ v hv]

/-- The hypotheses of `C133_sampling_false`, with the norms added by `seqDot`, for a segment of finite coefficients. -/
example : (∃ conv, NanConv conv) ∧ (∀ d, d = 1 ∨ d = 2 → NanValued overflowing d) ∧ ¬ 0 + Dbl.fin 2 ≤ Dbl.fin 1 := by
  refine ⟨⟨fun ds => ⟨.sqrt (.seqDot 3 (fun i => (ds.getD 2 []).getD i 0) fun i => (ds.getD 2 []).getD i 0),
    .sqrt (.seqDot 3 (fun i => (ds.getD 1 []).getD i 0) fun i => (ds.getD 1 []).getD i 0),
    .sqrt (.seqDot 3 (fun i => (ds.getD 2 []).getD i 0) fun i => (ds.getD 3 []).getD i 0), 0, 0⟩, ?_, ?_, ?_⟩,
    overflowing_nan, ?_⟩
  · intro p v a j n i hi hv
    have : v.getD i 0 = .nan := by rw [List.getD_eq_getElem?_getD, hv, Option.getD_some]
    change Dbl.sqrt (Dbl.seqDot 3 (fun i => v.getD i 0) _) = _
    rw [seqDot_nan 3 _ _ ⟨i, hi⟩ this]
    rfl
  · intro p v a j n i hi hv
    have : a.getD i 0 = .nan := by rw [List.getD_eq_getElem?_getD, hv, Option.getD_some]
    change Dbl.sqrt (Dbl.seqDot 3 (fun i => a.getD i 0) _) = _
    rw [seqDot_nan 3 _ _ ⟨i, hi⟩ this]
    rfl
  · intro p v a j n i hi hv
    have : a.getD i 0 = .nan := by rw [List.getD_eq_getElem?_getD, hv, Option.getD_some]
    change Dbl.sqrt (Dbl.seqDot 3 (fun i => a.getD i 0) _) = _
    rw [seqDot_nan 3 _ _ ⟨i, hi⟩ this]
    rfl
  · have h02 : (0 : Dbl) + .fin 2 = .fin 2 := by
      change Dbl.ofReal (0 + 2) = _
      rw [zero_add]
      exact Spec.IsDouble.ofReal ⟨2, 0, by norm_num, by norm_num, by norm_num, by norm_num⟩
    rw [h02]
    change ¬ ((2 : ℝ) ≤ 1)
    norm_num

/-! ### Limits that are NaN -/

/-- **C133** fails for limits: `addConstraint` takes NaN for a limit, which then counts as present, and the check by sampling does
not report a violation of limits that are NaN. -/
theorem C133_nan_limit_false :
    (∀ (c : InputConstraints Dbl) (type : ℤ), (c.addConstraintG Dbl.abs type .nan).hasConstraint type = true ∧
      (c.addConstraintG Dbl.abs type .nan).getConstraint type = some .nan) ∧
    (∀ (ic : InputConstraints Dbl), (∀ type x, ic.getConstraint type = some x → x = .nan) → ∀ (s : Segment Dbl),
      s.D = 3 ∨ s.D = 4 → ∀ conv dt fuel v, s.checkSamplingDbl conv ic dt fuel = .ok v → v = .feasible) := by
  refine ⟨fun c type => ?_, fun ic h s hD conv dt fuel v hv => sampling_nanLimits h conv hD dt fuel v hv⟩
  have : (c.addConstraintG Dbl.abs type .nan).getConstraint type = some .nan := by
    unfold InputConstraints.addConstraintG InputConstraints.getConstraint
    dsimp only
    rw [mapFind_insert, if_pos rfl]
    rfl
  refine ⟨?_, this⟩
  unfold InputConstraints.hasConstraint
  unfold InputConstraints.getConstraint at this
  rw [this]
  rfl

/-- A limit of 3 on the speed, replaced by NaN, is a limit that nothing violates. -/
example : ∀ type x, (InputConstraints.addConstraintG Dbl.abs ⟨[(kVMax, .fin 3)]⟩ kVMax .nan).getConstraint type = some x →
    x = .nan := by
  intro type x h
  have : InputConstraints.addConstraintG Dbl.abs ⟨[(kVMax, .fin 3)]⟩ kVMax .nan = ⟨[(kVMax, .nan)]⟩ := rfl
  rw [this] at h
  by_cases ht : type = kVMax
  · subst ht
    exact (Option.some.inj h).symm
  · exfalso
    unfold InputConstraints.getConstraint at h
    rw [mapFind, if_neg (Ne.symm ht)] at h
    simp [mapFind] at h

/-- The law-free `addConstraint` is the one of `Model/InputConstraints`. -/
theorem C133_same_code {K : Type} [Field K] [LinearOrder K] (c : InputConstraints K) (type : ℤ) (value : K) :
    c.addConstraintG (fun x => |x|) type value = c.addConstraint type value := rfl

end Verif
