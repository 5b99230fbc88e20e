import Verif.Proofs.DoubleWitness

/-
The check by sampling on NaN, and the recursive check with a limit on the lowest thrust only.
-/
namespace Verif

open Spec

variable {dot : Dot Dbl} {ic : InputConstraints Dbl} {g : Fin 3 → Dbl} {s : Segment Dbl}

theorem limitSuchThatG_false {type : ℤ} {q : Dbl → Bool} (h : ∀ x, q x = false) : limitSuchThatG ic type q = false := by
  unfold limitSuchThatG
  split
  · exact h _
  · rfl

theorem limitSuchThatG_none {type : ℤ} {q : Dbl → Bool} (h : ic.getConstraint type = none) : limitSuchThatG ic type q = false := by
  unfold limitSuchThatG
  rw [h]

theorem checkState_nan {m : MavState Dbl} (h1 : m.thrust = .nan) (h2 : m.speed = .nan) (h3 : m.omegaXY = .nan)
    (hz : ic.getConstraint kOmegaZMax = none) (hz' : ic.getConstraint kOmegaZDotMax = none) : checkStateG dblSampLib ic m = none := by
  unfold checkStateG
  rw [h1, h2, h3, limitSuchThatG_false fun x => decide_eq_false (not_nan_lt x),
    limitSuchThatG_false (type := kFMax) fun x => decide_eq_false (not_lt_nan x),
    limitSuchThatG_false (type := kVMax) fun x => decide_eq_false (not_lt_nan x),
    limitSuchThatG_false (type := kOmegaXYMax) fun x => decide_eq_false (not_lt_nan x), limitSuchThatG_none hz,
    limitSuchThatG_none hz']
  rfl

theorem sampledState_cases {conv : List (List Dbl) → MavState Dbl} {t : Dbl} {m : MavState Dbl}
    (h : sampledStateG dblSampLib conv s t = .ok m) :
    ∃ p v a j n, s.evaluate t 0 = .ok p ∧ s.evaluate t 1 = .ok v ∧ s.evaluate t 2 = .ok a ∧ s.evaluate t 3 = .ok j ∧
      s.evaluate t 4 = .ok n ∧ m = conv [p, v, a, j, n] := by
  unfold sampledStateG at h
  rw [Res.bind_eq_ok] at h
  obtain ⟨ds, hds, h⟩ := h
  rw [Res.mapM_forall₂] at hds
  rcases hds with _ | ⟨h0, hds⟩
  rcases hds with _ | ⟨h1, hds⟩
  rcases hds with _ | ⟨h2, hds⟩
  rcases hds with _ | ⟨h3, hds⟩
  rcases hds with _ | ⟨h4, hds⟩
  rcases hds with _ | _
  rw [Res.bind_eq_ok] at h
  obtain ⟨_, -, h⟩ := h
  rw [Res.bind_eq_ok] at h
  obtain ⟨_, -, h⟩ := h
  rw [Res.pure_eq, Res.ok.injEq] at h
  exact ⟨_, _, _, _, _, h0, h1, h2, h3, h4, h.symm⟩

theorem sampledState_nan {conv : List (List Dbl) → MavState Dbl} (hc : NanConv conv) {i : Fin 3} {p : Poly Dbl}
    (hp : s.polys[(i : ℕ)]? = some p) (h1 : NanValued p 1) (h2 : NanValued p 2) {t : Dbl} (ht : ¬ t < 0) {m : MavState Dbl}
    (h : sampledStateG dblSampLib conv s t = .ok m) : m.thrust = .nan ∧ m.speed = .nan ∧ m.omegaXY = .nan := by
  obtain ⟨q, v, a, j, n, -, hv, ha, -, -, rfl⟩ := sampledState_cases h
  have hv' := segment_evaluate_nan (d := 1) hv hp (h1 t ht)
  have ha' := segment_evaluate_nan (d := 2) ha hp (h2 t ht)
  exact ⟨hc.thrust _ _ _ _ _ _ i.2 ha', hc.speed _ _ _ _ _ _ i.2 hv', hc.omega _ _ _ _ _ _ i.2 ha'⟩

theorem sampling_nan {conv : List (List Dbl) → MavState Dbl} (hc : NanConv conv) {i : Fin 3} {p : Poly Dbl}
    (hp : s.polys[(i : ℕ)]? = some p) (h1 : NanValued p 1) (h2 : NanValued p 2) (hz : ic.getConstraint kOmegaZMax = none)
    (hz' : ic.getConstraint kOmegaZDotMax = none) (hD : s.D = 3 ∨ s.D = 4) {dt : Dbl} (hdt : 0 ≤ dt) (fuel : ℕ) :
    (s.checkSamplingDbl conv ic dt fuel).Sat (· = .feasible) := by
  unfold Segment.checkSamplingDbl Segment.checkSamplingG
  rw [if_pos hD]
  have key : ∀ (fuel : ℕ) (t : Dbl), NN t → (samplingLoopG dblSampLib conv ic dt s fuel t).Sat (· = .feasible) := by
    intro fuel
    induction fuel with
    | zero => intro t _ v h; simp [samplingLoopG] at h
    | succ fuel ih =>
      intro t ht v h
      rw [samplingLoopG] at h
      split_ifs at h
      · rw [Res.bind_eq_ok] at h
        obtain ⟨m, hm, h⟩ := h
        obtain ⟨e1, e2, e3⟩ := sampledState_nan hc hp h1 h2 ht.not_neg hm
        rw [checkState_nan e1 e2 e3 hz hz'] at h
        exact ih _ (ht.add (nn_of_le hdt)) v h
      · rw [Res.ok.injEq] at h
        exact h.symm
  exact key fuel 0 nn_zero

/-- The check by sampling returns when the end is passed after finitely many samples whose time stamps fit. -/
theorem sampling_returns {conv : List (List Dbl) → MavState Dbl} (hD : s.D = 3 ∨ s.D = 4) (hs : ∀ p ∈ s.polys, p.N ≤ 22) {dt : Dbl}
    (h0 : ¬ 0 + dt ≤ s.time) (fuel : ℕ) : (s.checkSamplingDbl conv ic dt (fuel + 2)).Returns := by
  unfold Segment.checkSamplingDbl Segment.checkSamplingG
  rw [if_pos hD, samplingLoopG]
  split_ifs
  · refine Res.Returns.bind ?_ fun m _ => ?_
    · unfold sampledStateG
      have hev : ∀ d : ℕ, ∃ v, s.evaluate 0 d = .ok v ∧ v.length = s.D := fun d => evaluateSegment_returns hs 0 d
      obtain ⟨v0, e0, l0⟩ := hev 0
      obtain ⟨v1, e1, l1⟩ := hev 1
      obtain ⟨v2, e2, l2⟩ := hev 2
      obtain ⟨v3, e3, l3⟩ := hev 3
      obtain ⟨v4, e4, l4⟩ := hev 4
      push_cast at e0 e1 e2 e3 e4
      have hD3 : 3 ≤ s.D := by omega
      obtain ⟨w0, f0⟩ := vecHead3_returns (v := v0) (by omega)
      obtain ⟨w1, f1⟩ := vecHead3_returns (v := v1) (by omega)
      obtain ⟨w2, f2⟩ := vecHead3_returns (v := v2) (by omega)
      obtain ⟨w3, f3⟩ := vecHead3_returns (v := v3) (by omega)
      obtain ⟨w4, f4⟩ := vecHead3_returns (v := v4) (by omega)
      have hm : [0, 1, 2, 3, 4].mapM (fun (d : ℤ) => s.evaluate 0 d) = .ok [v0, v1, v2, v3, v4] := by
        rw [Res.mapM_forall₂]
        exact .cons e0 (.cons e1 (.cons e2 (.cons e3 (.cons e4 .nil))))
      have hh : [v0, v1, v2, v3, v4].mapM vecHead3 = .ok [w0, w1, w2, w3, w4] := by
        rw [Res.mapM_forall₂]
        exact .cons f0 (.cons f1 (.cons f2 (.cons f3 (.cons f4 .nil))))
      have ht : timeStampG dblSampLib 0 = .ok () := by
        unfold timeStampG
        rw [if_pos]
        have : (0 : Dbl) * dblSampLib.nano = .fin 0 := by
          change Dbl.ofReal (0 * 10 ^ 9) = _
          rw [zero_mul, ofReal_zero]
        rw [this]
        exact decide_eq_true ⟨by norm_num, by norm_num⟩
      rw [hm, Res.ok_bind, ht, Res.ok_bind, hh, Res.ok_bind]
      exact Res.returns_pure _
    · split
      · exact Res.returns_pure _
      · rw [samplingLoopG, if_neg h0]
        exact Res.returns_ok _
  · exact Res.returns_ok _

/-- The limits that are there are NaN. -/
def NanLimits (ic : InputConstraints Dbl) : Prop := ∀ type x, ic.getConstraint type = some x → x = .nan

theorem checkState_nanLimits (h : NanLimits ic) (m : MavState Dbl) : checkStateG dblSampLib ic m = none := by
  have key : ∀ (type : ℤ) (q : Dbl → Bool), q .nan = false → limitSuchThatG ic type q = false := by
    intro type q hq
    unfold limitSuchThatG
    split
    · rename_i x hx
      rw [h type x hx, hq]
    · rfl
  unfold checkStateG
  rw [key _ _ (decide_eq_false (not_lt_nan _)), key kFMax _ (decide_eq_false (not_nan_lt _)),
    key kVMax _ (decide_eq_false (not_nan_lt _)), key kOmegaXYMax _ (decide_eq_false (not_nan_lt _)),
    key kOmegaZMax _ (decide_eq_false (not_nan_lt _)), key kOmegaZDotMax _ (decide_eq_false (not_nan_lt _))]
  rfl

theorem sampling_nanLimits (h : NanLimits ic) (conv : List (List Dbl) → MavState Dbl) (hD : s.D = 3 ∨ s.D = 4) (dt : Dbl)
    (fuel : ℕ) : (s.checkSamplingDbl conv ic dt fuel).Sat (· = .feasible) := by
  unfold Segment.checkSamplingDbl Segment.checkSamplingG
  rw [if_pos hD]
  generalize (0 : Dbl) = t
  induction fuel generalizing t with
  | zero => intro v h; simp [samplingLoopG] at h
  | succ fuel ih =>
    intro v hv
    rw [samplingLoopG] at hv
    split_ifs at hv
    · rw [Res.bind_eq_ok] at hv
      obtain ⟨m, -, hv⟩ := hv
      rw [checkState_nanLimits h] at hv
      exact ih _ v hv
    · rw [Res.ok.injEq] at hv
      exact hv.symm

end Verif
