import Verif.Props.NonlinearLimits
import Verif.Proofs.DebugOutputOptimize

/-
The debug output of the nonlinear optimiser: it changes no result, and what it shows.
-/
namespace Verif

open Spec Set

set_option linter.unusedSectionVars false

section
variable {K : Type} [Field K] [LinearOrder K] [IsStrictOrderedRing K] {h : ℕ}

/-! ### C139 debug output -/

/-- **C139.** With any flags, `optimize()` returns if and only if it returns without output, with the same code and
the same optimiser afterwards. -/
theorem C139_returns (fl : DebugFlags) (lib : NlLib h K) (run : NlRun K) (o : NlOpt h K) (c : ℤ) (o' : NlOpt h K) :
    (∃ log, o.optimizeP fl lib run = .ok ((c, o'), log)) ↔ o.optimize lib run = .ok (c, o') := by
  by_cases hu : o.params.method = .unknown
  · unfold NlOpt.optimizeP NlOpt.optimize
    dsimp only
    rw [if_pos hu, if_pos hu]
    constructor
    · rintro ⟨log, e⟩
      rw [Res.pure_eq, Res.ok_bind, Res.pure_eq, Res.ok.injEq, Prod.mk.injEq] at e
      rw [← e.1]
      rfl
    · intro e
      rw [Res.pure_eq, Res.ok_bind, Res.pure_eq, Res.ok.injEq] at e
      rw [← e]
      exact ⟨_, rfl⟩
  constructor
  · rintro ⟨log, e⟩
    obtain ⟨o2, e1, rfl⟩ := optimizeP_inv hu e
    unfold NlOpt.optimize
    dsimp only
    rw [if_neg hu, (optimizeWithP_inv e1).1, Res.ok_bind]
    rfl
  · intro e
    unfold NlOpt.optimize at e
    dsimp only at e
    rw [if_neg hu, Res.bind_eq_ok] at e
    obtain ⟨r, h1, e⟩ := e
    obtain ⟨log, h2⟩ := optimizeWithP_ok (fl := fl) (c := r.1) (o' := r.2) h1
    rw [Res.pure_eq, Res.ok.injEq] at e
    unfold NlOpt.optimizeP
    dsimp only
    rw [if_neg hu, h2, Res.ok_bind, ← e]
    exact ⟨_, rfl⟩

/-- **C139.** It also fails alike (the same CHECK or exception, or undefined), except with the method of Mellinger
when the output of the time allocation is on and no limit on velocity or acceleration is set: then the call is
undefined without output, and with it the maxima are computed first. -/
theorem C139_same (fl : DebugFlags) (lib : NlLib h ℝ) (run : NlRun ℝ) (o : NlOpt h ℝ)
    (hz : o.params.method ≠ .mellingerOuterLoop ∨ fl.alloc = false ∨
      ∃ v a, v ≠ 0 ∧ a ≠ 0 ∧ LastLimit 1 v o.constraints ∧ LastLimit 2 a o.constraints) :
    resultOf (o.optimizeP fl lib run) = o.optimize lib run := by
  unfold NlOpt.optimizeP NlOpt.optimize
  dsimp only
  by_cases hu : o.params.method = .unknown
  · rw [if_pos hu, if_pos hu]
    rfl
  · rw [if_neg hu, if_neg hu]
    refine resultOf_bind' _ _ _ _ (optimizeWithP_same ?_) fun x l => rfl
    rcases hz with hz | hz | ⟨v, a, h1, h2, h3, h4⟩
    · exact .inl hz
    · exact .inr (.inl hz)
    · refine .inr (.inr ⟨?_, ?_⟩)
      · dsimp only
        rw [limitOf_last h3]
        exact h1
      · dsimp only
        rw [limitOf_last h4]
        exact h2

/-- **C139.** With both flags off nothing is printed. -/
theorem C139_quiet (lib : NlLib h K) (run : NlRun K) (o : NlOpt h K) (c : ℤ) (o' : NlOpt h K)
    (log : List (DebugLine K)) (e : o.optimizeP ⟨false, false⟩ lib run = .ok ((c, o'), log)) : log = [] := by
  by_cases hu : o.params.method = .unknown
  · unfold NlOpt.optimizeP at e
    dsimp only at e
    rw [if_pos hu, Res.pure_eq, Res.ok_bind, Res.pure_eq, Res.ok.injEq, Prod.mk.injEq] at e
    exact e.2.symm
  · obtain ⟨o2, e1, -⟩ := optimizeP_inv hu e
    exact (optimizeWithP_inv e1).2.1 rfl rfl

/-- **C139.** With `print_debug_info` the costs shown are the values handed to NLopt for its evaluations of the
objective function, all of them in order, and the iterations shown are 0, 1, 2, ... -/
theorem C139_costs (fl : DebugFlags) (hf : fl.info = true) (lib : NlLib h K) (run : NlRun K) (o : NlOpt h K) (c : ℤ)
    (o' : NlOpt h K) (log : List (DebugLine K)) (hu : o.params.method ≠ .unknown) (ht : run.setupThrows = false)
    (e : o.optimizeP fl lib run = .ok ((c, o'), log)) :
    ∃ p a ys o1, NlOpt.prepare lib { o with info := NlInfo.default } = .ok (p, a) ∧
      NlOpt.answers lib (NlOpt.objective lib o.params.method) run.queries p = .ok (ys, o1) ∧
      shownCosts log = objectiveValues run.queries ys ∧
      shownIterations log = List.range (points run.queries).length := by
  obtain ⟨o2, e1, -⟩ := optimizeP_inv hu e
  obtain ⟨-, -, h1, -⟩ := optimizeWithP_inv e1
  obtain ⟨p, a, ys, o1, h2, h3, h4, h5⟩ := h1 hf ht
  refine ⟨p, a, ys, o1, h2, h3, h4, ?_⟩
  have : p.info.nIterations = 0 := by
    rcases prepare_cases h2 with ⟨_, -, -, rfl, -⟩ | ⟨_, -, -, rfl, -⟩ | ⟨_, _, -, -, -, rfl, -⟩ <;> rfl
  rw [h5, this, List.range_eq_range']

/-- **C139.** The costs of the soft constraints shown in one evaluation sum to the one in the statistics. -/
theorem C139_soft (fl : DebugFlags) (hf : fl.info = true) (lib : NlLib h K) (method : TimeAlloc)
    (hm : method ≠ .mellingerOuterLoop) (o : NlOpt h K) (hs : o.params.useSoft = true) (x : List K) (g : Bool) (y : K)
    (o' : NlOpt h K) (log : List (DebugLine K)) (e : o.objectiveP fl lib method x g = .ok ((y, o'), log)) :
    (shownSoft log).sum = o'.info.costSoft ∧ shownCosts log = [y] ∧ shownIterations log = [o.info.nIterations] :=
  ⟨(objectiveP_log e).2 hm hf hs, (objectiveP_log e).1.costs hf, (objectiveP_log e).1.iterations hf⟩

/-- **C139.** With the method of Mellinger and `print_debug_info_time_allocation`, the segment times shown as the
solution are those of the optimiser afterwards. The maxima shown last are those of the trajectory NLopt ended with,
run slower; if `scaleSegmentTimesToMeetConstraints` succeeded, they are within a thousandth of the limits. -/
theorem C139_scaled (fl : DebugFlags) (hf : fl.alloc = true) (lib : NlLib h ℝ) (run : NlRun ℝ) (o : NlOpt h ℝ)
    (c : ℤ) (o' : NlOpt h ℝ) (log : List (DebugLine ℝ)) (hm : o.params.method = .mellingerOuterLoop)
    (ht : run.setupThrows = false) (hc : run.code ≠ none) {vMax aMax : ℝ} (hv : LastLimit 1 vMax o.constraints)
    (hv0 : 0 < vMax) (ha : LastLimit 2 aMax o.constraints) (ha0 : 0 < aMax)
    (e : o.optimizeP fl lib run = .ok ((c, o'), log)) :
    shownScaled log = [o'.lin.segmentTimes] ∧
    ∃ (o1 : NlOpt h ℝ) (tr slow : Trajectory ℝ) (met ok : Bool) (v a : ℝ), o1.lin.getTrajectory = .ok tr ∧
      tr.scaleToMeetConstraints lib.rf lib.sq vMax aMax = .ok (met, slow) ∧
      slow.maxVelocityAndAcceleration lib.rf lib.sq = .ok (ok, v, a) ∧ shownMaxima log = [(v, a)] ∧
      (met = true → v ≤ (1 + 1 / 1000) * vMax ∧ a ≤ (1 + 1 / 1000) * aMax) := by
  obtain ⟨o2, e1, rfl⟩ := optimizeP_inv (by rw [hm]; simp) e
  obtain ⟨-, -, -, h1⟩ := optimizeWithP_inv e1
  obtain ⟨h2, o1, tr, r, m, -, -, h3, h4, h5, h6, h7⟩ := h1 hm hf ht hc
  dsimp only at h4 h6
  rw [limitOf_last hv, limitOf_last ha] at h4 h6
  refine ⟨h2, o1, tr, r.2, r.1, m.1, m.2.1, m.2.2, h3, h4, h5, h7, fun hr => ?_⟩
  obtain ⟨h8, h9⟩ := h6 hr
  rw [div_le_iff₀ hv0] at h8
  rw [div_le_iff₀ ha0] at h9
  exact ⟨h8, h9⟩

end

/-- An optimisation with the method of Mellinger and all output meets the hypotheses of the theorems above. -/
example : ∃ (o o' : NlOpt 2 ℝ) (run : NlRun ℝ) (c : ℤ) (log : List (DebugLine ℝ)),
    o.optimizeP ⟨true, true⟩ (exLib 2) run = .ok ((c, o'), log) ∧ o.params.method = .mellingerOuterLoop ∧
    run.setupThrows = false ∧ run.code ≠ none ∧ points run.queries ≠ [] ∧ LastLimit 1 1 o.constraints ∧
    LastLimit 2 10 o.constraints := by
  obtain ⟨o, h1, h2, h3, h4, h5, h6⟩ := exMove_session 0 0 1 0 (T := 1) (by norm_num) 1 10 (by norm_num)
    (by norm_num) ⟨1 / 10, 1, true, 1, .mellingerOuterLoop⟩ rfl
  have hm : o.params.method = .mellingerOuterLoop := by rw [h2]
  obtain ⟨run, x, a1, a2, a3, a4, a5⟩ := run_exists h1 (by rw [hm]; simp)
    (decide (o.params.method = .mellingerOuterLoop)) h6 (.inr (by
      rw [h5]
      have := dblMax_gt (K := ℝ)
      intro T hT
      simp only [List.mem_cons, List.not_mem_nil, or_false] at hT
      subst hT
      constructor <;> linarith))
  have hlim : LimitsOk 2 o.constraints := by
    rw [h3]
    intro c hc
    simp only [List.mem_cons, List.not_mem_nil, or_false] at hc
    rcases hc with rfl | rfl <;> norm_num
  obtain ⟨c, o', h7⟩ := C67_returns exLib_spec h1 h6 a1 hlim (fun _ => ⟨le_rfl, by rw [h2],
    ⟨⟨1, 1⟩, by rw [h3]; simp, rfl⟩, ⟨⟨2, 10⟩, by rw [h3]; simp, rfl⟩⟩)
  obtain ⟨log, h8⟩ := (C139_returns ⟨true, true⟩ (exLib 2) run o c o').mpr h7
  refine ⟨o, o', run, c, log, h8, hm, a2, by rw [a4]; simp, ?_, ?_, ?_⟩
  · rw [a3]
    simp [points]
  · rw [h3]
    exact ⟨[], [⟨2, 10⟩], rfl, by simp⟩
  · rw [h3]
    exact ⟨[⟨1, 1⟩], [], rfl, by simp⟩

/-- **C139**, refuted for "the maxima shown are those of the trajectory returned": for the motion of
`C82_moving_false` the maximum of the speed shown last is within a thousandth of the limit, and the trajectory of
the optimiser is faster. The figure is measured on a local trajectory, run slower, which does not have the
velocities prescribed at the vertices. -/
theorem C139_maxima_false : ∃ (o o' : NlOpt 2 ℝ) (tr : Trajectory ℝ) (log : List (DebugLine ℝ)) (v a : ℝ),
    LibSpec (exLib 2) ∧ NlSession (exLib 2) (exMove 0 (-1) 10 (-1)) 1 True o ∧
    o.scaleWithViolationP ⟨false, true⟩ (exLib 2) = .ok (o', log) ∧ LastLimit 1 (7 / 4) o.constraints ∧
    shownMaxima log = [(v, a)] ∧ v ≤ (1 + 1 / 1000) * (7 / 4) ∧ o'.lin.getTrajectory = .ok tr ∧
    ¬ WithinLimit tr 1 v := by
  obtain ⟨o, o', tr, hl, hs, ho, hv, ha, hmod, -, -, htr, hw⟩ := C82_moving_false
  obtain ⟨log, tr0, r, m, h1, h2, h3, h4, h5, -, -, -, -, h6⟩ := scaleP_ok (fl := ⟨false, true⟩) ho
  have hls := (nlSession_inv hs).2.1 trivial
  obtain ⟨tr1, htr1, w1, d1, n1, s1, -⟩ := hls.trajectory hl.inv
  rw [h2, Res.ok.injEq] at htr1
  subst htr1
  have hp := (session_ready hls.session).2.1
  obtain ⟨q, -, q1, -⟩ := scaleToMeet_ok (exLib 2).rf hl.rf tr0 w1 (by rw [s1]; exact (hls.good hl.inv).2.1)
    (by rw [d1]; exact hp.dim_pos) (by rw [n1]; norm_num) (by
      unfold FiniteVA
      rw [s1, d1]
      exact hmod) (limitOf 1 o.constraints) (limitOf 2 o.constraints)
    (by rw [limitOf_last hv]; norm_num) (by rw [limitOf_last ha]; norm_num)
  rw [hl.sq, q1, Res.ok.injEq] at h3
  subst h3
  have hb := (h5 rfl).1
  rw [limitOf_last hv, div_le_iff₀ (by norm_num)] at hb
  refine ⟨o, o', tr, log, m.2.1, m.2.2, hl, hs, h1, hv, h6 rfl, hb, htr, fun hw' => hw ?_⟩
  intro t ht
  obtain ⟨x, x1, x2, x3⟩ := hw' t ht
  exact ⟨x, x1, x2, x3.trans hb⟩

end Verif
