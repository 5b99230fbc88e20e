import Verif.Proofs.DebugOutput
import Verif.Proofs.NlOptLast

/-! Helper lemmas for C139: what is printed. -/

set_option linter.unusedSectionVars false

namespace Verif

open Spec

variable {K : Type}

theorem resultOf_eq_ok {α : Type} {a : Res (α × List (DebugLine K))} {x : α} :
    resultOf a = .ok x ↔ ∃ l, a = .ok (x, l) := by
  cases a with
  | ok y =>
    constructor
    · intro h
      have h : y.1 = x := by simpa [resultOf] using h
      subst h
      exact ⟨y.2, rfl⟩
    · rintro ⟨l, h⟩
      rw [Res.ok.injEq] at h
      rw [h]
      rfl
  | _ =>
    constructor
    · intro h
      cases h
    · rintro ⟨l, h⟩
      cases h

variable [Field K] [LinearOrder K] [IsStrictOrderedRing K] {h : ℕ}

/-- What one evaluation of the objective function prints. -/
structure PrintsOne (fl : DebugFlags) (o o' : NlOpt h K) (y : K) (log : List (DebugLine K)) : Prop where
  quiet : fl.info = false → log = []
  costs : fl.info = true → shownCosts log = [y]
  iterations : fl.info = true → shownIterations log = [o.info.nIterations]
  scaled : shownScaled log = []
  maxima : shownMaxima log = []

theorem softCostP_log {fl : DebugFlags} {lib : NlLib h K} {w m : K} {cs : List (Limit K)} :
    ∀ {acc : K} {o : NlOpt h K} {r : (K × NlOpt h K) × List (DebugLine K)},
      softCostP fl lib w m cs acc o = .ok r →
      (fl.info = false → r.2 = []) ∧ shownCosts r.2 = [] ∧ shownIterations r.2 = [] ∧ shownScaled r.2 = [] ∧
      shownMaxima r.2 = [] ∧ (fl.info = true → r.1.1 = acc + (shownSoft r.2).sum) := by
  induction cs with
  | nil =>
    intro acc o r e
    rw [softCostP, Res.ok.injEq] at e
    subst e
    exact ⟨fun _ => rfl, rfl, rfl, rfl, rfl, fun _ => by simp [shownSoft]⟩
  | cons c cs ih =>
    intro acc o r e
    rw [softCostP, Res.bind_eq_ok] at e
    obtain ⟨x, _, e⟩ := e
    dsimp only at e
    rw [Res.bind_eq_ok] at e
    obtain ⟨s, e2, e⟩ := e
    rw [Res.pure_eq, Res.ok.injEq] at e
    subst e
    obtain ⟨i1, i2, i3, i4, i5, i6⟩ := ih e2
    dsimp only
    rcases hf : fl.info
    · rw [i1 hf]
      exact ⟨fun _ => rfl, rfl, rfl, rfl, rfl, fun h0 => absurd h0 (by simp)⟩
    · refine ⟨fun h0 => absurd h0 (by simp), ?_, ?_, ?_, ?_, fun _ => ?_⟩
      · simpa [printIf, shownCosts] using i2
      · simpa [printIf, shownIterations] using i3
      · simpa [printIf, shownScaled] using i4
      · simpa [printIf, shownMaxima] using i5
      · rw [i6 hf]
        simp only [printIf, shownSoft, if_true, List.cons_append, List.nil_append, List.filterMap_cons,
          List.sum_cons]
        ring

theorem totalCostP_log {fl : DebugFlags} {lib : NlLib h K} {o : NlOpt h K} {t : List K} {b : Bool}
    {r : (K × NlOpt h K) × List (DebugLine K)} (e : o.totalCostP fl lib t b = .ok r) :
    PrintsOne fl o r.1.2 r.1.1 r.2 ∧
    (fl.info = true → o.params.useSoft = true → (shownSoft r.2).sum = r.1.2.info.costSoft) := by
  unfold NlOpt.totalCostP at e
  rw [Res.bind_eq_ok] at e
  obtain ⟨c, _, e⟩ := e
  dsimp only at e
  by_cases hu : o.params.useSoft = true
  · rw [if_pos hu] at e
    rw [Res.bind_eq_ok] at e
    obtain ⟨s, e2, e⟩ := e
    rw [Res.pure_eq, Res.ok_bind, Res.pure_eq, Res.ok.injEq] at e
    subst e
    obtain ⟨i1, i2, i3, i4, i5, i6⟩ := softCostP_log e2
    refine ⟨⟨fun h0 => ?_, fun h0 => ?_, fun h0 => ?_, ?_, ?_⟩, fun h0 _ => ?_⟩
    · simp [printIf, h0, i1 h0]
    · have : shownCosts s.2 = [] := i2
      simp only [shownCosts] at this
      simp [printIf, h0, shownCosts, this]
    · have : shownIterations s.2 = [] := i3
      simp only [shownIterations] at this
      simp [printIf, h0, shownIterations, this]
    · have : shownScaled s.2 = [] := i4
      simp only [shownScaled] at this
      rcases h0 : fl.info <;> simp [printIf, shownScaled, this]
    · have : shownMaxima s.2 = [] := i5
      simp only [shownMaxima] at this
      rcases h0 : fl.info <;> simp [printIf, shownMaxima, this]
    · have := i6 h0
      rw [zero_add] at this
      dsimp only
      rw [this]
      simp [printIf, h0, shownSoft]
  · rw [if_neg hu, Res.pure_eq, Res.ok_bind, Res.pure_eq, Res.ok.injEq] at e
    subst e
    refine ⟨⟨fun h0 => ?_, fun h0 => ?_, fun h0 => ?_, ?_, ?_⟩, fun _ h1 => absurd h1 hu⟩
    · simp [printIf, h0]
    · simp [printIf, h0, shownCosts]
    · simp [printIf, h0, shownIterations]
    · rcases h0 : fl.info <;> simp [printIf, shownScaled]
    · rcases h0 : fl.info <;> simp [printIf, shownMaxima]

theorem objectiveP_log {fl : DebugFlags} {lib : NlLib h K} {method : TimeAlloc} {o : NlOpt h K} {x : List K}
    {g : Bool} {r : (K × NlOpt h K) × List (DebugLine K)} (e : o.objectiveP fl lib method x g = .ok r) :
    PrintsOne fl o r.1.2 r.1.1 r.2 ∧
    (method ≠ .mellingerOuterLoop → fl.info = true → o.params.useSoft = true →
      (shownSoft r.2).sum = r.1.2.info.costSoft) := by
  have htime : o.objectiveTimeP fl lib x g = .ok r → PrintsOne fl o r.1.2 r.1.1 r.2 ∧
      (fl.info = true → o.params.useSoft = true → (shownSoft r.2).sum = r.1.2.info.costSoft) := by
    intro e
    unfold NlOpt.objectiveTimeP at e
    rw [Res.bind_eq_ok] at e
    obtain ⟨_, -, e⟩ := e
    rw [Res.bind_eq_ok] at e
    obtain ⟨_, -, e⟩ := e
    rw [Res.bind_eq_ok] at e
    obtain ⟨l1, -, e⟩ := e
    rw [Res.bind_eq_ok] at e
    obtain ⟨l2, -, e⟩ := e
    obtain ⟨⟨q1, q2, q3, q4, q5⟩, q6⟩ := totalCostP_log e
    exact ⟨⟨q1, q2, q3, q4, q5⟩, q6⟩
  have hfull : o.objectiveFullP fl lib x g = .ok r → PrintsOne fl o r.1.2 r.1.1 r.2 ∧
      (fl.info = true → o.params.useSoft = true → (shownSoft r.2).sum = r.1.2.info.costSoft) := by
    intro e
    unfold NlOpt.objectiveFullP at e
    dsimp only at e
    rw [Res.bind_eq_ok] at e
    obtain ⟨_, -, e⟩ := e
    rw [Res.bind_eq_ok] at e
    obtain ⟨_, -, e⟩ := e
    rw [Res.bind_eq_ok] at e
    obtain ⟨l1, -, e⟩ := e
    rw [Res.bind_eq_ok] at e
    obtain ⟨l2, -, e⟩ := e
    obtain ⟨⟨q1, q2, q3, q4, q5⟩, q6⟩ := totalCostP_log e
    exact ⟨⟨q1, q2, q3, q4, q5⟩, q6⟩
  unfold NlOpt.objectiveP at e
  cases method with
  | squaredTime => exact ⟨(htime e).1, fun _ => (htime e).2⟩
  | richterTime => exact ⟨(htime e).1, fun _ => (htime e).2⟩
  | mellingerOuterLoop =>
    refine ⟨?_, fun hm => absurd rfl hm⟩
    unfold NlOpt.objectiveMellingerP at e
    dsimp only at e
    rw [Res.bind_eq_ok] at e
    obtain ⟨y, -, e⟩ := e
    rw [Res.pure_eq, Res.ok.injEq] at e
    subst e
    refine ⟨fun h0 => ?_, fun h0 => ?_, fun h0 => ?_, ?_, ?_⟩
    · simp [printIf, h0]
    · simp [printIf, h0, shownCosts]
    · simp [printIf, h0, shownIterations]
    · rcases h0 : fl.info <;> simp [printIf, shownScaled]
    · rcases h0 : fl.info <;> simp [printIf, shownMaxima]
  | squaredTimeAndConstraints => exact ⟨(hfull e).1, fun _ => (hfull e).2⟩
  | richterTimeAndConstraints => exact ⟨(hfull e).1, fun _ => (hfull e).2⟩
  | unknown => exact ⟨(hfull e).1, fun _ => (hfull e).2⟩

theorem answersP_log {fl : DebugFlags} {lib : NlLib h K} {method : TimeAlloc} {qs : List (NlQuery K)} :
    ∀ {o : NlOpt h K} {r : (List K × NlOpt h K) × List (DebugLine K)},
      NlOpt.answersP fl lib method qs o = .ok r →
      (fl.info = false → r.2 = []) ∧
      (fl.info = true → shownCosts r.2 = objectiveValues qs r.1.1 ∧
        shownIterations r.2 = List.range' o.info.nIterations (points qs).length) ∧
      shownScaled r.2 = [] ∧ shownMaxima r.2 = [] := by
  induction qs with
  | nil =>
    intro o r e
    rw [NlOpt.answersP, Res.ok.injEq] at e
    subst e
    exact ⟨fun _ => rfl, fun _ => ⟨rfl, rfl⟩, rfl, rfl⟩
  | cons q qs ih =>
    intro o r e
    rw [NlOpt.answersP, Res.bind_eq_ok] at e
    obtain ⟨x, e1, e⟩ := e
    rw [Res.bind_eq_ok] at e
    obtain ⟨s, e2, e⟩ := e
    rw [Res.pure_eq, Res.ok.injEq] at e
    subst e
    obtain ⟨i1, i2, i3, i4⟩ := ih e2
    have hsame : o.answer lib (NlOpt.objective lib method) q = .ok x.1 := by
      rw [← answerP_same fl lib method o q, e1]
      rfl
    cases q with
    | objective y g =>
      obtain ⟨⟨q1, q2, q3, q4, q5⟩, -⟩ := objectiveP_log (show o.objectiveP fl lib method y g = .ok x from e1)
      have hn : x.1.2.info.nIterations = o.info.nIterations + 1 :=
        objective_count (show NlOpt.objective lib method o y g = .ok (x.1.1, x.1.2) from hsame)
      refine ⟨fun h0 => ?_, fun h0 => ⟨?_, ?_⟩, ?_, ?_⟩
      · simp [q1 h0, i1 h0]
      · rw [shownCosts, List.filterMap_append]
        exact congrArg₂ (· ++ ·) (q2 h0) (i2 h0).1
      · rw [shownIterations, List.filterMap_append]
        refine (congrArg₂ (· ++ ·) (q3 h0) (i2 h0).2).trans ?_
        rw [hn, points_cons_objective]
        simp [List.range'_succ]
      · rw [shownScaled, List.filterMap_append]
        exact congrArg₂ (· ++ ·) q4 i3
      · rw [shownMaxima, List.filterMap_append]
        exact congrArg₂ (· ++ ·) q5 i4
    | constraint i y g =>
      obtain ⟨-, _, _, _, -, -, -, -, he⟩ :=
        answer_constraint (show o.answer lib (NlOpt.objective lib method) (.constraint i y g) = .ok (x.1.1, x.1.2) from hsame)
      have hn : x.1.2.info.nIterations = o.info.nIterations := by rw [he]
      have hx : x.2 = [] := by
        unfold NlOpt.answerP at e1
        rw [Res.bind_eq_ok] at e1
        obtain ⟨_, -, e1⟩ := e1
        cases hh : o.handle with
        | none => rw [hh] at e1; cases e1
        | some hd =>
          rw [hh] at e1
          dsimp only at e1
          rw [Res.bind_eq_ok] at e1
          obtain ⟨_, -, e1⟩ := e1
          rw [Res.bind_eq_ok] at e1
          obtain ⟨_, -, e1⟩ := e1
          rw [Res.pure_eq, Res.ok.injEq] at e1
          rw [← e1]
      dsimp only
      rw [hx, List.nil_append, points_cons_constraint]
      refine ⟨i1, fun h0 => ?_, i3, i4⟩
      rw [← hn]
      exact i2 h0

/-- The scaling with output: when it returns, what it returns, and what it shows. -/
theorem scaleP_ok {fl : DebugFlags} {lib : NlLib h K} {o o' : NlOpt h K}
    (e : o.scaleWithViolation lib = .ok o') : ∃ log tr r m, o.scaleWithViolationP fl lib = .ok (o', log) ∧
      o.lin.getTrajectory = .ok tr ∧
      tr.scaleToMeetConstraints lib.rf lib.sq (limitOf 1 o.constraints) (limitOf 2 o.constraints) = .ok r ∧
      r.2.maxVelocityAndAcceleration lib.rf lib.sq = .ok m ∧
      (r.1 = true → m.2.1 / limitOf 1 o.constraints ≤ 1 + 1 / 1000 ∧
        m.2.2 / limitOf 2 o.constraints ≤ 1 + 1 / 1000) ∧
      shownCosts log = [] ∧ shownIterations log = [] ∧ shownScaled log = [] ∧
      (fl.alloc = false → log = []) ∧ (fl.alloc = true → shownMaxima log = [(m.2.1, m.2.2)]) := by
  unfold NlOpt.scaleWithViolation at e
  rw [Res.bind_eq_ok] at e
  obtain ⟨tr, h1, e⟩ := e
  dsimp only at e
  split_ifs at e with hz
  rw [Res.bind_eq_ok] at e
  obtain ⟨r, h2, e⟩ := e
  rw [Res.bind_eq_ok] at e
  obtain ⟨l1, h3, e⟩ := e
  rw [Res.bind_eq_ok] at e
  obtain ⟨l2, h4, e⟩ := e
  rw [Res.pure_eq, Res.ok.injEq] at e
  subst e
  obtain ⟨⟨m0, g1⟩, m, g2, g3⟩ := scale_measures lib.rf lib.sq _ _ 19 tr r h2
  unfold NlOpt.scaleWithViolationP
  rw [h1, Res.ok_bind]
  dsimp only
  unfold measureIf
  rcases hf : fl.alloc
  · rw [if_neg (by simp), Res.pure_eq, Res.ok_bind, if_neg hz, h2, Res.ok_bind, h3, Res.ok_bind, h4, Res.ok_bind,
      if_neg (by simp), Res.ok_bind]
    exact ⟨_, tr, r, m, rfl, rfl, h2, g2, g3, rfl, rfl, rfl, fun _ => rfl, fun h0 => by cases h0⟩
  · rw [if_pos rfl, g1, Res.ok_bind, Res.pure_eq, Res.ok_bind, if_neg hz, h2, Res.ok_bind, h3, Res.ok_bind, h4,
      Res.ok_bind, if_pos rfl, g2, Res.ok_bind, Res.pure_eq, Res.ok_bind]
    exact ⟨_, tr, r, m, rfl, rfl, h2, g2, g3, rfl, rfl, rfl, fun h0 => (by cases h0), fun _ => rfl⟩

theorem scaleP_inv {fl : DebugFlags} {lib : NlLib h K} {o o' : NlOpt h K} {log : List (DebugLine K)}
    (e : o.scaleWithViolationP fl lib = .ok (o', log)) : o.scaleWithViolation lib = .ok o' := by
  unfold NlOpt.scaleWithViolationP at e
  rw [Res.bind_eq_ok] at e
  obtain ⟨tr, h1, e⟩ := e
  dsimp only at e
  rw [Res.bind_eq_ok] at e
  obtain ⟨l, -, e⟩ := e
  split_ifs at e with hz
  rw [Res.bind_eq_ok] at e
  obtain ⟨r, h2, e⟩ := e
  rw [Res.bind_eq_ok] at e
  obtain ⟨l1, h3, e⟩ := e
  rw [Res.bind_eq_ok] at e
  obtain ⟨l2, h4, e⟩ := e
  rw [Res.bind_eq_ok] at e
  obtain ⟨l', -, e⟩ := e
  rw [Res.pure_eq, Res.ok.injEq, Prod.mk.injEq] at e
  unfold NlOpt.scaleWithViolation
  rw [h1, Res.ok_bind]
  dsimp only
  rw [if_neg hz, h2, Res.ok_bind, h3, Res.ok_bind, h4, Res.ok_bind, Res.pure_eq, e.1]

/-- If the limits are given, the scaling ends alike with and without output. -/
theorem scaleP_same {fl : DebugFlags} {lib : NlLib h K} {o : NlOpt h K}
    (hz : fl.alloc = false ∨ limitOf 1 o.constraints ≠ 0 ∧ limitOf 2 o.constraints ≠ 0) :
    resultOf (o.scaleWithViolationP fl lib) = o.scaleWithViolation lib := by
  cases e : o.scaleWithViolation lib with
  | ok o' =>
    obtain ⟨log, -, -, -, h1, -⟩ := scaleP_ok (fl := fl) e
    rw [h1]
    rfl
  | _ =>
    rw [← e]
    unfold NlOpt.scaleWithViolationP NlOpt.scaleWithViolation
    rw [resultOf_bind]
    cases ht : o.lin.getTrajectory with
    | ok tr =>
      rw [Res.ok_bind, Res.ok_bind, resultOf_bind]
      dsimp only
      by_cases hf : fl.alloc = false
      · simp only [measureIf, hf, Bool.false_eq_true, if_false, Res.pure_eq, Res.ok_bind, resultOf_bind, resultOf_ite]
        rfl
      · obtain ⟨z1, z2⟩ := hz.resolve_left hf
        have hf' : fl.alloc = true := by simpa using hf
        have hz : ¬ (limitOf 1 o.constraints = 0 ∨ limitOf 2 o.constraints = 0) := by tauto
        rw [if_neg hz]
        simp only [measureIf, hf', if_true, if_neg hz]
        cases hm : tr.maxVelocityAndAcceleration lib.rf lib.sq with
        | ok m =>
          rw [Res.ok_bind, Res.pure_eq, Res.ok_bind, resultOf_bind]
          cases hr : tr.scaleToMeetConstraints lib.rf lib.sq (limitOf 1 o.constraints) (limitOf 2 o.constraints) with
          | ok r =>
            rw [Res.ok_bind, Res.ok_bind, resultOf_bind]
            obtain ⟨-, m', g2, -⟩ := scale_measures lib.rf lib.sq _ _ 19 tr r hr
            congr 1
            funext l1
            rw [resultOf_bind]
            congr 1
            funext l2
            rw [g2]
            rfl
          | _ => rfl
        | _ =>
          unfold Trajectory.scaleToMeetConstraints
          rw [scaleToMeetLoop_succ, hm]
          rfl
    | _ => rfl

end Verif
