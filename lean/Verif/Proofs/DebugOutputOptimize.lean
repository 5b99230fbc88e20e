import Verif.Proofs.DebugOutputRun

/-! Helper lemmas for C139: `optimize` with output. -/

set_option linter.unusedSectionVars false

namespace Verif

open Spec

variable {K : Type} [Field K] [LinearOrder K] [IsStrictOrderedRing K] {h : ℕ}

theorem optimizeWithP_same {fl : DebugFlags} {lib : NlLib h K} {run : NlRun K} {o : NlOpt h K}
    (hz : o.params.method ≠ .mellingerOuterLoop ∨ fl.alloc = false ∨
      limitOf 1 o.constraints ≠ 0 ∧ limitOf 2 o.constraints ≠ 0) :
    resultOf (o.optimizeWithP fl lib run) = o.optimizeWith lib run := by
  unfold NlOpt.optimizeWithP NlOpt.optimizeWith
  rw [resultOf_bind]
  cases hp : o.prepare lib with
  | ok p =>
    rw [Res.ok_bind, Res.ok_bind]
    dsimp only
    by_cases hst : run.setupThrows = true
    · rw [if_pos hst, if_pos hst]
      rfl
    · rw [if_neg hst, if_neg hst]
      have ha := answersP_same fl lib o.params.method run.queries p.1
      cases hr : NlOpt.answersP fl lib o.params.method run.queries p.1 with
      | ok r =>
        rw [hr] at ha
        rw [Res.ok_bind, ← ha]
        have hs : SameSetup o r.1.2 := (prepare_same (a := p.2) hp).trans
          (answers_same (ys := r.1.1) (o' := r.1.2) ha.symm)
        change _ = Res.ok r.1 >>= _
        rw [Res.ok_bind]
        by_cases hm : o.params.method = .mellingerOuterLoop
        · rw [if_pos (by simpa using hm), if_pos hm]
          by_cases hw : run.code = none ∧ run.wroteCost = false
          · rw [if_pos hw, if_pos hw]
            rfl
          · rw [if_neg hw, if_neg hw]
            apply resultOf_bind'
            · apply scaleP_same
              rcases hz with hz | hz | hz
              · exact absurd hm hz
              · exact .inl hz
              · rw [hs.constraints]
                exact .inr hz
            · intro x l
              rfl
        · rw [if_neg (by simpa using hm), if_neg hm]
          rfl
      | _ =>
        rw [hr] at ha
        rw [← ha]
        rfl
  | _ => rfl

/-- What `optimizeWithP` returns and shows. -/
theorem optimizeWithP_inv {fl : DebugFlags} {lib : NlLib h K} {run : NlRun K} {o o' : NlOpt h K} {c : ℤ}
    {log : List (DebugLine K)} (e : o.optimizeWithP fl lib run = .ok ((c, o'), log)) :
    o.optimizeWith lib run = .ok (c, o') ∧
    (fl.info = false → fl.alloc = false → log = []) ∧
    (fl.info = true → run.setupThrows = false → ∃ p a ys o1, o.prepare lib = .ok (p, a) ∧
      NlOpt.answers lib (NlOpt.objective lib o.params.method) run.queries p = .ok (ys, o1) ∧
      shownCosts log = objectiveValues run.queries ys ∧
      shownIterations log = List.range' p.info.nIterations (points run.queries).length) ∧
    (o.params.method = .mellingerOuterLoop → fl.alloc = true → run.setupThrows = false → run.code ≠ none →
      shownScaled log = [o'.lin.segmentTimes] ∧
      ∃ (o1 : NlOpt h K) (tr : Trajectory K) (r : Bool × Trajectory K) (m : Bool × K × K), o1.scaleWithViolation lib = .ok o' ∧ o1.constraints = o.constraints ∧
        o1.lin.getTrajectory = .ok tr ∧
        tr.scaleToMeetConstraints lib.rf lib.sq (limitOf 1 o.constraints) (limitOf 2 o.constraints) = .ok r ∧
        r.2.maxVelocityAndAcceleration lib.rf lib.sq = .ok m ∧
        (r.1 = true → m.2.1 / limitOf 1 o.constraints ≤ 1 + 1 / 1000 ∧
          m.2.2 / limitOf 2 o.constraints ≤ 1 + 1 / 1000) ∧
        shownMaxima log = [(m.2.1, m.2.2)]) := by
  unfold NlOpt.optimizeWithP at e
  rw [Res.bind_eq_ok] at e
  obtain ⟨p, hp, e⟩ := e
  unfold NlOpt.optimizeWith
  rw [hp, Res.ok_bind]
  dsimp only at e
  by_cases hst : run.setupThrows = true
  · rw [if_pos hst, Res.pure_eq, Res.ok.injEq, Prod.mk.injEq] at e
    obtain ⟨e1, e2⟩ := e
    rw [if_pos hst, Res.pure_eq, e1]
    refine ⟨rfl, fun _ h2 => ?_, fun _ h2 => absurd hst (by simp [h2]), fun _ _ h2 => absurd hst (by simp [h2])⟩
    rw [← e2, h2]
    simp [printIf]
  · rw [if_neg hst, Res.bind_eq_ok] at e
    obtain ⟨r, hr, e⟩ := e
    have ha := answersP_same fl lib o.params.method run.queries p.1
    rw [hr] at ha
    have ha : NlOpt.answers lib (NlOpt.objective lib o.params.method) run.queries p.1 = .ok r.1 := ha.symm
    have hs : SameSetup o r.1.2 := (prepare_same (a := p.2) hp).trans
      (answers_same (ys := r.1.1) (o' := r.1.2) ha)
    obtain ⟨i1, i2, i3, i4⟩ := answersP_log hr
    rw [if_neg hst, ha, Res.ok_bind]
    by_cases hm : o.params.method = .mellingerOuterLoop
    · rw [if_pos (by simpa using hm)] at e
      rw [if_pos hm]
      by_cases hw : run.code = none ∧ run.wroteCost = false
      · rw [if_pos hw, Res.pure_eq, Res.ok.injEq, Prod.mk.injEq] at e
        obtain ⟨e1, e2⟩ := e
        rw [if_pos hw, Res.pure_eq, e1]
        refine ⟨rfl, fun h1 h2 => ?_, fun h1 _ => ⟨p.1, p.2, r.1.1, r.1.2, rfl, ha, ?_, ?_⟩,
          fun _ _ _ h3 => absurd hw.1 h3⟩
        · rw [← e2, i1 h1, h2]
          simp [printIf]
        · rw [← e2, ← (i2 h1).1]
          cases fl.alloc <;> simp [printIf, shownCosts, hm]
        · rw [← e2, ← (i2 h1).2]
          cases fl.alloc <;> simp [printIf, shownIterations, hm]
      · rw [if_neg hw, Res.bind_eq_ok] at e
        obtain ⟨s, hsc, e⟩ := e
        rw [Res.pure_eq, Res.ok.injEq, Prod.mk.injEq, Prod.mk.injEq] at e
        obtain ⟨⟨e0, e1⟩, e2⟩ := e
        have hsc' := scaleP_inv (o' := s.1) (log := s.2) hsc
        obtain ⟨log', tr, q, m, j1, j2, j3, j4, j5, j6, j7, j8, j9, j10⟩ := scaleP_ok (fl := fl) hsc'
        have hl : log' = s.2 := by
          rw [hsc, Res.ok.injEq] at j1
          rw [j1]
        rw [if_neg hw, hsc', Res.ok_bind, Res.pure_eq, e0, e1]
        rw [hl] at j6 j7 j8 j9 j10
        refine ⟨rfl, fun h1 h2 => ?_, fun h1 _ => ⟨p.1, p.2, r.1.1, r.1.2, rfl, ha, ?_, ?_⟩,
          fun _ h2 _ h3 => ⟨?_, r.1.2, tr, q, m, ?_, hs.constraints, j2, ?_, j4, ?_, ?_⟩⟩
        · rw [← e2, i1 h1, j9 h2, h2]
          simp [printIf]
        · rw [← e2, ← (i2 h1).1]
          simp only [shownCosts] at j6
          cases fl.alloc <;> rcases run.code <;> simp [printIf, shownCosts, hm, j6]
        · rw [← e2, ← (i2 h1).2]
          simp only [shownIterations] at j7
          cases fl.alloc <;> rcases run.code <;> simp [printIf, shownIterations, hm, j7]
        · rw [← e2, ← e1]
          simp only [shownScaled] at i3 j8
          rcases hc : run.code <;> simp [printIf, shownScaled, hm, h2, i3, j8]
        · rw [← e1]
          exact hsc'
        · rw [← hs.constraints]
          exact j3
        · rw [← hs.constraints]
          exact j5
        · rw [← e2, ← j10 h2]
          simp only [shownMaxima] at i4
          rcases hc : run.code <;> simp [printIf, shownMaxima, hm, h2, i4]
    · rw [if_neg (by simpa using hm), Res.pure_eq, Res.ok.injEq, Prod.mk.injEq] at e
      obtain ⟨e1, e2⟩ := e
      rw [if_neg hm, Res.pure_eq, e1]
      refine ⟨rfl, fun h1 h2 => ?_, fun h1 _ => ⟨p.1, p.2, r.1.1, r.1.2, rfl, ha, ?_, ?_⟩, fun h1 => absurd h1 hm⟩
      · rw [← e2, i1 h1, h2]
        simp [printIf]
      · rw [← e2, ← (i2 h1).1]
        simp [printIf, hm]
      · rw [← e2, ← (i2 h1).2]
        simp [printIf, hm]

theorem optimizeWithP_ok {fl : DebugFlags} {lib : NlLib h K} {run : NlRun K} {o o' : NlOpt h K} {c : ℤ}
    (e : o.optimizeWith lib run = .ok (c, o')) : ∃ log, o.optimizeWithP fl lib run = .ok ((c, o'), log) := by
  by_cases hz : o.params.method ≠ .mellingerOuterLoop ∨ fl.alloc = false ∨
      limitOf 1 o.constraints ≠ 0 ∧ limitOf 2 o.constraints ≠ 0
  · exact resultOf_eq_ok.mp ((optimizeWithP_same hz).trans e)
  · unfold NlOpt.optimizeWith at e
    unfold NlOpt.optimizeWithP
    rw [Res.bind_eq_ok] at e
    obtain ⟨p, hp, e⟩ := e
    rw [hp, Res.ok_bind]
    dsimp only
    by_cases hst : run.setupThrows = true
    · rw [if_pos hst, Res.pure_eq, Res.ok.injEq] at e
      rw [if_pos hst, e]
      exact ⟨_, rfl⟩
    · rw [if_neg hst, Res.bind_eq_ok] at e
      obtain ⟨r, hr, e⟩ := e
      obtain ⟨l, ha⟩ := resultOf_eq_ok.mp ((answersP_same fl lib o.params.method run.queries p.1).trans hr)
      rw [if_neg hst, ha, Res.ok_bind]
      by_cases hm : o.params.method = .mellingerOuterLoop
      · rw [if_pos hm] at e
        rw [if_pos (by simpa using hm)]
        by_cases hw : run.code = none ∧ run.wroteCost = false
        · rw [if_pos hw, Res.pure_eq, Res.ok.injEq] at e
          rw [if_pos hw, e]
          exact ⟨_, rfl⟩
        · rw [if_neg hw, Res.bind_eq_ok] at e
          obtain ⟨s, hs, e⟩ := e
          rw [Res.pure_eq, Res.ok.injEq] at e
          obtain ⟨l', -, -, -, hs', -⟩ := scaleP_ok (fl := fl) hs
          rw [if_neg hw]
          dsimp only
          rw [hs', Res.ok_bind, ← e]
          exact ⟨_, rfl⟩
      · exact absurd (.inl hm) hz

theorem optimizeP_inv {fl : DebugFlags} {lib : NlLib h K} {run : NlRun K} {o o' : NlOpt h K} {c : ℤ}
    {log : List (DebugLine K)} (hu : o.params.method ≠ .unknown)
    (e : o.optimizeP fl lib run = .ok ((c, o'), log)) : ∃ o2,
      NlOpt.optimizeWithP fl lib run { o with info := NlInfo.default } = .ok ((c, o2), log) ∧
      o' = { o2 with info := { o2.info with stoppingReason := c } } := by
  unfold NlOpt.optimizeP at e
  dsimp only at e
  rw [if_neg hu, Res.bind_eq_ok] at e
  obtain ⟨r, h1, e⟩ := e
  rw [Res.pure_eq, Res.ok.injEq, Prod.mk.injEq, Prod.mk.injEq] at e
  obtain ⟨⟨e1, e2⟩, e3⟩ := e
  refine ⟨r.1.2, ?_, ?_⟩
  · rw [h1, ← e1, ← e3]
  · rw [← e1, ← e2]

end Verif
