import Verif.Proofs.NlOptPack

/- Helper lemmas: what calls leave alone, and which evaluation determines the result. -/
namespace Verif

open Spec

set_option linter.unusedSectionVars false

variable {K : Type} [Field K] [LinearOrder K] [IsStrictOrderedRing K] {h : ℕ}

/-! #### Calls do not change the setup -/

theorem objective_same {lib : NlLib h K} {method : TimeAlloc} {o o' : NlOpt h K} {x : List K} {g : Bool}
    {y : K} (ho : NlOpt.objective lib method o x g = .ok (y, o')) : SameSetup o o' := by
  have hfull : o.objectiveFull lib x g = .ok (y, o') → SameSetup o o' := by
    intro ho
    unfold NlOpt.objectiveFull at ho
    dsimp only at ho
    rw [Res.bind_eq_ok] at ho
    obtain ⟨_, -, ho⟩ := ho
    rw [Res.bind_eq_ok] at ho
    obtain ⟨_, -, ho⟩ := ho
    rw [Res.bind_eq_ok] at ho
    obtain ⟨l1, h1, ho⟩ := ho
    rw [Res.bind_eq_ok] at ho
    obtain ⟨l2, h2, ho⟩ := ho
    obtain ⟨a, b, c⟩ := (totalCost_inv ho).2.1
    exact ⟨a, b, c⟩
  have htime : o.objectiveTime lib x g = .ok (y, o') → SameSetup o o' := by
    intro ho
    unfold NlOpt.objectiveTime at ho
    rw [Res.bind_eq_ok] at ho
    obtain ⟨_, -, ho⟩ := ho
    rw [Res.bind_eq_ok] at ho
    obtain ⟨_, -, ho⟩ := ho
    rw [Res.bind_eq_ok] at ho
    obtain ⟨l1, h1, ho⟩ := ho
    rw [Res.bind_eq_ok] at ho
    obtain ⟨l2, h2, ho⟩ := ho
    obtain ⟨a, b, c⟩ := (totalCost_inv ho).2.1
    exact ⟨a, b, c⟩
  unfold NlOpt.objective at ho
  cases method
  · exact htime ho
  · exact htime ho
  · dsimp only at ho
    rw [Res.bind_eq_ok] at ho
    obtain ⟨⟨y', gr, o1⟩, h1, ho⟩ := ho
    rw [Res.pure_eq, Res.ok.injEq, Prod.mk.injEq] at ho
    obtain ⟨-, rfl⟩ := ho
    unfold NlOpt.objectiveMellinger at h1
    rw [Res.bind_eq_ok] at h1
    obtain ⟨_, -, h1⟩ := h1
    rw [Res.bind_eq_ok] at h1
    obtain ⟨_, -, h1⟩ := h1
    rw [Res.bind_eq_ok] at h1
    obtain ⟨l1, -, h1⟩ := h1
    rw [Res.bind_eq_ok] at h1
    obtain ⟨l2, -, h1⟩ := h1
    rw [Res.bind_eq_ok] at h1
    obtain ⟨r, -, h1⟩ := h1
    rw [Res.pure_eq, Res.ok.injEq, Prod.mk.injEq, Prod.mk.injEq] at h1
    obtain ⟨-, -, rfl⟩ := h1
    exact ⟨rfl, rfl, rfl⟩
  · exact hfull ho
  · exact hfull ho
  · exact hfull ho

theorem answer_constraint {lib : NlLib h K} {obj : NlOpt h K → List K → Bool → Res (K × NlOpt h K)}
    {o o' : NlOpt h K} {i : ℕ} {x : List K} {g : Bool} {y : K}
    (ho : o.answer lib obj (.constraint i x g) = .ok (y, o')) :
    g = false ∧ ∃ hd c m, o.handle = some hd ∧ hd.hard[i]? = some c ∧
      o.lin.computeMaximumOfMagnitude lib.rf lib.sq c.derivative = .ok m ∧ y = m.1.value - c.value ∧
      o' = { o with info := { o.info with maxima := mapInsert c.derivative m.1 o.info.maxima } } := by
  unfold NlOpt.answer at ho
  dsimp only at ho
  rw [Res.bind_eq_ok] at ho
  obtain ⟨_, h1, ho⟩ := ho
  rw [Res.check_eq_ok] at h1
  cases hh : o.handle with
  | none => rw [hh] at ho; cases ho
  | some hd =>
    rw [hh] at ho
    dsimp only at ho
    rw [Res.bind_eq_ok] at ho
    obtain ⟨c, h2, ho⟩ := ho
    rw [Res.at'_eq_ok] at h2
    unfold NlOpt.evaluateConstraint at ho
    rw [Res.bind_eq_ok] at ho
    obtain ⟨m, h3, ho⟩ := ho
    rw [Res.pure_eq, Res.ok.injEq, Prod.mk.injEq] at ho
    refine ⟨h1, hd, c, m, rfl, h2, h3, ho.1.symm, ?_⟩
    rw [← ho.2, hh]

theorem answers_same {lib : NlLib h K} {method : TimeAlloc} {qs : List (NlQuery K)} {o o' : NlOpt h K}
    {ys : List K} (ho : NlOpt.answers lib (NlOpt.objective lib method) qs o = .ok (ys, o')) :
    SameSetup o o' := by
  induction qs generalizing o ys with
  | nil =>
    have : (([] : List K), o) = (ys, o') := by simpa [NlOpt.answers] using ho
    rw [Prod.mk.injEq] at this
    rw [← this.2]
    exact .refl _
  | cons q qs ih =>
    rw [answers_cons, Res.bind_eq_ok] at ho
    obtain ⟨⟨y, o1⟩, h1, ho⟩ := ho
    rw [Res.bind_eq_ok] at ho
    obtain ⟨⟨ys', o2⟩, h2, ho⟩ := ho
    rw [Res.pure_eq, Res.ok.injEq, Prod.mk.injEq] at ho
    obtain ⟨-, rfl⟩ := ho
    refine SameSetup.trans ?_ (ih h2)
    cases q with
    | objective x g => exact objective_same h1
    | constraint i x g =>
      obtain ⟨-, _, _, _, -, -, -, -, rfl⟩ := answer_constraint h1
      exact ⟨rfl, rfl, rfl⟩

theorem prepare_same {lib : NlLib h K} {o p : NlOpt h K} {a : NlArgs K}
    (ho : o.prepare lib = .ok (p, a)) : SameSetup o p := by
  rcases prepare_cases ho with ⟨_, -, -, rfl, -⟩ | ⟨_, -, -, rfl, -⟩ | ⟨_, _, -, -, -, rfl, -⟩
  · exact .refl _
  · exact .refl _
  · exact ⟨rfl, rfl, rfl⟩

theorem scale_same {lib : NlLib h K} {o o' : NlOpt h K} (ho : o.scaleWithViolation lib = .ok o') :
    SameSetup o o' := by
  unfold NlOpt.scaleWithViolation at ho
  rw [Res.bind_eq_ok] at ho
  obtain ⟨tr, htr, ho⟩ := ho
  dsimp only at ho
  split_ifs at ho with hz
  rw [Res.bind_eq_ok] at ho
  obtain ⟨r, hr, ho⟩ := ho
  rw [Res.bind_eq_ok] at ho
  obtain ⟨l1, h1, ho⟩ := ho
  rw [Res.bind_eq_ok] at ho
  obtain ⟨l2, h2, ho⟩ := ho
  rw [Res.pure_eq, Res.ok.injEq] at ho
  subst ho
  exact ⟨rfl, rfl, rfl⟩

theorem optimize_same {lib : NlLib h K} {o o' : NlOpt h K} {run : NlRun K} {c : ℤ}
    (ho : o.optimize lib run = .ok (c, o')) : SameSetup o o' := by
  unfold NlOpt.optimize at ho
  dsimp only at ho
  by_cases hu : o.params.method = .unknown
  · rw [if_pos hu, Res.pure_eq, Res.ok_bind, Res.pure_eq, Res.ok.injEq, Prod.mk.injEq] at ho
    obtain ⟨rfl, rfl⟩ := ho
    exact ⟨rfl, rfl, rfl⟩
  rw [if_neg hu, Res.bind_eq_ok] at ho
  obtain ⟨⟨c', o2⟩, ho, he⟩ := ho
  rw [Res.pure_eq, Res.ok.injEq, Prod.mk.injEq] at he
  obtain ⟨rfl, rfl⟩ := he
  have : SameSetup ({ o with info := NlInfo.default } : NlOpt h K) o2 := by
    unfold NlOpt.optimizeWith at ho
    rw [Res.bind_eq_ok] at ho
    obtain ⟨⟨p, a⟩, hp, ho⟩ := ho
    have e1 := prepare_same hp
    by_cases hst : run.setupThrows = true
    · rw [if_pos hst, Res.pure_eq, Res.ok.injEq, Prod.mk.injEq] at ho
      obtain ⟨rfl, rfl⟩ := ho
      exact e1
    rw [if_neg hst, Res.bind_eq_ok] at ho
    obtain ⟨⟨ys, o3⟩, hans, ho⟩ := ho
    have e2 := answers_same hans
    dsimp only at ho
    by_cases hme : o.params.method = .mellingerOuterLoop
    · rw [if_pos hme] at ho
      by_cases hcode : run.code = none ∧ run.wroteCost = false
      · rw [if_pos hcode, Res.pure_eq, Res.ok.injEq, Prod.mk.injEq] at ho
        obtain ⟨rfl, rfl⟩ := ho
        exact e1.trans e2
      · rw [if_neg hcode, Res.bind_eq_ok] at ho
        obtain ⟨o4, h4, ho⟩ := ho
        rw [Res.pure_eq, Res.ok.injEq, Prod.mk.injEq] at ho
        obtain ⟨rfl, rfl⟩ := ho
        exact (e1.trans e2).trans (scale_same h4)
    · rw [if_neg hme, Res.pure_eq, Res.ok.injEq, Prod.mk.injEq] at ho
      obtain ⟨rfl, rfl⟩ := ho
      exact e1.trans e2
  exact ⟨this.handle, this.params, this.constraints⟩

theorem session_nlReachable {lib : NlLib h K} {vertices : List (Vertex K)} {k : ℕ} {b : Prop}
    {o : NlOpt h K} (hs : NlSession lib vertices k b o) : NlReachable lib o := by
  induction hs with
  | setup h1 _ h3 => exact .setup h1 h3
  | solveLinear _ h1 ih => exact .solveLinear ih h1
  | add _ h1 ih => exact .add ih h1
  | optimize _ _ h1 ih => exact .optimize ih h1
  | scale _ h1 ih => exact .scale ih h1
  | total _ h1 ih => exact .total ih h1

/-- The limits of an object. -/
structure LimitsSane (o : NlOpt h K) : Prop where
  nonneg : ∀ c ∈ o.constraints, 0 ≤ c.derivative ∧ 0 ≤ c.value
  hard : ∀ hd, o.handle = some hd → ∀ c ∈ hd.hard, c ∈ o.constraints
  soft : o.params.useSoft = true → ∀ hd, o.handle = some hd → hd.hard = []

theorem LimitsSane.same {o o' : NlOpt h K} (h1 : LimitsSane o) (h2 : SameSetup o o') : LimitsSane o' :=
  ⟨by rw [h2.constraints]; exact h1.nonneg, by rw [h2.constraints, h2.handle]; exact h1.hard,
    by rw [h2.params, h2.handle]; exact h1.soft⟩

theorem nlReachable_limits {lib : NlLib h K} {o : NlOpt h K} (ho : NlReachable lib o) :
    LimitsSane o := by
  induction ho with
  | new dim params => exact ⟨by simp [NlOpt.new], by simp [NlOpt.new], by simp [NlOpt.new]⟩
  | setup _ h1 ih =>
    obtain ⟨l, -, -, h4, h5, -, h6⟩ := setup_nl_inv h1
    refine ⟨by rw [h5]; exact ih.nonneg, ?_, ?_⟩
    · intro hd hh
      rw [h6, Option.some.injEq] at hh
      subst hh
      simp
    · intro _ hd hh
      rw [h6, Option.some.injEq] at hh
      subst hh
      rfl
  | solveLinear _ h1 ih =>
    obtain ⟨l, -, rfl⟩ := solveLinear_nl_inv h1
    exact ih.same ⟨rfl, rfl, rfl⟩
  | @add o o' b acc d v _ h1 ih =>
    obtain ⟨h2, h3, -, h5, -, h6, h7, h8⟩ := add_inv h1
    refine ⟨?_, ?_, ?_⟩
    · intro c hc
      rw [h6, List.mem_append, List.mem_singleton] at hc
      rcases hc with hc | rfl
      · exact ih.nonneg c hc
      · exact ⟨h2, h3⟩
    · intro hd hh c hc
      rw [h6, List.mem_append, List.mem_singleton]
      by_cases hso : o.params.useSoft = true
      · rw [(h7 hso).1] at hh
        exact .inl (ih.hard hd hh c hc)
      · obtain ⟨hd0, h9, -, h10⟩ := h8 (by simpa using hso)
        rw [h10, Option.some.injEq] at hh
        subst hh
        split_ifs at hc with ha
        · rw [List.mem_append, List.mem_singleton] at hc
          rcases hc with hc | rfl
          · exact .inl (ih.hard hd0 h9 c hc)
          · exact .inr rfl
        · exact .inl (ih.hard hd0 h9 c hc)
    · intro hso hd hh
      rw [h5] at hso
      rw [(h7 hso).1] at hh
      exact ih.soft hso hd hh
  | optimize _ h1 ih => exact ih.same (optimize_same h1)
  | scale _ h1 ih => exact ih.same (scale_same h1)
  | total _ h1 ih => exact ih.same (getTotalCost_inv h1).2.1

/-! #### The last evaluation -/

theorem points_cons_objective (x : List K) (g : Bool) (qs : List (NlQuery K)) :
    points (.objective x g :: qs) = x :: points qs := rfl

theorem points_cons_constraint (i : ℕ) (x : List K) (g : Bool) (qs : List (NlQuery K)) :
    points (.constraint i x g :: qs) = points qs := rfl

theorem points_mem {qs : List (NlQuery K)} {x : List K} :
    x ∈ points qs ↔ ∃ g, NlQuery.objective x g ∈ qs := by
  unfold points
  rw [List.mem_filterMap]
  constructor
  · rintro ⟨q, hq, he⟩
    cases q with
    | objective x' g => simp only [Option.some.injEq] at he; subst he; exact ⟨g, hq⟩
    | constraint i x' g => cases he
  · rintro ⟨g, hg⟩
    exact ⟨_, hg, rfl⟩

/-- The state after a run is that after the last evaluation of the objective function. -/
theorem answers_last {lib : NlLib h K} {vertices : List (Vertex K)} {k : ℕ} {method : TimeAlloc}
    {qs : List (NlQuery K)} {o o' : NlOpt h K} {ys : List K} (hs : LinSession lib vertices k o.lin)
    (hx : ∀ x g, NlQuery.objective x g ∈ qs →
      ∀ T ∈ timesOf method (vertices.length - 1) x, 1 / 2 ^ 52 ≤ T)
    (ho : NlOpt.answers lib (NlOpt.objective lib method) qs o = .ok (ys, o')) :
    (points qs = [] ∧ o'.lin = o.lin ∧ o'.info.nIterations = o.info.nIterations) ∨
    ∃ x g o1 o2 y, (points qs).getLast? = some x ∧ NlQuery.objective x g ∈ qs ∧
      LinSession lib vertices k o1.lin ∧ o1.lin.dimension = o.lin.dimension ∧ SameSetup o o1 ∧
      NlOpt.objective lib method o1 x g = .ok (y, o2) ∧ o'.lin = o2.lin ∧
      o'.info.costTrajectory = o2.info.costTrajectory ∧ o'.info.costTime = o2.info.costTime ∧
      o'.info.costSoft = o2.info.costSoft := by
  induction qs generalizing o ys with
  | nil =>
    have : (([] : List K), o) = (ys, o') := by simpa [NlOpt.answers] using ho
    rw [Prod.mk.injEq] at this
    rw [← this.2]
    exact .inl ⟨rfl, rfl, rfl⟩
  | cons q qs ih =>
    rw [answers_cons, Res.bind_eq_ok] at ho
    obtain ⟨⟨y, o1⟩, h1, ho⟩ := ho
    rw [Res.bind_eq_ok] at ho
    obtain ⟨⟨ys', o2⟩, h2, ho⟩ := ho
    rw [Res.pure_eq, Res.ok.injEq, Prod.mk.injEq] at ho
    obtain ⟨-, rfl⟩ := ho
    have hx' : ∀ x g, NlQuery.objective x g ∈ qs →
        ∀ T ∈ timesOf method (vertices.length - 1) x, 1 / 2 ^ 52 ≤ T :=
      fun x g hm => hx x g (by simp [hm])
    have hn := nSegments_eq hs
    cases q with
    | objective x g =>
      have hev := objective_inv hs (method := method) (x := x) (g := g) (by
        rw [hn]; exact hx x g (by simp)) h1
      rw [points_cons_objective]
      rcases ih hev.solved.session hx' h2 with ⟨h3, h4, -⟩ | ⟨x', g', a, b, y', h3, h4, h5, h6, h7, h8⟩
      · refine .inr ⟨x, g, o, o1, y, by rw [h3]; rfl, by simp, hs, rfl, .refl _, h1, h4, ?_⟩
        -- only constraints follow
        clear ih hx hx' h1 hev hn
        have : ∀ (qs : List (NlQuery K)) (o1 o2 : NlOpt h K) (ys' : List K), points qs = [] →
            NlOpt.answers lib (NlOpt.objective lib method) qs o1 = .ok (ys', o2) →
            o2.info.costTrajectory = o1.info.costTrajectory ∧ o2.info.costTime = o1.info.costTime ∧
              o2.info.costSoft = o1.info.costSoft := by
          intro qs
          induction qs with
          | nil =>
            intro o1 o2 ys' _ h2
            have : (([] : List K), o1) = (ys', o2) := by simpa [NlOpt.answers] using h2
            rw [Prod.mk.injEq] at this
            rw [← this.2]
            exact ⟨rfl, rfl, rfl⟩
          | cons q qs ih =>
            intro o1 o2 ys' h3 h2
            rw [answers_cons, Res.bind_eq_ok] at h2
            obtain ⟨⟨y, o3⟩, h4, h2⟩ := h2
            rw [Res.bind_eq_ok] at h2
            obtain ⟨⟨ys'', o4⟩, h5, h2⟩ := h2
            rw [Res.pure_eq, Res.ok.injEq, Prod.mk.injEq] at h2
            obtain ⟨-, rfl⟩ := h2
            cases q with
            | objective x g => rw [points_cons_objective] at h3; cases h3
            | constraint i x g =>
              obtain ⟨-, _, _, _, -, -, -, -, he⟩ := answer_constraint h4
              obtain ⟨b1, b2, b3⟩ := ih o3 _ _ h3 h5
              rw [he] at b1 b2 b3
              exact ⟨b1, b2, b3⟩
        exact this qs o1 o2 ys' h3 h2
      · refine .inr ⟨x', g', a, b, y', ?_, by simp [h4], h5, by rw [h6, hev.dim], hev.same.trans h7, h8⟩
        rw [List.getLast?_cons, h3]
        rfl
    | constraint i x g =>
      rw [points_cons_constraint]
      obtain ⟨-, _, _, _, -, -, -, -, he⟩ := answer_constraint h1
      have e1 : o1.lin = o.lin := by rw [he]
      have e2 : SameSetup o o1 := by rw [he]; exact ⟨rfl, rfl, rfl⟩
      have e3 : o1.info.nIterations = o.info.nIterations := by rw [he]
      rcases ih (o := o1) (by rw [e1]; exact hs) hx' h2 with
        ⟨h3, h4, h5⟩ | ⟨x', g', a, b, y', h3, h4, h5, h6, h7, h8⟩
      · exact .inl ⟨h3, h4.trans e1, h5.trans e3⟩
      · exact .inr ⟨x', g', a, b, y', h3, by simp [h4], h5, by rw [h6, e1], e2.trans h7, h8⟩

/-- The number of iterations counts the evaluations of the objective function. -/
theorem objective_count {lib : NlLib h K} {method : TimeAlloc} {o o' : NlOpt h K} {x : List K} {g : Bool}
    {y : K} (ho : NlOpt.objective lib method o x g = .ok (y, o')) :
    o'.info.nIterations = o.info.nIterations + 1 := by
  have htot : ∀ {o o' : NlOpt h K} {t : List K} {r : Bool} {y : K}, o.totalCost lib t r = .ok (y, o') →
      o'.info.nIterations = o.info.nIterations + 1 := by
    intro o o' t r y ho
    unfold NlOpt.totalCost at ho
    rw [Res.bind_eq_ok] at ho
    obtain ⟨c, h1, ho⟩ := ho
    dsimp only at ho
    by_cases hu : o.params.useSoft = true
    · rw [if_pos hu, Res.bind_eq_ok] at ho
      obtain ⟨⟨s, o1⟩, h2, ho⟩ := ho
      rw [Res.pure_eq, Res.ok.injEq, Prod.mk.injEq] at ho
      obtain ⟨-, rfl⟩ := ho
      obtain ⟨-, -, m, rfl⟩ := softCost_same h2
      rfl
    · rw [if_neg hu, Res.pure_eq, Res.ok_bind, Res.pure_eq, Res.ok.injEq, Prod.mk.injEq] at ho
      obtain ⟨-, rfl⟩ := ho
      rfl
  have hfull : o.objectiveFull lib x g = .ok (y, o') → o'.info.nIterations = o.info.nIterations + 1 := by
    intro ho
    unfold NlOpt.objectiveFull at ho
    dsimp only at ho
    rw [Res.bind_eq_ok] at ho
    obtain ⟨_, -, ho⟩ := ho
    rw [Res.bind_eq_ok] at ho
    obtain ⟨_, -, ho⟩ := ho
    rw [Res.bind_eq_ok] at ho
    obtain ⟨l1, h1, ho⟩ := ho
    rw [Res.bind_eq_ok] at ho
    obtain ⟨l2, h2, ho⟩ := ho
    exact htot (o := { o with lin := l2 }) ho
  have htime : o.objectiveTime lib x g = .ok (y, o') → o'.info.nIterations = o.info.nIterations + 1 := by
    intro ho
    unfold NlOpt.objectiveTime at ho
    rw [Res.bind_eq_ok] at ho
    obtain ⟨_, -, ho⟩ := ho
    rw [Res.bind_eq_ok] at ho
    obtain ⟨_, -, ho⟩ := ho
    rw [Res.bind_eq_ok] at ho
    obtain ⟨l1, h1, ho⟩ := ho
    rw [Res.bind_eq_ok] at ho
    obtain ⟨l2, h2, ho⟩ := ho
    exact htot (o := { o with lin := l2 }) ho
  unfold NlOpt.objective at ho
  cases method
  · exact htime ho
  · exact htime ho
  · dsimp only at ho
    rw [Res.bind_eq_ok] at ho
    obtain ⟨⟨y', gr, o1⟩, h1, ho⟩ := ho
    rw [Res.pure_eq, Res.ok.injEq, Prod.mk.injEq] at ho
    obtain ⟨-, rfl⟩ := ho
    unfold NlOpt.objectiveMellinger at h1
    rw [Res.bind_eq_ok] at h1
    obtain ⟨_, -, h1⟩ := h1
    rw [Res.bind_eq_ok] at h1
    obtain ⟨_, -, h1⟩ := h1
    rw [Res.bind_eq_ok] at h1
    obtain ⟨l1, -, h1⟩ := h1
    rw [Res.bind_eq_ok] at h1
    obtain ⟨l2, -, h1⟩ := h1
    rw [Res.bind_eq_ok] at h1
    obtain ⟨r, -, h1⟩ := h1
    rw [Res.pure_eq, Res.ok.injEq, Prod.mk.injEq, Prod.mk.injEq] at h1
    obtain ⟨-, -, rfl⟩ := h1
    rfl
  · exact hfull ho
  · exact hfull ho
  · exact hfull ho

theorem answers_count {lib : NlLib h K} {method : TimeAlloc} {qs : List (NlQuery K)} {o o' : NlOpt h K}
    {ys : List K} (ho : NlOpt.answers lib (NlOpt.objective lib method) qs o = .ok (ys, o')) :
    o'.info.nIterations = o.info.nIterations + (points qs).length := by
  induction qs generalizing o ys with
  | nil =>
    have : (([] : List K), o) = (ys, o') := by simpa [NlOpt.answers] using ho
    rw [Prod.mk.injEq] at this
    rw [← this.2]
    rfl
  | cons q qs ih =>
    rw [answers_cons, Res.bind_eq_ok] at ho
    obtain ⟨⟨y, o1⟩, h1, ho⟩ := ho
    rw [Res.bind_eq_ok] at ho
    obtain ⟨⟨ys', o2⟩, h2, ho⟩ := ho
    rw [Res.pure_eq, Res.ok.injEq, Prod.mk.injEq] at ho
    obtain ⟨-, rfl⟩ := ho
    have := ih h2
    cases q with
    | objective x g =>
      rw [points_cons_objective, this, objective_count h1, List.length_cons]
      omega
    | constraint i x g =>
      obtain ⟨-, _, _, _, -, -, -, -, rfl⟩ := answer_constraint h1
      exact this

/-- The run up to and including the last evaluation. -/
theorem optimize_last {lib : NlLib h K} {vertices : List (Vertex K)} {k : ℕ} {o o' : NlOpt h K}
    {run : NlRun K} {c : ℤ} {gradients : Bool} (hs : LinSession lib vertices k o.lin)
    (hr : RunOf lib gradients o run) (hm : o.params.method ≠ .unknown) (ht : run.setupThrows = false)
    (ho : o.optimize lib run = .ok (c, o')) {x : List K} (hx : (points run.queries).getLast? = some x) :
    ∃ (g : Bool) (o1 o2 : NlOpt h K) (y : K), NlQuery.objective x g ∈ run.queries ∧ g = gradients ∧
      LinSession lib vertices k o1.lin ∧ o1.lin.dimension = o.lin.dimension ∧ o1.params = o.params ∧
      o1.constraints = o.constraints ∧
      NlOpt.objective lib o.params.method o1 x g = .ok (y, o2) ∧
      (∀ T ∈ timesOf o.params.method (vertices.length - 1) x, 1 / 2 ^ 52 ≤ T) ∧
      LinSolved lib vertices k o2.lin ∧ o2.lin.dimension = o.lin.dimension ∧
      o2.lin.segmentTimes = timesOf o.params.method (vertices.length - 1) x ∧
      o'.info.nIterations = (points run.queries).length ∧
      o'.info.costTrajectory = o2.info.costTrajectory ∧ o'.info.costTime = o2.info.costTime ∧
      o'.info.costSoft = o2.info.costSoft ∧
      (o.params.method ≠ .mellingerOuterLoop → o'.lin = o2.lin) ∧
      (o.params.method = .mellingerOuterLoop →
        (run.code = none ∧ run.wroteCost = false ∧ o'.lin = o2.lin) ∨
        ∃ o3 o4 : NlOpt h K, o3.lin = o2.lin ∧ o3.constraints = o.constraints ∧ o3.scaleWithViolation lib = .ok o4 ∧
          o'.lin = o4.lin) := by
  unfold NlOpt.optimize at ho
  dsimp only at ho
  rw [if_neg hm, Res.bind_eq_ok] at ho
  obtain ⟨⟨c', o2⟩, ho, he⟩ := ho
  rw [Res.pure_eq, Res.ok.injEq, Prod.mk.injEq] at he
  obtain ⟨rfl, rfl⟩ := he
  unfold NlOpt.optimizeWith at ho
  rw [Res.bind_eq_ok] at ho
  obtain ⟨⟨p, a⟩, hp, ho⟩ := ho
  have hs0 : LinSession lib vertices k ({ o with info := NlInfo.default } : NlOpt h K).lin := hs
  obtain ⟨s1, e1, i1, d1, t1, hh, hl, -⟩ := prepare_inv hs0 hp
  have hw := fun x => within_times hs0 hp (x := x)
  dsimp only at e1 i1 d1 t1 hh hl hw ho
  obtain ⟨hd, hhd⟩ : ∃ hd, o.handle = some hd := by
    cases hx : o.handle with
    | none => exact absurd hx hh
    | some hd => exact ⟨hd, rfl⟩
  have hres := hr hm p a hd hp hhd
  rw [if_neg (by simp [ht]), Res.bind_eq_ok] at ho
  obtain ⟨⟨ys, o3⟩, hans, ho⟩ := ho
  have hxx := fun x g hm => hw x (hres.objective x g hm).1
  have hcount := answers_count hans
  rw [i1] at hcount
  dsimp only at ho
  rcases answers_last s1 (method := o.params.method) hxx hans with ⟨h1, -⟩ |
    ⟨x', g, b1, b2, y, h1, h2, h3, h4, h5, h6, h7, h8, h9, h10⟩
  · rw [h1] at hx
    cases hx
  rw [hx, Option.some.injEq] at h1
  subst h1
  have hev := objective_inv h3 (method := o.params.method) (x := x) (g := g) (by
    rw [nSegments_eq h3]; exact hxx x g h2) h6
  have p1 : b1.params = o.params := by rw [h5.params, e1.params]
  have c1 : b1.constraints = o.constraints := by rw [h5.constraints, e1.constraints]
  have n1 : o3.info.nIterations = (points run.queries).length := by
    rw [hcount]
    exact Nat.zero_add _
  have base : ((o.params.method = .mellingerOuterLoop → run.code = none ∧ run.wroteCost = false) ∧
      o2.lin = o3.lin ∧ o2.info.nIterations = o3.info.nIterations ∧
      o2.info.costTrajectory = o3.info.costTrajectory ∧ o2.info.costTime = o3.info.costTime ∧
      o2.info.costSoft = o3.info.costSoft) ∨ (o.params.method = .mellingerOuterLoop ∧
        o3.scaleWithViolation lib = .ok o2 ∧ o2.info = o3.info) := by
    by_cases hme : o.params.method = .mellingerOuterLoop
    · rw [if_pos hme] at ho
      by_cases hcode : run.code = none ∧ run.wroteCost = false
      · rw [if_pos hcode, Res.pure_eq, Res.ok.injEq, Prod.mk.injEq] at ho
        obtain ⟨rfl, rfl⟩ := ho
        exact .inl ⟨fun _ => hcode, rfl, rfl, rfl, rfl, rfl⟩
      · rw [if_neg hcode, Res.bind_eq_ok] at ho
        obtain ⟨o4, h4', ho⟩ := ho
        rw [Res.pure_eq, Res.ok.injEq, Prod.mk.injEq] at ho
        obtain ⟨rfl, rfl⟩ := ho
        refine .inr ⟨hme, h4', ?_⟩
        obtain ⟨f, -, -, he⟩ := scale_inv (by rw [h7]; exact hev.solved) h4'
        exact he
    · rw [if_neg hme, Res.pure_eq, Res.ok.injEq, Prod.mk.injEq] at ho
      obtain ⟨rfl, rfl⟩ := ho
      exact .inl ⟨fun h => absurd h hme, rfl, rfl, rfl, rfl, rfl⟩
  refine ⟨g, b1, b2, y, h2, (hres.objective x g h2).2, h3, by rw [h4, d1], p1, c1, h6, hxx x g h2,
    hev.solved, by rw [hev.dim, h4, d1], by rw [hev.times, nSegments_eq h3], ?_⟩
  dsimp only
  rcases base with ⟨e0, e1, e2, e3, e4, e5⟩ | ⟨e0, e1, e2⟩
  · exact ⟨e2.trans n1, e3.trans h8, e4.trans h9, e5.trans h10, fun _ => e1.trans h7,
      fun hm => .inl ⟨(e0 hm).1, (e0 hm).2, e1.trans h7⟩⟩
  · rw [e2]
    exact ⟨n1, h8, h9, h10, fun hn => absurd e0 hn, fun _ => .inr ⟨o3, o2, h7, by
      rw [(answers_same hans).constraints, (prepare_same hp).constraints], e1, rfl⟩⟩

/-! #### The starting point and the bounds -/

theorem within_of_get {lower upper x : List K} (h1 : lower.length = x.length) (h2 : upper.length = x.length)
    (hg : ∀ (i : ℕ) (y : K), x[i]? = some y → ∃ lo up, lower[i]? = some lo ∧ upper[i]? = some up ∧ lo ≤ y ∧
      y ≤ up) : Within lower upper x := by
  constructor
  · rw [List.forall₂_iff_get]
    refine ⟨h1, fun i hi hi' => ?_⟩
    obtain ⟨lo, up, a1, -, a3, -⟩ := hg i x[i] (List.getElem?_eq_getElem hi')
    rw [List.getElem?_eq_getElem hi, Option.some.injEq] at a1
    simpa [a1] using a3
  · rw [List.forall₂_iff_get]
    refine ⟨h2.symm, fun i hi hi' => ?_⟩
    obtain ⟨lo, up, -, a2, -, a3⟩ := hg i x[i] (List.getElem?_eq_getElem hi)
    rw [List.getElem?_eq_getElem hi', Option.some.injEq] at a2
    simpa [a2] using a3

theorem dblMax_pos : (0 : K) < dblMax := lt_trans (by positivity) dblMax_gt

theorem boundFor_nonneg (limits : List (Limit K)) (m : Option ℕ) (x : K) (hx : 0 ≤ x) :
    0 ≤ boundFor limits m x := by
  unfold boundFor
  induction limits generalizing x with
  | nil => exact hx
  | cons c cs ih =>
    rw [List.foldl_cons]
    refine ih _ ?_
    split_ifs
    · exact abs_nonneg _
    · exact hx

/-- Every entry of the starting point and its bounds: first the times, then the derivatives. -/
theorem fullArgs_entries {lib : NlLib h K} {vertices : List (Vertex K)} {k : ℕ} {o : NlOpt h K}
    {a : NlArgs K} (hs : LinSolved lib vertices k o.lin) (ho : o.fullArgs = .ok a) :
    (∀ (i : ℕ) (T : K), o.lin.segmentTimes[i]? = some T → a.start[i]? = some T ∧
      a.lower[i]? = some (min T (1 / 10)) ∧ a.upper[i]? = some (max T dblMax)) ∧
    (∀ d c, d < o.lin.dimension → c < o.lin.nFree → ∃ f y, o.lin.freeCompact[d]? = some f ∧
      f[c]? = some y ∧ a.start[o.lin.nSegments + d * o.lin.nFree + c]? = some y ∧
      a.lower[o.lin.nSegments + d * o.lin.nFree + c]? =
        some (min y (-boundFor o.constraints ((freeOrder (k + 1) vertices)[c]?.map Prod.snd) dblMax)) ∧
      a.upper[o.lin.nSegments + d * o.lin.nFree + c]? =
        some (max y (boundFor o.constraints ((freeOrder (k + 1) vertices)[c]?.map Prod.snd) dblMax))) ∧
    a.start.length = o.lin.nSegments + o.lin.dimension * o.lin.nFree ∧
    a.lower.length = a.start.length ∧ a.upper.length = a.start.length := by
  obtain ⟨hk, hp, r⟩ := session_ready hs.session
  have hfl := hs.freeLens
  obtain ⟨fb, h1, h2, h3, h4, h5, h6, h7⟩ := fullArgs_inv ho
  have hcols : (freeKeysFrom (k + 1) o.lin.vertices 0).length ≤ o.lin.nFree := by
    refine (freeKeysFrom_sublist (show k + 1 ≤ h by omega) _ _).length_le.trans ?_
    rw [freeKeysFrom_cols o.lin.dimension _ (by rw [r.vertsEq]; exact r.two), List.length_map, r.nFree,
      r.vertsEq]
  obtain ⟨lo, up, hb, hlo, hup⟩ := freeBounds_ok o.lin.dimension o.lin.nFree k o.lin.vertices
    o.constraints hcols
  rw [r.deriv, hb, Res.ok.injEq] at h1
  subst h1
  dsimp only at h5 h6 h7
  rw [r.vertsEq, freeKeysFrom_order (by omega) hp.wf] at hlo hup
  have mm : ∀ x lo up : K, lo ≤ up → (if x < lo then x else lo) = min x lo ∧
      (if x < lo then up else if x > up then x else up) = max x up := by
    intro x lo up hlu
    constructor
    · split_ifs with hc
      · rw [min_eq_left hc.le]
      · rw [min_eq_right (not_lt.mp hc)]
    · split_ifs with hc hc'
      · rw [max_eq_right (hc.le.trans hlu)]
      · rw [max_eq_left (le_of_lt hc')]
      · rw [max_eq_right (not_lt.mp hc')]
  have hn : o.lin.nSegments = o.lin.segmentTimes.length := r.nSeg
  refine ⟨?_, ?_, ?_, h3, h4⟩
  · intro i T hT
    have hi := (List.getElem?_eq_some_iff.mp hT).1
    have hst : a.start[i]? = some T := by rw [h2, List.getElem?_append_left hi, hT]
    obtain ⟨l, u, a1, a2, a3, a4⟩ := h7 i T hst
    rw [List.getElem?_append_left (by simpa using hi), List.getElem?_replicate_of_lt hi,
      Option.some.injEq] at a1 a2
    subst a1 a2
    obtain ⟨m1, m2⟩ := mm T (1 / 10) dblMax (le_trans (by norm_num) (le_of_lt (dblMax_gt (K := K))))
    rw [m1] at a3
    rw [m2] at a4
    exact ⟨hst, a3, a4⟩
  · intro d c hd hc
    have hfd : d < o.lin.freeCompact.length := by rw [r.freeLen]; exact hd
    have hfc : c < (o.lin.freeCompact[d]).length := by rw [hfl _ (List.getElem_mem hfd)]; exact hc
    refine ⟨o.lin.freeCompact[d], o.lin.freeCompact[d][c], List.getElem?_eq_getElem hfd,
      List.getElem?_eq_getElem hfc, ?_⟩
    have hst : a.start[o.lin.nSegments + d * o.lin.nFree + c]? = some o.lin.freeCompact[d][c] := by
      rw [h2, hn, Nat.add_assoc, List.getElem?_append_right (by omega), Nat.add_sub_cancel_left,
        flatten_getElem? _ hfl hc, List.getElem?_eq_getElem hfd]
      exact List.getElem?_eq_getElem hfc
    obtain ⟨l, u, a1, a2, a3, a4⟩ := h7 _ _ hst
    rw [hn, Nat.add_assoc, List.getElem?_append_right (by simp), List.length_replicate,
      Nat.add_sub_cancel_left] at a1 a2
    rw [hlo.2 d hd c hc, Option.some.injEq] at a1
    rw [hup.2 d hd c hc, Option.some.injEq] at a2
    subst a1 a2
    obtain ⟨m1, m2⟩ := mm o.lin.freeCompact[d][c]
      (-boundFor o.constraints ((freeOrder (k + 1) vertices)[c]?.map Prod.snd) dblMax)
      (boundFor o.constraints ((freeOrder (k + 1) vertices)[c]?.map Prod.snd) dblMax) (by
        have := boundFor_nonneg o.constraints ((freeOrder (k + 1) vertices)[c]?.map Prod.snd) dblMax
          dblMax_pos.le
        linarith)
    rw [m1] at a3
    rw [m2] at a4
    exact ⟨hst, a3, a4⟩
  · rw [h5, hn, hlo.1]

theorem fullArgs_start_within {lib : NlLib h K} {vertices : List (Vertex K)} {k : ℕ} {o : NlOpt h K}
    {a : NlArgs K} (hs : LinSolved lib vertices k o.lin) (ho : o.fullArgs = .ok a) :
    Within a.lower a.upper a.start := by
  obtain ⟨h1, h2, h3, h4, h5⟩ := fullArgs_entries hs ho
  have hn : o.lin.nSegments = o.lin.segmentTimes.length := (session_ready hs.session).2.2.nSeg
  refine within_of_get h4 h5 fun i y hy => ?_
  have hi := (List.getElem?_eq_some_iff.mp hy).1
  by_cases hlt : i < o.lin.segmentTimes.length
  · obtain ⟨a1, a2, a3⟩ := h1 i _ (List.getElem?_eq_getElem hlt)
    rw [hy, Option.some.injEq] at a1
    subst a1
    exact ⟨_, _, a2, a3, min_le_left _ _, le_max_left _ _⟩
  · obtain ⟨j, rfl⟩ : ∃ j, i = o.lin.nSegments + j := ⟨i - o.lin.nSegments, by omega⟩
    have hj : j < o.lin.dimension * o.lin.nFree := by omega
    have hF : 0 < o.lin.nFree := by
      rcases Nat.eq_zero_or_pos o.lin.nFree with h0 | h0
      · rw [h0] at hj; simp at hj
      · exact h0
    obtain ⟨f, y', a0, a1, a2, a3, a4⟩ := h2 (j / o.lin.nFree) (j % o.lin.nFree)
      (Nat.div_lt_of_lt_mul (by rw [Nat.mul_comm]; exact hj)) (Nat.mod_lt _ hF)
    have hidx : o.lin.nSegments + j / o.lin.nFree * o.lin.nFree + j % o.lin.nFree = o.lin.nSegments + j := by
      rw [Nat.add_assoc, Nat.div_add_mod']
    rw [hidx] at a2 a3 a4
    rw [hy, Option.some.injEq] at a2
    subst a2
    exact ⟨_, _, a3, a4, min_le_left _ _, le_max_left _ _⟩

/-- The objective function at the starting point does not change the trajectory. -/
theorem objectiveFull_start {lib : NlLib h K} {vertices : List (Vertex K)} {k : ℕ} {o o' : NlOpt h K}
    {a : NlArgs K} {g : Bool} {y : K} (hs : LinSolved lib vertices k o.lin) (ha : o.fullArgs = .ok a)
    (ho : o.objectiveFull lib a.start g = .ok (y, o')) : o'.lin.segments = o.lin.segments := by
  obtain ⟨hk, hp, r⟩ := session_ready hs.session
  obtain ⟨fb, h1, h2, -⟩ := fullArgs_inv ha
  have hn : o.lin.nSegments = o.lin.segmentTimes.length := r.nSeg
  have htake : a.start.take o.lin.nSegments = o.lin.segmentTimes := by
    rw [h2, hn, List.take_left]
  have hx : ∀ T ∈ a.start.take o.lin.nSegments, 1 / 2 ^ 52 ≤ T := by
    rw [htake]; exact hp.times_pos
  have hev := objectiveFull_inv hs.session hx ho
  have hfree := objectiveFull_free hs.session hx ho
  rw [h2, hn, ← r.freeLen, unpack_pack hs.freeLens] at hfree
  rw [hev.solved.segments_eq, hs.segments_eq, hfree, hev.dim, hev.times, htake]

end Verif
