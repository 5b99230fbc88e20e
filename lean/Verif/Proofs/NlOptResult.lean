import Verif.Proofs.NlOptLast

/- Helper lemmas: what one evaluation of the objective function computes and records. -/
namespace Verif

open Spec

set_option linter.unusedSectionVars false

section
variable {K : Type} [Field K] [LinearOrder K] [IsStrictOrderedRing K] {h : ℕ}

theorem objective_checks {lib : NlLib h K} {method : TimeAlloc} {o o' : NlOpt h K} {x : List K} {g : Bool}
    {y : K} (ho : NlOpt.objective lib method o x g = .ok (y, o')) :
    g = decide (method = .mellingerOuterLoop) ∧
      x.length = varCount method o.lin.nSegments o.lin.nFree o.lin.dimension := by
  have hfull : o.objectiveFull lib x g = .ok (y, o') →
      g = false ∧ x.length = o.lin.nSegments + o.lin.nFree * o.lin.dimension := by
    intro ho
    unfold NlOpt.objectiveFull at ho
    dsimp only at ho
    rw [Res.bind_eq_ok] at ho
    obtain ⟨_, h1, ho⟩ := ho
    rw [Res.bind_eq_ok] at ho
    obtain ⟨_, h2, ho⟩ := ho
    exact ⟨(Res.check_eq_ok.mp h1), Res.check_eq_ok.mp h2⟩
  have htime : o.objectiveTime lib x g = .ok (y, o') → g = false ∧ x.length = o.lin.nSegments := by
    intro ho
    unfold NlOpt.objectiveTime at ho
    rw [Res.bind_eq_ok] at ho
    obtain ⟨_, h1, ho⟩ := ho
    rw [Res.bind_eq_ok] at ho
    obtain ⟨_, h2, ho⟩ := ho
    exact ⟨(Res.check_eq_ok.mp h1), Res.check_eq_ok.mp h2⟩
  unfold NlOpt.objective at ho
  cases method
  · exact htime ho
  · exact htime ho
  · dsimp only at ho
    rw [Res.bind_eq_ok] at ho
    obtain ⟨⟨y', gr, o1⟩, h1, ho⟩ := ho
    unfold NlOpt.objectiveMellinger at h1
    rw [Res.bind_eq_ok] at h1
    obtain ⟨_, h2, h1⟩ := h1
    rw [Res.bind_eq_ok] at h1
    obtain ⟨_, h3, h1⟩ := h1
    exact ⟨(Res.check_eq_ok.mp h2), Res.check_eq_ok.mp h3⟩
  · exact hfull ho
  · exact hfull ho
  · exact hfull ho

end

variable {h : ℕ}

/-- Without free derivatives among the variables, the trajectory is that of `solveLinear()`. -/
theorem objective_route {lib : NlLib h ℝ} {vertices : List (Vertex ℝ)} {k : ℕ} {method : TimeAlloc}
    {o o' : NlOpt h ℝ} {x : List ℝ} {g : Bool} {y : ℝ} (hs : LinSession lib vertices k o.lin)
    (hm : method = .squaredTime ∨ method = .richterTime ∨ method = .mellingerOuterLoop)
    (hx : ∀ T ∈ x, 1 / 2 ^ 52 ≤ T) (ho : NlOpt.objective lib method o x g = .ok (y, o')) :
    ∃ l1 l2, Session lib.inv lib.solve vertices k x l1 ∧ l1.dimension = o.lin.dimension ∧
      l1.solveLinear lib.solve = .ok l2 ∧ o'.lin.segments = l2.segments := by
  have htime : o.objectiveTime lib x g = .ok (y, o') →
    ∃ l1 l2, Session lib.inv lib.solve vertices k x l1 ∧ l1.dimension = o.lin.dimension ∧
      l1.solveLinear lib.solve = .ok l2 ∧ o'.lin.segments = l2.segments := by
    intro ho
    unfold NlOpt.objectiveTime at ho
    rw [Res.bind_eq_ok] at ho
    obtain ⟨_, -, ho⟩ := ho
    rw [Res.bind_eq_ok] at ho
    obtain ⟨_, -, ho⟩ := ho
    rw [Res.bind_eq_ok] at ho
    obtain ⟨l1, h1, ho⟩ := ho
    rw [Res.bind_eq_ok] at ho
    obtain ⟨l2, h2, ho⟩ := ho
    obtain ⟨s1, -, d1, -⟩ := lin_update hs hx h1
    exact ⟨l1, l2, .times hs hx h1, d1, h2, by rw [(totalCost_inv ho).1]⟩
  unfold NlOpt.objective at ho
  rcases hm with rfl | rfl | rfl
  · exact htime ho
  · exact htime ho
  · dsimp only at ho
    rw [Res.bind_eq_ok] at ho
    obtain ⟨⟨y', gr, o1⟩, h1, ho⟩ := ho
    rw [Res.pure_eq, Res.ok.injEq, Prod.mk.injEq] at ho
    obtain ⟨-, rfl⟩ := ho
    unfold NlOpt.objectiveMellinger at h1
    rw [Res.bind_eq_ok] at h1
    obtain ⟨_, -, h1⟩ := h1
    rw [Res.bind_eq_ok] at h1
    obtain ⟨_, -, h1⟩ := h1
    rw [Res.bind_eq_ok] at h1
    obtain ⟨l1, a1, h1⟩ := h1
    rw [Res.bind_eq_ok] at h1
    obtain ⟨l2, a2, h1⟩ := h1
    rw [Res.bind_eq_ok] at h1
    obtain ⟨⟨J, g', l3⟩, a3, h1⟩ := h1
    rw [Res.pure_eq, Res.ok.injEq, Prod.mk.injEq, Prod.mk.injEq] at h1
    obtain ⟨-, -, rfl⟩ := h1
    obtain ⟨s1, t1, d1, -⟩ := lin_update hs hx a1
    obtain ⟨s2, t2, d2⟩ := lin_solve s1 a2
    have s1' : Session lib.inv lib.solve vertices k x l1 := .times hs hx a1
    refine ⟨l1, l2, s1', d1, a2, ?_⟩
    exact lin_resolve_segments ⟨l1, by rw [t2, t1]; exact s1', d2.symm, a2⟩ s2 a3

/-- What one evaluation records. -/
theorem objective_info {lib : NlLib h ℝ} (hl : LibSpec lib) {vertices : List (Vertex ℝ)} {k : ℕ}
    {o o' : NlOpt h ℝ} (hs : LinSession lib vertices k o.lin) {x : List ℝ} {g : Bool} {y : ℝ}
    (hx : ∀ T ∈ timesOf o.params.method (vertices.length - 1) x, 1 / 2 ^ 52 ≤ T)
    (hu : o.params.method ≠ .unknown) (hm : o.params.method ≠ .mellingerOuterLoop)
    (hlim : o.params.useSoft = true → LimitsOk h o.constraints)
    (ho : NlOpt.objective lib o.params.method o x g = .ok (y, o')) :
    o'.info.costTrajectory = cost k o'.lin.segments ∧
    o'.info.costTime = o.params.timePenalty *
      (if o.params.method = .richterTime ∨ o.params.method = .richterTimeAndConstraints then
        (timesOf o.params.method (vertices.length - 1) x).sum
        else (timesOf o.params.method (vertices.length - 1) x).sum ^ 2) ∧
    o'.info.costSoft = (if o.params.useSoft then
      (o.constraints.map (penalty o.params.softWeight (10 ^ 12) o.lin.dimension o'.lin.segments)).sum
      else 0) ∧
    y = o'.info.costTrajectory + o'.info.costTime + o'.info.costSoft := by
  have key : ∀ (l2 : LinOpt h ℝ) (times : List ℝ) (b : Bool), LinSolved lib vertices k l2 →
      l2.dimension = o.lin.dimension →
      NlOpt.totalCost lib { o with lin := l2 } times b = .ok (y, o') →
      o'.info.costTrajectory = cost k o'.lin.segments ∧
      o'.info.costTime = o.params.timePenalty * (if b then times.sum else times.sum ^ 2) ∧
      o'.info.costSoft = (if o.params.useSoft then
        (o.constraints.map (penalty o.params.softWeight (10 ^ 12) o.lin.dimension o'.lin.segments)).sum
        else 0) ∧
      y = o'.info.costTrajectory + o'.info.costTime + o'.info.costSoft := by
    intro l2 times b h1 h2 h3
    obtain ⟨e1, -, c, s, m, e2, e3, e4, e5, e6⟩ := totalCost_inv h3
    rw [h1.cost hl.inv, Res.ok.injEq] at e2
    rw [e6, e1]
    dsimp only at e3 e4 e5 ⊢
    refine ⟨e2.symm, ?_, ?_, e5⟩
    · rw [totalTrajectoryTime_eq]
      split_ifs <;> ring
    · by_cases hso : o.params.useSoft = true
      · obtain ⟨o2, a1⟩ := e3 hso
        obtain ⟨o3, a2⟩ := softCost_ok hl o.params.softWeight (10 ^ 12) o.constraints (hlim hso) 0
          (o := { o with lin := l2 }) h1
        rw [a1, Res.ok.injEq, Prod.mk.injEq, zero_add] at a2
        rw [if_pos hso, a2.1, ← h2]
      · rw [if_neg hso, e4 (by simpa using hso)]
  have hn := nSegments_eq hs
  have htime : (o.params.method = .squaredTime ∨ o.params.method = .richterTime) →
      (∀ T ∈ x, 1 / 2 ^ 52 ≤ T) → o.objectiveTime lib x g = .ok (y, o') →
      o'.info.costTrajectory = cost k o'.lin.segments ∧
      o'.info.costTime = o.params.timePenalty * (if o.params.method = .richterTime ∨
        o.params.method = .richterTimeAndConstraints then x.sum else x.sum ^ 2) ∧
      o'.info.costSoft = (if o.params.useSoft then
        (o.constraints.map (penalty o.params.softWeight (10 ^ 12) o.lin.dimension o'.lin.segments)).sum
        else 0) ∧
      y = o'.info.costTrajectory + o'.info.costTime + o'.info.costSoft := by
    intro hm hx ho
    unfold NlOpt.objectiveTime at ho
    rw [Res.bind_eq_ok] at ho
    obtain ⟨_, -, ho⟩ := ho
    rw [Res.bind_eq_ok] at ho
    obtain ⟨_, -, ho⟩ := ho
    rw [Res.bind_eq_ok] at ho
    obtain ⟨l1, h1, ho⟩ := ho
    rw [Res.bind_eq_ok] at ho
    obtain ⟨l2, h2, ho⟩ := ho
    obtain ⟨s1, -, d1, -⟩ := lin_update hs hx h1
    obtain ⟨s2, -, d2⟩ := lin_solve s1 h2
    have := key l2 x _ s2 (d2.trans d1) ho
    rcases hm with hm | hm <;> simpa [hm] using this
  have hfull : isFull o.params.method → (∀ T ∈ x.take (vertices.length - 1), 1 / 2 ^ 52 ≤ T) →
      o.objectiveFull lib x g = .ok (y, o') →
      o'.info.costTrajectory = cost k o'.lin.segments ∧
      o'.info.costTime = o.params.timePenalty * (if o.params.method = .richterTime ∨
        o.params.method = .richterTimeAndConstraints then (x.take (vertices.length - 1)).sum
        else (x.take (vertices.length - 1)).sum ^ 2) ∧
      o'.info.costSoft = (if o.params.useSoft then
        (o.constraints.map (penalty o.params.softWeight (10 ^ 12) o.lin.dimension o'.lin.segments)).sum
        else 0) ∧
      y = o'.info.costTrajectory + o'.info.costTime + o'.info.costSoft := by
    intro hm hx ho
    unfold NlOpt.objectiveFull at ho
    dsimp only at ho
    rw [Res.bind_eq_ok] at ho
    obtain ⟨_, -, ho⟩ := ho
    rw [Res.bind_eq_ok] at ho
    obtain ⟨_, -, ho⟩ := ho
    rw [Res.bind_eq_ok] at ho
    obtain ⟨l1, h1, ho⟩ := ho
    rw [Res.bind_eq_ok] at ho
    obtain ⟨l2, h2, ho⟩ := ho
    rw [hn] at h1 ho
    obtain ⟨s1, -, d1, -⟩ := lin_update hs hx h1
    obtain ⟨s2, -, d2, -⟩ := lin_setFree s1 h2
    have := key l2 _ _ s2 (d2.trans d1) ho
    rcases hm with hm | hm <;> simpa [hm] using this
  unfold NlOpt.objective at ho
  cases hc : o.params.method with
  | squaredTime => rw [hc] at ho hx; rw [← hc]; rw [hc]; simpa [hc, timesOf] using htime (.inl hc) hx ho
  | richterTime => rw [hc] at ho hx; simpa [hc, timesOf] using htime (.inr hc) hx ho
  | mellingerOuterLoop => exact absurd hc hm
  | squaredTimeAndConstraints => rw [hc] at ho hx; simpa [hc, timesOf] using hfull (.inl hc) hx ho
  | richterTimeAndConstraints => rw [hc] at ho hx; simpa [hc, timesOf] using hfull (.inr hc) hx ho
  | unknown => exact absurd hc hu

theorem limitOf_pos {d : ℤ} {limits : List (Limit ℝ)} (hp : ∀ c ∈ limits, 0 < c.value)
    (he : ∃ c ∈ limits, c.derivative = d) : 0 < limitOf d limits := by
  unfold limitOf
  have key : ∀ (limits : List (Limit ℝ)) (v : ℝ), (∀ c ∈ limits, 0 < c.value) →
      (0 < v ∨ ∃ c ∈ limits, c.derivative = d) →
      0 < limits.foldl (fun v c => if c.derivative = d then c.value else v) v := by
    intro limits
    induction limits with
    | nil =>
      rintro v - (h1 | ⟨c, hc, -⟩)
      · exact h1
      · cases hc
    | cons c cs ih =>
      intro v hp h1
      rw [List.foldl_cons]
      refine ih _ (fun c hc => hp c (by simp [hc])) ?_
      split_ifs with hc
      · exact .inl (hp c (by simp))
      · rcases h1 with h1 | ⟨c', hc', h2⟩
        · exact .inl h1
        · rcases List.mem_cons.mp hc' with rfl | hc'
          · exact absurd h2 hc
          · exact .inr ⟨c', hc', h2⟩
  exact key limits 0 hp (.inr he)

end Verif
