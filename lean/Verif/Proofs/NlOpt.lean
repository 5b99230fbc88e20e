import Verif.Proofs.LinOptMin
import Verif.Spec.NonlinearOptimization

/- Helper lemmas: the nonlinear optimiser only drives the linear one. -/
namespace Verif

open Spec

set_option linter.unusedSectionVars false

variable {K : Type} [Field K] [LinearOrder K] {h : ℕ}

/-- Everything but the linear optimiser and the statistics is the same. -/
structure SameSetup (o o' : NlOpt h K) : Prop where
  handle : o'.handle = o.handle
  params : o'.params = o.params
  constraints : o'.constraints = o.constraints

theorem SameSetup.refl (o : NlOpt h K) : SameSetup o o := ⟨rfl, rfl, rfl⟩

theorem SameSetup.trans {o o' o'' : NlOpt h K} (h1 : SameSetup o o') (h2 : SameSetup o' o'') :
    SameSetup o o'' :=
  ⟨h2.handle.trans h1.handle, h2.params.trans h1.params, h2.constraints.trans h1.constraints⟩

theorem evaluateConstraint_inv {lib : NlLib h K} {o o' : NlOpt h K} {c : Limit K} {y : K}
    (ho : o.evaluateConstraint lib c = .ok (y, o')) :
    ∃ m, o.lin.computeMaximumOfMagnitude lib.rf lib.sq c.derivative = .ok m ∧
      y = m.1.value - c.value ∧
      o' = { o with info := { o.info with maxima := mapInsert c.derivative m.1 o.info.maxima } } := by
  unfold NlOpt.evaluateConstraint at ho
  rw [Res.bind_eq_ok] at ho
  obtain ⟨m, h1, h2⟩ := ho
  rw [Res.pure_eq, Res.ok.injEq, Prod.mk.injEq] at h2
  exact ⟨m, h1, h2.1.symm, h2.2.symm⟩

theorem softCost_cons (lib : NlLib h K) (w mc : K) (c : Limit K) (cs : List (Limit K)) (acc : K)
    (o : NlOpt h K) : softCost lib w mc (c :: cs) acc o = (do
      let r ← o.evaluateConstraint lib c
      softCost lib w mc cs (acc + softTerm lib.ex w mc r.1 c.value) r.2) := rfl

theorem softCost_same {lib : NlLib h K} {w mc : K} {cs : List (Limit K)} {acc y : K} {o o' : NlOpt h K}
    (ho : softCost lib w mc cs acc o = .ok (y, o')) :
    o'.lin = o.lin ∧ SameSetup o o' ∧ ∃ m, o' = { o with info := { o.info with maxima := m } } := by
  induction cs generalizing acc o with
  | nil =>
    have : (acc, o) = (y, o') := by simpa [softCost] using ho
    rw [Prod.mk.injEq] at this
    rw [← this.2]
    exact ⟨rfl, .refl _, _, rfl⟩
  | cons c cs ih =>
    rw [softCost_cons, Res.bind_eq_ok] at ho
    obtain ⟨⟨v, o1⟩, h1, h2⟩ := ho
    obtain ⟨m, -, -, rfl⟩ := evaluateConstraint_inv h1
    obtain ⟨h3, h4, m', h5⟩ := ih h2
    exact ⟨h3, ⟨h4.handle, h4.params, h4.constraints⟩, m', h5⟩

theorem totalCost_inv {lib : NlLib h K} {o o' : NlOpt h K} {times : List K} {b : Bool} {y : K}
    (ho : o.totalCost lib times b = .ok (y, o')) :
    o'.lin = o.lin ∧ SameSetup o o' ∧ ∃ c s m, o.lin.computeCost = .ok c ∧
      (o.params.useSoft = true → ∃ o2, softCost lib o.params.softWeight (10 ^ 12) o.constraints 0 o =
        .ok (s, o2)) ∧ (o.params.useSoft = false → s = 0) ∧
      y = c + (if b then totalTrajectoryTime times * o.params.timePenalty
        else totalTrajectoryTime times * totalTrajectoryTime times * o.params.timePenalty) + s ∧
      o'.info = ⟨o.info.nIterations + 1, o.info.stoppingReason, c,
        (if b then totalTrajectoryTime times * o.params.timePenalty
        else totalTrajectoryTime times * totalTrajectoryTime times * o.params.timePenalty), s, m⟩ := by
  unfold NlOpt.totalCost at ho
  rw [Res.bind_eq_ok] at ho
  obtain ⟨c, h1, ho⟩ := ho
  dsimp only at ho
  by_cases hu : o.params.useSoft = true
  · rw [if_pos hu, Res.bind_eq_ok] at ho
    obtain ⟨⟨s, o2⟩, h2, ho⟩ := ho
    rw [Res.pure_eq, Res.ok.injEq, Prod.mk.injEq] at ho
    obtain ⟨ho1, ho2⟩ := ho
    obtain ⟨h3, h4, m, h5⟩ := softCost_same h2
    subst ho2
    refine ⟨h3, ⟨h4.handle, h4.params, h4.constraints⟩, c, s, m, h1, fun _ => ⟨o2, h2⟩,
      fun hf => by rw [hu] at hf; simp at hf, ho1.symm, ?_⟩
    rw [h5]
  · rw [if_neg hu, Res.pure_eq, Res.ok_bind, Res.pure_eq, Res.ok.injEq, Prod.mk.injEq] at ho
    obtain ⟨ho1, ho2⟩ := ho
    subst ho2
    exact ⟨rfl, ⟨rfl, rfl, rfl⟩, c, 0, o.info.maxima, h1, fun hf => absurd hf hu, fun _ => rfl,
      ho1.symm, rfl⟩

/-! #### The linear optimiser underneath -/

/-- The last call on the linear optimiser computed the segments. -/
def LinSolved (lib : NlLib h K) (vertices : List (Vertex K)) (k : ℕ) (l : LinOpt h K) : Prop :=
  ∃ l0, Session lib.inv lib.solve vertices k l.segmentTimes l0 ∧
    (l0.solveLinear lib.solve = .ok l ∨ ∃ free, l0.setFreeConstraints free = .ok l)

/-- A session at the times the object stores. -/
def LinSession (lib : NlLib h K) (vertices : List (Vertex K)) (k : ℕ) (l : LinOpt h K) : Prop :=
  Session lib.inv lib.solve vertices k l.segmentTimes l

variable [IsStrictOrderedRing K]

theorem session_segmentTimes {inv solve} {vertices : List (Vertex K)} {k : ℕ} {times : List K}
    {l : LinOpt h K} (hs : Session inv solve vertices k times l) : l.segmentTimes = times :=
  (session_ready hs).2.2.timesEq

theorem Spec.Session.lin {lib : NlLib h K} {vertices : List (Vertex K)} {k : ℕ} {times : List K}
    {l : LinOpt h K} (hs : Session lib.inv lib.solve vertices k times l) :
    LinSession lib vertices k l := by
  unfold LinSession
  rw [session_segmentTimes hs]
  exact hs

theorem LinSolved.session {lib : NlLib h K} {vertices : List (Vertex K)} {k : ℕ} {l : LinOpt h K}
    (hs : LinSolved lib vertices k l) : LinSession lib vertices k l := by
  obtain ⟨l0, h1, h2 | ⟨free, h2⟩⟩ := hs
  · exact .solveLinear h1 h2
  · exact .setFree h1 h2

theorem lin_solve {lib : NlLib h K} {vertices : List (Vertex K)} {k : ℕ} {l l' : LinOpt h K}
    (hs : LinSession lib vertices k l) (ho : l.solveLinear lib.solve = .ok l') :
    LinSolved lib vertices k l' ∧ l'.segmentTimes = l.segmentTimes ∧ l'.dimension = l.dimension := by
  have h1 : Session lib.inv lib.solve vertices k l.segmentTimes l' := .solveLinear hs ho
  have h2 := session_segmentTimes h1
  obtain ⟨-, hp, r⟩ := session_ready hs
  exact ⟨⟨l, by rw [h2]; exact hs, .inl ho⟩, h2, (ready_solve r hp.dim_pos ho).2.1⟩

theorem lin_setFree {lib : NlLib h K} {vertices : List (Vertex K)} {k : ℕ} {l l' : LinOpt h K}
    {free : List (List K)} (hs : LinSession lib vertices k l)
    (ho : l.setFreeConstraints free = .ok l') :
    LinSolved lib vertices k l' ∧ l'.segmentTimes = l.segmentTimes ∧ l'.dimension = l.dimension ∧
      l'.freeCompact = free := by
  have h1 : Session lib.inv lib.solve vertices k l.segmentTimes l' := .setFree hs ho
  have h2 := session_segmentTimes h1
  obtain ⟨-, hp, r⟩ := session_ready hs
  obtain ⟨-, h3, -, -, h4⟩ := ready_setFree r hp.dim_pos ho
  exact ⟨⟨l, by rw [h2]; exact hs, .inr ⟨free, ho⟩⟩, h2, h3, h4⟩

theorem lin_update {lib : NlLib h K} {vertices : List (Vertex K)} {k : ℕ} {l l' : LinOpt h K}
    {times : List K} (hs : LinSession lib vertices k l) (ht : ∀ T ∈ times, 1 / 2 ^ 52 ≤ T)
    (ho : l.updateSegmentTimes lib.inv times = .ok l') :
    LinSession lib vertices k l' ∧ l'.segmentTimes = times ∧ l'.dimension = l.dimension ∧
      l'.nFree = l.nFree ∧ l'.nSegments = l.nSegments ∧ l'.segments = l.segments := by
  have h1 : Session lib.inv lib.solve vertices k times l' := .times hs ht ho
  obtain ⟨-, -, c, m, h2⟩ := updateTimes_inv ho
  exact ⟨h1.lin, session_segmentTimes h1, by rw [h2], by rw [h2], by rw [h2], by rw [h2]⟩

theorem tenth_ge : (1 : K) / 2 ^ 52 ≤ 1 / 10 := by
  rw [div_le_div_iff₀ (by positivity) (by norm_num)]
  norm_num

theorem perturbedTimes_ge (times : List K) (n : ℕ) : ∀ T ∈ perturbedTimes times n, 1 / 10 ≤ T := by
  intro T hT
  unfold perturbedTimes at hT
  obtain ⟨t, -, rfl⟩ := List.mem_map.mp hT
  dsimp only
  generalize (if t.2 = n then t.1 + 1 / 10 else t.1 - 1 / 10 / ((times.length : K) - 1)) = t'
  split_ifs with h1
  · exact h1.le
  · exact le_rfl

theorem gradientLoop_succ (lib : NlLib h K) (times : List K) (J : K) (m n : ℕ) (l : LinOpt h K) :
    gradientLoop lib times J (m + 1) n l = (do
      let l1 ← l.updateSegmentTimes lib.inv (perturbedTimes times n)
      let l2 ← l1.solveLinear lib.solve
      let J' ← l2.computeCost
      let r ← gradientLoop lib times J m (n + 1) l2
      pure ((J' - J) / (1 / 10) :: r.1, r.2)) := rfl

theorem gradientLoop_session {lib : NlLib h K} {vertices : List (Vertex K)} {k : ℕ} {times : List K}
    {J : K} {m n : ℕ} {l l' : LinOpt h K} {g : List K} (hs : LinSession lib vertices k l)
    (ho : gradientLoop lib times J m n l = .ok (g, l')) :
    LinSession lib vertices k l' ∧ l'.dimension = l.dimension ∧ g.length = m := by
  induction m generalizing n l g with
  | zero =>
    have : (([] : List K), l) = (g, l') := by simpa [gradientLoop] using ho
    rw [Prod.mk.injEq] at this
    rw [← this.1, ← this.2]
    exact ⟨hs, rfl, rfl⟩
  | succ m ih =>
    rw [gradientLoop_succ, Res.bind_eq_ok] at ho
    obtain ⟨l1, h1, ho⟩ := ho
    rw [Res.bind_eq_ok] at ho
    obtain ⟨l2, h2, ho⟩ := ho
    rw [Res.bind_eq_ok] at ho
    obtain ⟨J', -, ho⟩ := ho
    rw [Res.bind_eq_ok] at ho
    obtain ⟨⟨g', l3⟩, h3, ho⟩ := ho
    rw [Res.pure_eq, Res.ok.injEq, Prod.mk.injEq] at ho
    obtain ⟨rfl, rfl⟩ := ho
    obtain ⟨s1, -, d1, -⟩ := lin_update hs
      (fun T hT => tenth_ge.trans (perturbedTimes_ge times n T hT)) h1
    obtain ⟨s2, -, d2⟩ := lin_solve s1 h2
    obtain ⟨s3, d3, hl⟩ := ih s2.session h3
    exact ⟨s3, by rw [d3, d2, d1], by simp [hl]⟩

theorem costAndGradient_inv {lib : NlLib h K} {vertices : List (Vertex K)} {k : ℕ}
    {l l' : LinOpt h K} {J : K} {g : List K} (hs : LinSolved lib vertices k l)
    (ho : costAndGradient lib l = .ok (J, g, l')) :
    LinSolved lib vertices k l' ∧ l'.segmentTimes = l.segmentTimes ∧ l'.dimension = l.dimension ∧
      l.computeCost = .ok J ∧ g.length = l.nSegments := by
  unfold costAndGradient at ho
  dsimp only at ho
  rw [Res.bind_eq_ok] at ho
  obtain ⟨J0, h1, ho⟩ := ho
  by_cases hn : l.nSegments = 1
  · rw [if_pos hn, Res.pure_eq, Res.ok.injEq, Prod.mk.injEq, Prod.mk.injEq] at ho
    obtain ⟨rfl, rfl, rfl⟩ := ho
    exact ⟨hs, rfl, rfl, h1, by rw [hn]; rfl⟩
  · rw [if_neg hn, Res.bind_eq_ok] at ho
    obtain ⟨⟨g0, l1⟩, h2, ho⟩ := ho
    rw [Res.bind_eq_ok] at ho
    obtain ⟨l2, h3, ho⟩ := ho
    rw [Res.bind_eq_ok] at ho
    obtain ⟨l3, h4, ho⟩ := ho
    rw [Res.pure_eq, Res.ok.injEq, Prod.mk.injEq, Prod.mk.injEq] at ho
    obtain ⟨rfl, rfl, rfl⟩ := ho
    obtain ⟨s1, d1, hl⟩ := gradientLoop_session hs.session h2
    have hp := (session_ready hs.session).2.1
    obtain ⟨s2, t2, d2, -⟩ := lin_update s1 hp.times_pos h3
    obtain ⟨s3, t3, d3⟩ := lin_solve s2 h4
    exact ⟨s3, by rw [t3, t2], by rw [d3, d2, d1], h1, hl⟩

/-! #### The objective functions -/

/-- What an evaluation of the objective function at `x` leaves behind. -/
structure Evaluated (lib : NlLib h K) (vertices : List (Vertex K)) (k : ℕ) (o : NlOpt h K)
    (times : List K) (o' : NlOpt h K) : Prop where
  solved : LinSolved lib vertices k o'.lin
  times : o'.lin.segmentTimes = times
  dim : o'.lin.dimension = o.lin.dimension
  same : SameSetup o o'

theorem objectiveTime_inv {lib : NlLib h K} {vertices : List (Vertex K)} {k : ℕ} {o o' : NlOpt h K}
    {x : List K} {g : Bool} {y : K} (hs : LinSession lib vertices k o.lin)
    (hx : ∀ T ∈ x, 1 / 2 ^ 52 ≤ T) (ho : o.objectiveTime lib x g = .ok (y, o')) :
    Evaluated lib vertices k o x o' := by
  unfold NlOpt.objectiveTime at ho
  rw [Res.bind_eq_ok] at ho
  obtain ⟨_, -, ho⟩ := ho
  rw [Res.bind_eq_ok] at ho
  obtain ⟨_, -, ho⟩ := ho
  rw [Res.bind_eq_ok] at ho
  obtain ⟨l1, h1, ho⟩ := ho
  rw [Res.bind_eq_ok] at ho
  obtain ⟨l2, h2, ho⟩ := ho
  obtain ⟨s1, t1, d1, -⟩ := lin_update hs hx h1
  obtain ⟨s2, t2, d2⟩ := lin_solve s1 h2
  obtain ⟨e1, e2, -⟩ := totalCost_inv ho
  exact ⟨by rw [e1]; exact s2, by rw [e1]; exact t2.trans t1, by rw [e1]; exact d2.trans d1,
    ⟨e2.handle, e2.params, e2.constraints⟩⟩

theorem objectiveFull_inv {lib : NlLib h K} {vertices : List (Vertex K)} {k : ℕ} {o o' : NlOpt h K}
    {x : List K} {g : Bool} {y : K} (hs : LinSession lib vertices k o.lin)
    (hx : ∀ T ∈ x.take o.lin.nSegments, 1 / 2 ^ 52 ≤ T)
    (ho : o.objectiveFull lib x g = .ok (y, o')) :
    Evaluated lib vertices k o (x.take o.lin.nSegments) o' := by
  unfold NlOpt.objectiveFull at ho
  dsimp only at ho
  rw [Res.bind_eq_ok] at ho
  obtain ⟨_, -, ho⟩ := ho
  rw [Res.bind_eq_ok] at ho
  obtain ⟨_, -, ho⟩ := ho
  rw [Res.bind_eq_ok] at ho
  obtain ⟨l1, h1, ho⟩ := ho
  rw [Res.bind_eq_ok] at ho
  obtain ⟨l2, h2, ho⟩ := ho
  obtain ⟨s1, t1, d1, -⟩ := lin_update hs hx h1
  obtain ⟨s2, t2, d2, -⟩ := lin_setFree s1 h2
  obtain ⟨e1, e2, -⟩ := totalCost_inv ho
  exact ⟨by rw [e1]; exact s2, by rw [e1]; exact t2.trans t1, by rw [e1]; exact d2.trans d1,
    ⟨e2.handle, e2.params, e2.constraints⟩⟩

theorem objectiveMellinger_inv {lib : NlLib h K} {vertices : List (Vertex K)} {k : ℕ}
    {o o' : NlOpt h K} {x gr : List K} {g : Bool} {y : K} (hs : LinSession lib vertices k o.lin)
    (hx : ∀ T ∈ x, 1 / 2 ^ 52 ≤ T) (ho : o.objectiveMellinger lib x g = .ok (y, gr, o')) :
    Evaluated lib vertices k o x o' := by
  unfold NlOpt.objectiveMellinger at ho
  rw [Res.bind_eq_ok] at ho
  obtain ⟨_, -, ho⟩ := ho
  rw [Res.bind_eq_ok] at ho
  obtain ⟨_, -, ho⟩ := ho
  rw [Res.bind_eq_ok] at ho
  obtain ⟨l1, h1, ho⟩ := ho
  rw [Res.bind_eq_ok] at ho
  obtain ⟨l2, h2, ho⟩ := ho
  rw [Res.bind_eq_ok] at ho
  obtain ⟨⟨J, gr', l3⟩, h3, ho⟩ := ho
  rw [Res.pure_eq, Res.ok.injEq, Prod.mk.injEq, Prod.mk.injEq] at ho
  obtain ⟨-, -, rfl⟩ := ho
  obtain ⟨s1, t1, d1, -⟩ := lin_update hs hx h1
  obtain ⟨s2, t2, d2⟩ := lin_solve s1 h2
  obtain ⟨s3, t3, d3, -⟩ := costAndGradient_inv s2 h3
  exact ⟨s3, t3.trans (t2.trans t1), d3.trans (d2.trans d1), ⟨rfl, rfl, rfl⟩⟩

/-- The segment times in a point at which the objective function is called. -/
def timesOf (method : TimeAlloc) (nSeg : ℕ) (x : List K) : List K :=
  match method with
  | .squaredTime | .richterTime | .mellingerOuterLoop => x
  | _ => x.take nSeg

theorem objective_inv {lib : NlLib h K} {vertices : List (Vertex K)} {k : ℕ} {o o' : NlOpt h K}
    {method : TimeAlloc} {x : List K} {g : Bool} {y : K} (hs : LinSession lib vertices k o.lin)
    (hx : ∀ T ∈ timesOf method o.lin.nSegments x, 1 / 2 ^ 52 ≤ T)
    (ho : NlOpt.objective lib method o x g = .ok (y, o')) :
    Evaluated lib vertices k o (timesOf method o.lin.nSegments x) o' := by
  unfold NlOpt.objective at ho
  cases method
  · exact objectiveTime_inv hs hx ho
  · exact objectiveTime_inv hs hx ho
  · dsimp only at ho
    rw [Res.bind_eq_ok] at ho
    obtain ⟨⟨y', gr, o1⟩, h1, ho⟩ := ho
    rw [Res.pure_eq, Res.ok.injEq, Prod.mk.injEq] at ho
    obtain ⟨-, rfl⟩ := ho
    exact objectiveMellinger_inv hs hx h1
  · exact objectiveFull_inv hs hx ho
  · exact objectiveFull_inv hs hx ho
  · exact objectiveFull_inv hs hx ho

/-! #### Runs of NLopt -/

theorem answers_cons (lib : NlLib h K) (obj : NlOpt h K → List K → Bool → Res (K × NlOpt h K))
    (q : NlQuery K) (qs : List (NlQuery K)) (o : NlOpt h K) :
    NlOpt.answers lib obj (q :: qs) o = (do
      let r ← o.answer lib obj q
      let rs ← NlOpt.answers lib obj qs r.2
      pure (r.1 :: rs.1, rs.2)) := rfl

theorem constraint_inv {lib : NlLib h K} {obj : NlOpt h K → List K → Bool → Res (K × NlOpt h K)}
    {o o' : NlOpt h K} {i : ℕ} {x : List K} {g : Bool} {y : K}
    (ho : o.answer lib obj (.constraint i x g) = .ok (y, o')) :
    o'.lin = o.lin ∧ SameSetup o o' ∧ g = false ∧ ∃ hd c, o.handle = some hd ∧ hd.hard[i]? = some c ∧
      o.evaluateConstraint lib c = .ok (y, o') := by
  unfold NlOpt.answer at ho
  rw [Res.bind_eq_ok] at ho
  obtain ⟨_, hg, ho⟩ := ho
  have hg' := Res.check_eq_ok.mp hg
  revert ho
  cases hh : o.handle with
  | none => intro ho; cases ho
  | some hd =>
    intro ho
    dsimp only at ho
    rw [Res.bind_eq_ok] at ho
    obtain ⟨c, hc, ho⟩ := ho
    obtain ⟨m, -, -, e⟩ := evaluateConstraint_inv ho
    exact ⟨by rw [e], ⟨by rw [e], by rw [e], by rw [e]⟩, hg', hd, c, rfl, Res.at'_eq_ok.mp hc, ho⟩

/-- The number of segments does not change during a session. -/
theorem nSegments_eq {lib : NlLib h K} {vertices : List (Vertex K)} {k : ℕ} {l : LinOpt h K}
    (hs : LinSession lib vertices k l) : l.nSegments = vertices.length - 1 := by
  obtain ⟨-, hp, r⟩ := session_ready hs
  rw [r.nSeg, hp.count]
  simp

theorem answers_inv {lib : NlLib h K} {vertices : List (Vertex K)} {k : ℕ} {method : TimeAlloc}
    {qs : List (NlQuery K)} {o o' : NlOpt h K} {ys : List K} (hs : LinSession lib vertices k o.lin)
    (hx : ∀ x g, NlQuery.objective x g ∈ qs →
      ∀ T ∈ timesOf method (vertices.length - 1) x, 1 / 2 ^ 52 ≤ T)
    (ho : NlOpt.answers lib (NlOpt.objective lib method) qs o = .ok (ys, o')) :
    LinSession lib vertices k o'.lin ∧ SameSetup o o' ∧ o'.lin.dimension = o.lin.dimension ∧
    (((∀ x g, NlQuery.objective x g ∉ qs) ∧ o'.lin = o.lin) ∨
      (LinSolved lib vertices k o'.lin ∧ ∃ x g, NlQuery.objective x g ∈ qs ∧
        o'.lin.segmentTimes = timesOf method (vertices.length - 1) x)) := by
  induction qs generalizing o ys with
  | nil =>
    have : (([] : List K), o) = (ys, o') := by simpa [NlOpt.answers] using ho
    rw [Prod.mk.injEq] at this
    rw [← this.2]
    exact ⟨hs, .refl _, rfl, .inl ⟨by simp, rfl⟩⟩
  | cons q qs ih =>
    rw [answers_cons, Res.bind_eq_ok] at ho
    obtain ⟨⟨y, o1⟩, h1, ho⟩ := ho
    rw [Res.bind_eq_ok] at ho
    obtain ⟨⟨ys', o2⟩, h2, ho⟩ := ho
    rw [Res.pure_eq, Res.ok.injEq, Prod.mk.injEq] at ho
    obtain ⟨-, rfl⟩ := ho
    have hx' : ∀ x g, NlQuery.objective x g ∈ qs →
        ∀ T ∈ timesOf method (vertices.length - 1) x, 1 / 2 ^ 52 ≤ T :=
      fun x g hm => hx x g (by simp [hm])
    cases q with
    | objective x g =>
      have e : Evaluated lib vertices k o (timesOf method o.lin.nSegments x) o1 :=
        objective_inv hs (by rw [nSegments_eq hs]; exact hx x g (by simp)) h1
      rw [nSegments_eq hs] at e
      obtain ⟨a1, a2, a3, a4⟩ := ih e.solved.session hx' h2
      refine ⟨a1, e.same.trans a2, a3.trans e.dim, .inr ?_⟩
      rcases a4 with ⟨-, hl⟩ | ⟨b1, x', g', b2, b3⟩
      · dsimp only at hl ⊢
        rw [hl]
        exact ⟨e.solved, x, g, by simp, e.times⟩
      · exact ⟨b1, x', g', by simp [b2], b3⟩
    | constraint i x g =>
      obtain ⟨c1, c2, -⟩ := constraint_inv h1
      obtain ⟨a1, a2, a3, a4⟩ := ih (by dsimp only; rw [c1]; exact hs) hx' h2
      refine ⟨a1, c2.trans a2, by rw [a3]; dsimp only; rw [c1], ?_⟩
      rcases a4 with ⟨b1, hl⟩ | ⟨b1, x', g', b2, b3⟩
      · exact .inl ⟨by simpa using b1, by rw [hl]; exact c1⟩
      · exact .inr ⟨b1, x', g', by simp [b2], b3⟩

end Verif
