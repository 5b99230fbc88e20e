import Verif.Props.NonlinearOptimization

/-
Properties C69 - C76: what the nonlinear optimiser hands to NLopt and how it answers NLopt's questions.
-/
namespace Verif

open Spec Set

set_option linter.unusedSectionVars false

section
variable {h : ℕ}

/-! ### C69 the value of the objective function -/

theorem able_of_objective {lib : NlLib h ℝ} {vertices : List (Vertex ℝ)} {k : ℕ}
    {o o' : NlOpt h ℝ} {x : List ℝ} {g : Bool} {y : ℝ} (hs : LinSession lib vertices k o.lin)
    (hx : ∀ T ∈ x, 1 / 2 ^ 52 ≤ T)
    (ho : NlOpt.objective lib .mellingerOuterLoop o x g = .ok (y, o')) : Able o.lin := by
  unfold NlOpt.objective at ho
  dsimp only at ho
  rw [Res.bind_eq_ok] at ho
  obtain ⟨r, hr, -⟩ := ho
  unfold NlOpt.objectiveMellinger at hr
  rw [Res.bind_eq_ok] at hr
  obtain ⟨_, -, hr⟩ := hr
  rw [Res.bind_eq_ok] at hr
  obtain ⟨_, -, hr⟩ := hr
  rw [Res.bind_eq_ok] at hr
  obtain ⟨l1, h1, hr⟩ := hr
  rw [Res.bind_eq_ok] at hr
  obtain ⟨l2, h2, -⟩ := hr
  have s1 := (lin_update hs hx h1).1
  have := able_of_solve s1 h2
  obtain ⟨-, -, c, m, rfl⟩ := updateTimes_inv h1
  exact this

/-- **C69.** Whenever an evaluation of the objective function returns, its value is the documented one for
the trajectory that is then present: its cost, plus the penalty on the total time, plus a penalty for
each limit if limits are soft; for the Mellinger method the cost only. -/
theorem C69_value {lib : NlLib h ℝ} (hl : LibSpec lib) {vertices : List (Vertex ℝ)} {k : ℕ} {b : Prop}
    {o o' : NlOpt h ℝ} (hs : NlSession lib vertices k b o) (hu : o.params.method ≠ .unknown)
    {x : List ℝ} {g : Bool} {y : ℝ}
    (hx : ∀ T ∈ timePart o.params.method (vertices.length - 1) x, 1 / 2 ^ 52 ≤ T)
    (hlim : o.params.useSoft = true → LimitsOk h o.constraints)
    (ho : NlOpt.objective lib o.params.method o x g = .ok (y, o')) :
    y = methodValue k o.lin.dimension o.params o.constraints
      (timePart o.params.method (vertices.length - 1) x) o'.lin.segments := by
  have hls := (nlSession_inv hs).1
  rw [← timesOf_timePart hu] at hx ⊢
  by_cases hm : o.params.method = .mellingerOuterLoop
  · have ha : Able o.lin := by
      rw [hm] at ho hx
      exact able_of_objective hls hx ho
    obtain ⟨hg, hlen⟩ := objective_checks ho
    rw [nSegments_eq hls] at hlen
    obtain ⟨o1, h1⟩ := objective_ok hl hls ha hx hlen hg hu (fun h _ => hlim h)
    rw [ho, Res.ok.injEq, Prod.mk.injEq] at h1
    obtain ⟨h1, rfl⟩ := h1
    exact h1
  · obtain ⟨a1, a2, a3, a4⟩ := objective_info hl hls hx hu hm hlim ho
    rw [a4, a1, a2, a3]
    unfold methodValue objectiveValue
    rw [if_neg hm]

/-- **C69.** It does return, at every point of the right size with positive times, provided that the
algorithm asks for gradients exactly for the Mellinger method and `solveLinear()` would return. -/
theorem C69_returns {lib : NlLib h ℝ} (hl : LibSpec lib) {vertices : List (Vertex ℝ)} {k : ℕ} {b : Prop}
    {o : NlOpt h ℝ} (hs : NlSession lib vertices k b o) (hok : ∃ o1, o.solveLinear lib = .ok o1)
    (hu : o.params.method ≠ .unknown) {x : List ℝ}
    (hx : ∀ T ∈ timePart o.params.method (vertices.length - 1) x, 1 / 2 ^ 52 ≤ T)
    (hlim : o.params.useSoft = true → LimitsOk h o.constraints)
    (hlen : x.length = vertices.length - 1 + (if withDerivatives o.params.method then
      o.lin.dimension * (freeOrder h vertices).length else 0)) :
    ∃ y o', NlOpt.objective lib o.params.method o x (decide (o.params.method = .mellingerOuterLoop)) =
      .ok (y, o') := by
  have hls := (nlSession_inv hs).1
  rw [← timesOf_timePart hu] at hx
  obtain ⟨o1, h1⟩ := hok
  obtain ⟨l1, h1, -⟩ := solveLinear_nl_inv h1
  obtain ⟨o', h2⟩ := objective_ok hl hls (able_of_solve hls h1) hx (by
    rw [hlen, session_nFree_order hls]
    unfold varCount withDerivatives
    cases hm : o.params.method <;> simp [Nat.mul_comm]
    exact absurd hm hu) rfl hu (fun h _ => hlim h)
  exact ⟨_, o', h2⟩

/-- **C69.** The statistics after an optimisation are those of the last evaluation; they sum up to its
value, and the number of iterations is the number of evaluations. -/
theorem C69_statistics {lib : NlLib h ℝ} (hl : LibSpec lib) {vertices : List (Vertex ℝ)} {k : ℕ} {b : Prop}
    {o o' : NlOpt h ℝ} {run : NlRun ℝ} {c : ℤ} {gradients : Bool}
    (hs : NlSession lib vertices k b o) (hr : RunOf lib gradients o run)
    (ho : o.optimize lib run = .ok (c, o')) (hu : o.params.method ≠ .unknown)
    (hm : o.params.method ≠ .mellingerOuterLoop) (ht : run.setupThrows = false)
    (hlim : o.params.useSoft = true → LimitsOk h o.constraints)
    (he : points run.queries ≠ []) :
    o'.info.stoppingReason = c ∧ o'.info.nIterations = (points run.queries).length ∧
    o'.info.costTrajectory = cost k o'.lin.segments ∧
    o'.info.costTime = o.params.timePenalty *
      (if o.params.method = .richterTime ∨ o.params.method = .richterTimeAndConstraints then
        o'.lin.segmentTimes.sum else o'.lin.segmentTimes.sum ^ 2) ∧
    o'.info.costSoft = (if o.params.useSoft then
      (o.constraints.map (penalty o.params.softWeight (10 ^ 12) o.lin.dimension o'.lin.segments)).sum
      else 0) ∧
    o'.info.costTrajectory + o'.info.costTime + o'.info.costSoft =
      methodValue k o.lin.dimension o.params o.constraints o'.lin.segmentTimes o'.lin.segments := by
  have hls := (nlSession_inv hs).1
  obtain ⟨-, -, -, hc, -⟩ := optimize_inv hls hr ho
  obtain ⟨x, hx⟩ : ∃ x, (points run.queries).getLast? = some x :=
    ⟨_, List.getLast?_eq_some_getLast he⟩
  obtain ⟨g, o1, o2, y, -, -, h3, h4, h5, h6, h7, h8, h9, h10, h11, h12, h13, h14, h15, h16, -⟩ :=
    optimize_last hls hr hu ht ho hx
  rw [← h5] at h7 h8
  obtain ⟨a1, a2, a3, a4⟩ := objective_info hl h3 h8 (by rw [h5]; exact hu) (by rw [h5]; exact hm)
    (by rw [h5, h6]; exact hlim) h7
  rw [h5] at a2 a3
  rw [h6, h4] at a3
  rw [← h11] at a2
  rw [h16 hm]
  refine ⟨hc, h12, h13.trans a1, h14.trans a2, h15.trans a3, ?_⟩
  rw [h13, h14, h15, a1, a2, a3]
  unfold methodValue objectiveValue
  rw [if_neg hm]

example (m : TimeAlloc) (hm : m ≠ .unknown) : ∃ (o o' : NlOpt 2 ℝ) (run : NlRun ℝ) (c : ℤ),
    LibSpec (exLib 2) ∧ NlSession (exLib 2) exVertices2 1 True o ∧ o.params.method = m ∧
      o.params.useSoft = true ∧ LimitsOk 2 o.constraints ∧
      RunOf (exLib 2) (decide (o.params.method = .mellingerOuterLoop)) o run ∧
      o.optimize (exLib 2) run = .ok (c, o') ∧ run.setupThrows = false ∧ points run.queries ≠ [] ∧
      (∃ o1, o.solveLinear (exLib 2) = .ok o1) :=
  let ⟨o, o', run, c, x, h1, h2, h3, h4, h5, h6, h7⟩ := exOptimize ⟨1 / 10, 1, true, 1, m⟩ rfl hm
  ⟨o, o', run, c, exLib_spec, h1, by rw [h2], by rw [h2], h3, h4, h7, h5, by rw [h6]; simp,
    C67_solvable h1 (.inl trivial)⟩

/-! ### C70 the starting point -/

/-- **C70.** NLopt is started within its bounds, unless only times are optimised and one of them is
shorter than 0.1 s. -/
theorem C70_start_within {lib : NlLib h ℝ} {vertices : List (Vertex ℝ)} {k : ℕ} {b : Prop}
    {o p : NlOpt h ℝ} {a : NlArgs ℝ} (hs : NlSession lib vertices k b o) (hu : o.params.method ≠ .unknown)
    (ho : NlOpt.prepare lib { o with info := NlInfo.default } = .ok (p, a))
    (ht : withDerivatives o.params.method ∨ ∀ T ∈ o.lin.segmentTimes, 1 / 10 ≤ T ∧ T ≤ dblMax) :
    Within a.lower a.upper a.start := by
  obtain ⟨hd, hh, hn⟩ := session_handle hs
  exact start_within (o := { o with info := NlInfo.default }) (nlSession_inv hs).1 hh hu hn ho ht

/-- **C70**, the other side: with a time below 0.1 s the starting point is outside the bounds, so that NLopt
refuses to start. -/
theorem C70_start_rejected {lib : NlLib h ℝ} {o p : NlOpt h ℝ} {a : NlArgs ℝ}
    (hm : ¬ withDerivatives o.params.method) (hu : o.params.method ≠ .unknown)
    (ho : NlOpt.prepare lib { o with info := NlInfo.default } = .ok (p, a))
    (ht : ∃ T ∈ o.lin.segmentTimes, T < 1 / 10) : ¬ Within a.lower a.upper a.start := by
  obtain ⟨T, hT, hlt⟩ := ht
  intro hw
  rcases prepare_cases ho with ⟨hd', hh', hm', rfl, rfl⟩ | ⟨hd', hh', hm', rfl, rfl⟩ |
    ⟨hd', l, hh', hm', hl, rfl, ha⟩
  · exact absurd (within_replicate hw T hT) (not_le.mpr hlt)
  · exact absurd (within_replicate hw T hT) (not_le.mpr hlt)
  · rcases hm' with hm' | hm'
    · exact hm hm'
    · exact hu hm'

/-- **C70.** When derivatives are optimised too, the starting point lists the present times and then, for
each dimension, the values the free derivatives have on the trajectory of smallest cost for these times;
evaluating the objective function there reproduces exactly this trajectory. -/
theorem C70_start_derivatives {lib : NlLib h ℝ} (hl : LibSpec lib) {vertices : List (Vertex ℝ)} {k : ℕ}
    {b : Prop} {o p : NlOpt h ℝ} {a : NlArgs ℝ} (hs : NlSession lib vertices k b o)
    (hm : withDerivatives o.params.method)
    (ho : NlOpt.prepare lib { o with info := NlInfo.default } = .ok (p, a)) :
    Optimal h k o.lin.dimension vertices o.lin.segmentTimes p.lin.segments ∧
    a.start.length = vertices.length - 1 + o.lin.dimension * (freeOrder h vertices).length ∧
    a.start.take (vertices.length - 1) = o.lin.segmentTimes ∧
    (∀ e i m d, (freeOrder h vertices)[e]? = some (i, m) → d < o.lin.dimension → ∃ y,
      a.start[vertices.length - 1 + d * (freeOrder h vertices).length + e]? = some y ∧
      AtVertex p.lin.segments i d m y) ∧
    ∀ (g : Bool) (y : ℝ) (o' : NlOpt h ℝ), NlOpt.objective lib o.params.method p a.start g = .ok (y, o') →
      o'.lin.segments = p.lin.segments ∧ o'.lin.segmentTimes = o.lin.segmentTimes := by
  have hls := (nlSession_inv hs).1
  rcases prepare_cases ho with ⟨hd', hh', hm', rfl, rfl⟩ | ⟨hd', hh', hm', rfl, rfl⟩ |
    ⟨hd', l, hh', hm', hl', rfl, ha⟩
  · rcases hm with hm | hm <;> rcases hm' with hm' | hm' <;> exact absurd (hm.symm.trans hm') (by simp)
  · rcases hm with hm | hm <;> exact absurd (hm.symm.trans hm') (by simp)
  dsimp only at hl' ⊢
  obtain ⟨s2, t2, d2⟩ := lin_solve hls hl'
  have hn : l.nSegments = vertices.length - 1 := nSegments_eq s2.session
  have hF : l.nFree = (freeOrder h vertices).length := session_nFree_order s2.session
  have hcount : o.lin.segmentTimes.length = vertices.length - 1 := by
    have := (session_ready hls).2.1.count
    omega
  obtain ⟨e1, e2, e3, -, -⟩ := fullArgs_entries (o := { o with info := NlInfo.default, lin := l }) s2 ha
  dsimp only at e1 e2 e3
  rw [hn, hF, d2] at e3
  have htake : a.start.take (vertices.length - 1) = o.lin.segmentTimes := by
    refine List.ext_getElem? fun i => ?_
    by_cases hi : i < vertices.length - 1
    · rw [List.getElem?_take, if_pos hi]
      have hT : o.lin.segmentTimes[i]? = some (o.lin.segmentTimes[i]'(by omega)) := by
        rw [List.getElem?_eq_getElem]
      rw [hT]
      exact (e1 i _ (by rw [t2, hT])).1
    · rw [List.getElem?_take, if_neg hi, List.getElem?_eq_none (by omega)]
  refine ⟨optimal_of_route hl hls rfl hl', e3, htake, ?_, ?_⟩
  · intro e i m d he hd
    have hec := (List.getElem?_eq_some_iff.mp he).1
    obtain ⟨f, y, b1, b2, b3, -, -⟩ := e2 d e (by rw [d2]; exact hd) (by rw [hF]; exact hec)
    rw [hn, hF] at b3
    exact ⟨y, b3, s2.free_value hl.inv he (by rw [d2]; exact hd) b1 b2⟩
  · intro g y o' hobj
    have hfull : NlOpt.objectiveFull lib { o with info := NlInfo.default, lin := l } a.start g = .ok (y, o') := by
      unfold NlOpt.objective at hobj
      rcases hm with hm | hm <;> rw [hm] at hobj <;> exact hobj
    refine ⟨objectiveFull_start (o := { o with info := NlInfo.default, lin := l }) s2 ha hfull, ?_⟩
    have := (objectiveFull_inv (o := { o with info := NlInfo.default, lin := l }) s2.session (by
      dsimp only
      rw [hn, htake]
      exact (session_ready hls).2.1.times_pos) hfull).times
    dsimp only at this
    rw [this, hn, htake]

/-- **C70.** When only times are optimised, NLopt is started with the present times. -/
theorem C70_start_times {lib : NlLib h ℝ} {vertices : List (Vertex ℝ)} {k : ℕ} {b : Prop}
    {o p : NlOpt h ℝ} {a : NlArgs ℝ} (hs : NlSession lib vertices k b o)
    (hm : ¬ withDerivatives o.params.method) (hu : o.params.method ≠ .unknown)
    (ho : NlOpt.prepare lib { o with info := NlInfo.default } = .ok (p, a)) :
    a.start = o.lin.segmentTimes ∧ a.lower = List.replicate (vertices.length - 1) (1 / 10) ∧
      a.upper = List.replicate (vertices.length - 1) dblMax := by
  obtain ⟨hd, hh, hn⟩ := session_handle hs
  have hn' : hd.n = vertices.length - 1 := by
    rw [hn]
    unfold varCount
    unfold withDerivatives at hm
    cases hmm : o.params.method <;> simp_all
  rcases prepare_cases ho with ⟨hd', hh', hm', rfl, rfl⟩ | ⟨hd', hh', hm', rfl, rfl⟩ |
    ⟨hd', l, hh', hm', hl, rfl, ha⟩
  · rw [hh, Option.some.injEq] at hh'
    subst hh'
    exact ⟨rfl, by rw [← hn']; rfl, by rw [← hn']; rfl⟩
  · rw [hh, Option.some.injEq] at hh'
    subst hh'
    exact ⟨rfl, by rw [← hn']; rfl, by rw [← hn']; rfl⟩
  · rcases hm' with hm' | hm'
    · exact absurd hm' hm
    · exact absurd hm' hu

theorem fullArgs_step {K : Type} [Field K] [LinearOrder K] [IsStrictOrderedRing K] {h : ℕ} {o : NlOpt h K}
    {a : NlArgs K} (ho : o.fullArgs = .ok a) :
    a.step = some (a.start.map (initialStep o.params.initialStepRel)) := by
  unfold NlOpt.fullArgs at ho
  dsimp only at ho
  rw [Res.bind_eq_ok] at ho
  obtain ⟨front, -, ho⟩ := ho
  rw [Res.bind_eq_ok] at ho
  obtain ⟨_, -, ho⟩ := ho
  rw [Res.bind_eq_ok] at ho
  obtain ⟨fb, hfb, ho⟩ := ho
  rw [Res.bind_eq_ok] at ho
  obtain ⟨adj, hadj, ho⟩ := ho
  rw [Res.bind_eq_ok] at ho
  obtain ⟨_, c1, ho⟩ := ho
  rw [Res.bind_eq_ok] at ho
  obtain ⟨_, c2, ho⟩ := ho
  rw [Res.bind_eq_ok] at ho
  obtain ⟨_, c3, ho⟩ := ho
  rw [Res.pure_eq, Res.ok.injEq] at ho
  subst ho
  have hl := Res.mapM_length hadj
  rw [List.length_range] at hl
  dsimp only
  congr 1
  apply List.ext_getElem (by rw [List.length_map, List.length_map, hl])
  intro i h1 h2
  rw [List.length_map] at h1 h2
  have hf := Res.mapM_forall₂.mp hadj
  have := hf.get (i := i) (by rw [List.length_range]; exact h2) h1
  simp only [List.get_eq_getElem, List.getElem_range] at this
  rw [Res.bind_eq_ok] at this
  obtain ⟨x', hx', this⟩ := this
  rw [Res.bind_eq_ok] at this
  obtain ⟨lo, hlo, this⟩ := this
  rw [Res.bind_eq_ok] at this
  obtain ⟨up, hup, this⟩ := this
  rw [Res.at'_eq_ok, List.getElem?_eq_getElem h2, Option.some.injEq] at hx'
  rw [Res.pure_eq, Res.ok.injEq] at this
  rw [List.getElem_map, List.getElem_map, ← this, ← hx']

/-- **C70.** The initial steps handed to NLopt are positive (NLopt refuses steps of 0), one for each variable,
and proportional to the starting value unless this is practically zero. The Mellinger method sets none. -/
theorem C70_steps {lib : NlLib h ℝ} {vertices : List (Vertex ℝ)} {k : ℕ} {b : Prop}
    {o p : NlOpt h ℝ} {a : NlArgs ℝ} (hs : NlSession lib vertices k b o) (hu : o.params.method ≠ .unknown)
    (hm : o.params.method ≠ .mellingerOuterLoop) (hrel : 0 < o.params.initialStepRel)
    (ho : NlOpt.prepare lib { o with info := NlInfo.default } = .ok (p, a)) :
    ∃ st, a.step = some st ∧ st.length = a.start.length ∧ ∀ (i : ℕ) (x s : ℝ), a.start[i]? = some x →
      st[i]? = some s → 0 < s ∧ (1 / 2 ^ 52 < |x| → s = o.params.initialStepRel * |x|) := by
  have hls := (nlSession_inv hs).1
  have hpos := (session_ready hls).2.1.times_pos
  rcases prepare_cases ho with ⟨hd', hh', hm', rfl, rfl⟩ | ⟨hd', hh', hm', rfl, rfl⟩ |
    ⟨hd', l, hh', hm', hl, rfl, ha⟩
  · refine ⟨_, rfl, by simp [NlOpt.timeArgs], fun i x s hx hst => ?_⟩
    simp only [NlOpt.timeArgs] at hx
    rw [List.getElem?_map, hx, Option.map_some, Option.some.injEq] at hst
    have h0 : 0 < x := lt_of_lt_of_le (by positivity) (hpos x (List.mem_of_getElem? hx))
    rw [← hst, abs_of_pos h0]
    exact ⟨mul_pos hrel h0, fun _ => rfl⟩
  · exact absurd hm' hm
  · refine ⟨_, fullArgs_step ha, by simp, fun i x s hx hst => ?_⟩
    rw [List.getElem?_map, hx, Option.map_some, Option.some.injEq] at hst
    dsimp only at hst
    unfold initialStep dblEpsilon at hst
    split_ifs at hst with hc
    · rw [← hst]
      exact ⟨by positivity, fun h1 => absurd hc (not_le.mpr h1)⟩
    · rw [← hst]
      have : 0 < |x| := lt_trans (by positivity) (not_le.mp hc)
      exact ⟨mul_pos hrel this, fun _ => rfl⟩

/-- The preparation returns, for every method. -/
theorem exPrepare (m : TimeAlloc) (hm : m ≠ .unknown) : ∃ (o p : NlOpt 2 ℝ) (a : NlArgs ℝ),
    NlSession (exLib 2) exVertices2 1 True o ∧ o.params.method = m ∧ o.lin.segmentTimes = [1, 2] ∧
      NlOpt.prepare (exLib 2) { o with info := NlInfo.default } = .ok (p, a) := by
  obtain ⟨o, h1, h2, h3, h4, h5, o1, h6⟩ := exNl ⟨1 / 10, 1, true, 1, m⟩
  obtain ⟨hd, hh, hn⟩ := session_handle h1
  obtain ⟨l1, h6, -⟩ := solveLinear_nl_inv h6
  obtain ⟨p, a, h7⟩ := prepare_ok (o := { o with info := NlInfo.default }) (nlSession_inv h1).1 hh
    (fun _ => able_of_solve (nlSession_inv h1).1 h6) (by dsimp only; rw [h2]; exact hm)
  exact ⟨o, p, a, h1, by rw [h2], h5, h7⟩

example (m : TimeAlloc) (hm : m ≠ .unknown) : ∃ (o p : NlOpt 2 ℝ) (a : NlArgs ℝ),
    NlSession (exLib 2) exVertices2 1 True o ∧ o.params.method = m ∧ o.lin.segmentTimes = [1, 2] ∧
      NlOpt.prepare (exLib 2) { o with info := NlInfo.default } = .ok (p, a) := exPrepare m hm

example : initialStep (1 / 10 : ℚ) 0 = 1 / 10 ^ 13 ∧ initialStep (1 / 10 : ℚ) (-5) = 1 / 2 := by decide +kernel

/-! ### C71 the bounds -/

/-- **C71.** When derivatives are optimised too, the bounds on the times are 0.1 s and the largest number,
widened if necessary to contain the present time. -/
theorem C71_time_bounds {lib : NlLib h ℝ} {vertices : List (Vertex ℝ)} {k : ℕ}
    {b : Prop} {o p : NlOpt h ℝ} {a : NlArgs ℝ} (hs : NlSession lib vertices k b o)
    (hm : withDerivatives o.params.method)
    (ho : NlOpt.prepare lib { o with info := NlInfo.default } = .ok (p, a)) :
    ∀ (i : ℕ) (T : ℝ), o.lin.segmentTimes[i]? = some T → a.start[i]? = some T ∧
      a.lower[i]? = some (min T (1 / 10)) ∧ a.upper[i]? = some (max T dblMax) := by
  have hls := (nlSession_inv hs).1
  rcases prepare_cases ho with ⟨hd', hh', hm', rfl, rfl⟩ | ⟨hd', hh', hm', rfl, rfl⟩ |
    ⟨hd', l, hh', hm', hl', rfl, ha⟩
  · rcases hm with hm | hm <;> rcases hm' with hm' | hm' <;> exact absurd (hm.symm.trans hm') (by simp)
  · rcases hm with hm | hm <;> exact absurd (hm.symm.trans hm') (by simp)
  dsimp only at hl' ⊢
  obtain ⟨s2, t2, d2⟩ := lin_solve hls hl'
  obtain ⟨e1, -, -, -, -⟩ := fullArgs_entries (o := { o with info := NlInfo.default, lin := l }) s2 ha
  dsimp only at e1
  rw [t2] at e1
  exact e1

/-- **C71**, for the highest derivative that can be optimised, `k = h - 1` (snap for polynomials with ten
coefficients). What is missing is a smaller `k`, for which the claim is false, see below. -/
theorem C71_bounds_partial {lib : NlLib h ℝ} {vertices : List (Vertex ℝ)} {k : ℕ}
    {b : Prop} {o p : NlOpt h ℝ} {a : NlArgs ℝ} (hs : NlSession lib vertices k b o)
    (hm : withDerivatives o.params.method) (hk : k + 1 = h)
    (ho : NlOpt.prepare lib { o with info := NlInfo.default } = .ok (p, a)) :
    BoundsRight vertices h o.lin.dimension o.constraints a := by
  have hls := (nlSession_inv hs).1
  rcases prepare_cases ho with ⟨hd', hh', hm', rfl, rfl⟩ | ⟨hd', hh', hm', rfl, rfl⟩ |
    ⟨hd', l, hh', hm', hl', rfl, ha⟩
  · rcases hm with hm | hm <;> rcases hm' with hm' | hm' <;> exact absurd (hm.symm.trans hm') (by simp)
  · rcases hm with hm | hm <;> exact absurd (hm.symm.trans hm') (by simp)
  dsimp only at hl' ⊢
  obtain ⟨s2, t2, d2⟩ := lin_solve hls hl'
  have hn : l.nSegments = vertices.length - 1 := nSegments_eq s2.session
  have hF : l.nFree = (freeOrder h vertices).length := session_nFree_order s2.session
  obtain ⟨-, e2, -, -, -⟩ := fullArgs_entries (o := { o with info := NlInfo.default, lin := l }) s2 ha
  intro e i m d y he hd hy
  have hec := (List.getElem?_eq_some_iff.mp he).1
  obtain ⟨f, y', b1, b2, b3, b4, b5⟩ := e2 d e (by dsimp only; rw [d2]; exact hd) (by dsimp only; rw [hF]; exact hec)
  dsimp only at b3 b4 b5
  rw [hn, hF] at b3 b4 b5
  rw [hk, he, Option.map_some, boundFor_eq] at b4 b5
  rw [hy, Option.some.injEq] at b3
  subst b3
  exact ⟨b4, b5⟩

/-- Two vertices: of the first only the position is given, of the second nothing. -/
def exVertices3 : List (Vertex ℝ) := [⟨1, [(0, [0])]⟩, ⟨1, []⟩]

theorem exProblem3 : Problem 2 1 exVertices3 [1] where
  count := rfl
  two := by simp [exVertices3]
  times_pos := by
    intro T hT
    simp only [List.mem_cons, List.not_mem_nil, or_false] at hT
    rw [hT]
    norm_num
  wf := by
    intro v hv
    simp only [exVertices3, List.mem_cons, List.not_mem_nil, or_false] at hv
    rcases hv with rfl | rfl <;> exact ⟨⟨by simp, by simp⟩, rfl⟩
  dim_pos := by norm_num
  small := by norm_num

/-- **C71**, refuted for smaller `k`: with cubic polynomials and `k = 0` a limit on the position ends up as
a bound on the velocity at the first vertex. -/
theorem C71_bounds_false : ∃ (o p : NlOpt 2 ℝ) (a : NlArgs ℝ), NlSession (exLib 2) exVertices3 0 True o ∧
    withDerivatives o.params.method ∧ o.constraints = [⟨0, 7⟩] ∧
    NlOpt.prepare (exLib 2) { o with info := NlInfo.default } = .ok (p, a) ∧
    ¬ BoundsRight exVertices3 2 o.lin.dimension o.constraints a := by
  obtain ⟨o, -, h2, h3, h4, h5, h6, o1, h7⟩ := nl_new (lib := exLib 2) exProblem3 (k := 0) (by norm_num)
    ⟨1 / 10, 1, true, 1, .squaredTimeAndConstraints⟩
  have hs1 : NlSession (exLib 2) exVertices3 0 True o1 := .solveLinear h2 h7
  obtain ⟨l, h8, rfl⟩ := solveLinear_nl_inv h7
  obtain ⟨o2, hadd⟩ : ∃ o2, NlOpt.addMaximumMagnitudeConstraint { o with lin := l } true 0 7 = .ok (true, o2) := by
    unfold NlOpt.addMaximumMagnitudeConstraint
    rw [Res.check_of (by norm_num), Res.ok_bind, Res.check_of (by norm_num), Res.ok_bind]
    dsimp only
    rw [h3, if_pos rfl]
    exact ⟨_, rfl⟩
  have hs2 : NlSession (exLib 2) exVertices3 0 True o2 := .add hs1 hadd
  obtain ⟨-, -, a3, a4, -, a6, -, -⟩ := add_inv hadd
  dsimp only at a3 a4 a6
  rw [h4, List.nil_append] at a6
  have hmeth : withDerivatives o2.params.method := .inl (by rw [a4, h3])
  have hls := (nlSession_inv hs2).1
  obtain ⟨hd, hh, -⟩ := session_handle hs2
  have hso := (nlSession_inv hs2).2.1 trivial
  obtain ⟨p, a, hp⟩ := prepare_ok (o := { o2 with info := NlInfo.default }) hls hh
    (fun _ => hso.able) (by dsimp only; rw [a4, h3]; simp)
  refine ⟨o2, p, a, hs2, hmeth, a6, hp, fun hright => ?_⟩
  have hdim : o2.lin.dimension = 1 := by
    rw [a3]
    exact ((lin_solve (nlSession_inv h2).1 h8).2.2).trans h5
  rcases prepare_cases hp with ⟨hd', hh', hm', rfl, rfl⟩ | ⟨hd', hh', hm', rfl, rfl⟩ |
    ⟨hd', l2, hh', hm', hl', rfl, ha⟩
  · dsimp only at hm'
    rw [a4, h3] at hm'
    rcases hm' with hm' | hm' <;> cases hm'
  · dsimp only at hm'
    rw [a4, h3] at hm'
    cases hm'
  dsimp only at hl'
  obtain ⟨s2, t2, d2⟩ := lin_solve hls hl'
  have hn : l2.nSegments = 1 := nSegments_eq s2.session
  have hfo : freeOrder 2 exVertices3 = [(0, 1), (1, 0), (1, 1)] := by
    simp [freeOrder, exVertices3, Vertex.getConstraint, mapFind, List.range_succ]
  have hfo1 : freeOrder (0 + 1) exVertices3 = [(1, 0)] := by
    simp [freeOrder, exVertices3, Vertex.getConstraint, mapFind, List.range_succ]
  have hF : l2.nFree = 3 := by
    rw [session_nFree_order s2.session, hfo]
    rfl
  obtain ⟨-, e2, -, -, -⟩ := fullArgs_entries (o := { o2 with info := NlInfo.default, lin := l2 }) s2 ha
  obtain ⟨f, y, b1, b2, b3, b4, b5⟩ := e2 0 0 (by dsimp only; rw [d2, hdim]; norm_num)
    (by dsimp only; rw [hF]; norm_num)
  dsimp only at b3 b4 b5
  rw [hn] at b3 b4 b5
  have h7' : boundFor o2.constraints ((freeOrder (0 + 1) exVertices3)[0]?.map Prod.snd) dblMax = (7 : ℝ) := by
    rw [hfo1, a6]
    simp [boundFor_eq]
  rw [h7'] at b4 b5
  obtain ⟨c1, c2⟩ := hright 0 0 1 0 y (by rw [hfo]; rfl) (by rw [hdim]; norm_num) (by
    simpa [hfo, exVertices3] using b3)
  have hb : bound o2.constraints 1 = dblMax := by
    rw [a6]
    simp [bound]
  rw [hb] at c1 c2
  have e1 : min y (-(7 : ℝ)) = min y (-dblMax) := by
    have : a.lower[1]? = some (min y (-dblMax)) := by simpa [hfo, exVertices3] using c1
    have h' : a.lower[1]? = some (min y (-7)) := by simpa using b4
    rw [h', Option.some.injEq] at this
    exact this
  have e2' : max y (7 : ℝ) = max y dblMax := by
    have : a.upper[1]? = some (max y dblMax) := by simpa [hfo, exVertices3] using c2
    have h' : a.upper[1]? = some (max y 7) := by simpa using b5
    rw [h', Option.some.injEq] at this
    exact this
  have hbig : (7 : ℝ) < dblMax := by
    have := dblMax_gt (K := ℝ)
    refine lt_trans ?_ this
    norm_num
  rcases le_total y 0 with hy | hy
  · rw [max_eq_right (by linarith), max_eq_right (by linarith)] at e2'
    linarith
  · rw [min_eq_right (by linarith), min_eq_right (by linarith)] at e1
    linarith

/-! ### C72 the maximum of the magnitude -/

/-- **C72.** For every derivative below order `N-1`, `computeMaximumOfMagnitude` of an optimiser with a
trajectory returns the largest norm of this derivative on the whole trajectory, with a segment and a time
at which it is attained. -/
theorem C72_maximum {inv solve} (hinv : IsInverse inv) {rf : RootFinder ℝ} (hrf : Complete rf)
    {vertices : List (Vertex ℝ)} {k : ℕ} {times : List ℝ} {o o' : LinOpt h ℝ}
    (hs : Session inv solve vertices k times o)
    (ho : o.solveLinear solve = .ok o' ∨ ∃ free, o.setFreeConstraints free = .ok o')
    (d : ℕ) (hd : d + 1 < h + h) :
    ∃ m cands, o'.computeMaximumOfMagnitude rf Real.sqrt d = .ok (m, cands) ∧
      (∀ s ∈ o'.segments, ∀ t ∈ Icc 0 s.time,
        magnitude s.polys (List.range o'.dimension) d t ≤ m.value) ∧
      ∃ s, o'.segments[m.segmentIdx]? = some s ∧ m.time ∈ Icc 0 s.time ∧
        m.value = magnitude s.polys (List.range o'.dimension) d m.time := by
  have hsol : LinSolved (⟨rf, Real.sqrt, Real.exp, inv, solve⟩ : NlLib h ℝ) vertices k o' := by
    have ht : o'.segmentTimes = times := by
      rw [session_segmentTimes (show Session inv solve vertices k times o' from ?_)]
      rcases ho with ho | ⟨free, ho⟩
      · exact .solveLinear hs ho
      · exact .setFree hs ho
    exact ⟨o, by rw [ht]; exact hs, ho⟩
  obtain ⟨g1, g2, g3⟩ := hsol.good hinv
  exact maximumOfMagnitude_ok rf hrf hd o' g1 g2 g3

/-- **C72.** The same for the nonlinear optimiser, whatever was done with it. -/
theorem C72_maximum_nonlinear {lib : NlLib h ℝ} (hl : LibSpec lib) {vertices : List (Vertex ℝ)} {k : ℕ}
    {b : Prop} {o : NlOpt h ℝ} (hs : NlSession lib vertices k b o) (hb : b) (d : ℕ) (hd : d + 1 < h + h) :
    ∃ m cands, o.lin.computeMaximumOfMagnitude lib.rf lib.sq d = .ok (m, cands) ∧
      IsGreatest (norms o.lin.dimension o.lin.segments d) m.value ∧
      ∃ s, o.lin.segments[m.segmentIdx]? = some s ∧ m.time ∈ Icc 0 s.time ∧
        m.value = magnitude s.polys (List.range o.lin.dimension) d m.time := by
  obtain ⟨g1, g2, g3⟩ := ((nlSession_inv hs).2.1 hb).good hl.inv
  obtain ⟨m, h1, -, h3, h4⟩ := maximumOfMagnitude_peak lib.rf hl.rf hd o.lin g1 g2 g3
  rw [hl.sq]
  exact ⟨m.1, m.2, h1, h3, h4⟩

/-- **C72**, the other side: derivatives of order `N-1` and above are refused. -/
theorem C72_order_refused {rf : RootFinder ℝ} {sq : ℝ → ℝ} {o : LinOpt h ℝ} (hne : o.segments ≠ []) (d : ℤ)
    (hd : (h : ℤ) + h - 1 ≤ d) : o.computeMaximumOfMagnitude rf sq d = .abort := by
  unfold LinOpt.computeMaximumOfMagnitude
  cases hseg : o.segments with
  | nil => exact absurd hseg hne
  | cons s ss =>
    have : allMaximumCandidates rf sq h d (s :: ss) 0 = .abort := by
      rw [allMaximumCandidates_cons]
      unfold segmentMaximumCandidates
      rw [Res.check_of_not (by push_cast; omega)]
      rfl
    rw [this]
    rfl

example (params : NlParams ℝ) : ∃ o : NlOpt 2 ℝ, LibSpec (exLib 2) ∧
    NlSession (exLib 2) exVertices2 1 True o ∧ (∃ s, s ∈ o.lin.segments) :=
  let ⟨o, h1, _⟩ := exNl params
  ⟨o, exLib_spec, h1, List.exists_mem_of_ne_nil _ (((nlSession_inv h1).2.1 trivial).good exLib_spec.inv).2.1⟩

/-! ### C73 hard limits -/

/-- **C73**, for questions asked about the point at which the objective function was evaluated last. NLopt
asks for the value of a hard limit at some point; the answer is the largest norm of the derivative on the
present trajectory, minus the limit, and the trajectory stays the same. What is missing is any other
point: the answer does not depend on it. -/
theorem C73_hard_limit_partial {lib : NlLib h ℝ} (hl : LibSpec lib) {vertices : List (Vertex ℝ)} {k : ℕ}
    {b : Prop} {o : NlOpt h ℝ} (hs : NlSession lib vertices k b o) (hb : b) {hd : NlHandle ℝ} {i : ℕ}
    {c : Limit ℝ} (hh : o.handle = some hd) (hc : hd.hard[i]? = some c)
    (h1 : c.derivative < (h : ℤ) + h - 1) :
    ∃ o', o'.lin = o.lin ∧ ∀ x, o.answer lib (NlOpt.objective lib o.params.method) (.constraint i x false) =
      .ok (peak o.lin.dimension o.lin.segments c.derivative.toNat - c.value, o') := by
  have hsane := nlReachable_limits (session_nlReachable hs)
  have h0 := (hsane.nonneg c (hsane.hard hd hh c (List.mem_of_getElem? hc))).1
  obtain ⟨o', e1, e2, -⟩ := evaluateConstraint_ok hl ((nlSession_inv hs).2.1 hb) c h0 h1
  refine ⟨o', e2, fun x => ?_⟩
  unfold NlOpt.answer
  dsimp only
  rw [Res.check_of rfl, Res.ok_bind, hh]
  dsimp only
  rw [Res.at'_eq_ok.mpr hc, Res.ok_bind, e1]

/-- An object with a hard limit on the velocity. -/
theorem exHard : ∃ (o : NlOpt 2 ℝ) (hd : NlHandle ℝ), NlSession (exLib 2) exVertices2 1 True o ∧
    o.handle = some hd ∧ hd.hard[0]? = some ⟨1, 3⟩ := by
  obtain ⟨o, h1, h2, h3, -⟩ := exNl ⟨1 / 10, 1, false, 1, .squaredTime⟩
  obtain ⟨-, -, hd, hh, -⟩ := nlSession_inv h1
  have e1 : o.addMaximumMagnitudeConstraint true 1 3 = .ok (true,
      { o with constraints := o.constraints ++ [⟨1, 3⟩],
               handle := some { hd with hard := hd.hard ++ [⟨1, 3⟩] } }) := by
    unfold NlOpt.addMaximumMagnitudeConstraint
    rw [Res.check_of (by norm_num), Res.ok_bind, Res.check_of (by norm_num), Res.ok_bind]
    dsimp only
    rw [h2, if_neg (by simp), hh]
    rfl
  have hsane := nlReachable_limits (session_nlReachable h1)
  have hnil : hd.hard = [] := by
    rw [List.eq_nil_iff_forall_not_mem]
    intro c hc
    have := hsane.hard hd hh c hc
    rw [h3] at this
    cases this
  refine ⟨_, _, .add h1 e1, rfl, ?_⟩
  dsimp only
  rw [hnil]
  rfl

example : ∃ (o : NlOpt 2 ℝ) (hd : NlHandle ℝ) (c : Limit ℝ), LibSpec (exLib 2) ∧
    NlSession (exLib 2) exVertices2 1 True o ∧ o.handle = some hd ∧ hd.hard[0]? = some c ∧
    c.derivative < ((2 : ℕ) : ℤ) + (2 : ℕ) - 1 :=
  let ⟨o, hd, h1, h2, h3⟩ := exHard
  ⟨o, hd, _, exLib_spec, h1, h2, h3, by norm_num⟩

/-- Libraries for computing with cubic polynomials in ℚ. -/
def lib2 : NlLib 2 ℚ where
  rf := fun c => match c with
    | b :: a :: _ => (true, [(-b / a, 0)])
    | _ => (true, [])
  sq := fun x => if x = 9 / 4 then 3 / 2 else if x = 9 / 16 then 3 / 4 else 0
  ex := id
  inv := fun D => !![D 1 1 / (D 0 0 * D 1 1 - D 0 1 * D 1 0), -D 0 1 / (D 0 0 * D 1 1 - D 0 1 * D 1 0);
    -D 1 0 / (D 0 0 * D 1 1 - D 0 1 * D 1 0), D 0 0 / (D 0 0 * D 1 1 - D 0 1 * D 1 0)]
  solve := solve1

/-- From rest at 0 to rest at 1. -/
def moveVertices : List (Vertex ℚ) := [⟨1, [(0, [0]), (1, [0])]⟩, ⟨1, [(0, [1]), (1, [0])]⟩]

theorem moveProblem : Problem 2 1 moveVertices [2] where
  count := rfl
  two := by simp [moveVertices]
  times_pos := by
    intro T hT
    simp only [List.mem_cons, List.not_mem_nil, or_false] at hT
    rw [hT]
    norm_num
  wf := by
    intro v hv
    simp only [moveVertices, List.mem_cons, List.not_mem_nil, or_false] at hv
    rcases hv with rfl | rfl <;> exact ⟨⟨by simp, by simp⟩, rfl⟩
  dim_pos := by norm_num
  small := by norm_num

/-- **C73**, refuted for other points: with a hard limit 1 on the velocity and a trajectory of duration 2,
whose largest velocity is 3/4, the limit is reported as met (-1/4) for the duration 1, although the
trajectory of duration 1 has the velocity 3/2; after the objective function was evaluated for the
duration 1, the answer is 1/2. -/
theorem C73_hard_limit_false : ∃ (o o1 o2 o3 : NlOpt 2 ℚ) (y : ℚ),
    NlSession lib2 moveVertices 1 True o ∧
    o.answer lib2 (NlOpt.objective lib2 o.params.method) (.constraint 0 [1] false) = .ok (-1 / 4, o1) ∧
    NlOpt.objective lib2 o.params.method o [1] false = .ok (y, o2) ∧
    o2.answer lib2 (NlOpt.objective lib2 o.params.method) (.constraint 0 [1] false) = .ok (1 / 2, o3) := by
  have key : (do
      let o ← (NlOpt.new 1 ⟨1 / 10, 1, false, 1, .squaredTime⟩ : NlOpt 2 ℚ).setupFromVertices lib2
        moveVertices [2] 1
      let o ← o.solveLinear lib2
      let a ← o.addMaximumMagnitudeConstraint true 1 1
      let r ← a.2.answer lib2 (NlOpt.objective lib2 a.2.params.method) (.constraint 0 [1] false)
      let q ← NlOpt.objective lib2 a.2.params.method a.2 [1] false
      let s ← q.2.answer lib2 (NlOpt.objective lib2 a.2.params.method) (.constraint 0 [1] false)
      pure (r.1, s.1)) = .ok (-1 / 4, 1 / 2) := by decide +kernel
  rw [Res.bind_eq_ok] at key
  obtain ⟨o0, h0, key⟩ := key
  rw [Res.bind_eq_ok] at key
  obtain ⟨o, h1, key⟩ := key
  rw [Res.bind_eq_ok] at key
  obtain ⟨⟨b, oa⟩, h2, key⟩ := key
  rw [Res.bind_eq_ok] at key
  obtain ⟨⟨y1, o1⟩, h3, key⟩ := key
  rw [Res.bind_eq_ok] at key
  obtain ⟨⟨y2, o2⟩, h4, key⟩ := key
  rw [Res.bind_eq_ok] at key
  obtain ⟨⟨y3, o3⟩, h5, key⟩ := key
  simp only [Res.pure_eq, Res.ok.injEq, Prod.mk.injEq] at key
  obtain ⟨rfl, rfl⟩ := key
  exact ⟨oa, o1, o2, o3, y2, .add (.solveLinear (.setup (k := 1) (.new 1 _) moveProblem h0) h1) h2, h3, h4, h5⟩

/-! ### C74 the limits -/

/-- **C74.** Through all calls, setups included, the optimiser keeps exactly the limits that were added,
in order; these count as soft limits and for the bounds on derivatives. NLopt enforces, if limits are
hard, exactly those accepted since the last setup. -/
theorem C74_limits_partial {lib : NlLib h ℝ} {all since : List (Limit ℝ)} {o : NlOpt h ℝ}
    (ho : NlLog lib all since o) :
    o.constraints = all ∧ ∀ hd, o.handle = some hd → hd.hard = if o.params.useSoft then [] else since := by
  induction ho with
  | new dim params => exact ⟨rfl, fun hd hh => by cases hh⟩
  | setup h1 h2 ih =>
    obtain ⟨l, -, -, a1, a2, -, a3⟩ := setup_nl_inv h2
    refine ⟨a2.trans ih.1, fun hd hh => ?_⟩
    rw [a3, Option.some.injEq] at hh
    rw [← hh]
    dsimp only
    split_ifs <;> rfl
  | solveLinear h1 h2 ih =>
    obtain ⟨l, -, rfl⟩ := solveLinear_nl_inv h2
    exact ih
  | @add all since o o' b acc d v h1 h2 ih =>
    obtain ⟨-, -, -, a1, -, a2, a3, a4⟩ := add_inv h2
    refine ⟨by rw [a2, ih.1], fun hd hh => ?_⟩
    rw [a1]
    cases hsoft : o.params.useSoft with
    | true =>
      rw [(a3 hsoft).1] at hh
      have := ih.2 hd hh
      rw [hsoft] at this
      exact this
    | false =>
      obtain ⟨hd0, b1, rfl, b2⟩ := a4 hsoft
      have := ih.2 hd0 b1
      rw [hsoft] at this
      rw [b2, Option.some.injEq] at hh
      cases b with
      | true =>
        rw [← hh, if_pos rfl]
        simp only [Bool.false_eq_true, if_false, if_true] at this ⊢
        rw [this]
      | false =>
        rw [← hh, if_neg (by simp)]
        simpa using this
  | optimize h1 h2 ih =>
    have := optimize_same h2
    rw [this.constraints, this.handle, this.params]
    exact ih
  | scale h1 h2 ih =>
    have := scale_same h2
    rw [this.constraints, this.handle, this.params]
    exact ih
  | total h1 h2 ih =>
    have := (getTotalCost_inv h2).2.1
    rw [this.constraints, this.handle, this.params]
    exact ih

/-- **C74.** A negative order or value is refused. -/
theorem C74_negative_refused (o : NlOpt h ℝ) (acc : Bool) (d : ℤ) (v : ℝ) (hneg : d < 0 ∨ v < 0) :
    o.addMaximumMagnitudeConstraint acc d v = .abort := by
  unfold NlOpt.addMaximumMagnitudeConstraint
  by_cases hd : 0 ≤ d
  · rw [Res.check_of hd, Res.ok_bind, Res.check_of_not (by
      rcases hneg with hneg | hneg
      · omega
      · exact not_le.mpr hneg)]
    rfl
  · rw [Res.check_of_not hd]
    rfl

/-- **C74**, refuted: a hard limit added before the (second) setup is not enforced by NLopt any more,
although it is still stored. -/
theorem C74_setup_false : ∃ (o : NlOpt 2 ℝ) (hd : NlHandle ℝ), NlLog (exLib 2) [⟨1, 3⟩] [] o ∧
    o.params.useSoft = false ∧ o.constraints = [⟨1, 3⟩] ∧ o.handle = some hd ∧ hd.hard = [] := by
  obtain ⟨o, h1, h2, h3, h4, h5, h6, -⟩ := nl_new (lib := exLib 2) exProblem2 (k := 1) (by norm_num)
    ⟨1 / 10, 1, false, 1, .squaredTime⟩
  obtain ⟨-, -, hd, hh, -⟩ := nlSession_inv h2
  have e1 : o.addMaximumMagnitudeConstraint true 1 3 = .ok (true,
      { o with constraints := o.constraints ++ [⟨1, 3⟩],
               handle := some { hd with hard := hd.hard ++ [⟨1, 3⟩] } }) := by
    unfold NlOpt.addMaximumMagnitudeConstraint
    rw [Res.check_of (by norm_num), Res.ok_bind, Res.check_of (by norm_num), Res.ok_bind]
    dsimp only
    rw [h3, if_neg (by simp), hh]
    rfl
  have hlog : NlLog (exLib 2) [⟨1, 3⟩] [⟨1, 3⟩] _ := .add (.setup (.new 1 _) h1) e1
  have hreach : NlReachable (exLib 2) _ := .add (session_nlReachable h2) e1
  have hdim := nlReachable_lin hreach
  obtain ⟨l, b1, -⟩ := setup_ok (exLib 2).inv o.lin (optReachable_sane (nlReachable_lin (session_nlReachable h2)))
    exVertices2 [1, 2] 1 (by norm_num) (by rw [h5]; exact exProblem2)
  obtain ⟨o2, b2⟩ : ∃ o2, NlOpt.setupFromVertices (exLib 2) { o with
      constraints := o.constraints ++ [⟨1, 3⟩],
      handle := some { hd with hard := hd.hard ++ [⟨1, 3⟩] } } exVertices2 [1, 2] 1 = .ok o2 := by
    unfold NlOpt.setupFromVertices
    dsimp only
    rw [show ((1 : ℤ)) = ((1 : ℕ) : ℤ) from rfl, b1, Res.ok_bind]
    exact ⟨_, rfl⟩
  have hlog2 := NlLog.setup hlog b2
  obtain ⟨l', -, -, c1, c2, -, c3⟩ := setup_nl_inv b2
  refine ⟨o2, _, hlog2, by rw [c1, h3], (C74_limits_partial hlog2).1, c3, rfl⟩

/-- **C74**, refuted: a hard limit added before any setup dereferences a null pointer. -/
theorem C74_before_setup_false : ∃ o : NlOpt 2 ℝ, NlLog (exLib 2) [] [] o ∧
    ∀ acc d v, 0 ≤ d → 0 ≤ v → o.addMaximumMagnitudeConstraint acc d v = .ub := by
  refine ⟨_, .new 1 ⟨1 / 10, 1, false, 1, .squaredTime⟩, fun acc d v hd hv => ?_⟩
  unfold NlOpt.addMaximumMagnitudeConstraint
  rw [Res.check_of hd, Res.ok_bind, Res.check_of hv, Res.ok_bind]
  rfl

example : ∃ (all since : List (Limit ℝ)) (o : NlOpt 2 ℝ), NlLog (exLib 2) all since o ∧ all ≠ [] :=
  let ⟨o, _, h, _⟩ := C74_setup_false
  ⟨_, _, o, h, by simp⟩

/-! ### C75 the gradient of the Mellinger method -/

theorem perturbedTimes_eq (times : List ℝ) (i : ℕ) : perturbedTimes times i = perturbed times i := by
  unfold perturbedTimes perturbed
  refine List.ext_getElem (by simp) fun j h1 h2 => ?_
  have hj : j < times.length := by simpa using h2
  simp only [List.getElem_map, List.getElem_zipIdx, List.getElem_range, Nat.zero_add]
  rw [List.getD_eq_getElem?_getD, List.getElem?_eq_getElem hj, Option.getD_some]
  generalize (if j = i then times[j] + 1 / 10 else times[j] - 1 / 10 / ((times.length : ℝ) - 1)) = t
  split_ifs with hlt
  · exact (max_eq_right hlt.le).symm
  · exact (max_eq_left (not_lt.mp hlt)).symm

/-- **C75.** An evaluation of the objective function of the Mellinger method at the times `x` leaves the
trajectory of smallest cost for these times and returns its cost. The `i`-th entry of the gradient is the
difference quotient with the smallest cost possible when segment `i` takes 0.1 s longer and the others
less; with a single segment the gradient is 0. -/
theorem C75_gradient {lib : NlLib h ℝ} (hl : LibSpec lib) {vertices : List (Vertex ℝ)} {k : ℕ} {b : Prop}
    {o o' : NlOpt h ℝ} (hs : NlSession lib vertices k b o) {x gr : List ℝ} {g : Bool} {y : ℝ}
    (hx : ∀ T ∈ x, 1 / 2 ^ 52 ≤ T) (ho : o.objectiveMellinger lib x g = .ok (y, gr, o')) :
    o'.lin.segmentTimes = x ∧ Optimal h k o.lin.dimension vertices x o'.lin.segments ∧
    y = cost k o'.lin.segments ∧ gr.length + 1 = vertices.length ∧
    (vertices.length = 2 → gr = [0]) ∧
    (vertices.length ≠ 2 → ∀ i, i + 1 < vertices.length → ∃ J, gr[i]? = some ((J - y) / (1 / 10)) ∧
      IsMinCost h k o.lin.dimension vertices (perturbed x i) J) := by
  have hls := (nlSession_inv hs).1
  have hobj : NlOpt.objective lib .mellingerOuterLoop o x g = .ok (y, o') := by
    unfold NlOpt.objective
    dsimp only
    rw [ho, Res.ok_bind]
    rfl
  have hev := objectiveMellinger_inv hls hx ho
  obtain ⟨l1, l2, a1, a2, a3, a4⟩ := objective_route hls (.inr (.inr rfl)) hx hobj
  refine ⟨hev.times, by rw [a4]; exact optimal_of_route hl a1 a2 a3, ?_⟩
  unfold NlOpt.objectiveMellinger at ho
  rw [Res.bind_eq_ok] at ho
  obtain ⟨_, -, ho⟩ := ho
  rw [Res.bind_eq_ok] at ho
  obtain ⟨_, -, ho⟩ := ho
  rw [Res.bind_eq_ok] at ho
  obtain ⟨m1, c1, ho⟩ := ho
  rw [Res.bind_eq_ok] at ho
  obtain ⟨m2, c2, ho⟩ := ho
  rw [Res.bind_eq_ok] at ho
  obtain ⟨r, c3, ho⟩ := ho
  rw [Res.pure_eq, Res.ok.injEq, Prod.mk.injEq, Prod.mk.injEq] at ho
  obtain ⟨rfl, rfl, rfl⟩ := ho
  obtain ⟨s1, t1, d1, -⟩ := lin_update hls hx c1
  obtain ⟨s2, t2, d2⟩ := lin_solve s1 c2
  obtain ⟨g', l', e1, e2, e3, e4⟩ := costAndGradient_ok hl s2
  rw [e1, Res.ok.injEq] at c3
  subst c3
  have hseg : l'.segments = m2.segments := lin_resolve_segments
    ⟨m1, by rw [t2]; exact s1, d2.symm, c2⟩ s2 e1
  have hn : m2.nSegments = vertices.length - 1 := nSegments_eq s2.session
  have h2le := (session_ready hls).2.1.two
  dsimp only
  refine ⟨by rw [hseg], ?_, fun h2 => e3 (by omega), fun h2 i hi => ?_⟩
  · by_cases h1 : m2.nSegments = 1
    · rw [e3 h1]
      simp
      omega
    · rw [(e4 h1).1]
      omega
  · obtain ⟨-, f2⟩ := e4 (by omega)
    obtain ⟨Ji, j1, j2⟩ := f2 i (by omega)
    have hxlen : x.length = vertices.length - 1 := by
      have := (session_ready s1).2.1.count
      rw [t1] at this
      omega
    obtain ⟨n1, n2, -, q2, -, -, -, -, -, p1, p2⟩ := lin_move_cost hl (times := perturbedTimes m2.segmentTimes i)
      s2.session s2.able (fun T hT => tenth_ge.trans (perturbedTimes_ge _ _ T hT)) (by
        rw [t2, t1]
        unfold perturbedTimes
        simpa using hxlen)
    have hd2 : n1.dimension = o.lin.dimension := p2.trans (d2.trans d1)
    have hJ := j2 n1 n2 p1 p2 q2
    rw [t2, t1, perturbedTimes_eq] at p1
    refine ⟨Ji, j1, n2.segments, optimal_of_route hl p1 hd2 q2, hJ⟩

/-- **C75.** The change of the times leaves the total time as it is, unless a time had to be kept at 0.1 s. -/
theorem C75_direction (x : List ℝ) (i : ℕ) (hi : i < x.length) (h2 : 2 ≤ x.length)
    (hx : ∀ T ∈ x, 1 / 5 ≤ T) : (perturbed x i).sum = x.sum := by
  have hn : (1 : ℝ) ≤ (x.length : ℝ) - 1 := by
    have : (2 : ℝ) ≤ (x.length : ℝ) := by exact_mod_cast h2
    linarith
  have hq : (1 : ℝ) / 10 / ((x.length : ℝ) - 1) ≤ 1 / 10 := div_le_self (by norm_num) hn
  have hval : ∀ j ∈ List.range x.length, max (1 / 10) (if j = i then x.getD j 0 + 1 / 10
      else x.getD j 0 - 1 / 10 / ((x.length : ℝ) - 1)) =
      x.getD j 0 + ((if j = i then 1 / 10 + 1 / 10 / ((x.length : ℝ) - 1) else 0) -
        1 / 10 / ((x.length : ℝ) - 1)) := by
    intro j hj
    have hj' : j < x.length := List.mem_range.mp hj
    have hxj : 1 / 5 ≤ x.getD j 0 := by
      rw [List.getD_eq_getElem?_getD, List.getElem?_eq_getElem hj', Option.getD_some]
      exact hx _ (List.getElem_mem hj')
    split_ifs with h1
    · rw [max_eq_right (by linarith)]
      ring
    · rw [max_eq_right (by linarith)]
      ring
  have hsum : ∀ f : ℕ → ℝ, ((List.range x.length).map f).sum = ∑ j ∈ Finset.range x.length, f j := by
    intro f
    rw [← List.sum_toFinset _ List.nodup_range, List.toFinset_range]
  have hxs : x.sum = ∑ j ∈ Finset.range x.length, x.getD j 0 := by
    rw [← hsum]
    congr 1
    refine List.ext_getElem (by simp) fun j h3 h4 => ?_
    simp [h3]
  unfold perturbed
  rw [List.map_congr_left hval, hsum, Finset.sum_add_distrib, Finset.sum_sub_distrib, Finset.sum_const,
    Finset.card_range, Finset.sum_ite_eq' , if_pos (Finset.mem_range.mpr hi), hxs, nsmul_eq_mul]
  have : (x.length : ℝ) - 1 ≠ 0 := by linarith
  field_simp
  ring

example : ∃ (o o' : NlOpt 2 ℝ) (y : ℝ) (gr : List ℝ), LibSpec (exLib 2) ∧
    NlSession (exLib 2) exVertices2 1 True o ∧ (∀ T ∈ ([1, 2] : List ℝ), 1 / 2 ^ 52 ≤ T) ∧
    o.objectiveMellinger (exLib 2) [1, 2] true = .ok (y, gr, o') := by
  obtain ⟨o, h1, h2, h3, h4, h5, h6⟩ := exNl ⟨1 / 10, 1, true, 1, .mellingerOuterLoop⟩
  have hx : ∀ T ∈ ([1, 2] : List ℝ), 1 / 2 ^ 52 ≤ T := by
    intro T hT
    simp only [List.mem_cons, List.not_mem_nil, or_false] at hT
    rcases hT with rfl | rfl <;> norm_num
  obtain ⟨y, o', h7⟩ := C69_returns exLib_spec h1 h6 (by rw [h2]; simp) (x := [1, 2])
    (by rw [h2]; exact hx) (by rw [h3]; intro _ c hc; cases hc) (by rw [h2]; simp [exVertices2, withDerivatives])
  rw [h2] at h7
  unfold NlOpt.objective at h7
  dsimp only at h7
  rw [Res.bind_eq_ok] at h7
  obtain ⟨⟨y', gr, o2⟩, h8, -⟩ := h7
  exact ⟨o, o2, y', gr, exLib_spec, h1, hx, by simpa using h8⟩

/-! ### C76 the total cost -/

/-- **C76.** `getTotalCostWithSoftConstraints()` is the cost of the present trajectory, plus the penalty on
the squared total time, plus a penalty of at most 10^9 for each limit. -/
theorem C76_value {lib : NlLib h ℝ} (hl : LibSpec lib) {vertices : List (Vertex ℝ)} {k : ℕ} {b : Prop}
    {o : NlOpt h ℝ} (hs : NlSession lib vertices k b o) (hb : b) (hlim : LimitsOk h o.constraints) :
    ∃ o', o.getTotalCost lib = .ok (cost k o.lin.segments +
      o.params.timePenalty * o.lin.segmentTimes.sum ^ 2 +
      (o.constraints.map (penalty o.params.softWeight (10 ^ 9) o.lin.dimension o.lin.segments)).sum, o') := by
  have hso := (nlSession_inv hs).2.1 hb
  obtain ⟨o', h1⟩ := softCost_ok hl o.params.softWeight (10 ^ 9) o.constraints hlim 0 hso
  refine ⟨o', ?_⟩
  unfold NlOpt.getTotalCost
  rw [hso.cost hl.inv, Res.ok_bind]
  dsimp only
  rw [h1, Res.ok_bind, Res.pure_eq, Res.ok.injEq, Prod.mk.injEq]
  refine ⟨?_, rfl⟩
  have := totalTrajectoryTime_eq o.lin.segmentTimes
  unfold totalTrajectoryTime at this
  rw [this]
  ring

/-- **C76**, for the methods with the squared time and soft limits, as long as no penalty reaches 10^9:
the total cost is the value of the objective function for the present trajectory. What is missing are
the other methods and hard limits, for which it is a different number, see below. -/
theorem C76_objective_partial {lib : NlLib h ℝ} (hl : LibSpec lib) {vertices : List (Vertex ℝ)} {k : ℕ}
    {b : Prop} {o : NlOpt h ℝ} (hs : NlSession lib vertices k b o) (hb : b)
    (hlim : LimitsOk h o.constraints) (hsoft : o.params.useSoft = true)
    (hm : o.params.method = .squaredTime ∨ o.params.method = .squaredTimeAndConstraints)
    (hcap : ∀ c ∈ o.constraints, penalty o.params.softWeight (10 ^ 9) o.lin.dimension o.lin.segments c < 10 ^ 9) :
    ∃ o', o.getTotalCost lib = .ok (methodValue k o.lin.dimension o.params o.constraints
      o.lin.segmentTimes o.lin.segments, o') := by
  obtain ⟨o', h1⟩ := C76_value hl hs hb hlim
  refine ⟨o', ?_⟩
  rw [h1]
  unfold methodValue objectiveValue
  rw [if_neg (by rcases hm with hm | hm <;> rw [hm] <;> simp),
    if_neg (by rcases hm with hm | hm <;> rw [hm] <;> simp), if_pos hsoft]
  have : o.constraints.map (penalty o.params.softWeight (10 ^ 9) o.lin.dimension o.lin.segments) =
      o.constraints.map (penalty o.params.softWeight (10 ^ 12) o.lin.dimension o.lin.segments) := by
    refine List.map_congr_left fun c hc => ?_
    have h3 := hcap c hc
    unfold penalty at h3 ⊢
    rw [min_lt_iff] at h3
    rcases h3 with h3 | h3
    · exact absurd h3 (lt_irrefl _)
    · rw [min_eq_right h3.le, min_eq_right (h3.le.trans (by norm_num))]
  rw [this]

/-- **C76**, refuted: for the method with the linear time the total cost is not the value of the objective
function. -/
theorem C76_objective_false : ∃ (o o' : NlOpt 2 ℝ) (y : ℝ), NlSession (exLib 2) exVertices2 1 True o ∧
    o.params.useSoft = true ∧ o.params.method = .richterTime ∧ o.constraints = [] ∧
    o.getTotalCost (exLib 2) = .ok (y, o') ∧
    y ≠ methodValue 1 o.lin.dimension o.params o.constraints o.lin.segmentTimes o.lin.segments := by
  obtain ⟨o, h1, h2, h3, h4, h5, -⟩ := exNl ⟨1 / 10, 1, true, 1, .richterTime⟩
  obtain ⟨o', h6⟩ := C76_value exLib_spec h1 trivial (by rw [h3]; intro c hc; cases hc)
  refine ⟨o, o', _, h1, by rw [h2], by rw [h2], h3, h6, ?_⟩
  unfold methodValue objectiveValue
  rw [h2, h3, h5, if_neg (by simp)]
  norm_num

example : ∃ o : NlOpt 2 ℝ, LibSpec (exLib 2) ∧ NlSession (exLib 2) exVertices2 1 True o ∧
    LimitsOk 2 o.constraints ∧ o.params.useSoft = true ∧ o.params.method = .squaredTime :=
  let ⟨o, _, _, _, _, h1, h2, h3, _⟩ := exOptimize ⟨1 / 10, 1, true, 1, .squaredTime⟩ rfl (by simp)
  ⟨o, exLib_spec, h1, h3, by rw [h2], by rw [h2]⟩

end
end Verif
