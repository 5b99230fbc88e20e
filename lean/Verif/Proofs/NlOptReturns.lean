import Verif.Proofs.NlOptOk

/- Helper lemmas: over the reals, the objective functions, constraints and whole optimisations return. -/
namespace Verif

open Spec Set

set_option linter.unusedSectionVars false

variable {h : ℕ}

theorem session_good {lib : NlLib h ℝ} {vertices : List (Vertex ℝ)} {k : ℕ} {l : LinOpt h ℝ}
    (hs : LinSession lib vertices k l) :
    GoodSegs h l.dimension l.segments ∧ l.segments ≠ [] ∧ l.nSegments = l.segments.length := by
  obtain ⟨-, hp, r⟩ := session_ready hs
  have hv := optReachable_valid (session_reachable hs)
  have hlen : l.segments.length = l.nSegments := by rw [r.segLen, r.nSeg]
  refine ⟨⟨fun s hm => ⟨fun p hpm => ?_, ?_⟩, fun s hm => (r.segDims s hm).2,
    fun s hm => (r.segDims s hm).1, hv.durations, hp.dim_pos, hp.small⟩, ?_, hlen.symm⟩
  · rw [(r.segDims s hm).2]
    exact hv.polys s hm p hpm
  · rw [(r.segDims s hm).2]
    exact hp.small
  · intro h0
    have h2 := hp.two
    rw [h0, nSegments_eq hs] at hlen
    simp at hlen
    omega

/-- A limit on a derivative that can be evaluated. -/
def LimitOk (h : ℕ) (c : Limit ℝ) : Prop := 0 ≤ c.derivative ∧ c.derivative < (h : ℤ) + h - 1

theorem evaluateConstraint_returns {lib : NlLib h ℝ} (hl : LibSpec lib) {vertices : List (Vertex ℝ)}
    {k : ℕ} {o : NlOpt h ℝ} (hs : LinSession lib vertices k o.lin) {c : Limit ℝ} (hc : LimitOk h c) :
    ∃ o', o.evaluateConstraint lib c =
        .ok (peak o.lin.dimension o.lin.segments c.derivative.toNat - c.value, o') := by
  obtain ⟨hg, hne, hn⟩ := session_good hs
  obtain ⟨h0, h1⟩ := hc
  obtain ⟨m, a1, a2, -⟩ := maximumOfMagnitude_peak lib.rf hl.rf
    (d := c.derivative.toNat) (by omega) o.lin hg hne hn
  refine ⟨{ o with info := { o.info with maxima := mapInsert c.derivative m.1 o.info.maxima } }, ?_⟩
  unfold NlOpt.evaluateConstraint
  rw [hl.sq, show c.derivative = ((c.derivative.toNat : ℕ) : ℤ) by omega, a1, Res.ok_bind, Res.pure_eq,
    a2]
  rfl

/-! #### The objective functions -/

theorem perturbedTimes_length (times : List ℝ) (n : ℕ) : (perturbedTimes times n).length = times.length := by
  simp [perturbedTimes]

/-- `J` is the cost of the trajectory `solveLinear` computes for the given times. -/
def CostAt (lib : NlLib h ℝ) (vertices : List (Vertex ℝ)) (k dim : ℕ) (times : List ℝ) (J : ℝ) : Prop :=
  ∀ l r : LinOpt h ℝ, Session lib.inv lib.solve vertices k times l → l.dimension = dim →
    l.solveLinear lib.solve = .ok r → J = cost k r.segments

theorem lin_move_cost {lib : NlLib h ℝ} (hl : LibSpec lib) {vertices : List (Vertex ℝ)} {k : ℕ}
    {l : LinOpt h ℝ} {times : List ℝ} (hs : LinSession lib vertices k l) (ha : Able l)
    (ht : ∀ T ∈ times, 1 / 2 ^ 52 ≤ T) (hlen : times.length = vertices.length - 1) :
    ∃ l1 l2, l.updateSegmentTimes lib.inv times = .ok l1 ∧ l1.solveLinear lib.solve = .ok l2 ∧
      LinSolved lib vertices k l2 ∧ l2.segmentTimes = times ∧ l2.dimension = l.dimension ∧
      l2.computeCost = .ok (cost k l2.segments) ∧
      CostAt lib vertices k l.dimension times (cost k l2.segments) ∧
      Session lib.inv lib.solve vertices k times l1 ∧ l1.dimension = l.dimension := by
  obtain ⟨l1, a1, a2, a3, a4, -, -, a5⟩ := lin_update_ok hs ht hlen
  obtain ⟨l2, b1⟩ := lin_solve_ok a2 (a5 ha)
  obtain ⟨c1, c2, c3⟩ := lin_solve a2 b1
  have s1 : Session lib.inv lib.solve vertices k times l1 := by
    have : Session lib.inv lib.solve vertices k l1.segmentTimes l1 := a2
    rw [a3] at this
    exact this
  refine ⟨l1, l2, a1, b1, c1, c2.trans a3, c3.trans a4, c1.cost hl.inv, ?_, s1, a4⟩
  intro l' r hs' hd hr
  rw [C52_route_independent s1 hs' (by rw [a4, hd]) b1 hr]

theorem gradientLoop_ok {lib : NlLib h ℝ} (hl : LibSpec lib) {vertices : List (Vertex ℝ)} {k : ℕ}
    {times : List ℝ} (hlen : times.length = vertices.length - 1) (J : ℝ) (m n : ℕ) {l : LinOpt h ℝ}
    (hs : LinSession lib vertices k l) (ha : Able l) :
    ∃ g l', gradientLoop lib times J m n l = .ok (g, l') ∧ LinSession lib vertices k l' ∧ Able l' ∧
      l'.dimension = l.dimension ∧ g.length = m ∧
      ∀ i < m, ∃ Ji, g[i]? = some ((Ji - J) / (1 / 10)) ∧
        CostAt lib vertices k l.dimension (perturbedTimes times (n + i)) Ji := by
  induction m generalizing n l with
  | zero => exact ⟨[], l, rfl, hs, ha, rfl, rfl, fun i hi => absurd hi (Nat.not_lt_zero i)⟩
  | succ m ih =>
    obtain ⟨l1, l2, a1, a2, a3, a4, a5, a6, a7, -⟩ := lin_move_cost hl hs ha
      (fun T hT => tenth_ge.trans (perturbedTimes_ge times n T hT))
      (by rw [perturbedTimes_length, hlen])
    obtain ⟨g, l', b1, b2, b3, b4, b5, b6⟩ := ih (n + 1) a3.session a3.able
    refine ⟨(cost k l2.segments - J) / (1 / 10) :: g, l', ?_, b2, b3, by rw [b4, a5], by simp [b5], ?_⟩
    · rw [gradientLoop_succ, a1, Res.ok_bind, a2, Res.ok_bind, a6, Res.ok_bind, b1, Res.ok_bind]
      rfl
    · intro i hi
      cases i with
      | zero => exact ⟨_, rfl, a7⟩
      | succ i =>
        obtain ⟨Ji, c1, c2⟩ := b6 i (by omega)
        refine ⟨Ji, c1, ?_⟩
        rw [a5, show n + 1 + i = n + (i + 1) by omega] at c2
        exact c2

theorem costAndGradient_ok {lib : NlLib h ℝ} (hl : LibSpec lib) {vertices : List (Vertex ℝ)} {k : ℕ}
    {l : LinOpt h ℝ} (hs : LinSolved lib vertices k l) :
    ∃ g l', costAndGradient lib l = .ok (cost k l.segments, g, l') ∧ LinSolved lib vertices k l' ∧
      (l.nSegments = 1 → g = [0]) ∧
      (l.nSegments ≠ 1 → g.length = l.nSegments ∧ ∀ i < l.nSegments, ∃ Ji,
        g[i]? = some ((Ji - cost k l.segments) / (1 / 10)) ∧
        CostAt lib vertices k l.dimension (perturbedTimes l.segmentTimes i) Ji) := by
  unfold costAndGradient
  dsimp only
  rw [hs.cost hl.inv, Res.ok_bind]
  have hp := (session_ready hs.session).2.1
  have hlen : l.segmentTimes.length = vertices.length - 1 := by
    rw [← (session_ready hs.session).2.2.nSeg, nSegments_eq hs.session]
  by_cases hn : l.nSegments = 1
  · rw [if_pos hn]
    exact ⟨[0], l, rfl, hs, fun _ => rfl, fun h0 => absurd hn h0⟩
  · rw [if_neg hn]
    obtain ⟨g, l1, a1, a2, a3, a4, a5, a6⟩ := gradientLoop_ok hl hlen (cost k l.segments) l.nSegments 0
      hs.session hs.able
    obtain ⟨l2, l3, b1, b2, b3, b4, b5⟩ := lin_move_ok a2 a3 (times := l.segmentTimes)
      hp.times_pos hlen
    refine ⟨g, l3, ?_, b3, fun h0 => absurd h0 hn, fun _ => ⟨a5, fun i hi => ?_⟩⟩
    · rw [a1, Res.ok_bind, b1, Res.ok_bind, b2, Res.ok_bind]
      rfl
    · simpa using a6 i hi

/-- The trajectory `solveLinear` gives at the present times is the present one. -/
theorem lin_resolve_segments {lib : NlLib h ℝ} {vertices : List (Vertex ℝ)} {k : ℕ}
    {l l' : LinOpt h ℝ} {g : List ℝ} {J : ℝ} (hs : ∃ l0, Session lib.inv lib.solve vertices k l.segmentTimes l0 ∧
      l0.dimension = l.dimension ∧ l0.solveLinear lib.solve = .ok l)
    (hso : LinSolved lib vertices k l)
    (ho : costAndGradient lib l = .ok (J, g, l')) : l'.segments = l.segments := by
  obtain ⟨l0, hs0, hd0, h0⟩ := hs
  unfold costAndGradient at ho
  dsimp only at ho
  rw [Res.bind_eq_ok] at ho
  obtain ⟨J0, h1, ho⟩ := ho
  by_cases hn : l.nSegments = 1
  · rw [if_pos hn, Res.pure_eq, Res.ok.injEq, Prod.mk.injEq, Prod.mk.injEq] at ho
    rw [ho.2.2]
  · rw [if_neg hn, Res.bind_eq_ok] at ho
    obtain ⟨⟨g1, l1⟩, h2, ho⟩ := ho
    rw [Res.bind_eq_ok] at ho
    obtain ⟨l2, h3, ho⟩ := ho
    rw [Res.bind_eq_ok] at ho
    obtain ⟨l3, h4, ho⟩ := ho
    rw [Res.pure_eq, Res.ok.injEq, Prod.mk.injEq, Prod.mk.injEq] at ho
    obtain ⟨-, -, rfl⟩ := ho
    obtain ⟨s1, d1, -⟩ := gradientLoop_session hso.session h2
    have hp := (session_ready hso.session).2.1
    obtain ⟨s2, t2, d2, -⟩ := lin_update s1 hp.times_pos h3
    have s2' : Session lib.inv lib.solve vertices k l.segmentTimes l2 := by
      have : Session lib.inv lib.solve vertices k l2.segmentTimes l2 := s2
      rw [t2] at this
      exact this
    exact (C52_route_independent hs0 s2' (by rw [hd0, d2, d1]) h0 h4).symm

/-- The length of the vector a method works with. -/
def varCount (method : TimeAlloc) (nSeg nFree dim : ℕ) : ℕ :=
  match method with
  | .squaredTime | .richterTime | .mellingerOuterLoop => nSeg
  | _ => nSeg + nFree * dim

theorem objective_ok {lib : NlLib h ℝ} (hl : LibSpec lib) {vertices : List (Vertex ℝ)} {k : ℕ}
    {o : NlOpt h ℝ} (hs : LinSession lib vertices k o.lin) (ha : Able o.lin) {x : List ℝ}
    (hx : ∀ T ∈ timesOf o.params.method (vertices.length - 1) x, 1 / 2 ^ 52 ≤ T)
    (hlen : x.length = varCount o.params.method (vertices.length - 1) o.lin.nFree o.lin.dimension)
    {g : Bool} (hg : g = decide (o.params.method = .mellingerOuterLoop))
    (hu : o.params.method ≠ .unknown)
    (hlim : o.params.useSoft = true → o.params.method ≠ .mellingerOuterLoop → LimitsOk h o.constraints) :
    ∃ o', NlOpt.objective lib o.params.method o x g =
      .ok (methodValue k o.lin.dimension o.params o.constraints
        (timesOf o.params.method (vertices.length - 1) x) o'.lin.segments, o') := by
  have hn := nSegments_eq hs
  have time : (o.params.method = .squaredTime ∨ o.params.method = .richterTime) → g = false →
      x.length = vertices.length - 1 → (∀ T ∈ x, 1 / 2 ^ 52 ≤ T) →
      ∃ o', o.objectiveTime lib x g = .ok (methodValue k o.lin.dimension o.params o.constraints
        x o'.lin.segments, o') := by
    intro hm hg hlen hx
    have hne : o.params.method ≠ .mellingerOuterLoop := by
      rcases hm with hm | hm <;> rw [hm] <;> decide
    obtain ⟨l1, l2, a1, a2, a3, a4, a5⟩ := lin_move_ok hs ha hx hlen
    obtain ⟨o', b1⟩ := totalCost_ok hl (o := { o with lin := l2 }) a3 x
      (o.params.method = .richterTime ∨ o.params.method = .richterTimeAndConstraints)
      (fun hu => hlim hu hne)
    have b2 := (totalCost_inv b1).1
    refine ⟨o', ?_⟩
    unfold NlOpt.objectiveTime
    rw [Res.check_of hg, Res.ok_bind, Res.check_of (by rw [hn, hlen]), Res.ok_bind, a1, Res.ok_bind, a2,
      Res.ok_bind]
    have : (decide (o.params.method = .richterTime)) = decide (o.params.method = .richterTime ∨
        o.params.method = .richterTimeAndConstraints) := by
      rcases hm with hm | hm <;> rw [hm] <;> decide
    rw [this, b1, b2]
    unfold methodValue
    rw [if_neg hne]
    dsimp only
    rw [a5]
  have full : isFull o.params.method → g = false →
      x.length = vertices.length - 1 + o.lin.nFree * o.lin.dimension →
      (∀ T ∈ x.take (vertices.length - 1), 1 / 2 ^ 52 ≤ T) →
      ∃ o', o.objectiveFull lib x g = .ok (methodValue k o.lin.dimension o.params o.constraints
        (x.take (vertices.length - 1)) o'.lin.segments, o') := by
    intro hm hg hlen hx
    have hne : o.params.method ≠ .mellingerOuterLoop := by
      rcases hm with hm | hm <;> rw [hm] <;> decide
    obtain ⟨l1, a1, a2, a3, a4, a5, -⟩ := lin_update_ok hs hx (by rw [List.length_take]; omega)
    obtain ⟨l2, b1⟩ := lin_setFree_ok a2 (free := (List.range o.lin.dimension).map fun d =>
      (x.drop (vertices.length - 1 + d * o.lin.nFree)).take o.lin.nFree) (by simp [a4]) (by
        intro v hv
        obtain ⟨d, hd, rfl⟩ := List.mem_map.mp hv
        have hd := List.mem_range.mp hd
        rw [List.length_take, List.length_drop, hlen, a5]
        have : d * o.lin.nFree + o.lin.nFree ≤ o.lin.nFree * o.lin.dimension := by
          calc d * o.lin.nFree + o.lin.nFree = (d + 1) * o.lin.nFree := by ring
            _ ≤ o.lin.dimension * o.lin.nFree := Nat.mul_le_mul_right _ hd
            _ = _ := Nat.mul_comm _ _
        omega)
    obtain ⟨c1, -, c3, -⟩ := lin_setFree a2 b1
    obtain ⟨o', d1⟩ := totalCost_ok hl (o := { o with lin := l2 }) c1 (x.take (vertices.length - 1))
      (o.params.method = .richterTime ∨ o.params.method = .richterTimeAndConstraints)
      (fun hu => hlim hu hne)
    have d2 := (totalCost_inv d1).1
    refine ⟨o', ?_⟩
    unfold NlOpt.objectiveFull
    dsimp only
    rw [Res.check_of hg, Res.ok_bind, Res.check_of (by rw [hn, hlen]), Res.ok_bind, hn, a1, Res.ok_bind,
      b1, Res.ok_bind]
    have : (decide (o.params.method = .richterTimeAndConstraints)) = decide (o.params.method = .richterTime ∨
        o.params.method = .richterTimeAndConstraints) := by
      rcases hm with hm | hm <;> rw [hm] <;> decide
    rw [this, d1, d2]
    unfold methodValue
    rw [if_neg hne]
    dsimp only
    rw [c3, a4]
  unfold NlOpt.objective
  cases hm : o.params.method with
  | squaredTime => rw [hm] at hlen hx hg; exact time (.inl hm) hg hlen hx
  | richterTime => rw [hm] at hlen hx hg; exact time (.inr hm) hg hlen hx
  | squaredTimeAndConstraints => rw [hm] at hlen hx hg; exact full (.inl hm) hg hlen hx
  | richterTimeAndConstraints => rw [hm] at hlen hx hg; exact full (.inr hm) hg hlen hx
  | unknown => exact absurd hm hu
  | mellingerOuterLoop =>
    rw [hm] at hlen hx hg
    change ∀ T ∈ x, 1 / 2 ^ 52 ≤ T at hx
    obtain ⟨l1, l2, a1, a2, a3, a4, a5, -, -, s1, d1⟩ := lin_move_cost hl hs ha hx hlen
    obtain ⟨gr, l3, b1, b2, -⟩ := costAndGradient_ok hl a3
    have hseg : l3.segments = l2.segments :=
      lin_resolve_segments ⟨l1, by rw [a4]; exact s1, by rw [d1, a5], a2⟩ a3 b1
    refine ⟨{ o with lin := l3
                     info := { o.info with nIterations := o.info.nIterations + 1
                                           costTrajectory := cost k l2.segments } }, ?_⟩
    dsimp only
    unfold NlOpt.objectiveMellinger
    rw [Res.check_of (by simpa using hg), Res.ok_bind, Res.check_of (by rw [hn]; exact hlen), Res.ok_bind,
      a1, Res.ok_bind, a2, Res.ok_bind, b1, Res.ok_bind, Res.pure_eq, Res.ok_bind, Res.pure_eq]
    unfold methodValue
    rw [if_pos hm, hseg]

/-! #### Whole runs -/

theorem varCount_eq {method : TimeAlloc} {nSeg nFree dim nFree' dim' : ℕ} (h1 : nFree' = nFree)
    (h2 : dim' = dim) : varCount method nSeg nFree' dim' = varCount method nSeg nFree dim := by
  rw [h1, h2]

theorem session_nFree {lib : NlLib h ℝ} {vertices : List (Vertex ℝ)} {k : ℕ} {l l' : LinOpt h ℝ}
    (h1 : LinSession lib vertices k l) (h2 : LinSession lib vertices k l')
    (hd : l'.dimension = l.dimension) : l'.nFree = l.nFree := by
  rw [(session_ready h1).2.2.nFree, (session_ready h2).2.2.nFree, hd]

/-- Callbacks a run can make: the objective at points of the right length with times that are not too
small, constraints that exist. -/
def GoodQuery (method : TimeAlloc) (nSeg n : ℕ) (hard : List (Limit ℝ)) : NlQuery ℝ → Prop
  | .objective x g => x.length = n ∧ (∀ T ∈ timesOf method nSeg x, 1 / 2 ^ 52 ≤ T) ∧
      g = decide (method = .mellingerOuterLoop)
  | .constraint i _ g => g = false ∧ i < hard.length

theorem answers_ok {lib : NlLib h ℝ} (hl : LibSpec lib) {vertices : List (Vertex ℝ)} {k : ℕ}
    {hd : NlHandle ℝ} (hhard : ∀ c ∈ hd.hard, LimitOk h c) (qs : List (NlQuery ℝ))
    {o : NlOpt h ℝ} (hs : LinSession lib vertices k o.lin) (ha : Able o.lin) (hh : o.handle = some hd)
    (hu : o.params.method ≠ .unknown)
    (hlim : o.params.useSoft = true → o.params.method ≠ .mellingerOuterLoop → LimitsOk h o.constraints)
    (hq : ∀ q ∈ qs, GoodQuery o.params.method (vertices.length - 1)
      (varCount o.params.method (vertices.length - 1) o.lin.nFree o.lin.dimension) hd.hard q) :
    ∃ ys o', NlOpt.answers lib (NlOpt.objective lib o.params.method) qs o = .ok (ys, o') := by
  induction qs generalizing o with
  | nil => exact ⟨[], o, rfl⟩
  | cons q qs ih =>
    obtain ⟨y, o1, a1, a2, a3, a4, a5⟩ : ∃ y o1, o.answer lib (NlOpt.objective lib o.params.method) q =
        .ok (y, o1) ∧ LinSession lib vertices k o1.lin ∧ Able o1.lin ∧ SameSetup o o1 ∧
        o1.lin.dimension = o.lin.dimension := by
      cases q with
      | objective x g =>
        obtain ⟨b1, b2, b3⟩ := hq (.objective x g) (by simp)
        obtain ⟨o1, c1⟩ := objective_ok hl hs ha b2 b1 b3 hu hlim
        have e := objective_inv hs (by rw [nSegments_eq hs]; exact b2) c1
        exact ⟨_, o1, c1, e.solved.session, e.solved.able, e.same, e.dim⟩
      | constraint i x g =>
        obtain ⟨b1, b2⟩ := hq (.constraint i x g) (by simp)
        obtain ⟨o1, c1⟩ := evaluateConstraint_returns hl hs (hhard hd.hard[i] (List.getElem_mem b2))
        have hc : o.answer lib (NlOpt.objective lib o.params.method) (.constraint i x g) =
            .ok (peak o.lin.dimension o.lin.segments hd.hard[i].derivative.toNat - hd.hard[i].value, o1) := by
          unfold NlOpt.answer
          dsimp only
          rw [Res.check_of b1, Res.ok_bind, hh]
          dsimp only
          rw [Res.at'_of_lt b2, Res.ok_bind]
          exact c1
        obtain ⟨e1, e2, -⟩ := constraint_inv hc
        exact ⟨_, o1, hc, by rw [e1]; exact hs, by rw [e1]; exact ha, e2, by rw [e1]⟩
    have hp := a4.params
    obtain ⟨ys, o2, b1⟩ := ih (o := o1) a2 a3 (a4.handle.trans hh) (by rw [hp]; exact hu)
      (by rw [hp, a4.constraints]; exact hlim) (by
        intro q' hq'
        rw [hp, session_nFree hs a2 a5, a5]
        exact hq q' (by simp [hq']))
    rw [hp] at b1
    refine ⟨y :: ys, o2, ?_⟩
    rw [answers_cons, a1, Res.ok_bind, b1, Res.ok_bind]
    rfl

theorem within_length {lower upper x : List ℝ} (hw : Within lower upper x) : x.length = lower.length :=
  hw.1.length_eq.symm

theorem prepare_length {lib : NlLib h ℝ} {vertices : List (Vertex ℝ)} {k : ℕ} {o p : NlOpt h ℝ}
    {a : NlArgs ℝ} {hd : NlHandle ℝ} (hs : LinSession lib vertices k o.lin)
    (hh : o.handle = some hd) (hu : o.params.method ≠ .unknown)
    (hn : hd.n = varCount o.params.method (vertices.length - 1) o.lin.nFree o.lin.dimension)
    (ho : o.prepare lib = .ok (p, a)) : a.lower.length = hd.n ∧ a.upper.length = hd.n ∧ a.start.length = hd.n := by
  have hn' := nSegments_eq hs
  have hst : o.lin.segmentTimes.length = vertices.length - 1 := by
    rw [← (session_ready hs).2.2.nSeg, hn']
  rcases prepare_cases ho with ⟨hd', hh', hm, rfl, rfl⟩ | ⟨hd', hh', hm, rfl, rfl⟩ |
    ⟨hd', l, hh', hm, hl, rfl, ha⟩
  · rw [hh, Option.some.injEq] at hh'
    subst hh'
    refine ⟨by simp [NlOpt.timeArgs], by simp [NlOpt.timeArgs], ?_⟩
    rw [hn]
    rcases hm with hm | hm <;> simp [NlOpt.timeArgs, hm, varCount, hst]
  · rw [hh, Option.some.injEq] at hh'
    subst hh'
    refine ⟨by simp [NlOpt.mellingerArgs], by simp [NlOpt.mellingerArgs], ?_⟩
    rw [hn]
    simp [NlOpt.mellingerArgs, hm, varCount, hst]
  · obtain ⟨fb, -, h1, h2, h3, -⟩ := fullArgs_inv ha
    obtain ⟨c1, c2, c3⟩ := lin_solve hs hl
    have hlen : a.start.length = hd.n := by
      rw [h1, List.length_append, flatten_length _ c1.freeLens]
      have : l.freeCompact.length = l.dimension := (session_ready c1.session).2.2.freeLen
      dsimp only
      rw [this, c2, hst, session_nFree hs c1.session c3, c3, hn, Nat.mul_comm]
      rcases hm with (hm | hm) | hm
      · rw [hm]; rfl
      · rw [hm]; rfl
      · exact absurd hm hu
    exact ⟨h2.trans hlen, h3.trans hlen, hlen⟩

/-! #### Scaling returns -/

theorem minMaxMagnitudeLoop_returns (rf : RootFinder ℝ) (hrf : Complete rf) (k : ℕ) (hk2 : k + 1 < 22)
    (ds : List ℕ) (hne : ds ≠ []) (segs : List (Segment ℝ))
    (hw : ∀ s ∈ segs, s.WF ∧ k < s.N ∧ (∀ d ∈ ds, d < s.D) ∧ 0 ≤ s.time)
    (i : ℕ) (mn0 mx0 : Extremum ℝ) :
    ∃ r, minMaxMagnitudeLoop rf Real.sqrt k (asInts ds) segs i mn0 mx0 = .ok r := by
  induction segs generalizing i mn0 mx0 with
  | nil => exact ⟨_, rfl⟩
  | cons s ss ih =>
    obtain ⟨h1, h2, h3, h4⟩ := hw s (by simp)
    obtain ⟨times, a1, -⟩ := magnitudeCandidates_ok rf hrf s h1 k h2 hk2 ds hne h3 h4
    rw [minMaxMagnitudeLoop, a1, Res.ok_bind]
    dsimp only
    rw [if_neg (by simp)]
    split_ifs
    · exact ⟨_, rfl⟩
    all_goals exact ih (fun x hx => hw x (by simp [hx])) _ _ _

theorem maxVA_returns (rf : RootFinder ℝ) (hrf : Complete rf) (tr : Trajectory ℝ) (h : tr.WF)
    (hD : 0 < tr.D) (hN : 3 ≤ tr.N) : ∃ r, tr.maxVelocityAndAcceleration rf Real.sqrt = .ok r := by
  have hr : List.range tr.D ≠ [] := by
    intro h0; have := congrArg List.length h0; simp at this; omega
  have hw : ∀ (k : ℕ), k < 3 → ∀ s ∈ tr.segments, s.WF ∧ k < s.N ∧ (∀ d ∈ List.range tr.D, d < s.D) ∧
      0 ≤ s.time := by
    intro k hk s hs
    refine ⟨h.wf s hs, by rw [h.coeffs s hs]; omega, fun d hd => ?_, h.nonneg s hs⟩
    rw [h.dims s hs]
    exact List.mem_range.mp hd
  unfold Trajectory.maxVelocityAndAcceleration Trajectory.computeMinMaxMagnitude
  obtain ⟨r1, a1⟩ := minMaxMagnitudeLoop_returns rf hrf 1 (by norm_num) _ hr tr.segments
    (hw 1 (by norm_num)) 0 { (Extremum.zero : Extremum ℝ) with value := dblMax }
    { (Extremum.zero : Extremum ℝ) with value := -dblMax }
  obtain ⟨r2, a2⟩ := minMaxMagnitudeLoop_returns rf hrf 2 (by norm_num) _ hr tr.segments
    (hw 2 (by norm_num)) 0 { (Extremum.zero : Extremum ℝ) with value := dblMax }
    { (Extremum.zero : Extremum ℝ) with value := -dblMax }
  rw [asInts_range]
  dsimp only
  rw [show ((1 : ℤ)) = ((1 : ℕ) : ℤ) from rfl, show ((2 : ℤ)) = ((2 : ℕ) : ℤ) from rfl, a1, Res.ok_bind, a2]
  exact ⟨_, rfl⟩

theorem scaleToMeetLoop_returns (rf : RootFinder ℝ) (hrf : Complete rf) (vMax aMax : ℝ) (n : ℕ)
    (tr : Trajectory ℝ) (h : tr.WF) (hD : 0 < tr.D) (hN : 3 ≤ tr.N) :
    ∃ r, scaleToMeetLoop rf Real.sqrt vMax aMax n tr = .ok r := by
  induction n generalizing tr with
  | zero => exact ⟨_, rfl⟩
  | succ n ih =>
    obtain ⟨r, h1⟩ := maxVA_returns rf hrf tr h hD hN
    rw [scaleToMeetLoop_succ, h1, Res.ok_bind]
    dsimp only
    split_ifs
    · exact ⟨_, rfl⟩
    · exact ih _ (scaleCore_WF tr h _ (by positivity)) hD hN

theorem LinSolved.trajectory {lib : NlLib h ℝ} (hinv : IsInverse lib.inv) {vertices : List (Vertex ℝ)}
    {k : ℕ} {l : LinOpt h ℝ} (hs : LinSolved lib vertices k l) :
    ∃ tr, l.getTrajectory = .ok tr ∧ tr.WF ∧ tr.D = l.dimension ∧ tr.N = h + h ∧
      tr.segments = l.segments ∧ tr.getSegmentTimes = l.segmentTimes := by
  obtain ⟨-, hsh, -, hN, r⟩ := hs.result hinv
  have hp := (session_ready hs.session).2.1
  have hne : l.segmentTimes ≠ [] := by
    intro h0
    have := hp.count
    have h2 := hp.two
    rw [h0] at this
    simp at this
    omega
  obtain ⟨tr, h1, h2, h3, -, h4, h5⟩ := shape_trajectory hsh hN hne hp.times_pos hp.small
  refine ⟨tr, h1, h2, h3, ?_, h4, h5⟩
  have hl : l.segments ≠ [] := (hs.good hinv).2.1
  obtain ⟨s, hsm⟩ := List.exists_mem_of_ne_nil _ hl
  rw [← hN s hsm]
  exact (h2.coeffs s (by rw [h4]; exact hsm)).symm

theorem scale_ok {lib : NlLib h ℝ} (hl : LibSpec lib) {vertices : List (Vertex ℝ)} {k : ℕ}
    {o : NlOpt h ℝ} (hs : LinSolved lib vertices k o.lin) (hh : 2 ≤ h)
    (hv : limitOf 1 o.constraints ≠ 0) (ha : limitOf 2 o.constraints ≠ 0) :
    ∃ o', o.scaleWithViolation lib = .ok o' := by
  obtain ⟨tr, h1, h2, h3, h4, h5, h6⟩ := hs.trajectory hl.inv
  have hp := (session_ready hs.session).2.1
  obtain ⟨r, a1⟩ := scaleToMeetLoop_returns lib.rf hl.rf (limitOf 1 o.constraints) (limitOf 2 o.constraints)
    20 tr h2 (by rw [h3]; exact hp.dim_pos) (by rw [h4]; omega)
  obtain ⟨c, hc, a2⟩ := scaleToMeetLoop_times a1
  have hst : o.lin.segmentTimes.length = vertices.length - 1 := by
    rw [← (session_ready hs.session).2.2.nSeg, nSegments_eq hs.session]
  obtain ⟨l1, l2, b1, b2, -⟩ := lin_move_ok hs.session hs.able (times := r.2.getSegmentTimes) (by
      rw [a2, h6]
      intro T hT
      obtain ⟨T0, hT0, rfl⟩ := List.mem_map.mp hT
      have h7 := hp.times_pos T0 hT0
      have h8 : (0 : ℝ) < T0 := lt_of_lt_of_le (by positivity) h7
      exact h7.trans (le_mul_of_one_le_right h8.le hc))
    (by rw [a2, List.length_map, h6, hst])
  refine ⟨{ o with lin := l2 }, ?_⟩
  unfold NlOpt.scaleWithViolation
  rw [h1, Res.ok_bind]
  dsimp only
  rw [if_neg (by tauto)]
  unfold Trajectory.scaleToMeetConstraints
  rw [hl.sq, a1, Res.ok_bind, b1, Res.ok_bind, b2, Res.ok_bind]
  rfl

/-! #### An optimisation returns -/

theorem optimize_ok {lib : NlLib h ℝ} (hl : LibSpec lib) {vertices : List (Vertex ℝ)} {k : ℕ}
    {o : NlOpt h ℝ} {run : NlRun ℝ} {hd : NlHandle ℝ} (hs : LinSession lib vertices k o.lin)
    (ha : Able o.lin) (hh : o.handle = some hd)
    (hn : hd.n = varCount o.params.method (vertices.length - 1) o.lin.nFree o.lin.dimension)
    (hr : RunOf lib (decide (o.params.method = .mellingerOuterLoop)) o run)
    (hhard : ∀ c ∈ hd.hard, LimitOk h c)
    (hlim : o.params.useSoft = true → o.params.method ≠ .mellingerOuterLoop → LimitsOk h o.constraints)
    (hmel : o.params.method = .mellingerOuterLoop → hd.hard = [] ∧ 2 ≤ h ∧ limitOf 1 o.constraints ≠ 0 ∧
      limitOf 2 o.constraints ≠ 0) :
    ∃ r, o.optimize lib run = .ok r := by
  unfold NlOpt.optimize
  dsimp only
  by_cases hu : o.params.method = .unknown
  · rw [if_pos hu]
    exact ⟨_, rfl⟩
  rw [if_neg hu]
  set o0 : NlOpt h ℝ := { o with info := NlInfo.default } with ho0
  suffices h1 : ∃ r, o0.optimizeWith lib run = .ok r by
    obtain ⟨r, h1⟩ := h1
    rw [h1, Res.ok_bind]
    exact ⟨_, rfl⟩
  obtain ⟨p, a, hp⟩ := prepare_ok (o := o0) hs hh (fun _ => ha) hu
  have hre := hr hu p a hd hp hh
  obtain ⟨s1, e1, -, d1, t1, -, f1, -⟩ := prepare_inv (o := o0) hs hp
  obtain ⟨n1, -, -⟩ := prepare_length (o := o0) hs hh hu hn hp
  have hap : Able p.lin := by
    rcases f1 with ⟨f1, -⟩ | f1
    · rw [f1]; exact ha
    · exact f1.able
  have hpm : p.params = o.params := e1.params
  unfold NlOpt.optimizeWith
  rw [hp, Res.ok_bind]
  dsimp only
  by_cases ht : run.setupThrows = true
  · rw [if_pos ht]
    exact ⟨_, rfl⟩
  rw [if_neg ht]
  obtain ⟨ys, o2, b1⟩ := answers_ok hl hhard run.queries (o := p) s1 hap (e1.handle.trans hh)
    (by rw [hpm]; exact hu) (by rw [hpm, e1.constraints]; exact hlim) (by
      rw [hpm, d1, session_nFree hs s1 d1]
      intro q hq
      cases q with
      | objective x g =>
        obtain ⟨c1, c2⟩ := hre.objective x g hq
        exact ⟨by rw [within_length c1, n1, hn], within_times (o := o0) hs hp c1, c2⟩
      | constraint i x g =>
        obtain ⟨c1, c2⟩ := hre.constraint i x g hq
        refine ⟨?_, c1⟩
        rw [c2]
        by_cases hm : o.params.method = .mellingerOuterLoop
        · rw [(hmel hm).1] at c1
          exact absurd c1 (Nat.not_lt_zero i)
        · simp [hm])
  rw [hpm] at b1
  rw [show o0.params.method = o.params.method from rfl, b1, Res.ok_bind]
  by_cases hm : o.params.method = .mellingerOuterLoop
  · rw [if_pos hm]
    by_cases hc : run.code = none ∧ run.wroteCost = false
    · rw [if_pos hc]
      exact ⟨_, rfl⟩
    rw [if_neg hc]
    obtain ⟨-, g2, g3, g4⟩ := hmel hm
    have hev : evaluated run := hre.reports (by
      by_contra hcon
      push Not at hcon
      exact hc ⟨hcon.1, by simpa using hcon.2⟩)
    obtain ⟨-, e2, -, hor⟩ := answers_inv s1 (by
      intro x g hq
      exact within_times (o := o0) hs hp (hre.objective x g hq).1) b1
    have hsol : LinSolved lib vertices k o2.lin := by
      rcases hor with ⟨h1, -⟩ | ⟨h1, -⟩
      · obtain ⟨x, g, hq⟩ := hev
        exact absurd hq (h1 x g)
      · exact h1
    have hcon : o2.constraints = o.constraints := e2.constraints.trans e1.constraints
    obtain ⟨o3, c1⟩ := scale_ok hl (o := o2) hsol g2 (by rw [hcon]; exact g3) (by rw [hcon]; exact g4)
    rw [c1, Res.ok_bind]
    exact ⟨_, rfl⟩
  · rw [if_neg hm]
    exact ⟨_, rfl⟩

end Verif
