import Verif.Proofs.NlOptRun
import Verif.Proofs.MagnitudeScale

/- Helper lemmas: the maxima and costs the nonlinear optimiser computes, over the reals. -/
namespace Verif

open Spec Set

set_option linter.unusedSectionVars false

variable {h : ℕ}

/-- Segments on which everything can be evaluated. -/
structure GoodSegs (h dim : ℕ) (segs : List (Segment ℝ)) : Prop where
  wf : ∀ s ∈ segs, s.WF
  coeffs : ∀ s ∈ segs, s.N = h + h
  dims : ∀ s ∈ segs, s.D = dim
  nonneg : ∀ s ∈ segs, 0 ≤ s.time
  dim_pos : 0 < dim
  small : h + h ≤ 22

theorem normOf_eq (s : Segment ℝ) (d : ℕ) (t : ℝ) :
    normOf Real.sqrt (valuesAt s.polys d t) = magnitude s.polys (List.range s.D) d t := by
  unfold normOf magnitude
  rw [map_range_getD _ _ (by simp [valuesAt, Segment.D])]

theorem maximumCandidates_ok (s : Segment ℝ) (hw : s.WF) (d i : ℕ) (times : List ℝ) :
    maximumCandidates Real.sqrt d s i times =
      .ok (times.map fun t => ⟨t, magnitude s.polys (List.range s.D) d t, i⟩) := by
  unfold maximumCandidates
  rw [Res.mapM_ok]
  intro t _
  rw [segment_evaluate_ok s hw, Res.ok_bind, segValue_eq_valuesAt, normOf_eq, Res.pure_eq]

theorem allMaximumCandidates_cons (rf : RootFinder ℝ) (sq : ℝ → ℝ) (h : ℕ) (d : ℤ) (s : Segment ℝ)
    (ss : List (Segment ℝ)) (i : ℕ) : allMaximumCandidates rf sq h d (s :: ss) i = (do
      let c ← segmentMaximumCandidates rf h d s 0 s.time
      let es ← maximumCandidates sq d s i c.2
      let rest ← allMaximumCandidates rf sq h d ss (i + 1)
      pure (es ++ rest)) := rfl

theorem allMaximumCandidates_ok (rf : RootFinder ℝ) (hrf : Complete rf) {dim : ℕ} {d : ℕ}
    (hd : d + 1 < h + h) (segs : List (Segment ℝ)) (hg : GoodSegs h dim segs) (i : ℕ) :
    ∃ es, allMaximumCandidates rf Real.sqrt h d segs i = .ok es ∧
      (∀ s ∈ segs, ∀ t ∈ Icc 0 s.time, ∃ e ∈ es, magnitude s.polys (List.range dim) d t ≤ e.value) ∧
      (∀ e ∈ es, i ≤ e.segmentIdx ∧ ∃ s, segs[e.segmentIdx - i]? = some s ∧ e.time ∈ Icc 0 s.time ∧
        e.value = magnitude s.polys (List.range dim) d e.time) := by
  induction segs generalizing i with
  | nil => exact ⟨[], rfl, by simp, by simp⟩
  | cons s ss ih =>
    have hw := hg.wf s (by simp)
    have hN := hg.coeffs s (by simp)
    have hD := hg.dims s (by simp)
    have hT := hg.nonneg s (by simp)
    have hsm := hg.small
    have hdp := hg.dim_pos
    obtain ⟨rest, h1, h2, h3⟩ := ih ⟨fun x hx => hg.wf x (by simp [hx]),
      fun x hx => hg.coeffs x (by simp [hx]), fun x hx => hg.dims x (by simp [hx]),
      fun x hx => hg.nonneg x (by simp [hx]), hdp, hsm⟩ (i + 1)
    have hr : List.range s.D ≠ [] := by
      intro h0; have := congrArg List.length h0; simp at this; omega
    obtain ⟨times, a1, a2⟩ := candidateTimes_ok rf hrf s hw d (by omega) (by omega) (List.range s.D) hr
      (fun x hx => List.mem_range.mp hx) hT
    refine ⟨(times.map fun t => ⟨t, magnitude s.polys (List.range s.D) d t, i⟩) ++ rest, ?_, ?_, ?_⟩
    · rw [allMaximumCandidates_cons]
      unfold segmentMaximumCandidates
      rw [Res.check_of (by push_cast; omega), Res.ok_bind, asInts_range, a1, Res.ok_bind,
        maximumCandidates_ok s hw, Res.ok_bind, h1, Res.ok_bind, Res.pure_eq]
    · intro x hx t ht
      rcases List.mem_cons.mp hx with rfl | hx
      · obtain ⟨t', ht', hle⟩ := a2.upper t ht
        refine ⟨⟨t', magnitude x.polys (List.range x.D) d t', i⟩, ?_, ?_⟩
        · exact List.mem_append_left _ (List.mem_map.mpr ⟨t', ht', rfl⟩)
        · dsimp only
          rw [← hD, magnitude_eq _ _ (fun y hy => List.mem_range.mp hy),
            magnitude_eq _ _ (fun y hy => List.mem_range.mp hy)]
          exact Real.sqrt_le_sqrt hle
      · obtain ⟨e, he, hle⟩ := h2 x hx t ht
        exact ⟨e, List.mem_append_right _ he, hle⟩
    · intro e he
      rcases List.mem_append.mp he with he | he
      · obtain ⟨t', ht', rfl⟩ := List.mem_map.mp he
        exact ⟨le_rfl, s, by simp, a2.inside t' ht', by dsimp only; rw [hD]⟩
      · obtain ⟨h4, x, h5, h6⟩ := h3 e he
        refine ⟨by omega, x, ?_, h6⟩
        have : e.segmentIdx - i = e.segmentIdx - (i + 1) + 1 := by omega
        rw [this, List.getElem?_cons_succ]
        exact h5

/-- The maximum of a list of candidates. -/
theorem foldl_stdMax_nl (es : List (Extremum ℝ)) (a : Extremum ℝ) :
    a.value ≤ (es.foldl Extremum.stdMax a).value ∧ (∀ e ∈ es, e.value ≤ (es.foldl Extremum.stdMax a).value) ∧
      (es.foldl Extremum.stdMax a = a ∨ es.foldl Extremum.stdMax a ∈ es) := by
  induction es generalizing a with
  | nil => simp
  | cons e es ih =>
    obtain ⟨h1, h2, h3⟩ := ih (a.stdMax e)
    have h4 : a.value ≤ (a.stdMax e).value ∧ e.value ≤ (a.stdMax e).value ∧
        (a.stdMax e = a ∨ a.stdMax e = e) := by
      unfold Extremum.stdMax
      split_ifs with hc
      · exact ⟨hc.le, le_rfl, .inr rfl⟩
      · exact ⟨le_rfl, not_lt.mp hc, .inl rfl⟩
    rw [List.foldl_cons]
    refine ⟨h4.1.trans h1, ?_, ?_⟩
    · intro x hx
      rcases List.mem_cons.mp hx with rfl | hx
      · exact h4.2.1.trans h1
      · exact h2 x hx
    · rcases h3 with h3 | h3
      · rcases h4.2.2 with h5 | h5
        · exact .inl (h3.trans h5)
        · exact .inr (by rw [h3, h5]; simp)
      · exact .inr (List.mem_cons_of_mem _ h3)

/-- `computeMaximumOfMagnitude` returns the maximum. -/
theorem maximumOfMagnitude_ok (rf : RootFinder ℝ) (hrf : Complete rf) {dim d : ℕ}
    (hd : d + 1 < h + h) (l : LinOpt h ℝ) (hg : GoodSegs h dim l.segments) (hne : l.segments ≠ [])
    (hn : l.nSegments = l.segments.length) :
    ∃ m cands, l.computeMaximumOfMagnitude rf Real.sqrt d = .ok (m, cands) ∧
      (∀ s ∈ l.segments, ∀ t ∈ Icc 0 s.time, magnitude s.polys (List.range dim) d t ≤ m.value) ∧
      ∃ s, l.segments[m.segmentIdx]? = some s ∧ m.time ∈ Icc 0 s.time ∧
        m.value = magnitude s.polys (List.range dim) d m.time := by
  obtain ⟨es, h1, h2, h3⟩ := allMaximumCandidates_ok rf hrf hd l.segments hg 0
  have hpos := List.length_pos_iff.mpr hne
  have hlast : l.segments.length - 1 < l.segments.length := by omega
  set s := l.segments[l.segments.length - 1] with hs
  have hsm : s ∈ l.segments := List.getElem_mem _
  have hsD := hg.dims s hsm
  set cands : List (Extremum ℝ) :=
    es ++ [⟨s.time, magnitude s.polys (List.range dim) d s.time, l.nSegments - 1⟩] with hc
  refine ⟨cands.foldl Extremum.stdMax Extremum.zero, cands, ?_, ?_, ?_⟩
  · unfold LinOpt.computeMaximumOfMagnitude
    rw [h1, Res.ok_bind, Res.at'_of_lt hlast, Res.ok_bind, segment_evaluate_ok _ (hg.wf s hsm),
      Res.ok_bind]
    dsimp only
    rw [segValue_eq_valuesAt, normOf_eq, ← hs, hsD]
    rfl
  · intro x hx t ht
    obtain ⟨e, he, hle⟩ := h2 x hx t ht
    exact hle.trans ((foldl_stdMax_nl cands _).2.1 e (List.mem_append_left _ he))
  · obtain ⟨-, f2, f3⟩ := foldl_stdMax_nl cands Extremum.zero
    have hall : ∀ e ∈ cands, ∃ x, l.segments[e.segmentIdx]? = some x ∧ e.time ∈ Icc 0 x.time ∧
        e.value = magnitude x.polys (List.range dim) d e.time := by
      intro e he
      rcases List.mem_append.mp he with he | he
      · obtain ⟨-, x, h4, h5⟩ := h3 e he
        exact ⟨x, by simpa using h4, h5⟩
      · rw [List.mem_singleton] at he
        subst he
        refine ⟨s, ?_, ⟨hg.nonneg s hsm, le_rfl⟩, rfl⟩
        dsimp only
        rw [hn, List.getElem?_eq_getElem hlast]
    rcases f3 with f3 | f3
    · rw [f3]
      rw [f3] at f2
      have h0 : 0 < l.segments.length := hpos
      refine ⟨l.segments[0], by simp [Extremum.zero, h0], ?_, ?_⟩
      · exact ⟨le_rfl, hg.nonneg _ (List.getElem_mem _)⟩
      · obtain ⟨e, he, hle⟩ := h2 l.segments[0] (List.getElem_mem _) 0
          ⟨le_rfl, hg.nonneg _ (List.getElem_mem _)⟩
        have := f2 e (List.mem_append_left _ he)
        have h4 := magnitude_nonneg l.segments[0].polys (List.range dim) d 0
        change (0 : ℝ) = _
        change _ ≤ (0 : ℝ) at this
        exact le_antisymm h4 (hle.trans this)
    · exact hall _ f3

/-- The same in terms of the specification. -/
theorem maximumOfMagnitude_peak (rf : RootFinder ℝ) (hrf : Complete rf) {dim d : ℕ}
    (hd : d + 1 < h + h) (l : LinOpt h ℝ) (hg : GoodSegs h dim l.segments) (hne : l.segments ≠ [])
    (hn : l.nSegments = l.segments.length) :
    ∃ m, l.computeMaximumOfMagnitude rf Real.sqrt d = .ok m ∧ m.1.value = peak dim l.segments d ∧
      IsGreatest (norms dim l.segments d) m.1.value ∧
      ∃ s, l.segments[m.1.segmentIdx]? = some s ∧ m.1.time ∈ Icc 0 s.time ∧
        m.1.value = magnitude s.polys (List.range dim) d m.1.time := by
  obtain ⟨m, cands, h1, h2, s, h3, h4, h5⟩ := maximumOfMagnitude_ok rf hrf hd l hg hne hn
  have hgr : IsGreatest (norms dim l.segments d) m.value :=
    ⟨⟨s, List.mem_of_getElem? h3, m.time, h4, h5⟩, by
      rintro x ⟨s', hs', t, ht, rfl⟩
      exact h2 s' hs' t ht⟩
  exact ⟨(m, cands), h1, hgr.csSup_eq.symm, hgr, s, h3, h4, h5⟩

/-! #### The solved linear optimiser -/

theorem LinSolved.good {lib : NlLib h ℝ} (hinv : IsInverse lib.inv) {vertices : List (Vertex ℝ)} {k : ℕ}
    {l : LinOpt h ℝ} (hs : LinSolved lib vertices k l) :
    GoodSegs h l.dimension l.segments ∧ l.segments ≠ [] ∧ l.nSegments = l.segments.length := by
  obtain ⟨-, hsh, -, hN, r⟩ := hs.result hinv
  have hp := (session_ready hs.session).2.1
  have hl : l.segments.length = l.segmentTimes.length := by
    rw [← hsh.durations, List.length_map]
  refine ⟨⟨fun s hm => ⟨fun p hpm => ?_, ?_⟩, hN, fun s hm => hsh.dims s hm, ?_, hp.dim_pos, hp.small⟩,
    ?_, ?_⟩
  · rw [hN s hm]
    exact hsh.coeffs s hm p hpm
  · rw [hN s hm]
    exact hp.small
  · intro s hm
    have : s.time ∈ l.segmentTimes := by
      rw [← hsh.durations]
      exact List.mem_map.mpr ⟨s, hm, rfl⟩
    exact le_trans (by positivity) (hp.times_pos _ this)
  · intro h0
    rw [h0] at hl
    have := hp.count
    have := hp.two
    simp at hl
    omega
  · rw [hl, r.nSeg]

theorem LinSolved.cost {lib : NlLib h ℝ} (hinv : IsInverse lib.inv) {vertices : List (Vertex ℝ)} {k : ℕ}
    {l : LinOpt h ℝ} (hs : LinSolved lib vertices k l) :
    l.computeCost = .ok (cost k l.segments) := by
  obtain ⟨l0, h1, h2⟩ := hs
  exact C32_computeCost hinv h1 h2

/-! #### Costs -/

theorem evaluateConstraint_ok {lib : NlLib h ℝ} (hl : LibSpec lib) {vertices : List (Vertex ℝ)} {k : ℕ}
    {o : NlOpt h ℝ} (hs : LinSolved lib vertices k o.lin) (c : Limit ℝ) (h0 : 0 ≤ c.derivative)
    (h1 : c.derivative < (h : ℤ) + h - 1) :
    ∃ o', o.evaluateConstraint lib c =
        .ok (peak o.lin.dimension o.lin.segments c.derivative.toNat - c.value, o') ∧ o'.lin = o.lin ∧
      SameSetup o o' := by
  obtain ⟨hg, hne, hn⟩ := hs.good hl.inv
  obtain ⟨m, a1, a2, -⟩ := maximumOfMagnitude_peak lib.rf hl.rf
    (d := c.derivative.toNat) (by omega) o.lin hg hne hn
  refine ⟨{ o with info := { o.info with maxima := mapInsert c.derivative m.1 o.info.maxima } }, ?_, rfl,
    ⟨rfl, rfl, rfl⟩⟩
  unfold NlOpt.evaluateConstraint
  rw [hl.sq, show c.derivative = ((c.derivative.toNat : ℕ) : ℤ) by omega, a1, Res.ok_bind, Res.pure_eq,
    a2]
  rfl

theorem softTerm_eq {ex : ℝ → ℝ} (hex : ex = Real.exp) (w cap x v : ℝ) (hv : 0 < v) :
    softTerm ex w cap x v = min cap (Real.exp (w * (x / v))) := by
  unfold softTerm
  rw [if_neg hv.ne', hex]
  dsimp only
  rw [mul_comm w]
  split_ifs with h1
  · rw [min_eq_right h1.le]
  · rw [min_eq_left (not_lt.mp h1)]

theorem softCost_ok {lib : NlLib h ℝ} (hl : LibSpec lib) {vertices : List (Vertex ℝ)} {k : ℕ}
    (w cap : ℝ) (limits : List (Limit ℝ)) (hlim : LimitsOk h limits) (acc : ℝ)
    {o : NlOpt h ℝ} (hs : LinSolved lib vertices k o.lin) :
    ∃ o', softCost lib w cap limits acc o =
      .ok (acc + (limits.map (penalty w cap o.lin.dimension o.lin.segments)).sum, o') := by
  induction limits generalizing acc o with
  | nil => exact ⟨o, by simp [softCost]⟩
  | cons c cs ih =>
    obtain ⟨h0, h1, h2⟩ := hlim c (by simp)
    obtain ⟨o1, a1, a2, -⟩ := evaluateConstraint_ok hl hs c h0 h1
    obtain ⟨o2, a3⟩ := ih (fun x hx => hlim x (by simp [hx]))
      (acc + penalty w cap o.lin.dimension o.lin.segments c) (o := o1) (by rw [a2]; exact hs)
    refine ⟨o2, ?_⟩
    rw [softCost_cons, a1, Res.ok_bind]
    dsimp only
    rw [softTerm_eq hl.ex _ _ _ _ h2]
    change softCost lib w cap cs (acc + penalty w cap o.lin.dimension o.lin.segments c) o1 = _
    rw [a3, a2, List.map_cons, List.sum_cons, add_assoc]

theorem totalTrajectoryTime_eq (times : List ℝ) : totalTrajectoryTime times = times.sum := by
  unfold totalTrajectoryTime
  rw [List.sum_eq_foldl]

theorem totalCost_ok {lib : NlLib h ℝ} (hl : LibSpec lib) {vertices : List (Vertex ℝ)} {k : ℕ}
    {o : NlOpt h ℝ} (hs : LinSolved lib vertices k o.lin) (times : List ℝ) (linear : Prop)
    [Decidable linear] (hlim : o.params.useSoft = true → LimitsOk h o.constraints) :
    ∃ o', o.totalCost lib times (decide linear) =
      .ok (objectiveValue k o.lin.dimension o.params linear o.constraints times o.lin.segments, o') := by
  have hc := hs.cost hl.inv
  unfold NlOpt.totalCost objectiveValue
  rw [hc, Res.ok_bind]
  dsimp only
  rw [totalTrajectoryTime_eq]
  have ht : (if decide linear = true then times.sum * o.params.timePenalty
      else times.sum * times.sum * o.params.timePenalty) =
      o.params.timePenalty * (if linear then times.sum else times.sum ^ 2) := by
    by_cases hx : linear
    · simp [hx, mul_comm]
    · simp [hx]; ring
  by_cases hu : o.params.useSoft = true
  · obtain ⟨o2, a1⟩ := softCost_ok hl o.params.softWeight (10 ^ 12) o.constraints (hlim hu) 0 hs
    rw [if_pos hu, if_pos hu, a1, Res.ok_bind, ht, zero_add]
    exact ⟨_, rfl⟩
  · rw [if_neg hu, if_neg hu, Res.pure_eq, Res.ok_bind, ht]
    exact ⟨_, rfl⟩

end Verif
