import Verif.Proofs.SamplerNode

/-
Property C49: the sampler node.

A history is a list of events: messages of the two types, calls of the stop service, expiries of the
timer period, in any order. `Spec.Accepts mc mc4 e tr`: the event is a non-empty message that describes the
trajectory `tr`. `Spec.Quiet`: the event is neither a non-empty message nor a stop request. `Spec.ticks`
counts the timer expiries.
-/
namespace Verif

open Spec

variable {M : Type}

/-- The trajectory described by a small message can be sampled. -/
theorem accepted_sampled (mc mc4 : MsgConv ℝ M) (e : NodeEvent M) (tr : Trajectory ℝ)
    (ha : Accepts mc mc4 e tr)
    (hsmall : ∀ msg, (e = .path msg → SmallMsg mc msg) ∧ (e = .path4D msg → SmallMsg mc4 msg)) :
    tr.WF ∧ tr.segments ≠ [] ∧ 3 ≤ tr.D := by
  rcases ha with ⟨msg, rfl, _, hm⟩ | ⟨msg, rfl, _, hm⟩
  · exact converted_wf true mc msg ((hsmall msg).1 rfl) tr hm
  · exact converted_wf false mc4 msg ((hsmall msg).2 rfl) tr hm

/-- **C49.** Let a node that publishes point by point, with a positive interval `dt`, have any history
`pre`, then accept a trajectory `tr` of duration `T`, and then see any number of timer ticks (and empty
messages). What it publishes after the acceptance is exactly: for `j = 0, 1, 2, ...`, as long as there are
ticks and `j dt ≤ T`, the point that `sampleTrajectoryAtTime` returns for `tr` at `j dt`, stamped `j dt`.
The timer is stopped by the first tick that finds the next sample after `T`. Missing: an interval that is not
positive, for which this is false (`C49_zero_interval_false`). -/
theorem C49_publishes_partial (fuel : ℕ) (mc mc4 : MsgConv ℝ M) (dt : ℝ) (hdt : 0 < dt)
    (pre post : List (NodeEvent M)) (e : NodeEvent M) (tr : Trajectory ℝ)
    (n1 : SamplerNode ℝ) (o1 : List (Published ℝ))
    (hpre : (SamplerNode.init false dt).run fuel mc mc4 pre = .ok (n1, o1))
    (ha : Accepts mc mc4 e tr)
    (hsmall : ∀ msg, (e = .path msg → SmallMsg mc msg) ∧ (e = .path4D msg → SmallMsg mc4 msg))
    (hns : tr.maxTime * 10 ^ 9 < 2 ^ 63) (hpost : ∀ x ∈ post, Quiet x) :
    ∃ n2 out, (SamplerNode.init false dt).run fuel mc mc4 (pre ++ e :: post) = .ok (n2, o1 ++ out) ∧
      (∀ j : ℕ, j < out.length ↔ j < ticks post ∧ j * dt ≤ tr.maxTime) ∧
      (∀ (j : ℕ) (hj : j < out.length), ∃ st, sampleTrajectoryAtTime tr (j * dt) = .ok (some st) ∧
        out[j] = .point (j * dt) (some st)) ∧
      (n2.running = true ↔ out.length = ticks post) := by
  obtain ⟨hwf, hne, hD⟩ := accepted_sampled mc mc4 e tr ha hsmall
  obtain ⟨p1, p2⟩ := SamplerNode.run_params fuel mc mc4 pre _ _ hpre
  have hs : ∀ t, 0 ≤ t → t ≤ tr.maxTime → ∃ st, sampleTrajectoryAtTime tr t = .ok (some st) := by
    intro t h0 h1
    obtain ⟨st, _, h, _⟩ := C38_at_time tr hwf hne hD t h0 h1
      (lt_of_le_of_lt (mul_le_mul_of_nonneg_right h1 (by positivity)) hns)
    exact ⟨st, h⟩
  obtain ⟨n2, out, r1, r2, r3, r4⟩ := SamplerNode.run_running fuel mc mc4 tr dt hdt hs post hpost 0
  refine ⟨n2, out, ?_, by simpa using r2, by simpa using r3, r4⟩
  refine SamplerNode.run_append fuel mc mc4 pre (e :: post) _ n1 n2 o1 out hpre ?_
  rw [SamplerNode.run_cons, SamplerNode.step_accepts fuel mc mc4 n1 e tr ha]
  unfold SamplerNode.processTrajectory
  obtain ⟨w, d, c, r, t⟩ := n1
  simp only [SamplerNode.init] at p1 p2
  subst p1 p2
  simp only [Bool.false_eq_true, if_false, Res.ok_bind]
  simp only [Nat.cast_zero, zero_mul] at r1
  rw [r1]
  rfl

/-- **C49.** After a stop request, whatever happened before, nothing is published until the next non-empty
message. -/
theorem C49_stop {K : Type} [Field K] [LinearOrder K] [IsStrictOrderedRing K] [FloorRing K]
    (fuel : ℕ) (mc mc4 : MsgConv K M) (n : SamplerNode K)
    (pre post : List (NodeEvent M)) (n1 : SamplerNode K) (o1 : List (Published K))
    (hpre : n.run fuel mc mc4 pre = .ok (n1, o1)) (hpost : ∀ x ∈ post, Quiet x ∨ x = .stop) :
    ∃ n2, n.run fuel mc mc4 (pre ++ .stop :: post) = .ok (n2, o1) := by
  refine ⟨n1.stop, ?_⟩
  have h : n1.run fuel mc mc4 (.stop :: post) = .ok (n1.stop, []) := by
    rw [SamplerNode.run_cons]
    change (do
      let r' ← n1.stop.run fuel mc mc4 post
      pure (r'.1, [] ++ r'.2)) = _
    rw [SamplerNode.run_stopped fuel mc mc4 n1.stop rfl post hpost]
    rfl
  simpa using SamplerNode.run_append fuel mc mc4 pre _ n n1 _ o1 [] hpre h

/-- **C49.** A new node publishes nothing before the first non-empty message. -/
theorem C49_silent {K : Type} [Field K] [LinearOrder K] [IsStrictOrderedRing K] [FloorRing K]
    (fuel : ℕ) (mc mc4 : MsgConv K M) (whole : Bool) (dt : K)
    (es : List (NodeEvent M)) (h : ∀ x ∈ es, Quiet x ∨ x = .stop) :
    ∃ n, (SamplerNode.init whole dt).run fuel mc mc4 es = .ok (n, []) :=
  ⟨_, SamplerNode.run_stopped fuel mc mc4 _ rfl es h⟩

/-- **C49.** Empty messages change nothing: leaving them out of a history gives the same node and the same
publications. -/
theorem C49_empty_messages {K : Type} [Field K] [LinearOrder K] [IsStrictOrderedRing K] [FloorRing K]
    (fuel : ℕ) (mc mc4 : MsgConv K M) (es : List (NodeEvent M)) (keep : NodeEvent M → Bool)
    (hk : ∀ e, keep e = false → e = .path [] ∨ e = .path4D []) :
    ∀ n : SamplerNode K, n.run fuel mc mc4 (es.filter keep) = n.run fuel mc mc4 es := by
  induction es with
  | nil => intro n; rfl
  | cons e es ih =>
    intro n
    by_cases he : keep e = true
    · rw [List.filter_cons_of_pos he, SamplerNode.run_cons, SamplerNode.run_cons]
      simp only [ih]
    · rw [List.filter_cons_of_neg he, ih]
      have hs : n.step fuel mc mc4 e = .ok (n, []) := by
        rcases hk e (by simpa using he) with rfl | rfl <;> rfl
      rw [SamplerNode.run_cons, hs, Res.ok_bind]
      cases n.run fuel mc mc4 es <;> rfl

/-- **C49.** A node that publishes whole trajectories publishes, for every accepted message, one list of
points: those of the trajectory at `0, dt, 2 dt, ...` before its end (if adjacent segments agree in the
derivatives 0..4). -/
theorem C49_whole (mc mc4 : MsgConv ℝ M) (dt : ℝ) (hdt : 0 < dt) (n : SamplerNode ℝ)
    (hn : n.publishWhole = true) (hn' : n.dt = dt) (e : NodeEvent M) (tr : Trajectory ℝ)
    (ha : Accepts mc mc4 e tr)
    (hsmall : ∀ msg, (e = .path msg → SmallMsg mc msg) ∧ (e = .path4D msg → SmallMsg mc4 msg))
    (hj : ∀ k ≤ 4, tr.JoinsAt k) (hpos : 0 < tr.maxTime) (hns : tr.maxTime * 10 ^ 9 < 2 ^ 63) :
    ∃ L, (∃ F, ∀ fuel, F ≤ fuel → ∃ n', n.step fuel mc mc4 e = .ok (n', [.whole L]) ∧
        n'.running = n.running) ∧
      (∀ j : ℕ, j < L.length ↔ j * dt < tr.maxTime) ∧
      (∀ j, (hj : j < L.length) → sampleTrajectoryAtTime tr (j * dt) = .ok (some L[j])) := by
  obtain ⟨hwf, hne, hD⟩ := accepted_sampled mc mc4 e tr ha hsmall
  obtain ⟨L, ⟨F, hF⟩, h1, h2⟩ := C55_whole tr hwf hD hj hpos hns dt hdt
  refine ⟨L, ⟨F, fun fuel hf => ⟨{ n with trajectory := tr }, ?_, rfl⟩⟩, h1, h2⟩
  rw [SamplerNode.step_accepts fuel mc mc4 n e tr ha]
  unfold SamplerNode.processTrajectory
  rw [if_pos hn, hn']
  simp only
  rw [hF fuel hf]
  rfl

/-- **C49 is false for malformed messages.** A non-empty message whose polynomials have different numbers of
coefficients is not rejected: it ends the process. -/
theorem C49_malformed_false {K : Type} [Field K] [LinearOrder K] [IsStrictOrderedRing K] [FloorRing K]
    (fuel : ℕ) (mc mc4 : MsgConv K M) (n : SamplerNode K) (m : M) (rest : List M)
    (hm : (mc.fromMsg m).y.length ≠ (mc.fromMsg m).x.length) :
    n.step fuel mc mc4 (.path (m :: rest)) = .abort := by
  have h0 : ∀ d, 3 ≤ d → ∀ c : List K, c.length = (mc.fromMsg m).x.length →
      (Segment.mkZero (mc.fromMsg m).x.length d : Segment K).setCoeffs 0 c =
        .ok { (Segment.mkZero (mc.fromMsg m).x.length d : Segment K) with
          polys := (Segment.mkZero (mc.fromMsg m).x.length d : Segment K).polys.set 0 ⟨c⟩ } := by
    intro d hd c hc
    exact setCoeffs_ok _ 0 c (by simp [Segment.mkZero]; omega) (by simp [Segment.mkZero, Poly.zero, hc])
  have h1 : segmentOfEigen true (mc.fromMsg m) = .abort := by
    unfold segmentOfEigen
    generalize hD : (if true ∧ (mc.fromMsg m).rx.length > 0 ∧ (mc.fromMsg m).ry.length > 0 ∧
      (mc.fromMsg m).rz.length > 0 then 6 else if (mc.fromMsg m).yaw.length > 0 then 4 else 3 : ℕ) = D
    have h3 : 3 ≤ D := by
      rw [← hD]
      split_ifs <;> omega
    simp only
    rw [h0 D h3 _ rfl, Res.ok_bind]
    have : ∀ s : Segment K, (s.polys[1]?).map (fun p : Poly K => p.N) = some (mc.fromMsg m).x.length →
        s.setCoeffs 1 (mc.fromMsg m).y = .abort := by
      intro s hs
      obtain ⟨p, hp, hpn⟩ := Option.map_eq_some_iff.mp hs
      have hl : 1 < s.polys.length := by
        rw [List.getElem?_eq_some_iff] at hp
        exact hp.1
      unfold Segment.setCoeffs Segment.get
      rw [Res.check_of (show 1 < s.D from hl), Res.ok_bind, Res.at'_eq_ok.mpr hp, Res.ok_bind]
      unfold Poly.setCoefficients
      rw [Res.check_of_not (by rw [hpn]; exact fun h => hm h.symm)]
      rfl
    rw [this _ (by
      simp only [Segment.mkZero]
      rw [List.getElem?_set_ne (by omega), List.getElem?_replicate, if_pos (by omega)]
      simp [Poly.zero, Poly.N])]
    rfl
  change n.pathSegments fuel mc (m :: rest) = _
  unfold SamplerNode.pathSegments msgToTrajectory
  rw [if_neg (by simp), List.mapM_cons, h1]
  rfl

/-- **C49 needs a positive interval.** With interval 0 (the parameter is not validated) the first sample is
published over and over and the timer never stops. -/
theorem C49_zero_interval_false (fuel : ℕ) (mc mc4 : MsgConv ℝ M) (tr : Trajectory ℝ) (hwf : tr.WF)
    (hne : tr.segments ≠ []) (hD : 3 ≤ tr.D) :
    ∃ st, sampleTrajectoryAtTime tr 0 = .ok (some st) ∧
      ∀ k : ℕ, SamplerNode.run fuel mc mc4 ⟨false, 0, 0, true, tr⟩ (List.replicate k (.tick : NodeEvent M)) =
        .ok (⟨false, 0, 0, true, tr⟩, List.replicate k (.point 0 (some st))) := by
  have hmax : 0 ≤ tr.maxTime := by
    rw [hwf.total]
    exact List.sum_nonneg (by
      intro x hx
      obtain ⟨s, hs, rfl⟩ := List.mem_map.mp hx
      exact hwf.nonneg s hs)
  obtain ⟨st, _, h, _⟩ := C38_at_time tr hwf hne hD 0 le_rfl hmax (by norm_num)
  refine ⟨st, h, fun k => ?_⟩
  induction k with
  | zero => rfl
  | succ k ih =>
    rw [List.replicate_succ, SamplerNode.run_cons]
    have hs : SamplerNode.step fuel mc mc4 ⟨false, 0, 0, true, tr⟩ (.tick : NodeEvent M) =
        .ok (⟨false, 0, 0, true, tr⟩, [.point 0 (some st)]) := by
      change SamplerNode.commandTimer ⟨false, 0, 0, true, tr⟩ = _
      unfold SamplerNode.commandTimer
      simp only
      rw [if_pos hmax, h, Res.ok_bind]
      simp [Res.pure_eq]
    rw [hs, Res.ok_bind, ih, Res.ok_bind]
    rfl

/-- A message is the list of its segments. -/
def exMc (K : Type) : MsgConv K (EigenSeg K) := ⟨id, id⟩

/-- One segment of 1 s: `x = t`, `y = 1`, `z = t²`. -/
def exSeg (K : Type) [Field K] : EigenSeg K :=
  { x := [0, 1, 0], y := [1, 0, 0], z := [0, 0, 1], numCoeffs := 3, timeNs := 10 ^ 9 }

/-- Two ticks, a stop request, two ticks, an empty message, a new trajectory, four ticks. -/
def exHistory (K : Type) [Field K] : List (NodeEvent (EigenSeg K)) :=
  [.path [exSeg K], .tick, .tick, .stop, .tick, .tick, .path [], .path4D [exSeg K], .tick, .tick, .tick, .tick]

example : (do
    let r ← (SamplerNode.init false (1 / 2 : ℚ)).run 9 (exMc ℚ) (exMc ℚ) (exHistory ℚ)
    pure (r.1.running, r.2)) =
  .ok (false,
    [.point 0 (some ⟨[0, 1, 0], [1, 0, 0], [0, 0, 2], [0, 0, 0], [0, 0, 0], .unchanged, 0⟩),
     .point (1 / 2) (some ⟨[1 / 2, 1, 1 / 4], [1, 0, 1], [0, 0, 2], [0, 0, 0], [0, 0, 0], .unchanged, 500000000⟩),
     .point 0 (some ⟨[0, 1, 0], [1, 0, 0], [0, 0, 2], [0, 0, 0], [0, 0, 0], .unchanged, 0⟩),
     .point (1 / 2) (some ⟨[1 / 2, 1, 1 / 4], [1, 0, 1], [0, 0, 2], [0, 0, 0], [0, 0, 0], .unchanged, 500000000⟩),
     .point 1 (some ⟨[1, 1, 1], [1, 0, 2], [0, 0, 2], [0, 0, 0], [0, 0, 0], .unchanged, 1000000000⟩)]) := by
  decide +kernel

/-- The hypotheses of `C49_publishes_partial`, with the history above as `pre`. -/
theorem exAccepts : ∃ tr, Accepts (exMc ℝ) (exMc ℝ) (.path [exSeg ℝ]) tr ∧ tr.maxTime = 1 ∧
    ∀ msg, ((.path [exSeg ℝ] : NodeEvent (EigenSeg ℝ)) = .path msg → SmallMsg (exMc ℝ) msg) ∧
      ((.path [exSeg ℝ] : NodeEvent (EigenSeg ℝ)) = .path4D msg → SmallMsg (exMc ℝ) msg) := by
  refine ⟨⟨3, 3, 1, [⟨[⟨[0, 1, 0]⟩, ⟨[1, 0, 0]⟩, ⟨[0, 0, 1]⟩], 1, 3⟩]⟩, Or.inl ⟨_, rfl, by simp, ?_⟩, rfl, ?_⟩
  · simp [msgToTrajectory, List.mapM_cons, segmentOfEigen, exMc, exSeg, Segment.setCoeffs, Segment.get,
      Segment.set, Segment.mkZero, Segment.D, Res.check, Res.at', Poly.setCoefficients, Poly.zero, Poly.N,
      Segment.setTimeNSec, Res.pure_eq, Res.ok_bind]
    rw [setSegments_ok_iff]
    norm_num [Segment.D]
  · intro msg
    refine ⟨?_, by simp⟩
    rintro h
    cases h
    intro m hm
    simp only [List.mem_singleton] at hm
    subst hm
    simp [exMc, exSeg]

example : (exMc ℚ).fromMsg { exSeg ℚ with y := [1] } = { exSeg ℚ with y := [1] } ∧
    (SamplerNode.init false (1 / 2 : ℚ)).step 9 (exMc ℚ) (exMc ℚ) (.path [{ exSeg ℚ with y := [1] }]) =
      .abort := by
  constructor <;> decide +kernel

end Verif
