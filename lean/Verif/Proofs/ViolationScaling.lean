import Verif.Proofs.NlOptReturns
import Verif.Proofs.TimeEvaluation
import Verif.Props.LinearUnique
import Verif.Props.Times

/- Helper lemmas: the methods of the benchmark of time allocation that use the linear optimiser. -/
namespace Verif

open Spec Set

set_option linter.unusedSectionVars false

theorem select_largest (val : ℝ → ℝ) (hval : ∀ t, 0 ≤ val t) {b : ℝ} (hb : 0 ≤ b) (times : List ℝ) (hne : times ≠ [])
    (hin : ∀ t ∈ times, t ∈ Icc 0 b) (hup : ∀ x ∈ Icc 0 b, ∃ t ∈ times, val x ≤ val t) (mn0 mx0 : Extremum ℝ) :
    ∃ r, selectMinMaxMagnitude 0 b (times.map fun t => (⟨t, val t, 0⟩ : Extremum ℝ)) mn0 mx0 = r ∧ r.1 = true ∧
      LargestOn val b r.2.2.value := by
  obtain ⟨-, ⟨h4, h5, h6⟩⟩ := selectFold val 0 b times hin { mn0 with value := dblMax } { mx0 with value := -dblMax }
  unfold selectMinMaxMagnitude
  rw [if_neg (not_lt.mpr hb)]
  refine ⟨_, rfl, rfl, ?_, ?_⟩
  · rcases h6 with h6 | ⟨t, ht, h6⟩
    · obtain ⟨t, ht⟩ := List.exists_mem_of_ne_nil _ hne
      have h7 := h5 t ht
      rw [h6] at h7
      have h8 : (0 : ℝ) < dblMax := by unfold dblMax; norm_num
      have := hval t
      dsimp only at h7
      linarith
    · refine ⟨t, (hin t ht).1, (hin t ht).2, ?_⟩
      dsimp only
      rw [h6]
  · intro t h0 h1
    obtain ⟨u, hu, hle⟩ := hup t ⟨h0, h1⟩
    exact hle.trans (h5 u hu)

theorem maxima_ok {h : ℕ} (rf : RootFinder ℝ) (hrf : Complete rf) {d : ℕ} (hd : d + 1 < h + h) (segs : List (Segment ℝ))
    (hg : GoodSegs h 3 segs) (acc : List (Extremum ℝ)) :
    ∃ ms, maximaAllSegments rf Real.sqrt d [0, 1, 2] segs acc = .ok (true, acc ++ ms) ∧
      List.Forall₂ (fun (s : Segment ℝ) (e : Extremum ℝ) => LargestOn (fun t => ‖at3 (s.evaluate t d)‖) s.time e.value)
        segs ms := by
  induction segs generalizing acc with
  | nil => exact ⟨[], by simp [maximaAllSegments], .nil⟩
  | cons s ss ih =>
    have hw := hg.wf s (by simp)
    have hN := hg.coeffs s (by simp)
    have hD := hg.dims s (by simp)
    have hT := hg.nonneg s (by simp)
    have hsm := hg.small
    have hdim : ∀ x ∈ [0, 1, 2], x < s.D := by
      intro x hx
      simp at hx
      omega
    obtain ⟨times, a1, a2⟩ := magnitudeCandidates_ok rf hrf s hw d (by omega) (by omega) [0, 1, 2] (by simp) hdim hT
    obtain ⟨rest, b⟩ := a2.first
    obtain ⟨r, c1, c2, c3⟩ := select_largest (magnitude s.polys [0, 1, 2] d) (magnitude_nonneg _ _ _) hT times (by simp [b])
      a2.inside (fun x hx => by
        obtain ⟨t, ht, hle⟩ := a2.upper x hx
        refine ⟨t, ht, ?_⟩
        rw [magnitude_eq _ _ hdim, magnitude_eq _ _ hdim]
        exact Real.sqrt_le_sqrt hle) Extremum.zero Extremum.zero
    obtain ⟨ms, h1, h2⟩ := ih ⟨fun x hx => hg.wf x (by simp [hx]), fun x hx => hg.coeffs x (by simp [hx]),
      fun x hx => hg.dims x (by simp [hx]), fun x hx => hg.nonneg x (by simp [hx]), hg.dim_pos, hsm⟩ (acc ++ [r.2.2])
    refine ⟨r.2.2 :: ms, ?_, .cons ?_ h2⟩
    · have a1' : s.magnitudeCandidates rf Real.sqrt (d : ℤ) 0 s.time [0, 1, 2] = _ := a1
      unfold maximaAllSegments
      rw [a1', Res.ok_bind]
      dsimp only
      rw [c1, c2, if_neg (by simp), if_neg (by simp), h1]
      simp
    · simpa only [seg_magnitude hw hD] using c3

/-- The cost reported for a solution of the linear optimiser. -/
theorem linearCost_ok {lib : NlLib 5 ℝ} (hl : LibSpec lib) (c : BenchSettings ℝ) (hv : 0 < c.vMax) (ha : 0 < c.aMax)
    {vs : List (Vertex ℝ)} {k : ℕ} {o : LinOpt 5 ℝ} (hs : LinSolved lib vs k o) (hd : o.dimension = 3) :
    linearCost lib c o = .ok (benchCost k c o.segmentTimes o.segments) := by
  unfold linearCost
  dsimp only
  simp only [NlOpt.addMaximumMagnitudeConstraint, NlOpt.new, NlParams.default]
  rw [Res.check_of (by norm_num), Res.ok_bind, Res.check_of hv.le, Res.ok_bind, if_pos trivial, Res.pure_eq, Res.ok_bind]
  dsimp only
  rw [Res.check_of (by norm_num), Res.ok_bind, Res.check_of ha.le, Res.ok_bind, if_pos rfl, Res.pure_eq, Res.ok_bind]
  dsimp only
  set n : NlOpt 5 ℝ := ⟨none, o, ⟨1 / 10, 500, true, 100, .squaredTimeAndConstraints⟩, [] ++ [⟨1, c.vMax⟩] ++ [⟨2, c.aMax⟩],
    NlInfo.default⟩ with hn
  have hso : LinSolved lib vs k n.lin := hs
  obtain ⟨o', h1⟩ := softCost_ok hl n.params.softWeight (10 ^ 9) n.constraints (by
    intro x hx
    simp [hn] at hx
    rcases hx with rfl | rfl
    · exact ⟨by norm_num, by norm_num, hv⟩
    · exact ⟨by norm_num, by norm_num, ha⟩) 0 hso
  unfold NlOpt.getTotalCost
  rw [hso.cost hl.inv, Res.ok_bind]
  dsimp only
  rw [h1, Res.ok_bind, Res.pure_eq, Res.ok_bind, Res.pure_eq, Res.ok.injEq]
  have := totalTrajectoryTime_eq n.lin.segmentTimes
  unfold totalTrajectoryTime at this
  rw [this]
  unfold benchCost
  simp only [hn, List.nil_append, List.singleton_append, List.map_cons, List.map_nil, List.sum_cons, List.sum_nil, hd]
  ring

/-- What the linear optimiser does with a problem. -/
theorem linear_run {lib : NlLib 5 ℝ} (hl : LibSpec lib) {vs : List (Vertex ℝ)} {ts : List ℝ} (hp : Problem 5 3 vs ts)
    {k : ℕ} (hk : k < 5) : ∃ o o1 tr, (LinOpt.new 3 : LinOpt 5 ℝ).setupFromVertices lib.inv vs ts k = .ok o ∧
      o.solveLinear lib.solve = .ok o1 ∧ o1.getTrajectory = .ok tr ∧ Session lib.inv lib.solve vs k ts o ∧
      LinSolved lib vs k o1 ∧ o.dimension = 3 ∧ o1.dimension = 3 ∧ o1.segmentTimes = ts ∧ tr.segments = o1.segments ∧
      tr.WF ∧ tr.D = 3 ∧ tr.N = 10 ∧ tr.getSegmentTimes = ts := by
  obtain ⟨o, o1, h1, h2, h3, h4⟩ := C30_returns (inv := lib.inv) (solve := lib.solve) hp k hk
  have h5 := h2
  rw [← session_segmentTimes h2] at h5
  obtain ⟨h6, h7, h8⟩ := lin_solve h5 h4
  obtain ⟨tr, a1, a2, a3, a4, a5, a6⟩ := h6.trajectory hl.inv
  have h9 : o1.segmentTimes = ts := by rw [h7, session_segmentTimes h2]
  exact ⟨o, o1, tr, h1, h4, a1, h2, h6, h3, by rw [h8, h3], h9, a5, a2, by rw [a3, h8, h3], a4, by rw [a6, h9]⟩

theorem runLinear_run {lib : NlLib 5 ℝ} (hl : LibSpec lib) (c : BenchSettings ℝ) (hv : 0 < c.vMax) (ha : 0 < c.aMax)
    {vs : List (Vertex ℝ)} {ts : List ℝ} (hp : Problem 5 3 vs ts) {k : ℕ} (hk : k < 5) (ho : c.order = k)
    {o o1 : LinOpt 5 ℝ} {tr : Trajectory ℝ} (h1 : (LinOpt.new 3 : LinOpt 5 ℝ).setupFromVertices lib.inv vs ts k = .ok o)
    (h2 : o.solveLinear lib.solve = .ok o1) (h3 : o1.getTrajectory = .ok tr) (hs : LinSolved lib vs k o1)
    (hd : o1.dimension = 3) : runLinear lib c vs ts = .ok (tr, benchCost k c o1.segmentTimes o1.segments) := by
  unfold runLinear
  rw [ho, h1, Res.ok_bind, h2, Res.ok_bind, h3, Res.ok_bind, linearCost_ok hl c hv ha hs hd, Res.ok_bind, Res.pure_eq]

theorem largestOn_unique {f : ℝ → ℝ} {T x y : ℝ} (hx : LargestOn f T x) (hy : LargestOn f T y) : x = y := by
  obtain ⟨⟨t, h0, h1, h2⟩, h3⟩ := hx
  obtain ⟨⟨u, g0, g1, g2⟩, g3⟩ := hy
  exact le_antisymm (h2 ▸ g3 t h0 h1) (g2 ▸ h3 u g0 g1)

theorem peaks_values {segs : List (Segment ℝ)} {mv ma : List (Extremum ℝ)} {peaks : List (ℝ × ℝ)}
    (h1 : List.Forall₂ (fun (s : Segment ℝ) (e : Extremum ℝ) => LargestOn (fun t => ‖at3 (s.evaluate t 1)‖) s.time e.value)
      segs mv)
    (h2 : List.Forall₂ (fun (s : Segment ℝ) (e : Extremum ℝ) => LargestOn (fun t => ‖at3 (s.evaluate t 2)‖) s.time e.value)
      segs ma) (h3 : List.Forall₂ Peaks segs peaks) :
    (mv.zip ma).map (fun m => (m.1.value, m.2.value)) = peaks := by
  induction h3 generalizing mv ma with
  | nil => cases h1; rfl
  | cons hp _ ih =>
    cases h1 with
    | cons a1 b1 =>
      cases h2 with
      | cons a2 b2 =>
        rw [List.zip_cons_cons, List.map_cons, ih b1 b2]
        congr 1
        exact Prod.ext (largestOn_unique a1 hp.1) (largestOn_unique a2 hp.2)

theorem violationTime_eq (c : BenchSettings ℝ) (T : ℝ) (p : ℝ × ℝ) : boundTime (violationTime c T p.1 p.2) =
    if violation c p = 1 then none else some (max (1 / 10) (T / (1 - violation c p))) := by
  unfold boundTime violationTime
  have e : max ((p.2 - c.aMax) / c.aMax) ((p.1 - c.vMax) / c.vMax) = violation c p := rfl
  rw [e]
  dsimp only
  by_cases h : violation c p = 1
  · rw [if_pos h, if_pos (by rw [h]; norm_num)]
    rfl
  · rw [if_neg h, if_neg (fun h0 => h (by linarith))]
    rfl

theorem newTimes_some (c : BenchSettings ℝ) (ts : List ℝ) (peaks : List (ℝ × ℝ)) (h : ∀ p ∈ peaks, violation c p ≠ 1) :
    List.zipWith (fun T p => boundTime (violationTime c T p.1 p.2)) ts peaks = (newTimes c ts peaks).map some := by
  unfold newTimes
  induction ts generalizing peaks with
  | nil => simp
  | cons T ts ih =>
    cases peaks with
    | nil => simp
    | cons p peaks =>
      rw [List.zipWith_cons_cons, List.zipWith_cons_cons, List.map_cons, ih _ (fun q hq => h q (by simp [hq])),
        violationTime_eq, if_neg (h p (by simp))]

theorem newTimes_none (c : BenchSettings ℝ) (ts : List ℝ) (peaks : List (ℝ × ℝ)) (hlen : ts.length = peaks.length)
    (h : ∃ p ∈ peaks, violation c p = 1) :
    (List.zipWith (fun T p => boundTime (violationTime c T p.1 p.2)) ts peaks).all (·.isSome) = false := by
  induction ts generalizing peaks with
  | nil =>
    obtain ⟨p, hp, -⟩ := h
    rw [List.length_nil] at hlen
    rw [List.length_eq_zero_iff.mp hlen.symm] at hp
    simp at hp
  | cons T ts ih =>
    cases peaks with
    | nil => simp at hlen
    | cons p peaks =>
      rw [List.zipWith_cons_cons, List.all_cons, violationTime_eq]
      by_cases hp : violation c p = 1
      · simp [hp]
      · rw [ih peaks (by simpa using hlen) (by
          obtain ⟨q, hq, h1⟩ := h
          rcases List.mem_cons.mp hq with rfl | hq
          · exact absurd h1 hp
          · exact ⟨q, hq, h1⟩)]
        simp

theorem newTimes_ge {c : BenchSettings ℝ} {ts : List ℝ} {peaks : List (ℝ × ℝ)} :
    ∀ T ∈ newTimes c ts peaks, 1 / 2 ^ 52 ≤ T := by
  intro T hT
  unfold newTimes at hT
  obtain ⟨i, hi, rfl⟩ := List.getElem_of_mem hT
  rw [List.getElem_zipWith]
  exact le_trans (by norm_num) (le_max_left _ _)

/-- The first half: what the first solution is like, and the new times. -/
theorem violationTimes_run {lib : NlLib 5 ℝ} (hl : LibSpec lib) (c : BenchSettings ℝ)
    {vs : List (Vertex ℝ)} {ts : List ℝ} (he : estimateSegmentTimes Real.sqrt Real.exp vs c.vMax c.aMax = .ok ts)
    (hp : Problem 5 3 vs ts) {k : ℕ} (ho : c.order = k)
    {o o1 : LinOpt 5 ℝ} {tr : Trajectory ℝ} (h1 : (LinOpt.new 3 : LinOpt 5 ℝ).setupFromVertices lib.inv vs ts k = .ok o)
    (h2 : o.solveLinear lib.solve = .ok o1) (h3 : o1.getTrajectory = .ok tr) (hs : LinSolved lib vs k o1)
    (hd : o1.dimension = 3) (hseg : tr.segments = o1.segments) (ht : o1.segmentTimes = ts) {peaks : List (ℝ × ℝ)}
    (hpk : List.Forall₂ Peaks tr.segments peaks) :
    violationTimes lib c vs =
      .ok (o1, List.zipWith (fun T p => boundTime (violationTime c T p.1 p.2)) ts peaks) ∧ ts.length = peaks.length := by
  obtain ⟨hg, -, -⟩ := hs.good hl.inv
  rw [hd] at hg
  obtain ⟨mv, a1, a2⟩ := maxima_ok lib.rf hl.rf (d := 1) (by omega) o1.segments hg []
  obtain ⟨ma, b1, b2⟩ := maxima_ok lib.rf hl.rf (d := 2) (by omega) o1.segments hg []
  rw [Nat.cast_one] at a1 a2
  rw [Nat.cast_ofNat] at b1 b2
  have hlen : ts.length = o1.segments.length := by
    rw [← ht, ← hs.times, List.length_map]
  rw [hseg] at hpk
  refine ⟨?_, by rw [hlen, hpk.length_eq]⟩
  unfold violationTimes
  rw [hl.sq, hl.ex, he, Res.ok_bind, ho, h1, Res.ok_bind, h2, Res.ok_bind, h3, Res.ok_bind, hseg, a1, Res.ok_bind, b1,
    Res.ok_bind]
  rw [Res.check_of (by rw [hlen, a2.length_eq]; simp), Res.ok_bind, Res.check_of (by rw [hlen, b2.length_eq]; simp),
    Res.ok_bind, Res.pure_eq]
  dsimp only
  rw [List.nil_append, List.nil_append, ← peaks_values a2 b2 hpk, List.zipWith_map_right, List.map_zipWith]

end Verif
