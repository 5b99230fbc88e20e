import Verif.Props.NonlinearDetails
import Verif.Props.Times
import Verif.Props.Magnitude
import Verif.Spec.ExamplePlanner
import Mathlib.Analysis.Calculus.IteratedDeriv.Lemmas
import Mathlib.Analysis.Calculus.ContDiff.Operations
import Mathlib.Analysis.Calculus.Deriv.MeanValue
import Mathlib.Algebra.Order.BigOperators.Group.List

/-
Lemmas about the example planners.
-/
namespace Verif

open Spec Set

set_option linter.unusedSectionVars false

/-- The constraint of order `m` of a vertex with position `p` and velocity `v` and zeros up to snap. -/
def stateOf (dim : ℕ) (p v : List ℝ) (m : ℕ) : List ℝ :=
  if m = 0 then p else if m = 1 then v else List.replicate dim 0

theorem planVertex_ok (dim : ℕ) (p v : List ℝ) (hp : p.length = dim) (hv : v.length = dim) :
    ∃ s : Vertex ℝ, ((Vertex.new dim).makeStartOrEnd p 4 >>= fun s0 => s0.addConstraint 1 v) = .ok s ∧
      s.WF ∧ s.D = dim ∧ ∀ m < 5, s.getConstraint ((m : ℕ) : ℤ) = some (stateOf dim p v m) := by
  have h1 := makeStartOrEnd_ok (Vertex.new dim : Vertex ℝ) p 4 hp
  rw [h1, Res.ok_bind, addConstraint_ok _ 1 v hv]
  refine ⟨_, rfl, ?_, rfl, fun m hm => ?_⟩
  · refine insert_WF (zeroDerivatives_WF _ _ _ _ (insert_WF ?_ 0 p hp)) 1 v hv
    exact vertex_new_WF dim
  · unfold Vertex.getConstraint
    dsimp only
    rw [mapFind_insert, zeroDerivatives_find, mapFind_insert]
    unfold stateOf
    interval_cases m <;> simp [Vertex.new]

theorem planVertices_ok (dim : ℕ) (p v q w : List ℝ) (hp : p.length = dim) (hv : v.length = dim)
    (hq : q.length = dim) (hw : w.length = dim) :
    ∃ s e : Vertex ℝ, planVertices dim p v q w = .ok [s, e] ∧ s.WF ∧ s.D = dim ∧ e.WF ∧ e.D = dim ∧
      (∀ m < 5, s.getConstraint ((m : ℕ) : ℤ) = some (stateOf dim p v m)) ∧
      ∀ m < 5, e.getConstraint ((m : ℕ) : ℤ) = some (stateOf dim q w m) := by
  obtain ⟨s, h1, h2, h3, h4⟩ := planVertex_ok dim p v hp hv
  obtain ⟨e, g1, g2, g3, g4⟩ := planVertex_ok dim q w hq hw
  refine ⟨s, e, ?_, h2, h3, g2, g3, h4, g4⟩
  rw [Res.bind_eq_ok] at h1 g1
  obtain ⟨s0, a1, a2⟩ := h1
  obtain ⟨e0, b1, b2⟩ := g1
  unfold planVertices
  rw [a1, Res.ok_bind, a2, Res.ok_bind, b1, Res.ok_bind, b2]
  rfl

theorem addSoft {h : ℕ} (o : NlOpt h ℝ) (d : ℤ) (x : ℝ) (hd : 0 ≤ d) (hx : 0 ≤ x)
    (hs : o.params.useSoft = true) :
    o.addMaximumMagnitudeConstraint true d x =
      .ok (true, { o with constraints := o.constraints ++ [⟨d, x⟩] }) := by
  unfold NlOpt.addMaximumMagnitudeConstraint
  rw [Res.check_of hd, Res.ok_bind, Res.check_of hx, Res.ok_bind]
  dsimp only
  rw [if_pos hs, Res.pure_eq]

theorem planSetup_ok {lib : NlLib 5 ℝ} (hl : LibSpec lib) (dim : ℕ) (hdim : 0 < dim) (p v q w : List ℝ)
    (hp : p.length = dim) (hv : v.length = dim) (hq : q.length = dim) (hw : w.length = dim)
    (vMax aMax : ℝ) (hvm : 0 < vMax) (ham : 0 < aMax) (hfar : vMax / 2 ^ 53 ≤ distance p q) :
    ∃ (s e : Vertex ℝ) (o : NlOpt 5 ℝ), planSetup lib dim p v q w vMax aMax = .ok o ∧
      NlSession lib [s, e] 4 False o ∧ o.params = NlParams.default ∧
      o.constraints = [⟨1, vMax⟩, ⟨2, aMax⟩] ∧ o.lin.dimension = dim ∧
      (∃ o1, o.solveLinear lib = .ok o1) ∧
      (∀ m < 5, s.getConstraint ((m : ℕ) : ℤ) = some (stateOf dim p v m)) ∧
      ∀ m < 5, e.getConstraint ((m : ℕ) : ℤ) = some (stateOf dim q w m) := by
  obtain ⟨s, e, h1, h2, h3, h4, h5, h6, h7⟩ := planVertices_ok dim p v q w hp hv hq hw
  have hs0 : s.getConstraint 0 = some p := h6 0 (by norm_num)
  have he0 : e.getConstraint 0 = some q := h7 0 (by norm_num)
  obtain ⟨ts, t1, t2, t3⟩ := C27_times_partial dim [s, e] (by simp) (by
    intro x hx
    simp only [List.mem_cons, List.not_mem_nil, or_false] at hx
    rcases hx with rfl | rfl
    · exact ⟨p, hs0, hp⟩
    · exact ⟨q, he0, hq⟩) vMax aMax 6.5 hvm ham (by norm_num)
  have hts : ∃ T, ts = [T] := by
    match ts, t2 with
    | [T], _ => exact ⟨T, rfl⟩
  obtain ⟨T, rfl⟩ := hts
  obtain ⟨t4, -, -⟩ := t3 0 (by simp) (by simp) p q hs0 he0
  have hT : (1 : ℝ) / 2 ^ 52 ≤ T := by
    refine le_trans ?_ t4
    rw [le_div_iff₀ hvm]
    calc 1 / 2 ^ 52 * vMax = 2 * (vMax / 2 ^ 53) := by ring
      _ ≤ 2 * distance p q := by linarith
  have hprob : Problem 5 dim [s, e] [T] := by
    refine ⟨by simp, by simp, ?_, ?_, hdim, by norm_num⟩
    · intro x hx
      rw [List.mem_singleton] at hx
      rw [hx]; exact hT
    · intro x hx
      simp only [List.mem_cons, List.not_mem_nil, or_false] at hx
      rcases hx with rfl | rfl
      · exact ⟨h2, h3⟩
      · exact ⟨h4, h5⟩
  obtain ⟨o, g1, g2, g3, g4, g5, g6, o1, g7⟩ := nl_new (lib := lib) hprob (k := 4) (by norm_num)
    NlParams.default
  have hsoft : o.params.useSoft = true := by rw [g3]; rfl
  have e1 := addSoft o 1 vMax (by norm_num) hvm.le hsoft
  have e2 := addSoft { o with constraints := o.constraints ++ [⟨1, vMax⟩] } 2 aMax (by norm_num) ham.le hsoft
  have hsess := NlSession.add (NlSession.add g2 e1) e2
  obtain ⟨l, g7, -⟩ := solveLinear_nl_inv g7
  refine ⟨s, e, _, ?_, hsess, g3, ?_, g5, ?_, h6, h7⟩
  · unfold planSetup
    rw [h1, Res.ok_bind, hl.sq, hl.ex, C27_default, t1, Res.ok_bind,
      show ((4 : ℤ)) = ((4 : ℕ) : ℤ) from rfl, g1, Res.ok_bind, e1, Res.ok_bind]
    dsimp only
    rw [e2, Res.ok_bind]
    rfl
  · dsimp only
    rw [g4]
    rfl
  · unfold NlOpt.solveLinear
    dsimp only
    rw [g7, Res.ok_bind]
    exact ⟨_, rfl⟩

theorem component_ext {r : Res (List ℝ)} {c v : List ℝ} {n : ℕ} (hr : r = .ok v) (hv : v.length = n)
    (hc : c.length = n) (h : ∀ d < n, component r d = c.getD d 0) : r = .ok c := by
  rw [hr] at h ⊢
  congr 1
  apply List.ext_getElem (by rw [hv, hc])
  intro i h1 h2
  have := h i (by omega)
  simp only [component, List.getD_eq_getElem?_getD, List.getElem?_eq_getElem h1,
    List.getElem?_eq_getElem h2, Option.getD_some] at this
  exact this

/-- What one call of the optimiser gives. -/
theorem planOptimize_ok {lib : NlLib 5 ℝ} (hl : LibSpec lib) (dim : ℕ) (hdim : 0 < dim) (p v q w : List ℝ)
    (hp : p.length = dim) (hv : v.length = dim) (hq : q.length = dim) (hw : w.length = dim)
    (vMax aMax : ℝ) (hvm : 0 < vMax) (ham : 0 < aMax) (hfar : vMax / 2 ^ 53 ≤ distance p q) :
    ∃ o, planSetup lib dim p v q w vMax aMax = .ok o ∧ ∀ run, RunOf lib false o run →
      ∃ tr, planOptimize lib run o = .ok tr ∧ tr.WF ∧ tr.D = dim ∧ tr.N = 10 ∧ GoesFromTo tr p v q w ∧
        (run.setupThrows = false → ∀ x, (points run.queries).getLast? = some x →
          tr.getSegmentTimes = x.take 1) := by
  obtain ⟨s, e, o, h1, h2, h3, h4, h5, h6, h7, h8⟩ := planSetup_ok hl dim hdim p v q w hp hv hq hw vMax aMax
    hvm ham hfar
  refine ⟨o, h1, fun run hrun => ?_⟩
  have hmeth : o.params.method = .squaredTimeAndConstraints := by rw [h3]; rfl
  obtain ⟨c, o', ho⟩ := C67_returns hl h2 h6 (by rw [hmeth]; exact hrun) (by
    rw [h4]
    intro x hx
    simp only [List.mem_cons, List.not_mem_nil, or_false] at hx
    rcases hx with rfl | rfl
    · exact ⟨by norm_num, by norm_num, hvm⟩
    · exact ⟨by norm_num, by norm_num, ham⟩) (by rw [hmeth]; intro hx; cases hx)
  have hwd : withDerivatives o.params.method := .inl hmeth
  obtain ⟨hs', -⟩ := C65_computed hl.inv h2 hrun ho (by rw [hmeth]; simp) (.inl hwd)
  obtain ⟨-, -, hshape, hcount, hpos⟩ := C65_meets_constraints hl.inv hs' trivial
  obtain ⟨tr, k1, k2, k3, k4, k5⟩ := C65_trajectory hl.inv hs' trivial
  have hdim' : o'.lin.dimension = dim := by
    rw [← h5]
    exact (optimize_inv (nlSession_inv h2).1 hrun ho).2.2.1
  obtain ⟨T, hT⟩ : ∃ T, o'.lin.segmentTimes = [T] := by
    match h : o'.lin.segmentTimes with
    | [] => rw [h] at hcount; simp at hcount
    | [T] => exact ⟨T, rfl⟩
    | _ :: _ :: _ => rw [h] at hcount; simp at hcount
  have hT0 : 0 < T := hpos T (by rw [hT]; simp)
  have hmax : tr.maxTime = T := by rw [k4, hT]; simp
  have hsegs : tr.segments = o'.lin.segments := by
    unfold LinOpt.getTrajectory at k1
    obtain ⟨-, -, g, -⟩ := (setSegments_ok_iff _ _).mp k1
    exact g
  have hlen1 : tr.segments.length = 1 := by
    rw [hsegs, ← List.length_map (f := Segment.time), hshape.durations, hT]
    rfl
  have hne : tr.segments ≠ [] := by
    intro h0; rw [h0] at hlen1; simp at hlen1
  have hev : ∀ (i : ℕ) (x : Vertex ℝ) (a b : List ℝ) (t : ℝ), [s, e][i]? = some x → a.length = dim →
      b.length = dim → (∀ m < 5, x.getConstraint ((m : ℕ) : ℤ) = some (stateOf dim a b m)) →
      startTime o'.lin.segmentTimes i = t → 0 ≤ t → t ≤ tr.maxTime →
      ∀ m < 5, tr.evaluate t ((m : ℕ) : ℤ) = .ok (stateOf dim a b m) := by
    intro i x a b t hx ha hb hc hst ht0 ht1 m hm
    obtain ⟨y, hy, hyl⟩ := C10_returns tr k2 hne m t ht0 ht1
    refine component_ext hy (n := dim) (by rw [hyl, k3, hdim']) ?_ fun d hd => ?_
    · unfold stateOf; split_ifs <;> simp [ha, hb]
    · have := k5 i x hx m hm _ (hc m hm) d (by rw [hdim']; exact hd)
      rw [hst] at this
      exact this
  have h0 := hev 0 s p v 0 rfl hp hv h7 (by simp [startTime]) le_rfl (by rw [hmax]; exact hT0.le)
  have hE := hev 1 e q w tr.maxTime rfl hq hw h8 (by simp [startTime, hT, hmax])
    (by rw [hmax]; exact hT0.le) le_rfl
  refine ⟨tr, ?_, k2, by rw [k3, hdim'], ?_, ?_, ?_⟩
  · unfold planOptimize
    rw [ho, Res.ok_bind]
    exact k1
  · match hseg : tr.segments, hlen1 with
    | [sg], _ =>
      have hmem : sg ∈ tr.segments := by rw [hseg]; simp
      have hmem' : sg ∈ o'.lin.segments := by rw [← hsegs]; exact hmem
      have hl := hshape.dims sg hmem'
      rw [hdim'] at hl
      obtain ⟨pl, hpl⟩ : ∃ pl, pl ∈ sg.polys := by
        cases hh : sg.polys with
        | nil => rw [hh] at hl; simp at hl; omega
        | cons a b => exact ⟨a, by simp⟩
      rw [← k2.coeffs sg hmem, ← (k2.wf sg hmem).polysN pl hpl]
      exact hshape.coeffs sg hmem' pl hpl
  · refine ⟨hlen1, by rw [hmax]; exact hT0, h0 0 (by norm_num), h0 1 (by norm_num), ?_, hE 0 (by norm_num),
      hE 1 (by norm_num), ?_⟩
    · intro m hm1 hm2
      rw [h0 m (by omega), hp]
      unfold stateOf
      rw [if_neg (by omega), if_neg (by omega)]
    · intro m hm1 hm2
      rw [hE m (by omega), hp]
      unfold stateOf
      rw [if_neg (by omega), if_neg (by omega)]
  · intro hthrow x hx
    have := (C68_last_point_derivatives_partial hl h2 hrun ho hwd hthrow hx).1
    unfold Trajectory.getSegmentTimes
    rw [hsegs]
    have hd := hshape.durations
    rw [this] at hd
    simpa using hd

theorem scaleToMeetLoop_N (rf : RootFinder ℝ) (sq : ℝ → ℝ) (vMax aMax : ℝ) :
    ∀ (n : ℕ) (tr r : Trajectory ℝ) (b : Bool), scaleToMeetLoop rf sq vMax aMax n tr = .ok (b, r) →
      r.N = tr.N := by
  intro n
  induction n with
  | zero =>
    intro tr r b h
    rw [scaleToMeetLoop] at h
    injection h with h
    injection h with _ h
    rw [h]
  | succ n ih =>
    intro tr r b h
    rw [scaleToMeetLoop, Res.bind_eq_ok] at h
    obtain ⟨x, -, h⟩ := h
    dsimp only at h
    split_ifs at h
    · injection h with h
      injection h with _ h
      rw [h]
    · exact (ih _ _ _ h : r.N = (tr.scaleCore _).N)

/-- A trajectory of one segment. -/
theorem evaluate_one (tr : Trajectory ℝ) (h : tr.WF) (s : Segment ℝ) (hs : tr.segments = [s]) (t : ℝ)
    (h0 : 0 ≤ t) (h1 : t ≤ tr.maxTime) (k : ℕ) :
    s.time = tr.maxTime ∧ tr.evaluate t k = .ok (valuesAt s.polys k t) := by
  have hT : tr.maxTime = s.time := by
    rw [h.total]; unfold Trajectory.getSegmentTimes; rw [hs]; simp
  refine ⟨hT.symm, ?_⟩
  rcases h1.eq_or_lt with rfl | h1
  · rw [C09_end tr h (by rw [hs]; simp) k]
    simp only [hs, List.getLast_singleton, hT]
  · have hts : tr.getSegmentTimes = [s.time] := by unfold Trajectory.getSegmentTimes; rw [hs]; rfl
    have := C09_inside tr h 0 (by rw [hs]; simp) t (by simpa [startTime] using h0)
      (by rw [hts]; simpa [startTime, ← hT] using h1) k
    rw [this]
    simp [hs, startTime]

theorem contDiff_curve (c : List ℝ) (n : ℕ) : ContDiff ℝ n (curve c) := by
  unfold curve
  exact ContDiff.sum fun j _ => contDiff_const.mul (contDiff_id.pow j)

/-- Two motions which run through the same positions at speeds in the ratio `k`. -/
theorem curve_slowed {a b : List ℝ} {k : ℝ} (h : ∀ t, curve a t = curve b (k * t)) (m : ℕ) (t : ℝ) :
    iteratedDeriv m (curve a) t = k ^ m * iteratedDeriv m (curve b) (k * t) := by
  have : curve a = fun t => curve b (k * t) := funext h
  rw [this, iteratedDeriv_comp_const_mul (contDiff_curve b m)]

theorem append_one (tr a : Trajectory ℝ) (h : tr.WF) (ha : a.WF) (h1 : tr.segments.length = 1)
    (h2 : a.segments.length = 1) (hN : 0 < tr.N) (hNN : tr.N = a.N) (hD : 0 < tr.D) (hDa : 0 < a.D)
    (hT : 0 < tr.maxTime) (hTa : 0 < a.maxTime) :
    ∃ r, tr.withAppendedDimension a = .ok (some r) ∧ r.WF ∧ r.D = tr.D + a.D ∧ r.segments.length = 1 ∧
      r.maxTime = max tr.maxTime a.maxTime ∧
      ∀ t ∈ Icc 0 r.maxTime, ∀ m : ℕ, ∃ u w, tr.evaluate (tr.maxTime / r.maxTime * t) m = .ok u ∧
        a.evaluate (a.maxTime / r.maxTime * t) m = .ok w ∧
        r.evaluate t m = .ok (u.map ((tr.maxTime / r.maxTime) ^ m * ·) ++
          w.map ((a.maxTime / r.maxTime) ^ m * ·)) := by
  obtain ⟨r, g1, g2, g3, g4, g5, g6⟩ := trajectory_append_ok tr a h ha (by omega) (by omega) hN
    (by omega) hD hDa (.inl hNN)
  obtain ⟨s, hs⟩ := List.length_eq_one_iff.mp h1
  obtain ⟨s', hs'⟩ := List.length_eq_one_iff.mp h2
  obtain ⟨q, hq⟩ := List.length_eq_one_iff.mp (g4.trans h1)
  have ap := g6 0 (by omega) (by omega) (by omega)
  simp only [hs, hs', hq, List.getElem_cons_zero] at ap
  have ts := (evaluate_one tr h s hs 0 le_rfl hT.le 0).1
  have ts' := (evaluate_one a ha s' hs' 0 le_rfl hTa.le 0).1
  have ds : s.polys.length = tr.D := h.dims s (by rw [hs]; simp)
  have ds' : s'.polys.length = a.D := ha.dims s' (by rw [hs']; simp)
  have ns : s.N = tr.N := h.coeffs s (by rw [hs]; simp)
  have ns' : s'.N = a.N := ha.coeffs s' (by rw [hs']; simp)
  have hqT : q.time = max tr.maxTime a.maxTime := by rw [ap.time, ts, ts']
  have hrT : r.maxTime = q.time := by
    rw [g5]; unfold Trajectory.getSegmentTimes; rw [hq]; simp
  have hq0 : 0 < q.time := by rw [hqT]; exact lt_max_of_lt_left hT
  have hwf : r.WF := by
    refine ⟨?_, ?_, g5, ?_, ?_⟩ <;> intro x hx <;> rw [hq, List.mem_singleton] at hx <;> subst hx
    · unfold Segment.D; rw [ap.D, g2, ds, ds']
    · rw [ap.N, g3, ns, ns']
    · refine ⟨ap.polysN, ?_⟩
      rw [ap.N]
      exact max_le (h.wf s (by rw [hs]; simp)).small (ha.wf s' (by rw [hs']; simp)).small
    · exact hq0.le
  refine ⟨r, g1, hwf, g2, g4.trans h1, hrT.trans hqT, fun t ht m => ?_⟩
  have bound : ∀ T, 0 < T → T ≤ q.time → 0 ≤ T / q.time * t ∧ T / q.time * t ≤ T := by
    intro T h0 h1
    refine ⟨mul_nonneg (div_nonneg h0.le hq0.le) ht.1, ?_⟩
    rw [div_mul_eq_mul_div, div_le_iff₀ hq0]
    exact mul_le_mul_of_nonneg_left (hrT ▸ ht.2) h0.le
  have b1 := bound tr.maxTime hT (by rw [hqT]; exact le_max_left _ _)
  have b2 := bound a.maxTime hTa (by rw [hqT]; exact le_max_right _ _)
  rw [hrT]
  refine ⟨_, _, (evaluate_one tr h s hs _ b1.1 b1.2 m).2, (evaluate_one a ha s' hs' _ b2.1 b2.2 m).2, ?_⟩
  rw [(evaluate_one r hwf q hq t ht.1 ht.2 m).2]
  congr 1
  have c1 : ∀ d (hd : d < s.polys.length) (hr : d < q.polys.length) (x : ℝ),
      curve q.polys[d].coeffs x = curve s.polys[d].coeffs (tr.maxTime / q.time * x) := by
    intro d hd hr x
    have := ap.first d hd hr (x / q.time)
    rw [← iteratedDeriv_curve, ← iteratedDeriv_curve, iteratedDeriv_zero, iteratedDeriv_zero, ts] at this
    rw [div_mul_cancel₀ _ hq0.ne'] at this
    rw [this]
    congr 1
    ring
  have c2 : ∀ d (hd : d < s'.polys.length) (hr : s.polys.length + d < q.polys.length) (x : ℝ),
      curve q.polys[s.polys.length + d].coeffs x = curve s'.polys[d].coeffs (a.maxTime / q.time * x) := by
    intro d hd hr x
    have := ap.second d hd hr (x / q.time)
    rw [← iteratedDeriv_curve, ← iteratedDeriv_curve, iteratedDeriv_zero, iteratedDeriv_zero, ts'] at this
    rw [div_mul_cancel₀ _ hq0.ne'] at this
    rw [this]
    congr 1
    ring
  have hD := ap.D
  apply List.ext_getElem
  · simp [valuesAt, hD]
  · intro d hd1 hd2
    simp only [valuesAt, List.length_map] at hd1
    by_cases hd : d < s.polys.length
    · rw [List.getElem_append_left (by simpa [valuesAt] using hd)]
      simp only [valuesAt, List.getElem_map]
      exact curve_slowed (c1 d hd hd1) m t
    · rw [List.getElem_append_right (by simpa [valuesAt] using hd)]
      simp only [valuesAt, List.getElem_map, List.length_map]
      obtain ⟨e, rfl⟩ : ∃ e, d = s.polys.length + e := ⟨d - s.polys.length, by omega⟩
      simp only [Nat.add_sub_cancel_left]
      exact curve_slowed (c2 e (by omega) hd1) m t

theorem map_getD_norm {v : List ℝ} {n : ℕ} (h : v.length = n) : (v.drop 0).take n = v := by
  rw [List.drop_zero, List.take_of_length_le h.le]

/-- What a scaled plan is. -/
theorem planFrom_ok {lib : NlLib 5 ℝ} (hl : LibSpec lib) (dim : ℕ) (hdim : 0 < dim) (p v q w : List ℝ)
    (hp : p.length = dim) (hv : v.length = dim) (hq : q.length = dim) (hw : w.length = dim)
    (vMax aMax : ℝ) (hvm : 0 < vMax) (ham : 0 < aMax) (hfar : vMax / 2 ^ 53 ≤ distance p q) :
    ∃ o, planSetup lib dim p v q w vMax aMax = .ok o ∧ ∀ run, RunOf lib false o run →
      ∃ tr, planOptimize lib run o = .ok tr ∧ (FiniteVA tr →
        ∃ r, planFrom lib run q w p v vMax aMax = .ok r ∧ r.WF ∧ r.D = dim ∧ r.N = 10 ∧
          SlowedFromTo r p v q w ∧ NormAtMost r 1 0 dim ((1 + 1 / 1000) * vMax) ∧
          NormAtMost r 2 0 dim ((1 + 1 / 1000) * aMax) ∧ tr.maxTime ≤ r.maxTime ∧
          ∃ c, 1 ≤ c ∧ r.maxTime = tr.maxTime * c ∧ tr.evaluate 0 1 = .ok v ∧
            r.evaluate 0 1 = .ok (v.map (· / c))) := by
  obtain ⟨o, h1, h2⟩ := planOptimize_ok hl dim hdim p v q w hp hv hq hw vMax aMax hvm ham hfar
  refine ⟨o, h1, fun run hrun => ?_⟩
  obtain ⟨tr, h3, h4, h5, h6, h7, -⟩ := h2 run hrun
  refine ⟨tr, h3, fun hfin => ?_⟩
  have hne : tr.segments ≠ [] := by
    intro h0
    have := h7.one
    rw [h0] at this
    simp at this
  obtain ⟨r, c, g1, g2, g3, g4, g5, g6, g7, g8, -⟩ := scaleToMeet_ok lib.rf hl.rf tr h4 hne
    (by omega) (by omega) hfin vMax aMax hvm ham
  obtain ⟨r', c', k1, -, -, -, -, k2, k3, -⟩ := C18_meets_limits_partial lib.rf hl.rf tr h4 hne
    (by omega) (by omega) hfin vMax aMax hvm ham
  have hrr : r' = r := by
    rw [g1] at k1
    injection k1 with k1
    injection k1 with _ k1
    exact k1.symm
  subst hrr
  have hc : 0 < c := lt_of_lt_of_le one_pos g2
  have e0 : ∀ m : ℕ, r'.evaluate 0 m = (fun v => v.map (· / c ^ m)) <$> tr.evaluate 0 m := by
    intro m
    have := g8 0 m
    rwa [mul_zero] at this
  have e1 : ∀ m : ℕ, r'.evaluate r'.maxTime m =
      (fun v => v.map (· / c ^ m)) <$> tr.evaluate tr.maxTime m := by
    intro m
    have := g8 tr.maxTime m
    rwa [mul_comm, ← g7] at this
  have z : ∀ {y : List ℝ}, y.map (· / c ^ 0) = y := by intro y; simp
  have z1 : ∀ {y : List ℝ}, y.map (· / c ^ 1) = y.map (· * c⁻¹) := by
    intro y; simp [div_eq_mul_inv]
  have zr : ∀ m : ℕ, (List.replicate p.length (0 : ℝ)).map (· / c ^ m) = List.replicate p.length 0 := by
    intro m; simp
  have s0 := h7.startPosition
  have s1 := h7.startVelocity
  have s2 := h7.goalPosition
  have s3 := h7.goalVelocity
  refine ⟨r', ?_, g3, by omega, ?_, ⟨?_, ?_, ?_, ?_, ⟨c⁻¹, inv_pos.mpr hc, inv_le_one_of_one_le₀ g2, ?_, ?_⟩, ?_⟩,
    ?_, ?_, ?_, c, g2, g7, s1, ?_⟩
  · unfold planFrom
    rw [hq, h1, Res.ok_bind, h3, Res.ok_bind, hl.sq, g1, Res.ok_bind]
    rfl
  · rw [← h6]
    exact scaleToMeetLoop_N _ _ _ _ _ _ _ _ g1
  · rw [← h7.one, ← List.length_map (as := r'.segments) (f := Segment.time),
      ← List.length_map (as := tr.segments) (f := Segment.time)]
    show r'.getSegmentTimes.length = tr.getSegmentTimes.length
    rw [g6]; simp
  · rw [g7]; exact mul_pos h7.duration hc
  · have := e0 0
    rw [Nat.cast_zero, s0] at this
    rw [this, Res.map_ok, z]
  · have := e1 0
    rw [Nat.cast_zero, s2] at this
    rw [this, Res.map_ok, z]
  · have := e0 1
    rw [Nat.cast_one, s1] at this
    rw [this, Res.map_ok, z1]
  · have := e1 1
    rw [Nat.cast_one, s3] at this
    rw [this, Res.map_ok, z1]
  · intro m hm1 hm2
    rw [e0, e1, h7.startRest m hm1 hm2, h7.goalRest m hm1 hm2, Res.map_ok, zr]
    exact ⟨rfl, rfl⟩
  · intro t ht
    obtain ⟨y, y1, y2, y3⟩ := k2 t ht
    refine ⟨y, y1, by rw [y2, g5], ?_⟩
    rw [map_getD_norm (by rw [y2, h5])]
    exact y3
  · intro t ht
    obtain ⟨y, y1, y2, y3⟩ := k3 t ht
    refine ⟨y, y1, by rw [y2, g5], ?_⟩
    rw [map_getD_norm (by rw [y2, h5])]
    exact y3
  · rw [g7]
    have := h7.duration
    nlinarith
  · have := e0 1
    rw [Nat.cast_one, s1] at this
    rw [this, Res.map_ok]
    simp

/-- One evaluation of the objective function, at any admissible time, is a possible run. -/
theorem planRun_ok {lib : NlLib 5 ℝ} (hl : LibSpec lib) (dim : ℕ) (hdim : 0 < dim) (p v q w : List ℝ)
    (hp : p.length = dim) (hv : v.length = dim) (hq : q.length = dim) (hw : w.length = dim)
    (vMax aMax : ℝ) (hvm : 0 < vMax) (ham : 0 < aMax) (hfar : vMax / 2 ^ 53 ≤ distance p q) (T : ℝ)
    (h1 : 1 / 10 ≤ T) (h2 : T ≤ dblMax) (o : NlOpt 5 ℝ)
    (ho : planSetup lib dim p v q w vMax aMax = .ok o) :
    RunOf lib false o ⟨false, [.objective [T] false], some 5, true⟩ := by
  obtain ⟨s, e, o', g1, g2, g3, g4, g5, g6, g7, g8⟩ := planSetup_ok hl dim hdim p v q w hp hv hq hw vMax
    aMax hvm ham hfar
  rw [ho] at g1
  injection g1 with g1
  subst g1
  intro hu pp a hd hprep hh
  have hwd : withDerivatives o.params.method := by rw [g3]; exact .inl rfl
  have hwi := C70_start_within g2 hu hprep (.inl hwd)
  obtain ⟨-, hlen, htk, -⟩ := C70_start_derivatives hl g2 hwd hprep
  have hfree : freeOrder 5 [s, e] = [] := by
    unfold freeOrder
    rw [List.flatMap_eq_nil_iff]
    intro i hi
    rw [List.map_eq_nil_iff, List.filter_eq_nil_iff]
    intro m hm
    rw [List.mem_range] at hi hm
    simp only [List.length_cons, List.length_nil] at hi
    interval_cases i <;> simp [g7 m hm, g8 m hm]
  rw [hfree] at hlen
  simp only [List.length_cons, List.length_nil, mul_zero] at hlen htk
  obtain ⟨T0, hT0⟩ : ∃ T0, o.lin.segmentTimes = [T0] := by
    rw [← htk]
    exact List.length_eq_one_iff.mp (by rw [List.length_take, hlen]; simp)
  obtain ⟨b1, b2, b3⟩ := C71_time_bounds g2 hwd hprep 0 T0 (by rw [hT0]; rfl)
  obtain ⟨x, hx⟩ := List.length_eq_one_iff.mp (hwi.1.length_eq.trans hlen)
  obtain ⟨y, hy⟩ := List.length_eq_one_iff.mp (hwi.2.length_eq.symm.trans hlen)
  rw [hx] at b2
  rw [hy] at b3
  simp only [List.getElem?_cons_zero, Option.some.injEq] at b2 b3
  refine ⟨?_, ?_, ?_⟩
  · intro z g hz
    simp only [List.mem_singleton, NlQuery.objective.injEq] at hz
    obtain ⟨rfl, rfl⟩ := hz
    refine ⟨⟨?_, ?_⟩, rfl⟩
    · rw [hx, b2]
      exact .cons (le_trans (min_le_right _ _) h1) .nil
    · rw [hy, b3]
      exact .cons (le_trans h2 (le_max_right _ _)) .nil
  · intro i z g hz
    simp at hz
  · intro _
    exact ⟨[T], false, by simp⟩

/-- A motion of one segment of `h + h` coefficients is determined by its duration and its derivatives at
the two ends. -/
theorem plan_unique {tr : Trajectory ℝ} (h : tr.WF) (hN : tr.N = 10) (h1 : tr.segments.length = 1)
    (hT : 0 < tr.maxTime) (cs : List (List ℝ)) (hcs : ∀ c ∈ cs, c.length = 10)
    (h0 : ∀ m < 5, tr.evaluate 0 ((m : ℕ) : ℤ) = .ok (cs.map fun c => derivAt c m 0))
    (hE : ∀ m < 5, tr.evaluate tr.maxTime ((m : ℕ) : ℤ) = .ok (cs.map fun c => derivAt c m tr.maxTime)) :
    tr.segments = [⟨cs.map Poly.mk, tr.maxTime, 10⟩] := by
  obtain ⟨s, hs⟩ := List.length_eq_one_iff.mp h1
  have e0 : ∀ m < 5, s.polys.map (fun p => derivAt p.coeffs m 0) = cs.map fun c => derivAt c m 0 := by
    intro m hm
    have := (evaluate_one tr h s hs 0 le_rfl hT.le m).2
    rw [h0 m hm] at this
    injection this with this
    rw [this, ← segValue_eq_valuesAt]
    rfl
  have e1 : ∀ m < 5, s.polys.map (fun p => derivAt p.coeffs m tr.maxTime) =
      cs.map fun c => derivAt c m tr.maxTime := by
    intro m hm
    have := (evaluate_one tr h s hs _ hT.le le_rfl m).2
    rw [hE m hm] at this
    injection this with this
    rw [this, ← segValue_eq_valuesAt]
    rfl
  have hlen : s.polys.length = cs.length := by
    simpa using congrArg List.length (e0 0 (by norm_num))
  have hw := h.wf s (by rw [hs]; simp)
  have hsN : s.N = 10 := by rw [h.coeffs s (by rw [hs]; simp), hN]
  have hp : s.polys = cs.map Poly.mk := by
    apply List.ext_getElem (by simpa using hlen)
    intro d hd1 hd2
    have hd3 : d < cs.length := by omega
    rw [List.getElem_map]
    have hc : s.polys[d].coeffs = cs[d] := by
      refine C28_endpoints_determine (h := 5) _ _ ?_ (hcs _ (List.getElem_mem hd3)) tr.maxTime hT.ne' ?_ ?_
      · have := hw.polysN _ (List.getElem_mem hd1)
        rw [hsN] at this
        exact this
      · intro m hm
        have := congrArg (fun l => l[d]?) (e0 m hm)
        simpa [List.getElem?_map, List.getElem?_eq_getElem hd1, List.getElem?_eq_getElem hd3] using this
      · intro m hm
        have := congrArg (fun l => l[d]?) (e1 m hm)
        simpa [List.getElem?_map, List.getElem?_eq_getElem hd1, List.getElem?_eq_getElem hd3] using this
    rw [← hc]
  rw [hs, ← hp, ← hsN, ← (evaluate_one tr h s hs 0 le_rfl hT.le 0).1]

/-- A function that moves by `d` within a time `T` has somewhere the derivative `d / T`. -/
theorem mean_speed (c : List ℝ) (T : ℝ) (hT : 0 < T) :
    ∃ t ∈ Ioo 0 T, iteratedDeriv 1 (curve c) t = (curve c T - curve c 0) / T := by
  have hd : Differentiable ℝ (curve c) := (contDiff_curve c 1).differentiable (by norm_num)
  obtain ⟨t, ht, h⟩ := exists_deriv_eq_slope (curve c) hT hd.continuous.continuousOn
    hd.differentiableOn
  exact ⟨t, ht, by rw [iteratedDeriv_one, h, sub_zero]⟩

theorem component_le_norm (l : List ℝ) (x : ℝ) (hx : x ∈ l) : x ≤ Real.sqrt ((l.map (· ^ 2)).sum) := by
  apply Real.le_sqrt_of_sq_le
  have hm : x ^ 2 ∈ l.map (· ^ 2) := List.mem_map.mpr ⟨x, hx, rfl⟩
  refine List.single_le_sum ?_ _ hm
  intro y hy
  obtain ⟨z, -, rfl⟩ := List.mem_map.mp hy
  exact sq_nonneg z

/-- A motion of one segment whose first coordinate moves by `d` reaches a speed of at least the average. -/
theorem fast_somewhere {tr : Trajectory ℝ} (h : tr.WF) (h1 : tr.segments.length = 1) (hT : 0 < tr.maxTime)
    (x y : ℝ) (p q : List ℝ) (h0 : tr.evaluate 0 0 = .ok (x :: p)) (hE : tr.evaluate tr.maxTime 0 = .ok (y :: q)) :
    ∃ t ∈ Ioo 0 tr.maxTime, ∃ u, tr.evaluate t 1 = .ok u ∧
      (y - x) / tr.maxTime ≤ Real.sqrt ((u.map (· ^ 2)).sum) := by
  obtain ⟨s, hs⟩ := List.length_eq_one_iff.mp h1
  have a0 := (evaluate_one tr h s hs 0 le_rfl hT.le 0).2
  have aE := (evaluate_one tr h s hs _ hT.le le_rfl 0).2
  rw [Nat.cast_zero] at a0 aE
  rw [h0] at a0
  rw [hE] at aE
  injection a0 with a0
  injection aE with aE
  cases hp : s.polys with
  | nil => rw [hp] at a0; simp [valuesAt] at a0
  | cons f fs =>
    rw [hp] at a0 aE
    simp only [valuesAt, List.map_cons, List.cons.injEq, iteratedDeriv_zero] at a0 aE
    obtain ⟨t, ht, e⟩ := mean_speed f.coeffs tr.maxTime hT
    have at' := (evaluate_one tr h s hs t ht.1.le ht.2.le 1).2
    refine ⟨t, ht, _, by simpa using at', ?_⟩
    apply component_le_norm
    rw [a0.1, aE.1, ← e, hp]
    simp [valuesAt]

theorem le_distance_of_sq {a b : List ℝ} {x : ℝ}
    (h : x ^ 2 ≤ ∑ i ∈ Finset.range a.length, (a.getD i 0 - b.getD i 0) ^ 2) : x ≤ distance a b :=
  Real.le_sqrt_of_sq_le h

theorem le_dblMax {x : ℝ} (h : x ≤ 1000000) : x ≤ dblMax := by
  unfold dblMax
  have h1 : (1 : ℝ) ≤ 2 ^ 971 := one_le_pow₀ (by norm_num)
  have h2 : (1000000 : ℝ) ≤ 2 ^ 53 - 1 := by norm_num
  calc x ≤ 1000000 * 1 := by linarith
    _ ≤ (2 ^ 53 - 1) * 2 ^ 971 := mul_le_mul h2 h1 zero_le_one (le_trans (by norm_num) h2)

theorem norm_scaled_le (u : List ℝ) (k : ℝ) (h0 : 0 ≤ k) (h1 : k ≤ 1) :
    Real.sqrt (((u.map (k * ·)).map (· ^ 2)).sum) ≤ Real.sqrt ((u.map (· ^ 2)).sum) := by
  have e : ((u.map (k * ·)).map (· ^ 2)).sum = k ^ 2 * (u.map (· ^ 2)).sum := by
    rw [List.map_map, ← List.sum_map_mul_left]
    congr 1
    apply List.map_congr_left
    intro x _
    simp only [Function.comp]
    ring
  rw [e]
  apply Real.sqrt_le_sqrt
  have hs : 0 ≤ (u.map (· ^ 2)).sum := by
    apply List.sum_nonneg
    intro y hy
    obtain ⟨z, -, rfl⟩ := List.mem_map.mp hy
    exact sq_nonneg z
  have : k ^ 2 ≤ 1 := pow_le_one₀ h0 h1
  nlinarith

/-- Two plans of one segment, put together. -/
theorem append_plans (tr a : Trajectory ℝ) (h : tr.WF) (ha : a.WF) (hN : tr.N = 10) (hNa : a.N = 10)
    (hD : 0 < tr.D) (hDa : 0 < a.D) (p v q w p' v' q' w' : List ℝ)
    (hs : SlowedFromTo tr p v q w) (hs' : SlowedFromTo a p' v' q' w') (b1 b2 c1 c2 : ℝ)
    (n1 : NormAtMost tr 1 0 tr.D b1) (n2 : NormAtMost tr 2 0 tr.D b2)
    (m1 : NormAtMost a 1 0 a.D c1) (m2 : NormAtMost a 2 0 a.D c2) :
    ∃ r, tr.withAppendedDimension a = .ok (some r) ∧ r.WF ∧ r.D = tr.D + a.D ∧ r.segments.length = 1 ∧
      r.maxTime = max tr.maxTime a.maxTime ∧
      r.evaluate 0 0 = .ok (p ++ p') ∧ r.evaluate r.maxTime 0 = .ok (q ++ q') ∧
      (∃ k k' : ℝ, 0 < k ∧ k ≤ 1 ∧ 0 < k' ∧ k' ≤ 1 ∧
        r.evaluate 0 1 = .ok (v.map (· * k) ++ v'.map (· * k')) ∧
        r.evaluate r.maxTime 1 = .ok (w.map (· * k) ++ w'.map (· * k'))) ∧
      (∀ m : ℕ, 2 ≤ m → m ≤ 4 → r.evaluate 0 m = .ok (List.replicate (p.length + p'.length) 0) ∧
        r.evaluate r.maxTime m = .ok (List.replicate (p.length + p'.length) 0)) ∧
      NormAtMost r 1 0 tr.D b1 ∧ NormAtMost r 2 0 tr.D b2 ∧
      NormAtMost r 1 tr.D a.D c1 ∧ NormAtMost r 2 tr.D a.D c2 := by
  obtain ⟨r, g1, g2, g3, g4, g5, g6⟩ := append_one tr a h ha hs.one hs'.one (by omega) (by omega) hD hDa
    hs.duration hs'.duration
  have hT := hs.duration
  have hT' := hs'.duration
  have hle : tr.maxTime ≤ r.maxTime := by rw [g5]; exact le_max_left _ _
  have hle' : a.maxTime ≤ r.maxTime := by rw [g5]; exact le_max_right _ _
  have hr : 0 < r.maxTime := lt_of_lt_of_le hT hle
  set κ := tr.maxTime / r.maxTime with hκ
  set κ' := a.maxTime / r.maxTime with hκ'
  have k0 : 0 < κ := div_pos hT hr
  have k1 : κ ≤ 1 := (div_le_one hr).mpr hle
  have k0' : 0 < κ' := div_pos hT' hr
  have k1' : κ' ≤ 1 := (div_le_one hr).mpr hle'
  have hend : κ * r.maxTime = tr.maxTime := div_mul_cancel₀ _ hr.ne'
  have hend' : κ' * r.maxTime = a.maxTime := div_mul_cancel₀ _ hr.ne'
  have at0 : ∀ (m : ℕ) (x y : List ℝ), tr.evaluate 0 m = .ok x → a.evaluate 0 m = .ok y →
      r.evaluate 0 m = .ok (x.map (κ ^ m * ·) ++ y.map (κ' ^ m * ·)) := by
    intro m x y hx hy
    obtain ⟨u, u', e1, e2, e3⟩ := g6 0 ⟨le_rfl, hr.le⟩ m
    rw [mul_zero, hx] at e1
    rw [mul_zero, hy] at e2
    injection e1 with e1
    injection e2 with e2
    rw [e3, ← e1, ← e2]
  have atE : ∀ (m : ℕ) (x y : List ℝ), tr.evaluate tr.maxTime m = .ok x → a.evaluate a.maxTime m = .ok y →
      r.evaluate r.maxTime m = .ok (x.map (κ ^ m * ·) ++ y.map (κ' ^ m * ·)) := by
    intro m x y hx hy
    obtain ⟨u, u', e1, e2, e3⟩ := g6 r.maxTime ⟨hr.le, le_rfl⟩ m
    rw [hend, hx] at e1
    rw [hend', hy] at e2
    injection e1 with e1
    injection e2 with e2
    rw [e3, ← e1, ← e2]
  have one : ∀ (k : ℝ) (l : List ℝ), l.map (k ^ 0 * ·) = l := by intro k l; simp
  have scl : ∀ (k j : ℝ) (l : List ℝ), (l.map (· * j)).map (k ^ 1 * ·) = l.map (· * (k * j)) := by
    intro k j l
    rw [List.map_map]
    apply List.map_congr_left
    intro x _
    simp only [Function.comp]
    ring
  have rest : ∀ (k : ℝ) (n : ℕ) (m : ℕ), (List.replicate n (0 : ℝ)).map (k ^ m * ·) = List.replicate n 0 := by
    intro k n m; simp
  obtain ⟨j, j0, j1, va, vb⟩ := hs.velocities
  obtain ⟨j', j0', j1', va', vb'⟩ := hs'.velocities
  have bound : ∀ (m : ℕ) (b c : ℝ), NormAtMost tr m 0 tr.D b → NormAtMost a m 0 a.D c →
      NormAtMost r m 0 tr.D b ∧ NormAtMost r m tr.D a.D c := by
    intro m b c hb hc
    have key : ∀ t ∈ Icc 0 r.maxTime, ∃ u u' : List ℝ, r.evaluate t m = .ok (u.map (κ ^ m * ·) ++ u'.map (κ' ^ m * ·)) ∧
        u.length = tr.D ∧ u'.length = a.D ∧ Real.sqrt ((u.map (· ^ 2)).sum) ≤ b ∧
        Real.sqrt ((u'.map (· ^ 2)).sum) ≤ c := by
      intro t ht
      obtain ⟨u, u', e1, e2, e3⟩ := g6 t ht m
      obtain ⟨x, x1, x2, x3⟩ := hb (κ * t) ⟨mul_nonneg k0.le ht.1, by
        rw [← hend]; exact mul_le_mul_of_nonneg_left ht.2 k0.le⟩
      obtain ⟨y, y1, y2, y3⟩ := hc (κ' * t) ⟨mul_nonneg k0'.le ht.1, by
        rw [← hend']; exact mul_le_mul_of_nonneg_left ht.2 k0'.le⟩
      rw [e1] at x1
      rw [e2] at y1
      injection x1 with x1
      injection y1 with y1
      subst x1 y1
      rw [map_getD_norm x2] at x3
      rw [map_getD_norm y2] at y3
      exact ⟨u, u', e3, x2, y2, x3, y3⟩
    constructor <;> intro t ht <;> obtain ⟨u, u', e, l, l', b1, b2⟩ := key t ht <;>
      refine ⟨_, e, by simp [l, l', g3], ?_⟩
    · rw [List.drop_zero, List.take_left' (by simp [l])]
      exact le_trans (norm_scaled_le u (κ ^ m) (by positivity) (pow_le_one₀ k0.le k1)) b1
    · rw [List.drop_left' (by simp [l]), List.take_of_length_le (by simp [l'])]
      exact le_trans (norm_scaled_le u' (κ' ^ m) (by positivity) (pow_le_one₀ k0'.le k1')) b2
  refine ⟨r, g1, g2, g3, g4, g5, ?_, ?_, ⟨κ * j, κ' * j', mul_pos k0 j0, mul_le_one₀ k1 j0.le j1,
    mul_pos k0' j0', mul_le_one₀ k1' j0'.le j1', ?_, ?_⟩, ?_, (bound 1 _ _ n1 m1).1, (bound 2 _ _ n2 m2).1,
    (bound 1 _ _ n1 m1).2, (bound 2 _ _ n2 m2).2⟩
  · have := at0 0 p p' hs.startPosition hs'.startPosition
    rwa [one, one, Nat.cast_zero] at this
  · have := atE 0 q q' hs.goalPosition hs'.goalPosition
    rwa [one, one, Nat.cast_zero] at this
  · have := at0 1 _ _ va va'
    rwa [scl, scl, Nat.cast_one] at this
  · have := atE 1 _ _ vb vb'
    rwa [scl, scl, Nat.cast_one] at this
  · intro m hm1 hm2
    obtain ⟨a1, a2⟩ := hs.rest m hm1 hm2
    obtain ⟨a1', a2'⟩ := hs'.rest m hm1 hm2
    have x1 := at0 m _ _ a1 a1'
    have x2 := atE m _ _ a2 a2'
    rw [rest, rest, List.replicate_append_replicate] at x1 x2
    exact ⟨x1, x2⟩

end Verif
