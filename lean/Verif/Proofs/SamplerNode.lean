import Verif.Spec.SamplerNode
import Verif.Proofs.RosConversions
import Verif.Props.Sampling

/-
Helper lemmas for the sampler node.
-/
set_option linter.unusedSectionVars false

namespace Verif

open Spec

variable {K M : Type}

/-! ### What a converted message looks like -/

/-- A segment with `D` polynomials of `N` coefficients each. -/
structure Shape (D N : ℕ) (s : Segment K) : Prop where
  d : s.polys.length = D
  n : s.N = N
  polys : ∀ p ∈ s.polys, p.N = N

theorem mkZero_shape [Zero K] (n d : ℕ) : Shape d n (Segment.mkZero n d : Segment K) := by
  refine ⟨by simp [Segment.mkZero], rfl, ?_⟩
  intro p hp
  simp only [Segment.mkZero, List.mem_replicate] at hp
  rw [hp.2]
  simp [Poly.zero, Poly.N]

theorem setCoeffs_shape [Field K] {D N : ℕ} {s s' : Segment K} (h : Shape D N s) {i : ℕ} {c : List K}
    (e : s.setCoeffs i c = .ok s') : Shape D N s' ∧ s'.time = s.time := by
  unfold Segment.setCoeffs at e
  obtain ⟨p, e1, e2⟩ := Res.bind_eq_ok.mp e
  obtain ⟨p', e3, e4⟩ := Res.bind_eq_ok.mp e2
  unfold Segment.get at e1
  obtain ⟨_, _, e6⟩ := Res.bind_eq_ok.mp e1
  have hp := h.polys p (List.mem_of_getElem? (Res.at'_eq_ok.mp e6))
  unfold Poly.setCoefficients at e3
  obtain ⟨_, e7, e8⟩ := Res.bind_eq_ok.mp e3
  rw [Res.check_eq_ok] at e7
  cases e8
  unfold Segment.set at e4
  obtain ⟨_, _, e10⟩ := Res.bind_eq_ok.mp e4
  cases e10
  refine ⟨⟨by simpa using h.d, h.n, ?_⟩, rfl⟩
  intro q hq
  rcases List.mem_or_eq_of_mem_set hq with hq | rfl
  · exact h.polys q hq
  · rw [← hp, e7]
    rfl

theorem segmentOfEigen_shape [Field K] {six : Bool} {e : EigenSeg K} {s : Segment K}
    (h : segmentOfEigen six e = .ok s) :
    ∃ D, 3 ≤ D ∧ Shape D e.x.length s ∧ s.time = (e.timeNs : K) * (1 / 10 ^ 9) := by
  unfold segmentOfEigen at h
  generalize hD : (if six ∧ e.rx.length > 0 ∧ e.ry.length > 0 ∧ e.rz.length > 0 then 6
    else if e.yaw.length > 0 then 4 else 3 : ℕ) = D at h
  have h3 : 3 ≤ D := by
    rw [← hD]
    split_ifs <;> omega
  simp only at h
  obtain ⟨s1, e1, h1⟩ := Res.bind_eq_ok.mp h
  obtain ⟨s2, e2, h2⟩ := Res.bind_eq_ok.mp h1
  obtain ⟨s3, e3, h4⟩ := Res.bind_eq_ok.mp h2
  have a1 := setCoeffs_shape (mkZero_shape e.x.length D) e1
  have a2 := setCoeffs_shape a1.1 e2
  have a3 := setCoeffs_shape a2.1 e3
  have key : ∀ s4 : Segment K, Shape D e.x.length s4 → (pure (s4.setTimeNSec e.timeNs) : Res _) = .ok s →
      ∃ D, 3 ≤ D ∧ Shape D e.x.length s ∧ s.time = (e.timeNs : K) * (1 / 10 ^ 9) := by
    intro s4 a4 h5
    cases h5
    exact ⟨D, h3, ⟨a4.d, a4.n, a4.polys⟩, rfl⟩
  split_ifs at h4
  · obtain ⟨s5, e5, h6⟩ := Res.bind_eq_ok.mp h4
    exact key s5 (setCoeffs_shape a3.1 e5).1 h6
  · obtain ⟨s5, e5, h6⟩ := Res.bind_eq_ok.mp h4
    obtain ⟨s6, e6, h7⟩ := Res.bind_eq_ok.mp h6
    obtain ⟨s7, e7, h8⟩ := Res.bind_eq_ok.mp h7
    exact key s7 (setCoeffs_shape (setCoeffs_shape (setCoeffs_shape a3.1 e5).1 e6).1 e7).1 h8
  · exact key s3 a3.1 h4

section
variable [Field K] [LinearOrder K] [IsStrictOrderedRing K]

theorem converted_wf (six : Bool) (mc : MsgConv K M) (msg : List M) (hs : SmallMsg mc msg)
    (tr : Trajectory K)
    (h : (do
      let segs ← msg.mapM fun m => segmentOfEigen six (mc.fromMsg m)
      Trajectory.setSegments segs) = .ok tr) :
    tr.WF ∧ tr.segments ≠ [] ∧ 3 ≤ tr.D := by
  obtain ⟨segs, e1, e2⟩ := Res.bind_eq_ok.mp h
  obtain ⟨hne, hdn, e3, e4⟩ := (setSegments_ok_iff _ _).mp e2
  have hall := Res.mapM_forall₂.mp e1
  have hseg : ∀ s ∈ segs, ∃ m ∈ msg, segmentOfEigen six (mc.fromMsg m) = .ok s := by
    clear hne hdn e3 e4 e1 e2 h hs
    induction hall with
    | nil => simp
    | cons hx _ ih =>
      intro s hs
      rcases List.mem_cons.mp hs with rfl | hs
      · exact ⟨_, by simp, hx⟩
      · obtain ⟨m, hm, hms⟩ := ih s hs
        exact ⟨m, by simp [hm], hms⟩
  rw [← e3] at hne hdn hseg
  refine ⟨⟨fun s hs' => (hdn s hs').1, fun s hs' => (hdn s hs').2, ?_, ?_, ?_⟩, hne, ?_⟩
  · rw [e4, ← e3]
    rfl
  · intro s hs'
    obtain ⟨m, hm, e⟩ := hseg s hs'
    obtain ⟨D, _, hsh, _⟩ := segmentOfEigen_shape e
    exact ⟨fun p hp => by rw [hsh.polys p hp, hsh.n], by rw [hsh.n]; exact hs m hm⟩
  · intro s hs'
    obtain ⟨m, hm, e⟩ := hseg s hs'
    obtain ⟨D, _, _, ht⟩ := segmentOfEigen_shape e
    rw [ht]
    positivity
  · obtain ⟨s, ss, hss⟩ := List.exists_cons_of_ne_nil hne
    have hs' : s ∈ tr.segments := by rw [hss]; simp
    obtain ⟨m, hm, e⟩ := hseg s hs'
    obtain ⟨D, h3, hsh, _⟩ := segmentOfEigen_shape e
    rw [← (hdn s hs').1, Segment.D, hsh.d]
    exact h3

end

/-! ### Histories -/

section
variable [Field K] [LinearOrder K] [IsStrictOrderedRing K] [FloorRing K]

theorem SamplerNode.run_nil (fuel : ℕ) (mc mc4 : MsgConv K M) (n : SamplerNode K) :
    n.run fuel mc mc4 [] = .ok (n, []) := rfl

theorem SamplerNode.run_cons (fuel : ℕ) (mc mc4 : MsgConv K M) (n : SamplerNode K) (e : NodeEvent M)
    (es : List (NodeEvent M)) :
    n.run fuel mc mc4 (e :: es) = (do
      let r ← n.step fuel mc mc4 e
      let r' ← r.1.run fuel mc mc4 es
      pure (r'.1, r.2 ++ r'.2)) := rfl

theorem SamplerNode.run_append (fuel : ℕ) (mc mc4 : MsgConv K M) (l1 l2 : List (NodeEvent M)) :
    ∀ (n : SamplerNode K) (n1 n2 : SamplerNode K) (o1 o2 : List (Published K)),
      n.run fuel mc mc4 l1 = .ok (n1, o1) → n1.run fuel mc mc4 l2 = .ok (n2, o2) →
      n.run fuel mc mc4 (l1 ++ l2) = .ok (n2, o1 ++ o2) := by
  induction l1 with
  | nil =>
    intro n n1 n2 o1 o2 h1 h2
    cases h1
    exact h2
  | cons e es ih =>
    intro n n1 n2 o1 o2 h1 h2
    rw [SamplerNode.run_cons] at h1
    obtain ⟨r, e1, h3⟩ := Res.bind_eq_ok.mp h1
    obtain ⟨r', e2, h4⟩ := Res.bind_eq_ok.mp h3
    cases h4
    rw [List.cons_append, SamplerNode.run_cons, e1, Res.ok_bind, ih r.1 _ n2 _ o2 e2 h2, Res.ok_bind]
    simp [Res.pure_eq]

/-- Nothing changes the parameters. -/
theorem SamplerNode.step_params (fuel : ℕ) (mc mc4 : MsgConv K M) (n : SamplerNode K) (e : NodeEvent M)
    (r : SamplerNode K × List (Published K)) (h : n.step fuel mc mc4 e = .ok r) :
    r.1.publishWhole = n.publishWhole ∧ r.1.dt = n.dt := by
  have hp : ∀ (n : SamplerNode K) r, n.processTrajectory fuel = .ok r →
      r.1.publishWhole = n.publishWhole ∧ r.1.dt = n.dt := by
    intro n r h
    unfold SamplerNode.processTrajectory at h
    split_ifs at h
    · obtain ⟨x, _, h2⟩ := Res.bind_eq_ok.mp h
      cases h2
      exact ⟨rfl, rfl⟩
    · cases h
      exact ⟨rfl, rfl⟩
  cases e with
  | path msg =>
    change n.pathSegments fuel mc msg = _ at h
    unfold SamplerNode.pathSegments at h
    split_ifs at h
    · cases h
      exact ⟨rfl, rfl⟩
    · obtain ⟨x, _, h2⟩ := Res.bind_eq_ok.mp h
      exact hp { n with trajectory := x } r h2
  | path4D msg =>
    change n.pathSegments4D fuel mc4 msg = _ at h
    unfold SamplerNode.pathSegments4D at h
    split_ifs at h
    · cases h
      exact ⟨rfl, rfl⟩
    · obtain ⟨x, _, h2⟩ := Res.bind_eq_ok.mp h
      exact hp { n with trajectory := x } r h2
  | stop =>
    cases h
    exact ⟨rfl, rfl⟩
  | tick =>
    change (if n.running = true then n.commandTimer else _) = _ at h
    split_ifs at h
    · unfold SamplerNode.commandTimer at h
      split_ifs at h
      · obtain ⟨x, _, h2⟩ := Res.bind_eq_ok.mp h
        cases h2
        simp only
        split_ifs <;> exact ⟨rfl, rfl⟩
      · cases h
        exact ⟨rfl, rfl⟩
    · cases h
      exact ⟨rfl, rfl⟩

theorem SamplerNode.run_params (fuel : ℕ) (mc mc4 : MsgConv K M) (es : List (NodeEvent M)) :
    ∀ (n : SamplerNode K) (r : SamplerNode K × List (Published K)), n.run fuel mc mc4 es = .ok r →
    r.1.publishWhole = n.publishWhole ∧ r.1.dt = n.dt := by
  induction es with
  | nil =>
    intro n r h
    cases h
    exact ⟨rfl, rfl⟩
  | cons e es ih =>
    intro n r h
    rw [SamplerNode.run_cons] at h
    obtain ⟨x, e1, h3⟩ := Res.bind_eq_ok.mp h
    obtain ⟨y, e2, h4⟩ := Res.bind_eq_ok.mp h3
    cases h4
    have h1 := step_params fuel mc mc4 n e x e1
    have h2 := ih x.1 y e2
    exact ⟨h2.1.trans h1.1, h2.2.trans h1.2⟩

/-- An accepted message makes the node continue with that trajectory. -/
theorem SamplerNode.step_accepts (fuel : ℕ) (mc mc4 : MsgConv K M) (n : SamplerNode K) (e : NodeEvent M)
    (tr : Trajectory K) (h : Accepts mc mc4 e tr) :
    n.step fuel mc mc4 e = SamplerNode.processTrajectory fuel { n with trajectory := tr } := by
  rcases h with ⟨msg, rfl, hne, hm⟩ | ⟨msg, rfl, hne, hm⟩
  · change n.pathSegments fuel mc msg = _
    unfold SamplerNode.pathSegments
    rw [if_neg (by simpa using hne), hm, Res.ok_bind]
  · change n.pathSegments4D fuel mc4 msg = _
    unfold SamplerNode.pathSegments4D
    rw [if_neg (by simpa using hne), hm, Res.ok_bind]

/-- While the timer is stopped, quiet events do nothing. -/
theorem SamplerNode.run_stopped (fuel : ℕ) (mc mc4 : MsgConv K M) (n : SamplerNode K)
    (hr : n.running = false) (es : List (NodeEvent M)) (hq : ∀ e ∈ es, Quiet e ∨ e = .stop) :
    n.run fuel mc mc4 es = .ok (n, []) := by
  have hn : n.stop = n := by
    obtain ⟨a, b, c, d, e⟩ := n
    simp only at hr
    subst hr
    rfl
  induction es with
  | nil => rfl
  | cons e es ih =>
    have hs : n.step fuel mc mc4 e = .ok (n, []) := by
      rcases hq e (by simp) with (rfl | rfl | rfl) | rfl
      · change (if n.running = true then _ else _) = _
        rw [hr]
        rfl
      · rfl
      · rfl
      · change Res.ok (n.stop, []) = _
        rw [hn]
    rw [SamplerNode.run_cons, hs, Res.ok_bind, ih fun e he => hq e (by simp [he])]
    rfl

end

open Classical in
theorem ticks_cons (e : NodeEvent M) (es : List (NodeEvent M)) :
    ticks (e :: es) = ticks es + if e = .tick then 1 else 0 := by
  cases e <;> simp [ticks]

/-- While the timer is running, the ticks publish one sample each, until the end of the trajectory. -/
theorem SamplerNode.run_running (fuel : ℕ) (mc mc4 : MsgConv ℝ M) (tr : Trajectory ℝ) (dt : ℝ)
    (hdt : 0 < dt)
    (hs : ∀ t, 0 ≤ t → t ≤ tr.maxTime → ∃ st, sampleTrajectoryAtTime tr t = .ok (some st))
    (es : List (NodeEvent M)) (hq : ∀ e ∈ es, Quiet e) :
    ∀ (i : ℕ),
    ∃ n' out, SamplerNode.run fuel mc mc4 ⟨false, dt, i * dt, true, tr⟩ es = .ok (n', out) ∧
      (∀ j : ℕ, j < out.length ↔ j < ticks es ∧ (i + j : ℕ) * dt ≤ tr.maxTime) ∧
      (∀ (j : ℕ) (hj : j < out.length), ∃ st,
        sampleTrajectoryAtTime tr ((i + j : ℕ) * dt) = .ok (some st) ∧
        out[j] = .point ((i + j : ℕ) * dt) (some st)) ∧
      (n'.running = true ↔ out.length = ticks es) := by
  induction es with
  | nil =>
    intro i
    exact ⟨_, [], rfl, by simp [ticks], by simp, by simp [ticks]⟩
  | cons e es ih =>
    intro i
    have ih' := ih fun e he => hq e (by simp [he])
    rw [SamplerNode.run_cons]
    by_cases he : e = .tick
    · subst he
      change ∃ n' out, (do
        let r ← SamplerNode.commandTimer ⟨false, dt, i * dt, true, tr⟩
        let r' ← r.1.run fuel mc mc4 es
        pure (r'.1, r.2 ++ r'.2)) = _ ∧ _
      unfold SamplerNode.commandTimer
      simp only
      by_cases hle : (i : ℝ) * dt ≤ tr.maxTime
      · obtain ⟨st, hst⟩ := hs _ (by positivity) hle
        rw [if_pos hle, hst, Res.ok_bind]
        obtain ⟨n', out, e1, e2, e3, e4⟩ := ih' (i + 1)
        simp only [Option.isSome_some, if_true, Res.pure_eq, Res.ok_bind]
        have hc : (i : ℝ) * dt + dt = ((i + 1 : ℕ) : ℝ) * dt := by push_cast; ring
        rw [hc, e1, Res.ok_bind]
        refine ⟨_, _, rfl, ?_, ?_, ?_⟩
        · intro j
          rw [ticks_cons]
          cases j with
          | zero => simp [hle]
          | succ j =>
            have := e2 j
            rw [show i + (j + 1) = i + 1 + j by omega]
            simp only [List.cons_append, List.nil_append, List.length_cons, if_true]
            rw [Nat.add_lt_add_iff_right, Nat.add_lt_add_iff_right]
            exact this
        · intro j hj
          cases j with
          | zero => exact ⟨st, hst, rfl⟩
          | succ j =>
            obtain ⟨s', h1, h2⟩ := e3 j (by simpa using hj)
            rw [show i + (j + 1) = i + 1 + j by omega]
            exact ⟨s', h1, h2⟩
        · rw [e4, ticks_cons]
          simp
      · rw [if_neg hle, Res.ok_bind]
        have := SamplerNode.run_stopped fuel mc mc4 (SamplerNode.stop ⟨false, dt, i * dt, true, tr⟩) rfl es
          (fun e he => Or.inl (hq e (by simp [he])))
        simp only
        rw [this, Res.ok_bind]
        refine ⟨_, _, rfl, ?_, ?_, ?_⟩
        · intro j
          simp only [List.append_nil, List.length_nil, Nat.not_lt_zero, false_iff, not_and]
          intro _ hc
          apply hle
          refine le_trans ?_ hc
          have : (i : ℝ) ≤ ((i + j : ℕ) : ℝ) := by exact_mod_cast Nat.le_add_right i j
          exact mul_le_mul_of_nonneg_right this hdt.le
        · intro j hj
          simp at hj
        · rw [ticks_cons]
          simp [SamplerNode.stop]
    · have hstep : SamplerNode.step fuel mc mc4 ⟨false, dt, i * dt, true, tr⟩ e =
          .ok (⟨false, dt, i * dt, true, tr⟩, []) := by
        rcases hq e (by simp) with h | rfl | rfl
        · exact absurd h he
        · rfl
        · rfl
      rw [hstep, Res.ok_bind]
      obtain ⟨n', out, e1, e2, e3, e4⟩ := ih' i
      simp only
      rw [e1, Res.ok_bind]
      refine ⟨_, _, rfl, ?_, ?_, ?_⟩
      · intro j
        rw [ticks_cons, if_neg he]
        exact e2 j
      · exact e3
      · rw [ticks_cons, if_neg he]
        exact e4

end Verif
