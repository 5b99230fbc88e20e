import Verif.Proofs.RosConversions
import Mathlib.Tactic.NormNum

/-
Property C37: trajectories as polynomial trajectory messages.

`Spec.Copies mc`, `Spec.Copies4D mc`: what is assumed of the conversions of mav_planning_msgs.
`Spec.Writable s`: the numbers of the segment fit into their C++ types.
-/
namespace Verif

open Spec

set_option linter.unusedSectionVars false

variable {K M : Type}

section
variable [Field K] [LinearOrder K] [IsStrictOrderedRing K] [FloorRing K]

/-- **C37.** For 3, 4 or 6 dimensions and polynomials with `N ≥ 1` coefficients, converting a trajectory
to a message and back succeeds and gives the same `D`, `N`, number of segments and polynomials; the
segment times are truncated to whole nanoseconds. -/
theorem C37_roundtrip (mc : MsgConv K M) (hmc : Copies mc) (tr : Trajectory K) (hne : tr.segments ≠ [])
    (hD : tr.D = 3 ∨ tr.D = 4 ∨ tr.D = 6) (hN : 1 ≤ tr.N)
    (hdn : ∀ s ∈ tr.segments, s.D = tr.D ∧ s.N = tr.N)
    (hp : ∀ s ∈ tr.segments, ∀ p ∈ s.polys, p.coeffs.length = tr.N)
    (hw : ∀ s ∈ tr.segments, Writable s ∧ s.time < 2 ^ 31) :
    ∃ msg tr', trajectoryToMsg mc tr = .ok (true, msg) ∧ msgToTrajectory mc msg = .ok tr' ∧
      tr'.D = tr.D ∧ tr'.N = tr.N ∧ tr'.segments.length = tr.segments.length ∧
      (∀ (i : ℕ) (s s' : Segment K), tr.segments[i]? = some s → tr'.segments[i]? = some s' →
        s'.polys = s.polys ∧ s'.N = s.N ∧ (∃ ns : ℕ, s'.time = (ns : K) / 10 ^ 9) ∧
        s'.time ≤ s.time ∧ s.time - s'.time < 1 / 10 ^ 9) := by
  obtain ⟨l, h1, h2⟩ := msg_roundtrip true [3, 4, 6] mc (fun e he _ => hmc e he) tr.segments (by
    intro s hs
    obtain ⟨e1, e2⟩ := hdn s hs
    unfold Segment.D at e1
    refine ⟨(hw s hs).1, (hw s hs).2, by omega, by rw [e2]; exact hp s hs, ?_, ?_⟩
    · rw [e1]; simpa using hD
    · rw [e1]; simpa using hD)
  refine ⟨l, ⟨tr.D, tr.N, ((tr.segments.map (reload id)).map (·.time)).sum, tr.segments.map (reload id)⟩,
    by unfold trajectoryToMsg; rw [h1]; rfl,
    by unfold msgToTrajectory; rw [h2, Res.ok_bind, setSegments_reload tr hne hdn],
    rfl, rfl, by simp, ?_⟩
  intro i s s' e1 e2
  have hs : s ∈ tr.segments := List.mem_of_getElem? e1
  simp only [List.getElem?_map, e1, Option.map_some, Option.some.injEq] at e2
  subst e2
  obtain ⟨r1, r2, r3, r4, r5⟩ := reloaded_reload id (hw s hs).1
  exact ⟨by rw [r1]; simp, r2, r3, r4, r5⟩

/-- **C37.** The same for 4D messages and 3 or 4 dimensions. -/
theorem C37_roundtrip4D (mc : MsgConv K M) (hmc : Copies4D mc) (tr : Trajectory K) (hne : tr.segments ≠ [])
    (hD : tr.D = 3 ∨ tr.D = 4) (hN : 1 ≤ tr.N)
    (hdn : ∀ s ∈ tr.segments, s.D = tr.D ∧ s.N = tr.N)
    (hp : ∀ s ∈ tr.segments, ∀ p ∈ s.polys, p.coeffs.length = tr.N)
    (hw : ∀ s ∈ tr.segments, Writable s ∧ s.time < 2 ^ 31) :
    ∃ msg tr', trajectoryToMsg4D mc tr = .ok (true, msg) ∧ msg4DToTrajectory mc msg = .ok tr' ∧
      tr'.D = tr.D ∧ tr'.N = tr.N ∧ tr'.segments.length = tr.segments.length ∧
      (∀ (i : ℕ) (s s' : Segment K), tr.segments[i]? = some s → tr'.segments[i]? = some s' →
        s'.polys = s.polys ∧ s'.N = s.N ∧ (∃ ns : ℕ, s'.time = (ns : K) / 10 ^ 9) ∧
        s'.time ≤ s.time ∧ s.time - s'.time < 1 / 10 ^ 9) := by
  obtain ⟨l, h1, h2⟩ := msg_roundtrip false [3, 4] mc
    (fun e he h6 => by rw [hmc e he]; exact (h6 rfl).symm) tr.segments (by
    intro s hs
    obtain ⟨e1, e2⟩ := hdn s hs
    unfold Segment.D at e1
    refine ⟨(hw s hs).1, (hw s hs).2, by omega, by rw [e2]; exact hp s hs, ?_, ?_⟩
    · rw [e1]; simpa using hD
    · rw [e1]; simpa using hD)
  refine ⟨l, ⟨tr.D, tr.N, ((tr.segments.map (reload id)).map (·.time)).sum, tr.segments.map (reload id)⟩,
    by unfold trajectoryToMsg4D; rw [h1]; rfl,
    by unfold msg4DToTrajectory; rw [h2, Res.ok_bind, setSegments_reload tr hne hdn],
    rfl, rfl, by simp, ?_⟩
  intro i s s' e1 e2
  have hs : s ∈ tr.segments := List.mem_of_getElem? e1
  simp only [List.getElem?_map, e1, Option.map_some, Option.some.injEq] at e2
  subst e2
  obtain ⟨r1, r2, r3, r4, r5⟩ := reloaded_reload id (hw s hs).1
  exact ⟨by rw [r1]; simp, r2, r3, r4, r5⟩

/-- **C37.** A non-empty trajectory with any other number of dimensions is rejected with an empty
message (also 6 dimensions for 4D messages). -/
theorem C37_rejected (mc : MsgConv K M) (tr : Trajectory K) (hne : tr.segments ≠ [])
    (hdn : ∀ s ∈ tr.segments, s.D = tr.D) :
    (tr.D ≠ 3 → tr.D ≠ 4 → tr.D ≠ 6 → trajectoryToMsg mc tr = .ok (false, [])) ∧
    (tr.D ≠ 3 → tr.D ≠ 4 → trajectoryToMsg4D mc tr = .ok (false, [])) := by
  obtain ⟨s, ss, hs⟩ := List.exists_cons_of_ne_nil hne
  have hD : s.D = tr.D := hdn s (by rw [hs]; simp)
  constructor
  · intro h3 h4 h6
    unfold trajectoryToMsg toMsgLoop
    rw [hs]
    simp only
    rw [if_pos (by rw [hD]; simp [h3, h4, h6])]
    rfl
  · intro h3 h4
    unfold trajectoryToMsg4D toMsgLoop
    rw [hs]
    simp only
    rw [if_pos (by rw [hD]; simp [h3, h4])]
    rfl

/-- **C37**, the empty trajectory is outside the claim: its message is accepted, and converting that
back aborts the process. -/
theorem C37_empty_false (mc : MsgConv K M) :
    trajectoryToMsg mc (Trajectory.empty : Trajectory K) = .ok (true, []) ∧
    msgToTrajectory (K := K) mc ([] : List M) = .abort := ⟨rfl, rfl⟩

/-- **C37**, `N = 0` is outside the claim: a trajectory with 4 dimensions and no coefficients comes back
with 3 dimensions. -/
theorem C37_no_coefficients_false (mc : MsgConv K M) (hmc : Copies mc) :
    ∃ msg tr', trajectoryToMsg mc ⟨4, 0, 0, [⟨[⟨[]⟩, ⟨[]⟩, ⟨[]⟩, ⟨[]⟩], (0 : K), 0⟩]⟩ = .ok (true, msg) ∧
      msgToTrajectory mc msg = .ok tr' ∧ tr'.D = 3 := by
  have hw : Writable (⟨[⟨[]⟩, ⟨[]⟩, ⟨[]⟩, ⟨[]⟩], 0, 0⟩ : Segment K) :=
    ⟨by norm_num, by norm_num, by norm_num, by norm_num⟩
  have he : eigenSegOf (⟨[⟨[]⟩, ⟨[]⟩, ⟨[]⟩, ⟨[]⟩], 0, 0⟩ : Segment K) =
      .ok ⟨[], [], [], [], [], [], [], 0, 0⟩ := by
    unfold eigenSegOf
    rw [coeffsOf_ok _ 0 (by simp), coeffsOf_ok _ 1 (by simp), coeffsOf_ok _ 2 (by simp),
      coeffsOf_ok _ 3 (by simp), (getTimeNSec_ok hw).1]
    simp [Segment.D]
  refine ⟨[mc.toMsg ⟨[], [], [], [], [], [], [], 0, 0⟩],
    ⟨3, 0, 0, [⟨[⟨[]⟩, ⟨[]⟩, ⟨[]⟩], 0, 0⟩]⟩, ?_, ?_, rfl⟩
  · unfold trajectoryToMsg toMsgLoop
    rw [if_neg (by simp [Segment.D]), he]
    rfl
  · unfold msgToTrajectory
    rw [List.mapM_cons, hmc _ (by norm_num)]
    simp [segmentOfEigen, Segment.setCoeffs, Segment.get, Segment.set, Segment.mkZero, Segment.D, Res.check,
      Res.at', Poly.setCoefficients, Poly.zero, Poly.N, Segment.setTimeNSec, Trajectory.setSegments,
      Trajectory.addSegments, addSegmentsLoop]

end

/-- A message type that is the segment itself. -/
def exConv : MsgConv ℚ (EigenSeg ℚ) := ⟨id, id⟩

def exConv4D : MsgConv ℚ (EigenSeg ℚ) := ⟨fun e => { e with rx := [], ry := [], rz := [] }, id⟩

def exMsgTr : Trajectory ℚ :=
  ⟨4, 2, 3 / 2, [⟨[⟨[0, 1]⟩, ⟨[1, 0]⟩, ⟨[0, 7]⟩, ⟨[0, 1 / 2]⟩], 3 / 2, 2⟩]⟩

example : Copies exConv := fun _ _ => rfl
example : Copies4D exConv4D := fun _ _ => rfl
example : exMsgTr.segments ≠ [] ∧ (exMsgTr.D = 3 ∨ exMsgTr.D = 4 ∨ exMsgTr.D = 6) ∧ 1 ≤ exMsgTr.N ∧
    (∀ s ∈ exMsgTr.segments, s.D = exMsgTr.D ∧ s.N = exMsgTr.N) ∧
    (∀ s ∈ exMsgTr.segments, ∀ p ∈ s.polys, p.coeffs.length = exMsgTr.N) ∧
    (∀ s ∈ exMsgTr.segments, Writable s ∧ s.time < 2 ^ 31) := by
  refine ⟨by decide, by decide, by decide, by decide, by decide, ?_⟩
  intro s hs
  simp only [exMsgTr, List.mem_cons, List.not_mem_nil, or_false] at hs
  subst hs
  exact ⟨⟨by norm_num, by norm_num, by norm_num, by norm_num⟩, by norm_num⟩
example : (do let r ← trajectoryToMsg exConv exMsgTr; msgToTrajectory exConv r.2) = .ok exMsgTr := by
  decide +kernel
example : trajectoryToMsg exConv (⟨2, 2, 1, [⟨[⟨[0, 1]⟩, ⟨[1, 0]⟩], 1, 2⟩]⟩ : Trajectory ℚ) =
    .ok (false, []) := by decide +kernel

end Verif
