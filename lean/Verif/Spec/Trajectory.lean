import Mathlib.Algebra.BigOperators.Group.List.Basic
import Verif.Spec.Polynomial
import Verif.Model.Trajectory

/-
Specification side for segments and trajectories.
-/
namespace Verif.Spec

variable {K : Type}

/-- Start time of piece `i` when pieces with the given durations follow each other. -/
def startTime [AddMonoid K] (durations : List K) (i : ℕ) : K := (durations.take i).sum

/-- The vector of `k`-th derivatives at local time `t` of a list of polynomials. -/
noncomputable def valuesAt (ps : List (Poly ℝ)) (k : ℕ) (t : ℝ) : List ℝ :=
  ps.map fun p => iteratedDeriv k (curve p.coeffs) t

end Verif.Spec

namespace Verif

variable {K : Type}

/-- A well-formed segment: the polynomials have the number of coefficients the segment announces,
and the static table covers it. -/
structure Segment.WF (s : Segment K) : Prop where
  polysN : ∀ p ∈ s.polys, p.N = s.N
  small : s.N ≤ 22

/-- A well-formed trajectory: what `Trajectory` maintains (see C08), with well-formed segments of
non-negative duration. -/
structure Trajectory.WF [AddMonoid K] [LE K] (tr : Trajectory K) : Prop where
  dims : ∀ s ∈ tr.segments, s.D = tr.D
  coeffs : ∀ s ∈ tr.segments, s.N = tr.N
  total : tr.maxTime = tr.getSegmentTimes.sum
  wf : ∀ s ∈ tr.segments, s.WF
  nonneg : ∀ s ∈ tr.segments, 0 ≤ s.time

/-- All trajectories a program can obtain through the public interface of `Trajectory`: the default
one, and the results of calls that return normally, applied to trajectories obtained before. (`clear`
gives the default one again.) -/
inductive Reachable [Field K] [LinearOrder K] : Trajectory K → Prop
  | default : Reachable Trajectory.empty
  | setSegments {segs r} : Trajectory.setSegments segs = .ok r → Reachable r
  | addSegments {tr segs r} : Reachable tr → tr.addSegments segs = .ok r → Reachable r
  | scale {tr} (c : K) : Reachable tr → Reachable (tr.scaleSegmentTimes c).2
  | offset {tr} (o : List K) : Reachable tr → Reachable (tr.offset o).2
  | addTrajectories {tr ts b r} : Reachable tr → tr.addTrajectories ts = .ok (b, r) → Reachable r
  | addTrajectoriesAliased {tr ts b r} :
      Reachable tr → tr.addTrajectoriesAliased ts = .ok (b, r) → Reachable r
  | single {tr d r} : Reachable tr → tr.withSingleDimension d = .ok r → Reachable r
  | append {tr a r} : Reachable tr → Reachable a →
      tr.withAppendedDimension a = .ok (some r) → Reachable r

/-- Component `d` of a returned vector (0 if there is none). -/
def component (r : Res (List ℝ)) (d : ℕ) : ℝ :=
  match r with
  | .ok v => v.getD d 0
  | _ => 0

/-- Adjacent segments agree in the `k`-th derivative at their common vertex. -/
def Trajectory.JoinsAt (tr : Trajectory ℝ) (k : ℕ) : Prop :=
  ∀ i, (h : i + 1 < tr.segments.length) →
    Spec.valuesAt (tr.segments[i]'(by omega)).polys k (tr.segments[i]'(by omega)).time =
      Spec.valuesAt tr.segments[i + 1].polys k 0

end Verif
