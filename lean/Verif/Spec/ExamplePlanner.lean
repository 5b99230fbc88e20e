import Verif.Spec.NonlinearOptimization
import Verif.Model.ExamplePlanner

/-
Specification side for the example planners.
-/
namespace Verif.Spec

/-- A motion of one segment and of positive duration from position `p` with velocity `v` to position `q`
with velocity `w`; acceleration, jerk and snap are 0 at both ends. -/
structure GoesFromTo (tr : Trajectory ℝ) (p v q w : List ℝ) : Prop where
  one : tr.segments.length = 1
  duration : 0 < tr.maxTime
  startPosition : tr.evaluate 0 0 = .ok p
  startVelocity : tr.evaluate 0 1 = .ok v
  startRest : ∀ m : ℕ, 2 ≤ m → m ≤ 4 → tr.evaluate 0 m = .ok (List.replicate p.length 0)
  goalPosition : tr.evaluate tr.maxTime 0 = .ok q
  goalVelocity : tr.evaluate tr.maxTime 1 = .ok w
  goalRest : ∀ m : ℕ, 2 ≤ m → m ≤ 4 → tr.evaluate tr.maxTime m = .ok (List.replicate p.length 0)

/-- The same with all velocities slowed down by a common factor. -/
structure SlowedFromTo (tr : Trajectory ℝ) (p v q w : List ℝ) : Prop where
  one : tr.segments.length = 1
  duration : 0 < tr.maxTime
  startPosition : tr.evaluate 0 0 = .ok p
  goalPosition : tr.evaluate tr.maxTime 0 = .ok q
  velocities : ∃ k : ℝ, 0 < k ∧ k ≤ 1 ∧ tr.evaluate 0 1 = .ok (v.map (· * k)) ∧
    tr.evaluate tr.maxTime 1 = .ok (w.map (· * k))
  rest : ∀ m : ℕ, 2 ≤ m → m ≤ 4 → tr.evaluate 0 m = .ok (List.replicate p.length 0) ∧
    tr.evaluate tr.maxTime m = .ok (List.replicate p.length 0)

/-- Derivative `m` of the trajectory, restricted to `n` dimensions from dimension `i` on, never has a norm
above `bound`. -/
def NormAtMost (tr : Trajectory ℝ) (m i n : ℕ) (bound : ℝ) : Prop :=
  ∀ t ∈ Set.Icc 0 tr.maxTime, ∃ v, tr.evaluate t m = .ok v ∧ v.length = tr.D ∧
    Real.sqrt ((((v.drop i).take n).map (· ^ 2)).sum) ≤ bound

end Verif.Spec
