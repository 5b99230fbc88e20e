import Verif.Spec.Trajectory
import Verif.Model.Sampling

/-
Specification side for sampling.
-/
namespace Verif.Spec

variable {K : Type} [Field K] [LinearOrder K] [IsStrictOrderedRing K] [FloorRing K]

/-- The state at time `t` of an object with `D` dimensions whose derivatives of order 0..4 there are
the vectors `v 0`, ..., `v 4`: components 0..2, the yaw from component 3 when `D = 4`, the rotation
vector from components 3..5 when `D = 6`, and the time in nanoseconds, truncated. -/
structure IsState (D : ℕ) (v : ℕ → List K) (t : K) (st : State K) : Prop where
  position : st.position = (v 0).take 3
  velocity : st.velocity = (v 1).take 3
  acceleration : st.acceleration = (v 2).take 3
  jerk : st.jerk = (v 3).take 3
  snap : st.snap = (v 4).take 3
  yaw : D = 4 → ∃ y y' y'', (v 0)[3]? = some y ∧ (v 1)[3]? = some y' ∧ (v 2)[3]? = some y'' ∧
    st.attitude = .yaw y y' y''
  rotation : D = 6 → st.attitude = .rotation ((v 0).drop 3) ((v 1).drop 3) ((v 2).drop 3)
  other : D ≠ 4 → D ≠ 6 → st.attitude = .unchanged
  time : st.timeNs = ⌊t * 10 ^ 9⌋

end Verif.Spec
