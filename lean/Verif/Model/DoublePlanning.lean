import Verif.Model.DoubleChecks
import Verif.Model.RoundedOptimizer
import Verif.Model.RoundedTimes
import Verif.Model.AnalysesRoots

/-
From vertices to a trajectory within limits with the numbers of `Model/Double`: the time estimates of `Model/RoundedTimes`, the linear
optimiser of `Model/RoundedOptimizer` and the scaling of `Model/AnalysesRoots` with the operations of `double`.
-/
namespace Verif

/-- What the time estimates (vertex.cpp:228-290) use, with `double`. The order in which Eigen adds the squares and the exponential
function are arguments; 0.1 is rounded. -/
noncomputable def dblTimeLib (order : ℕ → AddOrder) (exp : Dbl → Dbl) : TimeLib Dbl where
  norm := orderedNorm Dbl.sqrt order
  sqrt := Dbl.sqrt
  exp := exp
  half := .fin (1 / 2)
  one := .fin 1
  two := .fin 2
  tenth := .ofReal (1 / 10)

/-- `1.0 + kTolerance` with `double` (trajectory.cpp:389, 407-408). -/
noncomputable def dblLim : Dbl := .fin 1 + .ofReal (1 / 1000)

/-- trajectory.cpp:385-429, `scaleSegmentTimesToMeetConstraints` with `double`. -/
noncomputable def Trajectory.scaleToMeetDbl (rf : RootCall Dbl) (tr : Trajectory Dbl) (vMax aMax : Dbl) :
    Res (Bool × Trajectory Dbl) := tr.scaleToMeetConstraintsM dblLib dblLim rf vMax aMax

/-- trajectory.cpp:363-380, `scaleSegmentTimes`, for numbers without laws (`Model/Trajectory` has it for exact ones); `tiny` is the
literal `1.0e-6`. -/
def Trajectory.scaleSegmentTimesG {K : Type} [Zero K] [One K] [Add K] [Mul K] [Div K] [LT K] [DecidableLT K] (tiny : K)
    (tr : Trajectory K) (scaling : K) : Bool × Trajectory K :=
  if scaling < tiny then (false, tr) else (true, tr.scaleCore scaling)

/-- polynomial_optimization_linear.h:113-116, `getTrajectory`, for numbers without laws. -/
def LinOpt.getTrajectoryG {K : Type} [Zero K] [Add K] {h : ℕ} (o : LinOpt h K) : Res (Trajectory K) :=
  Trajectory.setSegments o.segments

end Verif
