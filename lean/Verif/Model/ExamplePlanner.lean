import Verif.Model.NonlinearOptimization

/-
Model of mav_trajectory_generation_example/src/example_planner.cc ("ex") and example_planner_6dof.cc
("ex6"): the planning part of class `ExamplePlanner`. Positions and velocities are lists of numbers;
those of the vehicle have three entries. Not modelled: publishers, subscribers and parameters of ROS.
-/
namespace Verif

variable {K : Type}

/-- nonlinear.h:34-99, the default values of `NonlinearOptimizationParameters`. -/
def NlParams.default [Field K] : NlParams K := ⟨1 / 10, 500, true, 100, .squaredTimeAndConstraints⟩

section
variable [Field K] [LinearOrder K]

/-- ex:66-92 and ex6:140-153, the two vertices; the orders are 4 (snap) and 1 (velocity). -/
def planVertices (dim : ℕ) (startPos startVel goalPos goalVel : List K) : Res (List (Vertex K)) := do
  let s0 ← (Vertex.new dim).makeStartOrEnd startPos 4
  let s ← s0.addConstraint 1 startVel
  let e0 ← (Vertex.new dim).makeStartOrEnd goalPos 4
  let e ← e0.addConstraint 1 goalVel
  pure [s, e]

/-- ex:94-108 and ex6:155-169, the optimiser object before `optimize()`. The results of
`addMaximumMagnitudeConstraint` are not looked at; as limits are soft, NLopt is not asked. -/
def planSetup (lib : NlLib 5 K) (dim : ℕ) (startPos startVel goalPos goalVel : List K) (vMax aMax : K) :
    Res (NlOpt 5 K) := do
  let vs ← planVertices dim startPos startVel goalPos goalVel
  let ts ← estimateSegmentTimes lib.sq lib.ex vs vMax aMax
  let o ← (NlOpt.new dim NlParams.default).setupFromVertices lib vs ts 4
  let o1 ← o.addMaximumMagnitudeConstraint true 1 vMax
  let o2 ← o1.2.addMaximumMagnitudeConstraint true 2 aMax
  pure o2.2

/-- ex:111-114 and ex6:172-175: `optimize()`, for one run of NLopt, and `getTrajectory`. -/
def planOptimize (lib : NlLib 5 K) (run : NlRun K) (o : NlOpt 5 K) : Res (Trajectory K) := do
  let r ← o.optimize lib run
  r.2.lin.getTrajectory

/-- What `ExamplePlanner` knows of the vehicle: position and velocity, and for ex6 the yaw angle and
rotation vector of its attitude and the angular velocity. -/
structure Vehicle (K : Type) where
  position : List K
  velocity : List K
  yaw : K
  rotation : List K
  angularVelocity : List K

/-- ex:48-117, `planTrajectory`, which always returns true: the planned trajectory. -/
def planTrajectory (lib : NlLib 5 K) (run : NlRun K) (v : Vehicle K) (vMax aMax : K)
    (goalPos goalVel : List K) : Res (Trajectory K) := do
  let o ← planSetup lib 3 v.position v.velocity goalPos goalVel vMax aMax
  planOptimize lib run o

/-- ex6:122-179, `planTrajectory` with a given start (it always returns true): the trajectory. The
dimension is the number of entries of the goal. -/
def planFrom (lib : NlLib 5 K) (run : NlRun K) (goalPos goalVel startPos startVel : List K)
    (vMax aMax : K) : Res (Trajectory K) := do
  let o ← planSetup lib goalPos.length startPos startVel goalPos goalVel vMax aMax
  let tr ← planOptimize lib run o
  let r ← tr.scaleToMeetConstraints lib.rf lib.sq vMax aMax
  pure r.2

/-- ex6:57-119, `planTrajectory`: the returned flag and the trajectory. `head(3)` and `tail(3)` need three
entries. `runs` are the runs of NLopt for the translation and the rotation. -/
def planTrajectory6 (lib : NlLib 5 K) (runs : NlRun K × NlRun K) (v : Vehicle K)
    (vMax aMax angVMax angAMax : K) (goalPos goalVel : List K) : Res (Bool × Trajectory K) :=
  if goalPos.length = 6 then
    if goalVel.length < 3 then Res.ub
    else do
      let trans ← planFrom lib runs.1 (goalPos.take 3) (goalVel.take 3) v.position v.velocity vMax aMax
      let rot ← planFrom lib runs.2 (goalPos.drop 3) (goalVel.drop (goalVel.length - 3)) v.rotation
        v.angularVelocity angVMax angAMax
      let r ← trans.withAppendedDimension rot
      match r with
      | some tr => pure (true, tr)
      | none => pure (false, Trajectory.empty)
  else if goalPos.length = 3 then do
    let tr ← planFrom lib runs.1 goalPos goalVel v.position v.velocity vMax aMax
    pure (true, tr)
  else if goalPos.length = 4 then do
    let tr ← planFrom lib runs.1 goalPos goalVel (v.position ++ [v.yaw]) (v.velocity ++ [0]) vMax aMax
    pure (true, tr)
  else pure (false, Trajectory.empty)

end
end Verif
