import Verif.Model.Sampling
import Verif.Model.RosConversions

/-
Model of mav_trajectory_generation_ros/src/trajectory_sampler_node.cpp.

Callbacks are run one at a time (`ros::spin`, 145). ROS calls the timer callback only while the timer is
started; starting a started timer and stopping a stopped one do nothing. The position hold service
(93-96) is outside the node.
-/
namespace Verif

variable {K M : Type}

/-- The members of `TrajectorySamplerNode` (trajectory_sampler_node.h:51-80): the two parameters, the time
of the next sample, whether `publish_timer_` is started, and the trajectory. -/
structure SamplerNode (K : Type) where
  publishWhole : Bool
  dt : K
  current : K
  running : Bool
  trajectory : Trajectory K
  deriving DecidableEq, Repr

/-- What the node receives: a message of either type, a call of the stop service, or an expiry of the
timer period. -/
inductive NodeEvent (M : Type) where
  | path (msg : List M)
  | path4D (msg : List M)
  | stop
  | tick
  deriving DecidableEq, Repr

/-- What the node publishes: a single point with its `time_from_start` (`none` stands for the default
constructed point that is published when sampling failed), or all points at once. -/
inductive Published (K : Type) where
  | point (time : K) (state : Option (State K))
  | whole (states : List (State K))
  deriving DecidableEq, Repr

section
variable [Field K] [LinearOrder K] [IsStrictOrderedRing K] [FloorRing K]

/-- trajectory_sampler_node.cpp:23-51, the constructor. The node holds a default constructed trajectory. -/
def SamplerNode.init (publishWhole : Bool) (dt : K) : SamplerNode K :=
  ⟨publishWhole, dt, 0, false, Trajectory.empty⟩

/-- trajectory_sampler_node.cpp:90-110, `processTrajectory`. The result of `sampleWholeTrajectory` is
ignored: nothing has been written to the points when it failed. -/
def SamplerNode.processTrajectory (fuel : ℕ) (n : SamplerNode K) :
    Res (SamplerNode K × List (Published K)) :=
  if n.publishWhole then do
    let r ← sampleWholeTrajectory fuel n.trajectory n.dt
    pure (n, [.whole (r.getD [])])
  else .ok ({ n with running := true, current := 0 }, [])

/-- trajectory_sampler_node.cpp:54-70, `pathSegmentsCallback`. The conversion never returns false. -/
def SamplerNode.pathSegments (fuel : ℕ) (mc : MsgConv K M) (n : SamplerNode K) (msg : List M) :
    Res (SamplerNode K × List (Published K)) :=
  if msg.isEmpty then .ok (n, [])
  else do
    let tr ← msgToTrajectory mc msg
    SamplerNode.processTrajectory fuel { n with trajectory := tr }

/-- trajectory_sampler_node.cpp:72-88, `pathSegments4DCallback`. -/
def SamplerNode.pathSegments4D (fuel : ℕ) (mc : MsgConv K M) (n : SamplerNode K) (msg : List M) :
    Res (SamplerNode K × List (Published K)) :=
  if msg.isEmpty then .ok (n, [])
  else do
    let tr ← msg4DToTrajectory mc msg
    SamplerNode.processTrajectory fuel { n with trajectory := tr }

/-- trajectory_sampler_node.cpp:112-116, `stopSamplingCallback`. -/
def SamplerNode.stop (n : SamplerNode K) : SamplerNode K := { n with running := false }

/-- trajectory_sampler_node.cpp:118-134, `commandTimerCallback`. -/
def SamplerNode.commandTimer (n : SamplerNode K) : Res (SamplerNode K × List (Published K)) :=
  if n.current ≤ n.trajectory.maxTime then do
    let r ← sampleTrajectoryAtTime n.trajectory n.current
    let n1 := if r.isSome then n else n.stop
    pure ({ n1 with current := n.current + n.dt }, [.point n.current r])
  else .ok (n.stop, [])

/-- One event. The timer callback is called only while the timer is started. -/
def SamplerNode.step (fuel : ℕ) (mc mc4 : MsgConv K M) (n : SamplerNode K) :
    NodeEvent M → Res (SamplerNode K × List (Published K))
  | .path msg => n.pathSegments fuel mc msg
  | .path4D msg => n.pathSegments4D fuel mc4 msg
  | .stop => .ok (n.stop, [])
  | .tick => if n.running then n.commandTimer else .ok (n, [])

/-- A history of events: the node afterwards and everything it published, in order. -/
def SamplerNode.run (fuel : ℕ) (mc mc4 : MsgConv K M) (n : SamplerNode K) :
    List (NodeEvent M) → Res (SamplerNode K × List (Published K))
  | [] => .ok (n, [])
  | e :: es => do
    let r ← n.step fuel mc mc4 e
    let r' ← SamplerNode.run fuel mc mc4 r.1 es
    pure (r'.1, r.2 ++ r'.2)

end
end Verif
