import Verif.Model.SamplerNode

/-
Specification side for the sampler node.
-/
namespace Verif.Spec

variable {K M : Type} [Field K]

/-- The event is a non-empty message that describes the trajectory `tr`. -/
def Accepts (mc mc4 : MsgConv K M) (e : NodeEvent M) (tr : Trajectory K) : Prop :=
  (∃ msg, e = .path msg ∧ msg ≠ [] ∧ msgToTrajectory mc msg = .ok tr) ∨
  (∃ msg, e = .path4D msg ∧ msg ≠ [] ∧ msg4DToTrajectory mc4 msg = .ok tr)

/-- The event is neither a non-empty message nor a call of the stop service. -/
def Quiet (e : NodeEvent M) : Prop := e = .tick ∨ e = .path [] ∨ e = .path4D []

/-- The number of timer expiries in a history. -/
def ticks : List (NodeEvent M) → ℕ
  | [] => 0
  | .tick :: es => ticks es + 1
  | _ :: es => ticks es

/-- Every polynomial announced by the message has at most 22 coefficients. -/
def SmallMsg (mc : MsgConv K M) (msg : List M) : Prop := ∀ m ∈ msg, (mc.fromMsg m).x.length ≤ 22

end Verif.Spec
