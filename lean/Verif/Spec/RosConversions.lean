import Verif.Model.RosConversions

/-
Specification side for the message conversions.
-/
namespace Verif.Spec

variable {K M : Type}

/-- What is assumed of mav_planning_msgs: converting a segment to a message and back copies it, when
its duration fits into a `ros::Duration` (32 bits of seconds). -/
def Copies (mc : MsgConv K M) : Prop :=
  ∀ e : EigenSeg K, e.timeNs < 2 ^ 31 * 10 ^ 9 → mc.fromMsg (mc.toMsg e) = e

/-- The same for the 4D messages, which have no rotation vector. -/
def Copies4D (mc : MsgConv K M) : Prop :=
  ∀ e : EigenSeg K, e.timeNs < 2 ^ 31 * 10 ^ 9 →
    mc.fromMsg (mc.toMsg e) = { e with rx := [], ry := [], rz := [] }

end Verif.Spec
