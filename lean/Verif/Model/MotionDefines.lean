import Verif.Model.Polynomial

/-
Model of mav_trajectory_generation/src/motion_defines.cpp (names of derivatives).
-/
namespace Verif

/-- motion_defines.cpp:25-34, `positionDerivativeToString`; the array access is `Res.at'`. -/
def positionDerivativeToString (d : ℤ) : Res String :=
  if d ≥ 0 ∧ d ≤ 4 then
    Res.at' ["position", "velocity", "acceleration", "jerk", "snap"] d.toNat
  else .ok "invalid"

/-- motion_defines.cpp:36-51, `positionDerivativeToInt`; `INVALID` is -1 (motion_defines.h:41). -/
def positionDerivativeToInt (s : String) : ℤ :=
  if s = "position" then 0
  else if s = "velocity" then 1
  else if s = "acceleration" then 2
  else if s = "jerk" then 3
  else if s = "snap" then 4
  else -1

/-- motion_defines.cpp:53-62, `orintationDerivativeToString`. -/
def orientationDerivativeToString (d : ℤ) : Res String :=
  if d ≥ 0 ∧ d ≤ 2 then
    Res.at' ["orientation", "angular_velocity", "angular_acceleration"] d.toNat
  else .ok "invalid"

/-- motion_defines.cpp:64-75, `orientationDerivativeToInt`. -/
def orientationDerivativeToInt (s : String) : ℤ :=
  if s = "orientation" then 0
  else if s = "angular_velocity" then 1
  else if s = "angular_acceleration" then 2
  else -1

end Verif
