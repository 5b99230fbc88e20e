import Verif.Model.RoundedFeasibility

/-
The feasibility check by sampling (feasibility_sampling.cpp:38-128) for numbers without laws: the definitions of `Model/Feasibility`
again, with the time stamp, whose conversion to an integer is undefined when it does not fit. `C130_same_code` states when they
agree.
-/
namespace Verif

variable {K : Type}

/-- What the check uses besides the operations: `std::fabs`, the constant of feasibility_sampling.cpp:27, and whether
`static_cast<int64_t>` of a number is defined. -/
structure SampLib (K : Type) where
  abs : K → K
  nano : K
  fits : K → Bool

section
variable [Zero K] [One K] [Add K] [Mul K] [NatCast K] [LT K] [DecidableLT K] [LE K] [DecidableLE K]

/-- feasibility_sampling.cpp:75-121, the checks of one state, `none` when all limits are met. -/
def checkStateG (lib : SampLib K) (ic : InputConstraints K) (m : MavState K) : Option Verdict :=
  if limitSuchThatG ic kFMin fun lim => m.thrust < lim then some .thrustLow
  else if limitSuchThatG ic kFMax fun lim => m.thrust > lim then some .thrustHigh
  else if limitSuchThatG ic kVMax fun lim => m.speed > lim then some .velocity
  else if limitSuchThatG ic kOmegaXYMax fun lim => m.omegaXY > lim then some .rollPitchRates
  else if limitSuchThatG ic kOmegaZMax fun lim => lib.abs m.omegaZ > lim then some .yawRates
  else if limitSuchThatG ic kOmegaZDotMax fun lim => lib.abs m.omegaZDot > lim then some .yawAcc
  else none

/-- feasibility_sampling.cpp:55-56: the time stamp in nanoseconds; `ub` when it does not fit into 64 bits. Its value is not read
by the check. -/
def timeStampG (lib : SampLib K) (t : K) : Res Unit := if lib.fits (t * lib.nano) then .ok () else .ub

/-- feasibility_sampling.cpp:48-72: the state at time `t`. The conversion of the flat state belongs to mav_msgs and is the
parameter `conv`. -/
def sampledStateG (lib : SampLib K) (conv : List (List K) → MavState K) (s : Segment K) (t : K) : Res (MavState K) := do
  let ds ← [0, 1, 2, 3, 4].mapM fun (d : ℤ) => s.evaluate t d
  timeStampG lib t
  let _ ← ds.mapM vecHead3
  pure (conv ds)

/-- feasibility_sampling.cpp:46-126, the `while` loop with at most `fuel` iterations. -/
def samplingLoopG (lib : SampLib K) (conv : List (List K) → MavState K) (ic : InputConstraints K) (dt : K) (s : Segment K) :
    ℕ → K → Res Verdict
  | 0, _ => .hang
  | fuel + 1, t =>
    if t ≤ s.time then do
      let m ← sampledStateG lib conv s t
      match checkStateG lib ic m with
      | some r => pure r
      | none => samplingLoopG lib conv ic dt s fuel (t + dt)
    else .ok .feasible

/-- feasibility_sampling.cpp:38-128, `FeasibilitySampling::checkInputFeasibility`. -/
def Segment.checkSamplingG (lib : SampLib K) (conv : List (List K) → MavState K) (ic : InputConstraints K) (dt : K)
    (fuel : ℕ) (s : Segment K) : Res Verdict :=
  if s.D = 3 ∨ s.D = 4 then samplingLoopG lib conv ic dt s fuel 0 else .ok .indeterminable

end

/-- Exact numbers; the conversion truncates and is defined between `-2 ^ 63 - 1` and `2 ^ 63`. -/
def fieldSampLib [Field K] [LinearOrder K] : SampLib K where
  abs := fun x => |x|
  nano := 10 ^ 9
  fits := fun x => decide (-2 ^ 63 - 1 < x ∧ x < 2 ^ 63)

/-- `double` numbers; `1.0e9` is one. -/
noncomputable def flSampLib (rnd : ℝ → ℝ) : SampLib (Fl rnd) where
  abs := fun x => ⟨|x.val|⟩
  nano := ⟨10 ^ 9⟩
  fits := fun x => decide (-2 ^ 63 - 1 < x.val ∧ x.val < 2 ^ 63)

/-- `checkInputFeasibility` with `double` numbers. -/
noncomputable def Segment.checkSamplingFl {rnd : ℝ → ℝ} (conv : List (List (Fl rnd)) → MavState (Fl rnd))
    (ic : InputConstraints (Fl rnd)) (dt : Fl rnd) (fuel : ℕ) (s : Segment (Fl rnd)) : Res Verdict :=
  s.checkSamplingG (flSampLib rnd) conv ic dt fuel

end Verif
