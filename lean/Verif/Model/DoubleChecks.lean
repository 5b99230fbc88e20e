import Verif.Model.Double
import Verif.Model.RoundedSampling
import Verif.Model.RoundedAnalytic

/-
The feasibility checks with the numbers of `Model/Double`: the definitions of `Model/RoundedFeasibility`, `Model/RoundedSampling`,
`Model/RoundedAnalytic` and `Model/AnalysesRoots` with the operations of `double`, so that they can be run on NaN and the
infinities.
-/
namespace Verif

namespace Dbl

/-- The quotient. The two zeros are one in `Dbl`, and a divisor 0 is taken for the positive one; the checks divide only by 2
(feasibility_recursive.cpp:282, feasibility_analytic.cpp:215) and by numbers above `1.0e-6` (feasibility_recursive.cpp:249-250,
feasibility_analytic.cpp:201-202). -/
noncomputable instance : Div Dbl := ⟨fun a b =>
  match a, b with
  | fin x, fin y => if y = 0 then (if x = 0 then nan else inf (decide (x < 0))) else ofReal (x / y)
  | nan, _ => nan
  | _, nan => nan
  | inf _, inf _ => nan
  | inf s, fin y => inf (s ^^ decide (y < 0))
  | fin _, inf _ => fin 0⟩

/-- `<=`: false when one of the numbers is NaN. -/
def le (a b : Dbl) : Prop :=
  match a, b with
  | fin x, fin y => x ≤ y
  | nan, _ => False
  | _, nan => False
  | inf s, inf r => s = true ∨ r = false
  | inf s, fin _ => s = true
  | fin _, inf s => s = false

instance : LE Dbl := ⟨le⟩
noncomputable instance : DecidableLE Dbl := fun _ _ => Classical.propDecidable _

/-- `std::abs`. -/
def abs (a : Dbl) : Dbl :=
  match a with
  | fin x => fin |x|
  | inf _ => inf false
  | nan => nan

/-- `std::sqrt`: NaN for negative numbers, else the root rounded. -/
noncomputable def sqrt (a : Dbl) : Dbl :=
  match a with
  | fin x => if x < 0 then nan else ofReal (Real.sqrt x)
  | inf s => if s then nan else inf false
  | nan => nan

/-- The scalar product of Eigen with the terms added from the first to the last. -/
noncomputable def seqDot : Dot Dbl := fun n a b => ((List.finRange n).map fun i => a i * b i).foldl (· + ·) 0

end Dbl

/-- The library of `double`; `std::pow(·, 2)` is taken to be the rounded square. -/
noncomputable def dblLib : MagLib Dbl where
  abs := Dbl.abs
  pow2 x := x * x
  sqrt := Dbl.sqrt
  eps := .fin dblEpsilon
  max := .fin dblMax

/-- The library of `double` with the scalar product `dot`. The literal `1.0e-6` is rounded. -/
noncomputable def dblFeasLib (dot : Dot Dbl) : FeasLib Dbl where
  toMagLib := dblLib
  dot := dot
  tiny := .ofReal (1 / 10 ^ 6)
  two := .fin 2

/-- What the check by sampling uses; the conversion of NaN and of the infinities to an integer is undefined. -/
noncomputable def dblSampLib : SampLib Dbl where
  abs := Dbl.abs
  nano := .fin (10 ^ 9)
  fits := fun a =>
    match a with
    | .fin x => decide (-2 ^ 63 - 1 < x ∧ x < 2 ^ 63)
    | _ => false

/-- feasibility_recursive.cpp:42-131 with `double`. -/
noncomputable def Segment.checkRecursiveDbl (dot : Dot Dbl) (rf : RootCall Dbl) (ic : InputConstraints Dbl) (g : Fin 3 → Dbl)
    (minSection : Dbl) (fuel : ℕ) (s : Segment Dbl) : Res Verdict :=
  s.checkRecursiveG (dblFeasLib dot) rf ic g minSection fuel

/-- feasibility_analytic.cpp:42-127 with `double`. -/
noncomputable def Segment.checkAnalyticDbl (rf : RootCall Dbl) (ic : InputConstraints Dbl) (g : Fin 3 → Dbl)
    (minSection : Dbl) (fuel : ℕ) (s : Segment Dbl) : Res Verdict :=
  s.checkAnalyticG (dblFeasLib Dbl.seqDot) rf ic g minSection fuel

/-- feasibility_sampling.cpp:38-128 with `double`. -/
noncomputable def Segment.checkSamplingDbl (conv : List (List Dbl) → MavState Dbl) (ic : InputConstraints Dbl) (dt : Dbl)
    (fuel : ℕ) (s : Segment Dbl) : Res Verdict := s.checkSamplingG dblSampLib conv ic dt fuel

/-- feasibility_base.cpp:119-154 with `double`. -/
noncomputable def Segment.checkHalfPlanesDbl (dot : Dot Dbl) (rf : RootCall Dbl) (hps : List (HalfPlane Dbl))
    (s : Segment Dbl) : Res Bool := s.checkHalfPlanesM Dbl.abs (.fin dblEpsilon) dot rf hps

/-- input_constraints.cpp:32-43, `addConstraint`, for numbers without laws (`Model/InputConstraints` has it for exact ones). -/
def InputConstraints.addConstraintG {K : Type} [LT K] [DecidableLT K] (abs : K → K) (c : InputConstraints K) (type : ℤ)
    (value : K) : InputConstraints K :=
  let v := abs value
  let l := c.constraints
  let l' :=
    if type = kFMin then
      match mapFind kFMax l with
      | some m => mapInsert kFMax (if v > m then v else m) l
      | none => l
    else if type = kFMax then
      match mapFind kFMin l with
      | some m => mapInsert kFMin (if v < m then v else m) l
      | none => l
    else l
  ⟨mapInsert type v l'⟩

end Verif
