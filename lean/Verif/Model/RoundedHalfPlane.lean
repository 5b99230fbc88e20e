import Verif.Model.Feasibility
import Verif.Model.RoundedExtrema
import Verif.Model.RoundedMapping

/-
The half plane check (feasibility_base.cpp:109-154) for numbers without laws: the definitions of `Model/Feasibility` again,
with the absolute value, the constant of `double` and the scalar product of Eigen as arguments, so that they can be used with
rounded numbers. `C124_same_code` states that with a field they are the definitions of `Model/Feasibility`.
-/
namespace Verif

variable {K : Type}

/-- feasibility_base.cpp:132-135, the loop adding the scaled polynomials of the first three dimensions. -/
def projectionG [Zero K] [Add K] [Mul K] (s : Segment K) (n : Fin 3 → K) : Res (Poly K) :=
  [0, 1, 2].foldlM (fun (acc : Poly K) (i : Fin 3) => do
    let p ← s.get i
    acc.add (p.smul (n i))) (Poly.zero s.N)

section
variable [Zero K] [One K] [Add K] [Sub K] [Mul K] [NatCast K] [LE K] [DecidableLE K] [LT K] [DecidableLT K]

/-- feasibility_base.cpp:143-151, the loop over the candidates: false when one of them is not on the positive side. -/
def candidatesInsideG (dot : Dot K) (s : Segment K) (hp : HalfPlane K) : List K → Res Bool
  | [] => .ok true
  | t :: ts => do
    let v ← s.evaluate t 0
    let x ← vecHead3 v
    if dot 3 (fun i => x i - hp.point i) hp.normal ≤ 0 then pure false
    else candidatesInsideG dot s hp ts

/-- feasibility_base.cpp:128-152, the loop over the half planes. -/
def halfPlaneLoopG (abs : K → K) (eps : K) (dot : Dot K) (rf : RootFinder K) (s : Segment K) :
    List (HalfPlane K) → Res Bool
  | [] => .ok true
  | hp :: hps => do
    let p ← projectionG s hp.normal
    let c ← p.computeMinMaxCandidatesG abs eps rf 0 s.time 0
    let b ← candidatesInsideG dot s hp c.2
    if b then halfPlaneLoopG abs eps dot rf s hps else pure false

/-- feasibility_base.cpp:119-154, `checkHalfPlaneFeasibility(segment)`. -/
def Segment.checkHalfPlanesG (abs : K → K) (eps : K) (dot : Dot K) (rf : RootFinder K) (hps : List (HalfPlane K))
    (s : Segment K) : Res Bool :=
  if s.D = 3 ∨ s.D = 4 then halfPlaneLoopG abs eps dot rf s hps else .ok false

/-- feasibility_base.cpp:109-117, `checkHalfPlaneFeasibility(trajectory)`: the loop over the segments. -/
def halfPlaneSegmentsG (abs : K → K) (eps : K) (dot : Dot K) (rf : RootFinder K) (hps : List (HalfPlane K)) :
    List (Segment K) → Res Bool
  | [] => .ok true
  | s :: ss => do
    let b ← s.checkHalfPlanesG abs eps dot rf hps
    if b then halfPlaneSegmentsG abs eps dot rf hps ss else pure false

end

/-- `checkHalfPlaneFeasibility` with `double` numbers. -/
noncomputable def Segment.checkHalfPlanesFl {rnd : ℝ → ℝ} (dot : Dot (Fl rnd)) (rf : RootFinder (Fl rnd))
    (hps : List (HalfPlane (Fl rnd))) (s : Segment (Fl rnd)) : Res Bool :=
  s.checkHalfPlanesG Fl.abs ⟨dblEpsilon⟩ dot rf hps

/-- `checkHalfPlaneFeasibility` of a trajectory with `double` numbers. -/
noncomputable def Trajectory.checkHalfPlanesFl {rnd : ℝ → ℝ} (dot : Dot (Fl rnd)) (rf : RootFinder (Fl rnd))
    (hps : List (HalfPlane (Fl rnd))) (tr : Trajectory (Fl rnd)) : Res Bool :=
  halfPlaneSegmentsG Fl.abs ⟨dblEpsilon⟩ dot rf hps tr.segments

end Verif
