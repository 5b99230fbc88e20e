import Verif.Model.RoundedExtrema
import Verif.Model.Rpoly

/-
The search for extrema of one polynomial (polynomial.cpp:28-143) together with the root finder it calls
(rpoly_ak1.cpp:70-117). Elsewhere the root finder is a function that always returns; here it is a call that may not return.
-/
namespace Verif

variable {K : Type}

/-- A call of the root finder. -/
abbrev RootCall (K : Type) := List K → Res (Bool × List (K × K))

/-- polynomial.cpp:28-30 and rpoly_ak1.cpp:70-117: `findRootsJenkinsTraub` with an empty vector of roots, which stays empty when
the function fails. -/
def codeRoots [Zero K] [One K] [Add K] [Sub K] [Mul K] [Div K] [Neg K] [NatCast K] [LE K] [LT K] [DecidableLE K] [DecidableLT K]
    (m : RMath K) (fuel : ℕ) : RootCall K := fun c => do
  let r ← findRoots m fuel c
  pure (r.1, r.2.getD [])

section
variable [Zero K] [One K] [Add K] [Mul K] [Neg K] [NatCast K] [LT K] [DecidableLT K]

/-- polynomial.cpp:65-83, `computeMinMaxCandidates`. -/
def Poly.computeMinMaxCandidatesM (abs : K → K) (eps : K) (rf : RootCall K) (p : Poly K) (tStart tEnd : K) (d : ℤ) :
    Res (Bool × List K) :=
  if (p.N : ℤ) - d - 1 < 0 then .ok (false, [])
  else do
    let c ← p.getCoefficients (d + 1)
    let r ← rf c
    match candidatesG abs eps tStart tEnd r.2 with
    | none => pure (false, [])
    | some c => pure (true, c)

/-- polynomial.cpp:102-114, `computeMinMax`. -/
def Poly.computeMinMaxM (abs : K → K) (eps max : K) (rf : RootCall K) (p : Poly K) (tStart tEnd : K) (d : ℤ) :
    Res (Option ((K × K) × (K × K))) := do
  let r ← p.computeMinMaxCandidatesM abs eps rf tStart tEnd d
  if r.1 then p.selectMinMaxFromCandidatesG max r.2 d else pure none

end

/-- `computeMinMax` with `double` numbers and the root finder of the code. -/
noncomputable def Poly.computeMinMaxJFl {rnd : ℝ → ℝ} (m : RMath (Fl rnd)) (fuel : ℕ) (p : Poly (Fl rnd)) (tStart tEnd : Fl rnd)
    (d : ℤ) : Res (Option ((Fl rnd × Fl rnd) × (Fl rnd × Fl rnd))) :=
  p.computeMinMaxM Fl.abs ⟨dblEpsilon⟩ ⟨dblMax⟩ (codeRoots m fuel) tStart tEnd d

end Verif
