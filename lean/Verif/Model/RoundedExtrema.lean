import Verif.Model.Rounded

/-
The search for extrema of one polynomial (polynomial.cpp:32-143) for numbers without laws: the definitions of
`Model/Polynomial` again, with the absolute value and the two constants of `double` as arguments, so that they can be used
with rounded numbers. `C114_same_code` states that with a field they are the definitions of `Model/Polynomial`.
-/
namespace Verif

variable {K : Type}

/-- polynomial.cpp:32-63, `selectMinMaxCandidatesFromRoots`. -/
def candidatesG [LT K] [DecidableLT K] (abs : K → K) (eps : K) (tStart tEnd : K) (roots : List (K × K)) :
    Option (List K) :=
  if tStart > tEnd then none
  else some (tStart :: tEnd :: roots.filterMap fun r =>
    if abs r.2 > eps then none
    else if r.1 < tStart ∨ r.1 > tEnd then none
    else some r.1)

/-- polynomial.cpp:65-83, `computeMinMaxCandidates`. -/
def Poly.computeMinMaxCandidatesG [Zero K] [One K] [Mul K] [NatCast K] [LT K] [DecidableLT K] (abs : K → K) (eps : K)
    (rf : RootFinder K) (p : Poly K) (tStart tEnd : K) (d : ℤ) : Res (Bool × List K) :=
  if (p.N : ℤ) - d - 1 < 0 then .ok (false, [])
  else do
    let c ← p.getCoefficients (d + 1)
    match candidatesG abs eps tStart tEnd (rf c).2 with
    | none => pure (false, [])
    | some c => pure (true, c)

/-- polynomial.cpp:131-141, body of the loop of `selectMinMaxFromCandidates`. -/
def minMaxStepG [LT K] [DecidableLT K] (s : (K × K) × (K × K)) (tv : K × K) : (K × K) × (K × K) :=
  (if tv.2 < s.1.2 then tv else s.1, if tv.2 > s.2.2 then tv else s.2)

/-- polynomial.cpp:116-143, `selectMinMaxFromCandidates`. -/
def Poly.selectMinMaxFromCandidatesG [Zero K] [One K] [Add K] [Mul K] [Neg K] [NatCast K] [LT K] [DecidableLT K]
    (max : K) (p : Poly K) (cand : List K) (d : ℤ) : Res (Option ((K × K) × (K × K))) :=
  match cand with
  | [] => .ok none
  | c :: _ => do
    let tvs ← cand.mapM fun t => do
      let v ← p.evaluate t d
      pure (t, v)
    pure (some (tvs.foldl minMaxStepG ((c, max), (c, -max))))

/-- polynomial.cpp:102-114, `computeMinMax`. -/
def Poly.computeMinMaxG [Zero K] [One K] [Add K] [Mul K] [Neg K] [NatCast K] [LT K] [DecidableLT K]
    (abs : K → K) (eps max : K) (rf : RootFinder K) (p : Poly K) (tStart tEnd : K) (d : ℤ) :
    Res (Option ((K × K) × (K × K))) := do
  let r ← p.computeMinMaxCandidatesG abs eps rf tStart tEnd d
  if r.1 then p.selectMinMaxFromCandidatesG max r.2 d else pure none

/-- `std::abs` is exact. -/
def Fl.abs {rnd : ℝ → ℝ} (x : Fl rnd) : Fl rnd := ⟨|x.val|⟩

/-- `computeMinMax` with `double` numbers; the two constants are powers of two, or a number of 53 bits. -/
noncomputable def Poly.computeMinMaxFl {rnd : ℝ → ℝ} (rf : RootFinder (Fl rnd)) (p : Poly (Fl rnd)) (tStart tEnd : Fl rnd)
    (d : ℤ) : Res (Option ((Fl rnd × Fl rnd) × (Fl rnd × Fl rnd))) :=
  p.computeMinMaxG Fl.abs ⟨dblEpsilon⟩ ⟨dblMax⟩ rf tStart tEnd d

end Verif
