import Mathlib.Algebra.Order.Field.Basic
import Mathlib.Data.Rat.Cast.Defs
import Verif.Model.Res

/-
Model of mav_trajectory_generation/include/mav_trajectory_generation/polynomial.h
and mav_trajectory_generation/src/polynomial.cpp.

`double` is an element of a type `K` with exact arithmetic; the functions that
only use `+`, `*` and numerals ask for nothing more than these operations.
-/
namespace Verif

variable {K : Type}

/-- polynomial.h:37-251, class `Polynomial`. The member `N_` is not stored: every
constructor (polynomial.h:52-61) makes it the length of `coefficients_` and no method
changes one without the other, so it is the length of the list. -/
structure Poly (K : Type) where
  coeffs : List K
  deriving DecidableEq, Repr

/-- polynomial.h:63, `N()`. -/
def Poly.N (p : Poly K) : ℕ := p.coeffs.length

/-- polynomial.h:52, `Polynomial(int N)`: the zero polynomial. (A negative `N` makes Eigen
allocate a negative size; this is excluded by the type.) -/
def Poly.zero [Zero K] (n : ℕ) : Poly K := ⟨List.replicate n 0⟩

/-- polynomial.h:55-58, `Polynomial(int N, coeffs)`. -/
def Poly.mk' (n : ℕ) (c : List K) : Res (Poly K) := do
  Res.check (n = c.length)
  pure ⟨c⟩

/-- polynomial.h:91-94, `setCoefficients`. -/
def Poly.setCoefficients (p : Poly K) (c : List K) : Res (Poly K) := do
  Res.check (p.N = c.length)
  pure ⟨c⟩

/-- polynomial.h:44-47, `kMaxConvolutionSize = 2 * kMaxN - 2` with `kMaxN = 12`: the number
of rows and columns of the static table `base_coefficients_`. -/
def kMaxConvolutionSize : ℕ := 2 * 12 - 2

/-- polynomial.cpp:145-160, `computeBaseCoefficients(N)`, row `n` as a list of `N` entries.
Row 0 is all ones; in iteration `n` (C++ numbering, here `n+1`) the local `order` is
`DEG - (n-1)`, so the inner loop starts at column `n-1` with factor `i - (n-1)`; the columns to
its left keep the zero of `setZero`. -/
def baseRow [Zero K] [One K] [Mul K] [NatCast K] (size : ℕ) : ℕ → List K
  | 0 => List.replicate size 1
  | n + 1 => (List.range size).map fun i =>
      if n ≤ i then ((i - n : ℕ) : K) * (baseRow size n).getD i 0 else 0

/-- polynomial.cpp:213-214, an entry of the static table `Polynomial::base_coefficients_`
(both indices below `kMaxConvolutionSize`; the callers check this). -/
def baseCoeff [Zero K] [One K] [Mul K] [NatCast K] (d j : ℕ) : K :=
  (baseRow kMaxConvolutionSize d).getD j 0

/-- The loop of polynomial.h:144-147 (and 126-129): `n` iterations with
`j = d+n-1, ..., d`, each doing `acc *= t; acc += f j`. -/
def hornerDown [Add K] [Mul K] (f : ℕ → K) (t : K) (d : ℕ) : ℕ → K → K
  | 0, acc => acc
  | n + 1, acc => hornerDown f t d n (acc * t + f (d + n))

/-- polynomial.h:140-148, the computation of `evaluate` for `0 ≤ d < N ≤ 22`. -/
def Poly.evalCore [Zero K] [One K] [Add K] [Mul K] [NatCast K] (p : Poly K) (t : K) (d : ℕ) : K :=
  let term := fun j => baseCoeff d j * p.coeffs.getD j 0
  hornerDown term t d (p.N - 1 - d) (term (p.N - 1))

/-- polynomial.h:136-149, `evaluate(t, derivative)`. Taking row `derivative` of the table with
`N_` columns is undefined when the row or the columns do not exist. -/
def Poly.evaluate [Zero K] [One K] [Add K] [Mul K] [NatCast K] (p : Poly K) (t : K) (d : ℤ) :
    Res K :=
  if d ≥ p.N then .ok 0
  else if d < 0 ∨ kMaxConvolutionSize < p.N then .ub
  else .ok (p.evalCore t d.toNat)

/-- polynomial.h:118-132, `evaluate(t, result)` where `result` has `len` entries. -/
def Poly.evaluateAll [Zero K] [One K] [Add K] [Mul K] [NatCast K] (p : Poly K) (t : K) (len : ℕ) :
    Res (List K) := do
  Res.check (len ≤ p.N)
  if 0 < len ∧ kMaxConvolutionSize < p.N then Res.ub
  else pure ((List.range len).map fun i => p.evalCore t i)

/-- polynomial.h:98-113, `getCoefficients(derivative)`. -/
def Poly.getCoefficients [Zero K] [One K] [Mul K] [NatCast K] (p : Poly K) (d : ℤ) :
    Res (List K) := do
  Res.check (d ≤ p.N)
  if d = 0 then pure p.coeffs
  -- `head(N_ - derivative)` and the table block must exist.
  else if d < 0 ∨ kMaxConvolutionSize < p.N ∨ kMaxConvolutionSize ≤ d then Res.ub
  else
    let k := d.toNat
    pure (((List.range (p.N - k)).map fun i =>
        p.coeffs.getD (k + i) 0 * baseCoeff k (k + i)) ++ List.replicate k 0)

/-- polynomial.h:65-67, `operator==`; Eigen requires equal sizes. -/
def Poly.beq [DecidableEq K] (p q : Poly K) : Res Bool :=
  if p.N = q.N then .ok (decide (p.coeffs = q.coeffs)) else .ub

/-- polynomial.h:71-77, `operator+` and `operator+=`; Eigen requires equal sizes. -/
def Poly.add [Add K] (p q : Poly K) : Res (Poly K) :=
  if p.N = q.N then .ok ⟨List.zipWith (· + ·) p.coeffs q.coeffs⟩ else .ub

/-- polynomial.h:84-86, `operator*(double)`. -/
def Poly.smul [Mul K] (p : Poly K) (a : K) : Poly K := ⟨p.coeffs.map (· * a)⟩

/-- polynomial.cpp:169-178, body of the outer loop of `convolve` for output index `i`:
`data_idx = i - kernel.size() + 1`, the inner loop runs over
`max(0, -data_idx) ≤ kernel_idx < min(kernel.size(), data.size() - data_idx)` and adds
`kernel_reverse[kernel_idx] * data[data_idx + kernel_idx]`. -/
def convolveEntry [Zero K] [Add K] [Mul K] (data kernel : List K) (i : ℕ) : K :=
  let dataIdx : ℤ := (i : ℤ) - kernel.length + 1
  let lower : ℤ := max 0 (-dataIdx)
  let upper : ℤ := min kernel.length (data.length - dataIdx)
  (List.range (upper - lower).toNat).foldl
    (fun acc (s : ℕ) =>
      acc + kernel.reverse.getD (lower + s).toNat 0 * data.getD (dataIdx + lower + s).toNat 0) 0

/-- polynomial.cpp:162-180, `convolve`. Two empty vectors give the size -1. -/
def convolve [Zero K] [Add K] [Mul K] (data kernel : List K) : Res (List K) :=
  if data.length + kernel.length = 0 then .ub
  else .ok ((List.range (data.length + kernel.length - 1)).map (convolveEntry data kernel))

/-- polynomial.h:79-81, `operator*(Polynomial)`. -/
def Poly.mul [Zero K] [Add K] [Mul K] (p q : Poly K) : Res (Poly K) := do
  let c ← convolve p.coeffs q.coeffs
  pure ⟨c⟩

/-- polynomial.cpp:182-197, `getPolynomialWithAppendedCoefficients`: the returned flag and the
polynomial written to the output argument. -/
def Poly.withAppendedCoefficients [Zero K] (p : Poly K) (newN : ℕ) : Bool × Poly K :=
  if newN = p.N then (true, p)
  else if newN < p.N then (false, p)
  else (true, ⟨p.coeffs ++ List.replicate (newN - p.N) 0⟩)

/-- polynomial.cpp:199-205, the loop of `scalePolynomialInTime`, `scale` being the loop
variable. -/
def scaleLoop [Mul K] (b : K) : K → List K → List K
  | _, [] => []
  | scale, c :: cs => c * scale :: scaleLoop b (scale * b) cs

/-- polynomial.cpp:199-205, `scalePolynomialInTime`. -/
def Poly.scaleInTime [One K] [Mul K] (p : Poly K) (b : K) : Poly K := ⟨scaleLoop b 1 p.coeffs⟩

/-- polynomial.cpp:207-211, `offsetPolynomial`. -/
def Poly.offset [Add K] (p : Poly K) (o : K) : Poly K :=
  match p.coeffs with
  | [] => p
  | c :: cs => ⟨(c + o) :: cs⟩

/-- `std::numeric_limits<double>::epsilon()` (2^-52), used at polynomial.h:211 and
polynomial.cpp:50. -/
def dblEpsilon [DivisionRing K] : K := 1 / 2 ^ 52

/-- `std::numeric_limits<double>::max()`, used at polynomial.cpp:127-129. -/
def dblMax [DivisionRing K] : K := (2 ^ 53 - 1) * 2 ^ 971

/-- The loop of polynomial.h:213-218 writing entries `j, j+1, ...` (`n` of them). -/
def baseCoeffsLoop [Zero K] [One K] [Mul K] [NatCast K] (d : ℕ) (t : K) : ℕ → ℕ → K → List K
  | 0, _, _ => []
  | n + 1, j, tp => baseCoeff d j * tp :: baseCoeffsLoop d t n (j + 1) (tp * t)

section Order
variable [Field K] [LinearOrder K]

/-- polynomial.h:201-228, `baseCoeffsWithTime(N, derivative, t)`. -/
def baseCoeffsWithTime (n : ℕ) (d : ℤ) (t : K) : Res (List K) := do
  Res.check (d < n)
  Res.check (0 ≤ d)
  if kMaxConvolutionSize ≤ d then Res.ub
  else
    let k := d.toNat
    if |t| < dblEpsilon then
      pure (List.replicate k 0 ++ [baseCoeff k k] ++ List.replicate (n - 1 - k) 0)
    else if kMaxConvolutionSize < n then Res.ub
    else
      pure (List.replicate k 0 ++ [baseCoeff k k] ++ baseCoeffsLoop k t (n - 1 - k) (k + 1) t)

/-- What `findRootsJenkinsTraub` (rpoly_ak1.cpp:70-117) looks like from outside: coefficients in
increasing order to a success flag and a list of complex numbers (real part, imaginary part).
The algorithm itself is a parameter here. -/
abbrev RootFinder (K : Type) := List K → Bool × List (K × K)

/-- polynomial.cpp:28-30, `getRoots`. -/
def Poly.getRoots (rf : RootFinder K) (p : Poly K) (d : ℤ) : Res (Bool × List (K × K)) := do
  let c ← p.getCoefficients d
  pure (rf c)

/-- polynomial.cpp:32-63, `selectMinMaxCandidatesFromRoots`: `none` when it returns false (the
output vector is then untouched), otherwise the candidates. -/
def selectMinMaxCandidatesFromRoots (tStart tEnd : K) (roots : List (K × K)) :
    Option (List K) :=
  if tStart > tEnd then none
  else some (tStart :: tEnd :: roots.filterMap fun r =>
    if |r.2| > dblEpsilon then none
    else if r.1 < tStart ∨ r.1 > tEnd then none
    else some r.1)

/-- polynomial.cpp:65-83, `computeMinMaxCandidates`: the returned flag and the candidate vector
(cleared first, so empty on failure). The success flag of the root finder is only logged. -/
def Poly.computeMinMaxCandidates (rf : RootFinder K) (p : Poly K) (tStart tEnd : K) (d : ℤ) :
    Res (Bool × List K) :=
  if (p.N : ℤ) - d - 1 < 0 then .ok (false, [])
  else do
    let r ← p.getRoots rf (d + 1)
    match selectMinMaxCandidatesFromRoots tStart tEnd r.2 with
    | none => pure (false, [])
    | some c => pure (true, c)

/-- polynomial.cpp:131-141, body of the loop of `selectMinMaxFromCandidates` on the pairs
`(time, value)` of minimum and maximum. -/
def minMaxStep (s : (K × K) × (K × K)) (tv : K × K) : (K × K) × (K × K) :=
  (if tv.2 < s.1.2 then tv else s.1, if tv.2 > s.2.2 then tv else s.2)

/-- polynomial.cpp:116-143, `selectMinMaxFromCandidates`: `none` when it returns false, otherwise
minimum and maximum as `(time, value)`. -/
def Poly.selectMinMaxFromCandidates (p : Poly K) (cand : List K) (d : ℤ) :
    Res (Option ((K × K) × (K × K))) :=
  match cand with
  | [] => .ok none
  | c :: _ => do
    let tvs ← cand.mapM fun t => do
      let v ← p.evaluate t d
      pure (t, v)
    pure (some (tvs.foldl minMaxStep ((c, dblMax), (c, -dblMax))))

/-- polynomial.cpp:85-100, `selectMinMaxFromRoots`. -/
def Poly.selectMinMaxFromRoots (p : Poly K) (tStart tEnd : K) (d : ℤ) (roots : List (K × K)) :
    Res (Option ((K × K) × (K × K))) :=
  match selectMinMaxCandidatesFromRoots tStart tEnd roots with
  | none => .ok none
  | some c => p.selectMinMaxFromCandidates c d

/-- polynomial.cpp:102-114, `computeMinMax`. -/
def Poly.computeMinMax (rf : RootFinder K) (p : Poly K) (tStart tEnd : K) (d : ℤ) :
    Res (Option ((K × K) × (K × K))) := do
  let r ← p.computeMinMaxCandidates rf tStart tEnd d
  if r.1 then p.selectMinMaxFromCandidates r.2 d else pure none

end Order
end Verif
