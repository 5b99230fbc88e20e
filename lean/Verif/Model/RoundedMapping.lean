import Verif.Model.LinearOptimization
import Verif.Model.RoundedMagnitude

/-
The part of the linear optimiser that turns derivatives at the ends of a segment into coefficients, for numbers without
laws: the definitions of `Model/LinearOptimization` again, with the absolute value, the machine epsilon and the scalar
product as arguments, so that they can be used with rounded numbers. `C118_same_code` states that with a field they are
the definitions of `Model/LinearOptimization`.
-/
namespace Verif

variable {K : Type} [Zero K] [One K] [Mul K] [Neg K] [Div K] [NatCast K] [LT K] [DecidableLT K]

/-- polynomial.h:201-228, `baseCoeffsWithTime(N, derivative, t)`. -/
def baseCoeffsWithTimeG (lib : MagLib K) (n : ℕ) (d : ℤ) (t : K) : Res (List K) := do
  Res.check (d < n)
  Res.check (0 ≤ d)
  if kMaxConvolutionSize ≤ d then Res.ub
  else
    let k := d.toNat
    if lib.abs t < lib.eps then
      pure (List.replicate k 0 ++ [baseCoeff k k] ++ List.replicate (n - 1 - k) 0)
    else if kMaxConvolutionSize < n then Res.ub
    else
      pure (List.replicate k 0 ++ [baseCoeff k k] ++ baseCoeffsLoop k t (n - 1 - k) (k + 1) t)

/-- impl:112-121, `setupMappingMatrix`. -/
def setupMappingMatrixG (lib : MagLib K) (h : ℕ) (T : K) : Res (SqMat h K) := do
  let top ← (List.range h).mapM fun i => baseCoeffsWithTimeG lib (h + h) (i : ℕ) (0 : K)
  let bot ← (List.range h).mapM fun i => baseCoeffsWithTimeG lib (h + h) (i : ℕ) T
  pure fun r c => ((top ++ bot).getD r []).getD c 0

/-- A scalar product of two vectors: Eigen does not say in which order it adds. -/
abbrev Dot (K : Type) := (n : ℕ) → (Fin n → K) → (Fin n → K) → K

/-- impl:142-179, `invertMappingMatrix`. The products of matrices in line 175 are evaluated from the left, entry by entry
with the scalar product; `A_inv` is stored as a full matrix (lines 163-164). -/
def invertMappingMatrixG (dot : Dot K) {h : ℕ} (inv : Matrix (Fin h) (Fin h) K → Matrix (Fin h) (Fin h) K)
    (M : SqMat h K) : SqMat h K :=
  let Ainv : Fin h → Fin h → K := fun i j => if i = j then 1 / M (Fin.castAdd h i) (Fin.castAdd h i) else 0
  let C : Fin h → Fin h → K := fun i j => M (Fin.natAdd h i) (Fin.castAdd h j)
  let Dinv := inv fun i j => M (Fin.natAdd h i) (Fin.natAdd h j)
  let G : Fin h → Fin h → K := fun i l => dot h (fun k => -Dinv i k) (fun k => C k l)
  let E : Fin h → Fin h → K := fun i j => dot h (G i) (fun l => Ainv l j)
  fun r c => Fin.addCases (fun i => Fin.addCases (fun j => Ainv i j) (fun _ => 0) c)
    (fun i => Fin.addCases (fun j => E i j) (fun j => Dinv i j) c) r

/-- impl:276-277, the coefficients of a segment from the derivatives `new_d` at its ends. That `new_d` is picked from the
vectors of fixed and free constraints (lines 274-275) is in `LinOpt.newD`: the numbers are copied. -/
def segmentCoeffsG (dot : Dot K) {h : ℕ} (Ainv : SqMat h K) (d : Fin (h + h) → K) : List K :=
  List.ofFn fun r => dot (h + h) (Ainv r) d

/-- A scalar product that adds from left to right. -/
def seqDot [Add K] : Dot K
  | 0, _, _ => 0
  | n + 1, a, b => (List.finRange n).foldl (fun s i => s + a i.succ * b i.succ) (a 0 * b 0)

end Verif
