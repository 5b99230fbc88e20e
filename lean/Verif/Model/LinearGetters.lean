import Mathlib.Logic.Equiv.Fin.Basic
import Verif.Model.LinearOptimization

/-
Model of the functions of `PolynomialOptimization` that return its matrices
(mav_trajectory_generation/include/mav_trajectory_generation/impl/polynomial_optimization_linear_impl.h,
lines 510-554) and its vectors (polynomial_optimization_linear.h, lines 194-206). `getMpinv` is
`LinOpt.mpinvEntry`.
-/
namespace Verif

variable {K : Type} [Field K] [LinearOrder K] {h : ℕ}

/-- impl:514-519 and 538-553: a zero matrix into whose blocks `block<N, N>(N * i, N * i)` the given
matrices are copied. -/
def blockDiag {n : ℕ} (B : Fin n → SqMat h K) :
    Matrix (Fin (n * (h + h))) (Fin (n * (h + h))) K :=
  fun r c => if r.divNat = c.divNat then B r.divNat r.modNat c.modNat else 0

/-- impl:510-520, `getAInverse`. -/
def LinOpt.getAInverse (o : LinOpt h K) :
    Res (Matrix (Fin (o.nSegments * (h + h))) (Fin (o.nSegments * (h + h))) K) := do
  let bs ← (List.range o.nSegments).mapM fun i => Res.at' o.invMapping i
  pure (blockDiag fun i => bs.getD i 0)

/-- impl:536-554, `getA`. -/
def LinOpt.getA (o : LinOpt h K) :
    Res (Matrix (Fin (o.nSegments * (h + h))) (Fin (o.nSegments * (h + h))) K) := do
  let bs ← (List.range o.nSegments).mapM fun i => do
    let T ← Res.at' o.segmentTimes i
    Res.check (0 < T)
    setupMappingMatrix h T
  pure (blockDiag fun i => bs.getD i 0)

/-- impl:522-526, `getM`. -/
def LinOpt.getM (o : LinOpt h K) : Matrix (Fin o.nAll) (Fin (o.nFixed + o.nFree)) K :=
  fun r c => o.reorderEntry r c

/-- impl:528-534, `getR`. The matrix product in `constructR` (line 334) needs as many constraint rows
as coefficients, and line 316 reads one matrix of either kind for every segment. -/
def LinOpt.getR (o : LinOpt h K) :
    Res (Matrix (Fin (o.nFixed + o.nFree)) (Fin (o.nFixed + o.nFree)) K) :=
  if o.nAll ≠ (h + h) * o.nSegments ∨ o.invMapping.length ≠ o.nSegments ∨
    o.cost.length ≠ o.nSegments then .ub
  else .ok fun a b => o.rEntry a b

/-- polynomial_optimization_linear.h:202-206, `getFixedConstraints`. -/
def LinOpt.getFixedConstraints (o : LinOpt h K) : List (List K) := o.fixedCompact

/-- polynomial_optimization_linear.h:194-198, `getFreeConstraints`. -/
def LinOpt.getFreeConstraints (o : LinOpt h K) : List (List K) := o.freeCompact

end Verif
