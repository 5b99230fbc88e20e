import Verif.Model.RoundedMapping

/-
The cost of the linear optimiser for numbers without laws: the definitions of `Model/LinearOptimization` again, with the
power function, the scalar product and the number one half as arguments, so that they can be used with rounded numbers.
`C120_same_code` states that with a field they are the definitions of `Model/LinearOptimization`.
-/
namespace Verif

variable {K : Type} [Zero K] [One K] [Add K] [Mul K] [Div K] [NatCast K]

/-- impl:575-580, one entry of `computeQuadraticCostJacobian`, with the products from the left. The exponent is a `double`
in the C++, but a whole number. -/
def costEntryG (pow : K → ℕ → K) (n k : ℕ) (t : K) (i j : ℕ) : K :=
  let row := n - 1 - i
  let col := n - 1 - j
  if row < n - k ∧ col < n - k then
    let exponent := (n - 1 - k) * 2 + 1 - row - col
    baseCoeff k i * baseCoeff k j * pow t exponent * ((2 : ℕ) : K) / ((exponent : ℕ) : K)
  else 0

/-- impl:567-583, `computeQuadraticCostJacobian`. -/
def computeQuadraticCostJacobianG (pow : K → ℕ → K) (h : ℕ) (k : ℤ) (t : K) : Res (SqMat h K) := do
  Res.check (k < ((h + h : ℕ) : ℤ))
  if k < 0 ∨ kMaxConvolutionSize < h + h then Res.ub
  else pure fun i j => costEntryG pow (h + h) k.toNat t i j

/-- impl:123-140, `computeCost`: the product of line 135 from the left, and the parts added one after the other. -/
def LinOpt.computeCostG {h : ℕ} (dot : Dot K) (half : K) (o : LinOpt h K) : Res K := do
  Res.check (o.nSegments = o.segments.length ∧ o.nSegments = o.cost.length)
  let parts ← (o.cost.zip o.segments).mapM fun m =>
    (List.range o.dimension).mapM fun d => do
      let p ← m.2.get d
      let c ← p.getCoefficients 0
      if c.length ≠ h + h then Res.ub
      else
        let x : Fin (h + h) → K := fun i => c.getD i 0
        pure (dot (h + h) (fun j => dot (h + h) x fun i => m.1 i j) x)
  pure (half * (parts.flatten.foldl (· + ·) 0))

end Verif
