import Verif.Spec.Rounded
import Verif.Spec.Magnitude

/-
Specification side for magnitudes with rounded numbers.
-/
namespace Verif.Spec

variable {rnd : ℝ → ℝ}

/-- The polynomials of a segment with the stored coefficients as real numbers. -/
def realPolys (s : Segment (Fl rnd)) : List (Poly ℝ) := s.polys.map fun p => ⟨vals p.coeffs⟩

/-- The sum over the dimensions `ds` of the `k`-th derivatives at `T` of the polynomials with the absolute values of the
coefficients: a bound on the magnitude of the `k`-th derivative at all times of absolute value at most `T`. -/
noncomputable def absSize (s : Segment (Fl rnd)) (ds : List ℕ) (k : ℕ) (T : ℝ) : ℝ :=
  (ds.map fun d => (valuesAt (s.polys.map fun p => ⟨(vals p.coeffs).map abs⟩) k T).getD d 0).sum

/-- `s'` is `s` slowed down by the factor `σ`, up to `m` relative errors of at most `u` in the duration and in every
coefficient: the duration is multiplied by `σ`, and the `k`-th derivatives at `t` are those of `s` at `t / σ`, divided by
`σ^k`. -/
structure SlowedBy (u : ℝ) (m : ℕ) (σ : ℝ) (s s' : Segment (Fl rnd)) : Prop where
  dims : s'.D = s.D
  coeffs : s'.N = s.N
  time : Close u m s'.time.val (σ * s.time.val)
  values : ∀ k t d, |(valuesAt (realPolys s') k t).getD d 0 - (valuesAt (realPolys s) k (t / σ)).getD d 0 / σ ^ k| ≤
    ((1 + u) ^ m - 1) *
      ((valuesAt (s.polys.map fun p => ⟨(vals p.coeffs).map abs⟩) k (|t| / σ)).getD d 0 / σ ^ k)

end Verif.Spec
