import Verif.Spec.Rpoly
import Verif.Spec.RpolyRounded

/-
Specification side for the zeros reported by the root finder when every operation is rounded.
-/
namespace Verif.Spec

open Polynomial

/-- The square root is rounded correctly (IEEE 754), and the machine epsilon is not negative. -/
structure RoundedSqrt {rnd : ℝ → ℝ} (m : RMath (Fl rnd)) : Prop where
  sqrt : ∀ x, (m.sqrt x).val = rnd (Real.sqrt x.val)
  eps : 0 ≤ m.eps.val

/-- `z` and `w` are the zeros of a quadratic close to `a x² + b x + c`: of `a x² + b' x + c'` with
`|b' - b| ≤ η |a| ρ` and `|c' - c| ≤ η |c|`, where `ρ` is the larger one of their moduli. -/
def QuadClose (η a b c : ℝ) (z w : ℂ) : Prop :=
  ‖(a : ℂ) * (z + w) + b‖ ≤ η * |a| * max ‖z‖ ‖w‖ ∧ ‖(a : ℂ) * (z * w) - c‖ ≤ η * |c|

/-- `q` (highest power first) is what dividing `p` by `x - s` gives when every coefficient `s q_(k-1) + p_k` is computed with
relative error `η` in each term. -/
def DividedReal (η s : ℝ) (p q : List ℝ) : Prop :=
  q.length + 1 = p.length ∧ ∀ k, k < q.length → ∃ x y, |x| ≤ η ∧ |y| ≤ η ∧
    q.getD k 0 = (if k = 0 then 0 else s * q.getD (k - 1) 0 * (1 + x)) + p.getD k 0 * (1 + y)

/-- `q` is what dividing `p` by `(x - z)(x - w)` gives when every coefficient `(z + w) q_(k-1) - z w q_(k-2) + p_k` is computed
with an error of at most `η (ρ |q_(k-1)| + ρ² |q_(k-2)| + |p_k|)`, where `ρ` is the larger one of the moduli. -/
def DividedPair (η : ℝ) (z w : ℂ) (p q : List ℝ) : Prop :=
  q.length + 2 = p.length ∧ ∀ k, k < q.length →
    ‖(q.getD k 0 : ℂ) - ((z + w) * (if k < 1 then 0 else q.getD (k - 1) 0 : ℝ) -
      z * w * (if k < 2 then 0 else q.getD (k - 2) 0 : ℝ) + p.getD k 0)‖ ≤
    η * (max ‖z‖ ‖w‖ * |if k < 1 then 0 else q.getD (k - 1) 0| +
      max ‖z‖ ‖w‖ ^ 2 * |if k < 2 then 0 else q.getD (k - 2) 0| + |p.getD k 0|)

/-- How zeros of a polynomial (coefficients in decreasing order) are split off one after the other by a computation whose
operations have a relative error of at most `u`, with acceptance threshold `ε`, and which polynomial is left:
* zeros at the origin exactly, the zero of a linear polynomial with relative error `u`, the zeros of a quadratic one
  up to a change of its coefficients of relative size `40 u`;
* a real number `s`, where `|p(s)| ≤ (41 ε + 4 u) (N+1) Σ |p_k| |s|^(N-k)`;
* a pair `z`, `w`, where the same holds for `w` with a larger factor; a pair that is not real is conjugate
  (so that it holds for `z` as well).
The next polynomial is the quotient up to the errors stated, times the factor `c` by which `p` is scaled before. -/
inductive DeflationFl (ε u : ℝ) : List ℝ → List ℂ → List ℝ → Prop
  | done (p : List ℝ) : DeflationFl ε u p [] p
  | origin {p zs o} : DeflationFl ε u p zs o → DeflationFl ε u (p ++ [0]) (0 :: zs) o
  | linear (a b z : ℝ) : a ≠ 0 → |z - -(b / a)| ≤ u * |b / a| → DeflationFl ε u [a, b] [(z : ℂ)] [a]
  | quadratic (a b c : ℝ) (z w : ℂ) : a ≠ 0 → QuadClose (40 * u) a b c z w →
      (z.im = 0 ∧ w.im = 0 ∨ 0 < z.im ∧ w = (starRingEnd ℂ) z) → DeflationFl ε u [a, b, c] [z, w] [a]
  | real {p q zs o} (c s : ℝ) : c ≠ 0 → DividedReal (3 * u) s (p.map fun x => c * x) q →
      |(decPoly p).eval s| ≤ (41 * ε + 4 * u) * p.length * absValue p |s| →
      DeflationFl ε u q zs o → DeflationFl ε u p ((s : ℂ) :: zs) o
  | pair {p q zs o} (c : ℝ) (z w : ℂ) : c ≠ 0 → DividedPair (60 * u) z w (p.map fun x => c * x) q →
      (z.im = 0 ∧ w.im = 0 ∨ 0 < z.im ∧ w = (starRingEnd ℂ) z) →
      ‖((decPoly p).map (algebraMap ℝ ℂ)).eval w‖ ≤
        (400 * ε + 150 * u) * (p.length * (p.length + 1)) * absValue p (max ‖z‖ ‖w‖) →
      DeflationFl ε u q zs o → DeflationFl ε u p (z :: w :: zs) o

end Verif.Spec
