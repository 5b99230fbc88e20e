import Verif.Spec.RoundedMapping
import Verif.Spec.LinearOptimization
import Verif.Model.RoundedOptimizer

/-
Specification side for the linear optimiser with rounded numbers.
-/
namespace Verif.Spec

variable {rnd : ℝ → ℝ} {h : ℕ}

/-- A problem the optimiser accepts: one duration per pair of consecutive vertices, each at least the machine epsilon, and
constraints that are floating-point numbers. -/
structure FlProblem (h dim : ℕ) (vertices : List (Vertex (Fl rnd))) (times : List (Fl rnd)) : Prop where
  count : vertices.length = times.length + 1
  two : 2 ≤ vertices.length
  times_pos : ∀ T ∈ times, 1 / 2 ^ 52 ≤ T.val
  wf : ∀ v ∈ vertices, v.WF ∧ v.D = dim
  numbers : ∀ v ∈ vertices, ∀ e ∈ v.constraints, ∀ x ∈ e.2, rnd x.val = x.val
  dim_pos : 0 < dim
  small : h + h ≤ 22

/-- All optimiser objects a program can have: any sequence of calls that returned. The solver `sol` may be another one in
every call. -/
inductive FlReachable (L : OptLib h (Fl rnd)) : LinOpt h (Fl rnd) → Prop
  | new (dim : ℕ) : FlReachable L (LinOpt.new dim)
  | setup {o o' vs ts} {k : ℤ} : FlReachable L o → o.setupFromVerticesG L vs ts k = .ok o' → FlReachable L o'
  | solveLinear {o o'} (sol) : FlReachable L o → o.solveLinearG L sol = .ok o' → FlReachable L o'
  | setFree {o o'} (fc) : FlReachable L o → o.setFreeConstraintsG L fc = .ok o' → FlReachable L o'
  | times {o o' ts} : FlReachable L o → o.updateSegmentTimesG L ts = .ok o' → FlReachable L o'

/-- An optimiser object on which `setupFromVertices` was called with the given vertices and order, followed by any calls
of the other functions; `times` are the segment times in force. -/
inductive FlSession (L : OptLib h (Fl rnd)) (vertices : List (Vertex (Fl rnd))) (k : ℕ) :
    List (Fl rnd) → LinOpt h (Fl rnd) → Prop
  | setup {o o' times} : FlReachable L o → FlProblem h o.dimension vertices times →
      o.setupFromVerticesG L vertices times k = .ok o' → FlSession L vertices k times o'
  | solveLinear {o o' times} (sol) : FlSession L vertices k times o → o.solveLinearG L sol = .ok o' →
      FlSession L vertices k times o'
  | setFree {o o' times} (fc) : FlSession L vertices k times o → o.setFreeConstraintsG L fc = .ok o' →
      FlSession L vertices k times o'
  | times {o o' times times'} : FlSession L vertices k times o → (∀ T ∈ times', 1 / 2 ^ 52 ≤ T.val) →
      o.updateSegmentTimesG L times' = .ok o' → FlSession L vertices k times' o'

/-- The values of dimension `d` of a segment as real numbers. -/
def dimVals (s : Segment (Fl rnd)) (d : ℕ) : List ℝ := (s.polys.getD d ⟨[]⟩).coeffs.map Fl.val

/-- The derivatives required at the two ends of segment `i`, when derivative `k` at vertex `j` is required to be
`D j k`. -/
def endsOf (h : ℕ) (D : ℕ → ℕ → ℝ) (i : ℕ) (c : Fin (h + h)) : ℝ :=
  Fin.addCases (fun k : Fin h => D i k) (fun k : Fin h => D (i + 1) k) c

/-- How far the lower right block `X` that the library returned is from an inverse, for duration `T`. -/
noncomputable def residual (h : ℕ) (T : ℝ) (X : Matrix (Fin h) (Fin h) (Fl rnd)) (k l : Fin h) : ℝ :=
  |∑ i : Fin h, monoDeriv T k (h + i) * (X i l).val - (if k = l then 1 else 0)|

/-- The error at the end of a segment of duration `T` with the required derivatives `d`: the residual of the inverse times
what the derivatives reach, and `7h + 1` roundings. -/
noncomputable def endError (u : ℝ) (h : ℕ) (T : ℝ) (X : Matrix (Fin h) (Fin h) (Fl rnd)) (d : Fin (h + h) → ℝ)
    (k : Fin h) : ℝ :=
  ∑ l, residual h T X k l * reach T d l +
    ((1 + u) ^ (7 * h + 1) - 1) * (reach T d k +
      ∑ i : Fin h, monoDeriv T k (h + i) * ∑ l, |(X i l).val| * reach T d l)

end Verif.Spec
