import Mathlib.LinearAlgebra.Matrix.NonsingularInverse
import Mathlib.MeasureTheory.Integral.IntervalIntegral.Basic
import Verif.Spec.Trajectory
import Verif.Spec.Vertex
import Verif.Model.LinearOptimization

/-
Specification side for the linear optimiser. Apart from the two definitions at the end, which list
the calls a program can make, nothing here refers to its model: only to vertices, segments and their
polynomials.
-/
namespace Verif.Spec

variable {K : Type}

/-- What is assumed of Eigen's `inverse()`: it inverts every invertible matrix. -/
def IsInverse [Field K] {h : ℕ} (inv : Matrix (Fin h) (Fin h) K → Matrix (Fin h) (Fin h) K) : Prop :=
  ∀ D, IsUnit D → inv D * D = 1

/-- What is assumed of the sparse QR solver: whenever the system has a solution, it returns one. -/
def IsSolver [Field K] (solve : (n : ℕ) → Matrix (Fin n) (Fin n) K → (Fin n → K) → Fin n → K) :
    Prop :=
  ∀ n (M : Matrix (Fin n) (Fin n) K) (b : Fin n → K), (∃ x, M.mulVec x = b) → M.mulVec (solve n M b) = b

/-- A problem the optimiser accepts: `h + h` coefficients per polynomial, `dim` dimensions, one
duration per pair of consecutive vertices, each at least the machine epsilon. -/
structure Problem [Field K] [LinearOrder K] (h dim : ℕ) (vertices : List (Vertex K)) (times : List K) :
    Prop where
  count : vertices.length = times.length + 1
  two : 2 ≤ vertices.length
  times_pos : ∀ T ∈ times, 1 / 2 ^ 52 ≤ T
  wf : ∀ v ∈ vertices, v.WF ∧ v.D = dim
  dim_pos : 0 < dim
  small : h + h ≤ 22

/-- A list of segments with the given durations, `n` coefficients and `dim` dimensions each. -/
structure Shape (n dim : ℕ) (times : List K) (segs : List (Segment K)) : Prop where
  durations : segs.map Segment.time = times
  dims : ∀ s ∈ segs, s.polys.length = dim
  coeffs : ∀ s ∈ segs, ∀ p ∈ s.polys, p.coeffs.length = n

/-- Derivative `k` of dimension `d` of a segment at local time `t` (0 if there is no such
dimension). -/
noncomputable def segDeriv [CommSemiring K] (s : Segment K) (d k : ℕ) (t : K) : K :=
  derivAt (s.polys.getD d ⟨[]⟩).coeffs k t

/-- Every constraint of order below `h` of every vertex is met: at the beginning of the segment that
starts there and at the end of the segment that ends there. -/
def MeetsConstraints [CommSemiring K] (h dim : ℕ) (vertices : List (Vertex K))
    (segs : List (Segment K)) : Prop :=
  ∀ i v, vertices[i]? = some v → ∀ k < h, ∀ c, v.getConstraint (k : ℕ) = some c → ∀ d < dim,
    (∀ s : Segment K, segs[i]? = some s → segDeriv s d k 0 = c.getD d 0) ∧
    (∀ (j : ℕ) (s : Segment K), i = j + 1 → segs[j]? = some s → segDeriv s d k s.time = c.getD d 0)

/-- Derivatives of order below `h` agree where two segments meet. -/
def Continuous [CommSemiring K] (h dim : ℕ) (segs : List (Segment K)) : Prop :=
  ∀ (i : ℕ) (s s' : Segment K), segs[i]? = some s → segs[i + 1]? = some s' → ∀ k < h, ∀ d < dim,
    segDeriv s d k s.time = segDeriv s' d k 0

/-- The cost the optimiser minimises: over all segments and dimensions, the integral of the square of
the `k`-th derivative. -/
noncomputable def cost (k : ℕ) (segs : List (Segment ℝ)) : ℝ :=
  (segs.map fun s => (s.polys.map fun p =>
    ∫ t in (0 : ℝ)..s.time, (iteratedDeriv k (curve p.coeffs) t) ^ 2).sum).sum

/-- Some vertex constrains all derivatives of order below `k` (as `makeStartOrEnd` does). -/
def Pinned (k : ℕ) (vertices : List (Vertex K)) : Prop :=
  ∃ v ∈ vertices, ∀ m < k, ∃ c, v.getConstraint (m : ℕ) = some c

/-- All constraints on derivatives of positive order below `h` are zero: the vehicle may be required to
rest somewhere, but nowhere to move. -/
def AtRest [Zero K] (h : ℕ) (vertices : List (Vertex K)) : Prop :=
  ∀ v ∈ vertices, ∀ m : ℕ, 0 < m → m < h → ∀ c, v.getConstraint m = some c → ∀ x ∈ c, x = 0

/-- All optimiser objects a program can have: any sequence of calls that returned. -/
inductive OptReachable [Field K] [LinearOrder K] {h : ℕ}
    (inv : Matrix (Fin h) (Fin h) K → Matrix (Fin h) (Fin h) K)
    (solve : (n : ℕ) → Matrix (Fin n) (Fin n) K → (Fin n → K) → Fin n → K) : LinOpt h K → Prop
  | new (dim : ℕ) : OptReachable inv solve (LinOpt.new dim)
  | setup {o o' vs ts} {k : ℤ} : OptReachable inv solve o → o.setupFromVertices inv vs ts k = .ok o' →
      OptReachable inv solve o'
  | solveLinear {o o'} : OptReachable inv solve o → o.solveLinear solve = .ok o' →
      OptReachable inv solve o'
  | setFree {o o' fc} : OptReachable inv solve o → o.setFreeConstraints fc = .ok o' →
      OptReachable inv solve o'
  | times {o o' ts} : OptReachable inv solve o → o.updateSegmentTimes inv ts = .ok o' →
      OptReachable inv solve o'

/-- An optimiser object on which `setupFromVertices` was called with the given vertices and order,
followed by any calls of the other functions; `times` are the segment times in force. Nothing is
asked of what was done with the object before. -/
inductive Session [Field K] [LinearOrder K] {h : ℕ}
    (inv : Matrix (Fin h) (Fin h) K → Matrix (Fin h) (Fin h) K)
    (solve : (n : ℕ) → Matrix (Fin n) (Fin n) K → (Fin n → K) → Fin n → K)
    (vertices : List (Vertex K)) (k : ℕ) : List K → LinOpt h K → Prop
  | setup {o o' times} : OptReachable inv solve o → Problem h o.dimension vertices times →
      o.setupFromVertices inv vertices times k = .ok o' → Session inv solve vertices k times o'
  | solveLinear {o o' times} : Session inv solve vertices k times o → o.solveLinear solve = .ok o' →
      Session inv solve vertices k times o'
  | setFree {o o' times fc} : Session inv solve vertices k times o →
      o.setFreeConstraints fc = .ok o' → Session inv solve vertices k times o'
  | times {o o' times times'} : Session inv solve vertices k times o → (∀ T ∈ times', 1 / 2 ^ 52 ≤ T) →
      o.updateSegmentTimes inv times' = .ok o' → Session inv solve vertices k times' o'

end Verif.Spec
