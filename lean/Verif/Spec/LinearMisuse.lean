import Verif.Model.Vertex

/- Specification side for the calls the linear optimiser refuses. -/
namespace Verif.Spec

/-- A vertex that an optimiser of dimension `dim` with `2 h` coefficients can use: it has this dimension, or no
constraint of an order the optimiser looks at. -/
def Usable {K : Type} (h dim : ℕ) (v : Vertex K) : Prop := v.D = dim ∨ ∀ e ∈ v.constraints, (h : ℤ) ≤ e.1

end Verif.Spec
