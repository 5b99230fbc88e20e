import Mathlib.Data.Real.Basic
import Verif.Model.Trajectory

/-
Numbers with rounding. The definitions of `Model/Polynomial`, `Model/Segment` and the evaluation of
`Model/Trajectory` ask of the scalars only the operations and not their laws, so that they can be used with these
numbers: the same model, with `double` rounding after every operation.
-/
namespace Verif

/-- A `double`: a real number with the operations below. Overflow, underflow, infinities and NaN are not
modelled: `rnd` is the rounding of an arithmetic with unlimited exponents. -/
structure Fl (rnd : ℝ → ℝ) where
  val : ℝ

namespace Fl

variable {rnd : ℝ → ℝ}

instance : Zero (Fl rnd) := ⟨⟨0⟩⟩
instance : One (Fl rnd) := ⟨⟨1⟩⟩
/-- Every operation rounds the exact result once (IEEE 754; no fused operations). -/
noncomputable instance : Add (Fl rnd) := ⟨fun a b => ⟨rnd (a.val + b.val)⟩⟩
noncomputable instance : Sub (Fl rnd) := ⟨fun a b => ⟨rnd (a.val - b.val)⟩⟩
noncomputable instance : Mul (Fl rnd) := ⟨fun a b => ⟨rnd (a.val * b.val)⟩⟩
noncomputable instance : Div (Fl rnd) := ⟨fun a b => ⟨rnd (a.val / b.val)⟩⟩
/-- The change of sign is exact. -/
instance : Neg (Fl rnd) := ⟨fun a => ⟨-a.val⟩⟩
/-- The conversion of an integer. -/
noncomputable instance : NatCast (Fl rnd) := ⟨fun n => ⟨rnd n⟩⟩
/-- Comparison is exact. -/
instance : LT (Fl rnd) := ⟨fun a b => a.val < b.val⟩
noncomputable instance : DecidableLT (Fl rnd) := fun a b => inferInstanceAs (Decidable (a.val < b.val))
instance : LE (Fl rnd) := ⟨fun a b => a.val ≤ b.val⟩
noncomputable instance : DecidableLE (Fl rnd) := fun a b => inferInstanceAs (Decidable (a.val ≤ b.val))
noncomputable instance : DecidableEq (Fl rnd) := Classical.decEq _

end Fl

end Verif
