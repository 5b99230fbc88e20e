import Verif.Proofs.Rounded

/-
The type `double` of IEEE 754 with its limited range: gradual underflow, overflow to the infinities, and NaN. The
definitions of `Model/Polynomial`, `Model/Segment` and the evaluation of `Model/Trajectory` ask of the scalars only the
operations and not their laws, so that the same model runs with these numbers.
-/
namespace Verif

/-- Rounding to a `double` as if there were no largest one (round to nearest, ties to even): 53 significant bits from
`2^-1022` on, multiples of `2^-1074` below. -/
noncomputable def round64 (x : ℝ) : ℝ :=
  if |x| < (2 : ℝ) ^ (-1022 : ℤ) then roundEven (x / (2 : ℝ) ^ (-1074 : ℤ)) * (2 : ℝ) ^ (-1074 : ℤ) else round53 x

/-- A `double`: a finite number, an infinity (`neg` is its sign) or NaN. The two zeros are one here: what is modelled
with these numbers adds, subtracts, multiplies and compares, and none of it tells the two zeros apart. -/
inductive Dbl where
  | fin (x : ℝ)
  | inf (neg : Bool)
  | nan

namespace Dbl

/-- The result of an operation whose exact value is `x`: rounded, or an infinity when the rounded number is not below
`2^1024`. -/
noncomputable def ofReal (x : ℝ) : Dbl :=
  if |round64 x| < (2 : ℝ) ^ (1024 : ℤ) then fin (round64 x) else inf (decide (x < 0))

instance : Zero Dbl := ⟨fin 0⟩
instance : One Dbl := ⟨fin 1⟩

/-- The sign of an infinity that is multiplied by `y`; infinity times zero is NaN. -/
noncomputable def infMul (neg : Bool) (y : ℝ) : Dbl := if y = 0 then nan else inf (neg ^^ decide (y < 0))

/-- IEEE 754, 6.1 and 7.2: the sum of opposite infinities is NaN. -/
noncomputable instance : Add Dbl := ⟨fun a b =>
  match a, b with
  | fin x, fin y => ofReal (x + y)
  | nan, _ => nan
  | _, nan => nan
  | inf s, inf r => if s = r then inf s else nan
  | inf s, fin _ => inf s
  | fin _, inf s => inf s⟩

/-- The change of sign is exact. -/
instance : Neg Dbl := ⟨fun a =>
  match a with
  | fin x => fin (-x)
  | inf s => inf (!s)
  | nan => nan⟩

noncomputable instance : Sub Dbl := ⟨fun a b => a + -b⟩

noncomputable instance : Mul Dbl := ⟨fun a b =>
  match a, b with
  | fin x, fin y => ofReal (x * y)
  | nan, _ => nan
  | _, nan => nan
  | inf s, inf r => inf (s ^^ r)
  | inf s, fin y => infMul s y
  | fin x, inf s => infMul s x⟩

/-- The conversion of an integer. -/
noncomputable instance : NatCast Dbl := ⟨fun n => ofReal n⟩

/-- `<`: false when one of the numbers is NaN. -/
def lt (a b : Dbl) : Prop :=
  match a, b with
  | fin x, fin y => x < y
  | nan, _ => False
  | _, nan => False
  | inf s, inf r => s = true ∧ r = false
  | inf s, fin _ => s = true
  | fin _, inf s => s = false

instance : LT Dbl := ⟨lt⟩
noncomputable instance : DecidableLT Dbl := fun _ _ => Classical.propDecidable _

end Dbl

end Verif
