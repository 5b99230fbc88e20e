import Mathlib.Algebra.Order.Ring.Rat
import Mathlib.Data.Rat.Cast.Order
import Verif.Model.TimingText
import Verif.Spec.TimingPrint

/-! Specification side for the text of times: how a reader understands a decimal number and a table. -/
namespace Verif.Spec

/-- The value of a digit. -/
def digitValue (c : Char) : Option ℕ := if 48 ≤ c.toNat ∧ c.toNat ≤ 57 then some (c.toNat - 48) else none

/-- Digits read after a number `a`. -/
def readDigits (a : ℕ) : List Char → Option ℕ
  | [] => some a
  | c :: s => (digitValue c).bind fun d => readDigits (10 * a + d) s

/-- The number a text of digits stands for: at least one digit, nothing else. -/
def readNat (s : List Char) : Option ℕ := if s = [] then none else readDigits 0 s

/-- A text split at each occurrence of a character. -/
def fields (c : Char) : List Char → List (List Char)
  | [] => [[]]
  | a :: s => if a = c then [] :: fields c s
    else match fields c s with
      | [] => [[a]]
      | f :: fs => (a :: f) :: fs

/-- A number without sign: digits, or digits, a point and digits. -/
def readUnsigned (s : List Char) : Option ℚ :=
  match fields '.' s with
  | [a] => (readNat a).map fun n : ℕ => (n : ℚ)
  | [a, b] => (readNat a).bind fun n : ℕ => (readNat b).map fun m : ℕ => (n : ℚ) + (m : ℚ) / 10 ^ b.length
  | _ => none

/-- A decimal number. -/
def readDecimal : List Char → Option ℚ
  | '-' :: s => (readUnsigned s).map fun q => -q
  | s => readUnsigned s

variable {K : Type} [Field K] [LinearOrder K]

/-- A text shows a number: it is a decimal number that differs from it by at most half a millionth. -/
def Shows (s : List Char) (x : K) : Prop := ∃ q : ℚ, readDecimal s = some q ∧ |(q : K) - x| ≤ 1 / (2 * 10 ^ 6)

/-- A figure is present, and the text shows it. -/
def ShowsFigure (s : List Char) (x : Option K) : Prop := ∃ y, x = some y ∧ Shows s y

/-- All figures of a line have at most 247 digits before the point. -/
def Printable (f : TimingFigures K) : Prop :=
  |f.total| ≤ 10 ^ 247 - 1 ∧ (∃ m, f.mean = some m ∧ |m| ≤ 10 ^ 247 - 1) ∧
  (∃ d, f.stddev = some d ∧ |d| ≤ 10 ^ 247 - 1) ∧ |f.min| ≤ 10 ^ 247 - 1 ∧ |f.max| ≤ 10 ^ 247 - 1

/-- A line of text, read column by column, says what the row of the table says. The first column is `width`
characters wide: the name and spaces. The second is at least seven wide: spaces and the number of samples. -/
def LineSays (width : ℕ) (w : TimingRow K) (line : List Char) : Prop :=
  ∃ name count rest, fields '\t' line = name :: count :: rest ∧
    (∃ k, name = w.tag.toList ++ List.replicate k ' ') ∧ name.length = width ∧
    7 ≤ count.length ∧ readNat (count.dropWhile (· = ' ')) = some w.numSamples ∧
    match w.figures with
    | none => rest = [[]]
    | some f => Printable f → ∃ total mean stddev min max : List Char,
        rest = [total, '(' :: (mean ++ " +- ".toList ++ stddev ++ [')']), '[' :: (min ++ ',' :: max ++ [']'])] ∧
        Shows total f.total ∧ ShowsFigure mean f.mean ∧ ShowsFigure stddev f.stddev ∧
        Shows min f.min ∧ Shows max f.max

/-- One call, with the member for the layout. -/
def TimingOp.stepWide (junk : ℕ → List K) (r : WideRegistry K) : TimingOp K → Res (WideRegistry K)
  | .getHandle tag => .ok (r.getHandle junk tag)
  | .addTime h x => r.addTime h x
  | .reset => .ok r.reset

/-- A history of calls, with the member for the layout. -/
def runWide (junk : ℕ → List K) (r : WideRegistry K) (ops : List (TimingOp K)) : Res (WideRegistry K) :=
  ops.foldlM (TimingOp.stepWide junk) r

/-- All names a history ever requested a timer for. -/
def everNamed (ops : List (TimingOp K)) : List String :=
  ops.filterMap fun
    | .getHandle tag => some tag
    | _ => none

end Verif.Spec
