import Mathlib.Algebra.Order.Floor.Semiring
import Mathlib.Data.Nat.Digits.Defs
import Verif.Model.Double
import Verif.Model.TimingPrint

/-
Model of the text of the table of timers in mav_trajectory_generation/src/timing.cpp: `SecondsToTimeString`, the
layout of `Print`, and the member `max_tag_length_` of the registry, which only serves this layout.

A text is a list of characters; a character of a name is a byte of the `std::string`. The stream is one with the
flags and the fill character of a new stream, as in `Print()`. `snprintf` is that of the C standard with exact
rounding to nearest, ties to even (glibc).
-/
namespace Verif

variable {K : Type} [Field K] [LinearOrder K]

/-- The integer nearest to a number that is not negative; of two, the even one. This is the rounding of
`snprintf`. -/
def nearestEven [FloorSemiring K] (x : K) : ℕ :=
  if x - ⌊x⌋₊ < 1 / 2 then ⌊x⌋₊
  else if 1 / 2 < x - ⌊x⌋₊ then ⌊x⌋₊ + 1
  else if ⌊x⌋₊ % 2 = 0 then ⌊x⌋₊ else ⌊x⌋₊ + 1

/-- The text of an integer that is not negative. -/
def natText (n : ℕ) : List Char :=
  if n = 0 then ['0'] else ((Nat.digits 10 n).map fun d => Char.ofNat (48 + d)).reverse

/-- A text filled up on its left to a width. -/
def padLeft (c : Char) (width : ℕ) (s : List Char) : List Char := List.replicate (width - s.length) c ++ s

/-- A text filled up on its right to a width. -/
def padRight (c : Char) (width : ℕ) (s : List Char) : List Char := s ++ List.replicate (width - s.length) c

/-- `%.6f` without the sign: the digits before and after the point of the nearest number with six decimals. -/
def fixedText [FloorSemiring K] (x : K) : List Char :=
  let m := nearestEven (|x| * 10 ^ 6)
  natText (m / 10 ^ 6) ++ '.' :: padLeft '0' 6 (natText (m % 10 ^ 6))

/-- `%09.6f`: the zeros that fill the nine places come after the sign. (The sign of a zero is not modelled.) -/
def printf096 [FloorSemiring K] (x : K) : List Char :=
  if x < 0 then '-' :: padLeft '0' 8 (fixedText x) else padLeft '0' 9 (fixedText x)

/-- timing.cpp:153-157, `SecondsToTimeString`: `snprintf` writes at most 255 characters into the buffer. -/
def timeText [FloorSemiring K] (x : K) : List Char := (printf096 x).take 255

/-- timing.cpp:153-157, `SecondsToTimeString` of a `double`: infinities and NaN are filled up with spaces. `nanNeg` is
the sign of the NaN, which `Dbl` does not have. -/
noncomputable def Dbl.timeText (nanNeg : Bool) : Dbl → List Char
  | .fin x => Verif.timeText x
  | .inf neg => (padLeft ' ' 9 (if neg then "-inf".toList else "inf".toList)).take 255
  | .nan => (padLeft ' ' 9 (if nanNeg then "-nan".toList else "nan".toList)).take 255

/-- The text of a figure; `none` stands for a number that is not finite. -/
def figureText [FloorSemiring K] : Option K → List Char
  | some x => timeText x
  | none => padLeft ' ' 9 "nan".toList

/-- timing.cpp:176-190, the rest of a line for a timer with samples. -/
def figuresText [FloorSemiring K] (f : TimingFigures K) : List Char :=
  timeText f.total ++ '\t' ::
  ('(' :: (figureText f.mean ++ " +- ".toList) ++ (figureText f.stddev ++ ")\t".toList)) ++
  ('[' :: timeText f.min ++ (',' :: timeText f.max ++ [']']))

/-- timing.cpp:175: the rest of a line, nothing without samples. -/
def restText [FloorSemiring K] : Option (TimingFigures K) → List Char
  | some f => figuresText f
  | none => []

/-- timing.cpp:169-192, a line of the table. `width` is `max_tag_length_`. -/
def rowText [FloorSemiring K] (width : ℕ) (w : TimingRow K) : List Char :=
  padRight ' ' width w.tag.toList ++ '\t' :: (padLeft ' ' 7 (natText w.numSamples) ++ '\t' ::
  restText w.figures ++ ['\n'])

/-- timing.cpp:159-193, the text of the table. -/
def tableText [FloorSemiring K] (width : ℕ) (rows : List (TimingRow K)) : List Char :=
  if rows = [] then []
  else "SM Timing\n".toList ++ "-----------\n".toList ++ rows.flatMap (rowText width)

/-- timing.h:178-180, the members of `Timing`, with the last one. -/
structure WideRegistry (K : Type) where
  reg : Registry K
  maxTagLength : ℕ

/-- timing.cpp:35-42: the singleton before any call. -/
def WideRegistry.new : WideRegistry K := ⟨Registry.new, 0⟩

/-- timing.cpp:45-61, `GetHandle`, the new state. -/
def WideRegistry.getHandle (junk : ℕ → List K) (r : WideRegistry K) (tag : String) : WideRegistry K :=
  ⟨(r.reg.getHandle junk tag).2,
    match r.reg.tags.lookup tag with
    | none => max r.maxTagLength tag.toList.length
    | some _ => r.maxTagLength⟩

/-- timing.cpp:106-108, `AddTime`. -/
def WideRegistry.addTime (r : WideRegistry K) (handle : ℕ) (seconds : K) : Res (WideRegistry K) := do
  let r' ← r.reg.addTime handle seconds
  pure ⟨r', r.maxTagLength⟩

/-- timing.cpp:200, `Reset`: only the map is cleared. -/
def WideRegistry.reset (r : WideRegistry K) : WideRegistry K := ⟨r.reg.reset, r.maxTagLength⟩

/-- timing.cpp:159-198, `Print`: the text. -/
def WideRegistry.printText [FloorSemiring K] (sq : K → K) (r : WideRegistry K) : Res (List Char) := do
  let rows ← r.reg.print sq
  pure (tableText r.maxTagLength rows)

end Verif
