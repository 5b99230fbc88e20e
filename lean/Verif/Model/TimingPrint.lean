import Mathlib.Data.List.Sort
import Mathlib.Data.String.Basic
import Verif.Model.Timing

/-
Model of `Print` and `GetHz` in mav_trajectory_generation/src/timing.cpp: the figures in the table, without
their layout as text (width, six decimals).
-/
namespace Verif

variable {K : Type} [Field K] [LinearOrder K]

/-- timing.cpp:177-190, the figures printed for a timer with samples; `none` stands for NaN or infinity. -/
structure TimingFigures (K : Type) where
  total : K
  mean : Option K
  stddev : Option K
  min : K
  max : K
  deriving DecidableEq, Repr

/-- timing.cpp:168-191, a line of the table. -/
structure TimingRow (K : Type) where
  tag : String
  numSamples : ℕ
  figures : Option (TimingFigures K)
  deriving DecidableEq, Repr

/-- timing.cpp:169-190: the line for one tag and its handle. -/
def Registry.printRow (sq : K → K) (r : Registry K) (e : String × ℕ) : Res (TimingRow K) := do
  let n ← r.numSamples e.2
  if 0 < n then do
    let a ← Res.at' r.timers e.2
    pure ⟨e.1, n, some ⟨a.sum, a.mean, (a.lazyVariance timerWindow).map sq, a.min, a.max⟩⟩
  else pure ⟨e.1, n, none⟩

/-- timing.cpp:159-193, `Print`: the lines, in the order of the `std::map`. Nothing is printed if there is no
tag. -/
def Registry.print (sq : K → K) (r : Registry K) : Res (List (TimingRow K)) :=
  (r.tags.insertionSort fun a b => a.1 ≤ b.1).mapM (r.printRow sq)

/-- timing.cpp:147-149, `GetHz(handle)`; `none` stands for NaN or infinity. -/
def Registry.getHz (r : Registry K) (handle : ℕ) : Res (Option K) := do
  let a ← Res.at' r.timers handle
  pure ((a.rollingMean timerWindow).bind fun m => if m = 0 then none else some (1 / m))

end Verif
