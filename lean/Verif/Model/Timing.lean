import Mathlib.Algebra.Field.Basic
import Mathlib.Order.Defs.LinearOrder
import Verif.Model.Res
import Verif.Model.Polynomial

/-
Model of mav_trajectory_generation/include/mav_trajectory_generation/timing.h and
mav_trajectory_generation/src/timing.cpp: the accumulator, the registry of timers (a singleton, here a state
that is passed on), and the timer objects. Of `Print` the figures are modelled
(in `TimingPrint.lean`; their layout in `TimingText.lean`). Not modelled: the `DummyTimer`. The clock is an argument of the operations that read it. The
definitions for `Add`, `Mean` and `RollingMean` ask of the numbers only the operations, not their laws, so that they
can be used with rounded numbers too.
-/
namespace Verif

variable {K : Type}

/-- `std::numeric_limits<int>::max()`. Incrementing an `int` with this value is undefined. -/
def intMax : ℕ := 2 ^ 31 - 1

/-- `++n` for an `int` that is not negative. -/
def incInt (n : ℕ) : Res ℕ := if n < intMax then .ok (n + 1) else .ub

/-- `std::numeric_limits<double>::min()`: the smallest positive normal number. -/
def dblMin [Field K] : K := 1 / 2 ^ 1022

/-- timing.h:94-100, the members of `Accumulator<double, double, N>`; `samples` is the array `samples_`. -/
structure Acc (K : Type) where
  windowSamples : ℕ
  totalSamples : ℕ
  windowSum : K
  sum : K
  min : K
  max : K
  samples : List K
  deriving DecidableEq, Repr

/-- timing.h:39-45, the constructor, with the two limits as arguments. The array is not initialised: `junk` is what the
memory holds, a list of `N` arbitrary numbers. -/
def Acc.start [Zero K] (max min : K) (junk : List K) : Acc K := ⟨0, 0, 0, 0, max, min, junk⟩

/-- timing.h:39-45, the constructor with the limits of `double`. -/
def Acc.new [Field K] (junk : List K) : Acc K := Acc.start dblMax dblMin junk

/-- timing.h:48-55, the update of the window: new array, sum and count. `samples_[i] = sample` outside the
array, `% 0` and overflow of the count are undefined. -/
def Acc.addWindow [Add K] [Sub K] (N : ℕ) (a : Acc K) (sample : K) : Res (List K × K × ℕ) :=
  if a.windowSamples < N then do
    let _ ← Res.at' a.samples a.windowSamples
    let w ← incInt a.windowSamples
    pure (a.samples.set a.windowSamples sample, a.windowSum + sample, w)
  else if N = 0 then .ub
  else do
    let oldest ← Res.at' a.samples (a.windowSamples % N)
    let w ← incInt a.windowSamples
    pure (a.samples.set (a.windowSamples % N) sample, a.windowSum + (sample - oldest), w)

/-- timing.h:47-64, `Add`. -/
def Acc.add [Add K] [Sub K] [LT K] [DecidableLT K] (N : ℕ) (a : Acc K) (sample : K) : Res (Acc K) := do
  let w ← a.addWindow N sample
  let n ← incInt a.totalSamples
  pure { windowSamples := w.2.2, totalSamples := n, windowSum := w.2.1, sum := a.sum + sample,
         min := if sample < a.min then sample else a.min,
         max := if sample > a.max then sample else a.max, samples := w.1 }

/-- Division of a floating point number by an `int`: `none` stands for the result (NaN or infinity) of a
division by 0. -/
def divInt [Div K] [NatCast K] (x : K) (n : ℕ) : Option K := if n = 0 then none else some (x / n)

/-- timing.h:70, `Mean`. -/
def Acc.mean [Div K] [NatCast K] (a : Acc K) : Option K := divInt a.sum a.totalSamples

/-- timing.h:72-74, `RollingMean`. -/
def Acc.rollingMean [Div K] [NatCast K] (N : ℕ) (a : Acc K) : Option K := divInt a.windowSum (Nat.min a.windowSamples N)

/-- timing.h:80-91, `LazyVariance`. -/
def Acc.lazyVariance [Field K] (N : ℕ) (a : Acc K) : Option K :=
  if a.windowSamples = 0 then some 0
  else do
    let m ← a.rollingMean N
    divInt (((a.samples.take (Nat.min a.windowSamples N)).map fun x => (x - m) * (x - m)).sum)
      (Nat.min a.windowSamples N)

/-! ### the registry -/

variable [Field K] [LinearOrder K]

/-- timing.h:103-108: the window of the timers. -/
def timerWindow : ℕ := 50

/-- timing.h:178-180, the members of `Timing`. The map is an association list, without the order of the
keys, which only `Print` shows; `max_tag_length_` only serves the layout of `Print`. -/
structure Registry (K : Type) where
  timers : List (Acc K)
  tags : List (String × ℕ)

/-- timing.cpp:35-42: the singleton before any call. -/
def Registry.new : Registry K := ⟨[], []⟩

/-- timing.cpp:45-61, `GetHandle`: the handle and the new state. `junk i` is the memory timer `i` gets. -/
def Registry.getHandle (junk : ℕ → List K) (r : Registry K) (tag : String) : ℕ × Registry K :=
  match r.tags.lookup tag with
  | none => (r.timers.length,
      ⟨r.timers ++ [Acc.new (junk r.timers.length)], (tag, r.timers.length) :: r.tags⟩)
  | some h => (h, r)

/-- timing.cpp:63-73, `GetTag`: the tag, or the empty string. -/
def Registry.getTag (r : Registry K) (handle : ℕ) : String :=
  match r.tags.find? fun e => e.2 = handle with
  | some e => e.1
  | none => ""

/-- timing.cpp:106-108, `AddTime`. -/
def Registry.addTime (r : Registry K) (handle : ℕ) (seconds : K) : Res (Registry K) := do
  let a ← Res.at' r.timers handle
  let a' ← a.add timerWindow seconds
  pure { r with timers := r.timers.set handle a' }

/-- timing.cpp:200, `Reset`: only the map is cleared. -/
def Registry.reset (r : Registry K) : Registry K := { r with tags := [] }

/-- timing.cpp:110-112, `GetTotalSeconds(handle)`. -/
def Registry.totalSeconds (r : Registry K) (handle : ℕ) : Res K := do
  let a ← Res.at' r.timers handle
  pure a.sum

/-- timing.cpp:122-124, `GetNumSamples(handle)`. -/
def Registry.numSamples (r : Registry K) (handle : ℕ) : Res ℕ := do
  let a ← Res.at' r.timers handle
  pure a.totalSamples

/-- timing.cpp:113-115, `GetTotalSeconds(tag)`: creates the timer if there is none. -/
def Registry.totalSecondsTag (junk : ℕ → List K) (r : Registry K) (tag : String) : Res (K × Registry K) := do
  let hr := r.getHandle junk tag
  let x ← hr.2.totalSeconds hr.1
  pure (x, hr.2)

/-! ### timers -/

/-- timing.h:135-138, the members of `Timer`; times are in seconds since the epoch of the clock. -/
structure TimerObj (K : Type) where
  time : K
  timing : Bool
  handle : ℕ

/-- timing.cpp:90-93, `Start`, at clock reading `now`. -/
def TimerObj.start (t : TimerObj K) (now : K) : TimerObj K := { t with timing := true, time := now }

/-- timing.cpp:76-79, the constructor with a handle; a default constructed time point is the epoch. -/
def TimerObj.new (handle : ℕ) (constructStopped : Bool) (now : K) : TimerObj K :=
  if constructStopped then ⟨0, false, handle⟩ else TimerObj.start ⟨0, false, handle⟩ now

/-- timing.cpp:95-102, `Stop`. -/
def TimerObj.stop (t : TimerObj K) (r : Registry K) (now : K) : Res (TimerObj K × Registry K) := do
  let r' ← r.addTime t.handle (now - t.time)
  pure ({ t with timing := false }, r')

/-- timing.cpp:86-88, the destructor. -/
def TimerObj.destroy (t : TimerObj K) (r : Registry K) (now : K) : Res (Registry K) :=
  if t.timing then do
    let x ← t.stop r now
    pure x.2
  else .ok r

/-- timing.h:190-214, `MiniTimer`: the members. -/
structure MiniTimer (K : Type) where
  start : K
  stop : K

/-- timing.h:203-209, `getTime`. -/
def MiniTimer.getTime (t : MiniTimer K) : K := if t.stop < t.start then 0 else t.stop - t.start

end Verif
