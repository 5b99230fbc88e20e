import Verif.Model.Timing

/-
Specification side for the timing statistics: sequences of samples, histories of calls and the samples a
history adds to one handle.
-/
namespace Verif.Spec

variable {K : Type}

/-- The last `N` elements of a list (all of them if there are fewer). -/
def lastN (N : ℕ) (xs : List K) : List K := xs.drop (xs.length - N)

/-- Adding samples one after the other. -/
def addAll [Add K] [Sub K] [LT K] [DecidableLT K] (N : ℕ) (a : Acc K) (xs : List K) : Res (Acc K) :=
  xs.foldlM (Acc.add N) a

variable [Field K] [LinearOrder K]

/-- The calls that change the registry. -/
inductive TimingOp (K : Type) where
  | getHandle (tag : String)
  | addTime (handle : ℕ) (seconds : K)
  | reset

/-- One call. -/
def TimingOp.step (junk : ℕ → List K) (r : Registry K) : TimingOp K → Res (Registry K)
  | .getHandle tag => .ok (r.getHandle junk tag).2
  | .addTime h x => r.addTime h x
  | .reset => .ok r.reset

/-- A history of calls. -/
def runTiming (junk : ℕ → List K) (r : Registry K) (ops : List (TimingOp K)) : Res (Registry K) :=
  ops.foldlM (TimingOp.step junk) r

/-- The samples a history adds to one handle, in order. -/
def samplesOf (h : ℕ) (ops : List (TimingOp K)) : List K :=
  ops.filterMap fun
    | .addTime h' x => if h' = h then some x else none
    | _ => none

/-- The mean of a list of numbers. -/
def meanOf (xs : List K) : K := xs.sum / xs.length

/-- The (population) variance of a list of numbers. -/
def varianceOf (xs : List K) : K := meanOf (xs.map fun x => (x - meanOf xs) ^ 2)

/-- A timer object is started and stopped at the given clock readings, period after period. -/
def runPeriods (t : TimerObj K) (r : Registry K) : List (K × K) → Res (TimerObj K × Registry K)
  | [] => .ok (t, r)
  | p :: ps => do
    let x ← (t.start p.1).stop r p.2
    runPeriods x.1 x.2 ps

end Verif.Spec
