import Verif.Spec.Trajectory
import Verif.Model.Io

/-
Specification side for reading and writing trajectories: what it means for a YAML tree to describe a
trajectory, and what is assumed of the conversion of numbers to text.
-/
namespace Verif.Spec

variable {K S : Type}

/-- What is assumed of yaml-cpp: integers that fit into their C++ type are read back as written, and a
floating-point number `x` is read back as `rnd x`. (`rnd` is the identity when enough digits are
written.) -/
structure ReadsBack (cd : Codec K S) (rnd : K → K) : Prop where
  doubles : ∀ x, cd.getD (cd.putD x) = some (rnd x)
  ints : ∀ n : ℤ, 0 ≤ n → n < 2 ^ 31 → cd.getI (cd.putI n) = some n
  uints : ∀ n : ℕ, n < 2 ^ 64 → cd.getU (cd.putU n) = some n

/-- The tree is a sequence of numbers. -/
def DescribesNumbers (cd : Codec K S) (y : Yaml S) (c : List K) : Prop :=
  ∃ l, y = .seq l ∧ List.Forall₂ (fun e x => ∃ t, e = Yaml.scalar t ∧ cd.getD t = some x) l c

/-- The tree is a map with the entries `N`, `D`, `time` and `coefficients` of the segment. (Further
entries, and further elements of `coefficients`, are allowed.) -/
def DescribesSegment [Field K] (cd : Codec K S) (y : Yaml S) (s : Segment K) : Prop :=
  ∃ m n d t cs ns, y = Yaml.map m ∧
    m.lookup "N" = some (.scalar n) ∧ cd.getI n = some (s.N : ℤ) ∧
    m.lookup "D" = some (.scalar d) ∧ cd.getI d = some (s.polys.length : ℤ) ∧
    m.lookup "time" = some (.scalar t) ∧ cd.getU t = some ns ∧ s.time = (ns : K) * (1 / 10 ^ 9) ∧
    m.lookup "coefficients" = some (.seq cs) ∧ s.polys.length ≤ cs.length ∧
    List.Forall₂ (fun e p => DescribesNumbers cd e p.coeffs) (cs.take s.polys.length) s.polys

/-- The tree is a map whose entry `segments` is the non-empty sequence of the segments of the
trajectory. -/
def DescribesTrajectory [Field K] (cd : Codec K S) (y : Yaml S) (tr : Trajectory K) : Prop :=
  ∃ m ys, y = Yaml.map m ∧ m.lookup "segments" = some (.seq ys) ∧ ys ≠ [] ∧
    List.Forall₂ (DescribesSegment cd) ys tr.segments ∧
    (∀ s ∈ tr.segments, s.polys.length = tr.D ∧ s.N = tr.N) ∧
    tr.maxTime = (tr.segments.map (·.time)).sum

/-- `s'` is `s` after writing and reading: coefficients rounded by `rnd`, time truncated to whole
nanoseconds. -/
structure Reloaded [Field K] [LinearOrder K] (rnd : K → K) (s s' : Segment K) : Prop where
  polys : s'.polys = s.polys.map fun p => ⟨p.coeffs.map rnd⟩
  N : s'.N = s.N
  whole : ∃ ns : ℕ, s'.time = (ns : K) / 10 ^ 9
  below : s'.time ≤ s.time
  close : s.time - s'.time < 1 / 10 ^ 9

/-- A segment whose numbers fit into their C++ types. -/
structure Writable [Field K] [LinearOrder K] (s : Segment K) : Prop where
  N : s.N < 2 ^ 31
  D : s.polys.length < 2 ^ 31
  time0 : 0 ≤ s.time
  time1 : 10 ^ 9 * s.time < 2 ^ 64

/-- The duration in nanoseconds, truncated towards zero, is an unsigned number of 64 bits. -/
def Storable [Field K] [LinearOrder K] (s : Segment K) : Prop :=
  -1 < 10 ^ 9 * s.time ∧ 10 ^ 9 * s.time < 2 ^ 64

end Verif.Spec
