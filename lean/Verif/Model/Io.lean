import Verif.Model.Trajectory

/-
Model of mav_trajectory_generation/src/io.cpp and of the inline functions of io.h.

Of yaml-cpp the following is modelled: the four kinds of nodes, element access through the const
`operator[]` (a missing element is an invalid node, asking an invalid node for anything but whether it
is defined throws, a scalar has no elements and throws), `size`, `IsSequence` and `as<T>`, which throws
when the conversion is not possible. The text of a scalar is an abstract type `S`; writing numbers to
text and reading them back are the functions of a `Codec`.
-/
namespace Verif

variable {K S : Type}

/-- A YAML node. The keys of a map are plain texts. -/
inductive Yaml (S : Type) where
  | null
  | scalar (s : S)
  | seq (l : List (Yaml S))
  | map (l : List (String × Yaml S))

/-- Conversion of numbers to and from text, as done by yaml-cpp. `keyIdx` tells which map keys read as
an index. -/
structure Codec (K S : Type) where
  putD : K → S
  getD : S → Option K
  putI : ℤ → S
  getI : S → Option ℤ
  putU : ℕ → S
  getU : S → Option ℕ
  keyIdx : String → Option ℕ

/-- A `YAML::Node` object: `none` is the invalid node that stands for a missing element. -/
abbrev YNode (S : Type) := Option (Yaml S)

/-- `node[key]` with a text key, for a const node. -/
def YNode.get : YNode S → String → Res (YNode S)
  | none, _ => .throws
  | some .null, _ => .ok none
  | some (.scalar _), _ => .throws
  | some (.seq _), _ => .ok none
  | some (.map l), key => .ok (l.lookup key)

/-- `node[key]` with a text key for a node that is not const (io.cpp:183): as before, except that a
null node or a sequence is turned into a map in which the key is missing. -/
def YNode.getMut : YNode S → String → Res (YNode S)
  | none, _ => .throws
  | some .null, _ => .ok none
  | some (.scalar _), _ => .throws
  | some (.seq _), _ => .ok none
  | some (.map l), key => .ok (l.lookup key)

/-- `node[i]` with a number, for a const node. -/
def YNode.idx (cd : Codec K S) : YNode S → ℕ → Res (YNode S)
  | none, _ => .throws
  | some .null, _ => .ok none
  | some (.scalar _), _ => .throws
  | some (.seq l), i => .ok l[i]?
  | some (.map l), i => .ok ((l.find? fun e => cd.keyIdx e.1 = some i).map (·.2))

/-- `node.IsSequence()`. -/
def YNode.isSequence : YNode S → Res Bool
  | none => .throws
  | some (.seq _) => .ok true
  | some _ => .ok false

/-- `node.size()`. -/
def YNode.size : YNode S → Res ℕ
  | none => .throws
  | some (.seq l) => .ok l.length
  | some (.map l) => .ok l.length
  | some _ => .ok 0

/-- `node.as<T>()` for a conversion from text. -/
def YNode.as {α : Type} (conv : S → Option α) : YNode S → Res α
  | some (.scalar s) => match conv s with
    | some a => .ok a
    | none => .throws
  | _ => .throws

/-- segment.h:47-49, the constructor `Segment(N, D)` called with integers from a file: a negative
number of coefficients is a negative size of an Eigen vector, a negative dimension is converted to a
size no vector can have. -/
def Segment.mkInt [Zero K] (n d : ℤ) : Res (Segment K) :=
  if n < 0 then .ub else if d < 0 then .throws else .ok (Segment.mkZero n.toNat d.toNat)

/-! ### Writing -/

/-- io.cpp:35-41, `coefficientsToYaml`. -/
def coefficientsToYaml (cd : Codec K S) (c : List K) : Yaml S := .seq (c.map fun x => .scalar (cd.putD x))

section Write
variable [Field K] [LinearOrder K] [IsStrictOrderedRing K] [FloorRing K]

/-- io.cpp:43-54, `segmentToYaml`. With no dimension nothing is pushed and the key is not created. -/
def segmentToYaml (cd : Codec K S) (s : Segment K) : Res (Yaml S) := do
  let ns ← s.getTimeNSec
  let cs ← s.polys.mapM fun p => do
    let c ← p.getCoefficients 0
    pure (coefficientsToYaml cd c)
  let header := [("N", .scalar (cd.putI s.N)), ("D", .scalar (cd.putI s.D)), ("time", .scalar (cd.putU ns))]
  pure (.map (if cs.isEmpty then header else header ++ [("coefficients", .seq cs)]))

/-- io.cpp:56-62, `segmentsToYaml`. With no segment the node stays null. -/
def segmentsToYaml (cd : Codec K S) (segs : List (Segment K)) : Res (Yaml S) := do
  let ys ← segs.mapM fun s => segmentToYaml cd s
  pure (if ys.isEmpty then .null else .map [("segments", .seq ys)])

/-- io.cpp:64-68, `trajectoryToYaml`. -/
def trajectoryToYaml (cd : Codec K S) (tr : Trajectory K) : Res (Yaml S) := segmentsToYaml cd tr.segments

/-- io.cpp:134-157, what the emitter writes for one segment: the number of coefficients written is the
one of the segment, and a shorter polynomial is read out of bounds. -/
def segmentToText (cd : Codec K S) (s : Segment K) : Res (Yaml S) := do
  let ns ← s.getTimeNSec
  let cs ← s.polys.mapM fun p => do
    let c ← p.getCoefficients 0
    let l ← (List.range s.N).mapM fun j => Res.at' c j
    pure (Yaml.seq (l.map fun x => .scalar (cd.putD x)))
  pure (.map [("N", .scalar (cd.putI s.N)), ("D", .scalar (cd.putI s.D)), ("time", .scalar (cd.putU ns)),
    ("coefficients", .seq cs)])

/-- io.cpp:126-167, `segmentsToFile`: the returned flag and, if the file could be opened, the contents
written (as the tree the text stands for). Errors while writing are not modelled (nor noticed by the
code). -/
def segmentsToFile (cd : Codec K S) (canOpen : Bool) (segs : List (Segment K)) :
    Res (Bool × Option (Yaml S)) := do
  let ys ← segs.mapM fun s => segmentToText cd s
  if canOpen then pure (true, some (.map [("segments", .seq ys)])) else pure (false, none)

/-- io.h:45-51, `trajectoryToFile`. -/
def trajectoryToFile (cd : Codec K S) (canOpen : Bool) (tr : Trajectory K) : Res (Bool × Option (Yaml S)) :=
  segmentsToFile cd canOpen tr.segments

end Write

/-! ### Reading from a node -/

/-- io.cpp:70-79, `coefficientsFromYaml`: `none` when it returns false. -/
def coefficientsFromYaml (cd : Codec K S) (node : YNode S) : Res (Option (List K)) := do
  let b ← node.isSequence
  if b then do
    let n ← node.size
    let c ← (List.range n).mapM fun i => do
      let e ← node.idx cd i
      e.as cd.getD
    pure (some c)
  else pure none

/-- io.cpp:93-97, the loop over the dimensions; the list holds the remaining values of `i`. -/
def fillCoefficients (cd : Codec K S) (cn : YNode S) : List ℕ → Segment K → Res (Option (Segment K))
  | [], s => .ok (some s)
  | i :: is, s => do
    let e ← cn.idx cd i
    let c ← coefficientsFromYaml cd e
    match c with
    | none => pure none
    | some c => do
      let s' ← s.set i ⟨c⟩
      fillCoefficients cd cn is s'

section Read
variable [Field K]

/-- io.cpp:81-102, `segmentFromYaml`: `none` when it returns false. -/
def segmentFromYaml (cd : Codec K S) (node : YNode S) : Res (Option (Segment K)) := do
  let n ← node.get "N"
  if n.isNone then pure none else do
  let d ← node.get "D"
  if d.isNone then pure none else do
  let t ← node.get "time"
  if t.isNone then pure none else do
  let c ← node.get "coefficients"
  if c.isNone then pure none else do
  let b ← c.isSequence
  if b = false then pure none else do
  let n ← n.as cd.getI
  let d ← d.as cd.getI
  let s ← Segment.mkInt n d
  let r ← fillCoefficients cd c (List.range s.D) s
  match r with
  | none => pure none
  | some s => do
    let ns ← t.as cd.getU
    pure (some (s.setTimeNSec ns))

/-- io.cpp:109-111, the loop of `segmentsFromYaml`; the list holds the remaining values of `i`. -/
def segmentsLoop (cd : Codec K S) (node : YNode S) : List ℕ → Res (Option (List (Segment K)))
  | [] => .ok (some [])
  | i :: is => do
    let e ← node.idx cd i
    let s ← segmentFromYaml cd e
    match s with
    | none => pure none
    | some s => do
      let r ← segmentsLoop cd node is
      pure (r.map fun l => s :: l)

/-- io.cpp:104-114, `segmentsFromYaml`: `none` when it returns false. -/
def segmentsFromYaml (cd : Codec K S) (node : YNode S) : Res (Option (List (Segment K))) := do
  let b ← node.isSequence
  if b then do
    let n ← node.size
    segmentsLoop cd node (List.range n)
  else pure none

/-- io.cpp:116-124, `trajectoryFromYaml`: `none` when it returns false (the trajectory is then
unchanged). -/
def trajectoryFromYaml (cd : Codec K S) (node : YNode S) : Res (Option (Trajectory K)) := do
  let n ← node.get "segments"
  let s ← segmentsFromYaml cd n
  match s with
  | none => pure none
  | some segs => do
    let tr ← Trajectory.setSegments segs
    pure (some tr)

/-! ### Reading from a file -/

/-- A file: not readable, not parsable as YAML, or the tree it stands for. -/
inductive YamlFile (S : Type) where
  | missing
  | garbage
  | tree (y : Yaml S)

/-- io.cpp:200-209, the loop over the dimensions. -/
def fillStrict (cd : Codec K S) (cn : YNode S) (n : ℕ) : List ℕ → Segment K → Res (Option (Segment K))
  | [], s => .ok (some s)
  | j :: js, s => do
    let e ← cn.idx cd j
    let sz ← e.size
    if sz ≠ n then pure none else do
    let c ← (List.range n).mapM fun k => do
      let x ← e.idx cd k
      x.as cd.getD
    let s' ← s.set j ⟨c⟩
    fillStrict cd cn n js s'

/-- io.cpp:186-213, one segment; `none` when the function returns false there. -/
def segmentFromText (cd : Codec K S) (node : YNode S) : Res (Option (Segment K)) := do
  let n ← node.get "N"
  if n.isNone then pure none else do
  let d ← node.get "D"
  if d.isNone then pure none else do
  let t ← node.get "time"
  if t.isNone then pure none else do
  let c ← node.get "coefficients"
  if c.isNone then pure none else do
  let n ← n.as cd.getI
  let d ← d.as cd.getI
  let s ← Segment.mkInt n d
  let ns ← t.as cd.getU
  let s := s.setTimeNSec ns
  let sz ← c.size
  if sz ≠ d.toNat then pure none else fillStrict cd c n.toNat (List.range d.toNat) s

/-- io.cpp:185-214, the loop over the segments: the returned flag and the segments pushed so far. -/
def segmentsTextLoop (cd : Codec K S) (node : YNode S) :
    List ℕ → List (Segment K) → Res (Bool × List (Segment K))
  | [], acc => .ok (true, acc)
  | i :: is, acc => do
    let e ← node.idx cd i
    let s ← segmentFromText cd e
    match s with
    | none => pure (false, acc)
    | some s => segmentsTextLoop cd node is (acc ++ [s])

/-- io.cpp:169-219, `segmentsFromFile`: the returned flag and the contents of the output vector, which
held `old` before. -/
def segmentsFromFile (cd : Codec K S) (file : YamlFile S) (old : List (Segment K)) :
    Res (Bool × List (Segment K)) :=
  match file with
  | .missing => .ok (false, old)
  | .garbage => .throws
  | .tree y => do
    let n ← YNode.getMut (some y) "segments"
    if n.isNone then pure (false, []) else do
    let sz ← n.size
    segmentsTextLoop cd n (List.range sz) []

/-- io.h:56-63, `trajectoryFromFile`: the returned flag and the trajectory. The segments are handed to
the trajectory also when reading failed. -/
def trajectoryFromFile (cd : Codec K S) (file : YamlFile S) : Res (Bool × Trajectory K) := do
  let r ← segmentsFromFile cd file []
  let tr ← Trajectory.setSegments r.2
  pure (r.1, tr)

end Read
end Verif
