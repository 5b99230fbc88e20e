import Verif.Model.Io
import Verif.Model.Vertex

/-
Model of mav_trajectory_generation_ros/src/input_constraints.cpp and
mav_trajectory_generation_ros/include/mav_trajectory_generation_ros/input_constraints.h. `std::map<int, double>` is the ordered list of entries of
`Verif.Model.Vertex` (`mapFind`, `mapInsert`, `mapErase`).
-/
namespace Verif

variable {K S : Type}

/-- input_constraints.h:29-36, enum `InputConstraintType`. -/
def kFMin : ℤ := 0
@[inherit_doc kFMin] def kFMax : ℤ := 1
@[inherit_doc kFMin] def kVMax : ℤ := 2
@[inherit_doc kFMin] def kOmegaXYMax : ℤ := 3
@[inherit_doc kFMin] def kOmegaZMax : ℤ := 4
@[inherit_doc kFMin] def kOmegaZDotMax : ℤ := 5

/-- input_constraints.h:41-71, class `InputConstraints`. -/
structure InputConstraints (K : Type) where
  constraints : List (ℤ × K)
  deriving DecidableEq, Repr

namespace InputConstraints

/-- input_constraints.h:44, the default constructor. -/
def empty : InputConstraints K := ⟨[]⟩

/-- input_constraints.cpp:55-64, `getConstraint`: `none` when it returns false (the output argument is
then untouched). -/
def getConstraint (c : InputConstraints K) (type : ℤ) : Option K := mapFind type c.constraints

/-- input_constraints.cpp:66-69, `hasConstraint`. -/
def hasConstraint (c : InputConstraints K) (type : ℤ) : Bool := (mapFind type c.constraints).isSome

/-- input_constraints.cpp:71-79, `removeConstraint`: the flag and the new object. -/
def removeConstraint (c : InputConstraints K) (type : ℤ) : Bool × InputConstraints K :=
  if c.hasConstraint type then (true, ⟨mapErase type c.constraints⟩) else (false, c)

section Order
variable [Field K] [LinearOrder K]

/-- input_constraints.cpp:32-43, `addConstraint`. -/
def addConstraint (c : InputConstraints K) (type : ℤ) (value : K) : InputConstraints K :=
  let v := |value|
  let l := c.constraints
  let l' :=
    if type = kFMin then
      match mapFind kFMax l with
      | some m => mapInsert kFMax (if v > m then v else m) l
      | none => l
    else if type = kFMax then
      match mapFind kFMin l with
      | some m => mapInsert kFMin (if v < m then v else m) l
      | none => l
    else l
  ⟨mapInsert type v l'⟩

/-- input_constraints.cpp:45-52, `setDefaultValues`; `g` is `mav_msgs::kGravity`, `pi` is `M_PI`. -/
def setDefaultValues (g pi : K) (c : InputConstraints K) : InputConstraints K :=
  ⟨mapInsert kOmegaZDotMax (2 * pi) <| mapInsert kOmegaZMax (pi / 2) <|
    mapInsert kOmegaXYMax (pi / 2) <| mapInsert kVMax 3 <|
    mapInsert kFMax (3 / 2 * g) <| mapInsert kFMin (1 / 2 * g) c.constraints⟩

/-- input_constraints.cpp:81-97, `getInputConstraintName`. -/
def constraintName (type : ℤ) : String :=
  if type = kFMin then "f_min"
  else if type = kFMax then "f_max"
  else if type = kVMax then "v_max"
  else if type = kOmegaXYMax then "omega_xy_max"
  else if type = kOmegaZMax then "omega_z_max"
  else if type = kOmegaZDotMax then "omega_z_dot_max"
  else "Unknown!"

/-- `node[key] = value` on the entries of a YAML map (yaml-cpp): an existing entry is overwritten, a
new one is added at the end. -/
def setKey (key : String) (y : Yaml S) : List (String × Yaml S) → List (String × Yaml S)
  | [] => [(key, y)]
  | e :: l => if e.1 = key then (key, y) :: l else e :: setKey key y l

/-- input_constraints.cpp:99-110, `toYaml`. The node stays null when there is no constraint. -/
def toYaml (cd : Codec K S) (c : InputConstraints K) : Yaml S :=
  let entries := c.constraints.foldl
    (fun l e => setKey (constraintName e.1) (.scalar (cd.putD e.2)) l) []
  if entries.isEmpty then .null else .map entries

/-- input_constraints.cpp:113-143, one of the `if`s of `fromYaml`. -/
def fromYamlOne (cd : Codec K S) (node : YNode S) (c : InputConstraints K) (type : ℤ) :
    Res (InputConstraints K) := do
  let n ← node.get (constraintName type)
  match n with
  | none => pure c
  | some y => do
    let v ← YNode.as cd.getD (some y)
    pure (c.addConstraint type v)

/-- input_constraints.cpp:112-144, `fromYaml`. (When it throws, the object may have been changed.) -/
def fromYaml (cd : Codec K S) (c : InputConstraints K) (node : YNode S) : Res (InputConstraints K) :=
  [kFMin, kFMax, kVMax, kOmegaXYMax, kOmegaZMax, kOmegaZDotMax].foldlM (fromYamlOne cd node) c

end Order
end InputConstraints

/-- The calls that change an `InputConstraints` object. -/
inductive ConstraintCall (K S : Type) where
  | add (type : ℤ) (value : K)
  | remove (type : ℤ)
  | defaults
  | load (node : YNode S)

/-- The effect of a call; a call that throws ends the history. -/
def ConstraintCall.apply [Field K] [LinearOrder K] (cd : Codec K S) (g pi : K)
    (c : InputConstraints K) : ConstraintCall K S → Res (InputConstraints K)
  | .add type value => .ok (c.addConstraint type value)
  | .remove type => .ok (c.removeConstraint type).2
  | .defaults => .ok (c.setDefaultValues g pi)
  | .load node => c.fromYaml cd node

end Verif
