import Verif.Model.Sampling
import Verif.Model.Vertex
import Verif.Model.MotionDefines

/-
Model of mav_visualization (helpers.h, marker_group.cpp, hexacopter_marker.cpp, leica_marker.cpp) and of
mav_trajectory_generation_ros/src/ros_visualization.cpp.

A `visualization_msgs::Marker` is modelled by the fields that the code writes (the field `text` and the
sequence number of the header are never written here). Colours are numbers of the field, not `float`s.
`norm()` and `std::sqrt` use the parameter `sq`, `cos(15°)` is the parameter `c15`, `ros::Time::now()` is the
parameter `now`. Output arguments are passed in and returned; a null pointer (`CHECK_NOTNULL`) is not
modelled.
-/
namespace Verif

variable {K : Type}

/-- `Eigen::Vector3d` and `geometry_msgs::Point`; `tf::pointEigenToMsg` copies. -/
structure Vec3 (K : Type) where
  x : K
  y : K
  z : K
  deriving DecidableEq, Repr

/-- `Eigen::Quaterniond` and `geometry_msgs::Quaternion`. -/
structure Quat (K : Type) where
  w : K
  x : K
  y : K
  z : K
  deriving DecidableEq, Repr

/-- `std_msgs::ColorRGBA`, helpers.h:30-39. -/
structure Color (K : Type) where
  r : K
  g : K
  b : K
  a : K
  deriving DecidableEq, Repr

/-- The constants of `visualization_msgs::Marker` for the type that are used. -/
inductive MarkerType where
  | arrow | cube | cylinder | sphere | lineStrip | lineList | mesh
  deriving DecidableEq, Repr

/-- `std_msgs::Header` without the sequence number. -/
structure Header (K : Type) where
  frameId : String
  stamp : K
  deriving DecidableEq, Repr

/-- `visualization_msgs::Marker`. -/
structure Marker (K : Type) where
  header : Header K
  ns : String
  id : ℤ
  type : MarkerType
  action : ℤ
  position : Vec3 K
  orientation : Quat K
  scale : Vec3 K
  color : Color K
  lifetime : K
  frameLocked : Bool
  points : List (Vec3 K)
  colors : List (Color K)
  mesh : String
  meshMaterials : Bool
  deriving DecidableEq, Repr

section Ring
variable [CommRing K]

/-- Sum of Eigen vectors. -/
def Vec3.add (a b : Vec3 K) : Vec3 K := ⟨a.x + b.x, a.y + b.y, a.z + b.z⟩
/-- Difference of Eigen vectors. -/
def Vec3.sub (a b : Vec3 K) : Vec3 K := ⟨a.x - b.x, a.y - b.y, a.z - b.z⟩
/-- Multiple of an Eigen vector. -/
def Vec3.smul (c : K) (a : Vec3 K) : Vec3 K := ⟨a.x * c, a.y * c, a.z * c⟩
/-- `cross` of Eigen. -/
def Vec3.cross (a b : Vec3 K) : Vec3 K :=
  ⟨a.y * b.z - a.z * b.y, a.z * b.x - a.x * b.z, a.x * b.y - a.y * b.x⟩
/-- `Zero()`. -/
def Vec3.zero : Vec3 K := ⟨0, 0, 0⟩
/-- `norm()`. -/
def Vec3.norm (sq : K → K) (a : Vec3 K) : K := sq (a.x * a.x + a.y * a.y + a.z * a.z)

/-- The product of Eigen quaternions. -/
def Quat.mul (a b : Quat K) : Quat K :=
  ⟨a.w * b.w - a.x * b.x - a.y * b.y - a.z * b.z, a.w * b.x + a.x * b.w + a.y * b.z - a.z * b.y,
    a.w * b.y + a.y * b.w + a.z * b.x - a.x * b.z, a.w * b.z + a.z * b.w + a.x * b.y - a.y * b.x⟩

/-- `q * v` for an Eigen quaternion and a vector (`_transformVector`): with `u = 2 q.vec × v` it is
`v + q.w u + q.vec × u`. -/
def Quat.rotate (q : Quat K) (v : Vec3 K) : Vec3 K :=
  let qv : Vec3 K := ⟨q.x, q.y, q.z⟩
  let u := qv.cross v
  let u2 := u.add u
  (v.add (u2.smul q.w)).add (qv.cross u2)

/-- A marker as its constructor leaves it: everything zero or empty (type 0 is `ARROW`, action 0 is `ADD`). -/
def Marker.new : Marker K :=
  ⟨⟨"", 0⟩, "", 0, .arrow, 0, ⟨0, 0, 0⟩, ⟨0, 0, 0, 0⟩, ⟨0, 0, 0⟩, ⟨0, 0, 0, 0⟩, 0, false, [], [], "", false⟩

/-! ### marker_group.cpp -/

/-- The loop body marker_group.cpp:40-47: a marker with its pose and size magnified. -/
def Marker.magnify (s : K) (m : Marker K) : Marker K :=
  { m with
    position := ⟨m.position.x * s, m.position.y * s, m.position.z * s⟩
    scale := ⟨m.scale.x * s, m.scale.y * s, m.scale.z * s⟩ }

/-- marker_group.cpp:25-50, `MarkerGroup::getMarkers` for the group `g`; the first argument is what the output
argument holds before the call. -/
def getMarkers [DecidableEq K] (g out : List (Marker K)) (scale : K) (append : Bool) : List (Marker K) :=
  if append = false ∧ scale = 1 then g
  else
    let out := if append = false ∧ scale ≠ 1 then [] else out
    g.foldl (fun o m => o ++ [if scale = 1 then m else m.magnify scale]) out

/-- marker_group.cpp:57-62, `setNamespace`. -/
def setNamespace (ns : String) (g : List (Marker K)) : List (Marker K) := g.map fun m => { m with ns := ns }
/-- marker_group.cpp:64-69, `setHeader`. -/
def setHeader (h : Header K) (g : List (Marker K)) : List (Marker K) := g.map fun m => { m with header := h }
/-- marker_group.cpp:71-78, `setHeaderAndNamespace`. -/
def setHeaderAndNamespace (h : Header K) (ns : String) (g : List (Marker K)) : List (Marker K) :=
  g.map fun m => { m with ns := ns, header := h }
/-- marker_group.cpp:80-85, `setAction`. -/
def setAction (a : ℤ) (g : List (Marker K)) : List (Marker K) := g.map fun m => { m with action := a }
/-- marker_group.cpp:87-92, `setLifetime`. -/
def setLifetime (t : K) (g : List (Marker K)) : List (Marker K) := g.map fun m => { m with lifetime := t }
/-- marker_group.cpp:94-99, `setFrameLocked`. -/
def setFrameLocked (b : Bool) (g : List (Marker K)) : List (Marker K) :=
  g.map fun m => { m with frameLocked := b }

/-- marker_group.cpp:108-128, `transformMarker`. -/
def transformMarker (t : Vec3 K) (q : Quat K) (m : Marker K) : Marker K :=
  { m with
    position := (q.rotate m.position).add t
    orientation := q.mul m.orientation }

/-- marker_group.cpp:130-134, `transform`. -/
def transformGroup (t : Vec3 K) (q : Quat K) (g : List (Marker K)) : List (Marker K) :=
  g.map (transformMarker t q)

end Ring

section Field
variable [Field K]

/-! ### helpers.h -/

/-- helpers.h:135-150, `drawArrowPoints`, writing into the marker `m`. -/
def drawArrowPoints (p1 p2 : Vec3 K) (c : Color K) (diameter : K) (m : Marker K) : Marker K :=
  { m with
    type := .arrow
    action := 0
    color := c
    points := [p1, p2]
    scale := ⟨diameter * (1 / 10), diameter * 2 * (1 / 10), 0⟩ }

/-- helpers.h:152-166, `drawAxesArrows`; the output array is empty before the call at the only call site, so
that `resize(3)` makes three new markers. -/
def drawAxesArrows (p : Vec3 K) (q : Quat K) (scale diameter : K) : List (Marker K) :=
  [drawArrowPoints (Vec3.zero.add p) (((q.rotate ⟨1, 0, 0⟩).smul scale).add p) ⟨1, 0, 0, 1⟩ diameter .new,
   drawArrowPoints (Vec3.zero.add p) (((q.rotate ⟨0, 1, 0⟩).smul scale).add p) ⟨0, 1, 0, 1⟩ diameter .new,
   drawArrowPoints (Vec3.zero.add p) (((q.rotate ⟨0, 0, 1⟩).smul scale).add p) ⟨0, 0, 1, 1⟩ diameter .new]

/-- helpers.h:90-116, `drawAxes`, writing into the marker `m`. -/
def drawAxes (p : Vec3 K) (q : Quat K) (scale lineWidth : K) (m : Marker K) : Marker K :=
  { m with
    points := [⟨0, 0, 0⟩, ⟨1 * scale, 0, 0⟩, ⟨0, 0, 0⟩, ⟨0, 1 * scale, 0⟩, ⟨0, 0, 0⟩, ⟨0, 0, 1 * scale⟩]
    color := ⟨0, 0, 0, 1⟩
    colors := [⟨1, 0, 0, 1⟩, ⟨1, 0, 0, 1⟩, ⟨0, 1, 0, 1⟩, ⟨0, 1, 0, 1⟩, ⟨0, 0, 1, 1⟩, ⟨0, 0, 1, 1⟩]
    scale := { m.scale with x := lineWidth }
    type := .lineList
    action := 0
    position := p
    orientation := q }

/-- helpers.h:118-133, `drawArrowPositionOrientation`, writing into the marker `m`. -/
def drawArrowPositionOrientation (p : Vec3 K) (q : Quat K) (c : Color K) (length diameter : K) (m : Marker K) :
    Marker K :=
  { m with
    type := .arrow
    action := 0
    color := c
    position := p
    orientation := q
    scale := ⟨length, diameter, diameter⟩ }

/-- `Eigen::Matrix3d`, by its columns. -/
structure Mat3 (K : Type) where
  c0 : Vec3 K
  c1 : Vec3 K
  c2 : Vec3 K
  deriving DecidableEq, Repr

/-- helpers.h:74, `(cov + cov.transpose()) * 0.5`. -/
def Mat3.symmetrize (a : Mat3 K) : Mat3 K :=
  ⟨⟨(a.c0.x + a.c0.x) * (1 / 2), (a.c0.y + a.c1.x) * (1 / 2), (a.c0.z + a.c2.x) * (1 / 2)⟩,
   ⟨(a.c1.x + a.c0.y) * (1 / 2), (a.c1.y + a.c1.y) * (1 / 2), (a.c1.z + a.c2.y) * (1 / 2)⟩,
   ⟨(a.c2.x + a.c0.z) * (1 / 2), (a.c2.y + a.c1.z) * (1 / 2), (a.c2.z + a.c2.z) * (1 / 2)⟩⟩

/-- helpers.h:62-88, `drawCovariance3D`, writing into the marker `m`. `Eigen::SelfAdjointEigenSolver` is the
parameter `eig` (eigenvalues, eigenvectors as columns), the conversion of a matrix to a quaternion is the
parameter `toQuat`. -/
def drawCovariance3D (sq : K → K) (eig : Mat3 K → Vec3 K × Mat3 K) (toQuat : Mat3 K → Quat K) (mu : Vec3 K)
    (cov : Mat3 K) (c : Color K) (nSigma : K) (m : Marker K) : Marker K :=
  let e := eig cov.symmetrize
  let v : Mat3 K := { e.2 with c2 := e.2.c0.cross e.2.c1 }
  let sigma : Vec3 K := Vec3.smul nSigma ⟨sq e.1.x, sq e.1.y, sq e.1.z⟩
  { m with
    position := mu
    orientation := toQuat v
    scale := sigma.smul 2
    type := .sphere
    color := c
    action := 0 }

/-! ### hexacopter_marker.cpp, leica_marker.cpp -/

/-- hexacopter_marker.cpp:30-82, a rotor at `(x, y, 0)`. -/
def hexRotor (id : ℤ) (c : Color K) (x y : K) : Marker K :=
  { (Marker.new : Marker K) with
    id := id, type := .cylinder, ns := "hexacopter", scale := ⟨1 / 5, 1 / 5, 1 / 100⟩, color := c
    position := ⟨x, y, 0⟩, orientation := ⟨1, 0, 0, 0⟩ }

/-- hexacopter_marker.cpp:84-116, an arm. -/
def hexArm (id : ℤ) (w z : K) : Marker K :=
  { (Marker.new : Marker K) with
    id := id, type := .cube, ns := "hexacopter", scale := ⟨11 / 25, 1 / 50, 1 / 100⟩
    color := ⟨3 / 10, 3 / 10, 3 / 10, 1⟩, position := ⟨0, 0, -15 / 1000⟩, orientation := ⟨w, 0, 0, z⟩ }

/-- hexacopter_marker.cpp:118-147, a mesh; line 119 resets the marker, and only the height is set after. -/
def hexMesh (id : ℤ) (mesh : String) (c : Color K) : Marker K :=
  { (Marker.new : Marker K) with
    id := id, type := .mesh, ns := "hexacopter", mesh := mesh, meshMaterials := false, scale := ⟨1, 1, 1⟩
    color := c, position := ⟨0, 0, -3 / 100⟩ }

/-- hexacopter_marker.cpp:25-151, `createHexacopter` (on the empty group of the constructor). -/
def hexacopter (sq : K → K) (simple : Bool) : List (Marker K) :=
  let orange : Color K := ⟨4 / 5, 1 / 2, 0, 1 / 2⟩
  let gray : Color K := ⟨4 / 5, 4 / 5, 4 / 5, 1 / 2⟩
  let rotors : List (Marker K) :=
    [hexRotor 1 orange (19 / 100) (11 / 100), hexRotor 2 orange (19 / 100) (-11 / 100),
     hexRotor 3 gray 0 (22 / 100), hexRotor 4 gray 0 (-22 / 100),
     hexRotor 5 gray (-19 / 100) (11 / 100), hexRotor 6 gray (-19 / 100) (-11 / 100)]
  let body : List (Marker K) :=
    if simple then
      [hexArm 7 (sq 2 / 2) (sq 2 / 2), hexArm 8 (9659 / 10000) (2588 / 10000),
       hexArm 9 (9659 / 10000) (-2588 / 10000)]
    else
      [hexMesh 7 "package://mav_visualization/meshes/firefly_carbon.dae" ⟨3 / 10, 3 / 10, 3 / 10, 1⟩,
       hexMesh 8 "package://mav_visualization/meshes/firefly_cowl.dae" ⟨1, 1, 1, 1⟩]
  setFrameLocked true (rotors ++ body)

/-- leica_marker.cpp:23-76, a leg. -/
def leicaLeg (c15 : K) (id : ℤ) (q : Quat K) (x y : K) : Marker K :=
  { (Marker.new : Marker K) with
    id := id, type := .cylinder, scale := ⟨1 / 50, 1 / 50, 27 / 20 / c15⟩, color := ⟨1, 1, 0, 1⟩
    position := ⟨x, y, -(27 / 20 + 3 / 10) / 2⟩, orientation := q }

/-- leica_marker.cpp:23-96, `createLeica`. The first two legs are inserted twice (lines 49-51, 62-64). -/
def leica (c15 : K) : List (Marker K) :=
  let q1 : Quat K := ⟨9914 / 10000, 0, -1305 / 10000, 0⟩
  let q2 : Quat K := ⟨4957 / 10000, 1130 / 10000, -653 / 10000, 8586 / 10000⟩
  let q3 : Quat K := ⟨-4957 / 10000, 1130 / 10000, 653 / 10000, 8586 / 10000⟩
  [leicaLeg c15 0 q1 (1 / 5) 0, leicaLeg c15 1 q1 (1 / 5) 0,
   leicaLeg c15 1 q2 (-1 / 10) (17 / 100), leicaLeg c15 2 q2 (-1 / 10) (17 / 100),
   leicaLeg c15 3 q3 (-1 / 10) (-17 / 100),
   { (Marker.new : Marker K) with
     id := 4, type := .cylinder, scale := ⟨1 / 5, 1 / 5, 3 / 10⟩, color := ⟨1 / 2, 1 / 2, 1 / 2, 1⟩
     position := ⟨0, 0, 0⟩, orientation := ⟨1, 0, 0, 0⟩ }]

/-! ### ros_visualization.cpp -/

/-- The fields of `mav_msgs::EigenTrajectoryPoint` that drawing uses. -/
structure TPoint (K : Type) where
  position : Vec3 K
  velocity : Vec3 K
  acceleration : Vec3 K
  orientation : Quat K
  timeNs : ℤ
  deriving DecidableEq, Repr

/-- ros_visualization.cpp:33-44, `appendMarkers`. -/
def appendMarkers (ins : List (Marker K)) (ns : String) (out : List (Marker K)) : List (Marker K) :=
  ins.foldl (fun o m => o ++ [if ns ≠ "" then { m with ns := ns } else m]) out

/-- The loop of `setMarkerProperties` with `count` markers done. -/
def setPropertiesLoop (h : Header K) (lifetime : K) (action : ℤ) : ℤ → List (Marker K) → List (Marker K)
  | _, [] => []
  | count, m :: ms =>
    { m with header := h, action := action, id := count, lifetime := lifetime } ::
      setPropertiesLoop h lifetime action (count + 1) ms

/-- ros_visualization.cpp:47-59, `setMarkerProperties`. -/
def setMarkerProperties (h : Header K) (lifetime : K) (action : ℤ) (ms : List (Marker K)) : List (Marker K) :=
  setPropertiesLoop h lifetime action 0 ms

/-- ros_visualization.cpp:149-180, the markers drawn at a point of the path, appended to `out`. `conv` is the
position that `EigenMavStateFromEigenTrajectoryPoint` (mav_msgs, not part of the repository) writes into the
state; its orientation is overwritten (line 152). -/
def drawPose [DecidableEq K] (conv : TPoint K → Vec3 K) (extra : List (Marker K)) (p : TPoint K)
    (out : List (Marker K)) : Res (List (Marker K)) := do
  let statePosition := conv p
  let axes := drawAxesArrows statePosition p.orientation (3 / 10) (3 / 10)
  let out := appendMarkers axes "pose" out
  let arrow := drawArrowPoints p.position (p.position.add p.acceleration)
    ⟨190 / 255, 81 / 255, 80 / 255, 1⟩ (3 / 10) (Marker.new : Marker K)
  let ns ← positionDerivativeToString 2
  let arrow := { arrow with ns := ns }
  let out := out ++ [arrow]
  let arrow := drawArrowPoints p.position (p.position.add p.velocity)
    ⟨80 / 255, 172 / 255, 196 / 255, 1⟩ (3 / 10) arrow
  let ns ← positionDerivativeToString 1
  let arrow := { arrow with ns := ns }
  let out := out ++ [arrow]
  let tmp := transformGroup statePosition p.orientation extra
  pure (getMarkers tmp out 1 true)

end Field

section Order
variable [Field K] [LinearOrder K]

/-- ros_visualization.cpp:144-186, the loop over the points: accumulated distance, last position, markers drawn
and points of the line. -/
def drawLoop (sq : K → K) (conv : TPoint K → Vec3 K) (extra : List (Marker K)) (distance : K) :
    List (TPoint K) → K → Vec3 K → List (Marker K) → List (Vec3 K) → Res (List (Marker K) × List (Vec3 K))
  | [], _, _, out, line => .ok (out, line)
  | p :: ps, acc, last, out, line =>
    let acc := acc + (last.sub p.position).norm sq
    if acc > distance then do
      let out ← drawPose conv extra p out
      drawLoop sq conv extra distance ps 0 p.position out (line ++ [p.position])
    else drawLoop sq conv extra distance ps acc p.position out (line ++ [p.position])

/-- ros_visualization.cpp:128-194, `drawMavSampledTrajectoryWithMavMarker`. What the array held before is
cleared and does not matter. -/
def drawSampledWithMarker (sq : K → K) (conv : TPoint K → Vec3 K) (now : K) (points : List (TPoint K))
    (distance : K) (frame : String) (extra : List (Marker K)) : Res (List (Marker K)) := do
  let (out, line) ← drawLoop sq conv extra distance points 0 .zero [] []
  let strip : Marker K :=
    { (Marker.new : Marker K) with
      type := .lineStrip, color := ⟨1, 1 / 2, 0, 1⟩, scale := ⟨1 / 100, 0, 0⟩, ns := "path", points := line }
  pure (setMarkerProperties ⟨frame, now⟩ 0 0 (out ++ [strip]))

/-- ros_visualization.cpp:101-109, `drawMavSampledTrajectory`. -/
def drawSampled (sq : K → K) (conv : TPoint K → Vec3 K) (now : K) (points : List (TPoint K)) (distance : K)
    (frame : String) : Res (List (Marker K)) :=
  drawSampledWithMarker sq conv now points distance frame []

variable [FloorRing K]

/-- `(uint32_t)(dt * 1e9)`: truncation, undefined when the result does not fit. -/
def toUint32Ns (dt : K) : Res ℕ :=
  let x := dt * 10 ^ 9
  if x ≤ -1 ∨ (2 ^ 32 : K) ≤ x then .ub else .ok ⌊x⌋.toNat

/-- The conversion of an `int64_t` to `uint32_t`. -/
def asUint32 (t : ℤ) : ℕ := (t % 2 ^ 32).toNat

/-- ros_visualization.cpp:82-90, the loop of `drawMavSampledTrajectorybyTime` over the points between the first
and the last one; `uint32_t` arithmetic is modulo 2^32. -/
def filterByTime (dtNs : ℕ) : List (TPoint K) → ℕ → List (TPoint K)
  | [], _ => []
  | p :: ps, last =>
    let current := asUint32 p.timeNs
    if (current + 2 ^ 32 - last) % 2 ^ 32 ≥ dtNs then p :: filterByTime dtNs ps current
    else filterByTime dtNs ps last

/-- ros_visualization.cpp:74-98, `drawMavSampledTrajectorybyTime`; `front()` of an empty vector is undefined. -/
def drawSampledByTime (sq : K → K) (conv : TPoint K → Vec3 K) (now : K) (points : List (TPoint K)) (dt : K)
    (frame : String) : Res (List (Marker K)) := do
  let dtNs ← toUint32Ns dt
  let first ← Res.at' points 0
  let inner := filterByTime dtNs (points.drop 1).dropLast 0
  let last ← Res.at' points (points.length - 1)
  drawSampledWithMarker sq conv now ([first] ++ inner ++ [last]) 0 frame []

/-- The three numbers of an Eigen vector of size 3. -/
def vec3Of (l : List K) : Res (Vec3 K) :=
  match l with
  | [x, y, z] => .ok ⟨x, y, z⟩
  | _ => .ub

/-- A sampled state as the point that is drawn; `att` is the orientation that the setters of mav_msgs produce
from what they are called with. -/
def pointOf (att : Attitude K → Quat K) (s : State K) : Res (TPoint K) := do
  let p ← vec3Of s.position
  let v ← vec3Of s.velocity
  let a ← vec3Of s.acceleration
  pure ⟨p, v, a, att s.attitude, s.timeNs⟩

variable [IsStrictOrderedRing K]

/-- ros_visualization.cpp:111-126 (and 65-72 with no additional markers), `drawMavTrajectoryWithMavMarker`: what
the array holds afterwards. `kDefaultSamplingTime` is 0.1; `old` is what it held before. -/
def drawTrajectory (fuel : ℕ) (sq : K → K) (conv : TPoint K → Vec3 K) (att : Attitude K → Quat K) (now : K)
    (tr : Trajectory K) (distance : K) (frame : String) (extra : List (Marker K)) (old : List (Marker K)) :
    Res (List (Marker K)) := do
  let r ← sampleWholeTrajectory fuel tr (1 / 10)
  match r with
  | none => pure old
  | some states => do
    let points ← states.mapM (pointOf att)
    drawSampledWithMarker sq conv now points distance frame extra

/-- ros_visualization.cpp:207-222, the loop of `drawVertices`: the points of the marker, and whether the loop
ran to its end. -/
def drawVerticesLoop : List (Vertex K) → List (Vec3 K) → Res (List (Vec3 K) × Bool)
  | [], pts => .ok (pts, true)
  | v :: vs, pts =>
    if v.D ≠ 3 then .ok (pts, false)
    else
      match v.getConstraint 0 with
      | none => drawVerticesLoop vs pts
      | some c => do
        let p ← vec3Of c
        drawVerticesLoop vs (pts ++ [p])

/-- ros_visualization.cpp:196-229, `drawVertices`; `old` is what the array held before (`resize(1)`). -/
def drawVertices (now : K) (vertices : List (Vertex K)) (frame : String) (old : List (Marker K)) :
    Res (List (Marker K)) := do
  let m := old.headD Marker.new
  let m := { m with
    type := .lineStrip, color := ⟨0, 1, 0, 1⟩, scale := { m.scale with x := 1 / 100 }, ns := "straight_path" }
  let (pts, done) ← drawVerticesLoop vertices m.points
  let m := { m with points := pts }
  if done then pure (setMarkerProperties ⟨frame, now⟩ 0 0 [m]) else pure [m]

/-- ros_visualization.cpp:243-248, the loop of `drawVerticesFromTrajectory`. -/
def startVertices (tr : Trajectory K) : List K → K → Res (List (Vertex K))
  | [], _ => .ok []
  | T :: Ts, t => do
    let v ← tr.getVertexAtTime t 0
    let vs ← startVertices tr Ts (t + T)
    pure (v :: vs)

/-- ros_visualization.cpp:231-254, `drawVerticesFromTrajectory`. -/
def drawVerticesFromTrajectory (now : K) (tr : Trajectory K) (frame : String) (old : List (Marker K)) :
    Res (List (Marker K)) :=
  if tr.getSegmentTimes = [] then .ok old
  else do
    let vs ← startVertices tr tr.getSegmentTimes 0
    let goal ← tr.getGoalVertex 0
    drawVertices now (vs ++ [goal]) frame old

end Order

end Verif
