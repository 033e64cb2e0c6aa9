import Verif.Model.Urdf

/-!
# From XML elements to the robot description

Models `urdf_parser/src/{pose,link,joint,model}.cpp` and the string helpers of
`urdf_parser/include`, from the element tree TinyXML delivers to the `ModelInterface`.

`strToDouble` (utils.h:73-88) is a parameter `num`: it is libstdc++'s number reader, which is
not part of the repository. `none` is the `runtime_error` it throws.
-/

namespace Tinyfk

open Scalar

/-- A TinyXML element. Text, comments and declarations are dropped: the URDF parser only
follows `FirstChildElement` and `NextSiblingElement`, which skip them
(urdf_parser/tinyxml/tinyxml.cpp:452-510). -/
inductive Elem where
  | mk (name : String) (attrs : List (String × String)) (children : List Elem)

namespace Elem

/-- tinyxml.h `ValueStr()` -/
def name : Elem → String
  | mk n _ _ => n

/-- the attribute list -/
def attrs : Elem → List (String × String)
  | mk _ a _ => a

/-- the child elements in document order -/
def children : Elem → List Elem
  | mk _ _ c => c

/-- tinyxml.cpp `TiXmlElement::Attribute(name)`: the value of the first attribute of this
name, `none` for NULL -/
def attr (e : Elem) (k : String) : Option String := (e.attrs.find? (fun a => a.1 == k)).map (·.2)

/-- tinyxml.cpp `TiXmlNode::FirstChildElement(name)` -/
def firstChild (e : Elem) (n : String) : Option Elem := e.children.find? (fun c => c.name == n)

/-- the loop `for (c = FirstChildElement(n); c; c = c->NextSiblingElement(n))` -/
def childrenNamed (e : Elem) (n : String) : List Elem := e.children.filter (fun c => c.name == n)

end Elem

/-- utils.h:49-66 the loop of `split_string` seen from a position of the input: `cur` is
`input.substr(start, position - start)`, without separators. At a separator the piece is
pushed, even when empty; the last piece is pushed only when it is not empty
(`start < input.length()`). -/
def splitFrom (sep : Char → Bool) (cur : List Char) : List Char → List (List Char)
  | [] => if cur = [] then [] else [cur]
  | c :: cs => if sep c then cur :: splitFrom sep [] cs else splitFrom sep (cur ++ [c]) cs

/-- utils.h:49-66 `split_string(result, input, isAnyOf)` -/
def splitString (sep : Char → Bool) (s : List Char) : List (List Char) := splitFrom sep [] s

/-- C `isspace` in the C locale -/
def isCSpace (c : Char) : Bool :=
  c == ' ' || c == '\t' || c == '\n' || c == '\x0b' || c == '\x0c' || c == '\r'

/-- the value of a string of decimal digits -/
def digitsVal (ds : List Char) : Nat := ds.foldl (fun n c => 10 * n + (c.toNat - 48)) 0

/-- the optional sign of `strtol`: whether it is a minus, and the rest -/
def signOf : List Char → Bool × List Char
  | '-' :: t => (true, t)
  | '+' :: t => (false, t)
  | t => (false, t)

/-- `strtol(str, &end, 10)` for 64-bit `long`: optional white space, optional sign, digits;
the value saturates. The result is the value and the rest of the string at `end`; `none` when
no digits were found (`end == str`). -/
def strtol (s : List Char) : Option (Int × List Char) :=
  let sgn := signOf (s.dropWhile isCSpace)
  let ds := sgn.2.takeWhile Char.isDigit
  if ds = [] then none
  else
    let v : Int := digitsVal ds
    some (if sgn.1 then max (-v) (-9223372036854775808) else min v 9223372036854775807,
      sgn.2.dropWhile Char.isDigit)

/-- urdf_parser.h:98-128 `strToUnsigned`; `none` is a thrown `runtime_error`. The `long` is
returned as `uint32_t`, i.e. modulo 2^32. -/
def strToUnsigned (s : List Char) : Option Nat :=
  if s = [] then none
  else
    match strtol s with
    | none => none
    | some (v, rest) =>
      if rest ≠ [] then none
      else if v < 0 then none
      else some (v.toNat % 4294967296)

/-- urdf_parser.h:64-90 the constructor of `URDFVersion`; (major, minor) -/
def urdfVersion : Option String → Option (Nat × Nat)
  | none => some (1, 0)
  | some s =>
    match splitString (fun c => c == '.') s.toList with
    | [a, b] =>
      match strToUnsigned a with
      | none => none
      | some x =>
        match strToUnsigned b with
        | none => none
        | some y => some (x, y)
    | _ => none

/-- joint.h:50-61 `JointDynamics` -/
structure JointDynamics (K : Type) where
  damping : K
  friction : K

/-- joint.h:83-127 `JointSafety` -/
structure JointSafety (K : Type) where
  softUpperLimit : K
  softLowerLimit : K
  kPosition : K
  kVelocity : K

/-- joint.h:130-141 `JointCalibration`; `reference_position` is always 0 -/
structure JointCalibration (K : Type) where
  rising : Option K
  falling : Option K

/-- joint.h:143-157 `JointMimic` -/
structure JointMimic (K : Type) where
  offset : K
  multiplier : K
  jointName : String

/-- joint.h:160-273 all parsed members of `Joint` -/
structure XJoint (K : Type) where
  name : String
  type : JointType
  axis : Vec3 K
  origin : Pose K
  parentLinkName : String
  childLinkName : String
  dynamics : Option (JointDynamics K)
  limits : Option (JointLimits K)
  safety : Option (JointSafety K)
  calibration : Option (JointCalibration K)
  mimic : Option (JointMimic K)

/-- link.h:52-113 `Sphere`, `Box`, `Cylinder`, `Mesh` -/
inductive Geometry (K : Type) where
  | sphere (radius : K)
  | box (dim : Vec3 K)
  | cylinder (length radius : K)
  | mesh (filename : String) (scale : Vec3 K)

/-- link.h:115-129 `Material`, with the colour as (r, g, b, a). The colour components are
`float`s in the code; the rounding from `double` is left out. -/
structure Material (K : Type) where
  name : String
  texture : String
  color : K × K × K × K

/-- link.h:146-167 `Visual` -/
structure Visual (K : Type) where
  origin : Pose K
  geometry : Geometry K
  materialName : String
  material : Option (Material K)
  name : String

/-- link.h:169-186 `Collision` -/
structure Collision (K : Type) where
  origin : Pose K
  geometry : Geometry K
  name : String

/-- link.h:189-243 the parsed members of `Link`. `visual` and `collision` point to the first
entries of the arrays and are left out. -/
structure XLink (K : Type) where
  name : String
  inertial : Option (Inertial K)
  visuals : List (Visual K)
  collisions : List (Collision K)

variable {K : Type} [Scalar K]

/-- pose.h:70-92 `Vector3::init` (the exceptions are `none`): non-empty pieces, all numbers, three of them -/
def parseVec (num : String → Option K) (s : String) : Option (Vec3 K) :=
  match (((splitString (fun c => c == ' ') s.toList).filter (fun p => !p.isEmpty)).map String.ofList).mapM num with
  | some [x, y, z] => some ⟨x, y, z⟩
  | _ => none

/-- pose.cpp:96-126 `parsePose`: the pose as left by the call and the returned flag -/
def parsePose (num : String → Option K) (e : Elem) : Pose K × Bool :=
  let position : Option (Vec3 K) :=
    match e.attr "xyz" with
    | none => some Vec3.zero
    | some s => parseVec num s
  match position with
  | none => (Pose.identity, false)
  | some p =>
    match e.attr "rpy" with
    | none => (⟨p, Rot.one⟩, true)
    | some s =>
      match parseVec num s with
      | none => (⟨p, Rot.one⟩, false)
      | some r => (⟨p, Rot.fromRPY r.x r.y r.z⟩, true)

/-- `if (str == NULL) x = d; else try { x = strToDouble(str) } catch { return false; }` -/
def optNum (num : String → Option K) (e : Elem) (k : String) (d : K) : Option K :=
  match e.attr k with
  | none => some d
  | some s => num s

/-- `if (str == NULL) return false; else try { x = strToDouble(str) } catch { return false; }` -/
def reqNum (num : String → Option K) (e : Elem) (k : String) : Option K :=
  match e.attr k with
  | none => none
  | some s => num s

/-- joint.cpp:49-95 `parseJointDynamics` -/
def parseJointDynamics (num : String → Option K) (e : Elem) : Option (JointDynamics K) := do
  let damping ← optNum num e "damping" 0
  let friction ← optNum num e "friction" 0
  if (e.attr "damping").isNone && (e.attr "friction").isNone then none
  else some ⟨damping, friction⟩

/-- joint.cpp:97-166 `parseJointLimits` -/
def parseJointLimits (num : String → Option K) (e : Elem) : Option (JointLimits K) := do
  let lower ← optNum num e "lower" 0
  let upper ← optNum num e "upper" 0
  let effort ← reqNum num e "effort"
  let velocity ← reqNum num e "velocity"
  some ⟨lower, upper, effort, velocity⟩

/-- joint.cpp:168-239 `parseJointSafety` -/
def parseJointSafety (num : String → Option K) (e : Elem) : Option (JointSafety K) := do
  let lo ← optNum num e "soft_lower_limit" 0
  let up ← optNum num e "soft_upper_limit" 0
  let kp ← optNum num e "k_position" 0
  let kv ← reqNum num e "k_velocity"
  some ⟨up, lo, kp, kv⟩

/-- joint.cpp:241-282 an attribute of `parseJointCalibration`: absent leaves a null pointer -/
def calNum (num : String → Option K) (e : Elem) (k : String) : Option (Option K) :=
  match e.attr k with
  | none => some none
  | some s => (num s).map some

/-- joint.cpp:241-282 `parseJointCalibration` -/
def parseJointCalibration (num : String → Option K) (e : Elem) : Option (JointCalibration K) := do
  let rising ← calNum num e "rising"
  let falling ← calNum num e "falling"
  some ⟨rising, falling⟩

/-- joint.cpp:284-335 `parseJointMimic` -/
def parseJointMimic (num : String → Option K) (e : Elem) : Option (JointMimic K) := do
  let joint ← e.attr "joint"
  let multiplier ← optNum num e "multiplier" 1
  let offset ← optNum num e "offset" 0
  some ⟨offset, multiplier, joint⟩

/-- joint.cpp:403-422 the type strings -/
def parseJointType (s : String) : Option JointType :=
  if s = "planar" then some .planar
  else if s = "floating" then some .floating
  else if s = "revolute" then some .revolute
  else if s = "continuous" then some .continuous
  else if s = "prismatic" then some .prismatic
  else if s = "fixed" then some .fixed
  else none

/-- joint.cpp:424-446 the axis. Without `<axis>` it is (1,0,0); `<axis>` without `xyz` leaves
the cleared vector (0,0,0). -/
def parseAxis (num : String → Option K) (t : JointType) (e : Elem) : Option (Vec3 K) :=
  if t = .floating ∨ t = .fixed then some Vec3.zero
  else
    match e.firstChild "axis" with
    | none => some ⟨1, 0, 0⟩
    | some a =>
      match a.attr "xyz" with
      | none => some Vec3.zero
      | some s => parseVec num s

/-- joint.cpp:353-367 the joint origin; a malformed one rejects the joint -/
def parseOrigin (num : String → Option K) (e : Elem) : Option (Pose K) :=
  match e.firstChild "origin" with
  | none => some Pose.identity
  | some o =>
    match parsePose num o with
    | (p, true) => some p
    | (_, false) => none

/-- joint.cpp:370-396 `<parent link=…>` and `<child link=…>`; the empty string if missing -/
def linkRef (e : Elem) (tag : String) : String :=
  match e.firstChild tag with
  | none => ""
  | some c => (c.attr "link").getD ""

/-- an optional child element: missing is fine, malformed rejects the joint -/
def optChild {α : Type} (e : Elem) (tag : String) (p : Elem → Option α) : Option (Option α) :=
  match e.firstChild tag with
  | none => some none
  | some c => (p c).map some

/-- joint.cpp:448-470 `<limit>`, required for revolute and prismatic joints -/
def parseLimit (num : String → Option K) (t : JointType) (e : Elem) : Option (Option (JointLimits K)) :=
  match e.firstChild "limit" with
  | some c => (parseJointLimits num c).map some
  | none => if t = .revolute then none else if t = .prismatic then none else some none

/-- joint.cpp:337-523 `parseJoint`; `none` is the result false, on which `parseURDF` gives up -/
def parseJoint (num : String → Option K) (e : Elem) : Option (XJoint K) := do
  let name ← e.attr "name"
  let origin ← parseOrigin num e
  let tstr ← e.attr "type"
  let t ← parseJointType tstr
  let axis ← parseAxis num t e
  let limits ← parseLimit num t e
  let safety ← optChild e "safety_controller" (parseJointSafety num)
  let calibration ← optChild e "calibration" (parseJointCalibration num)
  let mimic ← optChild e "mimic" (parseJointMimic num)
  let dynamics ← optChild e "dynamics" (parseJointDynamics num)
  some ⟨name, t, axis, origin, linkRef e "parent", linkRef e "child", dynamics, limits, safety, calibration, mimic⟩

/-- color.h:64-99 `Color::init`: `none` is a `ParseError`; `some none` is the result false
(not four components), which leaves the default colour. The components are kept as `float` (color.h:51-54, 80). -/
def parseColor (num : String → Option K) (s : String) : Option (Option (K × K × K × K)) :=
  let piece (p : String) : Option K :=
    match num p with
    | none => none
    | some x => if lt x 0 || lt 1 x then none else some (toFloat x)
  match (((splitString (fun c => c == ' ') s.toList).filter (fun p => !p.isEmpty)).map String.ofList).mapM piece with
  | none => none
  | some [r, g, b, a] => some (some (r, g, b, a))
  | some _ => some none

/-- color.h:58-62 `clear` -/
def Material.noColor : K × K × K × K := (0, 0, 0, 1)

/-- link.cpp:54-105 `parseMaterial`: the material as left by the call and the returned flag -/
def parseMaterial (num : String → Option K) (e : Elem) : Material K × Bool :=
  match e.attr "name" with
  | none => (⟨"", "", Material.noColor⟩, false)
  | some name =>
    let texture : Option String := (e.firstChild "texture").bind (·.attr "filename")
    let color : (K × K × K × K) × Bool :=
      match (e.firstChild "color").bind (·.attr "rgba") with
      | none => (Material.noColor, false)
      | some s =>
        match parseColor num s with
        | none => (Material.noColor, false)
        | some none => (Material.noColor, true)
        | some (some c) => (c, true)
    (⟨name, texture.getD "", color.1⟩, color.2 || texture.isSome)

/-- link.cpp:107-217 `parseSphere`, `parseBox`, `parseCylinder`, `parseMesh` and
link.cpp:219-267 `parseGeometry`; `none` is the null pointer -/
def parseGeometry (num : String → Option K) (g : Option Elem) : Option (Geometry K) :=
  match g with
  | none => none
  | some g =>
    match g.children with
    | [] => none
    | shape :: _ =>
      if shape.name = "sphere" then (reqNum num shape "radius").map .sphere
      else if shape.name = "box" then ((shape.attr "size").bind (parseVec num)).map .box
      else if shape.name = "cylinder" then do
        let l ← reqNum num shape "length"
        let r ← reqNum num shape "radius"
        some (.cylinder l r)
      else if shape.name = "mesh" then do
        let f ← shape.attr "filename"
        match shape.attr "scale" with
        | none => some (.mesh f ⟨1, 1, 1⟩)
        | some s => (parseVec num s).map (.mesh f)
      else none

/-- link.cpp:273-279 the origin of an `<inertial>` element -/
def inertialOrigin (num : String → Option K) (e : Elem) : Pose K × Bool :=
  match e.firstChild "origin" with
  | none => (Pose.identity, true)
  | some o => parsePose num o

/-- link.cpp:269-347 `parseInertial`: the inertial as left by the call and the returned flag -/
def parseInertial (num : String → Option K) (e : Elem) : Inertial K × Bool :=
  let origin := inertialOrigin num e
  let i0 : Inertial K := ⟨origin.1, 0, 0, 0, 0, 0, 0, 0⟩
  if origin.2 then
    match (e.firstChild "mass").bind (fun m => reqNum num m "value") with
    | none => (i0, false)
    | some mass =>
      let i1 : Inertial K := ⟨origin.1, mass, 0, 0, 0, 0, 0, 0⟩
      match e.firstChild "inertia" with
      | none => (i1, false)
      | some t =>
        match ["ixx", "ixy", "ixz", "iyy", "iyz", "izz"].mapM (reqNum num t) with
        | some [ixx, ixy, ixz, iyy, iyz, izz] => (⟨origin.1, mass, ixx, ixy, ixz, iyy, iyz, izz⟩, true)
        | _ => (i1, false)
  else (i0, false)

/-- link.cpp:349-384 `parseVisual`; `none` is the result false, on which the link drops it -/
def parseVisual (num : String → Option K) (e : Elem) : Option (Visual K) := do
  let origin ← parseOrigin num e
  let geometry ← parseGeometry num (e.firstChild "geometry")
  let name := (e.attr "name").getD ""
  match e.firstChild "material" with
  | none => some ⟨origin, geometry, "", none, name⟩
  | some m =>
    let mname ← m.attr "name"
    match parseMaterial num m with
    | (mat, true) => some ⟨origin, geometry, mname, some mat, name⟩
    | (_, false) => some ⟨origin, geometry, mname, none, name⟩

/-- link.cpp:386-413 `parseCollision` -/
def parseCollision (num : String → Option K) (e : Elem) : Option (Collision K) := do
  let origin ← parseOrigin num e
  let geometry ← parseGeometry num (e.firstChild "geometry")
  some ⟨origin, geometry, (e.attr "name").getD ""⟩

/-- link.cpp:437-454 and 462-478 the loops over `<visual>` and `<collision>`: what was parsed
before the first malformed one, and whether there was none -/
def parseWhile {α : Type} (p : Elem → Option α) : List Elem → List α × Bool
  | [] => ([], true)
  | e :: es =>
    match p e with
    | none => ([], false)
    | some a => (a :: (parseWhile p es).1, (parseWhile p es).2)

/-- link.cpp:415-486 `parseLink`: the link as left by the call and the returned flag -/
def parseLink (num : String → Option K) (e : Elem) : XLink K × Bool :=
  match e.attr "name" with
  | none => (⟨"", none, [], []⟩, false)
  | some name =>
    let inertial : Option (Inertial K) × Bool :=
      match e.firstChild "inertial" with
      | none => (none, true)
      | some i => (some (parseInertial num i).1, (parseInertial num i).2)
    if inertial.2 then
      let vs := parseWhile (parseVisual num) (e.childrenNamed "visual")
      if vs.2 then
        let cs := parseWhile (parseCollision num) (e.childrenNamed "collision")
        (⟨name, inertial.1, vs.1, cs.1⟩, cs.2)
      else (⟨name, inertial.1, vs.1, []⟩, false)
    else (⟨name, inertial.1, [], []⟩, false)

/-- model.cpp:64-89 `assignMaterial`: the visual and the materials afterwards -/
def assignMaterial (v : Visual K) (ms : List (Material K)) : Visual K × List (Material K) :=
  if v.materialName = "" then (v, ms)
  else
    match ms.find? (fun m => m.name == v.materialName) with
    | some m => (⟨v.origin, v.geometry, v.materialName, some m, v.name⟩, ms)
    | none =>
      match v.material with
      | some m => (v, insertSorted Material.name m ms)
      | none => (v, ms)

/-- model.cpp:186-193 the loop over the visuals of a link (the first visual is visited twice,
the second time without effect) -/
def assignMaterials : List (Visual K) → List (Material K) → List (Visual K) × List (Material K)
  | [], ms => ([], ms)
  | v :: vs, ms =>
    let a := assignMaterial v ms
    let b := assignMaterials vs a.2
    (a.1 :: b.1, b.2)

/-- model.cpp:168-205 the loop over the links: **the flag `parseLink` returns is not looked
at**. The links with their materials, and the materials. -/
def assignLinks : List (XLink K) → List (Material K) → List (XLink K) × List (Material K)
  | [], ms => ([], ms)
  | l :: ls, ms =>
    let a := assignMaterials l.visuals ms
    let b := assignLinks ls a.2
    (⟨l.name, l.inertial, a.1, l.collisions⟩ :: b.1, b.2)

/-- the members of `Link` the kinematics library reads -/
def XLink.toRaw (l : XLink K) : RawLink K := ⟨l.name, l.inertial⟩

/-- the members of `Joint` the kinematics library reads -/
def XJoint.toRaw (j : XJoint K) : RawJoint K :=
  ⟨j.name, j.type, j.axis, j.origin, j.parentLinkName, j.childLinkName, j.limits⟩

/-- model.h `ModelInterface` before the tree is built: name and the three maps, each sorted by name -/
structure Robot (K : Type) where
  name : String
  materials : List (Material K)
  links : List (XLink K)
  joints : List (XJoint K)

/-- model.cpp:91-270 `parseURDF` on the top-level elements of the document. The result is the
parsed robot and the model built from it; `none` is the null pointer. -/
def parseURDF (num : String → Option K) (doc : List Elem) : Option (Robot K × ModelInterface K) := do
  let robot ← doc.find? (fun e => e.name == "robot")
  let name ← robot.attr "name"
  let version ← urdfVersion (robot.attr "version")
  if version = (1, 0) then
    let materials ← insertAll Material.name [] ((robot.childrenNamed "material").map (fun e => (parseMaterial num e).1))
    let (ls, materials) := assignLinks ((robot.childrenNamed "link").map (fun e => (parseLink num e).1)) materials
    let links ← insertAll XLink.name [] ls
    let js ← (robot.childrenNamed "joint").mapM (parseJoint num)
    let joints ← insertAll XJoint.name [] js
    let m ← buildModel (ls.map XLink.toRaw) (js.map XJoint.toRaw)
    some (⟨name, materials, links, joints⟩, m)
  else none

end Tinyfk
