import Verif.Model.Xml

/-!
# Writing a robot description, and reading a file

Models the `export…` functions of `urdf_parser/src/{pose,link,joint,model}.cpp` and
`load_urdf` of `src/tinyfk.cpp`.

Writing one `double` to a `stringstream` (pose.cpp:47-58) is a parameter `fmt`: it is
libstdc++'s number writer, with the default of six significant digits.
-/

namespace Tinyfk

variable {K : Type} [Scalar K]

/-- pose.cpp:59-66 `values2str(Vector3)` -/
def vecStr (fmt : K → String) (v : Vec3 K) : String := fmt v.x ++ " " ++ fmt v.y ++ " " ++ fmt v.z

/-- pose.cpp:73-81 `values2str(Color)` -/
def colorStr (fmt : K → String) (c : K × K × K × K) : String :=
  fmt c.1 ++ " " ++ fmt c.2.1 ++ " " ++ fmt c.2.2.1 ++ " " ++ fmt c.2.2.2

/-- pose.cpp:128-137 `exportPose`; the rotation is written by `values2str(Rotation)`, pose.cpp:67-72 -/
def exportPose (fmt : K → String) (p : Pose K) : Elem :=
  .mk "origin" [("xyz", vecStr fmt p.position), ("rpy", vecStr fmt p.rotation.getRPY)] []

/-- link.cpp:491-507 `exportMaterial` -/
def exportMaterial (fmt : K → String) (m : Material K) : Elem :=
  .mk "material" [("name", m.name)]
    [.mk "texture" (if m.texture = "" then [] else [("filename", m.texture)]) [],
     .mk "color" [("rgba", colorStr fmt m.color)] []]

/-- link.cpp:509-578 `exportSphere`, `exportBox`, `exportCylinder`, `exportMesh`, `exportGeometry`
(a parsed visual always has a geometry) -/
def exportGeometry (fmt : K → String) (g : Geometry K) : Elem :=
  .mk "geometry" []
    [match g with
     | .sphere r => .mk "sphere" [("radius", fmt r)] []
     | .box d => .mk "box" [("size", vecStr fmt d)] []
     | .cylinder l r => .mk "cylinder" [("radius", fmt r), ("length", fmt l)] []
     | .mesh f s =>
       .mk "mesh" ((if f = "" then [] else [("filename", f)]) ++ [("scale", vecStr fmt s)]) []]

/-- link.cpp:580-608 `exportInertial` -/
def exportInertial (fmt : K → String) (i : Inertial K) : Elem :=
  .mk "inertial" []
    [.mk "mass" [("value", fmt i.mass)] [],
     exportPose fmt i.origin,
     .mk "inertia" [("ixx", fmt i.ixx), ("ixy", fmt i.ixy), ("ixz", fmt i.ixz), ("iyy", fmt i.iyy),
       ("iyz", fmt i.iyz), ("izz", fmt i.izz)] []]

/-- link.cpp:610-631 `exportVisual` (the name is not written) -/
def exportVisual (fmt : K → String) (v : Visual K) : Elem :=
  .mk "visual" [] ([exportPose fmt v.origin, exportGeometry fmt v.geometry]
    ++ (v.material.map (exportMaterial fmt)).toList)

/-- link.cpp:633-652 `exportCollision` (the name is not written) -/
def exportCollision (fmt : K → String) (c : Collision K) : Elem :=
  .mk "collision" [] [exportPose fmt c.origin, exportGeometry fmt c.geometry]

/-- link.cpp:654-669 `exportLink` -/
def exportLink (fmt : K → String) (l : XLink K) : Elem :=
  .mk "link" [("name", l.name)]
    ((l.inertial.map (exportInertial fmt)).toList ++ l.visuals.map (exportVisual fmt)
      ++ l.collisions.map (exportCollision fmt))

/-- joint.cpp:529-537 `exportJointDynamics` -/
def exportDynamics (fmt : K → String) (d : JointDynamics K) : Elem :=
  .mk "dynamics" [("damping", fmt d.damping), ("friction", fmt d.friction)] []

/-- joint.cpp:539-548 `exportJointLimits` -/
def exportLimits (fmt : K → String) (l : JointLimits K) : Elem :=
  .mk "limit" [("effort", fmt l.effort), ("velocity", fmt l.velocity), ("lower", fmt l.lower),
    ("upper", fmt l.upper)] []

/-- joint.cpp:550-559 `exportJointSafety` -/
def exportSafety (fmt : K → String) (s : JointSafety K) : Elem :=
  .mk "safety_controller" [("k_position", fmt s.kPosition), ("k_velocity", fmt s.kVelocity),
    ("soft_lower_limit", fmt s.softLowerLimit), ("soft_upper_limit", fmt s.softUpperLimit)] []

/-- joint.cpp:561-574 `exportJointCalibration`: nothing is written without an edge -/
def exportCalibration (fmt : K → String) (c : JointCalibration K) : List Elem :=
  if c.falling.isSome || c.rising.isSome then
    [.mk "calibration" ((c.falling.map fun x => ("falling", fmt x)).toList
      ++ (c.rising.map fun x => ("rising", fmt x)).toList) []]
  else []

/-- joint.cpp:576-587 `exportJointMimic`: nothing is written without a joint name -/
def exportMimic (fmt : K → String) (m : JointMimic K) : List Elem :=
  if m.jointName = "" then []
  else [.mk "mimic" [("offset", fmt m.offset), ("multiplier", fmt m.multiplier), ("joint", m.jointName)] []]

/-- joint.cpp:593-606 the string written for a type; none for an unknown type -/
def typeStr : JointType → Option String
  | .planar => some "planar"
  | .floating => some "floating"
  | .revolute => some "revolute"
  | .continuous => some "continuous"
  | .prismatic => some "prismatic"
  | .fixed => some "fixed"
  | .unknown => none

/-- joint.cpp:589-638 `exportJoint`. The statement after the last `else` is the next one that
is not a comment, `exportPose(joint.parent_to_joint_origin_transform, …)` (joint.cpp:607-611),
so **the origin is written only for a joint of unknown type**. -/
def exportJoint (fmt : K → String) (j : XJoint K) : Elem :=
  .mk "joint" ([("name", j.name)] ++ ((typeStr j.type).map fun s => ("type", s)).toList)
    ((if j.type = .unknown then [exportPose fmt j.origin] else [])
      ++ [.mk "axis" [("xyz", vecStr fmt j.axis)] [],
          .mk "parent" [("link", j.parentLinkName)] [],
          .mk "child" [("link", j.childLinkName)] []]
      ++ (j.dynamics.map (exportDynamics fmt)).toList
      ++ (j.limits.map (exportLimits fmt)).toList
      ++ (j.safety.map (exportSafety fmt)).toList
      ++ (j.calibration.map (exportCalibration fmt)).getD []
      ++ (j.mimic.map (exportMimic fmt)).getD [])

/-- model.cpp:275-304 `exportURDF`: the top-level elements of the document -/
def exportURDF (fmt : K → String) (r : Robot K) : List Elem :=
  [.mk "robot" [("name", r.name)]
    (r.materials.map (exportMaterial fmt) ++ r.links.map (exportLink fmt) ++ r.joints.map (exportJoint fmt))]

/-- tinyfk.cpp:285-296 the loop of `load_urdf` with `line` read so far by `std::getline`:
at a newline the line and "\n" are appended and the stream is still good; at the end of the
file the rest is appended with "\n" and the stream is no longer good. -/
def loadLoop (line : List Char) : List Char → List Char
  | [] => line ++ ['\n']
  | c :: cs => if c = '\n' then line ++ ['\n'] ++ loadLoop [] cs else loadLoop (line ++ [c]) cs

/-- tinyfk.cpp:285-296 `load_urdf` on the contents of the file; `none` is a file that cannot
be opened (the stream is not good, the loop body never runs). -/
def loadUrdf : Option (List Char) → List Char
  | none => []
  | some contents => loadLoop [] contents

end Tinyfk
