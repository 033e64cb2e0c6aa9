import Verif.Model.Outcome
import Verif.Model.Pose

/-!
# The parsed robot description

Models `urdf_parser/include/urdf_model/{link,joint,model}.h` and the part of
`urdf_parser/src/model.cpp` (`parseURDF`) that works on already parsed `<link>` and
`<joint>` elements. Turning XML text into those elements is modelled separately.

Shared pointers are modelled as indices: a link pointer is the position of the link in
the list of all links (in `std::map` order, i.e. sorted by name), a joint pointer is the
position in the joint heap.
-/

namespace Tinyfk

open Scalar

/-- joint.h:168-178 the `type` enum -/
inductive JointType where
  | unknown | revolute | continuous | prismatic | floating | planar | fixed
  deriving DecidableEq, Repr

/-- joint.h `class JointLimits` -/
structure JointLimits (K : Type) where
  lower : K
  upper : K
  effort : K
  velocity : K
  deriving DecidableEq, Repr

/-- link.h `class Inertial` -/
structure Inertial (K : Type) where
  origin : Pose K
  mass : K
  ixx : K
  ixy : K
  ixz : K
  iyy : K
  iyz : K
  izz : K
  deriving DecidableEq, Repr

/-- joint.h:159-273 `class Joint`, restricted to the members the library reads. `id` is
an `unsigned int` that stays uninitialised until the constructor numbers the joint. -/
structure Joint (K : Type) where
  name : String
  type : JointType
  axis : Vec3 K
  /-- `parent_to_joint_origin_transform` -/
  origin : Pose K
  parentLinkName : String
  childLinkName : String
  limits : Option (JointLimits K)
  /-- `id`; `none` = uninitialised -/
  id : Option Nat
  /-- `child_link_` weak pointer -/
  childLink : Option Nat

/-- link.h `class Link`, restricted to the members the library reads. -/
structure Link (K : Type) where
  name : String
  /-- `unsigned int id`, `-1` before numbering -/
  id : Nat
  inertial : Option (Inertial K)
  /-- `parent_link_` weak pointer -/
  parent : Option Nat
  /-- `parent_joint` -/
  parentJoint : Option Nat
  /-- `child_joints` -/
  childJoints : List Nat
  /-- `child_links` -/
  childLinks : List Nat

variable {K : Type} [Scalar K]

/-- joint.h:227-253 `Joint::transform(angle)`; it throws for the other joint types -/
def Joint.transform (j : Joint K) (angle : K) : Outcome (Pose K) :=
  match j.type with
  | .revolute | .continuous =>
    .ok ⟨Vec3.zero, ⟨j.axis.x * sin (angle * half), j.axis.y * sin (angle * half),
      j.axis.z * sin (angle * half), cos (angle * half)⟩⟩
  | .prismatic => .ok ⟨⟨j.axis.x * angle, j.axis.y * angle, j.axis.z * angle⟩, Rot.one⟩
  | .fixed => .ok Pose.identity
  | _ => .exn (.runtimeError "unsupported joint detected")

/-- link.h:233 `id = -1` as `unsigned int` -/
def unsetLinkId : Nat := 4294967295

/-- A `<link>` element after `parseLink` (link.cpp:415-486): name and inertial. -/
structure RawLink (K : Type) where
  name : String
  inertial : Option (Inertial K)

/-- A `<joint>` element after `parseJoint` (joint.cpp:337-523). -/
structure RawJoint (K : Type) where
  name : String
  type : JointType
  axis : Vec3 K
  origin : Pose K
  parentLinkName : String
  childLinkName : String
  limits : Option (JointLimits K)

/-- link.h:230-243 a fresh `Link` carrying the parsed fields -/
def RawLink.toLink (l : RawLink K) : Link K :=
  ⟨l.name, unsetLinkId, l.inertial, none, none, [], []⟩

/-- joint.h a fresh `Joint` carrying the parsed fields -/
def RawJoint.toJoint (j : RawJoint K) : Joint K :=
  ⟨j.name, j.type, j.axis, j.origin, j.parentLinkName, j.childLinkName, j.limits, none, none⟩

/-- model.h `class ModelInterface`: `links_` and `joints_` are `std::map`s from names,
modelled as lists sorted by name; `rootLink` is the position of `root_link_`. -/
structure ModelInterface (K : Type) where
  links : List (Link K)
  joints : List (Joint K)
  rootLink : Nat

/-- `std::map::insert` of a fresh key, on a list sorted by `key` -/
def insertSorted {α : Type} (key : α → String) (a : α) : List α → List α
  | [] => [a]
  | b :: l => if key a < key b then a :: b :: l else b :: insertSorted key a l

/-- Insert all elements in document order; `none` when a name repeats
(model.cpp:169-204 for links, 212-237 for joints: `getLink(name)` / `getJoint(name)`
non-null resets the model). -/
def insertAll {α : Type} (key : α → String) : List α → List α → Option (List α)
  | acc, [] => some acc
  | acc, a :: l =>
    if acc.any (fun b => key b == key a) then none
    else insertAll key (insertSorted key a acc) l

/-- model.h:91-100 `getLink(name)`: position of the link, if any -/
def findLink (links : List (Link K)) (name : String) : Option Nat :=
  links.findIdx? (fun l => l.name == name)

/-- model.h:113-156 the body of the loop of `initTree` for joint number `j`; `none` is a
thrown `ParseError`. -/
def initTreeStep (links : List (Link K)) (j : Nat) (jt : Joint K) : Option (List (Link K)) :=
  if jt.parentLinkName = "" ∨ jt.childLinkName = "" then none
  else
    match findLink links jt.childLinkName with
    | none => none
    | some c =>
      match findLink links jt.parentLinkName with
      | none => none
      | some p =>
        let links := links.modify c fun l => { l with parent := some p, parentJoint := some j }
        let links := links.modify p fun l =>
          { l with childJoints := l.childJoints ++ [j], childLinks := l.childLinks ++ [c] }
        some links

/-- model.h:113-156 `initTree`: loop over the joints in `std::map` order, starting with
joint number `j`. -/
def initTree (links : List (Link K)) (j : Nat) : List (Joint K) → Option (List (Link K))
  | [] => some links
  | jt :: js =>
    match initTreeStep links j jt with
    | none => none
    | some links' => initTree links' (j + 1) js

/-- model.h:158-184 `initRoot`. The code looks the link up in `parent_link_tree`, which
has an entry exactly for the links whose parent was set in `initTree`, so the model tests
`parent`. `none` is a `ParseError`: no root or two roots. -/
def initRoot (links : List (Link K)) : Option Nat :=
  match (List.range links.length).filter (fun i => (links[i]?.bind Link.parent).isNone) with
  | [r] => some r
  | _ => none

/-- model.cpp:168-269 from parsed elements in document order to the model; `none` is the
null pointer. -/
def buildModel (ls : List (RawLink K)) (js : List (RawJoint K)) : Option (ModelInterface K) :=
  match insertAll Link.name [] (ls.map RawLink.toLink) with
  | none => none
  | some links =>
    if links.isEmpty then none
    else
      match insertAll Joint.name [] (js.map RawJoint.toJoint) with
      | none => none
      | some joints =>
        match initTree links 0 joints with
        | none => none
        | some links' =>
          match initRoot links' with
          | none => none
          | some r => some ⟨links', joints, r⟩

end Tinyfk
