import Verif.Model.Urdf
import Verif.Spec.Chain

/-!
# Specification: robot descriptions and the pose of a named link

A description is a list of `<link>` elements and a list of `<joint>` elements. The pose of
a link is defined here by names only, without any of the library's data structures.
-/

namespace Tinyfk

open Scalar

variable {K : Type} [Scalar K]

/-- The joints form a tree: no link is the child of two joints, and there is no cycle (every
link can be given a height so that joints go upwards). -/
structure IsTree (js : List (RawJoint K)) : Prop where
  oneParent : (js.map RawJoint.childLinkName).Nodup
  acyclic : ∃ height : String → Nat, ∀ j ∈ js, height j.parentLinkName < height j.childLinkName

/-- All joints have a type the library supports. -/
def Supported (js : List (RawJoint K)) : Prop := ∀ j ∈ js, j.type = .fixed ∨ j.type.Movable

/-- A link welded to another link: name, name of the carrier, offset. -/
structure Weld (K : Type) where
  name : String
  carrier : String
  offset : Pose K

/-- The extra link the library makes for a link with an `<inertial>` element: called
`<name>_com`, at the position of the inertial origin, without rotation. -/
inductive ComWeld (ls : List (RawLink K)) : Weld K → Prop
  | mk {l : RawLink K} {i : Inertial K} : l ∈ ls → l.inertial = some i →
      ComWeld ls ⟨l.name ++ "_com", l.name, ⟨i.origin.position, Rot.one⟩⟩

/-- The displacement of a joint at angle `θ`: revolute and continuous joints turn about
their axis, prismatic joints slide along it, fixed joints do nothing. `T` is the transform
from parent link to child link. -/
inductive RawEdge (j : RawJoint K) (θ : K) : Pose K → Prop
  | fixed : j.type = .fixed → RawEdge j θ j.origin
  | rot : j.type = .revolute ∨ j.type = .continuous →
      RawEdge j θ (Pose.transform j.origin
        ⟨Vec3.zero, ⟨j.axis.x * sin (θ * half), j.axis.y * sin (θ * half),
          j.axis.z * sin (θ * half), cos (θ * half)⟩⟩)
  | slide : j.type = .prismatic →
      RawEdge j θ (Pose.transform j.origin
        ⟨⟨j.axis.x * θ, j.axis.y * θ, j.axis.z * θ⟩, Rot.one⟩)

/-- `WorldPose ls js welds θ base n T`: in the robot described by `ls` and `js`, extended by
the links `welds`, with joint `s` at angle `θ s` and the root at `base`, the pose of the link
named `n` is `T`. -/
inductive WorldPose (ls : List (RawLink K)) (js : List (RawJoint K)) (welds : Weld K → Prop)
    (θ : String → K) (base : Pose K) : String → Pose K → Prop
  | root {l : RawLink K} : l ∈ ls → (∀ j ∈ js, j.childLinkName ≠ l.name) →
      WorldPose ls js welds θ base l.name base
  | joint {j : RawJoint K} {B T : Pose K} : j ∈ js →
      WorldPose ls js welds θ base j.parentLinkName B → RawEdge j (θ j.name) T →
      WorldPose ls js welds θ base j.childLinkName (Pose.transform B T)
  | weld {w : Weld K} {B : Pose K} : welds w → WorldPose ls js welds θ base w.carrier B →
      WorldPose ls js welds θ base w.name (Pose.transform B w.offset)

/-- `LinkDepth ls js welds n d`: `d` joints and welds lie between the root and the link `n`. -/
inductive LinkDepth (ls : List (RawLink K)) (js : List (RawJoint K)) (welds : Weld K → Prop) :
    String → Nat → Prop
  | root {l : RawLink K} : l ∈ ls → (∀ j ∈ js, j.childLinkName ≠ l.name) →
      LinkDepth ls js welds l.name 0
  | joint {j : RawJoint K} {d : Nat} : j ∈ js → LinkDepth ls js welds j.parentLinkName d →
      LinkDepth ls js welds j.childLinkName (d + 1)
  | weld {w : Weld K} {d : Nat} : welds w → LinkDepth ls js welds w.carrier d →
      LinkDepth ls js welds w.name (d + 1)

/-- `JointOnPath ls js welds s n`: joint `s` lies between the root and the link named `n`. -/
inductive JointOnPath (js : List (RawJoint K)) (welds : Weld K → Prop) (s : String) :
    String → Prop
  | here {j : RawJoint K} : j ∈ js → j.name = s → JointOnPath js welds s j.childLinkName
  | up {j : RawJoint K} : j ∈ js → JointOnPath js welds s j.parentLinkName →
      JointOnPath js welds s j.childLinkName
  | weld {w : Weld K} : welds w → JointOnPath js welds s w.carrier → JointOnPath js welds s w.name

end Tinyfk
