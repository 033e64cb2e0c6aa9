import Mathlib.Logic.ExistsUnique
import Mathlib.Data.List.Forall2
import Verif.Spec.Urdf
import Verif.Spec.XmlDoc
import Verif.Spec.Desc

/-!
# Specification: the text of a robot

A text that is well-formed XML and describes a robot the library supports, and what a configuration of
named joints is. Nothing here refers to the model of the code.
-/

namespace Tinyfk

variable {K : Type} [Scalar K]

/-- The text `t` is a URDF document for the robot with links `ls` and joints `js`: well-formed XML whose root element
`<robot>` has these `<link>` and `<joint>` children, which form a tree with the joint types the library supports. -/
structure RobotText (num : String → Option K) (t : List Char) (ls : List (RawLink K)) (js : List (RawJoint K)) : Prop where
  noNul : '\x00' ∉ t
  document : ∃ e : Elem, DocText t e ∧ e.name = "robot" ∧ (e.attr "name").isSome ∧
    (e.attr "version" = none ∨ e.attr "version" = some "1.0") ∧
    ((e.childrenNamed "material").map fun m => (m.attr "name").getD "").Nodup ∧
    List.Forall₂ (LinkSays num) (e.childrenNamed "link") ls ∧
    List.Forall₂ (fun x j => JointSays num x j ∧ ExtrasOk num x) (e.childrenNamed "joint") js
  linkNames : (ls.map RawLink.name).Nodup
  named : ∀ l ∈ ls, l.name ≠ ""
  jointNames : (js.map RawJoint.name).Nodup
  ends : ∀ j ∈ js, j.parentLinkName ∈ ls.map RawLink.name ∧ j.childLinkName ∈ ls.map RawLink.name
  oneRoot : ∃! r, r ∈ ls.map RawLink.name ∧ ∀ j ∈ js, j.childLinkName ≠ r
  tree : IsTree js
  supported : Supported js
  noClash : ∀ l ∈ ls, l.inertial.isSome → l.name ++ "_com" ∉ ls.map RawLink.name

/-- `θ` is the configuration `q` of the joints `names`: the listed joints have the listed values, the others are at 0. -/
structure ConfigSays (names : List String) (q : List K) (θ : String → K) : Prop where
  listed : ∀ (i : Nat) (n : String) (v : K), names[i]? = some n → q[i]? = some v → θ n = v
  others : ∀ n, n ∉ names → θ n = 0

end Tinyfk
