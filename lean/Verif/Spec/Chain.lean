import Verif.Model.Kin

/-!
# Specification: the pose of a link

What `get_link_pose` should return, said without cache, stack or loops: the base pose at
the root, and at every other link the parent's pose composed with the edge. The relations
only look at the tree (links and joints), the joint angles and the base pose. They use the
same scalar operations in the same order as the library, so agreement is bit for bit.
-/

namespace Tinyfk

open Scalar

variable {K : Type} [Scalar K]

/-- The displacement of a movable joint whose angle (or displacement) is `θ`. -/
inductive JointMotion (j : Joint K) (θ : K) : Pose K → Prop
  | rot : j.type = .revolute ∨ j.type = .continuous →
      JointMotion j θ ⟨Vec3.zero, ⟨j.axis.x * sin (θ * half), j.axis.y * sin (θ * half),
        j.axis.z * sin (θ * half), cos (θ * half)⟩⟩
  | slide : j.type = .prismatic →
      JointMotion j θ ⟨⟨j.axis.x * θ, j.axis.y * θ, j.axis.z * θ⟩, Rot.one⟩

/-- The transform from parent link to child link across joint `j`, when the vector of
joint angles is `angles`. -/
inductive EdgeTf (angles : List K) (j : Joint K) : Pose K → Prop
  | fixed : j.type = .fixed → EdgeTf angles j j.origin
  | movable {i : Nat} {θ : K} {M : Pose K} : j.id = some i → angles[i]? = some θ →
      JointMotion j θ M → EdgeTf angles j (Pose.transform j.origin M)

/-- `IsPose m l T`: the pose of link `l` in the world is `T`. -/
inductive IsPose (m : KinModel K) : Nat → Pose K → Prop
  | root {l : Nat} {lk : Link K} : m.links[l]? = some lk → lk.parent = none →
      IsPose m l m.base
  | child {l p jp : Nat} {lk : Link K} {j : Joint K} {T B : Pose K} :
      m.links[l]? = some lk → lk.parent = some p → lk.parentJoint = some jp →
      m.jheap[jp]? = some j → EdgeTf m.angles j T → IsPose m p B →
      IsPose m l (Pose.transform B T)

/-- `Depth m l n`: there are `n` edges between link `l` and the root. -/
inductive Depth (m : KinModel K) : Nat → Nat → Prop
  | root {l : Nat} {lk : Link K} : m.links[l]? = some lk → lk.parent = none → Depth m l 0
  | child {l p n : Nat} {lk : Link K} : m.links[l]? = some lk → lk.parent = some p →
      Depth m p n → Depth m l (n + 1)

/-- `OnPath m jp l`: the joint with pointer `jp` is on the path from the root to link `l`. -/
inductive OnPath (m : KinModel K) (jp : Nat) : Nat → Prop
  | here {l p : Nat} {lk : Link K} : m.links[l]? = some lk → lk.parent = some p →
      lk.parentJoint = some jp → OnPath m jp l
  | up {l p : Nat} {lk : Link K} : m.links[l]? = some lk → lk.parent = some p →
      OnPath m jp p → OnPath m jp l

/-- Movable joint types. -/
def JointType.Movable (t : JointType) : Prop :=
  t = .revolute ∨ t = .continuous ∨ t = .prismatic

instance (t : JointType) : Decidable t.Movable := by unfold JointType.Movable; infer_instance

end Tinyfk
