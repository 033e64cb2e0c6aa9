import Verif.Spec.Inertia

/-!
# Specification: the bodies a joint carries
-/

namespace Tinyfk

open Classical in
/-- The bodies of those links whose names satisfy `P`, in the order of the link names: the `<inertial>` element and the pose of the
link at joint angles `θ` and base pose `b`. -/
def BodiesWhere (P : String → Prop) (ls : List (RawLink ℝ)) (js : List (RawJoint ℝ)) (welds : Weld ℝ → Prop) (θ : String → ℝ)
    (b : Pose ℝ) (bs : List (Inertial ℝ × Pose ℝ)) : Prop :=
  ∃ sorted : List (RawLink ℝ), sorted.Perm ls ∧ (sorted.map RawLink.name).Pairwise (· < ·) ∧
    List.Forall₂ (fun r x => r.inertial = some x.1 ∧ WorldPose ls js welds θ b r.name x.2)
      ((sorted.filter fun r => r.inertial.isSome).filter fun r => decide (P r.name)) bs

/-- the velocity of a point at `p` that is carried by the joint `x` moving at unit speed, when the child link of `x` is at `C`: along the axis,
or turning about the axis through the origin of the child link -/
noncomputable def RawJoint.moves (x : RawJoint ℝ) (C : Pose ℝ) (p : Vec3 ℝ) : Vec3 ℝ :=
  if x.type = .prismatic then C.rotation.rotate x.axis else Vec3.cross (C.rotation.rotate x.axis) (Vec3.sub p C.position)

end Tinyfk
