import Mathlib.Analysis.Calculus.Deriv.Basic
import Verif.Model.Real
import Verif.Model.Wrapper
import Verif.Spec.Repeated

/-!
# Derivatives of vectors, quaternions and poses

The words used in the statements about Jacobians (C25-C29, C31, C36).
-/

namespace Tinyfk

/-- `f'` is the derivative of the vector-valued function `f` at `t` -/
def Vec3.HasDeriv (f : ℝ → Vec3 ℝ) (f' : Vec3 ℝ) (t : ℝ) : Prop :=
  HasDerivAt (fun v => (f v).x) f'.x t ∧ HasDerivAt (fun v => (f v).y) f'.y t ∧
    HasDerivAt (fun v => (f v).z) f'.z t

/-- `f'` is the derivative of the quaternion-valued function `f` at `t` -/
def Rot.HasDeriv (f : ℝ → Rot ℝ) (f' : Rot ℝ) (t : ℝ) : Prop :=
  HasDerivAt (fun v => (f v).x) f'.x t ∧ HasDerivAt (fun v => (f v).y) f'.y t ∧
    HasDerivAt (fun v => (f v).z) f'.z t ∧ HasDerivAt (fun v => (f v).w) f'.w t

/-- `T v` is what `get_link_pose(l)` returns after `set_joint_angles([i], [v])` in state `m`. -/
def PoseCurve (m : KinModel ℝ) (l i : Nat) (T : ℝ → Pose ℝ) : Prop :=
  ∀ v, ∃ m1 m2, setJointAngles [i] [v] m = .ok () m1 ∧ getLinkPose l m1 = .ok (T v) m2

/-- the row of numbers that is reported for a pose: position, then nothing, roll-pitch-yaw or quaternion -/
noncomputable def Pose.row (rt : RotType) (T : Pose ℝ) : Nat → ℝ
  | 0 => T.position.x
  | 1 => T.position.y
  | 2 => T.position.z
  | r + 3 => match rt, r with
    | .rpy, 0 => T.rotation.getRPY.x
    | .rpy, 1 => T.rotation.getRPY.y
    | .rpy, 2 => T.rotation.getRPY.z
    | .xyzw, 0 => T.rotation.x
    | .xyzw, 1 => T.rotation.y
    | .xyzw, 2 => T.rotation.z
    | .xyzw, 3 => T.rotation.w
    | _, _ => 0

/-- `f b` is what `get_link_pose(l)` returns after `set_base_pose(b)` in state `m`, `b` being a vector of
six numbers -/
def BaseCurve (m : KinModel ℝ) (l : Nat) (f : ℝ → ℝ → ℝ → ℝ → ℝ → ℝ → Pose ℝ) : Prop :=
  ∀ x y z r p w, ∃ m1 m2, setBasePoseVec [x, y, z, r, p, w] m = .ok () m1 ∧ getLinkPose l m1 = .ok (f x y z r p w) m2

end Tinyfk
