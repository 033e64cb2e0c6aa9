import Verif.Model.Real
import Verif.Spec.Desc
import Mathlib.LinearAlgebra.Matrix.Notation
import Mathlib.LinearAlgebra.UnitaryGroup

/-!
# Specification: textbook rotations and homogeneous transforms over ℝ

Nothing here is taken from the library: rotation matrices about the coordinate axes, Rodrigues'
formula, and the homogeneous matrix of a pose.
-/

namespace Tinyfk

open Matrix

/-- a vector as a column -/
def Vec3.toV (v : Vec3 ℝ) : Fin 3 → ℝ := ![v.x, v.y, v.z]

/-- rotation by `a` about the x axis -/
noncomputable def rotX (a : ℝ) : Matrix (Fin 3) (Fin 3) ℝ :=
  !![1, 0, 0; 0, Real.cos a, -Real.sin a; 0, Real.sin a, Real.cos a]
/-- rotation by `a` about the y axis -/
noncomputable def rotY (a : ℝ) : Matrix (Fin 3) (Fin 3) ℝ :=
  !![Real.cos a, 0, Real.sin a; 0, 1, 0; -Real.sin a, 0, Real.cos a]
/-- rotation by `a` about the z axis -/
noncomputable def rotZ (a : ℝ) : Matrix (Fin 3) (Fin 3) ℝ :=
  !![Real.cos a, -Real.sin a, 0; Real.sin a, Real.cos a, 0; 0, 0, 1]

/-- the matrix of `v ↦ k × v` -/
def crossMat (k : Vec3 ℝ) : Matrix (Fin 3) (Fin 3) ℝ :=
  !![0, -k.z, k.y; k.z, 0, -k.x; -k.y, k.x, 0]

/-- Rodrigues' formula: rotation by `a` about the unit vector `k` -/
noncomputable def rodrigues (k : Vec3 ℝ) (a : ℝ) : Matrix (Fin 3) (Fin 3) ℝ :=
  1 + Real.sin a • crossMat k + (1 - Real.cos a) • (crossMat k * crossMat k)

/-- homogeneous matrix with rotation part `R` and translation part `t` -/
def homog (R : Matrix (Fin 3) (Fin 3) ℝ) (t : Fin 3 → ℝ) : Matrix (Fin 4) (Fin 4) ℝ :=
  !![R 0 0, R 0 1, R 0 2, t 0; R 1 0, R 1 1, R 1 2, t 1; R 2 0, R 2 1, R 2 2, t 2; 0, 0, 0, 1]

/-- the rotation matrix of a quaternion: its columns are the images of the coordinate vectors -/
noncomputable def Rot.matrix (q : Rot ℝ) : Matrix (Fin 3) (Fin 3) ℝ :=
  Matrix.of fun i j => (q.rotate (match j with | 0 => ⟨1, 0, 0⟩ | 1 => ⟨0, 1, 0⟩ | 2 => ⟨0, 0, 1⟩)).toV i

/-- the homogeneous matrix of a pose -/
noncomputable def Pose.hom (T : Pose ℝ) : Matrix (Fin 4) (Fin 4) ℝ := homog T.rotation.matrix T.position.toV

/-- the axis is a unit vector -/
def Vec3.IsUnit (v : Vec3 ℝ) : Prop := v.x ^ 2 + v.y ^ 2 + v.z ^ 2 = 1

/-- a description as it comes out of the parser: rotations are unit quaternions; the axes of
turning joints are unit vectors -/
def UnitDesc (js : List (RawJoint ℝ)) : Prop :=
  ∀ j ∈ js, j.origin.rotation.norm2 = 1 ∧ ((j.type = .revolute ∨ j.type = .continuous) → j.axis.IsUnit)

/-- transform across a joint, as a homogeneous matrix -/
inductive HomEdge (j : RawJoint ℝ) (θ : ℝ) : Matrix (Fin 4) (Fin 4) ℝ → Prop
  | fixed : j.type = .fixed → HomEdge j θ j.origin.hom
  | rot : j.type = .revolute ∨ j.type = .continuous →
      HomEdge j θ (j.origin.hom * homog (rodrigues j.axis θ) 0)
  | slide : j.type = .prismatic → HomEdge j θ (j.origin.hom * homog 1 (θ • j.axis.toV))

/-- `HomPose ls js welds θ B n H`: textbook forward kinematics. The homogeneous matrix of link `n` is
the product of the base matrix and the matrices of the edges from the root to `n`. -/
inductive HomPose (ls : List (RawLink ℝ)) (js : List (RawJoint ℝ)) (welds : Weld ℝ → Prop)
    (θ : String → ℝ) (B : Matrix (Fin 4) (Fin 4) ℝ) : String → Matrix (Fin 4) (Fin 4) ℝ → Prop
  | root {l : RawLink ℝ} : l ∈ ls → (∀ j ∈ js, j.childLinkName ≠ l.name) → HomPose ls js welds θ B l.name B
  | joint {j : RawJoint ℝ} {P E : Matrix (Fin 4) (Fin 4) ℝ} : j ∈ js →
      HomPose ls js welds θ B j.parentLinkName P → HomEdge j (θ j.name) E →
      HomPose ls js welds θ B j.childLinkName (P * E)
  | weld {w : Weld ℝ} {P : Matrix (Fin 4) (Fin 4) ℝ} : welds w → HomPose ls js welds θ B w.carrier P →
      HomPose ls js welds θ B w.name (P * w.offset.hom)

end Tinyfk
