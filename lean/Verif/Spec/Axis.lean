import Verif.Spec.Rotation
import Mathlib.Analysis.SpecialFunctions.Complex.Arg

/-!
# Specification: turning axes of any length
-/

namespace Tinyfk

/-- squared length -/
def Vec3.len2 (v : Vec3 ℝ) : ℝ := v.x ^ 2 + v.y ^ 2 + v.z ^ 2

/-- `v` times the number `c` -/
def Vec3.times (c : ℝ) (v : Vec3 ℝ) : Vec3 ℝ := ⟨c * v.x, c * v.y, c * v.z⟩

/-- a description whose turning axes are not the zero vector; rotations are unit quaternions, as the
parser makes them -/
def AxesNonzero (js : List (RawJoint ℝ)) : Prop :=
  ∀ j ∈ js, j.origin.rotation.norm2 = 1 ∧ ((j.type = .revolute ∨ j.type = .continuous) → j.axis.len2 ≠ 0)

/-- the joint with its turning axis scaled to length 1; a sliding axis is kept -/
noncomputable def RawJoint.withUnitAxis (j : RawJoint ℝ) : RawJoint ℝ :=
  if j.type = .revolute ∨ j.type = .continuous then { j with axis := j.axis.times (1 / Real.sqrt j.axis.len2) } else j

/-- the angle `φ` with `tan (φ / 2) = r * tan (a / 2)`, in the same quadrant: twice the angle of the
point `(cos (a / 2), r sin (a / 2))` -/
noncomputable def stretchedAngle (r a : ℝ) : ℝ :=
  2 * Complex.arg ⟨Real.cos (a / 2), r * Real.sin (a / 2)⟩

/-- `φ` are the angles by which the joints really turn at joint angles `θ` -/
def StretchedAngles (js : List (RawJoint ℝ)) (θ φ : String → ℝ) : Prop :=
  ∀ j ∈ js, φ j.name = if j.type = .revolute ∨ j.type = .continuous then
    stretchedAngle (Real.sqrt j.axis.len2) (θ j.name) else θ j.name

/-- `cos² (a / 2) + |k|² sin² (a / 2)`: how much slower the turn is than the column says -/
noncomputable def slowness (k : Vec3 ℝ) (a : ℝ) : ℝ := Real.cos (a / 2) ^ 2 + k.len2 * Real.sin (a / 2) ^ 2

end Tinyfk
