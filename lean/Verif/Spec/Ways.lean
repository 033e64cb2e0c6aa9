import Verif.Spec.Rounding

/-!
# Specification: ways along the robot
-/

namespace Tinyfk

/-- `HangsOn js welds θ c n L`: the link named `n` hangs on the link named `c`, with joints and welds between them whose lengths add up to `L`
when the joints are at `θ`. -/
inductive HangsOn (js : List (RawJoint ℝ)) (welds : Weld ℝ → Prop) (θ : String → ℝ) (c : String) : String → ℝ → Prop
  | here : HangsOn js welds θ c c 0
  | joint {j : RawJoint ℝ} {L : ℝ} : j ∈ js → HangsOn js welds θ c j.parentLinkName L →
      HangsOn js welds θ c j.childLinkName (L + j.reach (θ j.name))
  | weld {w : Weld ℝ} {L : ℝ} : welds w → HangsOn js welds θ c w.carrier L → HangsOn js welds θ c w.name (L + w.offset.position.len)

/-- the place of the child link in the frame of the parent link: the origin, and for a sliding joint how far it is out along its axis,
turned by the rotation of the origin -/
noncomputable def RawJoint.place (j : RawJoint ℝ) (θ : ℝ) : Vec3 ℝ :=
  if j.type = .prismatic then Vec3.add (j.origin.rotation.rotate ⟨j.axis.x * θ, j.axis.y * θ, j.axis.z * θ⟩) j.origin.position
  else j.origin.position

end Tinyfk
