import Verif.Spec.Desc
import Verif.Model.Real

/-!
# Specification: turning joints without an axis

The parser leaves the axis of a joint at `(0, 0, 0)` when its `<axis>` element has no `xyz`
attribute, and accepts `xyz="0 0 0"` (urdf_parser/src/joint.cpp, `parseJoint`).
-/

namespace Tinyfk

open Scalar

/-- a revolute or continuous joint whose axis is the zero vector -/
def RawJoint.axisless (j : RawJoint ℝ) : Prop :=
  (j.type = .revolute ∨ j.type = .continuous) ∧ j.axis = ⟨0, 0, 0⟩

open Classical in
/-- the same joint made fixed if it is a turning joint without an axis -/
noncomputable def RawJoint.frozen (j : RawJoint ℝ) : RawJoint ℝ :=
  if j.axisless then { j with type := .fixed } else j

/-- `Fading ls js welds θ n κ`: `κ` is the product of the cosines of half the angles of the
turning joints without an axis that lie between the root and the link `n`. -/
inductive Fading (ls : List (RawLink ℝ)) (js : List (RawJoint ℝ)) (welds : Weld ℝ → Prop) (θ : String → ℝ) :
    String → ℝ → Prop
  | root {l : RawLink ℝ} : l ∈ ls → (∀ j ∈ js, j.childLinkName ≠ l.name) → Fading ls js welds θ l.name 1
  | bare {j : RawJoint ℝ} {κ : ℝ} : j ∈ js → j.axisless → Fading ls js welds θ j.parentLinkName κ →
      Fading ls js welds θ j.childLinkName (κ * Real.cos (θ j.name / 2))
  | joint {j : RawJoint ℝ} {κ : ℝ} : j ∈ js → ¬ j.axisless → Fading ls js welds θ j.parentLinkName κ →
      Fading ls js welds θ j.childLinkName κ
  | weld {w : Weld ℝ} {κ : ℝ} : welds w → Fading ls js welds θ w.carrier κ → Fading ls js welds θ w.name κ

/-- a rotation with all four coefficients multiplied by `κ` -/
def Rot.faded (κ : ℝ) (q : Rot ℝ) : Rot ℝ := ⟨κ * q.x, κ * q.y, κ * q.z, κ * q.w⟩

end Tinyfk
