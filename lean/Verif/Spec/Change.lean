import Verif.Spec.Rounding
import Verif.Spec.PyApi

/-!
# Specification: how much a configuration changes

What lies between the root and a link when the joints go from one position to another, and the change of the base.
-/

namespace Tinyfk

open Classical in
/-- how far a joint turns between `θ` and `θ'` -/
noncomputable def RawJoint.turned (j : RawJoint ℝ) (θ θ' : ℝ) : ℝ :=
  if j.type = .revolute ∨ j.type = .continuous then |θ' - θ| else 0

/-- how far a joint slides between `θ` and `θ'` -/
noncomputable def RawJoint.slid (j : RawJoint ℝ) (θ θ' : ℝ) : ℝ := if j.type = .prismatic then j.axis.len * |θ' - θ| else 0

/-- `PathChange ls js welds θ θ' n τ σ L`: when the joints go from `θ` to `θ'`, those between the root and the link named `n`
turn by `τ` and slide by `σ` in all; with the joints at `θ'`, the lengths of the joints and welds on this path add up to `L`. -/
inductive PathChange (ls : List (RawLink ℝ)) (js : List (RawJoint ℝ)) (welds : Weld ℝ → Prop) (θ θ' : String → ℝ) :
    String → ℝ → ℝ → ℝ → Prop
  | root {l : RawLink ℝ} : l ∈ ls → (∀ j ∈ js, j.childLinkName ≠ l.name) → PathChange ls js welds θ θ' l.name 0 0 0
  | joint {j : RawJoint ℝ} {τ σ L : ℝ} : j ∈ js → PathChange ls js welds θ θ' j.parentLinkName τ σ L →
      PathChange ls js welds θ θ' j.childLinkName (τ + j.turned (θ j.name) (θ' j.name)) (σ + j.slid (θ j.name) (θ' j.name))
        (L + j.reach (θ' j.name))
  | weld {w : Weld ℝ} {τ σ L : ℝ} : welds w → PathChange ls js welds θ θ' w.carrier τ σ L →
      PathChange ls js welds θ θ' w.name τ σ (L + w.offset.position.len)

/-- how far the base moves between two configurations with `n` joint entries -/
noncomputable def baseShift (n : Nat) (bt : BaseType) (q q' : List ℝ) : ℝ :=
  match bt, q.drop n, q'.drop n with
  | .planer, [x, y, _], [x', y', _] => Vec3.dist ⟨x', y', 0⟩ ⟨x, y, 0⟩
  | .floating, [x, y, z, _, _, _], [x', y', z', _, _, _] => Vec3.dist ⟨x', y', z'⟩ ⟨x, y, z⟩
  | _, _, _ => 0

/-- how far the angles of the base change in all -/
noncomputable def baseTurn (n : Nat) (bt : BaseType) (q q' : List ℝ) : ℝ :=
  match bt, q.drop n, q'.drop n with
  | .planer, [_, _, w], [_, _, w'] => |w' - w|
  | .floating, [_, _, _, r, p, w], [_, _, _, r', p', w'] => |r' - r| + |p' - p| + |w' - w|
  | _, _, _ => 0

end Tinyfk
