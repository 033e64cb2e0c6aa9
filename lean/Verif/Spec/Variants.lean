import Verif.Spec.Api
import Verif.Spec.Com
import Verif.Model.Real

/-!
# Specification: related descriptions

Ways in which one robot description can be obtained from another: a part of it, the same robot with some
joint axes reversed, with the zero positions of the joints shifted, in other units of length and mass, or with other names.
-/

namespace Tinyfk

open Scalar

/-- The description `(ls', js')` is a part of `(ls, js)`: some of its links and joints, such that only the link named `r`
has lost the joint that carries it (or never had one). -/
structure PartOf {K : Type} (ls' : List (RawLink K)) (js' : List (RawJoint K)) (ls : List (RawLink K)) (js : List (RawJoint K)) (r : String) : Prop where
  links : ∀ l ∈ ls', l ∈ ls
  joints : ∀ j ∈ js', j ∈ js
  root : ∀ l ∈ ls', (∀ j ∈ js', j.childLinkName ≠ l.name) → l.name = r

/-- the joint with its `<axis>` reversed if `flip` says so -/
def RawJoint.flipAxis (flip : String → Bool) (j : RawJoint ℝ) : RawJoint ℝ :=
  if flip j.name then { j with axis := ⟨-j.axis.x, -j.axis.y, -j.axis.z⟩ } else j

/-- the values that reversed joints need -/
def flipValue (flip : String → Bool) (θ : String → ℝ) (s : String) : ℝ := if flip s then -θ s else θ s

/-- the displacement of a joint at value `v`, in the frame of its origin -/
noncomputable def RawJoint.motion (j : RawJoint ℝ) (v : ℝ) : Pose ℝ :=
  match j.type with
  | .revolute | .continuous =>
    ⟨Vec3.zero, ⟨j.axis.x * Real.sin (v / 2), j.axis.y * Real.sin (v / 2), j.axis.z * Real.sin (v / 2), Real.cos (v / 2)⟩⟩
  | .prismatic => ⟨⟨j.axis.x * v, j.axis.y * v, j.axis.z * v⟩, Rot.one⟩
  | _ => Pose.identity

/-- the joint with its zero position where its value was `δ` -/
noncomputable def RawJoint.shiftZero (δ : String → ℝ) (j : RawJoint ℝ) : RawJoint ℝ :=
  { j with origin := Pose.transform j.origin (j.motion (δ j.name)) }

/-- a vector in another unit of length -/
def Vec3.scale (c : ℝ) (v : Vec3 ℝ) : Vec3 ℝ := ⟨c * v.x, c * v.y, c * v.z⟩

/-- a pose in another unit of length -/
def Pose.scale (c : ℝ) (T : Pose ℝ) : Pose ℝ := ⟨T.position.scale c, T.rotation⟩

/-- a link in another unit of length (masses and tensors as they are) -/
def RawLink.scale (c : ℝ) (l : RawLink ℝ) : RawLink ℝ :=
  { l with inertial := l.inertial.map fun i => { i with origin := i.origin.scale c } }

/-- a joint in another unit of length -/
def RawJoint.scale (c : ℝ) (j : RawJoint ℝ) : RawJoint ℝ := { j with origin := j.origin.scale c }

/-- a welded link in another unit of length -/
def Weld.scale (c : ℝ) (w : Weld ℝ) : Weld ℝ := { w with offset := w.offset.scale c }

/-- an `<inertial>` element in other units of length and mass: the tensor is mass times length squared -/
def Inertial.inUnits (c μ : ℝ) (i : Inertial ℝ) : Inertial ℝ :=
  ⟨i.origin.scale c, μ * i.mass, μ * c ^ 2 * i.ixx, μ * c ^ 2 * i.ixy, μ * c ^ 2 * i.ixz, μ * c ^ 2 * i.iyy, μ * c ^ 2 * i.iyz,
    μ * c ^ 2 * i.izz⟩

/-- a link in other units of length and mass -/
def RawLink.inUnits (c μ : ℝ) (l : RawLink ℝ) : RawLink ℝ := { l with inertial := l.inertial.map (Inertial.inUnits c μ) }

/-! The same robot under other names: links are renamed by `ρ`, joints by `σ`. -/

/-- a renamed link -/
def RawLink.rename {K : Type} (ρ : String → String) (l : RawLink K) : RawLink K := { l with name := ρ l.name }

/-- a renamed joint between renamed links -/
def RawJoint.rename {K : Type} (ρ σ : String → String) (j : RawJoint K) : RawJoint K :=
  { j with name := σ j.name, parentLinkName := ρ j.parentLinkName, childLinkName := ρ j.childLinkName }

/-- a renamed added link -/
def Weld.rename {K : Type} (ρ : String → String) (w : Weld K) : Weld K := ⟨ρ w.name, ρ w.carrier, w.offset⟩

/-- `ρ` respects the names of the links `<name>_com` that the library makes -/
def ComNames {K : Type} (ρ : String → String) (ls : List (RawLink K)) : Prop :=
  ∀ l ∈ ls, l.inertial.isSome → ρ (l.name ++ "_com") = ρ l.name ++ "_com"

end Tinyfk
