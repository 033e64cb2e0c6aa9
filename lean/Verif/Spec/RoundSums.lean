import Verif.Spec.Rounding
import Verif.Spec.Com

/-!
# Specification: how far computed distances and centres of mass may be from the exact ones
-/

namespace Tinyfk

/-- the real number that a `double` is -/
def Fl.real {F : Rounding} (x : Fl F) : ℝ := x

/-- How far the computed position of a link behind `d` joints and welds and a path of length `L` may be from the exact one (C94). -/
noncomputable def posBound (ε μ A : ℝ) (d : Nat) (L : ℝ) : ℝ := 500 * (d + 1) * ε * A * (L + (d + 1) * μ)

/-- How fast a link at the end of a path of length `L` can move when joint `r` moves. -/
noncomputable def colSize (r : RawJoint ℝ) (L : ℝ) : ℝ := if r.type = .prismatic then r.axis.len else 2 * L

/-- A link held in `double` and an exact link: the same name, and both without `<inertial>` element, or both with one, of which the
masses agree to the relative accuracy `ε` and the centres to the accuracy of all positions; masses are not negative. -/
structure LinkNear {F : Rounding} (ε μ : ℝ) (l' : RawLink (Fl F)) (l : RawLink ℝ) : Prop where
  name : l'.name = l.name
  none : l'.inertial = .none ↔ l.inertial = .none
  some : ∀ i' i, l'.inertial = .some i' → l.inertial = .some i → 0 ≤ i.mass ∧ |i'.mass.real - i.mass| ≤ ε * i.mass ∧
    Vec3.dist i'.origin.position.real i.origin.position ≤ ε * (i.origin.position.len + μ)

/-- the mass of a link -/
noncomputable def RawLink.massOf (l : RawLink ℝ) : ℝ := (l.inertial.map Inertial.mass).getD 0

/-- the mass of the robot -/
noncomputable def massSum (ls : List (RawLink ℝ)) : ℝ := (ls.map RawLink.massOf).sum

/-- How far the computed centre of mass of a robot of `N` bodies may be from the exact one, if the links are behind at most `D` joints
and welds and paths of length at most `R`. -/
noncomputable def comBound (ε μ A : ℝ) (D N : Nat) (R : ℝ) : ℝ := 3 * posBound ε μ A D R + 25 * N * ε * (R + μ)

/-- How far a column of the computed Jacobian of the centre of mass may be from the derivative. -/
noncomputable def comColBound (ε μ A : ℝ) (r : RawJoint ℝ) (D N : Nat) (R : ℝ) : ℝ :=
  3 * colBound ε μ A r D R + 25 * N * ε * (colSize r R + μ)

/-- Every added link has a name of its own. -/
structure WeldsApart (ls : List (RawLink ℝ)) (js : List (RawJoint ℝ)) (welds : Weld ℝ → Prop) : Prop where
  inj : ∀ w w', welds w → welds w' → w.name = w'.name → w = w'
  link : ∀ w, welds w → ∀ l ∈ ls, l.name ≠ w.name
  child : ∀ w, welds w → ∀ j ∈ js, j.childLinkName ≠ w.name

end Tinyfk
