import Verif.Spec.RoundSums
import Verif.Spec.Inertia

/-!
# Specification: how far a computed inertia matrix may be from the exact one
-/

namespace Tinyfk

/-- Squares are not negative after rounding, and neither are sums of numbers that are not negative. -/
structure KeepsSign (F : Rounding) : Prop where
  mul (a : ℝ) : 0 ≤ F.mul a a
  add {a b : ℝ} : 0 ≤ a → 0 ≤ b → 0 ≤ F.add a b

/-- The entries of an inertia tensor held in `double` and of an exact one, which are at most `H`, agree to the accuracy `ε * H`. -/
structure TensorNear {F : Rounding} (ε H : ℝ) (i' : Inertial (Fl F)) (i : Inertial ℝ) : Prop where
  size : ∀ r s, |i.tensor r s| ≤ H
  xx : |i'.ixx.real - i.ixx| ≤ ε * H
  xy : |i'.ixy.real - i.ixy| ≤ ε * H
  xz : |i'.ixz.real - i.ixz| ≤ ε * H
  yy : |i'.iyy.real - i.iyy| ≤ ε * H
  yz : |i'.iyz.real - i.iyz| ≤ ε * H
  zz : |i'.izz.real - i.izz| ≤ ε * H

/-- The accuracy to which poses and the centre of mass are known, for `N` links behind at most `D` joints and welds. -/
noncomputable def poseAcc (ε A : ℝ) (D N : Nat) : ℝ := 500 * (D + 1) * ε * A + 25 * N * ε

/-- What the entries of the inertia matrix cannot exceed: `N` links with tensor entries at most `H` and the total mass `M`, within
`2 * (R + (D + 1) * μ)` of the centre of mass. -/
noncomputable def inertiaSize (μ : ℝ) (D N : Nat) (R H M : ℝ) : ℝ := 225 * (N + 1) * H + 4 * (2 * (R + (D + 1) * μ)) ^ 2 * (M + N * μ)

/-- How far an entry of the computed inertia matrix may be from the exact one. -/
noncomputable def inertiaBound (ε μ A : ℝ) (D N : Nat) (R H M : ℝ) : ℝ := (43 + 2 * N) * poseAcc ε A D N * inertiaSize μ D N R H M

end Tinyfk
