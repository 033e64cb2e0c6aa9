import Verif.Spec.RoundSums

/-!
# Specification: accuracy of the inverse functions of the C library
-/

namespace Tinyfk

/-- `asin` and `atan2` are accurate to `u`, like the other functions. -/
structure InverseTrig (F : Rounding) : Prop where
  asin {a : ℝ} : |a| ≤ 1 → Rounded F.u F.tiny (F.asin a) (Real.arcsin a)
  atan2 (a b : ℝ) : Rounded F.u F.tiny (F.atan2 a b) (Complex.arg ⟨b, a⟩)

/-- Numbers of ordinary size, for forward differences with the step `1e-7`: `ε` is at least `125 u`, and neither `tiny` nor `big`
is met. -/
structure StepSmall (F : Rounding) (ε : ℝ) (D : Nat) (R : ℝ) : Prop where
  low : 125 * F.u ≤ ε
  acc : ε ≤ 9 / 10 ^ 6
  tiny : F.tiny ≤ 1 / 10 ^ 8
  range : 10 ^ 9 * (2 * R + D + 3) ≤ F.big

/-- The error of the position rows of the column of a base angle, for a link behind `d` joints and a path of length `L`, when the cosine
of the pitch is at least `c`: rounding errors are divided by the step `1e-7`, and the forward difference itself is off by `2e-7`
times the size of the robot. -/
noncomputable def angBound (ε μ A c : ℝ) (d : Nat) (L : ℝ) : ℝ :=
  (35 * 10 ^ 8 * (ε / c) + 2 / 10 ^ 7) * (L + posBound ε μ A d L + μ) + 4 * posBound ε μ A d L

end Tinyfk
