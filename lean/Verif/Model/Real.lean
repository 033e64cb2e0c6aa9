import Verif.Model.Pose
import Mathlib.Analysis.SpecialFunctions.Trigonometric.Inverse
import Mathlib.Analysis.SpecialFunctions.Complex.Arg

/-!
# Exact real arithmetic

The reading of `double` as real numbers. `atan2 y x` is the argument of the complex number
`x + i y`, which is the C library's convention for finite arguments except that `-0.0` does
not exist here.
-/

namespace Tinyfk

/-- `double` read as ℝ; the conversion to `float` is exact, as all operations are -/
noncomputable instance instScalarReal : Scalar ℝ where
  lit m e := (m : ℝ) / 10 ^ e
  sin := Real.sin
  cos := Real.cos
  asin := Real.arcsin
  sqrt := Real.sqrt
  atan2 y x := Complex.arg ⟨x, y⟩
  lt a b := @decide (a < b) (Classical.dec _)
  le a b := @decide (a ≤ b) (Classical.dec _)
  eq a b := @decide (a = b) (Classical.dec _)
  toFloat := id

section
variable (a b : ℝ)

theorem real_lit (m : Int) (e : Nat) : (Scalar.lit m e : ℝ) = m / 10 ^ e := rfl
@[simp] theorem real_two : (two : ℝ) = 2 := by simp [two, real_lit]
@[simp] theorem real_half : (half : ℝ) = 1 / 2 := by simp [half, real_lit]; norm_num
@[simp] theorem real_sin : (Scalar.sin a : ℝ) = Real.sin a := rfl
@[simp] theorem real_cos : (Scalar.cos a : ℝ) = Real.cos a := rfl
@[simp] theorem real_asin : (Scalar.asin a : ℝ) = Real.arcsin a := rfl
@[simp] theorem real_sqrt : (Scalar.sqrt a : ℝ) = Real.sqrt a := rfl
@[simp] theorem real_atan2 : (Scalar.atan2 a b : ℝ) = Complex.arg ⟨b, a⟩ := rfl
@[simp] theorem real_lt : (Scalar.lt a b = true) ↔ a < b := by simp [Scalar.lt]
@[simp] theorem real_le : (Scalar.le a b = true) ↔ a ≤ b := by simp [Scalar.le]
@[simp] theorem real_eq : (Scalar.eq a b = true) ↔ a = b := by simp [Scalar.eq]

example : (a + b : ℝ) = @HAdd.hAdd ℝ ℝ ℝ (@instHAdd ℝ instScalarReal.toAdd) a b := rfl
example : (0 : ℝ) = @Zero.zero ℝ instScalarReal.toZero := by
  with_reducible_and_instances rfl
end

end Tinyfk
