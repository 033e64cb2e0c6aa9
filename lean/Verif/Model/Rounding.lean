import Verif.Model.Real
import Mathlib.Data.Int.Log
import Mathlib.Algebra.Order.Round

/-!
# Arithmetic with rounding

The reading of `double` as real numbers on which every operation rounds. A result is rounded to a relative accuracy `u`,
or to the absolute accuracy `u * tiny` when it is smaller than `tiny`; nothing is said about results larger than `big`.
For IEEE binary64 with a C library whose `sin` and `cos` are accurate to one unit in the last place, `u = 2^-52` will do,
`tiny = 2^-1022` and `big` is a little less than `2^1024`.
Not modelled: infinities, not-a-number and the sign of zero.
-/

namespace Tinyfk

/-- `y` is `x` rounded with relative accuracy `u`, below `tiny` with absolute accuracy `u * tiny` -/
def Rounded (u tiny y x : ℝ) : Prop := |y - x| ≤ u * max |x| tiny

/-- The operations that the code performs on `double`, with what is known of them. -/
structure Rounding where
  u : ℝ
  tiny : ℝ
  big : ℝ
  add : ℝ → ℝ → ℝ
  sub : ℝ → ℝ → ℝ
  mul : ℝ → ℝ → ℝ
  div : ℝ → ℝ → ℝ
  lit : Int → Nat → ℝ
  sin : ℝ → ℝ
  cos : ℝ → ℝ
  asin : ℝ → ℝ
  sqrt : ℝ → ℝ
  atan2 : ℝ → ℝ → ℝ
  u_nonneg : 0 ≤ u
  u_small : u ≤ 1 / 1000
  tiny_nonneg : 0 ≤ tiny
  add_rounded {a b : ℝ} : |a + b| ≤ big → Rounded u tiny (add a b) (a + b)
  sub_rounded {a b : ℝ} : |a - b| ≤ big → Rounded u tiny (sub a b) (a - b)
  mul_rounded {a b : ℝ} : |a * b| ≤ big → Rounded u tiny (mul a b) (a * b)
  div_rounded {a b : ℝ} : b ≠ 0 → |a / b| ≤ big → Rounded u tiny (div a b) (a / b)
  sqrt_rounded {a : ℝ} : 0 ≤ a → √a ≤ big → Rounded u tiny (sqrt a) (√a)
  sin_rounded (a : ℝ) : Rounded u tiny (sin a) (Real.sin a)
  cos_rounded (a : ℝ) : Rounded u tiny (cos a) (Real.cos a)
  lit_rounded (m : Int) (e : Nat) : |(m : ℝ) / 10 ^ e| ≤ big → Rounded u tiny (lit m e) (m / 10 ^ e)

/-- `double` read as real numbers with this arithmetic -/
def Fl (_ : Rounding) : Type := ℝ

/-- `double` read as real numbers on which every operation rounds; signs and comparisons are exact. The
conversion of colours to `float` is not rounded: no number computed by the library depends on a colour. -/
noncomputable instance (F : Rounding) : Scalar (Fl F) where
  add := F.add
  sub := F.sub
  mul := F.mul
  div := F.div
  neg := fun a : ℝ => -a
  zero := (0 : ℝ)
  one := (1 : ℝ)
  lit := F.lit
  sin := F.sin
  cos := F.cos
  asin := F.asin
  sqrt := F.sqrt
  atan2 := F.atan2
  lt := fun a b : ℝ => @decide (a < b) (Classical.dec _)
  le := fun a b : ℝ => @decide (a ≤ b) (Classical.dec _)
  eq := fun a b : ℝ => @decide (a = b) (Classical.dec _)
  toFloat := fun a : ℝ => a

/-! ### Rounding to 53 binary digits -/

/-- the exponent of the last of the 53 digits of `x`, not below that of the smallest number -/
noncomputable def lastDigit (x : ℝ) : ℤ := max (Int.log 2 |x|) (-1022) - 52

/-- `x` rounded to the nearest multiple of its last digit -/
noncomputable def round53 (x : ℝ) : ℝ := round (x / 2 ^ lastDigit x) * 2 ^ lastDigit x

theorem round53_rounded (x : ℝ) : Rounded (2 ^ (-53 : ℤ)) (2 ^ (-1022 : ℤ)) (round53 x) x := by
  by_cases hx : x = 0
  · subst hx; simp [Rounded, round53]
  have h2 : (0 : ℝ) < 2 ^ lastDigit x := by positivity
  have h1 : |round53 x - x| ≤ 1 / 2 * 2 ^ lastDigit x := by
    have : round53 x - x = -((x / 2 ^ lastDigit x - round (x / 2 ^ lastDigit x)) * 2 ^ lastDigit x) := by
      unfold round53; field_simp; ring
    rw [this, abs_neg, abs_mul, abs_of_pos h2]
    exact mul_le_mul_of_nonneg_right (abs_sub_round _) h2.le
  refine h1.trans ?_
  have hm : (2 : ℝ) ^ max (Int.log 2 |x|) (-1022) ≤ max |x| (2 ^ (-1022 : ℤ)) := by
    rcases max_choice (Int.log 2 |x|) (-1022) with h | h
    · rw [h]
      exact (Int.zpow_log_le_self (by norm_num) (abs_pos.mpr hx)).trans (le_max_left _ _)
    · rw [h]; exact le_max_right _ _
  have hz : (1 / 2 : ℝ) * 2 ^ lastDigit x = 2 ^ (-53 : ℤ) * 2 ^ max (Int.log 2 |x|) (-1022) := by
    rw [← zpow_add₀ (by norm_num : (2 : ℝ) ≠ 0), show (1 / 2 : ℝ) = 2 ^ (-1 : ℤ) by norm_num, ← zpow_add₀ (by norm_num : (2 : ℝ) ≠ 0)]
    congr 1
    unfold lastDigit
    ring
  rw [hz]
  exact mul_le_mul_of_nonneg_left hm (by positivity)

/-- binary64 with correctly rounded functions, without the largest exponent -/
noncomputable def binary64 (big : ℝ) : Rounding where
  u := 2 ^ (-53 : ℤ)
  tiny := 2 ^ (-1022 : ℤ)
  big := big
  add a b := round53 (a + b)
  sub a b := round53 (a - b)
  mul a b := round53 (a * b)
  div a b := round53 (a / b)
  lit m e := round53 (m / 10 ^ e)
  sin a := round53 (Real.sin a)
  cos a := round53 (Real.cos a)
  asin a := round53 (Real.arcsin a)
  sqrt a := round53 (√a)
  atan2 a b := round53 (Complex.arg ⟨b, a⟩)
  u_nonneg := by positivity
  u_small := by norm_num
  tiny_nonneg := by positivity
  add_rounded _ := round53_rounded _
  sub_rounded _ := round53_rounded _
  mul_rounded _ := round53_rounded _
  div_rounded _ _ := round53_rounded _
  sqrt_rounded _ _ := round53_rounded _
  sin_rounded _ := round53_rounded _
  cos_rounded _ := round53_rounded _
  lit_rounded _ _ _ := round53_rounded _

end Tinyfk
