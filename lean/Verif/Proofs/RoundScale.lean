import Verif.Model.Rounding
import Mathlib.Tactic.Linarith
import Mathlib.Tactic.Positivity

/-!
# Errors relative to a scale

For sums of products whose terms may cancel: values are bounded by a scale, errors by a multiple of `η` times the scale.
-/

namespace Tinyfk

variable {F : Rounding} {η B B1 B2 k k1 k2 x x' y y' : ℝ}

/-- the accuracy of the arithmetic is at most `η`, which is small -/
structure Fine (F : Rounding) (η : ℝ) : Prop where
  u : F.u ≤ η
  small : η ≤ 1 / 10 ^ 6

theorem Fine.nonneg (h : Fine F η) : 0 ≤ η := F.u_nonneg.trans h.u

/-- `x'` is within `k * η * B` of `x`, which is at most `B` -/
structure Sc (F : Rounding) (η B k x' x : ℝ) : Prop where
  size : |x| ≤ B
  near : |x' - x| ≤ k * η * B
  tiny : F.tiny ≤ B
  k0 : 0 ≤ k

theorem Sc.B0 (h : Sc F η B k x' x) : 0 ≤ B := (abs_nonneg _).trans h.size

theorem Sc.abs_le (hF : Fine F η) (h : Sc F η B k x' x) (hk : k ≤ 1000) : |x'| ≤ 1001 / 1000 * B := by
  have h0 := hF.nonneg
  have h1 := hF.small
  have h3 : k * η ≤ 1 / 1000 := by
    calc k * η ≤ 1000 * (1 / 10 ^ 6) := mul_le_mul hk h1 h0 (by norm_num)
      _ = 1 / 1000 := by norm_num
  have h4 : k * η * B ≤ 1 / 1000 * B := mul_le_mul_of_nonneg_right h3 h.B0
  have : |x'| ≤ |x' - x| + |x| := by
    have := abs_add_le (x' - x) x
    rwa [sub_add_cancel] at this
  linarith [h.near, h.size]

theorem Sc.mono (h : Sc F η B1 k1 x' x) (hF : Fine F η) (hB : B1 ≤ B) (hk : k1 ≤ k) : Sc F η B k x' x := by
  have h0 := hF.nonneg
  refine ⟨h.size.trans hB, h.near.trans ?_, h.tiny.trans hB, h.k0.trans hk⟩
  exact mul_le_mul (mul_le_mul_of_nonneg_right hk h0) hB h.B0 (mul_nonneg (h.k0.trans hk) h0)

theorem Sc.exact (hF : Fine F η) (h : |x| ≤ B) (ht : F.tiny ≤ B) (hk : 0 ≤ k) : Sc F η B k x x :=
  ⟨h, by rw [sub_self, abs_zero]; exact mul_nonneg (mul_nonneg hk hF.nonneg) ((abs_nonneg _).trans h), ht, hk⟩

/-- the rounded result of an operation -/
theorem Sc.rounded {z : ℝ} (hF : Fine F η) (h : Sc F η B k x' x) (hk : k ≤ 1000) (hz : Rounded F.u F.tiny z x') : Sc F η B (k + 2) z x := by
  have h0 := hF.nonneg
  have hB := h.B0
  have e1 : |z - x'| ≤ η * (2 * B) := by
    refine hz.trans (mul_le_mul hF.u ?_ (le_max_of_le_left (abs_nonneg _)) h0)
    refine max_le ?_ (by linarith [h.tiny])
    linarith [h.abs_le hF hk]
  refine ⟨h.size, ?_, h.tiny, by linarith [h.k0]⟩
  have := abs_add_le (z - x') (x' - x)
  rw [sub_add_sub_cancel] at this
  linarith [h.near]

theorem Sc.sum (hF : Fine F η) (h1 : Sc F η B1 k1 x' x) (h2 : Sc F η B2 k2 y' y) (hk : k1 ≤ k) (hk2 : k2 ≤ k) :
    Sc F η (B1 + B2) k (x' + y') (x + y) := by
  have h0 := hF.nonneg
  refine ⟨(abs_add_le _ _).trans (add_le_add h1.size h2.size), ?_, by linarith [h1.tiny, h2.B0], h1.k0.trans hk⟩
  have := abs_add_le (x' - x) (y' - y)
  rw [show x' - x + (y' - y) = x' + y' - (x + y) by ring] at this
  have a := (h1.mono hF le_rfl hk).near
  have b := (h2.mono hF le_rfl hk2).near
  linarith

theorem Sc.neg (h : Sc F η B k x' x) : Sc F η B k (-x') (-x) :=
  ⟨by rw [abs_neg]; exact h.size, by rw [neg_sub_neg, abs_sub_comm]; exact h.near, h.tiny, h.k0⟩

theorem Sc.prod (hF : Fine F η) (h1 : Sc F η B1 k1 x' x) (h2 : Sc F η B2 k2 y' y) (hk1 : k1 ≤ 100) (hk2 : k2 ≤ 100) (ht : F.tiny ≤ B1 * B2) :
    Sc F η (B1 * B2) (k1 + k2 + 1) (x' * y') (x * y) := by
  have h0 := hF.nonneg
  have hB1 := h1.B0
  have hB2 := h2.B0
  refine ⟨by rw [abs_mul]; exact mul_le_mul h1.size h2.size (abs_nonneg _) hB1, ?_, ht, by linarith [h1.k0, h2.k0]⟩
  have e : x' * y' - x * y = (x' - x) * (y' - y) + (x' - x) * y + x * (y' - y) := by ring
  rw [e]
  have a1 : |(x' - x) * (y' - y)| ≤ k1 * η * B1 * (k2 * η * B2) := by
    rw [abs_mul]; exact mul_le_mul h1.near h2.near (abs_nonneg _) (mul_nonneg (mul_nonneg h1.k0 h0) hB1)
  have a2 : |(x' - x) * y| ≤ k1 * η * B1 * B2 := by
    rw [abs_mul]; exact mul_le_mul h1.near h2.size (abs_nonneg _) (mul_nonneg (mul_nonneg h1.k0 h0) hB1)
  have a3 : |x * (y' - y)| ≤ B1 * (k2 * η * B2) := by
    rw [abs_mul]; exact mul_le_mul h1.size h2.near (abs_nonneg _) hB1
  have a4 : k1 * k2 * η ≤ 1 := by
    have : k1 * k2 ≤ 100 * 100 := mul_le_mul hk1 hk2 h2.k0 (by norm_num)
    calc k1 * k2 * η ≤ 100 * 100 * (1 / 10 ^ 6) := mul_le_mul this hF.small h0 (by norm_num)
      _ ≤ 1 := by norm_num
  have a5 : k1 * η * B1 * (k2 * η * B2) ≤ η * (B1 * B2) := by
    calc k1 * η * B1 * (k2 * η * B2) = k1 * k2 * η * (η * (B1 * B2)) := by ring
      _ ≤ 1 * (η * (B1 * B2)) := mul_le_mul_of_nonneg_right a4 (by positivity)
      _ = _ := one_mul _
  have := abs_add_le ((x' - x) * (y' - y) + (x' - x) * y) (x * (y' - y))
  have := abs_add_le ((x' - x) * (y' - y)) ((x' - x) * y)
  linarith

theorem Sc.add (hF : Fine F η) (h1 : Sc F η B1 k1 x' x) (h2 : Sc F η B2 k2 y' y) (hk1 : k1 ≤ k) (hk2 : k2 ≤ k) (hk : k ≤ 1000)
    (hb : 2 * (B1 + B2) ≤ F.big) : Sc F η (B1 + B2) (k + 2) (F.add x' y') (x + y) := by
  have h := Sc.sum hF h1 h2 hk1 hk2
  exact h.rounded hF hk (F.add_rounded ((h.abs_le hF hk).trans (by linarith [h.B0])))

theorem Sc.sub (hF : Fine F η) (h1 : Sc F η B1 k1 x' x) (h2 : Sc F η B2 k2 y' y) (hk1 : k1 ≤ k) (hk2 : k2 ≤ k) (hk : k ≤ 1000)
    (hb : 2 * (B1 + B2) ≤ F.big) : Sc F η (B1 + B2) (k + 2) (F.sub x' y') (x - y) := by
  have h := Sc.sum hF h1 h2.neg hk1 hk2
  rw [← sub_eq_add_neg, ← sub_eq_add_neg] at h
  exact h.rounded hF hk (F.sub_rounded ((h.abs_le hF hk).trans (by linarith [h.B0])))

theorem Sc.mul (hF : Fine F η) (h1 : Sc F η B1 k1 x' x) (h2 : Sc F η B2 k2 y' y) (hk1 : k1 ≤ 100) (hk2 : k2 ≤ 100) (ht : F.tiny ≤ B1 * B2)
    (hb : 2 * (B1 * B2) ≤ F.big) : Sc F η (B1 * B2) (k1 + k2 + 3) (F.mul x' y') (x * y) := by
  have h := Sc.prod hF h1 h2 hk1 hk2 ht
  have := h.rounded hF (by linarith) (F.mul_rounded ((h.abs_le hF (by linarith)).trans (by linarith [h.B0])))
  convert this using 1
  ring

end Tinyfk
