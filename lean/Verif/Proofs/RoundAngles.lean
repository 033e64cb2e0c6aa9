import Verif.Spec.Inverse
import Verif.Proofs.RoundRpy
import Verif.Proofs.RoundCol
import Verif.Proofs.RoundGrad
import Verif.Proofs.FwdDiff
import Mathlib.Analysis.SpecialFunctions.Trigonometric.Bounds
import Mathlib.Analysis.SpecialFunctions.Complex.Arg
import Mathlib.Analysis.SpecialFunctions.Complex.Arctan

/-!
# Roll, pitch and yaw of a rotation, with rounding

How far the angles that `getRPY` computes are from angles of a nearby rotation.
-/

namespace Tinyfk

open Quaternion

/-! ### inverse functions -/

/-- the arc sine of a number near the sine of `p` -/
theorem arcsin_near {a p c e : ℝ} (h1 : -(Real.pi / 2) ≤ p) (h2 : p ≤ Real.pi / 2) (hc : 0 < c) (hp : c ≤ Real.cos p)
    (ha1 : -1 ≤ a) (ha2 : a ≤ 1) (h : |a - Real.sin p| ≤ e) : |Real.arcsin a - p| ≤ 4 * e / c := by
  set t := Real.arcsin a with ht
  have hs : Real.sin t = a := Real.sin_arcsin ha1 ha2
  have t1 : -(Real.pi / 2) ≤ t := Real.neg_pi_div_two_le_arcsin a
  have t2 : t ≤ Real.pi / 2 := Real.arcsin_le_pi_div_two a
  have hct : 0 ≤ Real.cos t := Real.cos_nonneg_of_mem_Icc ⟨t1, t2⟩
  rw [← hs] at h
  have e1 : Real.sin t - Real.sin p = 2 * Real.sin ((t - p) / 2) * Real.cos ((t + p) / 2) := Real.sin_sub_sin t p
  have e2 : Real.cos t + Real.cos p = 2 * Real.cos ((t + p) / 2) * Real.cos ((t - p) / 2) := Real.cos_add_cos t p
  have hd1 : -(Real.pi / 2) ≤ (t - p) / 2 := by linarith
  have hd2 : (t - p) / 2 ≤ Real.pi / 2 := by linarith
  have hcd : 0 ≤ Real.cos ((t - p) / 2) := Real.cos_nonneg_of_mem_Icc ⟨hd1, hd2⟩
  have hcd1 : Real.cos ((t - p) / 2) ≤ 1 := Real.cos_le_one _
  have hm : 0 ≤ Real.cos ((t + p) / 2) := Real.cos_nonneg_of_mem_Icc ⟨by linarith, by linarith⟩
  have hm2 : c / 2 ≤ Real.cos ((t + p) / 2) := by nlinarith
  have hpi := Real.pi_le_four
  have hpi0 := Real.pi_pos
  have hsin : |(t - p) / 2| / 2 ≤ |Real.sin ((t - p) / 2)| := by
    have key : ∀ x : ℝ, 0 ≤ x → x ≤ Real.pi / 2 → x / 2 ≤ Real.sin x := by
      intro x hx hx2
      refine le_trans ?_ (Real.mul_le_sin hx hx2)
      rw [div_mul_eq_mul_div, le_div_iff₀ hpi0]
      nlinarith
    rcases le_total 0 ((t - p) / 2) with h0 | h0
    · rw [abs_of_nonneg h0, abs_of_nonneg (Real.sin_nonneg_of_nonneg_of_le_pi h0 (by linarith))]
      exact key _ h0 hd2
    · have := key (-((t - p) / 2)) (by linarith) (by linarith)
      rw [Real.sin_neg] at this
      rw [abs_of_nonpos h0, abs_of_nonpos (by linarith)]
      exact this
  rw [e1, abs_mul, abs_mul, abs_two, abs_of_nonneg hm] at h
  rw [le_div_iff₀ hc]
  have h3 : |(t - p) / 2| = |t - p| / 2 := by rw [abs_div, abs_two]
  rw [h3] at hsin
  have h4 : 0 ≤ |t - p| := abs_nonneg _
  have h5 : 0 ≤ |Real.sin ((t - p) / 2)| := abs_nonneg _
  have h6 : |t - p| / 4 * (c / 2) ≤ |Real.sin ((t - p) / 2)| * Real.cos ((t + p) / 2) :=
    mul_le_mul (by linarith) hm2 (by linarith) h5
  nlinarith

/-- the angle of a point near a point with the angle `r` -/
theorem arg_near {A B ρ r e : ℝ} (hρ : 0 < ρ) (he : 4 * e ≤ ρ) (h1 : |A - ρ * Real.sin r| ≤ e) (h2 : |B - ρ * Real.cos r| ≤ e) :
    ∃ k : ℤ, |Complex.arg ⟨B, A⟩ - (r + 2 * Real.pi * k)| ≤ 8 * e / ρ := by
  have he0 : 0 ≤ e := (abs_nonneg _).trans h1
  -- turned back by `r`
  set x := B * Real.cos r + A * Real.sin r with hx
  set y := A * Real.cos r - B * Real.sin r with hy
  have hcs := Real.sin_sq_add_cos_sq r
  have hs1 := Real.abs_sin_le_one r
  have hc1 := Real.abs_cos_le_one r
  have b1 : |(B - ρ * Real.cos r) * Real.cos r| ≤ e := by
    rw [abs_mul]; exact (mul_le_mul h2 hc1 (abs_nonneg _) he0).trans (by linarith)
  have b2 : |(A - ρ * Real.sin r) * Real.sin r| ≤ e := by
    rw [abs_mul]; exact (mul_le_mul h1 hs1 (abs_nonneg _) he0).trans (by linarith)
  have b3 : |(A - ρ * Real.sin r) * Real.cos r| ≤ e := by
    rw [abs_mul]; exact (mul_le_mul h1 hc1 (abs_nonneg _) he0).trans (by linarith)
  have b4 : |(B - ρ * Real.cos r) * Real.sin r| ≤ e := by
    rw [abs_mul]; exact (mul_le_mul h2 hs1 (abs_nonneg _) he0).trans (by linarith)
  have hxρ : ρ / 2 ≤ x := by
    have e1 : x = ρ + (B - ρ * Real.cos r) * Real.cos r + (A - ρ * Real.sin r) * Real.sin r := by
      rw [hx]; linear_combination ρ * hcs
    have := (abs_le.mp b1).1
    have := (abs_le.mp b2).1
    linarith
  have hyρ : |y| ≤ 2 * e := by
    have e1 : y = (A - ρ * Real.sin r) * Real.cos r - (B - ρ * Real.cos r) * Real.sin r := by rw [hy]; ring
    rw [e1]
    have := abs_sub ((A - ρ * Real.sin r) * Real.cos r) ((B - ρ * Real.cos r) * Real.sin r)
    linarith
  have hx0 : 0 < x := by linarith
  -- the angle of the point turned back
  have hsmall : |Complex.arg ⟨x, y⟩| ≤ 8 * e / ρ := by
    have hn : x ≤ ‖(⟨x, y⟩ : ℂ)‖ := by
      have := Complex.abs_re_le_norm (⟨x, y⟩ : ℂ)
      exact (le_abs_self x).trans this
    have hn0 : 0 < ‖(⟨x, y⟩ : ℂ)‖ := hx0.trans_le hn
    have hlt := Complex.abs_arg_lt_pi_div_two_iff.mpr (.inl (show 0 < (⟨x, y⟩ : ℂ).re from hx0))
    have hsin : Real.sin (Complex.arg ⟨x, y⟩) = y / ‖(⟨x, y⟩ : ℂ)‖ := Complex.sin_arg _
    have hq : |y / ‖(⟨x, y⟩ : ℂ)‖| ≤ 4 * e / ρ := by
      rw [abs_div, abs_of_pos hn0, div_le_div_iff₀ hn0 hρ]
      nlinarith
    have key : ∀ t : ℝ, |t| ≤ Real.pi / 2 → |t| ≤ 2 * |Real.sin t| := by
      have key0 : ∀ x : ℝ, 0 ≤ x → x ≤ Real.pi / 2 → x / 2 ≤ Real.sin x := by
        intro x hx hx2
        refine le_trans ?_ (Real.mul_le_sin hx hx2)
        rw [div_mul_eq_mul_div, le_div_iff₀ Real.pi_pos]
        nlinarith [Real.pi_le_four]
      intro t ht
      obtain ⟨t1, t2⟩ := abs_le.mp ht
      rcases le_total 0 t with h0 | h0
      · have := key0 t h0 t2
        rw [abs_of_nonneg h0]
        linarith [le_abs_self (Real.sin t)]
      · have := key0 (-t) (by linarith) (by linarith)
        rw [Real.sin_neg] at this
        rw [abs_of_nonpos h0]
        linarith [neg_le_abs (Real.sin t)]
    have := key _ hlt.le
    rw [hsin] at this
    calc _ ≤ _ := this
      _ ≤ 2 * (4 * e / ρ) := by linarith
      _ = 8 * e / ρ := by ring
  -- the two angles differ by `r` up to full turns
  have hz : (⟨B, A⟩ : ℂ) = ⟨x, y⟩ * ⟨Real.cos r, Real.sin r⟩ := by
    apply Complex.ext
    · simp only [Complex.mul_re]; rw [hx, hy]; linear_combination -B * hcs
    · simp only [Complex.mul_im]; rw [hx, hy]; linear_combination -A * hcs
  have hne : (⟨x, y⟩ : ℂ) ≠ 0 := by
    intro h0
    have := congrArg Complex.re h0
    simp at this
    linarith
  have hr : (⟨Real.cos r, Real.sin r⟩ : ℂ) = Real.Angle.cos r + Real.Angle.sin r * Complex.I := by
    apply Complex.ext <;> simp <;> rfl
  have hr0 : (⟨Real.cos r, Real.sin r⟩ : ℂ) ≠ 0 := by
    intro h0
    have k1 := congrArg Complex.re h0
    have k2 := congrArg Complex.im h0
    simp only [Complex.zero_re, Complex.zero_im] at k1 k2
    rw [k1, k2] at hcs
    norm_num at hcs
  have hang := Complex.arg_mul_coe_angle hne hr0
  rw [← hz, hr, Complex.arg_cos_add_sin_mul_I_coe_angle] at hang
  rw [← Real.Angle.coe_add, Real.Angle.angle_eq_iff_two_pi_dvd_sub] at hang
  obtain ⟨k, hk⟩ := hang
  refine ⟨k, ?_⟩
  rw [show Complex.arg ⟨B, A⟩ - (r + 2 * Real.pi * k) = Complex.arg ⟨x, y⟩ by linarith]
  exact hsmall

/-! ### the quadratic expressions -/

variable {F : Rounding}

/-- a sum of two rounded products -/
theorem Rounding.dot2_add {N a b c d r : ℝ} (hN : |a * b| + |c * d| ≤ N) (hb : 2 * (N + F.tiny) ≤ F.big)
    (hr : r = F.add (F.mul a b) (F.mul c d)) : |r - (a * b + c * d)| ≤ 5 / 2 * F.u * N + 7 / 2 * (F.u * F.tiny) := by
  have hu := F.u_nonneg
  have hu1 := F.u_small
  have ht := F.tiny_nonneg
  have n0 := abs_nonneg (a * b)
  have n1 := abs_nonneg (c * d)
  have h1 := F.mul_near (a := a) (b := b) (by linarith)
  have h2 := F.mul_near (a := c) (b := d) (by linarith)
  have hut : F.u * F.tiny ≤ 1 / 1000 * F.tiny := mul_le_mul_of_nonneg_right hu1 ht
  have hut0 : 0 ≤ F.u * F.tiny := mul_nonneg hu ht
  have huN : F.u * (|a * b| + |c * d|) ≤ F.u * N := mul_le_mul_of_nonneg_left hN hu
  have huN1 : F.u * N ≤ 1 / 1000 * N := mul_le_mul_of_nonneg_right hu1 (by linarith)
  have h3 : |F.mul a b + F.mul c d| ≤ N + F.u * N + 2 * (F.u * F.tiny) := by
    have e : F.mul a b + F.mul c d = (F.mul a b - a * b) + (F.mul c d - c * d) + (a * b + c * d) := by ring
    rw [e]
    have k1 := abs_add_le ((F.mul a b - a * b) + (F.mul c d - c * d)) (a * b + c * d)
    have k2 := abs_add_le (F.mul a b - a * b) (F.mul c d - c * d)
    have k3 := abs_add_le (a * b) (c * d)
    linarith
  have h4 := F.add_near (a := F.mul a b) (b := F.mul c d) (by linarith)
  rw [← hr] at h4
  have h5 := mul_le_mul_of_nonneg_left h3 hu
  have h6 : F.u * (F.u * N) ≤ 1 / 1000 * (F.u * N) := mul_le_mul_of_nonneg_right hu1 (mul_nonneg hu (by linarith))
  have h7 : F.u * (F.u * F.tiny) ≤ 1 / 1000 * (F.u * F.tiny) := mul_le_mul_of_nonneg_right hu1 hut0
  have e : r - (a * b + c * d) = (r - (F.mul a b + F.mul c d)) + ((F.mul a b - a * b) + (F.mul c d - c * d)) := by ring
  rw [e]
  have k1 := abs_add_le (r - (F.mul a b + F.mul c d)) ((F.mul a b - a * b) + (F.mul c d - c * d))
  have k2 := abs_add_le (F.mul a b - a * b) (F.mul c d - c * d)
  have huN0 : 0 ≤ F.u * N := mul_nonneg hu (by linarith)
  linarith

/-- twice a rounded number -/
theorem Rounding.twice_of {r x : ℝ} (h : |r - x| ≤ 8 / 5 * F.u) (hx : |x| ≤ 61 / 100) (hb : 2 ≤ F.big) (ht : F.tiny ≤ 1 / 100) :
    |F.mul (F.lit 2 0) r - 2 * x| ≤ 7 * F.u ∧ |F.mul (-F.lit 2 0) r - -2 * x| ≤ 7 * F.u := by
  have hu := F.u_nonneg
  have hu1 := F.u_small
  have h2 := F.two_near hb (by linarith)
  have hr : |r| ≤ 62 / 100 := by
    have e : r = (r - x) + x := by ring
    have := abs_add_le (r - x) x
    rw [← e] at this
    linarith
  have hut : F.u * F.tiny ≤ F.u * (1 / 100) := mul_le_mul_of_nonneg_left ht hu
  have h2a : |F.lit 2 0| ≤ 201 / 100 := by
    have e : F.lit 2 0 = (F.lit 2 0 - 2) + 2 := by ring
    have := abs_add_le (F.lit 2 0 - 2) 2
    rw [← e, abs_two] at this
    linarith
  have key : ∀ m l : ℝ, |l - m| ≤ 2 * F.u → |l| ≤ 201 / 100 → |m| = 2 → |F.mul l r - m * x| ≤ 7 * F.u := by
    intro m l h1 h3 h4
    have hp : |l * r| ≤ 5 / 4 := by
      rw [abs_mul]
      exact (mul_le_mul h3 hr (abs_nonneg _) (by norm_num)).trans (by norm_num)
    have k1 := F.mul_near (a := l) (b := r) (by linarith)
    have e : F.mul l r - m * x = (F.mul l r - l * r) + ((l - m) * r + m * (r - x)) := by ring
    rw [e]
    have k2 := abs_add_le (F.mul l r - l * r) ((l - m) * r + m * (r - x))
    have k3 := abs_add_le ((l - m) * r) (m * (r - x))
    rw [abs_mul, abs_mul, h4] at k3
    have k4 : |l - m| * |r| ≤ 2 * F.u * (62 / 100) := mul_le_mul h1 hr (abs_nonneg _) (by linarith)
    have k5 : F.u * |l * r| ≤ F.u * (5 / 4) := mul_le_mul_of_nonneg_left hp hu
    linarith
  refine ⟨key 2 _ h2 h2a abs_two, key (-2) _ ?_ ?_ (by rw [abs_neg, abs_two])⟩
  · rw [show -F.lit 2 0 - -2 = -(F.lit 2 0 - 2) by ring, abs_neg]; exact h2
  · rw [abs_neg]; exact h2a

/-- the five expressions, exactly -/
noncomputable def rpyQuad (q : Rot ℝ) : Fin 5 → ℝ
  | 0 => 2 * (q.y * q.z + q.w * q.x)
  | 1 => q.w * q.w - q.x * q.x - q.y * q.y + q.z * q.z
  | 2 => -2 * (q.x * q.z - q.w * q.y)
  | 3 => 2 * (q.x * q.y + q.w * q.z)
  | 4 => q.w * q.w + q.x * q.x - q.y * q.y - q.z * q.z

/-- the five expressions, rounded -/
noncomputable def rpyQuadF (F : Rounding) (q : Rot ℝ) : Fin 5 → ℝ
  | 0 => F.mul (F.lit 2 0) (F.add (F.mul q.y q.z) (F.mul q.w q.x))
  | 1 => F.add (F.sub (F.sub (F.mul q.w q.w) (F.mul q.x q.x)) (F.mul q.y q.y)) (F.mul q.z q.z)
  | 2 => F.mul (-F.lit 2 0) (F.sub (F.mul q.x q.z) (F.mul q.w q.y))
  | 3 => F.mul (F.lit 2 0) (F.add (F.mul q.x q.y) (F.mul q.w q.z))
  | 4 => F.sub (F.sub (F.add (F.mul q.w q.w) (F.mul q.x q.x)) (F.mul q.y q.y)) (F.mul q.z q.z)

theorem half_cauchy {a b c d N : ℝ} (h : a ^ 2 + b ^ 2 + c ^ 2 + d ^ 2 ≤ N) : |a * b| + |c * d| ≤ N / 2 := by
  rw [abs_mul, abs_mul]
  nlinarith [sq_nonneg (|a| - |b|), sq_nonneg (|c| - |d|), sq_abs a, sq_abs b, sq_abs c, sq_abs d]

theorem Rot.quat_sq (q : Rot ℝ) : ‖q.quat‖ ^ 2 = q.w ^ 2 + q.x ^ 2 + q.y ^ 2 + q.z ^ 2 := by
  rw [quat_norm_sq]; rfl

theorem rpyQuad_near (q : Rot ℝ) (hq : ‖q.quat‖ ≤ 11 / 10) (hb : 4 ≤ F.big) (ht : F.tiny ≤ 1 / 100) (k : Fin 5) :
    |rpyQuadF F q k - rpyQuad q k| ≤ 7 * F.u := by
  have hu := F.u_nonneg
  have hn : q.w ^ 2 + q.x ^ 2 + q.y ^ 2 + q.z ^ 2 ≤ 121 / 100 := by
    rw [← Rot.quat_sq]
    have := norm_nonneg q.quat
    nlinarith
  have hut : F.u * F.tiny ≤ F.u * (1 / 100) := mul_le_mul_of_nonneg_left ht hu
  have two : ∀ {a b c d : ℝ}, a ^ 2 + b ^ 2 + c ^ 2 + d ^ 2 ≤ 121 / 100 →
      |F.add (F.mul a b) (F.mul c d) - (a * b + c * d)| ≤ 8 / 5 * F.u ∧ |F.sub (F.mul a b) (F.mul c d) - (a * b - c * d)| ≤ 8 / 5 * F.u ∧
      |a * b + c * d| ≤ 61 / 100 ∧ |a * b - c * d| ≤ 61 / 100 := by
    intro a b c d h
    have h1 := half_cauchy h
    have k1 := F.dot2_add h1 (by linarith) rfl
    have k2 := F.dot2 h1 (by linarith) rfl
    have k3 := abs_add_le (a * b) (c * d)
    have k4 := abs_sub (a * b) (c * d)
    exact ⟨by linarith, by linarith, by linarith, by linarith⟩
  have four : ∀ {r : ℝ} (s2 s3 s4 : Bool), r = (if s4 then F.add else F.sub) ((if s3 then F.add else F.sub)
        ((if s2 then F.add else F.sub) (F.mul q.w q.w) (F.mul q.x q.x)) (F.mul q.y q.y)) (F.mul q.z q.z) →
      |r - (q.w * q.w + (if s2 then 1 else -1) * (q.x * q.x) + (if s3 then 1 else -1) * (q.y * q.y) + (if s4 then 1 else -1) * (q.z * q.z))| ≤
        7 * F.u := by
    intro r s2 s3 s4 hr
    have hN : |q.w * q.w| + |q.x * q.x| + |q.y * q.y| + |q.z * q.z| ≤ 121 / 100 := by
      rw [abs_mul_self, abs_mul_self, abs_mul_self, abs_mul_self]; nlinarith
    have := F.dot4 hN (by linarith) hr
    linarith
  match k with
  | 0 =>
    obtain ⟨h1, _, h2, _⟩ := two (a := q.y) (b := q.z) (c := q.w) (d := q.x) (by linarith)
    exact (F.twice_of h1 h2 (by linarith) ht).1
  | 1 =>
    have := four false false true rfl
    simp only [Bool.false_eq_true, if_false, if_true] at this
    rw [show rpyQuad q 1 = q.w * q.w + -1 * (q.x * q.x) + -1 * (q.y * q.y) + 1 * (q.z * q.z) by simp only [rpyQuad]; ring]
    exact this
  | 2 =>
    obtain ⟨_, h1, _, h2⟩ := two (a := q.x) (b := q.z) (c := q.w) (d := q.y) (by linarith)
    exact (F.twice_of h1 h2 (by linarith) ht).2
  | 3 =>
    obtain ⟨h1, _, h2, _⟩ := two (a := q.x) (b := q.y) (c := q.w) (d := q.z) (by linarith)
    exact (F.twice_of h1 h2 (by linarith) ht).1
  | 4 =>
    have := four true false false rfl
    simp only [Bool.false_eq_true, if_false, if_true] at this
    rw [show rpyQuad q 4 = q.w * q.w + 1 * (q.x * q.x) + -1 * (q.y * q.y) + -1 * (q.z * q.z) by simp only [rpyQuad]; ring]
    exact this

/-- the expressions of nearby rotations -/
theorem rpyQuad_pert (a b : Rot ℝ) (k : Fin 5) : |rpyQuad a k - rpyQuad b k| ≤ ‖a.quat - b.quat‖ * ‖a.quat + b.quat‖ := by
  have hu : ‖a.quat - b.quat‖ ^ 2 = (a.w - b.w) ^ 2 + (a.x - b.x) ^ 2 + (a.y - b.y) ^ 2 + (a.z - b.z) ^ 2 := by rw [quat_norm_sq]; rfl
  have hv : ‖a.quat + b.quat‖ ^ 2 = (a.w + b.w) ^ 2 + (a.x + b.x) ^ 2 + (a.y + b.y) ^ 2 + (a.z + b.z) ^ 2 := by rw [quat_norm_sq]; rfl
  have c4 : ∀ {x0 x1 x2 x3 y0 y1 y2 y3 : ℝ}, x0 ^ 2 + x1 ^ 2 + x2 ^ 2 + x3 ^ 2 = ‖a.quat - b.quat‖ ^ 2 →
      y0 ^ 2 + y1 ^ 2 + y2 ^ 2 + y3 ^ 2 = ‖a.quat + b.quat‖ ^ 2 → ∀ {z : ℝ}, |z| ≤ |x0 * y0| + |x1 * y1| + |x2 * y2| + |x3 * y3| →
      |z| ≤ ‖a.quat - b.quat‖ * ‖a.quat + b.quat‖ := fun h1 h2 _ h => h.trans (cauchy4 _ _ h1 h2)
  have tri : ∀ x y z w : ℝ, |x + y + z + w| ≤ |x| + |y| + |z| + |w| := by
    intro x y z w
    have k1 := abs_add_le (x + y + z) w
    have k2 := abs_add_le (x + y) z
    have k3 := abs_add_le x y
    linarith
  match k with
  | 0 =>
    refine c4 (x0 := a.y - b.y) (x1 := a.z - b.z) (x2 := a.w - b.w) (x3 := a.x - b.x) (y0 := a.z + b.z) (y1 := a.y + b.y)
      (y2 := a.x + b.x) (y3 := a.w + b.w) (by rw [hu]; ring) (by rw [hv]; ring) ?_
    refine le_trans (le_of_eq ?_) (tri _ _ _ _)
    simp only [rpyQuad]; congr 1; ring
  | 1 =>
    refine c4 (x0 := a.w - b.w) (x1 := -(a.x - b.x)) (x2 := -(a.y - b.y)) (x3 := a.z - b.z) (y0 := a.w + b.w) (y1 := a.x + b.x)
      (y2 := a.y + b.y) (y3 := a.z + b.z) (by rw [hu]; ring) (by rw [hv]) ?_
    refine le_trans (le_of_eq ?_) (tri _ _ _ _)
    simp only [rpyQuad]; congr 1; ring
  | 2 =>
    refine c4 (x0 := -(a.x - b.x)) (x1 := -(a.z - b.z)) (x2 := a.w - b.w) (x3 := a.y - b.y) (y0 := a.z + b.z) (y1 := a.x + b.x)
      (y2 := a.y + b.y) (y3 := a.w + b.w) (by rw [hu]; ring) (by rw [hv]; ring) ?_
    refine le_trans (le_of_eq ?_) (tri _ _ _ _)
    simp only [rpyQuad]; congr 1; ring
  | 3 =>
    refine c4 (x0 := a.x - b.x) (x1 := a.y - b.y) (x2 := a.w - b.w) (x3 := a.z - b.z) (y0 := a.y + b.y) (y1 := a.x + b.x)
      (y2 := a.z + b.z) (y3 := a.w + b.w) (by rw [hu]; ring) (by rw [hv]; ring) ?_
    refine le_trans (le_of_eq ?_) (tri _ _ _ _)
    simp only [rpyQuad]; congr 1; ring
  | 4 =>
    refine c4 (x0 := a.w - b.w) (x1 := a.x - b.x) (x2 := -(a.y - b.y)) (x3 := -(a.z - b.z)) (y0 := a.w + b.w) (y1 := a.x + b.x)
      (y2 := a.y + b.y) (y3 := a.z + b.z) (by rw [hu]; ring) (by rw [hv]) ?_
    refine le_trans (le_of_eq ?_) (tri _ _ _ _)
    simp only [rpyQuad]; congr 1; ring

/-! ### the angles -/

/-- The rounded angles of a rotation near the rotation with the angles `r`, `p`, `w`. -/
theorem Rounding.getRPY_near {η c r P p w : ℝ} (hi : InverseTrig F) (q' : Rot ℝ) (hp1 : -(Real.pi / 2) ≤ p) (hp2 : p ≤ Real.pi / 2)
    (hPc : Real.cos P = Real.cos p) (hPs : Real.sin P = Real.sin p) (hc : c ≤ Real.cos p) (hc0 : 1 / 50 ≤ c) (h : ‖q'.quat - (Rot.fromRPY (K := ℝ) r P w).quat‖ ≤ η) (hη : η + 4 * F.u ≤ 1 / 10 ^ 5)
    (hb : 4 ≤ F.big) (ht : F.tiny ≤ 1 / 100) {t : Vec3 ℝ} (htt : t = Rot.getRPY (K := Fl F) q') :
    ∃ i j : ℤ, |t.x - (r + 2 * Real.pi * i)| ≤ 20 * (η + 4 * F.u) / c ∧ |t.y - p| ≤ 20 * (η + 4 * F.u) / c ∧
      |t.z - (w + 2 * Real.pi * j)| ≤ 20 * (η + 4 * F.u) / c ∧ |t.x| ≤ 5 ∧ |t.y| ≤ 5 ∧ |t.z| ≤ 5 := by
  have hu := F.u_nonneg
  have hu1 := F.u_small
  have hη0 : 0 ≤ η := (norm_nonneg _).trans h
  have hone : ‖(Rot.fromRPY (K := ℝ) r P w).quat‖ = 1 := by
    rw [← abs_of_nonneg (norm_nonneg _), ← Real.sqrt_sq_eq_abs, Rot.quat_sq, Real.sqrt_eq_one, ← Rot.norm2_fromRPY r P w]
    simp only [Rot.norm2]; ring
  have hq' : ‖q'.quat‖ ≤ 1 + η := by
    have := norm_le_near h
    rwa [hone] at this
  have hsum : ‖q'.quat + (Rot.fromRPY (K := ℝ) r P w).quat‖ ≤ 21 / 10 := by
    have := norm_add_le q'.quat (Rot.fromRPY (K := ℝ) r P w).quat
    linarith
  have hrel : ∀ {y x : ℝ}, |x| ≤ 4 → Rounded F.u F.tiny y x → |y - x| ≤ 4 * F.u := by
    intro y x hx hy
    have : max |x| F.tiny ≤ 4 := max_le hx (by linarith)
    have := mul_le_mul_of_nonneg_left this hu
    unfold Rounded at hy
    linarith
  have hquad : ∀ k, |rpyQuadF F q' k - rpyQuad (Rot.fromRPY (K := ℝ) r P w) k| ≤ 21 / 10 * (η + 4 * F.u) := by
    intro k
    have h1 := rpyQuad_near (F := F) q' (by linarith) hb ht k
    have h2 := rpyQuad_pert q' (Rot.fromRPY (K := ℝ) r P w) k
    have h3 := mul_le_mul h hsum (norm_nonneg _) hη0
    have h4 := abs_sub_le (rpyQuadF F q' k) (rpyQuad q' k) (rpyQuad (Rot.fromRPY (K := ℝ) r P w) k)
    linarith
  obtain ⟨e1, e0, e4, e3, e2⟩ := Rot.fromRPY_entries r P w
  rw [hPc] at e1 e0 e4 e3
  rw [hPs] at e2
  have hc1 : c ≤ 1 := hc.trans (Real.cos_le_one p)
  have hζ : 0 ≤ η + 4 * F.u := by linarith
  have hdiv : 4 / 5 * (η + 4 * F.u) ≤ 4 / 5 * (η + 4 * F.u) / c := by
    rw [le_div_iff₀ (by linarith)]
    exact mul_le_of_le_one_right (by linarith) hc1
  have q0 := hquad 0
  have q1 := hquad 1
  have q2 := hquad 2
  have q3 := hquad 3
  have q4 := hquad 4
  simp only [rpyQuad, e0, e1, e3, e4] at q0 q1 q3 q4
  rw [show rpyQuad (Rot.fromRPY (K := ℝ) r P w) 2 = Real.sin p from by rw [← e2]; simp [rpyQuad, Rot.sarg]] at q2
  -- the sine of the pitch is inside the band
  have hsin : |Real.sin p| ≤ 9998 / 10000 := by
    apply abs_le_of_sq_le_sq _ (by norm_num)
    nlinarith [Real.sin_sq_add_cos_sq p]
  have hs2 : |rpyQuadF F q' 2| ≤ 9999 / 10000 := by
    have := abs_sub_abs_le_abs_sub (rpyQuadF F q' 2) (Real.sin p)
    linarith
  have hcut : 99999 / 100000 - 4 * F.u ≤ F.lit 99999 5 := by
    have h1 : |((99999 : Int) : ℝ) / 10 ^ 5| ≤ 1 := by norm_num
    have := hrel (by linarith) (F.lit_rounded 99999 5 (by linarith))
    have := (abs_le.mp this).1
    push_cast at this
    norm_num at this ⊢
    linarith
  have hform : Rot.getRPY (K := Fl F) q' = ⟨F.atan2 (rpyQuadF F q' 0) (rpyQuadF F q' 1), F.asin (rpyQuadF F q' 2),
      F.atan2 (rpyQuadF F q' 3) (rpyQuadF F q' 4)⟩ := by
    have hs := abs_le.mp hs2
    have n1 : ¬ rpyQuadF F q' 2 ≤ -F.lit 99999 5 := by intro hle; linarith
    have n2 : ¬ F.lit 99999 5 ≤ rpyQuadF F q' 2 := by intro hle; linarith
    have l1 : Scalar.le (K := Fl F) (Rot.sarg (K := Fl F) q') (-sargCut) = false := @decide_eq_false _ (Classical.dec _) n1
    have l2 : Scalar.le (K := Fl F) sargCut (Rot.sarg (K := Fl F) q') = false := @decide_eq_false _ (Classical.dec _) n2
    simp only [Rot.getRPY, l1, l2]
    rfl
  have hat : ∀ {A B r0 : ℝ}, |A - Real.cos p * Real.sin r0| ≤ 21 / 10 * (η + 4 * F.u) → |B - Real.cos p * Real.cos r0| ≤ 21 / 10 * (η + 4 * F.u) →
      (∃ k : ℤ, |F.atan2 A B - (r0 + 2 * Real.pi * k)| ≤ 20 * (η + 4 * F.u) / c) ∧ |F.atan2 A B| ≤ 5 := by
    intro A B r0 hA hB
    have hcp : 0 < Real.cos p := by linarith
    obtain ⟨k, hk⟩ := arg_near hcp (by linarith) hA hB
    have hab : |F.atan2 A B| ≤ 5 := by
      have h1 := hrel ((Complex.abs_arg_le_pi _).trans Real.pi_le_four) (hi.atan2 A B)
      have h2 := Complex.abs_arg_le_pi (⟨B, A⟩ : ℂ)
      have h3 := abs_sub_abs_le_abs_sub (F.atan2 A B) (Complex.arg ⟨B, A⟩)
      have := Real.pi_le_four
      linarith
    refine ⟨⟨k, ?_⟩, hab⟩
    have h1 := hrel ((Complex.abs_arg_le_pi _).trans Real.pi_le_four) (hi.atan2 A B)
    have h2 := abs_sub_le (F.atan2 A B) (Complex.arg ⟨B, A⟩) (r0 + 2 * Real.pi * k)
    have h3 : 8 * (21 / 10 * (η + 4 * F.u)) / Real.cos p ≤ 8 * (21 / 10 * (η + 4 * F.u)) / c :=
      div_le_div_of_nonneg_left (by linarith) (by linarith) hc
    have h4 : 8 * (21 / 10 * (η + 4 * F.u)) / c + 4 / 5 * (η + 4 * F.u) / c + 12 / 5 * (η + 4 * F.u) / c = 20 * (η + 4 * F.u) / c := by ring
    have h5 : 12 / 5 * (η + 4 * F.u) / c = 3 * (4 / 5 * (η + 4 * F.u) / c) := by ring
    linarith
  obtain ⟨⟨i, hi1⟩, hi2⟩ := hat q0 q1
  obtain ⟨⟨j, hj1⟩, hj2⟩ := hat q3 q4
  refine ⟨i, j, ?_, ?_, ?_, ?_, ?_, ?_⟩
  · rw [htt, hform]; exact hi1
  · rw [htt, hform]
    have hs := abs_le.mp hs2
    have h1 := arcsin_near hp1 hp2 (by linarith) hc (by linarith) (by linarith) q2
    have h2 := hrel ((abs_le.mpr ⟨Real.neg_pi_div_two_le_arcsin _, Real.arcsin_le_pi_div_two _⟩).trans (by have := Real.pi_le_four; linarith)) (hi.asin (hs2.trans (by norm_num)))
    have h3 := abs_sub_le (F.asin (rpyQuadF F q' 2)) (Real.arcsin (rpyQuadF F q' 2)) p
    have h4 : 4 * (21 / 10 * (η + 4 * F.u)) / c + 4 / 5 * (η + 4 * F.u) / c + 54 / 5 * (η + 4 * F.u) / c = 20 * (η + 4 * F.u) / c := by ring
    have h5 : 54 / 5 * (η + 4 * F.u) / c = 27 / 2 * (4 / 5 * (η + 4 * F.u) / c) := by ring
    show |F.asin (rpyQuadF F q' 2) - p| ≤ _
    linarith
  · rw [htt, hform]; exact hj1
  · rw [htt, hform]; exact hi2
  · rw [htt, hform]
    have h2 := hrel ((abs_le.mpr ⟨Real.neg_pi_div_two_le_arcsin _, Real.arcsin_le_pi_div_two _⟩).trans (by have := Real.pi_le_four; linarith))
      (hi.asin (hs2.trans (by norm_num)))
    have h3 := abs_sub_abs_le_abs_sub (F.asin (rpyQuadF F q' 2)) (Real.arcsin (rpyQuadF F q' 2))
    have h4 : |Real.arcsin (rpyQuadF F q' 2)| ≤ Real.pi / 2 := abs_le.mpr ⟨Real.neg_pi_div_two_le_arcsin _, Real.arcsin_le_pi_div_two _⟩
    have := Real.pi_le_four
    show |F.asin (rpyQuadF F q' 2)| ≤ 5
    linarith
  · rw [htt, hform]; exact hj2

end Tinyfk
