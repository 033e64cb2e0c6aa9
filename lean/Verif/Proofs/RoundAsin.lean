import Mathlib.Analysis.SpecialFunctions.Trigonometric.Inverse
import Verif.Proofs.RoundRpy
import Verif.Proofs.RpyPole
import Verif.Spec.Inverse

/-!
# Rounding errors of the angles read from a rotation
-/

namespace Tinyfk

open Quaternion

/-! ### Angles -/

/-- the direction of a point that is `e` off in both coordinates -/
theorem direction_near {X Y X' Y' e f n a' : ℝ} (hx : |X' - X| ≤ e) (hy : |Y' - Y| ≤ e) (hn : n = √(X ^ 2 + Y ^ 2)) (hn0 : 0 < n)
    (ha : |a' - Complex.arg ⟨X', Y'⟩| ≤ f) :
    |Real.cos a' - Real.cos (Complex.arg ⟨X, Y⟩)| ≤ 3 * e / n + f ∧ |Real.sin a' - Real.sin (Complex.arg ⟨X, Y⟩)| ≤ 3 * e / n + f := by
  obtain ⟨c1, s1⟩ := Rot.polar_arg X Y
  obtain ⟨c2, s2⟩ := Rot.polar_arg X' Y'
  have hN : ∀ a b : ℝ, ‖(⟨a, b⟩ : ℂ)‖ = √(a ^ 2 + b ^ 2) := fun a b => by
    rw [Complex.norm_def, Complex.normSq_apply]; congr 1; simp; ring
  have hd : |√(X ^ 2 + Y ^ 2) - √(X' ^ 2 + Y' ^ 2)| ≤ 2 * e := by
    rw [← hN, ← hN, abs_sub_comm]
    refine (abs_norm_sub_norm_le _ _).trans ((Complex.norm_le_abs_re_add_abs_im _).trans ?_)
    simp only [Complex.sub_re, Complex.sub_im]
    linarith
  rw [← hn] at c1 s1 hd
  generalize √(X' ^ 2 + Y' ^ 2) = n' at *
  generalize Complex.arg ⟨X', Y'⟩ = a at *
  generalize Complex.arg ⟨X, Y⟩ = b at *
  have key : ∀ {p q Z Z' : ℝ}, |p| ≤ 1 → n' * p = Z' → n * q = Z → |Z' - Z| ≤ e → |p - q| ≤ 3 * e / n := by
    intro p q Z Z' hp h1 h2 h3
    rw [le_div_iff₀ hn0, ← abs_of_pos hn0, ← abs_mul, show (p - q) * n = (n - n') * p + (Z' - Z) by rw [← h1, ← h2]; ring]
    refine (abs_add_le _ _).trans ?_
    rw [abs_mul]
    have := mul_le_mul hd hp (abs_nonneg _) (by linarith [abs_nonneg (n - n')])
    linarith
  have k1 := key (Real.abs_cos_le_one a) c2 c1 hx
  have k2 := key (Real.abs_sin_le_one a) s2 s1 hy
  have l1 := abs_cos_sub_le a' a
  have l2 := abs_sin_sub_le a' a
  have m1 := abs_add_le (Real.cos a' - Real.cos a) (Real.cos a - Real.cos b)
  have m2 := abs_add_le (Real.sin a' - Real.sin a) (Real.sin a - Real.sin b)
  rw [sub_add_sub_cancel] at m1 m2
  constructor <;> linarith

/-- the angle of a sine that is `e` off -/
theorem sine_near {s s' e f c p' : ℝ} (h : |s' - s| ≤ e) (h1 : |s| ≤ 1) (h1' : |s'| ≤ 1) (hc : c = √(1 - s ^ 2)) (hc0 : 0 < c)
    (hp : |p' - Real.arcsin s'| ≤ f) :
    |Real.cos p' - Real.cos (Real.arcsin s)| ≤ 2 * e / c + f ∧ |Real.sin p' - Real.sin (Real.arcsin s)| ≤ e + f := by
  obtain ⟨a1, a2⟩ := abs_le.mp h1
  obtain ⟨b1, b2⟩ := abs_le.mp h1'
  have k2 : |Real.sin (Real.arcsin s') - Real.sin (Real.arcsin s)| ≤ e := by
    rw [Real.sin_arcsin b1 b2, Real.sin_arcsin a1 a2]; exact h
  have k1 : |Real.cos (Real.arcsin s') - Real.cos (Real.arcsin s)| ≤ 2 * e / c := by
    rw [Real.cos_arcsin, Real.cos_arcsin, ← hc, le_div_iff₀ hc0]
    have hs' : 0 ≤ 1 - s' ^ 2 := by nlinarith
    have hs : 0 ≤ 1 - s ^ 2 := by nlinarith
    have q := Real.sq_sqrt hs'
    have q0 := Real.sqrt_nonneg (1 - s' ^ 2)
    have r := Real.sq_sqrt hs
    rw [← hc] at r
    generalize √(1 - s' ^ 2) = c' at *
    have e1 : |c' - c| * (c' + c) ≤ 2 * e := by
      rw [← abs_of_nonneg (show 0 ≤ c' + c by linarith), ← abs_mul, show (c' - c) * (c' + c) = -((s' - s) * (s' + s)) by linear_combination q - r,
        abs_neg, abs_mul]
      have := abs_add_le s' s
      have := mul_le_mul h (show |s' + s| ≤ 2 by linarith) (abs_nonneg _) (by linarith [abs_nonneg (s' - s)])
      linarith
    have := mul_nonneg (abs_nonneg (c' - c)) q0
    linarith
  have l1 := abs_cos_sub_le p' (Real.arcsin s')
  have l2 := abs_sin_sub_le p' (Real.arcsin s')
  have m1 := abs_add_le (Real.cos p' - Real.cos (Real.arcsin s')) (Real.cos (Real.arcsin s') - Real.cos (Real.arcsin s))
  have m2 := abs_add_le (Real.sin p' - Real.sin (Real.arcsin s')) (Real.sin (Real.arcsin s') - Real.sin (Real.arcsin s))
  rw [sub_add_sub_cancel] at m1 m2
  constructor <;> linarith

/-! ### The matrix of three angles -/

theorem rpy_matrix (r p w : ℝ) : rotZ w * rotY p * rotX r =
    !![Real.cos w * Real.cos p, Real.cos w * Real.sin p * Real.sin r - Real.sin w * Real.cos r, Real.cos w * Real.sin p * Real.cos r + Real.sin w * Real.sin r;
      Real.sin w * Real.cos p, Real.sin w * Real.sin p * Real.sin r + Real.cos w * Real.cos r, Real.sin w * Real.sin p * Real.cos r - Real.cos w * Real.sin r;
      -Real.sin p, Real.cos p * Real.sin r, Real.cos p * Real.cos r] := by
  ext i j
  fin_cases i <;> fin_cases j <;> simp [rotX, rotY, rotZ] <;> ring

theorem prod2_near {a b a' b' e : ℝ} (ha : |a' - a| ≤ e) (hb : |b' - b| ≤ e) (h1 : |a'| ≤ 1) (h2 : |b| ≤ 1) :
    |a' * b' - a * b| ≤ 2 * e := by
  have he : 0 ≤ e := (abs_nonneg _).trans ha
  rw [show a' * b' - a * b = (a' - a) * b + a' * (b' - b) by ring]
  refine (abs_add_le _ _).trans ?_
  rw [abs_mul, abs_mul]
  have := mul_le_mul ha h2 (abs_nonneg _) he
  have := mul_le_mul h1 hb (abs_nonneg _) zero_le_one
  linarith

theorem prod3_near {a b c a' b' c' e : ℝ} (ha : |a' - a| ≤ e) (hb : |b' - b| ≤ e) (hc : |c' - c| ≤ e) (h1 : |a'| ≤ 1) (h2 : |b| ≤ 1)
    (h3 : |b'| ≤ 1) (h4 : |c| ≤ 1) : |a' * b' * c' - a * b * c| ≤ 3 * e := by
  have he : 0 ≤ e := (abs_nonneg _).trans ha
  have k := prod2_near ha hb h1 h2
  rw [show a' * b' * c' - a * b * c = (a' * b' - a * b) * c + a' * b' * (c' - c) by ring]
  refine (abs_add_le _ _).trans ?_
  rw [abs_mul, abs_mul]
  have := mul_le_mul k h4 (abs_nonneg _) (by linarith)
  have := mul_le_mul (show |a' * b'| ≤ 1 by rw [abs_mul]; exact mul_le_one₀ h1 (abs_nonneg _) h3) hc (abs_nonneg _) zero_le_one
  linarith

/-- Angles whose sines and cosines are within `e` give matrices within `5 e`. -/
theorem rpy_matrix_near {r p w r' p' w' e : ℝ} (h1 : |Real.cos r' - Real.cos r| ≤ e) (h2 : |Real.sin r' - Real.sin r| ≤ e)
    (h3 : |Real.cos p' - Real.cos p| ≤ e) (h4 : |Real.sin p' - Real.sin p| ≤ e) (h5 : |Real.cos w' - Real.cos w| ≤ e)
    (h6 : |Real.sin w' - Real.sin w| ≤ e) (i j : Fin 3) : |(rotZ w' * rotY p' * rotX r') i j - (rotZ w * rotY p * rotX r) i j| ≤ 5 * e := by
  have he : 0 ≤ e := (abs_nonneg _).trans h1
  have C := Real.abs_cos_le_one
  have S := Real.abs_sin_le_one
  have comb : ∀ {x y x' y' : ℝ}, |x' - x| ≤ 3 * e → |y' - y| ≤ 2 * e → |x' + y' - (x + y)| ≤ 5 * e ∧ |x' - y' - (x - y)| ≤ 5 * e := by
    intro x y x' y' hx hy
    constructor
    · have := abs_add_le (x' - x) (y' - y)
      rw [show x' + y' - (x + y) = x' - x + (y' - y) by ring]; linarith
    · have := abs_sub (x' - x) (y' - y)
      rw [show x' - y' - (x - y) = x' - x - (y' - y) by ring]; linarith
  rw [rpy_matrix, rpy_matrix]
  fin_cases i <;> fin_cases j
  · exact (prod2_near h5 h3 (C _) (C _)).trans (by linarith)
  · exact (comb (prod3_near h5 h4 h2 (C _) (S _) (S _) (S _)) (prod2_near h6 h1 (S _) (C _))).2
  · exact (comb (prod3_near h5 h4 h1 (C _) (S _) (S _) (C _)) (prod2_near h6 h2 (S _) (S _))).1
  · exact (prod2_near h6 h3 (S _) (C _)).trans (by linarith)
  · exact (comb (prod3_near h6 h4 h2 (S _) (S _) (S _) (S _)) (prod2_near h5 h1 (C _) (C _))).1
  · exact (comb (prod3_near h6 h4 h1 (S _) (S _) (S _) (C _)) (prod2_near h5 h2 (C _) (S _))).2
  · show |-Real.sin p' - -Real.sin p| ≤ 5 * e
    rw [show -Real.sin p' - -Real.sin p = -(Real.sin p' - Real.sin p) by ring, abs_neg]
    linarith
  · exact (prod2_near h3 h2 (C _) (S _)).trans (by linarith)
  · exact (prod2_near h3 h1 (C _) (C _)).trans (by linarith)

/-! ### The numbers that the angles are read from -/

section
variable (F : Rounding)

theorem Rounding.add_fine {η c d x y x' y' : ℝ} (hu : F.u ≤ η) (hη : η ≤ 1 / 1000000) (hx : |x' - x| ≤ c * η) (hy : |y' - y| ≤ d * η)
    (hx1 : |x| ≤ 4) (hy1 : |y| ≤ 4) (hc : c ≤ 100) (hd : d ≤ 100) (hb : 9 ≤ F.big) (ht : F.tiny ≤ 1 / 2) :
    |F.add x' y' - (x + y)| ≤ (c + d + 9) * η ∧ |F.sub x' y' - (x - y)| ≤ (c + d + 9) * η := by
  have h0 := F.u_nonneg
  have hη0 := h0.trans hu
  have a1 : c * η ≤ 1 / 10000 := by nlinarith
  have a2 : d * η ≤ 1 / 10000 := by nlinarith
  have e3 := mul_le_mul_of_nonneg_left ht h0
  have bd : ∀ {z z' g : ℝ}, |z' - z| ≤ (c + d) * η → |z| ≤ 8 → |g - z'| ≤ F.u * |z'| + F.u * F.tiny → |g - z| ≤ (c + d + 9) * η := by
    intro z z' g h1 h2 h3
    have h4 := abs_add_le (z' - z) z
    rw [sub_add_cancel] at h4
    have h5 := mul_le_mul_of_nonneg_left (show |z'| ≤ 81 / 10 by linarith) h0
    have h6 := abs_add_le (g - z') (z' - z)
    rw [sub_add_sub_cancel] at h6
    linarith
  have n8 : ∀ {z z' : ℝ}, |z' - z| ≤ (c + d) * η → |z| ≤ 8 → |z'| ≤ F.big := by
    intro z z' h1 h2
    have h4 := abs_add_le (z' - z) z
    rw [sub_add_cancel] at h4
    linarith
  have p1 : |x' + y' - (x + y)| ≤ (c + d) * η := by
    have := abs_add_le (x' - x) (y' - y)
    rw [show x' + y' - (x + y) = x' - x + (y' - y) by ring]; linarith
  have p2 : |x' - y' - (x - y)| ≤ (c + d) * η := by
    have := abs_sub (x' - x) (y' - y)
    rw [show x' - y' - (x - y) = x' - x - (y' - y) by ring]; linarith
  have q1 : |x + y| ≤ 8 := by linarith [abs_add_le x y]
  have q2 : |x - y| ≤ 8 := by linarith [abs_sub x y]
  exact ⟨bd p1 q1 ((F.add_rounded (n8 p1 q1)).le h0 F.tiny_nonneg), bd p2 q2 ((F.sub_rounded (n8 p2 q2)).le h0 F.tiny_nonneg)⟩

theorem Rounding.twice_fine {η t c y y' : ℝ} (hu : F.u ≤ η) (hη : η ≤ 1 / 1000000) (hc : |c| = 2) (ht' : |t - c| ≤ 2 * η)
    (hy : |y' - y| ≤ 17 * η) (hy1 : |y| ≤ 2) (hb : 9 ≤ F.big) (ht : F.tiny ≤ 1 / 2) : |F.mul t y' - c * y| ≤ 45 * η := by
  have h0 := F.u_nonneg
  have hη0 := h0.trans hu
  have b1 := abs_add_le (y' - y) y
  rw [sub_add_cancel] at b1
  have b2 : |y'| ≤ 201 / 100 := by linarith
  have p : |t * y' - c * y| ≤ 39 * η := by
    rw [show t * y' - c * y = (t - c) * y' + c * (y' - y) by ring]
    refine (abs_add_le _ _).trans ?_
    rw [abs_mul, abs_mul, hc]
    have := mul_le_mul ht' b2 (abs_nonneg _) (by linarith)
    linarith
  have q : |c * y| ≤ 4 := by rw [abs_mul, hc]; linarith
  have b3 := abs_add_le (t * y' - c * y) (c * y)
  rw [sub_add_cancel] at b3
  have h1 := F.mul_near (a := t) (b := y') (by linarith)
  have h2 := mul_le_mul_of_nonneg_left (show |t * y'| ≤ 41 / 10 by linarith) h0
  have h3 := mul_le_mul_of_nonneg_left ht h0
  have h4 := abs_add_le (F.mul t y' - t * y') (t * y' - c * y)
  rw [sub_add_sub_cancel] at h4
  linarith

/-- the five numbers that the angles are read from -/
theorem Rounding.entries_near {η x y z w x' y' z' w' : ℝ} (hu : F.u ≤ η) (hη : η ≤ 1 / 1000000) (hx : |x' - x| ≤ η) (hy : |y' - y| ≤ η)
    (hz : |z' - z| ≤ η) (hw : |w' - w| ≤ η) (hx1 : |x| ≤ 1) (hy1 : |y| ≤ 1) (hz1 : |z| ≤ 1) (hw1 : |w| ≤ 1) (hb : 9 ≤ F.big)
    (ht : F.tiny ≤ 1 / 2) :
    |F.mul (-F.lit 2 0) (F.sub (F.mul x' z') (F.mul w' y')) - -2 * (x * z - w * y)| ≤ 45 * η ∧
    |F.mul (F.lit 2 0) (F.add (F.mul y' z') (F.mul w' x')) - 2 * (y * z + w * x)| ≤ 45 * η ∧
    |F.add (F.sub (F.sub (F.mul w' w') (F.mul x' x')) (F.mul y' y')) (F.mul z' z') - (w * w - x * x - y * y + z * z)| ≤ 45 * η ∧
    |F.mul (F.lit 2 0) (F.add (F.mul x' y') (F.mul w' z')) - 2 * (x * y + w * z)| ≤ 45 * η ∧
    |F.sub (F.sub (F.add (F.mul w' w') (F.mul x' x')) (F.mul y' y')) (F.mul z' z') - (w * w + x * x - y * y - z * z)| ≤ 45 * η := by
  have h0 := F.u_nonneg
  have hη0 := h0.trans hu
  have hlit : |F.lit 2 0 - 2| ≤ 2 * η := by
    have e : ((2 : Int) : ℝ) / 10 ^ 0 = 2 := by norm_num
    have h := F.lit_rounded 2 0 (by rw [e, abs_of_pos] <;> linarith)
    unfold Rounded at h
    rw [e, show |(2 : ℝ)| = 2 by norm_num, max_eq_left (by linarith)] at h
    linarith
  have hlit' : |-F.lit 2 0 - -2| ≤ 2 * η := by
    rw [show -F.lit 2 0 - -2 = -(F.lit 2 0 - 2) by ring, abs_neg]; exact hlit
  have M : ∀ {a b a' b' : ℝ}, |a' - a| ≤ η → |b' - b| ≤ η → |a| ≤ 1 → |b| ≤ 1 → |F.mul a' b' - a * b| ≤ 4 * η ∧ |a * b| ≤ 1 := by
    intro a b a' b' k1 k2 k3 k4
    have := F.mul_unit (c := 1) (d := 1) hu (by linarith) (by norm_num) (by norm_num) (by norm_num) (by norm_num)
      (show |a' - a| ≤ 1 * η by linarith) (show |b' - b| ≤ 1 * η by linarith) k3 k4 (by linarith) ht
    exact ⟨this.1.trans (by linarith), this.2⟩
  have P : ∀ {a b a' b' : ℝ}, |a' - a| ≤ 4 * η → |b' - b| ≤ 4 * η → |a| ≤ 1 → |b| ≤ 1 →
      (|F.add a' b' - (a + b)| ≤ 17 * η ∧ |a + b| ≤ 2) ∧ (|F.sub a' b' - (a - b)| ≤ 17 * η ∧ |a - b| ≤ 2) := by
    intro a b a' b' k1 k2 k3 k4
    obtain ⟨m1, m2⟩ := F.add_fine hu hη k1 k2 (by linarith) (by linarith) (by norm_num) (by norm_num) hb ht
    exact ⟨⟨m1.trans (by linarith), by linarith [abs_add_le a b]⟩, ⟨m2.trans (by linarith), by linarith [abs_sub a b]⟩⟩
  have Q : ∀ {a b a' b' : ℝ}, |a' - a| ≤ 17 * η → |b' - b| ≤ 4 * η → |a| ≤ 2 → |b| ≤ 1 → |F.sub a' b' - (a - b)| ≤ 30 * η ∧ |a - b| ≤ 3 := by
    intro a b a' b' k1 k2 k3 k4
    obtain ⟨_, m2⟩ := F.add_fine hu hη k1 k2 (by linarith) (by linarith) (by norm_num) (by norm_num) hb ht
    exact ⟨m2.trans (by linarith), by linarith [abs_sub a b]⟩
  have R : ∀ {a b a' b' : ℝ}, |a' - a| ≤ 30 * η → |b' - b| ≤ 4 * η → |a| ≤ 3 → |b| ≤ 1 →
      |F.add a' b' - (a + b)| ≤ 45 * η ∧ |F.sub a' b' - (a - b)| ≤ 45 * η := by
    intro a b a' b' k1 k2 k3 k4
    obtain ⟨m1, m2⟩ := F.add_fine hu hη k1 k2 (by linarith) (by linarith) (by norm_num) (by norm_num) hb ht
    exact ⟨m1.trans (by linarith), m2.trans (by linarith)⟩
  obtain ⟨ww, ww1⟩ := M hw hw hw1 hw1
  obtain ⟨xx, xx1⟩ := M hx hx hx1 hx1
  obtain ⟨yy, yy1⟩ := M hy hy hy1 hy1
  obtain ⟨zz, zz1⟩ := M hz hz hz1 hz1
  obtain ⟨xz, xz1⟩ := M hx hz hx1 hz1
  obtain ⟨wy, wy1⟩ := M hw hy hw1 hy1
  obtain ⟨yz, yz1⟩ := M hy hz hy1 hz1
  obtain ⟨wx, wx1⟩ := M hw hx hw1 hx1
  obtain ⟨xy, xy1⟩ := M hx hy hx1 hy1
  obtain ⟨wz, wz1⟩ := M hw hz hw1 hz1
  refine ⟨?_, ?_, ?_, ?_, ?_⟩
  · obtain ⟨k1, k2⟩ := (P xz wy xz1 wy1).2
    exact F.twice_fine hu hη (by norm_num) hlit' k1 k2 hb ht
  · obtain ⟨k1, k2⟩ := (P yz wx yz1 wx1).1
    exact F.twice_fine hu hη (by norm_num) hlit k1 k2 hb ht
  · obtain ⟨k1, k2⟩ := (P ww xx ww1 xx1).2
    obtain ⟨k3, k4⟩ := Q k1 yy k2 yy1
    exact (R k3 zz k4 zz1).1
  · obtain ⟨k1, k2⟩ := (P xy wz xy1 wz1).1
    exact F.twice_fine hu hη (by norm_num) hlit k1 k2 hb ht
  · obtain ⟨k1, k2⟩ := (P ww xx ww1 xx1).1
    obtain ⟨k3, k4⟩ := Q k1 yy k2 yy1
    exact (R k3 zz k4 zz1).2

variable {F}

/-- the rounded number that is compared with the cut-off -/
noncomputable def Rounding.sarg (F : Rounding) (q : Rot ℝ) : ℝ := F.mul (-F.lit 2 0) (F.sub (F.mul q.x q.z) (F.mul q.w q.y))

theorem Rounding.cut_near (hb : 9 ≤ F.big) (ht : F.tiny ≤ 1 / 2) : |F.lit 99999 5 - 99999 / 100000| ≤ F.u := by
  have h0 := F.u_nonneg
  have e : ((99999 : Int) : ℝ) / 10 ^ 5 = 99999 / 100000 := by norm_num
  have hl := F.lit_rounded 99999 5 (by rw [e, abs_of_pos] <;> linarith)
  unfold Rounded at hl
  rw [e, show |(99999 / 100000 : ℝ)| = 99999 / 100000 by norm_num, max_eq_left (by linarith)] at hl
  linarith

/-- between the cut-offs the rounded angles are these -/
theorem Rounding.getRPY_band {q' : Rot ℝ} (h1 : -F.lit 99999 5 < F.sarg q') (h2 : F.sarg q' < F.lit 99999 5) :
    Rot.getRPY (K := Fl F) q' =
      ⟨F.atan2 (F.mul (F.lit 2 0) (F.add (F.mul q'.y q'.z) (F.mul q'.w q'.x)))
        (F.add (F.sub (F.sub (F.mul q'.w q'.w) (F.mul q'.x q'.x)) (F.mul q'.y q'.y)) (F.mul q'.z q'.z)),
       F.asin (F.sarg q'),
       F.atan2 (F.mul (F.lit 2 0) (F.add (F.mul q'.x q'.y) (F.mul q'.w q'.z)))
        (F.sub (F.sub (F.add (F.mul q'.w q'.w) (F.mul q'.x q'.x)) (F.mul q'.y q'.y)) (F.mul q'.z q'.z))⟩ := by
  have n1 : ¬ Scalar.le (K := Fl F) (Rot.sarg (K := Fl F) q') (-sargCut) = true := by
    show ¬ @decide (F.sarg q' ≤ -F.lit 99999 5) (Classical.dec _) = true
    simp only [decide_eq_true_eq]
    linarith
  have n2 : ¬ Scalar.le (K := Fl F) sargCut (Rot.sarg (K := Fl F) q') = true := by
    show ¬ @decide (F.lit 99999 5 ≤ F.sarg q') (Classical.dec _) = true
    simp only [decide_eq_true_eq]
    linarith
  unfold Rot.getRPY
  simp only
  rw [if_neg n1, if_neg n2]
  rfl

/-- beyond the cut-offs they are these -/
theorem Rounding.getRPY_low {q' : Rot ℝ} (h : F.sarg q' ≤ -F.lit 99999 5) :
    Rot.getRPY (K := Fl F) q' = ⟨(0 : ℝ), -F.lit 157079632679489661923 20, F.mul (F.lit 2 0) (F.atan2 q'.x (-q'.y))⟩ := by
  have n1 : Scalar.le (K := Fl F) (Rot.sarg (K := Fl F) q') (-sargCut) = true := by
    show @decide (F.sarg q' ≤ -F.lit 99999 5) (Classical.dec _) = true
    simpa only [decide_eq_true_eq] using h
  unfold Rot.getRPY
  simp only
  rw [if_pos n1]
  rfl

theorem Rounding.getRPY_high {q' : Rot ℝ} (h1 : -F.lit 99999 5 < F.sarg q') (h2 : F.lit 99999 5 ≤ F.sarg q') :
    Rot.getRPY (K := Fl F) q' = ⟨(0 : ℝ), F.lit 157079632679489661923 20, F.mul (F.lit 2 0) (F.atan2 (-q'.x) q'.y)⟩ := by
  have n1 : ¬ Scalar.le (K := Fl F) (Rot.sarg (K := Fl F) q') (-sargCut) = true := by
    show ¬ @decide (F.sarg q' ≤ -F.lit 99999 5) (Classical.dec _) = true
    simp only [decide_eq_true_eq]
    linarith
  have n2 : Scalar.le (K := Fl F) sargCut (Rot.sarg (K := Fl F) q') = true := by
    show @decide (F.lit 99999 5 ≤ F.sarg q') (Classical.dec _) = true
    simpa only [decide_eq_true_eq] using h2
  unfold Rot.getRPY
  simp only
  rw [if_neg n1, if_pos n2]
  rfl

/-- a quaternion near a unit quaternion, by components -/
theorem Rot.near_components {η : ℝ} {q' q : Rot ℝ} (hη0 : 0 ≤ η) (hq : q.norm2 = 1) (hd : Rot.dist q' q ≤ η) :
    (|q'.x - q.x| ≤ η ∧ |q'.y - q.y| ≤ η ∧ |q'.z - q.z| ≤ η ∧ |q'.w - q.w| ≤ η) ∧ (|q.x| ≤ 1 ∧ |q.y| ≤ 1 ∧ |q.z| ≤ 1 ∧ |q.w| ≤ 1) ∧
      q.x ^ 2 + q.y ^ 2 + q.z ^ 2 + q.w ^ 2 = 1 := by
  have hn : q.x ^ 2 + q.y ^ 2 + q.z ^ 2 + q.w ^ 2 = 1 := by rw [← hq]; simp [Rot.norm2]; ring
  have d2 : (q'.x - q.x) ^ 2 + (q'.y - q.y) ^ 2 + (q'.z - q.z) ^ 2 + (q'.w - q.w) ^ 2 ≤ η ^ 2 := (Real.sqrt_le_left hη0).mp hd
  have one : ∀ {a : ℝ}, a ^ 2 ≤ 1 → |a| ≤ 1 := fun h => abs_le_one_iff_mul_self_le_one.mpr (by nlinarith)
  have sx := sq_nonneg q.x
  have sy := sq_nonneg q.y
  have sz := sq_nonneg q.z
  have sw := sq_nonneg q.w
  have tx := sq_nonneg (q'.x - q.x)
  have ty := sq_nonneg (q'.y - q.y)
  have tz := sq_nonneg (q'.z - q.z)
  have tw := sq_nonneg (q'.w - q.w)
  exact ⟨⟨abs_le_of_sq_le_sq (by linarith) hη0, abs_le_of_sq_le_sq (by linarith) hη0, abs_le_of_sq_le_sq (by linarith) hη0,
    abs_le_of_sq_le_sq (by linarith) hη0⟩, ⟨one (by linarith), one (by linarith), one (by linarith), one (by linarith)⟩, hn⟩

theorem Rounding.sarg_near {η : ℝ} {q' q : Rot ℝ} (hu : F.u ≤ η) (hη : η ≤ 1 / 1000000) (hb : 9 ≤ F.big) (ht : F.tiny ≤ 1 / 2)
    (hq : q.norm2 = 1) (hd : Rot.dist q' q ≤ η) : |F.sarg q' - q.sarg| ≤ 45 * η := by
  obtain ⟨⟨dx, dy, dz, dw⟩, ⟨x1, y1, z1, w1⟩, _⟩ := Rot.near_components (F.u_nonneg.trans hu) hq hd
  have := (F.entries_near hu hη dx dy dz dw x1 y1 z1 w1 hb ht).1
  rwa [show -2 * (q.x * q.z - q.w * q.y) = q.sarg by simp [Rot.sarg]] at this

/-- The rounded angles of a rotation, between the cut-offs: off by the error of the quaternion over the cosine of the pitch. -/
theorem Rounding.getRPY_regular {η : ℝ} {q' : Rot (Fl F)} {q : Rot ℝ} (hF : InverseTrig F) (hu : F.u ≤ η) (hη : η ≤ 1 / 1000000) (hb : 9 ≤ F.big)
    (ht : F.tiny ≤ 1 / 2) (hq : q.norm2 = 1) (hd : Rot.dist q'.real q ≤ η) (h1 : -F.lit 99999 5 < F.sarg q'.real)
    (h2 : F.sarg q'.real < F.lit 99999 5) (hs : |q.sarg| < 1) (i j : Fin 3) :
    |(rotZ q'.getRPY.real.z * rotY q'.getRPY.real.y * rotX q'.getRPY.real.x) i j - q.matrix i j| ≤ 700 * η / √(1 - q.sarg ^ 2) := by
  have h0 := F.u_nonneg
  have hη0 := h0.trans hu
  have hsd : q.sarg = -2 * (q.x * q.z - q.w * q.y) := by simp [Rot.sarg]
  obtain ⟨⟨dx, dy, dz, dw⟩, ⟨x1, y1, z1, w1⟩, hn⟩ := Rot.near_components hη0 hq hd
  obtain ⟨_, eY, eX, eV, eU⟩ := F.entries_near hu hη dx dy dz dw x1 y1 z1 w1 hb ht
  have es := F.sarg_near hu hη hb ht hq hd
  have cut := F.cut_near hb ht
  clear dx dy dz dw x1 y1 z1 w1 hd
  have band := Rounding.getRPY_band (F := F) (q' := q'.real) h1 h2
  rw [← Rot.matrix_angles hq hs]
  have e3 : q'.getRPY = Rot.getRPY (K := Fl F) q'.real := rfl
  rw [e3, band]
  obtain ⟨c, hc⟩ : ∃ c, c = √(1 - q.sarg ^ 2) := ⟨_, rfl⟩
  have hc2 : 0 < 1 - q.sarg ^ 2 := sub_pos.mpr ((sq_lt_one_iff_abs_lt_one _).mpr hs)
  have hc0 : 0 < c := by rw [hc]; exact Real.sqrt_pos.mpr hc2
  have hc1 : c ≤ 1 := by rw [hc]; exact Real.sqrt_le_one.mpr (by linarith [sq_nonneg q.sarg])
  rw [← hc]
  generalize F.sarg q'.real = s' at *
  generalize F.mul (F.lit 2 0) (F.add (F.mul q'.real.y q'.real.z) (F.mul q'.real.w q'.real.x)) = Y' at *
  generalize F.add (F.sub (F.sub (F.mul q'.real.w q'.real.w) (F.mul q'.real.x q'.real.x)) (F.mul q'.real.y q'.real.y)) (F.mul q'.real.z q'.real.z) = X' at *
  generalize F.mul (F.lit 2 0) (F.add (F.mul q'.real.x q'.real.y) (F.mul q'.real.w q'.real.z)) = V' at *
  generalize F.sub (F.sub (F.add (F.mul q'.real.w q'.real.w) (F.mul q'.real.x q'.real.x)) (F.mul q'.real.y q'.real.y)) (F.mul q'.real.z q'.real.z) = U' at *
  have hs1 : |s'| ≤ 1 := by
    obtain ⟨l1, l2⟩ := abs_le.mp cut
    exact abs_le.mpr ⟨by linarith, by linarith⟩
  have hpi : Real.pi ≤ 4 := Real.pi_le_four
  have fA : ∀ a b : ℝ, |F.atan2 a b - Complex.arg ⟨b, a⟩| ≤ 4 * η := fun a b => by
    refine (hF.atan2 a b).trans ?_
    have : max |Complex.arg ⟨b, a⟩| F.tiny ≤ 4 := max_le ((Complex.abs_arg_le_pi _).trans hpi) (by linarith)
    have := mul_le_mul_of_nonneg_left this h0
    linarith
  have fS : |F.asin s' - Real.arcsin s'| ≤ 4 * η := by
    refine (hF.asin hs1).trans ?_
    have h1 : |Real.arcsin s'| ≤ 4 := abs_le.mpr ⟨by linarith [Real.neg_pi_div_two_le_arcsin s'], by linarith [Real.arcsin_le_pi_div_two s', Real.pi_pos]⟩
    have := mul_le_mul_of_nonneg_left (max_le h1 (show F.tiny ≤ 4 by linarith)) h0
    linarith
  have nX : c = √((q.w * q.w - q.x * q.x - q.y * q.y + q.z * q.z) ^ 2 + (2 * (q.y * q.z + q.w * q.x)) ^ 2) := by
    rw [hc]; congr 1; rw [hsd]
    linear_combination (-1 - (q.x ^ 2 + q.y ^ 2 + q.z ^ 2 + q.w ^ 2)) * hn
  have nU : c = √((q.w * q.w + q.x * q.x - q.y * q.y - q.z * q.z) ^ 2 + (2 * (q.x * q.y + q.w * q.z)) ^ 2) := by
    rw [hc]; congr 1; rw [hsd]
    linear_combination (-1 - (q.x ^ 2 + q.y ^ 2 + q.z ^ 2 + q.w ^ 2)) * hn
  obtain ⟨r1, r2⟩ := direction_near eX eY nX hc0 (fA Y' X')
  obtain ⟨w1, w2⟩ := direction_near eU eV nU hc0 (fA V' U')
  obtain ⟨p1, p2⟩ := sine_near es hs.le hs1 hc hc0 fS
  have hce : η ≤ η / c := le_div_self hη0 hc0 hc1
  have b1 : 3 * (45 * η) / c + 4 * η ≤ 140 * (η / c) := by
    rw [show 3 * (45 * η) / c = 135 * (η / c) by ring]; linarith
  have b2 : 2 * (45 * η) / c + 4 * η ≤ 140 * (η / c) := by
    rw [show 2 * (45 * η) / c = 90 * (η / c) by ring]; linarith
  have b3 : 45 * η + 4 * η ≤ 140 * (η / c) := by linarith
  have := rpy_matrix_near (r1.trans b1) (r2.trans b1) (p1.trans b2) (p2.trans b3) (w1.trans b1) (w2.trans b1) i j
  refine this.trans (le_of_eq ?_)
  ring

/-- The rounded angles of a rotation whose pitch has a sine of at most 0.9999. -/
theorem Rounding.getRPY_matrix_near {η : ℝ} {q' : Rot (Fl F)} {q : Rot ℝ} (hF : InverseTrig F) (hu : F.u ≤ η) (hη : η ≤ 1 / 1000000) (hb : 9 ≤ F.big)
    (ht : F.tiny ≤ 1 / 2) (hq : q.norm2 = 1) (hd : Rot.dist q'.real q ≤ η) (hs : |q.sarg| ≤ 9999 / 10000) (i j : Fin 3) :
    |(rotZ q'.getRPY.real.z * rotY q'.getRPY.real.y * rotX q'.getRPY.real.x) i j - q.matrix i j| ≤ 700 * η / √(1 - q.sarg ^ 2) := by
  obtain ⟨k1, k2⟩ := abs_le.mp (F.sarg_near hu hη hb ht hq hd)
  obtain ⟨l1, l2⟩ := abs_le.mp (F.cut_near hb ht)
  obtain ⟨s1, s2⟩ := abs_le.mp hs
  exact Rounding.getRPY_regular hF hu hη hb ht hq hd (by linarith) (by linarith) (by linarith) i j

/-- The rounded angles used beyond the cut-off: near those that are exactly used there. -/
theorem Rounding.pole_near {η X Y X' Y' g p P : ℝ} (hF : InverseTrig F) (hu : F.u ≤ η) (hη : η ≤ 1 / 1000000) (hb : 9 ≤ F.big) (ht : F.tiny ≤ 1 / 2)
    (hx : |X' - X| ≤ η) (hy : |Y' - Y| ≤ η) (hn : 1 / 4 ≤ X ^ 2 + Y ^ 2) (hp : |P - p| ≤ 2 * η) (hg : g = F.mul (F.lit 2 0) (F.atan2 Y' X'))
    (i j : Fin 3) : |(rotZ g * rotY P * rotX 0) i j - (rotZ (2 * Complex.arg ⟨X, Y⟩) * rotY p * rotX 0) i j| ≤ 300 * η := by
  have h0 := F.u_nonneg
  have hη0 := h0.trans hu
  have hn2 : 1 / 2 ≤ √(X ^ 2 + Y ^ 2) := Real.le_sqrt_of_sq_le (by linarith)
  have fA : |F.atan2 Y' X' - Complex.arg ⟨X', Y'⟩| ≤ 4 * η := by
    refine (hF.atan2 Y' X').trans ?_
    have : max |Complex.arg ⟨X', Y'⟩| F.tiny ≤ 4 := max_le ((Complex.abs_arg_le_pi _).trans Real.pi_le_four) (by linarith)
    have := mul_le_mul_of_nonneg_left this h0
    linarith
  obtain ⟨c1, s1⟩ := direction_near hx hy rfl (by linarith) fA
  have b1 : 3 * η / √(X ^ 2 + Y ^ 2) ≤ 6 * η := by rw [div_le_iff₀ (by linarith)]; nlinarith
  have hA : |F.atan2 Y' X'| ≤ 401 / 100 := by
    have h1 := abs_add_le (F.atan2 Y' X' - Complex.arg ⟨X', Y'⟩) (Complex.arg ⟨X', Y'⟩)
    rw [sub_add_cancel] at h1
    have := (Complex.abs_arg_le_pi (⟨X', Y'⟩ : ℂ)).trans Real.pi_le_four
    linarith
  generalize F.atan2 Y' X' = a' at *
  generalize Complex.arg ⟨X, Y⟩ = a at *
  replace c1 : |Real.cos a' - Real.cos a| ≤ 10 * η := by linarith
  replace s1 : |Real.sin a' - Real.sin a| ≤ 10 * η := by linarith
  have C := Real.abs_cos_le_one
  have S := Real.abs_sin_le_one
  have dc : |Real.cos (2 * a') - Real.cos (2 * a)| ≤ 40 * η := by
    have := prod2_near c1 c1 (C _) (C _)
    rw [Real.cos_two_mul, Real.cos_two_mul, show 2 * Real.cos a' ^ 2 - 1 - (2 * Real.cos a ^ 2 - 1) = 2 * (Real.cos a' * Real.cos a' - Real.cos a * Real.cos a) by ring,
      abs_mul, abs_two]
    linarith
  have ds : |Real.sin (2 * a') - Real.sin (2 * a)| ≤ 40 * η := by
    have := prod2_near s1 c1 (S _) (C _)
    rw [Real.sin_two_mul, Real.sin_two_mul, show 2 * Real.sin a' * Real.cos a' - 2 * Real.sin a * Real.cos a = 2 * (Real.sin a' * Real.cos a' - Real.sin a * Real.cos a) by ring,
      abs_mul, abs_two]
    linarith
  have hlit : |F.lit 2 0 - 2| ≤ 2 * η := by
    have e : ((2 : Int) : ℝ) / 10 ^ 0 = 2 := by norm_num
    have h := F.lit_rounded 2 0 (by rw [e, abs_of_pos] <;> linarith)
    unfold Rounded at h
    rw [e, show |(2 : ℝ)| = 2 by norm_num, max_eq_left (by linarith)] at h
    linarith
  have hg2 : |g - 2 * a'| ≤ 18 * η := by
    have e1 : |F.lit 2 0 * a' - 2 * a'| ≤ 9 * η := by
      rw [← sub_mul, abs_mul]
      have := mul_le_mul hlit hA (abs_nonneg _) (by linarith)
      linarith
    have e2 := abs_add_le (F.lit 2 0 * a' - 2 * a') (2 * a')
    rw [sub_add_cancel, abs_mul 2, abs_two] at e2
    have e3 : |F.lit 2 0 * a'| ≤ 81 / 10 := by linarith
    have e4 := F.mul_near (a := F.lit 2 0) (b := a') (by linarith)
    have e5 := mul_le_mul_of_nonneg_left e3 h0
    have e6 := mul_le_mul_of_nonneg_left ht h0
    have e7 := abs_add_le (F.mul (F.lit 2 0) a' - F.lit 2 0 * a') (F.lit 2 0 * a' - 2 * a')
    rw [sub_add_sub_cancel, ← hg] at e7
    rw [← hg] at e4
    linarith
  have g1 := abs_cos_sub_le g (2 * a')
  have g2 := abs_sin_sub_le g (2 * a')
  have m1 := abs_add_le (Real.cos g - Real.cos (2 * a')) (Real.cos (2 * a') - Real.cos (2 * a))
  have m2 := abs_add_le (Real.sin g - Real.sin (2 * a')) (Real.sin (2 * a') - Real.sin (2 * a))
  rw [sub_add_sub_cancel] at m1 m2
  have p1 := abs_cos_sub_le P p
  have p2 := abs_sin_sub_le P p
  have := rpy_matrix_near (r := 0) (r' := 0) (p := p) (p' := P) (w := 2 * a) (w' := g) (e := 60 * η) (by simp; linarith) (by simp; linarith)
    (by linarith) (by linarith) (by linarith) (by linarith) i j
  linarith

/-- a rotation near the singularity: its quaternion is not near the axis -/
theorem Rot.off_axis {q : Rot ℝ} (hn : q.x ^ 2 + q.y ^ 2 + q.z ^ 2 + q.w ^ 2 = 1) (h : 99 / 100 ≤ |q.sarg|) : 1 / 4 ≤ q.y ^ 2 + q.x ^ 2 := by
  have hsd : q.sarg = -2 * (q.x * q.z - q.w * q.y) := by simp [Rot.sarg]
  have h2 : (99 / 100) ^ 2 ≤ q.sarg ^ 2 := by rw [← sq_abs q.sarg]; exact pow_le_pow_left₀ (by norm_num) h 2
  have h3 : q.sarg ^ 2 ≤ 4 * ((q.y ^ 2 + q.x ^ 2) * (q.z ^ 2 + q.w ^ 2)) := by
    rw [hsd]; nlinarith [sq_nonneg (q.x * q.w + q.y * q.z)]
  by_contra hc
  have h4 := sq_nonneg q.x
  have h5 := sq_nonneg q.y
  nlinarith

/-- The exact angles used near the singularity, entry by entry. -/
theorem Rot.poleAngles_near {q : Rot ℝ} (hq : q.norm2 = 1) (h : 99999 / 100000 - 46 / 100000000 ≤ |q.sarg|) (i j : Fin 3) :
    |(rotZ q.poleAngles.z * rotY q.poleAngles.y * rotX q.poleAngles.x) i j - q.matrix i j| ≤ 95 / 10000 := by
  refine abs_le.mpr (abs_le_of_sq_le_sq' ?_ (by norm_num))
  refine ((Rot.entry_le_dist2 _ _ i j).trans (Rot.dist2_poleAngles hq (by linarith))).trans ?_
  norm_num at h ⊢
  linarith

/-- The rounded angles of any rotation, singular or not. -/
theorem Rounding.getRPY_every {η : ℝ} {q' : Rot (Fl F)} {q : Rot ℝ} (hF : InverseTrig F) (hu : F.u ≤ η) (hη : η ≤ 1 / 100000000) (hb : 9 ≤ F.big)
    (ht : F.tiny ≤ 1 / 2) (hq : q.norm2 = 1) (hd : Rot.dist q'.real q ≤ η) (i j : Fin 3) :
    |(rotZ q'.getRPY.real.z * rotY q'.getRPY.real.y * rotX q'.getRPY.real.x) i j - q.matrix i j| ≤ 1 / 100 := by
  have h0 := F.u_nonneg
  have hη0 := h0.trans hu
  have hη6 : η ≤ 1 / 1000000 := by linarith
  obtain ⟨⟨dx, dy, dz, dw⟩, _, hn⟩ := Rot.near_components hη0 hq hd
  obtain ⟨k1, k2⟩ := abs_le.mp (F.sarg_near hu hη6 hb ht hq hd)
  obtain ⟨l1, l2⟩ := abs_le.mp (F.cut_near hb ht)
  have hpi : |F.lit 157079632679489661923 20 - (pi2 : ℝ)| ≤ 2 * η := by
    have e : ((157079632679489661923 : Int) : ℝ) / 10 ^ 20 = (pi2 : ℝ) := by rw [Rot.real_pi2]; norm_num
    have hv : (pi2 : ℝ) ≤ 158 / 100 ∧ 157 / 100 ≤ (pi2 : ℝ) := by rw [Rot.real_pi2]; norm_num
    have h := F.lit_rounded 157079632679489661923 20 (by rw [e, abs_of_pos] <;> linarith)
    unfold Rounded at h
    rw [e, abs_of_pos (a := (pi2 : ℝ)) (by linarith), max_eq_left (by linarith)] at h
    have := mul_le_mul_of_nonneg_left hv.1 h0
    linarith
  have e3 : q'.getRPY = Rot.getRPY (K := Fl F) q'.real := rfl
  have tri : ∀ {a b c : ℝ}, |a - b| ≤ 300 * η → |b - c| ≤ 95 / 10000 → |a - c| ≤ 1 / 100 := by
    intro a b c g1 g2
    have := abs_add_le (a - b) (b - c)
    rw [sub_add_sub_cancel] at this
    linarith
  by_cases c1 : F.sarg q'.real ≤ -F.lit 99999 5
  · have hs : q.sarg ≤ -(99999 / 100000 - 46 / 100000000) := by linarith
    have hsa : 99999 / 100000 - 46 / 100000000 ≤ |q.sarg| := by rw [abs_of_nonpos (by linarith)]; linarith
    have hP := Rot.poleAngles_near hq hsa i j
    rw [Rot.poleAngles, if_neg (by linarith)] at hP
    rw [e3, Rounding.getRPY_low c1]
    have hoff := Rot.off_axis hn (by linarith)
    refine tri (Rounding.pole_near hF hu hη6 hb ht (X := -q.y) (Y := q.x) (X' := -q'.real.y) (Y' := q'.real.x) ?_ dx (by rw [neg_sq]; exact hoff) ?_ rfl i j) hP
    · rw [show -q'.real.y - -q.y = -(q'.real.y - q.y) by ring, abs_neg]; exact dy
    · show |-F.lit 157079632679489661923 20 - -(pi2 : ℝ)| ≤ 2 * η
      rw [show -F.lit 157079632679489661923 20 - -(pi2 : ℝ) = -(F.lit 157079632679489661923 20 - pi2) by ring, abs_neg]; exact hpi
  push Not at c1
  by_cases c2 : F.lit 99999 5 ≤ F.sarg q'.real
  · have hs : 99999 / 100000 - 46 / 100000000 ≤ q.sarg := by linarith
    have hsa : 99999 / 100000 - 46 / 100000000 ≤ |q.sarg| := by rw [abs_of_nonneg (by linarith)]; linarith
    have hP := Rot.poleAngles_near hq hsa i j
    rw [Rot.poleAngles, if_pos (by linarith)] at hP
    rw [e3, Rounding.getRPY_high c1 c2]
    have hoff := Rot.off_axis hn (by linarith)
    refine tri (Rounding.pole_near hF hu hη6 hb ht (X := q.y) (Y := -q.x) (X' := q'.real.y) (Y' := -q'.real.x) dy ?_ (by rw [neg_sq]; exact hoff) hpi rfl i j) hP
    rw [show -q'.real.x - -q.x = -(q'.real.x - q.x) by ring, abs_neg]; exact dx
  push Not at c2
  have hs : |q.sarg| ≤ 99999 / 100000 + 46 / 100000000 := abs_le.mpr ⟨by linarith, by linarith⟩
  refine (Rounding.getRPY_regular hF hu hη6 hb ht hq hd c1 c2 (by linarith) i j).trans ?_
  have h2 : q.sarg ^ 2 ≤ (99999 / 100000 + 46 / 100000000) ^ 2 := by rw [← sq_abs q.sarg]; exact pow_le_pow_left₀ (abs_nonneg _) hs 2
  have h3 : 4 / 1000 ≤ √(1 - q.sarg ^ 2) := Real.le_sqrt_of_sq_le (by norm_num at h2 ⊢; linarith)
  rw [div_le_iff₀ (by linarith)]
  linarith

end

end Tinyfk
