import Mathlib.Analysis.Real.Pi.Bounds
import Mathlib.Analysis.SpecialFunctions.Trigonometric.Bounds
import Verif.Proofs.Rpy

/-!
# Roll, pitch, yaw over ℝ near the singularity: how far the rotation of the angles is from the rotation
-/

namespace Tinyfk

open Matrix

namespace Rot

@[simp] theorem real_pi2 : (pi2 : ℝ) = 157079632679489661923 / 100000000000000000000 := by
  simp [pi2, real_lit]; norm_num

/-- the constant of pose.h is `π/2` up to `10⁻²⁰` -/
theorem pi2_near : 1 - 1 / 10 ^ 40 ≤ Real.sin (pi2 : ℝ) ∧ 0 < Real.sin (pi2 : ℝ) := by
  have h1 := Real.pi_gt_d20
  have h2 := Real.pi_lt_d20
  have hd : |Real.pi / 2 - (pi2 : ℝ)| ≤ 1 / 10 ^ 20 := by
    rw [real_pi2, abs_le]; constructor <;> norm_num at h1 h2 ⊢ <;> linarith
  have hs : Real.sin (pi2 : ℝ) = Real.cos (Real.pi / 2 - pi2) := by rw [Real.cos_pi_div_two_sub]
  have hc := Real.one_sub_sq_div_two_le_cos (x := Real.pi / 2 - (pi2 : ℝ))
  have hq : (Real.pi / 2 - (pi2 : ℝ)) ^ 2 ≤ (1 / 10 ^ 20) ^ 2 := by
    rw [← sq_abs]; exact pow_le_pow_left₀ (abs_nonneg _) hd 2
  rw [hs]
  constructor
  · norm_num at hq hc ⊢; linarith
  · norm_num at hq hc ⊢; linarith

/-- inner product of two quaternions -/
noncomputable def dot (a b : Rot ℝ) : ℝ := a.x * b.x + a.y * b.y + a.z * b.z + a.w * b.w

/-- squared distance of two matrices, entry by entry -/
noncomputable def dist2 (A B : Matrix (Fin 3) (Fin 3) ℝ) : ℝ := ∑ i, ∑ j, (A i j - B i j) ^ 2

theorem dist2_matrix {a b : Rot ℝ} (ha : a.norm2 = 1) (hb : b.norm2 = 1) :
    dist2 a.matrix b.matrix = 8 * (1 - dot a b ^ 2) := by
  have h : dist2 a.matrix b.matrix = 3 * a.norm2 ^ 2 + 3 * b.norm2 ^ 2 - 2 * (4 * dot a b ^ 2 - a.norm2 * b.norm2) := by
    rw [matrix_unit ha, matrix_unit hb]
    simp only [dist2, Fin.sum_univ_three, dot, norm2, of_apply, cons_val', cons_val_zero, cons_val_one, cons_val]
    ring
  rw [h, ha, hb]; ring

theorem entry_le_dist2 (A B : Matrix (Fin 3) (Fin 3) ℝ) (i j : Fin 3) : (A i j - B i j) ^ 2 ≤ dist2 A B := by
  have h1 : (A i j - B i j) ^ 2 ≤ ∑ j, (A i j - B i j) ^ 2 :=
    Finset.single_le_sum (f := fun j => (A i j - B i j) ^ 2) (fun _ _ => sq_nonneg _) (Finset.mem_univ j)
  have h2 : ∑ j, (A i j - B i j) ^ 2 ≤ dist2 A B :=
    Finset.single_le_sum (f := fun i => ∑ j, (A i j - B i j) ^ 2)
      (fun _ _ => Finset.sum_nonneg fun _ _ => sq_nonneg _) (Finset.mem_univ i)
  exact h1.trans h2

/-- the rotation with roll 0, pitch `p` and yaw twice the argument of `(u, v)` -/
theorem dot_pole (q : Rot ℝ) (p u v : ℝ) : let n := Real.sqrt (u ^ 2 + v ^ 2)
    n * dot q (fromRPY 0 p (2 * Complex.arg ⟨u, v⟩)) =
      Real.sin (p / 2) * (u * q.y - v * q.x) + Real.cos (p / 2) * (u * q.w + v * q.z) := by
  intro n
  obtain ⟨h1, h2⟩ := polar_arg u v
  rw [fromRPY_raw]
  simp only [dot, zero_div, Real.sin_zero, Real.cos_zero, mul_div_cancel_left₀ _ (two_ne_zero (α := ℝ))]
  linear_combination (Real.sin (p / 2) * q.y + Real.cos (p / 2) * q.w) * h1 +
    (-Real.sin (p / 2) * q.x + Real.cos (p / 2) * q.z) * h2

/-- arithmetic and geometric mean -/
theorem pole_bound {n a b s d : ℝ} (hn : 0 < n) (hd : n * d = b * n ^ 2 + a * (s / 2)) :
    2 * a * b * s ≤ d ^ 2 := by
  have h1 : d = b * n + a * s / (2 * n) := by field_simp; nlinarith
  have h2 : d ^ 2 - 2 * a * b * s = (b * n - a * s / (2 * n)) ^ 2 := by rw [h1]; field_simp; ring
  nlinarith [sq_nonneg (b * n - a * s / (2 * n))]

/-- the angles that are used near the singularity -/
noncomputable def poleAngles (q : Rot ℝ) : Vec3 ℝ :=
  if 0 ≤ q.sarg then ⟨0, pi2, 2 * Complex.arg ⟨q.y, -q.x⟩⟩ else ⟨0, -pi2, 2 * Complex.arg ⟨-q.y, q.x⟩⟩

/-- near the singularity, the rotation of these angles is close to the rotation -/
theorem dist2_poleAngles {q : Rot ℝ} (hq : q.norm2 = 1) (h : 0 < |q.sarg|) :
    dist2 (rotZ q.poleAngles.z * rotY q.poleAngles.y * rotX q.poleAngles.x) q.matrix ≤ 8 * (1 - |q.sarg|) + 1 / 10 ^ 39 := by
  have hsd : q.sarg = -2 * (q.x * q.z - q.w * q.y) := by simp [Rot.sarg]
  have hs1 : |q.sarg| ≤ 1 := by
    have h0 : q.w * q.w + q.x * q.x + q.y * q.y + q.z * q.z = 1 := by
      have := hq; simp only [norm2] at this; linarith
    rw [hsd, abs_le]
    constructor <;> nlinarith [sq_nonneg (q.x - q.z), sq_nonneg (q.x + q.z), sq_nonneg (q.w - q.y), sq_nonneg (q.w + q.y)]
  obtain ⟨hp1, hp0⟩ := pi2_near
  have hss : Real.sin (pi2 : ℝ) = 2 * Real.sin (pi2 / 2) * Real.cos (pi2 / 2) := by
    rw [← Real.sin_two_mul]; ring_nf
  have hn : 0 < Real.sqrt (q.x ^ 2 + q.y ^ 2) := by
    apply Real.sqrt_pos.mpr
    by_contra hc
    have hx : q.x = 0 := by nlinarith [sq_nonneg q.x, sq_nonneg q.y]
    have hy : q.y = 0 := by nlinarith [sq_nonneg q.x, sq_nonneg q.y]
    rw [hsd, hx, hy] at h; norm_num at h
  have hn2 := Real.sq_sqrt (show 0 ≤ q.x ^ 2 + q.y ^ 2 by positivity)
  rw [← matrix_fromRPY, dist2_matrix (norm2_fromRPY _ _ _) hq]
  have key : |q.sarg| * Real.sin (pi2 : ℝ) ≤ dot (fromRPY q.poleAngles.x q.poleAngles.y q.poleAngles.z) q ^ 2 := by
    have hcomm : ∀ a b : Rot ℝ, dot a b = dot b a := fun a b => by simp only [dot]; ring
    rw [hcomm]
    by_cases h0 : 0 ≤ q.sarg
    · rw [abs_of_nonneg h0] at h ⊢
      rw [poleAngles, if_pos h0]
      have := dot_pole q pi2 q.y (-q.x)
      simp only [show q.y ^ 2 + (-q.x) ^ 2 = q.x ^ 2 + q.y ^ 2 by ring] at this
      have := pole_bound (a := Real.cos (pi2 / 2)) (b := Real.sin (pi2 / 2)) (s := q.sarg) hn
        (by rw [this, hn2, hsd]; ring)
      rw [hss]; linarith
    · rw [poleAngles, if_neg h0]
      replace h0 : q.sarg ≤ 0 := le_of_not_ge h0
      rw [abs_of_nonpos h0] at h ⊢
      have := dot_pole q (-pi2) (-q.y) q.x
      simp only [show (-q.y) ^ 2 + q.x ^ 2 = q.x ^ 2 + q.y ^ 2 by ring, neg_div, Real.sin_neg, Real.cos_neg] at this
      have := pole_bound (a := Real.cos (pi2 / 2)) (b := Real.sin (pi2 / 2)) (s := -q.sarg) hn
        (by rw [this, hn2, hsd]; ring)
      rw [hss]; linarith
  have : |q.sarg| * (1 - 1 / 10 ^ 40) ≤ |q.sarg| * Real.sin (pi2 : ℝ) := mul_le_mul_of_nonneg_left hp1 (abs_nonneg _)
  norm_num at this ⊢
  nlinarith

/-- within the cut-off of the singularity, the rotation of the angles is close to the rotation -/
theorem dist2_pole {q : Rot ℝ} (hq : q.norm2 = 1) (h : 99999 / 100000 ≤ |q.sarg|) :
    dist2 (rotZ q.getRPY.z * rotY q.getRPY.y * rotX q.getRPY.x) q.matrix ≤ 8 * (1 - |q.sarg|) + 1 / 10 ^ 39 := by
  have hg : q.getRPY = q.poleAngles := by
    by_cases h0 : 0 ≤ q.sarg
    · rw [abs_of_nonneg h0] at h
      have h1 : ¬ q.sarg ≤ -(99999 / 100000) := by linarith
      rw [poleAngles, if_pos h0]
      simp only [getRPY, real_le, real_sargCut, real_atan2, real_two, h1, h, if_true]
      simp
    · rw [poleAngles, if_neg h0]
      rw [abs_of_nonpos (le_of_not_ge h0)] at h
      have h1 : q.sarg ≤ -(99999 / 100000) := by linarith
      simp only [getRPY, real_le, real_sargCut, real_atan2, real_two, h1, if_true]
  rw [hg]
  exact dist2_poleAngles hq (by linarith)

/-- for every rotation: no entry of the matrix of the angles is off by more than 0.009 -/
theorem getRPY_close {q : Rot ℝ} (hq : q.norm2 = 1) (i j : Fin 3) :
    |(rotZ q.getRPY.z * rotY q.getRPY.y * rotX q.getRPY.x) i j - q.matrix i j| ≤ 9 / 1000 := by
  rcases lt_or_ge |q.sarg| (99999 / 100000) with h | h
  · rw [matrix_getRPY hq h]; norm_num
  · refine abs_le.mpr (abs_le_of_sq_le_sq' ?_ (by norm_num))
    have h1 := (entry_le_dist2 _ _ i j).trans (dist2_pole hq h)
    refine h1.trans ?_
    norm_num at h ⊢; linarith

/-- at the singularity itself the angles are right up to the rounding of `π/2` -/
theorem getRPY_pole {q : Rot ℝ} (hq : q.norm2 = 1) (h : |q.sarg| = 1) (i j : Fin 3) :
    |(rotZ q.getRPY.z * rotY q.getRPY.y * rotX q.getRPY.x) i j - q.matrix i j| ≤ 1 / 10 ^ 19 := by
  refine abs_le.mpr (abs_le_of_sq_le_sq' ?_ (by norm_num))
  have h1 := (entry_le_dist2 _ _ i j).trans (dist2_pole hq (by rw [h]; norm_num))
  refine h1.trans ?_
  rw [h]; norm_num

end Rot

end Tinyfk
