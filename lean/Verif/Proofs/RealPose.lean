import Verif.Model.Real
import Mathlib.Tactic.Ring
import Mathlib.Tactic.FieldSimp
import Mathlib.Tactic.LinearCombination
import Mathlib.Tactic.Positivity
import Mathlib.Tactic.Linarith

/-!
# Quaternions and poses over ℝ
-/

namespace Tinyfk

namespace Rot
variable (a b c q : Rot ℝ) (v w : Vec3 ℝ)

@[simp] theorem norm2_one : (one : Rot ℝ).norm2 = 1 := by simp [norm2, one]

theorem norm2_nonneg : 0 ≤ q.norm2 := by
  have : q.norm2 = q.w ^ 2 + q.x ^ 2 + q.y ^ 2 + q.z ^ 2 := by simp only [norm2]; ring
  rw [this]; positivity

theorem norm2_mul : (mul a b).norm2 = a.norm2 * b.norm2 := by
  simp only [norm2, mul]; ring

theorem eq_zero_of_norm2 {q : Rot ℝ} (h : q.norm2 = 0) : q = ⟨0, 0, 0, 0⟩ := by
  simp only [norm2] at h
  have h1 := mul_self_nonneg q.x
  have h2 := mul_self_nonneg q.y
  have h3 := mul_self_nonneg q.z
  have h4 := mul_self_nonneg q.w
  ext
  · exact mul_self_eq_zero.mp (by linarith)
  · exact mul_self_eq_zero.mp (by linarith)
  · exact mul_self_eq_zero.mp (by linarith)
  · exact mul_self_eq_zero.mp (by linarith)

theorem mul_assoc : mul (mul a b) c = mul a (mul b c) := by
  simp only [mul, Rot.mk.injEq]
  refine ⟨?_, ?_, ?_, ?_⟩ <;> ring

@[simp] theorem one_mul : mul one q = q := by
  ext <;> simp [mul, one]

@[simp] theorem mul_one : mul q one = q := by
  ext <;> simp [mul, one]

/-- the rotated vector for a nonzero quaternion -/
theorem rotate_eq (h : q.norm2 ≠ 0) : q.rotate v =
    ⟨((q.w * q.w + q.x * q.x - q.y * q.y - q.z * q.z) * v.x + 2 * (q.x * q.y - q.w * q.z) * v.y +
        2 * (q.x * q.z + q.w * q.y) * v.z) / q.norm2,
     (2 * (q.x * q.y + q.w * q.z) * v.x + (q.w * q.w - q.x * q.x + q.y * q.y - q.z * q.z) * v.y +
        2 * (q.y * q.z - q.w * q.x) * v.z) / q.norm2,
     (2 * (q.x * q.z - q.w * q.y) * v.x + 2 * (q.y * q.z + q.w * q.x) * v.y +
        (q.w * q.w - q.x * q.x - q.y * q.y + q.z * q.z) * v.z) / q.norm2⟩ := by
  have hp : 0 < q.norm2 := lt_of_le_of_ne (norm2_nonneg q) (Ne.symm h)
  simp only [rotate, getInverse, real_lt, if_pos hp, mul, Vec3.mk.injEq]
  refine ⟨?_, ?_, ?_⟩ <;> (field_simp; ring)

/-- the rotated vector for a unit quaternion -/
theorem rotate_unit (h : q.norm2 = 1) : q.rotate v =
    ⟨(q.w * q.w + q.x * q.x - q.y * q.y - q.z * q.z) * v.x + 2 * (q.x * q.y - q.w * q.z) * v.y +
        2 * (q.x * q.z + q.w * q.y) * v.z,
     2 * (q.x * q.y + q.w * q.z) * v.x + (q.w * q.w - q.x * q.x + q.y * q.y - q.z * q.z) * v.y +
        2 * (q.y * q.z - q.w * q.x) * v.z,
     2 * (q.x * q.z - q.w * q.y) * v.x + 2 * (q.y * q.z + q.w * q.x) * v.y +
        (q.w * q.w - q.x * q.x - q.y * q.y + q.z * q.z) * v.z⟩ := by
  rw [rotate_eq q v (by rw [h]; norm_num), h]
  simp only [div_one]

@[simp] theorem rotate_one : (one : Rot ℝ).rotate v = v := by
  rw [rotate_unit _ _ norm2_one]
  ext <;> simp [one]

theorem rotate_zero_quat : (⟨0, 0, 0, 0⟩ : Rot ℝ).rotate v = ⟨0, 0, 0⟩ := by
  simp [rotate, mul]

@[simp] theorem rotate_zero : q.rotate ⟨0, 0, 0⟩ = ⟨0, 0, 0⟩ := by
  simp [rotate, mul]

/-- a product of quaternions rotates by one after the other -/
theorem rotate_mul : (mul a b).rotate v = a.rotate (b.rotate v) := by
  by_cases ha : a.norm2 = 0
  · rw [eq_zero_of_norm2 ha]
    have : mul (⟨0, 0, 0, 0⟩ : Rot ℝ) b = ⟨0, 0, 0, 0⟩ := by simp [mul]
    rw [this, rotate_zero_quat, rotate_zero_quat]
  by_cases hb : b.norm2 = 0
  · rw [eq_zero_of_norm2 hb]
    have : mul a (⟨0, 0, 0, 0⟩ : Rot ℝ) = ⟨0, 0, 0, 0⟩ := by simp [mul]
    rw [this, rotate_zero_quat, rotate_zero]
  have hab : (mul a b).norm2 ≠ 0 := by rw [norm2_mul]; exact mul_ne_zero ha hb
  rw [rotate_eq _ _ hab, rotate_eq b v hb, rotate_eq a _ ha, norm2_mul]
  simp only [mul, Vec3.mk.injEq]
  refine ⟨?_, ?_, ?_⟩ <;> (field_simp; ring)

theorem rotate_add : q.rotate (Vec3.add v w) = Vec3.add (q.rotate v) (q.rotate w) := by
  simp only [rotate, mul, Vec3.add, Vec3.mk.injEq]
  refine ⟨?_, ?_, ?_⟩ <;> ring

theorem rotate_smul (r : ℝ) : q.rotate ⟨r * v.x, r * v.y, r * v.z⟩ =
    ⟨r * (q.rotate v).x, r * (q.rotate v).y, r * (q.rotate v).z⟩ := by
  simp only [rotate, mul, Vec3.mk.injEq]
  refine ⟨?_, ?_, ?_⟩ <;> ring

end Rot

namespace Pose
variable (a b c T : Pose ℝ)

@[simp] theorem transform_identity : transform T identity = T := by
  ext <;> simp [transform, identity, Vec3.zero, Vec3.add]

@[simp] theorem identity_transform : transform identity T = T := by
  ext <;> simp [transform, identity, Vec3.zero, Vec3.add]

theorem transform_assoc : transform (transform a b) c = transform a (transform b c) := by
  simp only [transform, Rot.rotate_mul, Rot.rotate_add, Rot.mul_assoc, Pose.mk.injEq, and_true]
  simp only [Vec3.add, Vec3.mk.injEq]
  refine ⟨?_, ?_, ?_⟩ <;> ring

end Pose
end Tinyfk
