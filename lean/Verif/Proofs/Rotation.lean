import Verif.Spec.Rotation
import Verif.Proofs.RealPose
import Mathlib.LinearAlgebra.Matrix.Determinant.Basic

/-!
# Lemmas on rotations, matrices and `rpy` over ℝ
-/

namespace Tinyfk

open Matrix

namespace Rot

theorem normalize_unit {q : Rot ℝ} (h : q.norm2 = 1) : q.normalize = q := by
  have : Scalar.sqrt (q.x * q.x + q.y * q.y + q.z * q.z + q.w * q.w) = (1 : ℝ) := by
    rw [real_sqrt]
    have : q.x * q.x + q.y * q.y + q.z * q.z + q.w * q.w = 1 := by rw [← h, norm2]; ring
    rw [this, Real.sqrt_one]
  simp only [normalize, this]
  rw [if_neg (by simp)]
  simp

/-- the half-angle formula that `setFromRPY` computes has unit norm already -/
theorem fromRPY_raw (r p y : ℝ) : fromRPY r p y =
    ⟨Real.sin (r / 2) * Real.cos (p / 2) * Real.cos (y / 2) - Real.cos (r / 2) * Real.sin (p / 2) * Real.sin (y / 2),
     Real.cos (r / 2) * Real.sin (p / 2) * Real.cos (y / 2) + Real.sin (r / 2) * Real.cos (p / 2) * Real.sin (y / 2),
     Real.cos (r / 2) * Real.cos (p / 2) * Real.sin (y / 2) - Real.sin (r / 2) * Real.sin (p / 2) * Real.cos (y / 2),
     Real.cos (r / 2) * Real.cos (p / 2) * Real.cos (y / 2) + Real.sin (r / 2) * Real.sin (p / 2) * Real.sin (y / 2)⟩ := by
  simp only [fromRPY, real_two, real_sin, real_cos]
  apply normalize_unit
  simp only [norm2]
  have h1 := Real.sin_sq_add_cos_sq (r / 2)
  have h2 := Real.sin_sq_add_cos_sq (p / 2)
  have h3 := Real.sin_sq_add_cos_sq (y / 2)
  generalize Real.sin (r / 2) = sr at *
  generalize Real.cos (r / 2) = cr at *
  generalize Real.sin (p / 2) = sp at *
  generalize Real.cos (p / 2) = cp at *
  generalize Real.sin (y / 2) = sy at *
  generalize Real.cos (y / 2) = cy at *
  have : (1 : ℝ) = (sr ^ 2 + cr ^ 2) * (sp ^ 2 + cp ^ 2) * (sy ^ 2 + cy ^ 2) := by rw [h1, h2, h3]; norm_num
  rw [this]
  ring

theorem norm2_fromRPY (r p y : ℝ) : (fromRPY r p y).norm2 = 1 := by
  rw [fromRPY_raw]
  simp only [norm2]
  have h1 := Real.sin_sq_add_cos_sq (r / 2)
  have h2 := Real.sin_sq_add_cos_sq (p / 2)
  have h3 := Real.sin_sq_add_cos_sq (y / 2)
  generalize Real.sin (r / 2) = sr at *
  generalize Real.cos (r / 2) = cr at *
  generalize Real.sin (p / 2) = sp at *
  generalize Real.cos (p / 2) = cp at *
  generalize Real.sin (y / 2) = sy at *
  generalize Real.cos (y / 2) = cy at *
  have : (1 : ℝ) = (sr ^ 2 + cr ^ 2) * (sp ^ 2 + cp ^ 2) * (sy ^ 2 + cy ^ 2) := by rw [h1, h2, h3]; norm_num
  rw [this]
  ring

/-- the matrix of a unit quaternion -/
theorem matrix_unit {q : Rot ℝ} (h : q.norm2 = 1) : q.matrix =
    !![q.w * q.w + q.x * q.x - q.y * q.y - q.z * q.z, 2 * (q.x * q.y - q.w * q.z), 2 * (q.x * q.z + q.w * q.y);
       2 * (q.x * q.y + q.w * q.z), q.w * q.w - q.x * q.x + q.y * q.y - q.z * q.z, 2 * (q.y * q.z - q.w * q.x);
       2 * (q.x * q.z - q.w * q.y), 2 * (q.y * q.z + q.w * q.x), q.w * q.w - q.x * q.x - q.y * q.y + q.z * q.z] := by
  ext i j
  fin_cases i <;> fin_cases j <;> simp [matrix, rotate_unit q _ h, Vec3.toV]

/-- rotating is multiplying by the matrix -/
theorem rotate_matrix (q : Rot ℝ) (v : Vec3 ℝ) : (q.rotate v).toV = q.matrix *ᵥ v.toV := by
  have hv : v = Vec3.add ⟨v.x * 1, v.x * 0, v.x * 0⟩ (Vec3.add ⟨v.y * 0, v.y * 1, v.y * 0⟩ ⟨v.z * 0, v.z * 0, v.z * 1⟩) := by
    ext <;> simp [Vec3.add]
  have e1 := rotate_smul q ⟨1, 0, 0⟩ v.x
  have e2 := rotate_smul q ⟨0, 1, 0⟩ v.y
  have e3 := rotate_smul q ⟨0, 0, 1⟩ v.z
  simp only at e1 e2 e3
  conv_lhs => rw [hv, rotate_add, rotate_add, e1, e2, e3]
  ext i
  fin_cases i <;> simp [matrix, Vec3.toV, Matrix.mulVec, dotProduct, Fin.sum_univ_three, Vec3.add] <;> ring

theorem matrix_one : (one : Rot ℝ).matrix = 1 := by
  rw [matrix_unit norm2_one]
  ext i j
  fin_cases i <;> fin_cases j <;> simp [one]

theorem matrix_mul (a b : Rot ℝ) : (mul a b).matrix = a.matrix * b.matrix := by
  have key : ∀ (v : Vec3 ℝ) i, ((mul a b).rotate v).toV i = (a.matrix *ᵥ (b.rotate v).toV) i := by
    intro v i; rw [rotate_mul, rotate_matrix]
  ext i j
  fin_cases j
  · simpa [matrix, Matrix.mul_apply, Fin.sum_univ_three, Matrix.mulVec, dotProduct] using key ⟨1, 0, 0⟩ i
  · simpa [matrix, Matrix.mul_apply, Fin.sum_univ_three, Matrix.mulVec, dotProduct] using key ⟨0, 1, 0⟩ i
  · simpa [matrix, Matrix.mul_apply, Fin.sum_univ_three, Matrix.mulVec, dotProduct] using key ⟨0, 0, 1⟩ i

theorem matrix_orthogonal {q : Rot ℝ} (h : q.norm2 = 1) : q.matrix * q.matrixᵀ = 1 := by
  rw [matrix_unit h]
  simp only [norm2] at h
  ext i j
  fin_cases i <;> fin_cases j <;> simp [Matrix.mul_apply, Fin.sum_univ_three]
  · linear_combination (q.w * q.w + q.x * q.x + q.y * q.y + q.z * q.z + 1) * h
  · ring
  · ring
  · ring
  · linear_combination (q.w * q.w + q.x * q.x + q.y * q.y + q.z * q.z + 1) * h
  · ring
  · ring
  · ring
  · linear_combination (q.w * q.w + q.x * q.x + q.y * q.y + q.z * q.z + 1) * h

theorem matrix_det {q : Rot ℝ} (h : q.norm2 = 1) : q.matrix.det = 1 := by
  rw [matrix_unit h, Matrix.det_fin_three]
  simp only [norm2] at h
  simp
  have e : ∀ n : ℝ, n = 1 → n ^ 3 = 1 := by rintro _ rfl; norm_num
  rw [← e _ h]
  ring

theorem matrix_mem {q : Rot ℝ} (h : q.norm2 = 1) : q.matrix ∈ Matrix.specialOrthogonalGroup (Fin 3) ℝ := by
  rw [Matrix.mem_specialOrthogonalGroup_iff, Matrix.mem_orthogonalGroup_iff]
  exact ⟨matrix_orthogonal h, matrix_det h⟩

/-- the quaternion of a turn about a unit axis -/
theorem norm2_axis {k : Vec3 ℝ} (hk : k.IsUnit) (θ : ℝ) :
    (⟨k.x * Real.sin (θ * (1 / 2)), k.y * Real.sin (θ * (1 / 2)), k.z * Real.sin (θ * (1 / 2)),
      Real.cos (θ * (1 / 2))⟩ : Rot ℝ).norm2 = 1 := by
  simp only [norm2]
  have h := Real.sin_sq_add_cos_sq (θ * (1 / 2))
  unfold Vec3.IsUnit at hk
  linear_combination h + Real.sin (θ * (1 / 2)) ^ 2 * hk

theorem matrix_axis {k : Vec3 ℝ} (hk : k.IsUnit) (θ : ℝ) :
    (⟨k.x * Real.sin (θ * (1 / 2)), k.y * Real.sin (θ * (1 / 2)), k.z * Real.sin (θ * (1 / 2)),
      Real.cos (θ * (1 / 2))⟩ : Rot ℝ).matrix = rodrigues k θ := by
  rw [matrix_unit (norm2_axis hk θ)]
  have hs : Real.sin θ = 2 * Real.sin (θ * (1 / 2)) * Real.cos (θ * (1 / 2)) := by
    rw [← Real.sin_two_mul]; congr 1; ring
  have hc : Real.cos θ = 2 * Real.cos (θ * (1 / 2)) ^ 2 - 1 := by
    rw [← Real.cos_two_mul]; congr 1; ring
  have h := Real.sin_sq_add_cos_sq (θ * (1 / 2))
  unfold Vec3.IsUnit at hk
  simp only [rodrigues, hs, hc]
  generalize Real.sin (θ * (1 / 2)) = s at *
  generalize Real.cos (θ * (1 / 2)) = c at *
  ext i j
  fin_cases i <;> fin_cases j <;> simp [crossMat]
  · linear_combination (1 - 2 * (k.y ^ 2 + k.z ^ 2)) * h + s ^ 2 * hk
  · linear_combination 2 * k.x * k.y * h
  · linear_combination 2 * k.x * k.z * h
  · linear_combination 2 * k.x * k.y * h
  · linear_combination (1 - 2 * (k.x ^ 2 + k.z ^ 2)) * h + s ^ 2 * hk
  · linear_combination 2 * k.y * k.z * h
  · linear_combination 2 * k.x * k.z * h
  · linear_combination 2 * k.y * k.z * h
  · linear_combination (1 - 2 * (k.x ^ 2 + k.y ^ 2)) * h + s ^ 2 * hk

theorem sin_half (a : ℝ) : Real.sin a = 2 * Real.sin (a / 2) * Real.cos (a / 2) := by
  rw [← Real.sin_two_mul]; congr 1; ring

theorem cos_half (a : ℝ) : Real.cos a = Real.cos (a / 2) ^ 2 - Real.sin (a / 2) ^ 2 := by
  rw [← Real.cos_two_mul']; congr 1; ring

theorem matrix_x (a : ℝ) : (⟨Real.sin (a / 2), 0, 0, Real.cos (a / 2)⟩ : Rot ℝ).matrix = rotX a := by
  have h := Real.sin_sq_add_cos_sq (a / 2)
  rw [matrix_unit (by simp only [norm2]; linear_combination h)]
  ext i j
  fin_cases i <;> fin_cases j <;> simp [rotX]
  · linear_combination h
  · rw [cos_half a]; ring
  · rw [sin_half a]; ring
  · rw [sin_half a]; ring
  · rw [cos_half a]; ring

theorem matrix_y (a : ℝ) : (⟨0, Real.sin (a / 2), 0, Real.cos (a / 2)⟩ : Rot ℝ).matrix = rotY a := by
  have h := Real.sin_sq_add_cos_sq (a / 2)
  rw [matrix_unit (by simp only [norm2]; linear_combination h)]
  ext i j
  fin_cases i <;> fin_cases j <;> simp [rotY]
  · rw [cos_half a]; ring
  · rw [sin_half a]; ring
  · linear_combination h
  · rw [sin_half a]; ring
  · rw [cos_half a]; ring

theorem matrix_z (a : ℝ) : (⟨0, 0, Real.sin (a / 2), Real.cos (a / 2)⟩ : Rot ℝ).matrix = rotZ a := by
  have h := Real.sin_sq_add_cos_sq (a / 2)
  rw [matrix_unit (by simp only [norm2]; linear_combination h)]
  ext i j
  fin_cases i <;> fin_cases j <;> simp [rotZ]
  · rw [cos_half a]; ring
  · rw [sin_half a]; ring
  · rw [sin_half a]; ring
  · rw [cos_half a]; ring
  · linear_combination h

/-- `setFromRPY` is the product of three turns -/
theorem fromRPY_mul (r p y : ℝ) : fromRPY r p y =
    mul (mul ⟨0, 0, Real.sin (y / 2), Real.cos (y / 2)⟩ ⟨0, Real.sin (p / 2), 0, Real.cos (p / 2)⟩)
      ⟨Real.sin (r / 2), 0, 0, Real.cos (r / 2)⟩ := by
  rw [fromRPY_raw]
  ext <;> simp only [mul] <;> ring

/-- roll, pitch, yaw: turn about x, then y, then z (fixed axes) -/
theorem matrix_fromRPY (r p y : ℝ) : (fromRPY r p y).matrix = rotZ y * rotY p * rotX r := by
  rw [fromRPY_mul, matrix_mul, matrix_mul, matrix_x, matrix_y, matrix_z]

end Rot
end Tinyfk

namespace Tinyfk
open Matrix

theorem homog_mul (R S : Matrix (Fin 3) (Fin 3) ℝ) (t u : Fin 3 → ℝ) :
    homog R t * homog S u = homog (R * S) (R *ᵥ u + t) := by
  ext i j
  fin_cases i <;> fin_cases j <;>
    simp [homog, Matrix.mul_apply, Fin.sum_univ_four, Fin.sum_univ_three, Matrix.mulVec, dotProduct]

theorem Pose.hom_transform (a b : Pose ℝ) : (Pose.transform a b).hom = a.hom * b.hom := by
  simp only [Pose.hom, homog_mul, Pose.transform, Rot.matrix_mul, ← Rot.rotate_matrix]
  congr 1
  ext i
  fin_cases i <;> simp [Vec3.toV, Vec3.add]

theorem Pose.hom_identity : (Pose.identity : Pose ℝ).hom = 1 := by
  ext i j
  fin_cases i <;> fin_cases j <;> simp [Pose.hom, Pose.identity, Rot.matrix_one, homog, Vec3.toV, Vec3.zero]

namespace Rot

theorem mul_inverse {q : Rot ℝ} (h : q.norm2 ≠ 0) : mul q q.inverse = one := by
  have h' : q.w ^ 2 + q.x ^ 2 + q.y ^ 2 + q.z ^ 2 ≠ 0 := by
    intro e; apply h; simp only [norm2]; linear_combination e
  ext <;> simp only [mul, inverse, one, norm2] <;> field_simp <;> ring

theorem inverse_mul {q : Rot ℝ} (h : q.norm2 ≠ 0) : mul q.inverse q = one := by
  have h' : q.w ^ 2 + q.x ^ 2 + q.y ^ 2 + q.z ^ 2 ≠ 0 := by
    intro e; apply h; simp only [norm2]; linear_combination e
  ext <;> simp only [mul, inverse, one, norm2] <;> field_simp <;> ring

theorem norm2_inverse {q : Rot ℝ} (h : q.norm2 = 1) : q.inverse.norm2 = 1 := by
  have := norm2_mul q q.inverse
  rw [mul_inverse (by rw [h]; norm_num), h, norm2_one] at this
  linarith

end Rot

namespace Pose

theorem transform_inverse {T : Pose ℝ} (h : T.rotation.norm2 ≠ 0) : transform T T.inverse = identity := by
  have hi : T.rotation.inverseInplace = T.rotation.inverse := rfl
  simp only [transform, inverse, identity, hi, Rot.mul_inverse h, ← Rot.rotate_mul, Rot.rotate_one]
  ext <;> simp [Vec3.add, Vec3.inverseInplace, Vec3.zero]

theorem inverse_transform {T : Pose ℝ} (h : T.rotation.norm2 ≠ 0) : transform T.inverse T = identity := by
  have hi : T.rotation.inverseInplace = T.rotation.inverse := rfl
  simp only [transform, inverse, identity, hi, Rot.inverse_mul h, ← Rot.rotate_add]
  have : Vec3.add T.position T.position.inverseInplace = ⟨0, 0, 0⟩ := by
    ext <;> simp [Vec3.add, Vec3.inverseInplace]
  rw [this, Rot.rotate_zero]
  rfl

end Pose
end Tinyfk
