import Verif.Props.Deriv
import Verif.Props.BasePose

/-!
# Poses as functions of the base pose
-/

set_option linter.unusedSectionVars false

namespace Tinyfk

open Scalar

/-- the model after `set_base_pose` -/
def rebased (m : KinModel ℝ) (p : Pose ℝ) : KinModel ℝ := { m with base := p, cache := m.cache.clear }

variable {m : KinModel ℝ}

theorem IsPose.rebase (g : Pose ℝ) {l : Nat} {E : Pose ℝ} (h : IsPose m l E) :
    IsPose (rebased m (Pose.transform g m.base)) l (Pose.transform g E) := by
  induction h with
  | root e1 e2 => exact IsPose.root (m := rebased m (Pose.transform g m.base)) e1 e2
  | child e1 e2 e3 e4 e5 _ ih =>
    rw [← Pose.transform_assoc]
    exact IsPose.child (m := rebased m (Pose.transform g m.base)) e1 e2 e3 e4 e5 ih

/-- the pose of a link when the base is moved to `p` -/
theorem IsPose.rebased (hb : m.base.rotation.norm2 = 1) (p : Pose ℝ) {l : Nat} {E : Pose ℝ} (h : IsPose m l E) :
    IsPose (rebased m p) l (Pose.transform p (Pose.transform m.base.inverse E)) := by
  have h1 := h.rebase (Pose.transform p m.base.inverse)
  have e : Pose.transform (Pose.transform p m.base.inverse) m.base = p := by
    rw [Pose.transform_assoc, Pose.inverse_transform (by rw [hb]; norm_num), Pose.transform_identity]
  rw [e, Pose.transform_assoc] at h1
  exact h1

namespace Rot

/-- the opposite quaternion, which is the same rotation -/
def neg (q : Rot ℝ) : Rot ℝ := ⟨-q.x, -q.y, -q.z, -q.w⟩

theorem norm2_neg (q : Rot ℝ) : q.neg.norm2 = q.norm2 := by simp [neg, norm2]

theorem neg_mul (q r : Rot ℝ) : mul q.neg r = (mul q r).neg := by
  simp only [neg, mul, Rot.mk.injEq]
  refine ⟨?_, ?_, ?_, ?_⟩ <;> ring

theorem rotate_neg {q : Rot ℝ} (h : q.norm2 = 1) (v : Vec3 ℝ) : q.neg.rotate v = q.rotate v := by
  rw [rotate_unit _ _ h, rotate_unit _ _ (by rw [norm2_neg]; exact h)]
  simp [neg]

theorem getRPY_neg {q : Rot ℝ} (h : |q.sarg| < 99999 / 100000) : q.neg.getRPY = q.getRPY := by
  have hs : q.neg.sarg = q.sarg := by simp [neg, sarg]
  rw [getRPY_of_band h, getRPY_of_band (by rw [hs]; exact h), hs]
  simp [neg]

/-- two unit quaternions of the same rotation are equal up to sign -/
theorem eq_or_neg_of_matrix {p q : Rot ℝ} (hp : p.norm2 = 1) (hq : q.norm2 = 1) (h : p.matrix = q.matrix) :
    p = q ∨ p = q.neg := by
  rw [matrix_unit hp, matrix_unit hq] at h
  have e : ∀ i j, _ := fun i j => congrFun (congrFun h i) j
  have e00 := e 0 0
  have e01 := e 0 1
  have e02 := e 0 2
  have e10 := e 1 0
  have e11 := e 1 1
  have e12 := e 1 2
  have e20 := e 2 0
  have e21 := e 2 1
  have e22 := e 2 2
  simp only [norm2] at hp hq
  simp at e00 e01 e02 e10 e11 e12 e20 e21 e22
  set d := p.x * q.x + p.y * q.y + p.z * q.z + p.w * q.w with hd
  have xx : p.x * p.x = q.x * q.x := by linarith
  have yy : p.y * p.y = q.y * q.y := by linarith
  have zz : p.z * p.z = q.z * q.z := by linarith
  have ww : p.w * p.w = q.w * q.w := by linarith
  have xy : p.x * p.y = q.x * q.y := by linarith
  have xz : p.x * p.z = q.x * q.z := by linarith
  have xw : p.x * p.w = q.x * q.w := by linarith
  have yz : p.y * p.z = q.y * q.z := by linarith
  have yw : p.y * p.w = q.y * q.w := by linarith
  have zw : p.z * p.w = q.z * q.w := by linarith
  have hd1 : d * d = 1 := by
    have : d * d = (q.w * q.w + q.x * q.x + q.y * q.y + q.z * q.z) * (q.w * q.w + q.x * q.x + q.y * q.y + q.z * q.z) := by
      rw [hd]
      linear_combination q.x * q.x * xx + q.y * q.y * yy + q.z * q.z * zz + q.w * q.w * ww + 2 * q.x * q.y * xy +
        2 * q.x * q.z * xz + 2 * q.x * q.w * xw + 2 * q.y * q.z * yz + 2 * q.y * q.w * yw + 2 * q.z * q.w * zw
    rw [this, hq]; norm_num
  rcases mul_self_eq_one_iff.mp hd1 with h1 | h1
  · left
    have := eq_zero_of_norm2 (q := ⟨p.x - q.x, p.y - q.y, p.z - q.z, p.w - q.w⟩) (by
      simp only [norm2]; rw [hd] at h1; linear_combination hp + hq - 2 * h1)
    simp only [Rot.mk.injEq] at this
    ext <;> linarith [this.1, this.2.1, this.2.2.1, this.2.2.2]
  · right
    have := eq_zero_of_norm2 (q := ⟨p.x + q.x, p.y + q.y, p.z + q.z, p.w + q.w⟩) (by
      simp only [norm2]; rw [hd] at h1; linear_combination hp + hq + 2 * h1)
    simp only [Rot.mk.injEq] at this
    ext <;> simp only [neg] <;> linarith [this.1, this.2.1, this.2.2.1, this.2.2.2]

/-- setting the reported angles again gives the same rotation -/
theorem fromRPY_getRPY {q : Rot ℝ} (hq : q.norm2 = 1) (h : |q.sarg| < 99999 / 100000) :
    fromRPY q.getRPY.x q.getRPY.y q.getRPY.z = q ∨ fromRPY q.getRPY.x q.getRPY.y q.getRPY.z = q.neg :=
  eq_or_neg_of_matrix (norm2_fromRPY _ _ _) hq (by rw [matrix_fromRPY, matrix_getRPY hq h])

end Rot

end Tinyfk
