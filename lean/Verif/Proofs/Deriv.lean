import Mathlib.Analysis.SpecialFunctions.Trigonometric.Deriv
import Mathlib.Tactic.LinearCombination
import Verif.Spec.Deriv
import Verif.Proofs.Turn
import Verif.Props.Rotation

/-!
# Derivatives of poses with respect to a joint angle
-/

set_option linter.unusedSectionVars false

namespace Tinyfk

open Scalar

namespace Rot

/-- `½ (a, 0) q`: the rate of change of `q` under angular velocity `a` -/
noncomputable def spin (a : Vec3 ℝ) (q : Rot ℝ) : Rot ℝ :=
  ⟨(a.x * q.w + a.y * q.z - a.z * q.y) / 2, (-a.x * q.z + a.y * q.w + a.z * q.x) / 2,
   (a.x * q.y - a.y * q.x + a.z * q.w) / 2, -(a.x * q.x + a.y * q.y + a.z * q.z) / 2⟩

theorem qDerivative_inverse {q : Rot ℝ} (h : q.norm2 = 1) (a : Vec3 ℝ) : qDerivative q.inverse a = spin a q := by
  simp only [qDerivative, inverse, h, spin, real_half, Rot.mk.injEq]
  refine ⟨?_, ?_, ?_, ?_⟩ <;> ring

theorem spin_mul (a : Vec3 ℝ) (q r : Rot ℝ) : mul (spin a q) r = spin a (mul q r) := by
  simp only [mul, spin, Rot.mk.injEq]
  refine ⟨?_, ?_, ?_, ?_⟩ <;> ring

theorem mul_spin {F : Rot ℝ} (h : F.norm2 = 1) (k : Vec3 ℝ) (q : Rot ℝ) : mul F (spin k q) = spin (F.rotate k) (mul F q) := by
  rw [rotate_unit _ _ h]
  simp only [norm2] at h
  have e : F.w * F.w = 1 - F.x * F.x - F.y * F.y - F.z * F.z := by linarith
  simp only [mul, spin, Rot.mk.injEq]
  refine ⟨?_, ?_, ?_, ?_⟩
  · linear_combination (-(F.w*q.w*k.x + F.w*q.z*k.y - F.w*q.y*k.z - F.x * (q.x*k.x+q.y*k.y+q.z*k.z) + F.y*(q.y*k.x - q.x*k.y+ q.w*k.z) - F.z *(-q.z*k.x+q.w*k.y+q.x*k.z))/2) * h
  · linear_combination (-(F.w*(-q.z*k.x+q.w*k.y+q.x*k.z) - F.x *(q.y*k.x - q.x*k.y+ q.w*k.z) - F.y * (q.x*k.x+q.y*k.y+q.z*k.z) + F.z *(q.w*k.x + q.z*k.y - q.y*k.z))/2) * h
  · linear_combination (-(F.w*(q.y*k.x - q.x*k.y+ q.w*k.z) + F.x *(-q.z*k.x+q.w*k.y+q.x*k.z) - F.y * (q.w*k.x + q.z*k.y - q.y*k.z) - F.z *(q.x*k.x+q.y*k.y+q.z*k.z))/2) * h
  · linear_combination (-(-F.w*(q.x*k.x+q.y*k.y+q.z*k.z) - F.x *(q.w*k.x + q.z*k.y - q.y*k.z) - F.y *(-q.z*k.x+q.w*k.y+q.x*k.z) - F.z * (q.y*k.x - q.x*k.y+ q.w*k.z))/2) * h

/-- the axis quaternion of a turning joint -/
noncomputable def axisQ (k : Vec3 ℝ) (v : ℝ) : Rot ℝ :=
  ⟨k.x * Real.sin (v / 2), k.y * Real.sin (v / 2), k.z * Real.sin (v / 2), Real.cos (v / 2)⟩

theorem axisQ_unit {k : Vec3 ℝ} (hk : k.IsUnit) (v : ℝ) : (axisQ k v).norm2 = 1 := by
  have := Real.sin_sq_add_cos_sq (v / 2)
  simp only [Vec3.IsUnit] at hk
  simp only [axisQ, norm2]
  linear_combination this + Real.sin (v / 2) ^ 2 * hk

theorem axisQ_fixes {k : Vec3 ℝ} (hk : k.IsUnit) (v : ℝ) : (axisQ k v).rotate k = k := by
  rw [rotate_unit _ _ (axisQ_unit hk v)]
  have := Real.sin_sq_add_cos_sq (v / 2)
  simp only [Vec3.IsUnit] at hk
  simp only [axisQ]
  ext
  · simp only; linear_combination k.x * this + k.x * Real.sin (v / 2) ^ 2 * hk
  · simp only; linear_combination k.y * this + k.y * Real.sin (v / 2) ^ 2 * hk
  · simp only; linear_combination k.z * this + k.z * Real.sin (v / 2) ^ 2 * hk

theorem axisQ_deriv {k : Vec3 ℝ} (hk : k.IsUnit) (t : ℝ) : HasDeriv (axisQ k) (spin k (axisQ k t)) t := by
  have hd : HasDerivAt (fun v : ℝ => v / 2) (1 / 2) t := (hasDerivAt_id t).div_const 2
  have hs := hd.sin
  have hc := hd.cos
  simp only [Vec3.IsUnit] at hk
  refine ⟨?_, ?_, ?_, ?_⟩
  · refine (hs.const_mul k.x).congr_deriv ?_
    simp only [spin, axisQ]; ring
  · refine (hs.const_mul k.y).congr_deriv ?_
    simp only [spin, axisQ]; ring
  · refine (hs.const_mul k.z).congr_deriv ?_
    simp only [spin, axisQ]; ring
  · refine hc.congr_deriv ?_
    simp only [spin, axisQ]
    linear_combination (Real.sin (t / 2) / 2) * hk

variable {f g : ℝ → Rot ℝ} {f' : Rot ℝ} {t : ℝ}

theorem HasDeriv.mul_left (h : HasDeriv f f' t) (F : Rot ℝ) : HasDeriv (fun v => mul F (f v)) (mul F f') t := by
  obtain ⟨h1, h2, h3, h4⟩ := h
  exact ⟨(((h1.const_mul F.w).add (h4.const_mul F.x)).add (h3.const_mul F.y)).sub (h2.const_mul F.z),
    (((h2.const_mul F.w).sub (h3.const_mul F.x)).add (h4.const_mul F.y)).add (h1.const_mul F.z),
    (((h3.const_mul F.w).add (h2.const_mul F.x)).sub (h1.const_mul F.y)).add (h4.const_mul F.z),
    (((h4.const_mul F.w).sub (h1.const_mul F.x)).sub (h2.const_mul F.y)).sub (h3.const_mul F.z)⟩

theorem HasDeriv.mul_right (h : HasDeriv f f' t) (F : Rot ℝ) : HasDeriv (fun v => mul (f v) F) (mul f' F) t := by
  obtain ⟨h1, h2, h3, h4⟩ := h
  exact ⟨(((h4.mul_const F.x).add (h1.mul_const F.w)).add (h2.mul_const F.z)).sub (h3.mul_const F.y),
    (((h4.mul_const F.y).sub (h1.mul_const F.z)).add (h2.mul_const F.w)).add (h3.mul_const F.x),
    (((h4.mul_const F.z).add (h1.mul_const F.y)).sub (h2.mul_const F.x)).add (h3.mul_const F.w),
    (((h4.mul_const F.w).sub (h1.mul_const F.x)).sub (h2.mul_const F.y)).sub (h3.mul_const F.z)⟩

/-- a turning quaternion turns vectors with the same angular velocity -/
theorem HasDeriv.rotate {a : Vec3 ℝ} (hu : ∀ v, (f v).norm2 = 1) (h : HasDeriv f (spin a (f t)) t) (r : Vec3 ℝ) :
    Vec3.HasDeriv (fun v => (f v).rotate r) (Vec3.cross a ((f t).rotate r)) t := by
  have e : (fun v => (f v).rotate r) = _ := funext fun v => rotate_unit (f v) r (hu v)
  rw [e, rotate_unit _ _ (hu t)]
  obtain ⟨h1, h2, h3, h4⟩ := h
  have mm : ∀ {p q : ℝ → ℝ} {p' q' : ℝ}, HasDerivAt p p' t → HasDerivAt q q' t →
      HasDerivAt (fun v => p v * q v) (p' * q t + p t * q') t := fun hp hq => hp.mul hq
  refine ⟨?_, ?_, ?_⟩
  · refine (((((((mm h4 h4).add (mm h1 h1)).sub (mm h2 h2)).sub (mm h3 h3)).mul_const r.x).add
      ((((mm h1 h2).sub (mm h4 h3)).const_mul 2).mul_const r.y)).add
      ((((mm h1 h3).add (mm h4 h2)).const_mul 2).mul_const r.z)).congr_deriv ?_
    simp only [spin, Vec3.cross]; ring
  · refine ((((((mm h1 h2).add (mm h4 h3)).const_mul 2).mul_const r.x).add
      (((((mm h4 h4).sub (mm h1 h1)).add (mm h2 h2)).sub (mm h3 h3)).mul_const r.y)).add
      ((((mm h2 h3).sub (mm h4 h1)).const_mul 2).mul_const r.z)).congr_deriv ?_
    simp only [spin, Vec3.cross]; ring
  · refine ((((((mm h1 h3).sub (mm h4 h2)).const_mul 2).mul_const r.x).add
      ((((mm h2 h3).add (mm h4 h1)).const_mul 2).mul_const r.y)).add
      (((((mm h4 h4).sub (mm h1 h1)).sub (mm h2 h2)).add (mm h3 h3)).mul_const r.z)).congr_deriv ?_
    simp only [spin, Vec3.cross]; ring

end Rot

theorem Vec3.HasDeriv.add_const {f : ℝ → Vec3 ℝ} {f' : Vec3 ℝ} {t : ℝ} (h : Vec3.HasDeriv f f' t) (c : Vec3 ℝ) :
    Vec3.HasDeriv (fun v => Vec3.add (f v) c) f' t :=
  ⟨h.1.add_const _, h.2.1.add_const _, h.2.2.add_const _⟩

theorem Vec3.HasDeriv.congr {f g : ℝ → Vec3 ℝ} {f' : Vec3 ℝ} {t : ℝ} (h : Vec3.HasDeriv f f' t) (e : ∀ v, g v = f v) :
    Vec3.HasDeriv g f' t := by
  have : g = f := funext e
  rw [this]; exact h

end Tinyfk
