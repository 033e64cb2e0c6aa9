import Mathlib.Analysis.SpecialFunctions.Complex.LogDeriv
import Mathlib.Analysis.SpecialFunctions.Trigonometric.InverseDeriv
import Verif.Proofs.Column
import Verif.Proofs.Rpy

/-!
# The derivative of roll, pitch and yaw
-/

namespace Tinyfk

open Scalar

/-- derivative of the angle of a moving point in the plane -/
theorem hasDerivAt_arg {A B : ℝ → ℝ} {A' B' t : ℝ} (hA : HasDerivAt A A' t) (hB : HasDerivAt B B' t)
    (hs : (⟨A t, B t⟩ : ℂ) ∈ Complex.slitPlane) :
    HasDerivAt (fun v => Complex.arg ⟨A v, B v⟩) ((A t * B' - B t * A') / (A t ^ 2 + B t ^ 2)) t := by
  have h1 : HasDerivAt (fun v => ((A v : ℂ) + (B v : ℂ) * Complex.I)) ((A' : ℂ) + (B' : ℂ) * Complex.I) t :=
    hA.ofReal_comp.add (hB.ofReal_comp.mul_const _)
  have e0 : ∀ v, (A v : ℂ) + (B v : ℂ) * Complex.I = ⟨A v, B v⟩ := fun v => (Complex.mk_eq_add_mul_I _ _).symm
  have h2 : HasDerivAt (fun v => Complex.log ((A v : ℂ) + (B v : ℂ) * Complex.I))
      (((A' : ℂ) + (B' : ℂ) * Complex.I) / ((A t : ℂ) + (B t : ℂ) * Complex.I)) t := by
    refine h1.clog_real ?_
    rw [e0]; exact hs
  have h3 : HasDerivAt (fun v => (Complex.log ((A v : ℂ) + (B v : ℂ) * Complex.I)).im)
      ((((A' : ℂ) + (B' : ℂ) * Complex.I) / ((A t : ℂ) + (B t : ℂ) * Complex.I)).im) t := by
    exact (Complex.imCLM.hasFDerivAt.comp_hasDerivAt t h2)
  simp only [Complex.log_im, e0] at h3
  refine h3.congr_deriv ?_
  rw [show (A' : ℂ) + (B' : ℂ) * Complex.I = ⟨A', B'⟩ from (Complex.mk_eq_add_mul_I _ _).symm, Complex.div_im]
  simp only [Complex.normSq_mk]
  ring

namespace Rot

/-- `q` is not at a jump of the reported angles: neither roll nor yaw is exactly `π` -/
def OffCut (q : Rot ℝ) : Prop := q.getRPY.x ≠ Real.pi ∧ q.getRPY.z ≠ Real.pi

theorem slit_of {a b : ℝ} (h : 0 < a ^ 2 + b ^ 2) (h2 : Complex.arg ⟨a, b⟩ ≠ Real.pi) : (⟨a, b⟩ : ℂ) ∈ Complex.slitPlane := by
  rw [Complex.mem_slitPlane_iff_arg]
  refine ⟨h2, ?_⟩
  intro h0
  have h3 := congrArg Complex.re h0
  have h4 := congrArg Complex.im h0
  simp only [Complex.zero_re, Complex.zero_im] at h3 h4
  rw [h3, h4] at h; norm_num at h

/-- away from the singularity and the cut, roll, pitch, yaw change as `rpy_derivative` says -/
theorem getRPY_deriv {f : ℝ → Rot ℝ} {t : ℝ} {a : Vec3 ℝ} (hu : ∀ v, (f v).norm2 = 1)
    (h : HasDeriv f (spin a (f t)) t) (hb : |(f t).sarg| < 99999 / 100000) (hc : (f t).OffCut) :
    Vec3.HasDeriv (fun v => (f v).getRPY) (rpyDerivative (f t).getRPY a) t := by
  have hx := h.rotate hu ⟨1, 0, 0⟩
  have hy := h.rotate hu ⟨0, 1, 0⟩
  have hz := h.rotate hu ⟨0, 0, 1⟩
  have colx : ∀ v, (f v).rotate ⟨1, 0, 0⟩ = ⟨(f v).w * (f v).w + (f v).x * (f v).x - (f v).y * (f v).y - (f v).z * (f v).z,
      2 * ((f v).x * (f v).y + (f v).w * (f v).z), -(f v).sarg⟩ := fun v => by
    rw [rotate_unit _ _ (hu v)]; simp [sarg]
  have coly : ∀ v, (f v).rotate ⟨0, 1, 0⟩ = ⟨2 * ((f v).x * (f v).y - (f v).w * (f v).z),
      (f v).w * (f v).w - (f v).x * (f v).x + (f v).y * (f v).y - (f v).z * (f v).z,
      2 * ((f v).y * (f v).z + (f v).w * (f v).x)⟩ := fun v => by
    rw [rotate_unit _ _ (hu v)]; simp
  have colz : ∀ v, (f v).rotate ⟨0, 0, 1⟩ = ⟨2 * ((f v).x * (f v).z + (f v).w * (f v).y),
      2 * ((f v).y * (f v).z - (f v).w * (f v).x),
      (f v).w * (f v).w - (f v).x * (f v).x - (f v).y * (f v).y + (f v).z * (f v).z⟩ := fun v => by
    rw [rotate_unit _ _ (hu v)]; simp
  simp only [colx] at hx
  simp only [coly] at hy
  simp only [colz] at hz
  have hs' := hx.2.2.fun_neg
  simp only [neg_neg] at hs'
  -- the formula for the angles holds around `t`
  have hnear : ∀ᶠ v in nhds t, |(f v).sarg| < 99999 / 100000 :=
    (hs'.continuousAt.abs).eventually_lt continuousAt_const hb
  have e1 := hnear.mono fun v hv => congrArg Vec3.x (getRPY_of_band hv)
  have e2 := hnear.mono fun v hv => congrArg Vec3.y (getRPY_of_band hv)
  have e3 := hnear.mono fun v hv => congrArg Vec3.z (getRPY_of_band hv)
  have hR := getRPY_of_band hb
  obtain ⟨hc1, hc2⟩ := hc
  rw [hR] at hc1 hc2
  simp only at hc1 hc2
  have hut := hu t
  simp only [norm2] at hut
  generalize hq : f t = q at *
  set A := q.w * q.w - q.x * q.x - q.y * q.y + q.z * q.z with hA
  set B := 2 * (q.y * q.z + q.w * q.x) with hB
  set C := q.w * q.w + q.x * q.x - q.y * q.y - q.z * q.z with hC
  set D := 2 * (q.x * q.y + q.w * q.z) with hD
  have hsx : q.sarg = -2 * (q.x * q.z - q.w * q.y) := by simp [sarg]
  have hAB : A ^ 2 + B ^ 2 = 1 - q.sarg ^ 2 := by
    rw [hsx, hA, hB]
    linear_combination (1 + q.w * q.w + q.x * q.x + q.y * q.y + q.z * q.z) * hut
  have hCD : C ^ 2 + D ^ 2 = 1 - q.sarg ^ 2 := by
    rw [hsx, hC, hD]
    linear_combination (1 + q.w * q.w + q.x * q.x + q.y * q.y + q.z * q.z) * hut
  have hlt : q.sarg ^ 2 < 1 := by
    rw [sq_lt_one_iff_abs_lt_one]; exact lt_trans hb (by norm_num)
  have hpos : 0 < 1 - q.sarg ^ 2 := by linarith
  set c := Real.sqrt (1 - q.sarg ^ 2) with hcdef
  have hc0 : 0 < c := Real.sqrt_pos.mpr hpos
  have hcc : c ^ 2 = 1 - q.sarg ^ 2 := Real.sq_sqrt hpos.le
  have hcos : Real.cos (Real.arcsin q.sarg) = c := Real.cos_arcsin _
  have hsl := abs_lt.mp (lt_trans hb (by norm_num : (99999 / 100000 : ℝ) < 1))
  have hsin : Real.sin (Real.arcsin q.sarg) = q.sarg := Real.sin_arcsin hsl.1.le hsl.2.le
  obtain ⟨p1, p2⟩ := polar_arg C D
  rw [hCD, ← hcdef] at p1 p2
  have hcy : Real.cos (Complex.arg ⟨C, D⟩) = C / c := by rw [eq_div_iff hc0.ne']; linarith
  have hsy : Real.sin (Complex.arg ⟨C, D⟩) = D / c := by rw [eq_div_iff hc0.ne']; linarith
  refine ⟨?_, ?_, ?_⟩
  · have key := hasDerivAt_arg hz.2.2 hy.2.2 (by
      simp only [hq]; exact slit_of (by rw [hAB]; exact hpos) hc1)
    refine (key.congr_of_eventuallyEq e1).congr_deriv ?_
    rw [hR]
    simp only [rpyDerivative, real_cos, real_sin, Real.cos_neg, Real.sin_neg, hcos, hcy, hsy, Vec3.cross, hq]
    rw [← hA, ← hB, hAB, ← hcc]
    field_simp
    rw [hA, hB, hC, hD]
    linear_combination (a.x * (q.w * q.w + q.x * q.x - q.y * q.y - q.z * q.z) + a.y * 2 * (q.x * q.y + q.w * q.z)) * hut
  · have key := (Real.hasDerivAt_arcsin (by rintro h; rw [h] at hlt; norm_num at hlt)
        (by rintro h; rw [h] at hlt; norm_num at hlt) : HasDerivAt Real.arcsin (1 / √(1 - q.sarg ^ 2)) q.sarg)
    rw [← hq] at key
    have key := key.comp t hs'
    refine (key.congr_of_eventuallyEq e2).congr_deriv ?_
    rw [hR]
    simp only [rpyDerivative, real_cos, real_sin, Real.cos_neg, Real.sin_neg, hcos, hcy, hsy, Vec3.cross, hq]
    rw [← hcdef]
    field_simp
    ring
  · have key := hasDerivAt_arg hx.1 hx.2.1 (by
      simp only [hq]; exact slit_of (by rw [hCD]; exact hpos) hc2)
    refine (key.congr_of_eventuallyEq e3).congr_deriv ?_
    rw [hR]
    simp only [rpyDerivative, real_cos, real_sin, Real.cos_neg, Real.sin_neg, hcos, hsin, hcy, hsy, Vec3.cross, hq]
    rw [← hC, ← hD, hCD, ← hcc]
    field_simp
    linear_combination a.z * (hCD.trans hcc.symm)

end Rot

end Tinyfk
