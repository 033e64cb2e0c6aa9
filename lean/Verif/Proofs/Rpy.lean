import Verif.Proofs.Rotation

/-!
# Roll, pitch, yaw over ℝ: `getRPY` and `setFromRPY` undo each other away from the singularity
-/

namespace Tinyfk

open Matrix

namespace Rot

@[simp] theorem real_sargCut : (sargCut : ℝ) = 99999 / 100000 := by simp [sargCut, real_lit]; norm_num

/-- the entries of the matrix that `getRPY` looks at -/
theorem getRPY_of_band {q : Rot ℝ} (h : |q.sarg| < 99999 / 100000) : q.getRPY =
    ⟨Complex.arg ⟨q.w * q.w - q.x * q.x - q.y * q.y + q.z * q.z, 2 * (q.y * q.z + q.w * q.x)⟩, Real.arcsin q.sarg,
     Complex.arg ⟨q.w * q.w + q.x * q.x - q.y * q.y - q.z * q.z, 2 * (q.x * q.y + q.w * q.z)⟩⟩ := by
  obtain ⟨h1, h2⟩ := abs_lt.mp h
  have n1 : ¬ Scalar.le q.sarg (-sargCut) = true := by rw [real_le, real_sargCut]; linarith
  have n2 : ¬ Scalar.le sargCut q.sarg = true := by rw [real_le, real_sargCut]; linarith
  simp only [getRPY, if_neg n1, if_neg n2, real_atan2, real_two, real_asin]

theorem fromRPY_entries (r p y : ℝ) : let q := fromRPY r p y
    q.w * q.w - q.x * q.x - q.y * q.y + q.z * q.z = Real.cos p * Real.cos r ∧
    2 * (q.y * q.z + q.w * q.x) = Real.cos p * Real.sin r ∧
    q.w * q.w + q.x * q.x - q.y * q.y - q.z * q.z = Real.cos p * Real.cos y ∧
    2 * (q.x * q.y + q.w * q.z) = Real.cos p * Real.sin y ∧ q.sarg = Real.sin p := by
  intro q
  have h := matrix_unit (norm2_fromRPY r p y)
  rw [matrix_fromRPY] at h
  have e := fun i j => congrFun (congrFun h i) j
  have e22 := e 2 2
  have e21 := e 2 1
  have e00 := e 0 0
  have e10 := e 1 0
  have e20 := e 2 0
  simp [rotX, rotY, rotZ] at e22 e21 e00 e10 e20
  refine ⟨?_, ?_, ?_, ?_, ?_⟩
  · exact e22.symm
  · exact e21.symm
  · rw [mul_comm (Real.cos p)]; exact e00.symm
  · rw [mul_comm (Real.cos p)]; exact e10.symm
  · have : q.sarg = -(2 * (q.x * q.z - q.w * q.y)) := by simp [sarg]
    rw [this, ← e20, neg_neg]

theorem arg_polar {a t : ℝ} (ha : 0 < a) (h1 : -Real.pi < t) (h2 : t ≤ Real.pi) :
    Complex.arg ⟨a * Real.cos t, a * Real.sin t⟩ = t := by
  have := Complex.arg_mul_cos_add_sin_mul_I ha (θ := t) ⟨h1, h2⟩
  have e : (⟨a * Real.cos t, a * Real.sin t⟩ : ℂ) = a * (Complex.cos t + Complex.sin t * Complex.I) := by
    apply Complex.ext <;> simp [Complex.cos_ofReal_re, Complex.sin_ofReal_re]
  rw [e, this]

/-- reading roll, pitch, yaw back -/
theorem getRPY_fromRPY {r p y : ℝ} (hr1 : -Real.pi < r) (hr2 : r ≤ Real.pi) (hy1 : -Real.pi < y) (hy2 : y ≤ Real.pi)
    (hp1 : -(Real.pi / 2) < p) (hp2 : p < Real.pi / 2) (hs : |Real.sin p| < 99999 / 100000) :
    (fromRPY r p y).getRPY = ⟨r, p, y⟩ := by
  obtain ⟨e1, e2, e3, e4, e5⟩ := fromRPY_entries r p y
  have hc : 0 < Real.cos p := Real.cos_pos_of_mem_Ioo ⟨hp1, hp2⟩
  rw [getRPY_of_band (by rw [e5]; exact hs), e1, e2, e3, e4, e5, arg_polar hc hr1 hr2, arg_polar hc hy1 hy2,
    Real.arcsin_sin hp1.le hp2.le]

theorem polar_arg (a b : ℝ) : Real.sqrt (a ^ 2 + b ^ 2) * Real.cos (Complex.arg ⟨a, b⟩) = a ∧
    Real.sqrt (a ^ 2 + b ^ 2) * Real.sin (Complex.arg ⟨a, b⟩) = b := by
  have hn : ‖(⟨a, b⟩ : ℂ)‖ = Real.sqrt (a ^ 2 + b ^ 2) := by
    rw [Complex.norm_def, Complex.normSq_apply]; congr 1; simp; ring
  rw [← hn]
  exact ⟨Complex.norm_mul_cos_arg _, Complex.norm_mul_sin_arg _⟩

/-- the angles that are used away from the singularity, as a rotation -/
theorem matrix_angles {q : Rot ℝ} (hq : q.norm2 = 1) (h1 : |q.sarg| < 1) :
    rotZ (Complex.arg ⟨q.w * q.w + q.x * q.x - q.y * q.y - q.z * q.z, 2 * (q.x * q.y + q.w * q.z)⟩) * rotY (Real.arcsin q.sarg) *
      rotX (Complex.arg ⟨q.w * q.w - q.x * q.x - q.y * q.y + q.z * q.z, 2 * (q.y * q.z + q.w * q.x)⟩) = q.matrix := by
  rw [matrix_unit hq]
  have hn : q.w ^ 2 + q.x ^ 2 + q.y ^ 2 + q.z ^ 2 = 1 := by rw [← hq]; simp [norm2]; ring
  have hs : q.sarg = -2 * (q.x * q.z - q.w * q.y) := by simp [sarg]
  obtain ⟨ha, hb⟩ := abs_lt.mp h1
  have hpos : 0 < 1 - q.sarg ^ 2 := by nlinarith
  obtain ⟨c1, c2⟩ := polar_arg (q.w * q.w - q.x * q.x - q.y * q.y + q.z * q.z) (2 * (q.y * q.z + q.w * q.x))
  obtain ⟨c3, c4⟩ := polar_arg (q.w * q.w + q.x * q.x - q.y * q.y - q.z * q.z) (2 * (q.x * q.y + q.w * q.z))
  have n1 : (q.w * q.w - q.x * q.x - q.y * q.y + q.z * q.z) ^ 2 + (2 * (q.y * q.z + q.w * q.x)) ^ 2 = 1 - q.sarg ^ 2 := by
    rw [hs]; linear_combination (q.w ^ 2 + q.x ^ 2 + q.y ^ 2 + q.z ^ 2 + 1) * hn
  have n2 : (q.w * q.w + q.x * q.x - q.y * q.y - q.z * q.z) ^ 2 + (2 * (q.x * q.y + q.w * q.z)) ^ 2 = 1 - q.sarg ^ 2 := by
    rw [hs]; linear_combination (q.w ^ 2 + q.x ^ 2 + q.y ^ 2 + q.z ^ 2 + 1) * hn
  rw [n1] at c1 c2
  rw [n2] at c3 c4
  set r := Complex.arg ⟨q.w * q.w - q.x * q.x - q.y * q.y + q.z * q.z, 2 * (q.y * q.z + q.w * q.x)⟩
  set y := Complex.arg ⟨q.w * q.w + q.x * q.x - q.y * q.y - q.z * q.z, 2 * (q.x * q.y + q.w * q.z)⟩
  have hsp : Real.sin (Real.arcsin q.sarg) = q.sarg := Real.sin_arcsin ha.le hb.le
  have hcp : Real.cos (Real.arcsin q.sarg) = Real.sqrt (1 - q.sarg ^ 2) := Real.cos_arcsin _
  set a := Real.sqrt (1 - q.sarg ^ 2)
  have ha2 : a * a = 1 - q.sarg ^ 2 := Real.mul_self_sqrt hpos.le
  have ha0 : a * a ≠ 0 := by rw [ha2]; exact hpos.ne'
  set p := Real.arcsin q.sarg
  have key : ∀ u v : ℝ, a * a * u = a * a * v → u = v := fun u v e => mul_left_cancel₀ ha0 e
  have k01 : Real.cos y * q.sarg * Real.sin r - Real.sin y * Real.cos r = 2 * (q.x * q.y - q.w * q.z) := by
    apply key
    rw [show a * a * (Real.cos y * q.sarg * Real.sin r - Real.sin y * Real.cos r) =
      q.sarg * (a * Real.cos y) * (a * Real.sin r) - (a * Real.sin y) * (a * Real.cos r) by ring, c1, c2, c3, c4, ha2, hs]
    linear_combination (2 * (q.x * q.y + q.w * q.z) * (q.w * q.w - q.x * q.x - q.y * q.y + q.z * q.z) +
      (q.w ^ 2 + q.x ^ 2 + q.y ^ 2 + q.z ^ 2 + 1) * (2 * (q.x * q.y - q.w * q.z))) * hn
  have k02 : Real.cos y * q.sarg * Real.cos r + Real.sin y * Real.sin r = 2 * (q.x * q.z + q.w * q.y) := by
    apply key
    rw [show a * a * (Real.cos y * q.sarg * Real.cos r + Real.sin y * Real.sin r) =
      q.sarg * (a * Real.cos y) * (a * Real.cos r) + (a * Real.sin y) * (a * Real.sin r) by ring, c1, c2, c3, c4, ha2, hs]
    linear_combination (-(2 * (q.x * q.y + q.w * q.z) * (2 * (q.y * q.z + q.w * q.x))) +
      (q.w ^ 2 + q.x ^ 2 + q.y ^ 2 + q.z ^ 2 + 1) * (2 * (q.x * q.z + q.w * q.y))) * hn
  have k11 : Real.sin y * q.sarg * Real.sin r + Real.cos y * Real.cos r =
      q.w * q.w - q.x * q.x + q.y * q.y - q.z * q.z := by
    apply key
    rw [show a * a * (Real.sin y * q.sarg * Real.sin r + Real.cos y * Real.cos r) =
      q.sarg * (a * Real.sin y) * (a * Real.sin r) + (a * Real.cos y) * (a * Real.cos r) by ring, c1, c2, c3, c4, ha2, hs]
    linear_combination (-((q.w * q.w + q.x * q.x - q.y * q.y - q.z * q.z) * (q.w * q.w - q.x * q.x - q.y * q.y + q.z * q.z)) +
      (q.w ^ 2 + q.x ^ 2 + q.y ^ 2 + q.z ^ 2 + 1) * (q.w * q.w - q.x * q.x + q.y * q.y - q.z * q.z)) * hn
  have k12 : Real.sin y * q.sarg * Real.cos r - Real.cos y * Real.sin r = 2 * (q.y * q.z - q.w * q.x) := by
    apply key
    rw [show a * a * (Real.sin y * q.sarg * Real.cos r - Real.cos y * Real.sin r) =
      q.sarg * (a * Real.sin y) * (a * Real.cos r) - (a * Real.cos y) * (a * Real.sin r) by ring, c1, c2, c3, c4, ha2, hs]
    linear_combination ((q.w * q.w + q.x * q.x - q.y * q.y - q.z * q.z) * (2 * (q.y * q.z + q.w * q.x)) +
      (q.w ^ 2 + q.x ^ 2 + q.y ^ 2 + q.z ^ 2 + 1) * (2 * (q.y * q.z - q.w * q.x))) * hn
  ext i j
  fin_cases i <;> fin_cases j <;> simp [rotX, rotY, rotZ, hsp, hcp]
  · linear_combination c3
  · linear_combination k01
  · linear_combination k02
  · linear_combination c4
  · linear_combination k11
  · linear_combination k12
  · linear_combination -hs
  · linear_combination c2
  · linear_combination c1

/-- away from the singularity, the angles of a rotation give the rotation back -/
theorem matrix_getRPY {q : Rot ℝ} (hq : q.norm2 = 1) (h : |q.sarg| < 99999 / 100000) :
    rotZ q.getRPY.z * rotY q.getRPY.y * rotX q.getRPY.x = q.matrix := by
  rw [getRPY_of_band h]
  exact matrix_angles hq (by linarith)

end Rot
end Tinyfk
