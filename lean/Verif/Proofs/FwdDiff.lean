import Mathlib.Analysis.SpecialFunctions.Trigonometric.Deriv
import Mathlib.Analysis.SpecialFunctions.Trigonometric.Bounds
import Mathlib.Analysis.Calculus.Deriv.MeanValue
import Mathlib.Tactic.FieldSimp
import Mathlib.Tactic.Linarith
import Mathlib.Tactic.Ring
import Mathlib.Tactic.LinearCombination
import Verif.Proofs.Rpy
import Verif.Spec.Axis

/-!
# Forward differences of functions made of one sine and one cosine
-/

namespace Tinyfk

/-- `g t = a cos (k t) + b sin (k t) + c` with amplitude at most `ρ` -/
def Harm (k ρ : ℝ) (g : ℝ → ℝ) : Prop :=
  ∃ a b c, (∀ t, g t = a * Real.cos (k * t) + b * Real.sin (k * t) + c) ∧ a ^ 2 + b ^ 2 ≤ ρ ^ 2

theorem cos_ge_sq (h : ℝ) : 1 - Real.cos h ≤ h ^ 2 / 2 := by
  linarith [Real.one_sub_sq_div_two_le_cos (x := h)]

/-- `|exp(ih) - 1 - ih| ≤ h² / 2`, squared -/
theorem exp_rem {h : ℝ} (hh : 0 ≤ h) : (1 - Real.cos h) ^ 2 + (h - Real.sin h) ^ 2 ≤ (h ^ 2 / 2) ^ 2 := by
  let F : ℝ → ℝ := fun h => (h ^ 2 / 2) ^ 2 - ((1 - Real.cos h) ^ 2 + (h - Real.sin h) ^ 2)
  have hd : ∀ t, HasDerivAt F (t ^ 3 - 2 * t * (1 - Real.cos t)) t := by
    intro t
    have h1 := (((hasDerivAt_id t).pow 2).div_const 2).pow 2
    have h2 := ((Real.hasDerivAt_cos t).const_sub 1).pow 2
    have h3 := ((hasDerivAt_id t).sub (Real.hasDerivAt_sin t)).pow 2
    refine (h1.sub (h2.add h3)).congr_deriv ?_
    simp
    ring
  have hm : MonotoneOn F (Set.Ici 0) := by
    refine monotoneOn_of_deriv_nonneg (convex_Ici 0) (fun t _ => (hd t).continuousAt.continuousWithinAt)
      (fun t _ => (hd t).differentiableAt.differentiableWithinAt) ?_
    intro t ht
    rw [interior_Ici] at ht
    have ht : 0 < t := ht
    rw [(hd t).deriv]
    have := mul_le_mul_of_nonneg_left (cos_ge_sq t) (by linarith : (0 : ℝ) ≤ 2 * t)
    nlinarith
  have h0 : F 0 = 0 := by simp [F]
  have := hm (by simp : (0 : ℝ) ∈ Set.Ici 0) (Set.mem_Ici.mpr hh) hh
  rw [h0] at this
  simp only [F] at this
  linarith

/-- the forward difference of such a function is within `k² ρ h / 2` of the derivative -/
theorem Harm.fwd {k ρ : ℝ} {g : ℝ → ℝ} (hk : 0 ≤ k) (hρ : 0 ≤ ρ) (hg : Harm k ρ g) (t : ℝ) {h : ℝ} (hh : 0 < h) :
    ∃ D, HasDerivAt g D t ∧ |(g (t + h) - g t) / h - D| ≤ k ^ 2 * ρ * h / 2 := by
  obtain ⟨a, b, c, hg, hab⟩ := hg
  let u := a * Real.cos (k * t) + b * Real.sin (k * t)
  let v := -(a * Real.sin (k * t)) + b * Real.cos (k * t)
  have huv : u ^ 2 + v ^ 2 = a ^ 2 + b ^ 2 := by
    have := Real.sin_sq_add_cos_sq (k * t)
    simp only [u, v]
    linear_combination (a ^ 2 + b ^ 2) * this
  refine ⟨k * v, ?_, ?_⟩
  · have e : g = fun t => a * Real.cos (k * t) + b * Real.sin (k * t) + c := funext hg
    rw [e]
    have hl : HasDerivAt (fun t : ℝ => k * t) k t := by simpa using (hasDerivAt_id t).const_mul k
    have h1 := ((Real.hasDerivAt_cos (k * t)).comp t hl).const_mul a
    have h2 := ((Real.hasDerivAt_sin (k * t)).comp t hl).const_mul b
    refine ((h1.add h2).add_const c).congr_deriv ?_
    simp only [v]
    ring
  · have hkh : 0 ≤ k * h := mul_nonneg hk hh.le
    have e : (g (t + h) - g t) / h - k * v = (u * (Real.cos (k * h) - 1) + v * (Real.sin (k * h) - k * h)) / h := by
      rw [hg, hg, mul_add, Real.cos_add, Real.sin_add]
      field_simp
      simp only [u, v]
      ring
    rw [e, abs_div, abs_of_pos hh, div_le_iff₀ hh]
    have hr := exp_rem hkh
    apply abs_le_of_sq_le_sq
    · have hcs : (u * (Real.cos (k * h) - 1) + v * (Real.sin (k * h) - k * h)) ^ 2 ≤
          (u ^ 2 + v ^ 2) * ((1 - Real.cos (k * h)) ^ 2 + (k * h - Real.sin (k * h)) ^ 2) := by
        nlinarith [sq_nonneg (u * (Real.sin (k * h) - k * h) - v * (Real.cos (k * h) - 1))]
      refine hcs.trans ?_
      rw [huv]
      refine (mul_le_mul hab hr (by positivity) (by positivity)).trans ?_
      apply le_of_eq
      ring
    · positivity

/-- combination of two -/
theorem Harm.of_eq {k ρ : ℝ} {g g' : ℝ → ℝ} (h : Harm k ρ g) (e : ∀ t, g' t = g t) : Harm k ρ g' := by
  rwa [show g' = g from funext e]

/-! ### coordinates of a rotated vector as functions of roll, pitch and yaw -/

theorem rotate_fromRPY (r p w : ℝ) (v : Vec3 ℝ) : (Rot.fromRPY r p w).rotate v =
    let cr := Real.cos r; let sr := Real.sin r; let cp := Real.cos p; let sp := Real.sin p
    let cw := Real.cos w; let sw := Real.sin w
    let y1 := cr * v.y - sr * v.z
    let z1 := sr * v.y + cr * v.z
    let x2 := cp * v.x + sp * z1
    let z2 := -sp * v.x + cp * z1
    ⟨cw * x2 - sw * y1, sw * x2 + cw * y1, z2⟩ := by
  have h := Rot.rotate_matrix (Rot.fromRPY r p w) v
  rw [Rot.matrix_fromRPY] at h
  have h0 := congrFun h 0
  have h1 := congrFun h 1
  have h2 := congrFun h 2
  simp [Vec3.toV, rotX, rotY, rotZ, Matrix.mulVec, Matrix.mul_apply, dotProduct, Fin.sum_univ_three] at h0 h1 h2
  refine Vec3.ext ?_ ?_ ?_ <;> simp only [h0, h1, h2] <;> ring

theorem Vec3.len2_nonneg (v : Vec3 ℝ) : 0 ≤ v.len2 := by unfold Vec3.len2; positivity

theorem len2_rotate {q : Rot ℝ} (hq : q.norm2 = 1) (v : Vec3 ℝ) : (q.rotate v).len2 = v.len2 := by
  have h := Rot.rotate_matrix q v
  have ho : q.matrix.transpose * q.matrix = 1 := mul_eq_one_comm.mp (Rot.matrix_orthogonal hq)
  have e : ∀ u : Vec3 ℝ, u.len2 = dotProduct u.toV u.toV := by
    intro u; simp [Vec3.len2, Vec3.toV, dotProduct, Fin.sum_univ_three]; ring
  rw [e, e, h, Matrix.dotProduct_mulVec, Matrix.vecMul_mulVec, ho]
  simp

/-- one of the three coordinates -/
def Vec3.cmp (v : Vec3 ℝ) : Nat → ℝ
  | 0 => v.x
  | 1 => v.y
  | 2 => v.z
  | _ => 0

private theorem sq_le_one_of {a b : ℝ} (h : a ^ 2 + b ^ 2 = 1) : a ^ 2 ≤ 1 := by nlinarith [sq_nonneg b]

theorem harm_roll (p w : ℝ) (v : Vec3 ℝ) {q : Nat} (hq : q < 3) :
    Harm 1 (Real.sqrt v.len2) fun t => ((Rot.fromRPY t p w).rotate v).cmp q := by
  simp only [rotate_fromRPY]
  unfold Harm
  rw [Real.sq_sqrt v.len2_nonneg]
  simp only [one_mul, Vec3.len2]
  have hp := Real.sin_sq_add_cos_sq p
  have hw := Real.sin_sq_add_cos_sq w
  have hp1 := sq_le_one_of hp
  have hp2 := sq_le_one_of ((add_comm _ _).trans hp)
  have e1 := mul_nonneg (sq_nonneg (Real.cos w)) (sub_nonneg.mpr hp1)
  have e2 := mul_nonneg (sq_nonneg (Real.sin w)) (sub_nonneg.mpr hp1)
  have n : 0 ≤ v.y ^ 2 + v.z ^ 2 := by positivity
  match q, hq with
  | 0, _ =>
    refine ⟨Real.cos w * Real.sin p * v.z - Real.sin w * v.y, Real.cos w * Real.sin p * v.y + Real.sin w * v.z,
      Real.cos w * Real.cos p * v.x, fun t => by simp only [Vec3.cmp]; ring, ?_⟩
    have : (Real.cos w * Real.sin p * v.z - Real.sin w * v.y) ^ 2 + (Real.cos w * Real.sin p * v.y + Real.sin w * v.z) ^ 2 =
        (v.y ^ 2 + v.z ^ 2) * (1 - Real.cos w ^ 2 * (1 - Real.sin p ^ 2)) := by
      linear_combination (v.y ^ 2 + v.z ^ 2) * hw
    rw [this]
    nlinarith [mul_nonneg n e1, sq_nonneg v.x]
  | 1, _ =>
    refine ⟨Real.sin w * Real.sin p * v.z + Real.cos w * v.y, Real.sin w * Real.sin p * v.y - Real.cos w * v.z,
      Real.sin w * Real.cos p * v.x, fun t => by simp only [Vec3.cmp]; ring, ?_⟩
    have : (Real.sin w * Real.sin p * v.z + Real.cos w * v.y) ^ 2 + (Real.sin w * Real.sin p * v.y - Real.cos w * v.z) ^ 2 =
        (v.y ^ 2 + v.z ^ 2) * (1 - Real.sin w ^ 2 * (1 - Real.sin p ^ 2)) := by
      linear_combination (v.y ^ 2 + v.z ^ 2) * hw
    rw [this]
    nlinarith [mul_nonneg n e2, sq_nonneg v.x]
  | 2, _ =>
    refine ⟨Real.cos p * v.z, Real.cos p * v.y, -Real.sin p * v.x, fun t => by simp only [Vec3.cmp]; ring, ?_⟩
    nlinarith [mul_nonneg n (sub_nonneg.mpr hp2), sq_nonneg v.x]

theorem turn_sq (r a b : ℝ) : (Real.cos r * a - Real.sin r * b) ^ 2 + (Real.sin r * a + Real.cos r * b) ^ 2 = a ^ 2 + b ^ 2 := by
  linear_combination (a ^ 2 + b ^ 2) * Real.sin_sq_add_cos_sq r

theorem harm_pitch (r w : ℝ) (v : Vec3 ℝ) {q : Nat} (hq : q < 3) :
    Harm 1 (Real.sqrt v.len2) fun t => ((Rot.fromRPY r t w).rotate v).cmp q := by
  simp only [rotate_fromRPY]
  unfold Harm
  rw [Real.sq_sqrt v.len2_nonneg]
  simp only [one_mul, Vec3.len2]
  have ht := turn_sq r v.y v.z
  generalize Real.cos r * v.y - Real.sin r * v.z = y1 at ht ⊢
  generalize Real.sin r * v.y + Real.cos r * v.z = z1 at ht ⊢
  have hw := Real.sin_sq_add_cos_sq w
  have hw1 := sq_le_one_of hw
  have hw2 := sq_le_one_of ((add_comm _ _).trans hw)
  have n : 0 ≤ v.x ^ 2 + z1 ^ 2 := by positivity
  have hy := sq_nonneg y1
  match q, hq with
  | 0, _ =>
    refine ⟨Real.cos w * v.x, Real.cos w * z1, -(Real.sin w * y1), fun t => by simp only [Vec3.cmp]; ring, ?_⟩
    nlinarith [mul_nonneg n (sub_nonneg.mpr hw2)]
  | 1, _ =>
    refine ⟨Real.sin w * v.x, Real.sin w * z1, Real.cos w * y1, fun t => by simp only [Vec3.cmp]; ring, ?_⟩
    nlinarith [mul_nonneg n (sub_nonneg.mpr hw1)]
  | 2, _ =>
    refine ⟨z1, -v.x, 0, fun t => by simp only [Vec3.cmp]; ring, ?_⟩
    nlinarith

theorem harm_yaw (r p : ℝ) (v : Vec3 ℝ) {q : Nat} (hq : q < 3) :
    Harm 1 (Real.sqrt v.len2) fun t => ((Rot.fromRPY r p t).rotate v).cmp q := by
  simp only [rotate_fromRPY]
  unfold Harm
  rw [Real.sq_sqrt v.len2_nonneg]
  simp only [one_mul, Vec3.len2]
  have ht := turn_sq r v.y v.z
  generalize Real.cos r * v.y - Real.sin r * v.z = y1 at ht ⊢
  generalize Real.sin r * v.y + Real.cos r * v.z = z1 at ht ⊢
  have ht2 := turn_sq p z1 v.x
  have h3 : (Real.cos p * v.x + Real.sin p * z1) ^ 2 ≤ z1 ^ 2 + v.x ^ 2 := by
    nlinarith [sq_nonneg (Real.cos p * z1 - Real.sin p * v.x)]
  match q, hq with
  | 0, _ =>
    refine ⟨Real.cos p * v.x + Real.sin p * z1, -y1, 0, fun t => by simp only [Vec3.cmp]; ring, ?_⟩
    nlinarith
  | 1, _ =>
    refine ⟨y1, Real.cos p * v.x + Real.sin p * z1, 0, fun t => by simp only [Vec3.cmp]; ring, ?_⟩
    nlinarith
  | 2, _ =>
    refine ⟨0, 0, -Real.sin p * v.x + Real.cos p * z1, fun t => by simp only [Vec3.cmp]; ring, ?_⟩
    nlinarith [sq_nonneg v.x, sq_nonneg v.y, sq_nonneg v.z]

/-! ### what the library reports for a rotation given by its angles -/

/-- the reported angles are the given ones up to full turns if the cosine of the pitch is positive; if it is
negative, roll and yaw are reported half a turn off and the pitch is reflected -/
theorem getRPY_chart (r w : ℝ) {p : ℝ} (hs : |Real.sin p| < 99999 / 100000) :
    ∃ σ : ℝ, (σ = 1 ∧ 0 < Real.cos p ∨ σ = -1 ∧ Real.cos p < 0) ∧
      let q := (Rot.fromRPY r p w).getRPY
      Real.cos q.x = σ * Real.cos r ∧ Real.sin q.x = σ * Real.sin r ∧ Real.cos q.y = σ * Real.cos p ∧ Real.sin q.y = Real.sin p ∧
        Real.cos q.z = σ * Real.cos w ∧ Real.sin q.z = σ * Real.sin w := by
  obtain ⟨e1, e2, e3, e4, e5⟩ := Rot.fromRPY_entries r p w
  have hsq := Real.sin_sq_add_cos_sq p
  obtain ⟨s1, s2⟩ := abs_lt.mp hs
  have hc0 : Real.cos p ≠ 0 := by
    intro h0
    rw [h0] at hsq
    nlinarith
  obtain ⟨σ, hσ, hσa⟩ : ∃ σ : ℝ, (σ = 1 ∧ 0 < Real.cos p ∨ σ = -1 ∧ Real.cos p < 0) ∧ |Real.cos p| = σ * Real.cos p := by
    rcases lt_or_gt_of_ne hc0 with h | h
    · exact ⟨-1, .inr ⟨rfl, h⟩, by rw [abs_of_neg h]; ring⟩
    · exact ⟨1, .inl ⟨rfl, h⟩, by rw [abs_of_pos h]; ring⟩
  have hσσ : σ * σ = 1 := by rcases hσ with ⟨h, _⟩ | ⟨h, _⟩ <;> rw [h] <;> ring
  have polar : ∀ t : ℝ, Real.cos (Complex.arg ⟨Real.cos p * Real.cos t, Real.cos p * Real.sin t⟩) = σ * Real.cos t ∧
      Real.sin (Complex.arg ⟨Real.cos p * Real.cos t, Real.cos p * Real.sin t⟩) = σ * Real.sin t := by
    intro t
    obtain ⟨h1, h2⟩ := Rot.polar_arg (Real.cos p * Real.cos t) (Real.cos p * Real.sin t)
    have hn : (Real.cos p * Real.cos t) ^ 2 + (Real.cos p * Real.sin t) ^ 2 = Real.cos p ^ 2 := by
      linear_combination Real.cos p ^ 2 * Real.sin_sq_add_cos_sq t
    rw [hn, Real.sqrt_sq_eq_abs, hσa] at h1 h2
    constructor
    · apply mul_left_cancel₀ hc0
      linear_combination σ * h1 - Real.cos p * Real.cos (Complex.arg ⟨Real.cos p * Real.cos t, Real.cos p * Real.sin t⟩) * hσσ
    · apply mul_left_cancel₀ hc0
      linear_combination σ * h2 - Real.cos p * Real.sin (Complex.arg ⟨Real.cos p * Real.cos t, Real.cos p * Real.sin t⟩) * hσσ
  refine ⟨σ, hσ, ?_⟩
  rw [Rot.getRPY_of_band (by rw [e5]; exact hs), e1, e2, e3, e4, e5]
  refine ⟨(polar r).1, (polar r).2, ?_, ?_, (polar w).1, (polar w).2⟩
  · rw [Real.cos_arcsin, show 1 - Real.sin p ^ 2 = Real.cos p ^ 2 by linarith, Real.sqrt_sq_eq_abs, hσa]
  · exact Real.sin_arcsin (by linarith) (by linarith)

/-- turning on from the reported angles -/
theorem rotate_reported {σ r p w r' p' w' : ℝ} (hσ : σ * σ = 1) (h1 : Real.cos r' = σ * Real.cos r) (h2 : Real.sin r' = σ * Real.sin r)
    (h3 : Real.cos p' = σ * Real.cos p) (h4 : Real.sin p' = Real.sin p) (h5 : Real.cos w' = σ * Real.cos w)
    (h6 : Real.sin w' = σ * Real.sin w) (v : Vec3 ℝ) :
    (Rot.fromRPY r' p' w').rotate v = (Rot.fromRPY r p w).rotate v := by
  rw [rotate_fromRPY, rotate_fromRPY]
  simp only [h1, h2, h3, h4, h5, h6]
  refine Vec3.ext ?_ ?_ ?_
  · simp only
    linear_combination (Real.cos w * Real.cos p * v.x + Real.cos w * Real.sin p * (Real.sin r * v.y + Real.cos r * v.z) -
      Real.sin w * (Real.cos r * v.y - Real.sin r * v.z)) * hσ
  · simp only
    linear_combination (Real.sin w * Real.cos p * v.x + Real.sin w * Real.sin p * (Real.sin r * v.y + Real.cos r * v.z) +
      Real.cos w * (Real.cos r * v.y - Real.sin r * v.z)) * hσ
  · simp only
    linear_combination (Real.cos p * (Real.sin r * v.y + Real.cos r * v.z)) * hσ

theorem turn_on {σ a a' h : ℝ} (h1 : Real.cos a' = σ * Real.cos a) (h2 : Real.sin a' = σ * Real.sin a) :
    Real.cos (a' + h) = σ * Real.cos (a + h) ∧ Real.sin (a' + h) = σ * Real.sin (a + h) := by
  simp only [Real.cos_add, Real.sin_add, h1, h2]
  constructor <;> ring

theorem pitch_on {σ a a' h : ℝ} (hσ : σ = 1 ∨ σ = -1) (h1 : Real.cos a' = σ * Real.cos a) (h2 : Real.sin a' = Real.sin a) :
    Real.cos (a' + h) = σ * Real.cos (a + σ * h) ∧ Real.sin (a' + h) = Real.sin (a + σ * h) := by
  rcases hσ with rfl | rfl
  · simp only [Real.cos_add, Real.sin_add, h1, h2, one_mul, and_self]
  · simp only [Real.cos_add, Real.sin_add, h1, h2, neg_mul, one_mul, Real.cos_neg, Real.sin_neg]
    constructor <;> ring

theorem Harm.reflect {k ρ : ℝ} {g : ℝ → ℝ} (h : Harm k ρ g) : Harm k ρ fun t => g (-t) := by
  obtain ⟨a, b, c, hg, hab⟩ := h
  exact ⟨a, -b, c, fun t => by simp only [hg, mul_neg, Real.cos_neg, Real.sin_neg]; ring, by nlinarith⟩

/-- backward differences as well -/
theorem Harm.bwd {k ρ : ℝ} {g : ℝ → ℝ} (hk : 0 ≤ k) (hρ : 0 ≤ ρ) (hg : Harm k ρ g) (t : ℝ) {h : ℝ} (hh : 0 < h) :
    ∃ D, HasDerivAt g D t ∧ |(g (t - h) - g t) / h + D| ≤ k ^ 2 * ρ * h / 2 := by
  obtain ⟨D, h1, h2⟩ := hg.reflect.fwd hk hρ (-t) hh
  refine ⟨-D, ?_, ?_⟩
  · have h3 : HasDerivAt (fun s : ℝ => -s) (-1) t := hasDerivAt_neg t
    have := HasDerivAt.comp t h1 h3
    refine (this.congr_deriv (by ring)).congr_of_eventuallyEq ?_
    filter_upwards with s
    simp
  · simp only [neg_neg, show -(-t + h) = t - h by ring] at h2
    exact h2

/-! ### coordinates of a product of quaternions -/

/-- one of the four coordinates, in the order in which they are reported -/
def Rot.cmp (q : Rot ℝ) : Nat → ℝ
  | 0 => q.x
  | 1 => q.y
  | 2 => q.z
  | 3 => q.w
  | _ => 0

/-- if each coordinate of a unit quaternion is `A cos + B sin` for quaternions `A`, `B`, so is each coordinate of
its product with a unit quaternion -/
theorem harm_mul {g : ℝ → Rot ℝ} {A B s : Rot ℝ} (hg : ∀ t, g t = ⟨A.x * Real.cos (t / 2) + B.x * Real.sin (t / 2),
      A.y * Real.cos (t / 2) + B.y * Real.sin (t / 2), A.z * Real.cos (t / 2) + B.z * Real.sin (t / 2),
      A.w * Real.cos (t / 2) + B.w * Real.sin (t / 2)⟩)
    (hn : ∀ t, (g t).norm2 = 1) (hs : s.norm2 = 1) (i : Nat) :
    Harm (1 / 2) 1 fun t => (Rot.mul (g t) s).cmp i := by
  have hv : ∀ t, (Rot.mul (g t) s).cmp i = (Rot.mul A s).cmp i * Real.cos (1 / 2 * t) +
      (Rot.mul B s).cmp i * Real.sin (1 / 2 * t) + 0 := by
    intro t
    rw [hg, show 1 / 2 * t = t / 2 by ring]
    match i with
    | 0 | 1 | 2 | 3 => simp only [Rot.cmp, Rot.mul]; ring
    | _ + 4 => simp [Rot.cmp]
  refine ⟨(Rot.mul A s).cmp i, (Rot.mul B s).cmp i, 0, hv, ?_⟩
  · -- every point of the curve is a unit quaternion, so each coordinate is at most 1 in size
    have hb : ∀ q : Rot ℝ, q.norm2 = 1 → q.cmp i ^ 2 ≤ 1 := by
      intro q hq
      unfold Rot.norm2 at hq
      match i with
      | 0 | 1 | 2 | 3 => simp only [Rot.cmp]; nlinarith [sq_nonneg q.x, sq_nonneg q.y, sq_nonneg q.z, sq_nonneg q.w]
      | _ + 4 => simp [Rot.cmp]
    have hm : ∀ t, (Rot.mul (g t) s).norm2 = 1 := fun t => by rw [Rot.norm2_mul, hn, hs, mul_one]
    have := hb _ (hm (2 * Complex.arg ⟨(Rot.mul A s).cmp i, (Rot.mul B s).cmp i⟩))
    rw [hv, show ∀ u : ℝ, 1 / 2 * (2 * u) = u by intro u; ring] at this
    generalize (Rot.mul A s).cmp i = a at this ⊢
    generalize (Rot.mul B s).cmp i = b at this ⊢
    have h1 := Complex.norm_mul_cos_arg ⟨a, b⟩
    have h2 := Complex.norm_mul_sin_arg ⟨a, b⟩
    generalize hz : ‖(⟨a, b⟩ : ℂ)‖ = n at h1 h2
    generalize Complex.arg ⟨a, b⟩ = th at this h1 h2
    simp only at h1 h2
    subst h1 h2
    have hsc := Real.sin_sq_add_cos_sq th
    have e : n * Real.cos th * Real.cos th + n * Real.sin th * Real.sin th + 0 = n := by linear_combination n * hsc
    rw [e] at this
    calc _ = n ^ 2 := by linear_combination n ^ 2 * hsc
      _ ≤ _ := by simpa using this

theorem harm_quat_roll (p w : ℝ) {s : Rot ℝ} (hs : s.norm2 = 1) (i : Nat) :
    Harm (1 / 2) 1 fun t => (Rot.mul (Rot.fromRPY t p w) s).cmp i :=
  harm_mul (A := ⟨-(Real.sin (p / 2) * Real.sin (w / 2)), Real.sin (p / 2) * Real.cos (w / 2), Real.cos (p / 2) * Real.sin (w / 2),
      Real.cos (p / 2) * Real.cos (w / 2)⟩)
    (B := ⟨Real.cos (p / 2) * Real.cos (w / 2), Real.cos (p / 2) * Real.sin (w / 2), -(Real.sin (p / 2) * Real.cos (w / 2)),
      Real.sin (p / 2) * Real.sin (w / 2)⟩)
    (fun t => by rw [Rot.fromRPY_raw]; refine Rot.ext ?_ ?_ ?_ ?_ <;> simp only <;> ring) (fun t => Rot.norm2_fromRPY _ _ _) hs i

theorem harm_quat_pitch (r w : ℝ) {s : Rot ℝ} (hs : s.norm2 = 1) (i : Nat) :
    Harm (1 / 2) 1 fun t => (Rot.mul (Rot.fromRPY r t w) s).cmp i :=
  harm_mul (A := ⟨Real.sin (r / 2) * Real.cos (w / 2), Real.sin (r / 2) * Real.sin (w / 2), Real.cos (r / 2) * Real.sin (w / 2),
      Real.cos (r / 2) * Real.cos (w / 2)⟩)
    (B := ⟨-(Real.cos (r / 2) * Real.sin (w / 2)), Real.cos (r / 2) * Real.cos (w / 2), -(Real.sin (r / 2) * Real.cos (w / 2)),
      Real.sin (r / 2) * Real.sin (w / 2)⟩)
    (fun t => by rw [Rot.fromRPY_raw]; refine Rot.ext ?_ ?_ ?_ ?_ <;> simp only <;> ring) (fun t => Rot.norm2_fromRPY _ _ _) hs i

theorem harm_quat_yaw (r p : ℝ) {s : Rot ℝ} (hs : s.norm2 = 1) (i : Nat) :
    Harm (1 / 2) 1 fun t => (Rot.mul (Rot.fromRPY r p t) s).cmp i :=
  harm_mul (A := ⟨Real.sin (r / 2) * Real.cos (p / 2), Real.cos (r / 2) * Real.sin (p / 2), -(Real.sin (r / 2) * Real.sin (p / 2)),
      Real.cos (r / 2) * Real.cos (p / 2)⟩)
    (B := ⟨-(Real.cos (r / 2) * Real.sin (p / 2)), Real.sin (r / 2) * Real.cos (p / 2), Real.cos (r / 2) * Real.cos (p / 2),
      Real.sin (r / 2) * Real.sin (p / 2)⟩)
    (fun t => by rw [Rot.fromRPY_raw]; refine Rot.ext ?_ ?_ ?_ ?_ <;> simp only <;> ring) (fun t => Rot.norm2_fromRPY _ _ _) hs i

end Tinyfk
