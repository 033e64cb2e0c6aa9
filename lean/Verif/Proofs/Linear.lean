import Verif.Proofs.Change
import Verif.Proofs.FwdDiff
import Verif.Proofs.RoundBase

/-!
# How well the linear prediction of a pose fits

Along the straight line from one configuration to another, the error of the linear prediction of a pose is quadratic.
-/

namespace Tinyfk

open Scalar Quaternion

/-- A family of rotations that turns by at most `τ` per unit of time, with a quadratic remainder. -/
structure Turning (R : ℝ → Rot ℝ) (τ : ℝ) : Prop where
  unit : ∀ t, (R t).norm2 = 1
  nonneg : 0 ≤ τ
  first : ∀ t (v : Vec3 ℝ), ‖((R t).rotate v).quat - ((R 0).rotate v).quat‖ ≤ |t| * τ * ‖v.quat‖
  second : ∃ Ω : Vec3 ℝ → ℍ[ℝ], ∀ t (v : Vec3 ℝ),
    ‖((R t).rotate v).quat - ((R 0).rotate v).quat - t • Ω v‖ ≤ t ^ 2 * (τ ^ 2 / 2) * ‖v.quat‖

theorem Rot.quat_rotate' {q : Rot ℝ} (h : q.norm2 = 1) (v : Vec3 ℝ) : (q.rotate v).quat = q.quat * v.quat * q.quat⁻¹ :=
  Rot.quat_rotate q (by rw [Rot.norm_quat h]; exact one_pos) v

theorem Turning.const {q : Rot ℝ} (h : q.norm2 = 1) : Turning (fun _ => q) 0 where
  unit _ := h
  nonneg := le_rfl
  first t v := by simp
  second := ⟨fun _ => 0, fun t v => by simp⟩

theorem Turning.mul {R E : ℝ → Rot ℝ} {τ ε : ℝ} (hR : Turning R τ) (hE : Turning E ε) :
    Turning (fun t => Rot.mul (R t) (E t)) (τ + ε) where
  unit t := by rw [Rot.norm2_mul, hR.unit, hE.unit, one_mul]
  nonneg := add_nonneg hR.nonneg hE.nonneg
  first t v := by
    rw [Rot.rotate_mul, Rot.rotate_mul]
    have h1 := hR.first t ((E 0).rotate v)
    rw [Rot.rotate_len (Rot.norm_quat (hE.unit 0))] at h1
    have h2 := Rot.rotate_diff (Rot.norm_quat (hR.unit t)) ((E t).rotate v) ((E 0).rotate v)
    have h3 := hE.first t v
    have e : ((R t).rotate ((E t).rotate v)).quat - ((R 0).rotate ((E 0).rotate v)).quat =
        (((R t).rotate ((E t).rotate v)).quat - ((R t).rotate ((E 0).rotate v)).quat) +
        (((R t).rotate ((E 0).rotate v)).quat - ((R 0).rotate ((E 0).rotate v)).quat) := by abel
    rw [e]
    refine (norm_add_le _ _).trans ?_
    rw [h2]
    linarith
  second := by
    obtain ⟨Ω, hΩ⟩ := hR.second
    obtain ⟨Ψ, hΨ⟩ := hE.second
    refine ⟨fun v => Ω ((E 0).rotate v) + (R 0).quat * Ψ v * (R 0).quat⁻¹, fun t v => ?_⟩
    rw [Rot.rotate_mul, Rot.rotate_mul]
    have h1 := hΩ t ((E 0).rotate v)
    rw [Rot.rotate_len (Rot.norm_quat (hE.unit 0))] at h1
    have h2 := hR.first t (Vec3.sub ((E t).rotate v) ((E 0).rotate v))
    rw [Vec3.quat_sub] at h2
    have h3 := hE.first t v
    have h4 := hΨ t v
    have h2' : ‖((R t).rotate (Vec3.sub ((E t).rotate v) ((E 0).rotate v))).quat - ((R 0).rotate (Vec3.sub ((E t).rotate v) ((E 0).rotate v))).quat‖ ≤
        |t| * τ * (|t| * ε * ‖v.quat‖) :=
      h2.trans (mul_le_mul_of_nonneg_left h3 (mul_nonneg (abs_nonneg t) hR.nonneg))
    have h5 : ‖(R 0).quat * (((E t).rotate v).quat - ((E 0).rotate v).quat - t • Ψ v) * (R 0).quat⁻¹‖ ≤ t ^ 2 * (ε ^ 2 / 2) * ‖v.quat‖ := by
      rw [norm_mul, norm_mul, norm_inv, Rot.norm_quat (hR.unit 0)]
      simpa using h4
    have e : ((R t).rotate ((E t).rotate v)).quat - ((R 0).rotate ((E 0).rotate v)).quat -
          t • (Ω ((E 0).rotate v) + (R 0).quat * Ψ v * (R 0).quat⁻¹) =
        (((R t).rotate ((E 0).rotate v)).quat - ((R 0).rotate ((E 0).rotate v)).quat - t • Ω ((E 0).rotate v)) +
        (((R t).rotate (Vec3.sub ((E t).rotate v) ((E 0).rotate v))).quat - ((R 0).rotate (Vec3.sub ((E t).rotate v) ((E 0).rotate v))).quat) +
        (R 0).quat * (((E t).rotate v).quat - ((E 0).rotate v).quat - t • Ψ v) * (R 0).quat⁻¹ := by
      simp only [Rot.quat_rotate' (hR.unit _), Vec3.quat_sub, mul_sub, sub_mul, smul_add, mul_smul_comm, smul_mul_assoc]
      abel
    rw [e]
    refine (norm_add₃_le).trans ?_
    have e2 : |t| * τ * (|t| * ε * ‖v.quat‖) = t ^ 2 * (τ * ε) * ‖v.quat‖ := by
      rw [← sq_abs t]; ring
    rw [e2] at h2'
    nlinarith

/-- the remainder of a turn about an axis -/
theorem axis_rem {a : Vec3 ℝ} (ha : a.IsUnit) (φ : ℝ) (w : Vec3 ℝ) :
    ‖((⟨a.x * Real.sin (φ / 2), a.y * Real.sin (φ / 2), a.z * Real.sin (φ / 2), Real.cos (φ / 2)⟩ : Rot ℝ).rotate w).quat - w.quat -
      φ • (Vec3.cross a w).quat‖ ≤ φ ^ 2 / 2 * ‖w.quat‖ := by
  have hu : (⟨a.x * Real.sin (φ / 2), a.y * Real.sin (φ / 2), a.z * Real.sin (φ / 2), Real.cos (φ / 2)⟩ : Rot ℝ).norm2 = 1 := by
    have h1 := Real.sin_sq_add_cos_sq (φ / 2)
    unfold Vec3.IsUnit at ha
    simp only [Rot.norm2]
    linear_combination (Real.sin (φ / 2)) ^ 2 * ha + h1
  rw [Rot.rotate_unit _ _ hu]
  have hs : Real.sin φ = 2 * Real.sin (φ / 2) * Real.cos (φ / 2) := by rw [← Real.sin_two_mul]; ring_nf
  have hc : Real.cos φ = 1 - 2 * Real.sin (φ / 2) ^ 2 := by
    have := Real.cos_two_mul (φ / 2)
    have h1 := Real.sin_sq_add_cos_sq (φ / 2)
    rw [show 2 * (φ / 2) = φ by ring] at this
    linarith
  have hr : (1 - Real.cos φ) ^ 2 + (φ - Real.sin φ) ^ 2 ≤ (φ ^ 2 / 2) ^ 2 := by
    rcases le_total 0 φ with h | h
    · exact exp_rem h
    · have := exp_rem (h := -φ) (by linarith)
      rw [Real.cos_neg, Real.sin_neg] at this
      nlinarith
  have h1 := Real.sin_sq_add_cos_sq (φ / 2)
  rw [hs, hc] at hr
  generalize Real.sin (φ / 2) = σ at *
  generalize Real.cos (φ / 2) = κ at *
  refine abs_le_of_sq_le_sq' ?_ (by positivity) |>.2
  rw [mul_pow, quat_norm_sq, quat_norm_sq]
  unfold Vec3.IsUnit at ha
  obtain ⟨a, b, c⟩ := a
  obtain ⟨x, y, z⟩ := w
  simp only [Vec3.cross, Vec3.quat_re, Vec3.quat_imI, Vec3.quat_imJ, Vec3.quat_imK, Quaternion.re_sub, Quaternion.imI_sub, Quaternion.imJ_sub, Quaternion.imK_sub,
    Quaternion.re_smul, Quaternion.imI_smul, Quaternion.imJ_smul, Quaternion.imK_smul, smul_eq_mul] at *
  obtain ⟨d, hd⟩ : ∃ d, d = a * x + b * y + c * z := ⟨_, rfl⟩
  obtain ⟨S, hS⟩ : ∃ S, S = φ - 2 * σ * κ := ⟨_, rfl⟩
  obtain ⟨C, hC⟩ : ∃ C, C = 1 - (1 - 2 * σ ^ 2) := ⟨_, rfl⟩
  rw [← hS, ← hC] at hr
  have e1 : (κ * κ + a * σ * (a * σ) - b * σ * (b * σ) - c * σ * (c * σ)) * x + 2 * (a * σ * (b * σ) - κ * (c * σ)) * y +
      2 * (a * σ * (c * σ) + κ * (b * σ)) * z - x - φ * (b * z - c * y) = C * (a * d - x) - S * (b * z - c * y) := by
    rw [hS, hC, hd]; linear_combination x * h1 - x * σ ^ 2 * ha
  have e2 : 2 * (a * σ * (b * σ) + κ * (c * σ)) * x + (κ * κ - a * σ * (a * σ) + b * σ * (b * σ) - c * σ * (c * σ)) * y +
      2 * (b * σ * (c * σ) - κ * (a * σ)) * z - y - φ * (c * x - a * z) = C * (b * d - y) - S * (c * x - a * z) := by
    rw [hS, hC, hd]; linear_combination y * h1 - y * σ ^ 2 * ha
  have e3 : 2 * (a * σ * (c * σ) - κ * (b * σ)) * x + 2 * (b * σ * (c * σ) + κ * (a * σ)) * y +
      (κ * κ - a * σ * (a * σ) - b * σ * (b * σ) + c * σ * (c * σ)) * z - z - φ * (a * y - b * x) =
      C * (c * d - z) - S * (a * y - b * x) := by
    rw [hS, hC, hd]; linear_combination z * h1 - z * σ ^ 2 * ha
  rw [e1, e2, e3]
  have e4 : (0 - 0 - φ * 0) ^ 2 + (C * (a * d - x) - S * (b * z - c * y)) ^ 2 + (C * (b * d - y) - S * (c * x - a * z)) ^ 2 +
      (C * (c * d - z) - S * (a * y - b * x)) ^ 2 = (C ^ 2 + S ^ 2) * (x ^ 2 + y ^ 2 + z ^ 2 - d ^ 2) := by
    rw [hd]
    linear_combination (C ^ 2 * (a * x + b * y + c * z) ^ 2 + S ^ 2 * (x ^ 2 + y ^ 2 + z ^ 2)) * ha
  rw [e4]
  have e5 : (C ^ 2 + S ^ 2) * (x ^ 2 + y ^ 2 + z ^ 2 - d ^ 2) ≤ (C ^ 2 + S ^ 2) * (x ^ 2 + y ^ 2 + z ^ 2) :=
    mul_le_mul_of_nonneg_left (by nlinarith [sq_nonneg d]) (by positivity)
  have e6 : (C ^ 2 + S ^ 2) * (x ^ 2 + y ^ 2 + z ^ 2) ≤ (φ ^ 2 / 2) ^ 2 * (x ^ 2 + y ^ 2 + z ^ 2) :=
    mul_le_mul_of_nonneg_right hr (by positivity)
  linarith

/-- turning about an axis at a constant rate -/
theorem Turning.axis {a : Vec3 ℝ} (ha : a.IsUnit) (θ δ : ℝ) :
    Turning (fun t => ⟨a.x * Real.sin ((θ + t * δ) * (1 / 2)), a.y * Real.sin ((θ + t * δ) * (1 / 2)),
      a.z * Real.sin ((θ + t * δ) * (1 / 2)), Real.cos ((θ + t * δ) * (1 / 2))⟩) |δ| := by
  have hu : ∀ φ, (⟨a.x * Real.sin (φ * (1 / 2)), a.y * Real.sin (φ * (1 / 2)), a.z * Real.sin (φ * (1 / 2)), Real.cos (φ * (1 / 2))⟩ : Rot ℝ).norm2 = 1 :=
    fun φ => Rot.norm2_axis ha φ
  have hm : ∀ t, (⟨a.x * Real.sin ((θ + t * δ) * (1 / 2)), a.y * Real.sin ((θ + t * δ) * (1 / 2)),
      a.z * Real.sin ((θ + t * δ) * (1 / 2)), Real.cos ((θ + t * δ) * (1 / 2))⟩ : Rot ℝ) =
      Rot.mul ⟨a.x * Real.sin (t * δ / 2), a.y * Real.sin (t * δ / 2), a.z * Real.sin (t * δ / 2), Real.cos (t * δ / 2)⟩
        ⟨a.x * Real.sin ((θ + 0 * δ) * (1 / 2)), a.y * Real.sin ((θ + 0 * δ) * (1 / 2)),
      a.z * Real.sin ((θ + 0 * δ) * (1 / 2)), Real.cos ((θ + 0 * δ) * (1 / 2))⟩ := by
    intro t
    have e : (θ + t * δ) * (1 / 2) = t * δ / 2 + (θ + 0 * δ) * (1 / 2) := by ring
    rw [e, Real.sin_add, Real.cos_add]
    unfold Vec3.IsUnit at ha
    simp only [Rot.mul, Rot.mk.injEq]
    refine ⟨by ring, by ring, by ring, ?_⟩
    linear_combination Real.sin (t * δ / 2) * Real.sin ((θ + 0 * δ) * (1 / 2)) * ha
  refine ⟨fun t => hu _, abs_nonneg _, fun t v => ?_, ⟨fun v => δ • (Vec3.cross a ((⟨a.x * Real.sin ((θ + 0 * δ) * (1 / 2)), a.y * Real.sin ((θ + 0 * δ) * (1 / 2)),
      a.z * Real.sin ((θ + 0 * δ) * (1 / 2)), Real.cos ((θ + 0 * δ) * (1 / 2))⟩ : Rot ℝ).rotate v)).quat, fun t v => ?_⟩⟩
  · simp only [Rot.quat_rotate' (hu _)]
    refine (rotate_change (Rot.norm_quat (hu _)) (Rot.norm_quat (hu _)) _).trans ?_
    rw [← Rot.dist_quat]
    have := Rot.dist_axisQ ha ((θ + 0 * δ) * (1 / 2)) ((θ + t * δ) * (1 / 2))
    rw [← sub_mul, abs_mul, show θ + t * δ - (θ + 0 * δ) = t * δ by ring, abs_mul, abs_of_pos (by norm_num : (0 : ℝ) < 1 / 2)] at this
    exact mul_le_mul_of_nonneg_right (by linarith) (norm_nonneg _)
  · have h := axis_rem ha (t * δ) ((⟨a.x * Real.sin ((θ + 0 * δ) * (1 / 2)), a.y * Real.sin ((θ + 0 * δ) * (1 / 2)),
      a.z * Real.sin ((θ + 0 * δ) * (1 / 2)), Real.cos ((θ + 0 * δ) * (1 / 2))⟩ : Rot ℝ).rotate v)
    rw [Rot.rotate_len (Rot.norm_quat (hu _)), ← Rot.rotate_mul, ← hm] at h
    simp only [smul_smul]
    refine h.trans (le_of_eq ?_)
    rw [sq_abs]
    ring

/-- a frame that turns by `τ` per unit of time carries a point whose position is linear up to `r` -/
structure LinearFrame (T : ℝ → Pose ℝ) (τ r : ℝ) : Prop where
  turning : Turning (fun t => (T t).rotation) τ
  linear : ∃ l : ℍ[ℝ], ∀ t, ‖(T t).position.quat - (T 0).position.quat - t • l‖ ≤ t ^ 2 * r

/-- composing with a frame that turns by `ε` and slides by `d` per unit of time, starting at distance at most `L` -/
theorem LinearFrame.transform {A B : ℝ → Pose ℝ} {τ r ε L σ : ℝ} (hA : LinearFrame A τ r) (hB : Turning (fun t => (B t).rotation) ε)
    {d : ℍ[ℝ]} (hd : ∀ t, (B t).position.quat = (B 0).position.quat + t • d) (hL : (B 0).position.len ≤ L) (hσ : ‖d‖ ≤ σ) :
    LinearFrame (fun t => Pose.transform (A t) (B t)) (τ + ε) (r + τ ^ 2 / 2 * L + τ * σ) where
  turning := hA.turning.mul hB
  linear := by
    obtain ⟨l, hl⟩ := hA.linear
    obtain ⟨Ω, hΩ⟩ := hA.turning.second
    refine ⟨l + Ω (B 0).position + (A 0).rotation.quat * d * (A 0).rotation.quat⁻¹, fun t => ?_⟩
    have h1 := hl t
    have h2 := hΩ t (B 0).position
    have h3 := hA.turning.first t (Vec3.sub (B t).position (B 0).position)
    have hs : (Vec3.sub (B t).position (B 0).position).quat = t • d := by rw [Vec3.quat_sub, hd t]; abel
    have un : ∀ t, (A t).rotation.norm2 = 1 := hA.turning.unit
    rw [hs, norm_smul] at h3
    rw [← Vec3.len_quat] at h2
    have e : (Pose.transform (A t) (B t)).position.quat - (Pose.transform (A 0) (B 0)).position.quat -
          t • (l + Ω (B 0).position + (A 0).rotation.quat * d * (A 0).rotation.quat⁻¹) =
        ((A t).position.quat - (A 0).position.quat - t • l) +
        (((A t).rotation.rotate (B 0).position).quat - ((A 0).rotation.rotate (B 0).position).quat - t • Ω (B 0).position) +
        (((A t).rotation.rotate (Vec3.sub (B t).position (B 0).position)).quat - ((A 0).rotation.rotate (Vec3.sub (B t).position (B 0).position)).quat) := by
      simp only [Pose.transform, Vec3.quat_add, Rot.quat_rotate' (un _), hs, hd t, mul_add, add_mul, smul_add, mul_smul_comm, smul_mul_assoc]
      abel
    rw [e]
    refine (norm_add₃_le).trans ?_
    have k2 : t ^ 2 * (τ ^ 2 / 2) * (B 0).position.len ≤ t ^ 2 * (τ ^ 2 / 2) * L := mul_le_mul_of_nonneg_left hL (by positivity)
    have k3 : |t| * τ * (‖t‖ * ‖d‖) ≤ t ^ 2 * (τ * σ) := by
      rw [Real.norm_eq_abs, ← sq_abs t]
      have := mul_le_mul_of_nonneg_left hσ (mul_nonneg (mul_nonneg (abs_nonneg t) hA.turning.nonneg) (abs_nonneg t))
      nlinarith
    nlinarith

/-- the displacement of one joint moving at a constant rate -/
theorem RawEdge.linear {j : RawJoint ℝ} (hu : j.origin.rotation.norm2 = 1 ∧ ((j.type = .revolute ∨ j.type = .continuous) → j.axis.IsUnit))
    {θ θ' : ℝ} {E : Pose ℝ} (h : RawEdge j θ E) :
    ∃ (B : ℝ → Pose ℝ) (d : ℍ[ℝ]), (∀ t, RawEdge j (θ + t * (θ' - θ)) (B t)) ∧ Turning (fun t => (B t).rotation) (j.turned θ' θ) ∧
      (∀ t, (B t).position.quat = (B 0).position.quat + t • d) ∧ (B 0).position.len ≤ j.reach θ ∧ ‖d‖ ≤ j.slid θ' θ := by
  cases h with
  | fixed ht =>
    refine ⟨fun _ => j.origin, 0, fun _ => .fixed ht, ?_, fun t => by simp, by simp [RawJoint.reach, ht], by simp [RawJoint.slid, ht]⟩
    have : j.turned θ' θ = 0 := by simp [RawJoint.turned, ht]
    rw [this]
    exact .const hu.1
  | rot ht =>
    have hns : j.type ≠ .prismatic := by rintro e; rw [e] at ht; simp at ht
    have e : ∀ q : Rot ℝ, (Pose.transform j.origin ⟨Vec3.zero, q⟩).position = j.origin.position := by
      intro q
      simp only [Pose.transform]
      rw [Rot.rotate_unit _ _ hu.1]
      simp [Vec3.add, Vec3.zero]
    refine ⟨fun t => _, 0, fun t => .rot ht, ?_, fun t => by rw [e, e]; simp, by rw [e]; simp [RawJoint.reach, hns], by simp [RawJoint.slid, hns]⟩
    have : j.turned θ' θ = 0 + |θ' - θ| := by simp only [RawJoint.turned, if_pos ht]; rw [zero_add, abs_sub_comm]
    rw [this]
    have := (Turning.const hu.1).mul (Turning.axis (hu.2 ht) θ (θ' - θ))
    simpa only [Pose.transform, real_sin, real_cos, real_half] using this
  | slide ht =>
    refine ⟨fun t => _, j.origin.rotation.quat * ((θ' - θ) • j.axis.quat) * j.origin.rotation.quat⁻¹, fun t => .slide ht, ?_, fun t => ?_, ?_, ?_⟩
    · have : j.turned θ' θ = 0 := by simp [RawJoint.turned, ht]
      rw [this]
      simp only [Pose.transform]
      exact .const (by rw [Rot.norm2_mul, hu.1, Rot.norm2_one, one_mul])
    · have k : ∀ t : ℝ, (⟨j.axis.x * (θ + t * (θ' - θ)), j.axis.y * (θ + t * (θ' - θ)), j.axis.z * (θ + t * (θ' - θ))⟩ : Vec3 ℝ).quat =
          θ • j.axis.quat + t • (θ' - θ) • j.axis.quat := by
        intro t
        ext <;> simp <;> ring
      simp only [Pose.transform, Vec3.quat_add, Rot.quat_rotate' hu.1, k]
      simp only [mul_add, add_mul, mul_smul_comm, smul_mul_assoc, zero_smul, add_zero]
      abel
    · have n1 := Rot.norm_quat hu.1
      simp only [Pose.transform, RawJoint.reach, if_pos ht]
      rw [Vec3.len_quat, Vec3.quat_add, Rot.quat_rotate' hu.1, ← Vec3.len_scale, Vec3.len_quat, Vec3.len_quat, add_comm ‖j.origin.position.quat‖]
      refine (norm_add_le _ _).trans ?_
      rw [norm_mul, norm_mul, norm_inv, n1]
      simp
    · rw [norm_mul, norm_mul, norm_inv, Rot.norm_quat hu.1, norm_smul, ← Vec3.len_quat]
      simp only [RawJoint.slid, if_pos ht, Real.norm_eq_abs, abs_sub_comm θ θ']
      linarith

/-- Along the straight line from one configuration to another, the position of a link is linear up to
`τ ^ 2 / 2 * L + τ * σ` times the square of time. -/
theorem WorldPose.linear {ls : List (RawLink ℝ)} {js : List (RawJoint ℝ)} {welds : Weld ℝ → Prop} (hu : UnitDesc js)
    (hw : ∀ w, welds w → w.offset.rotation.norm2 = 1) {θ θ' : String → ℝ} {b : Pose ℝ} (hb : b.rotation.norm2 = 1)
    {B : ℝ → Pose ℝ} {d : ℍ[ℝ]} (hB : ∀ t, (B t).rotation = b.rotation) (hBd : ∀ t, (B t).position.quat = b.position.quat + t • d)
    {n : String} {T : Pose ℝ} (h : WorldPose ls js welds θ b n T) :
    ∃ (F : ℝ → Pose ℝ) (τ σ L : ℝ), (∀ t, WorldPose ls js welds (fun i => θ i + t * (θ' i - θ i)) (B t) n (F t)) ∧
      PathChange ls js welds θ' θ n τ σ L ∧ LinearFrame F τ (τ ^ 2 / 2 * L + τ * σ) ∧ 0 ≤ L ∧ 0 ≤ σ := by
  induction h with
  | root g1 g2 =>
    refine ⟨B, 0, 0, 0, fun _ => .root g1 g2, .root g1 g2, ⟨?_, d, fun t => ?_⟩, le_rfl, le_rfl⟩
    · simp only [hB]
      exact .const hb
    · rw [hBd t, hBd 0]
      simp
  | joint g1 g2 g3 ih =>
    obtain ⟨F, τ, σ, L, k1, k2, k3, k4, k5⟩ := ih
    obtain ⟨E, e, f1, f2, f3, f4, f5⟩ := g3.linear (θ' := θ' _) (hu _ g1)
    rename_i j _ _
    have t0 : 0 ≤ j.turned (θ' j.name) (θ j.name) := f2.nonneg
    have r0 : 0 ≤ j.reach (θ j.name) := (Vec3.len_nonneg _).trans f4
    have s0 : 0 ≤ j.slid (θ' j.name) (θ j.name) := (norm_nonneg _).trans f5
    refine ⟨_, _, _, _, fun t => .joint g1 (k1 t) (f1 t), .joint g1 k2, ?_, by positivity, by positivity⟩
    have c := k3.transform f2 f3 f4 f5
    refine ⟨c.turning, c.linear.imp fun l hl t => (hl t).trans (mul_le_mul_of_nonneg_left ?_ (sq_nonneg t))⟩
    have := k3.turning.nonneg
    have : 0 ≤ j.turned (θ' j.name) (θ j.name) * τ * (L + j.reach (θ j.name)) := by positivity
    have : 0 ≤ j.turned (θ' j.name) (θ j.name) ^ 2 * (L + j.reach (θ j.name)) := by positivity
    have : 0 ≤ j.turned (θ' j.name) (θ j.name) * (σ + j.slid (θ' j.name) (θ j.name)) := by positivity
    nlinarith
  | weld g1 g2 ih =>
    obtain ⟨F, τ, σ, L, k1, k2, k3, k4, k5⟩ := ih
    have l0 := Vec3.len_nonneg (Weld.offset ‹_›).position
    refine ⟨_, _, _, _, fun t => .weld g1 (k1 t), .weld g1 k2, ?_, by positivity, k5⟩
    have c := k3.transform (B := fun _ => Weld.offset ‹_›) (.const (hw _ g1)) (d := 0) (σ := 0) (by simp) le_rfl (by simp)
    rw [add_zero] at c
    refine ⟨c.turning, c.linear.imp fun l hl t => (hl t).trans (le_of_eq ?_)⟩
    ring

end Tinyfk
