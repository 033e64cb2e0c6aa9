import Verif.Proofs.RoundPose
import Mathlib.Analysis.SpecialFunctions.Trigonometric.Bounds

/-!
# Rounding errors of one joint
-/

namespace Tinyfk

open Quaternion

theorem abs_sin_sub_le (x y : ℝ) : |Real.sin x - Real.sin y| ≤ |x - y| := by
  rw [Real.sin_sub_sin, abs_mul, abs_mul]
  have h1 : |Real.sin ((x - y) / 2)| ≤ |(x - y) / 2| := Real.abs_sin_le_abs
  have h2 := Real.abs_cos_le_one ((x + y) / 2)
  rw [abs_div] at h1
  have h3 := abs_nonneg (Real.sin ((x - y) / 2))
  have : |(2 : ℝ)| = 2 := by norm_num
  rw [this] at h1 ⊢
  nlinarith [abs_nonneg (x - y)]

theorem abs_cos_sub_le (x y : ℝ) : |Real.cos x - Real.cos y| ≤ |x - y| := by
  have := abs_sin_sub_le (Real.pi / 2 - x) (Real.pi / 2 - y)
  rw [Real.sin_pi_div_two_sub, Real.sin_pi_div_two_sub] at this
  refine this.trans (le_of_eq ?_)
  rw [← abs_neg]; congr 1; ring

section
variable (F : Rounding)

theorem Rounding.half_near (hb : 1 ≤ F.big) (ht : F.tiny ≤ 1 / 2) : |F.lit 5 1 - 1 / 2| ≤ F.u / 2 := by
  have e : ((5 : Int) : ℝ) / 10 ^ 1 = 1 / 2 := by norm_num
  have := F.lit_rounded 5 1 (by rw [e]; rw [abs_of_pos] <;> linarith)
  unfold Rounded at this
  rw [e, show |(1 / 2 : ℝ)| = 1 / 2 by norm_num, max_eq_left ht] at this
  linarith

/-- half an angle -/
theorem Rounding.half_angle {θ A : ℝ} (hA : 1 ≤ A) (hθ : |θ| ≤ A) (hb : 2 * A ≤ F.big) (ht : F.tiny ≤ 1 / 2) :
    |F.mul θ (F.lit 5 1) - θ / 2| ≤ 2 * F.u * A := by
  have hu := F.u_nonneg
  have hu1 := F.u_small
  have htn := F.tiny_nonneg
  have h0 := F.half_near (by linarith) ht
  have hl : |F.lit 5 1| ≤ 501 / 1000 := by
    have h1 := abs_add_le (F.lit 5 1 - 1 / 2) (1 / 2)
    simp only [sub_add_cancel] at h1
    rw [show |(1 / 2 : ℝ)| = 1 / 2 by norm_num] at h1
    linarith
  have hp : |θ * F.lit 5 1| ≤ A * (501 / 1000) := by
    rw [abs_mul]; exact mul_le_mul hθ hl (abs_nonneg _) (by linarith)
  have h2 := F.mul_near (a := θ) (b := F.lit 5 1) (by linarith)
  have h3 : |θ * F.lit 5 1 - θ / 2| ≤ A * (F.u / 2) := by
    rw [show θ * F.lit 5 1 - θ / 2 = θ * (F.lit 5 1 - 1 / 2) by ring, abs_mul]
    exact mul_le_mul hθ h0 (abs_nonneg _) (by linarith)
  have h4 := abs_add_le (F.mul θ (F.lit 5 1) - θ * F.lit 5 1) (θ * F.lit 5 1 - θ / 2)
  rw [sub_add_sub_cancel] at h4
  have h5 := mul_le_mul_of_nonneg_left hp hu
  have h6 := mul_le_mul_of_nonneg_left ht hu
  have h7 := mul_le_mul_of_nonneg_left hA hu
  linarith

theorem Rounding.sin_half {θ A : ℝ} (hA : 1 ≤ A) (hθ : |θ| ≤ A) (hb : 2 * A ≤ F.big) (ht : F.tiny ≤ 1 / 2) :
    |F.sin (F.mul θ (F.lit 5 1)) - Real.sin (θ / 2)| ≤ 3 * F.u * A := by
  have hu := F.u_nonneg
  have h1 := F.half_angle hA hθ hb ht
  have h2 : |F.sin (F.mul θ (F.lit 5 1)) - Real.sin (F.mul θ (F.lit 5 1))| ≤ F.u * 1 :=
    (F.sin_rounded _).trans (mul_le_mul_of_nonneg_left (max_le (Real.abs_sin_le_one _) (by linarith)) hu)
  have h3 := abs_sin_sub_le (F.mul θ (F.lit 5 1)) (θ / 2)
  have h4 := abs_add_le (F.sin (F.mul θ (F.lit 5 1)) - Real.sin (F.mul θ (F.lit 5 1))) (Real.sin (F.mul θ (F.lit 5 1)) - Real.sin (θ / 2))
  rw [sub_add_sub_cancel] at h4
  have h7 := mul_le_mul_of_nonneg_left hA hu
  linarith

theorem Rounding.cos_half {θ A : ℝ} (hA : 1 ≤ A) (hθ : |θ| ≤ A) (hb : 2 * A ≤ F.big) (ht : F.tiny ≤ 1 / 2) :
    |F.cos (F.mul θ (F.lit 5 1)) - Real.cos (θ / 2)| ≤ 3 * F.u * A := by
  have hu := F.u_nonneg
  have h1 := F.half_angle hA hθ hb ht
  have h2 : |F.cos (F.mul θ (F.lit 5 1)) - Real.cos (F.mul θ (F.lit 5 1))| ≤ F.u * 1 :=
    (F.cos_rounded _).trans (mul_le_mul_of_nonneg_left (max_le (Real.abs_cos_le_one _) (by linarith)) hu)
  have h3 := abs_cos_sub_le (F.mul θ (F.lit 5 1)) (θ / 2)
  have h4 := abs_add_le (F.cos (F.mul θ (F.lit 5 1)) - Real.cos (F.mul θ (F.lit 5 1))) (Real.cos (F.mul θ (F.lit 5 1)) - Real.cos (θ / 2))
  rw [sub_add_sub_cancel] at h4
  have h7 := mul_le_mul_of_nonneg_left hA hu
  linarith

theorem Vec3.abs_le_len (v : Vec3 ℝ) : |v.x| ≤ ‖v.quat‖ ∧ |v.y| ≤ ‖v.quat‖ ∧ |v.z| ≤ ‖v.quat‖ := by
  have sq := quat_norm_sq v.quat
  have n0 := norm_nonneg v.quat
  simp at sq
  exact ⟨abs_le_of_sq_le_sq (by rw [sq]; nlinarith) n0, abs_le_of_sq_le_sq (by rw [sq]; nlinarith) n0, abs_le_of_sq_le_sq (by rw [sq]; nlinarith) n0⟩

/-- a vector times a number -/
theorem Rounding.scale_vec (v w : Vec3 ℝ) (s : ℝ) (hx : w.x = F.mul v.x s) (hy : w.y = F.mul v.y s) (hz : w.z = F.mul v.z s)
    (hb : ‖v.quat‖ * |s| ≤ F.big) : ‖w.quat - s • v.quat‖ ≤ F.u * (‖v.quat‖ * |s|) + 2 * (F.u * F.tiny) := by
  have hu := F.u_nonneg
  obtain ⟨a1, a2, a3⟩ := v.abs_le_len
  have cmp : ∀ x : ℝ, |x| ≤ ‖v.quat‖ → |x * s| ≤ F.big := fun x hx => by
    rw [abs_mul]; exact (mul_le_mul_of_nonneg_right hx (abs_nonneg s)).trans hb
  have := quat_norm_rel (a := s • v.quat) (e := w.quat - s • v.quat) (c := F.u) (d := F.u * F.tiny) hu (mul_nonneg hu F.tiny_nonneg)
    (by simp; exact mul_nonneg hu F.tiny_nonneg)
    (by have := F.mul_near (cmp _ a1); simpa [hx, mul_comm, abs_mul] using this)
    (by have := F.mul_near (cmp _ a2); simpa [hy, mul_comm, abs_mul] using this)
    (by have := F.mul_near (cmp _ a3); simpa [hz, mul_comm, abs_mul] using this)
  rw [norm_smul, Real.norm_eq_abs] at this
  linarith

/-- the quaternion of a turn -/
theorem turn_norm (a : Vec3 ℝ) (φ : ℝ) (h1 : 1 / 2 ≤ ‖a.quat‖) (h2 : ‖a.quat‖ ≤ 2) {q : Rot ℝ}
    (hq : q = ⟨a.x * Real.sin φ, a.y * Real.sin φ, a.z * Real.sin φ, Real.cos φ⟩) : 1 / 2 ≤ ‖q.quat‖ ∧ ‖q.quat‖ ≤ 2 := by
  have n0 := norm_nonneg q.quat
  have sq : ‖q.quat‖ ^ 2 = ‖a.quat‖ ^ 2 * Real.sin φ ^ 2 + Real.cos φ ^ 2 := by
    rw [quat_norm_sq, quat_norm_sq, hq]
    simp
    ring
  have sc := Real.sin_sq_add_cos_sq φ
  have s0 := sq_nonneg (Real.sin φ)
  have c0 := sq_nonneg (Real.cos φ)
  have l1 : (1 / 4 : ℝ) ≤ ‖a.quat‖ ^ 2 := by nlinarith
  have l2 : ‖a.quat‖ ^ 2 ≤ 4 := by nlinarith [norm_nonneg a.quat]
  constructor
  · exact (abs_le_of_sq_le_sq' (by nlinarith : (1 / 2 : ℝ) ^ 2 ≤ ‖q.quat‖ ^ 2) n0).2
  · refine abs_le_of_sq_le_sq' ?_ (by norm_num) |>.2
    nlinarith

/-- The rounded quaternion of a turn about an inexact axis. -/
theorem Rounding.turn_near {ε A θ : ℝ} {a a' : Vec3 ℝ} {q q' : Rot ℝ} (hq : q = ⟨a.x * Real.sin (θ / 2), a.y * Real.sin (θ / 2), a.z * Real.sin (θ / 2), Real.cos (θ / 2)⟩)
    (hq' : q' = ⟨F.mul a'.x (F.sin (F.mul θ (F.lit 5 1))), F.mul a'.y (F.sin (F.mul θ (F.lit 5 1))), F.mul a'.z (F.sin (F.mul θ (F.lit 5 1))),
      F.cos (F.mul θ (F.lit 5 1))⟩) (hue : F.u ≤ ε) (hA : 1 ≤ A) (hs : 500 * ε * A ≤ 1) (hθ : |θ| ≤ A)
    (h1 : 1 / 2 ≤ ‖a.quat‖) (h2 : ‖a.quat‖ ≤ 2) (ha : ‖a'.quat - a.quat‖ ≤ ε * ‖a.quat‖) (hb : 2 * A + 4 ≤ F.big) (ht : F.tiny ≤ 1 / 2) :
    ‖q'.quat - q.quat‖ ≤ 30 * ε * A * ‖q.quat‖ := by
  have hu := F.u_nonneg
  have he : 0 ≤ ε := hu.trans hue
  have e1 : ε ≤ ε * A := le_mul_of_one_le_right he hA
  have e0 : 0 ≤ ε * A := by positivity
  obtain ⟨s', hs'⟩ : ∃ s, s = F.sin (F.mul θ (F.lit 5 1)) := ⟨_, rfl⟩
  obtain ⟨c', hc'⟩ : ∃ s, s = F.cos (F.mul θ (F.lit 5 1)) := ⟨_, rfl⟩
  have hsn := F.sin_half hA hθ (by linarith) ht
  have hcn := F.cos_half hA hθ (by linarith) ht
  rw [← hs'] at hsn hq'
  rw [← hc'] at hcn hq'
  have hd : 3 * F.u * A ≤ 3 * (ε * A) := by
    have := mul_le_mul_of_nonneg_right hue (show 0 ≤ A by linarith)
    linarith
  have hs1 : |s'| ≤ 11 / 10 := by
    have h3 := abs_add_le (s' - Real.sin (θ / 2)) (Real.sin (θ / 2))
    rw [sub_add_cancel] at h3
    have := Real.abs_sin_le_one (θ / 2)
    linarith
  have ha' : ‖a'.quat‖ ≤ 1002 / 1000 * ‖a.quat‖ := by
    have h3 := (norm_near ha).1
    have : ε * ‖a.quat‖ ≤ 1 / 500 * ‖a.quat‖ := mul_le_mul_of_nonneg_right (by linarith) (norm_nonneg _)
    linarith
  have hsc : ‖a'.quat‖ * |s'| ≤ 23 / 10 := by
    have := mul_le_mul (ha'.trans (mul_le_mul_of_nonneg_left h2 (by norm_num))) hs1 (abs_nonneg _) (by norm_num)
    linarith
  have m1 := F.scale_vec a' ⟨F.mul a'.x s', F.mul a'.y s', F.mul a'.z s'⟩ s' rfl rfl rfl (by linarith)
  have split : q'.quat - q.quat = (Vec3.quat ⟨F.mul a'.x s', F.mul a'.y s', F.mul a'.z s'⟩ - s' • a'.quat) + s' • (a'.quat - a.quat) +
      (s' - Real.sin (θ / 2)) • a.quat + ((c' - Real.cos (θ / 2) : ℝ) : ℍ[ℝ]) := by
    rw [hq, hq']
    ext <;> simp <;> ring
  have n1 : ‖s' • (a'.quat - a.quat)‖ ≤ 11 / 10 * (ε * 2) := by
    rw [norm_smul, Real.norm_eq_abs]
    exact mul_le_mul hs1 (ha.trans (mul_le_mul_of_nonneg_left h2 he)) (norm_nonneg _) (by norm_num)
  have n2 : ‖(s' - Real.sin (θ / 2)) • a.quat‖ ≤ 3 * (ε * A) * 2 := by
    rw [norm_smul, Real.norm_eq_abs]
    exact mul_le_mul (hsn.trans hd) h2 (norm_nonneg _) (by positivity)
  have n3 : ‖((c' - Real.cos (θ / 2) : ℝ) : ℍ[ℝ])‖ ≤ 3 * (ε * A) := by
    rw [Quaternion.norm_coe, Real.norm_eq_abs]
    exact hcn.trans hd
  have n4 : F.u * (‖a'.quat‖ * |s'|) ≤ ε * (23 / 10) := mul_le_mul hue hsc (by positivity) he
  have n5 : F.u * F.tiny ≤ ε * (1 / 2) := mul_le_mul hue ht F.tiny_nonneg he
  have tot : ‖q'.quat - q.quat‖ ≤ 15 * (ε * A) := by
    rw [split]
    have k1 := norm_add_le ((Vec3.quat ⟨F.mul a'.x s', F.mul a'.y s', F.mul a'.z s'⟩ - s' • a'.quat) + s' • (a'.quat - a.quat) +
      (s' - Real.sin (θ / 2)) • a.quat) ((c' - Real.cos (θ / 2) : ℝ) : ℍ[ℝ])
    have k2 := norm_add₃_le (a := Vec3.quat ⟨F.mul a'.x s', F.mul a'.y s', F.mul a'.z s'⟩ - s' • a'.quat) (b := s' • (a'.quat - a.quat))
      (c := (s' - Real.sin (θ / 2)) • a.quat)
    linarith
  have hqn := (turn_norm a (θ / 2) h1 h2 hq).1
  calc _ ≤ _ := tot
    _ = 30 * ε * A * (1 / 2) := by ring
    _ ≤ _ := mul_le_mul_of_nonneg_left hqn (by positivity)

end

/-- `PoseNear` in terms of quaternions -/
theorem poseNear_iff {F : Rounding} {a b : ℝ} {T' : Pose (Fl F)} {T : Pose ℝ} : PoseNear a b T' T ↔
    ‖Rot.quat T'.real.rotation - T.rotation.quat‖ ≤ a * ‖T.rotation.quat‖ ∧ ‖Vec3.quat T'.real.position - T.position.quat‖ ≤ b := by
  constructor
  · rintro ⟨h1, h2⟩
    rw [Rot.dist_quat, Rot.len_quat] at h1
    rw [Vec3.dist_quat] at h2
    exact ⟨h1, h2⟩
  · rintro ⟨h1, h2⟩
    constructor
    · rw [Rot.dist_quat, Rot.len_quat]; exact h1
    · rw [Vec3.dist_quat]; exact h2

theorem tame_of {N : ℝ} {q : ℍ[ℝ]} {l h : ℝ} (hl : 0 < l) (h1 : l ≤ ‖q‖) (h2 : ‖q‖ ≤ h) (h3 : 2 * h ≤ N) (h4 : 2 ≤ N * l) : Tame N q := by
  have hp : 0 < ‖q‖ := hl.trans_le h1
  refine ⟨hp, by linarith, ?_⟩
  have hN : 0 ≤ N := by linarith
  rw [← div_eq_mul_inv, div_le_iff₀ hp]
  exact h4.trans (mul_le_mul_of_nonneg_left h1 hN)

set_option linter.unusedVariables false

/-- a turning joint -/
theorem edge_rot {F : Rounding} {ε μ A θ : ℝ} {j' : RawJoint (Fl F)} {j : RawJoint ℝ} {T' : Pose (Fl F)} (hj : JointNear ε μ j' j)
    (ho : 1 / 2 ≤ j.origin.rotation.len ∧ j.origin.rotation.len ≤ 2)
    (hax : j.type = .revolute ∨ j.type = .continuous → 1 / 2 ≤ j.axis.len ∧ j.axis.len ≤ 2)
    (hue : F.u ≤ ε) (hA : 1 ≤ A) (hs : 500 * ε * A ≤ 1) (hθ : |θ| ≤ A) (hμ : 1000 * F.tiny ≤ μ) (hμ1 : μ ≤ 1)
    (hb : 1000 * (1 + j.reach θ + A) ≤ F.big) (h : RawEdge (K := Fl F) j' θ T') (ht : j'.type = .revolute ∨ j'.type = .continuous) :
    ∃ T, RawEdge j θ T ∧ PoseNear (60 * ε * A) (100 * ε * (j.reach θ + μ)) T' T ∧ T.position.len ≤ j.reach θ ∧
      1 / 4 ≤ T.rotation.len ∧ T.rotation.len ≤ 4 := by
  have hu := F.u_nonneg
  have he : 0 ≤ ε := hu.trans hue
  have e1 : ε ≤ ε * A := le_mul_of_one_le_right he hA
  have e0 : 0 ≤ ε * A := by positivity
  have htn := F.tiny_nonneg
  have hμ0 : 0 ≤ μ := by linarith
  have no : 0 ≤ j.origin.position.len := Real.sqrt_nonneg _
  have hr0 : j.origin.position.len ≤ j.reach θ := by
    unfold RawJoint.reach
    have : 0 ≤ (if j.type = .prismatic then j.axis.len * |θ| else 0) := by
      split
      · exact mul_nonneg (Real.sqrt_nonneg _) (abs_nonneg _)
      · exact le_rfl
    linarith
  obtain ⟨hor, hop⟩ := poseNear_iff.mp hj.origin
  have hal := hj.axis
  rw [Vec3.dist_quat, Vec3.len_quat] at hal
  rw [Rot.len_quat] at ho
  have tame8 : Tame 8 j.origin.rotation.quat := tame_of (l := 1 / 2) (by norm_num) ho.1 ho.2 (by norm_num) (by norm_num)
  have ub : F.u * (F.tiny * 8) ≤ ε * (8 / 1000 * μ) := mul_le_mul hue (by linarith) (by linarith) he
  have ueo : F.u * j.origin.position.len ≤ ε * j.origin.position.len := mul_le_mul_of_nonneg_right hue no
  have es : ε ≤ 1 / 500 := by linarith
  have e2 : 0 ≤ ε * (j.origin.position.len + μ) := by positivity
  have eu : F.u * (ε * (j.origin.position.len + μ)) ≤ 1 / 1000 * (ε * (j.origin.position.len + μ)) :=
    mul_le_mul_of_nonneg_right F.u_small e2
  have emu : 0 ≤ ε * μ := by positivity
  have eol : 0 ≤ ε * j.origin.position.len := by positivity
  cases h with
  | fixed ht1 => rcases ht with h | h <;> rw [h] at ht1 <;> nomatch ht1
  | slide ht1 => rcases ht with h | h <;> rw [h] at ht1 <;> nomatch ht1
  | rot _ =>
    have ht' : j.type = .revolute ∨ j.type = .continuous := hj.type ▸ ht
    have hnp : j.type ≠ .prismatic := by rcases ht' with h | h <;> rw [h] <;> nofun
    have hre : j.reach θ = j.origin.position.len := by unfold RawJoint.reach; rw [if_neg hnp, add_zero]
    rw [hre] at hb ⊢
    obtain ⟨ha1, ha2⟩ := hax ht'
    rw [Vec3.len_quat] at ha1 ha2
    obtain ⟨q, hq⟩ : ∃ q : Rot ℝ, q = ⟨j.axis.x * Real.sin (θ / 2), j.axis.y * Real.sin (θ / 2), j.axis.z * Real.sin (θ / 2), Real.cos (θ / 2)⟩ := ⟨_, rfl⟩
    obtain ⟨q', hq'⟩ : ∃ q' : Rot ℝ, q' = ⟨F.mul j'.axis.x (F.sin (F.mul θ (F.lit 5 1))), F.mul j'.axis.y (F.sin (F.mul θ (F.lit 5 1))),
      F.mul j'.axis.z (F.sin (F.mul θ (F.lit 5 1))), F.cos (F.mul θ (F.lit 5 1))⟩ := ⟨_, rfl⟩
    have hqn := turn_norm j.axis (θ / 2) ha1 ha2 hq
    have ht2 : F.tiny ≤ 1 / 2 := by linarith
    have hturn := F.turn_near (a' := j'.axis.real) hq hq' hue hA hs hθ ha1 ha2 hal (by linarith) ht2
    have tq : Tame 8 q.quat := tame_of (l := 1 / 2) (by norm_num) hqn.1 hqn.2 (by norm_num) (by norm_num)
    have z : (Vec3.zero : Vec3 ℝ).quat = 0 := by ext <;> simp [Vec3.zero]
    have key := F.transform_pert (A := j.origin) (B := ⟨Vec3.zero, q⟩) j'.origin.real ⟨Vec3.zero, q'⟩ (a1 := ε) (a2 := 30 * ε * A)
      (b1 := ε * (j.origin.position.len + μ)) (b2 := 0) tame8 tq hor hturn hop (by simp) (by linarith) (by linarith) (by norm_num)
      (by linarith) (by
        show 4 * ((8 : ℝ) ^ 2 + 8 * (‖j.origin.position.quat‖ + ‖(Vec3.zero : Vec3 ℝ).quat‖ + _ + 0) + 1) ≤ F.big
        rw [← Vec3.len_quat, ← Vec3.len_quat, Vec3.len_quat Vec3.zero, z, norm_zero]
        have : ε * (j.origin.position.len + μ) ≤ 1 / 500 * (j.origin.position.len + μ) := mul_le_mul_of_nonneg_right es (by linarith)
        linarith)
    refine ⟨Pose.transform j.origin ⟨Vec3.zero, q⟩, ?_, ?_, ?_, ?_⟩
    · have := RawEdge.rot (K := ℝ) (θ := θ) ht'
      rw [hq]
      simpa [mul_one_div, div_eq_mul_inv] using this
    · subst hq'
      have hB : ‖(⟨Vec3.zero, q⟩ : Pose ℝ).position.quat‖ = 0 := by
        show ‖(Vec3.zero : Vec3 ℝ).quat‖ = 0
        rw [z, norm_zero]
      obtain ⟨k1, k2⟩ := key
      rw [hB, ← Vec3.len_quat] at k2
      refine poseNear_iff.mpr ⟨k1.trans (mul_le_mul_of_nonneg_right ?_ (norm_nonneg _)), k2.trans ?_⟩
      · have m1 : ε * (ε * A) ≤ 1 / 500 * (ε * A) := mul_le_mul_of_nonneg_right es e0
        have m2 : (1 + ε) * (1 + 30 * ε * A) ≤ 1 + 32 * (ε * A) := by nlinarith
        have m3 : (1 + 32 * (ε * A)) * (1 + 26 * F.u) ≤ 1 + 60 * ε * A := by
          have m4 : F.u * (ε * A) ≤ 1 / 1000 * (ε * A) := mul_le_mul_of_nonneg_right F.u_small e0
          nlinarith
        have m5 := mul_le_mul_of_nonneg_right m2 (show 0 ≤ 1 + 26 * F.u by linarith)
        linarith
      · linarith
    · have hpos : (Pose.transform j.origin ⟨Vec3.zero, q⟩).position.quat = j.origin.position.quat := by
        show (Vec3.add (j.origin.rotation.rotate Vec3.zero) j.origin.position).quat = _
        rw [Vec3.quat_add, Rot.quat_rotate _ tame8.pos, z]
        simp
      rw [Vec3.len_quat, hpos, ← Vec3.len_quat]
    · have hrot : (Pose.transform j.origin ⟨Vec3.zero, q⟩).rotation.quat = j.origin.rotation.quat * q.quat := Rot.quat_mul _ _
      rw [Rot.len_quat, hrot, norm_mul]
      constructor
      · nlinarith [ho.1, hqn.1]
      · nlinarith [ho.1, hqn.1, ho.2, hqn.2]

/-- a sliding joint -/
theorem edge_slide {F : Rounding} {ε μ A θ : ℝ} {j' : RawJoint (Fl F)} {j : RawJoint ℝ} {T' : Pose (Fl F)} (hj : JointNear ε μ j' j)
    (ho : 1 / 2 ≤ j.origin.rotation.len ∧ j.origin.rotation.len ≤ 2)
    (hax : j.type = .revolute ∨ j.type = .continuous → 1 / 2 ≤ j.axis.len ∧ j.axis.len ≤ 2)
    (hue : F.u ≤ ε) (hA : 1 ≤ A) (hs : 500 * ε * A ≤ 1) (hθ : |θ| ≤ A) (hμ : 1000 * F.tiny ≤ μ) (hμ1 : μ ≤ 1)
    (hb : 1000 * (1 + j.reach θ + A) ≤ F.big) (h : RawEdge (K := Fl F) j' θ T') (ht : j'.type = .prismatic) :
    ∃ T, RawEdge j θ T ∧ PoseNear (60 * ε * A) (100 * ε * (j.reach θ + μ)) T' T ∧ T.position.len ≤ j.reach θ ∧
      1 / 4 ≤ T.rotation.len ∧ T.rotation.len ≤ 4 := by
  have hu := F.u_nonneg
  have he : 0 ≤ ε := hu.trans hue
  have e1 : ε ≤ ε * A := le_mul_of_one_le_right he hA
  have e0 : 0 ≤ ε * A := by positivity
  have htn := F.tiny_nonneg
  have hμ0 : 0 ≤ μ := by linarith
  have no : 0 ≤ j.origin.position.len := Real.sqrt_nonneg _
  have hr0 : j.origin.position.len ≤ j.reach θ := by
    unfold RawJoint.reach
    have : 0 ≤ (if j.type = .prismatic then j.axis.len * |θ| else 0) := by
      split
      · exact mul_nonneg (Real.sqrt_nonneg _) (abs_nonneg _)
      · exact le_rfl
    linarith
  obtain ⟨hor, hop⟩ := poseNear_iff.mp hj.origin
  have hal := hj.axis
  rw [Vec3.dist_quat, Vec3.len_quat] at hal
  rw [Rot.len_quat] at ho
  have tame8 : Tame 8 j.origin.rotation.quat := tame_of (l := 1 / 2) (by norm_num) ho.1 ho.2 (by norm_num) (by norm_num)
  have ub : F.u * (F.tiny * 8) ≤ ε * (8 / 1000 * μ) := mul_le_mul hue (by linarith) (by linarith) he
  have ueo : F.u * j.origin.position.len ≤ ε * j.origin.position.len := mul_le_mul_of_nonneg_right hue no
  have es : ε ≤ 1 / 500 := by linarith
  have e2 : 0 ≤ ε * (j.origin.position.len + μ) := by positivity
  have eu : F.u * (ε * (j.origin.position.len + μ)) ≤ 1 / 1000 * (ε * (j.origin.position.len + μ)) :=
    mul_le_mul_of_nonneg_right F.u_small e2
  have emu : 0 ≤ ε * μ := by positivity
  have eol : 0 ≤ ε * j.origin.position.len := by positivity
  cases h with
  | fixed ht1 => rw [ht] at ht1; nomatch ht1
  | rot ht1 => rw [ht] at ht1; rcases ht1 with h | h <;> nomatch h
  | slide _ =>
    have ht' : j.type = .prismatic := hj.type ▸ ht
    have hre : j.reach θ = j.origin.position.len + j.axis.len * |θ| := by unfold RawJoint.reach; rw [if_pos ht']
    rw [hre] at hb ⊢
    have nal : 0 ≤ j.axis.len := Real.sqrt_nonneg _
    have nsl : 0 ≤ j.axis.len * |θ| := mul_nonneg nal (abs_nonneg _)
    obtain ⟨v, hv⟩ : ∃ v : Vec3 ℝ, v = ⟨j.axis.x * θ, j.axis.y * θ, j.axis.z * θ⟩ := ⟨_, rfl⟩
    obtain ⟨v', hv'⟩ : ∃ v' : Vec3 ℝ, v' = ⟨F.mul j'.axis.x θ, F.mul j'.axis.y θ, F.mul j'.axis.z θ⟩ := ⟨_, rfl⟩
    have hvq : v.quat = θ • j.axis.quat := by rw [hv]; ext <;> simp [mul_comm]
    have hvn : ‖v.quat‖ = j.axis.len * |θ| := by rw [hvq, norm_smul, Real.norm_eq_abs, Vec3.len_quat, mul_comm]
    have hal' : ‖Vec3.quat j'.axis.real‖ ≤ 1002 / 1000 * j.axis.len := by
      have h3 := (norm_near hal).1
      rw [← Vec3.len_quat j.axis] at h3
      have : ε * j.axis.len ≤ 1 / 500 * j.axis.len := mul_le_mul_of_nonneg_right es nal
      linarith
    have hsz : ‖Vec3.quat j'.axis.real‖ * |θ| ≤ 1002 / 1000 * (j.axis.len * |θ|) := by
      have := mul_le_mul_of_nonneg_right hal' (abs_nonneg θ)
      linarith
    have m1 := F.scale_vec j'.axis.real v' θ (by rw [hv']; rfl) (by rw [hv']; rfl) (by rw [hv']; rfl) (by linarith)
    have hvv : ‖v'.quat - v.quat‖ ≤ 3 * ε * (j.axis.len * |θ| + μ) := by
      have split : v'.quat - v.quat = (v'.quat - θ • Vec3.quat j'.axis.real) + θ • (Vec3.quat j'.axis.real - j.axis.quat) := by
        rw [hvq, smul_sub]; abel
      have n1 : ‖θ • (Vec3.quat j'.axis.real - j.axis.quat)‖ ≤ ε * (j.axis.len * |θ|) := by
        rw [norm_smul, Real.norm_eq_abs]
        have := mul_le_mul_of_nonneg_left hal (abs_nonneg θ)
        rw [← Vec3.len_quat j.axis] at this
        linarith
      have n2 : F.u * (‖Vec3.quat j'.axis.real‖ * |θ|) ≤ ε * (1002 / 1000 * (j.axis.len * |θ|)) := mul_le_mul hue hsz (by positivity) he
      have n3 : F.u * F.tiny ≤ ε * (1 / 1000 * μ) := mul_le_mul hue (by linarith) htn he
      have n4 : 0 ≤ ε * (j.axis.len * |θ|) := by positivity
      rw [split]
      refine (norm_add_le _ _).trans ?_
      linarith
    have tq : Tame 8 (Rot.one : Rot ℝ).quat := by
      have : ‖(Rot.one : Rot ℝ).quat‖ = 1 := by rw [quat_norm_eq_sqrt]; simp [Rot.one]
      exact tame_of (l := 1) (h := 1) (by norm_num) this.ge this.le (by norm_num) (by norm_num)
    have e3 : ε * (j.origin.position.len + μ) ≤ 1 / 500 * (j.origin.position.len + μ) := mul_le_mul_of_nonneg_right es (by linarith)
    have e4 : ε * (j.axis.len * |θ| + μ) ≤ 1 / 500 * (j.axis.len * |θ| + μ) := mul_le_mul_of_nonneg_right es (by linarith)
    have key := F.transform_pert (A := j.origin) (B := ⟨v, Rot.one⟩) j'.origin.real ⟨v', Rot.one⟩ (a1 := ε) (a2 := 0)
      (b1 := ε * (j.origin.position.len + μ)) (b2 := 3 * ε * (j.axis.len * |θ| + μ)) tame8 tq hor (by simp) hop hvv (by linarith) (by norm_num) (by norm_num)
      (by linarith) (by
        show 4 * ((8 : ℝ) ^ 2 + 8 * (‖j.origin.position.quat‖ + ‖v.quat‖ + _ + _) + 1) ≤ F.big
        rw [← Vec3.len_quat, hvn]
        linarith)
    refine ⟨Pose.transform j.origin ⟨v, Rot.one⟩, ?_, ?_, ?_, ?_⟩
    · rw [hv]; exact RawEdge.slide (K := ℝ) (θ := θ) ht'
    · subst hv'
      obtain ⟨k1, k2⟩ := key
      rw [show ‖(⟨v, Rot.one⟩ : Pose ℝ).position.quat‖ = j.axis.len * |θ| from hvn, ← Vec3.len_quat] at k2
      refine poseNear_iff.mpr ⟨k1.trans (mul_le_mul_of_nonneg_right ?_ (norm_nonneg _)), k2.trans ?_⟩
      · nlinarith
      · have u1 : F.u * (j.axis.len * |θ|) ≤ ε * (j.axis.len * |θ|) := mul_le_mul_of_nonneg_right hue nsl
        have u2 : F.u * (ε * (j.axis.len * |θ| + μ)) ≤ 1 / 1000 * (ε * (j.axis.len * |θ| + μ)) :=
          mul_le_mul_of_nonneg_right F.u_small (by positivity)
        have u3 : F.u * (F.u * (ε * (j.axis.len * |θ| + μ))) ≤ 1 / 1000 * (ε * (j.axis.len * |θ| + μ)) := by
          have := mul_le_mul_of_nonneg_left u2 hu
          have h0 : 0 ≤ ε * (j.axis.len * |θ| + μ) := by positivity
          have := mul_le_mul_of_nonneg_right F.u_small h0
          nlinarith [F.u_small]
        have u4 : F.u * (ε * (j.axis.len * |θ|)) ≤ 1 / 1000 * (ε * (j.axis.len * |θ|)) := mul_le_mul_of_nonneg_right F.u_small (by positivity)
        have u5 : 0 ≤ ε * (j.axis.len * |θ|) := by positivity
        linarith
    · have hpos : (Pose.transform j.origin ⟨v, Rot.one⟩).position.quat = j.origin.rotation.quat * v.quat * j.origin.rotation.quat⁻¹ + j.origin.position.quat := by
        rw [← Rot.quat_rotate _ tame8.pos]
        exact Vec3.quat_add _ _
      rw [Vec3.len_quat, hpos]
      refine (norm_add_le _ _).trans ?_
      rw [norm_mul, norm_mul, norm_inv, hvn, ← Vec3.len_quat]
      have := tame8.pos
      have h5 : ‖j.origin.rotation.quat‖ * (j.axis.len * |θ|) * ‖j.origin.rotation.quat‖⁻¹ = j.axis.len * |θ| := by field_simp
      rw [h5]
      linarith
    · have hrot : (Pose.transform j.origin ⟨v, Rot.one⟩).rotation.quat = j.origin.rotation.quat * (Rot.one : Rot ℝ).quat := Rot.quat_mul _ _
      have h1 : ‖(Rot.one : Rot ℝ).quat‖ = 1 := by rw [quat_norm_eq_sqrt]; simp [Rot.one]
      rw [Rot.len_quat, hrot, norm_mul, h1]
      constructor <;> linarith [ho.1, ho.2]


/-- a fixed joint -/
theorem edge_fixed {F : Rounding} {ε μ A θ : ℝ} {j' : RawJoint (Fl F)} {j : RawJoint ℝ} {T' : Pose (Fl F)} (hj : JointNear ε μ j' j)
    (ho : 1 / 2 ≤ j.origin.rotation.len ∧ j.origin.rotation.len ≤ 2)
    (hax : j.type = .revolute ∨ j.type = .continuous → 1 / 2 ≤ j.axis.len ∧ j.axis.len ≤ 2)
    (hue : F.u ≤ ε) (hA : 1 ≤ A) (hs : 500 * ε * A ≤ 1) (hθ : |θ| ≤ A) (hμ : 1000 * F.tiny ≤ μ) (hμ1 : μ ≤ 1)
    (hb : 1000 * (1 + j.reach θ + A) ≤ F.big) (h : RawEdge (K := Fl F) j' θ T') (ht : j'.type = .fixed) :
    ∃ T, RawEdge j θ T ∧ PoseNear (60 * ε * A) (100 * ε * (j.reach θ + μ)) T' T ∧ T.position.len ≤ j.reach θ ∧
      1 / 4 ≤ T.rotation.len ∧ T.rotation.len ≤ 4 := by
  have hu := F.u_nonneg
  have he : 0 ≤ ε := hu.trans hue
  have e1 : ε ≤ ε * A := le_mul_of_one_le_right he hA
  have e0 : 0 ≤ ε * A := by positivity
  have htn := F.tiny_nonneg
  have hμ0 : 0 ≤ μ := by linarith
  have no : 0 ≤ j.origin.position.len := Real.sqrt_nonneg _
  have hr0 : j.origin.position.len ≤ j.reach θ := by
    unfold RawJoint.reach
    have : 0 ≤ (if j.type = .prismatic then j.axis.len * |θ| else 0) := by
      split
      · exact mul_nonneg (Real.sqrt_nonneg _) (abs_nonneg _)
      · exact le_rfl
    linarith
  obtain ⟨hor, hop⟩ := poseNear_iff.mp hj.origin
  have hal := hj.axis
  rw [Vec3.dist_quat, Vec3.len_quat] at hal
  rw [Rot.len_quat] at ho
  have tame8 : Tame 8 j.origin.rotation.quat := tame_of (l := 1 / 2) (by norm_num) ho.1 ho.2 (by norm_num) (by norm_num)
  have ub : F.u * (F.tiny * 8) ≤ ε * (8 / 1000 * μ) := mul_le_mul hue (by linarith) (by linarith) he
  have ueo : F.u * j.origin.position.len ≤ ε * j.origin.position.len := mul_le_mul_of_nonneg_right hue no
  have es : ε ≤ 1 / 500 := by linarith
  have e2 : 0 ≤ ε * (j.origin.position.len + μ) := by positivity
  have eu : F.u * (ε * (j.origin.position.len + μ)) ≤ 1 / 1000 * (ε * (j.origin.position.len + μ)) :=
    mul_le_mul_of_nonneg_right F.u_small e2
  have emu : 0 ≤ ε * μ := by positivity
  have eol : 0 ≤ ε * j.origin.position.len := by positivity
  cases h with
  | rot ht1 => rw [ht] at ht1; rcases ht1 with h | h <;> nomatch h
  | slide ht1 => rw [ht] at ht1; nomatch ht1
  | fixed _ =>
    refine ⟨j.origin, .fixed (hj.type ▸ ht), ?_, hr0, by rw [Rot.len_quat]; linarith [ho.1], by rw [Rot.len_quat]; linarith [ho.2]⟩
    have hlen := norm_nonneg j.origin.rotation.quat
    refine poseNear_iff.mpr ⟨hor.trans (mul_le_mul_of_nonneg_right (by linarith) hlen), hop.trans ?_⟩
    have := mul_le_mul_of_nonneg_left hr0 he
    have : 0 ≤ ε * j.reach θ := mul_nonneg he (no.trans hr0)
    linarith

/-- The rounded transform of one joint. -/
theorem edge_near {F : Rounding} {ε μ A θ : ℝ} {j' : RawJoint (Fl F)} {j : RawJoint ℝ} {T' : Pose (Fl F)} (hj : JointNear ε μ j' j)
    (ho : 1 / 2 ≤ j.origin.rotation.len ∧ j.origin.rotation.len ≤ 2)
    (hax : j.type = .revolute ∨ j.type = .continuous → 1 / 2 ≤ j.axis.len ∧ j.axis.len ≤ 2)
    (hue : F.u ≤ ε) (hA : 1 ≤ A) (hs : 500 * ε * A ≤ 1) (hθ : |θ| ≤ A) (hμ : 1000 * F.tiny ≤ μ) (hμ1 : μ ≤ 1)
    (hb : 1000 * (1 + j.reach θ + A) ≤ F.big) (h : RawEdge (K := Fl F) j' θ T') :
    ∃ T, RawEdge j θ T ∧ PoseNear (60 * ε * A) (100 * ε * (j.reach θ + μ)) T' T ∧ T.position.len ≤ j.reach θ ∧
      1 / 4 ≤ T.rotation.len ∧ T.rotation.len ≤ 4 := by
  cases h with
  | fixed ht => exact edge_fixed hj ho hax hue hA hs hθ hμ hμ1 hb (.fixed ht) ht
  | rot ht => exact edge_rot hj ho hax hue hA hs hθ hμ hμ1 hb (.rot ht) ht
  | slide ht => exact edge_slide hj ho hax hue hA hs hθ hμ hμ1 hb (.slide ht) ht

end Tinyfk
