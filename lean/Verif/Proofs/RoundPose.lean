import Verif.Spec.Rounding
import Verif.Proofs.RoundOps

/-!
# Rounding errors of the pose operations
-/

namespace Tinyfk

open Quaternion

theorem Rot.len_quat (q : Rot ℝ) : q.len = ‖q.quat‖ := by
  rw [quat_norm_eq_sqrt]; unfold Rot.len; congr 1; simp; ring

theorem Rot.dist_quat (q r : Rot ℝ) : Rot.dist q r = ‖q.quat - r.quat‖ := by
  rw [quat_norm_eq_sqrt]; unfold Rot.dist; congr 1; simp; ring

theorem Vec3.len_quat (v : Vec3 ℝ) : v.len = ‖v.quat‖ := by
  rw [quat_norm_eq_sqrt]; unfold Vec3.len; congr 1; simp

theorem Vec3.dist_quat (v w : Vec3 ℝ) : Vec3.dist v w = ‖v.quat - w.quat‖ := by
  rw [quat_norm_eq_sqrt]; unfold Vec3.dist; congr 1; simp

theorem Vec3.quat_add (v w : Vec3 ℝ) : (Vec3.add v w).quat = v.quat + w.quat := by
  ext <;> simp [Vec3.add]

/-- the vector part of a quaternion -/
theorem quat_norm_vec (q : Rot ℝ) (a : ℍ[ℝ]) (ha : a.re = 0) : ‖Vec3.quat ⟨q.x, q.y, q.z⟩ - a‖ ≤ ‖q.quat - a‖ := by
  apply quat_norm_mono <;> simp [ha]

theorem Rot.quat_getInverse (q : Rot ℝ) (h : 0 < ‖q.quat‖) : q.getInverse.quat = q.quat⁻¹ := by
  have hn : q.norm2 = ‖q.quat‖ ^ 2 := by rw [quat_norm_sq]; simp [Rot.norm2]; ring
  have hp : 0 < q.norm2 := by rw [hn]; positivity
  unfold Rot.getInverse
  simp only [real_lt, hp, if_true]
  rw [quat_inv_comp, hn]
  rfl

theorem conj_re (q v : ℍ[ℝ]) (hv : v.re = 0) : (q * v * q⁻¹).re = 0 := by
  have h0 : (q⁻¹).re = q.re / ‖q‖ ^ 2 := by rw [quat_inv_comp]
  have h1 : (q⁻¹).imI = -q.imI / ‖q‖ ^ 2 := by rw [quat_inv_comp]
  have h2 : (q⁻¹).imJ = -q.imJ / ‖q‖ ^ 2 := by rw [quat_inv_comp]
  have h3 : (q⁻¹).imK = -q.imK / ‖q‖ ^ 2 := by rw [quat_inv_comp]
  simp only [Quaternion.re_mul, Quaternion.imI_mul, Quaternion.imJ_mul, Quaternion.imK_mul, hv, h0, h1, h2, h3]
  ring

/-- Exact rotation is conjugation. -/
theorem Rot.quat_rotate (q : Rot ℝ) (h : 0 < ‖q.quat‖) (v : Vec3 ℝ) : (q.rotate v).quat = q.quat * v.quat * q.quat⁻¹ := by
  have h1 : (Rot.mul q (Rot.mul ⟨v.x, v.y, v.z, 0⟩ q.getInverse)).quat = q.quat * v.quat * q.quat⁻¹ := by
    rw [Rot.quat_mul, Rot.quat_mul, Rot.quat_getInverse q h, mul_assoc]; rfl
  have h2 := conj_re q.quat v.quat rfl
  rw [← h1] at h2 ⊢
  ext
  · exact h2.symm
  · rfl
  · rfl
  · rfl

section
variable (F : Rounding)

/-- The rounded rotation of a vector. -/
theorem Rounding.rotate_near (q : Rot ℝ) (v : Vec3 ℝ) {N : ℝ} (hq : 0 < ‖q.quat‖) (hN : 1 ≤ N) (h1 : ‖q.quat‖ ≤ N) (h2 : ‖q.quat‖⁻¹ ≤ N)
    (ht : F.tiny * N ^ 2 ≤ 1) (hb : 4 * (N ^ 2 + N * ‖v.quat‖ + 1) ≤ F.big) :
    ‖Vec3.quat (Rot.rotate (K := Fl F) q v) - q.quat * v.quat * q.quat⁻¹‖ ≤ 40 * F.u * (‖v.quat‖ + F.tiny * N) := by
  have hu := F.u_nonneg
  have hu1 := F.u_small
  have htn := F.tiny_nonneg
  have hv := norm_nonneg v.quat
  have hN2 : N ≤ N ^ 2 := by nlinarith
  have ht1 : F.tiny ≤ 1 := by nlinarith
  have htN : F.tiny * N ≤ 1 := by nlinarith
  have hvN : ‖v.quat‖ ≤ N * ‖v.quat‖ := by nlinarith
  have hqi : ‖q.quat‖⁻¹ * ‖q.quat‖ = 1 := inv_mul_cancel₀ hq.ne'
  have hqi0 : 0 < ‖q.quat‖⁻¹ := by positivity
  have hlow : 1 ≤ N * ‖q.quat‖ := by rw [← hqi]; exact mul_le_mul_of_nonneg_right h2 hq.le
  have hlow' : 1 ≤ N * ‖q.quat‖⁻¹ := by
    rw [← hqi, mul_comm]; exact mul_le_mul_of_nonneg_right h1 hqi0.le
  have htq : F.tiny ≤ ‖q.quat‖ ^ 2 := by
    have : 1 ≤ N ^ 2 * ‖q.quat‖ ^ 2 := by rw [← mul_pow]; exact one_le_pow₀ hlow
    nlinarith
  have hti : F.tiny ≤ ‖q.quat‖⁻¹ := by nlinarith
  have hq2 : ‖q.quat‖ ^ 2 ≤ N ^ 2 := pow_le_pow_left₀ hq.le h1 2
  obtain ⟨i, hi⟩ : ∃ i : Rot ℝ, i = Rot.getInverse (K := Fl F) q := ⟨_, rfl⟩
  have e1 : ‖i.quat - q.quat⁻¹‖ ≤ 17 * F.u * ‖q.quat‖⁻¹ := by
    have := F.inv_quat q hq htq (by linarith) (by linarith)
    rw [norm_inv] at this
    have h3 := mul_le_mul_of_nonneg_left hti hu
    rw [hi]
    linarith
  have hni : ‖i.quat‖ ≤ 1017 / 1000 * ‖q.quat‖⁻¹ := by
    have h3 : ‖i.quat‖ ≤ ‖i.quat - q.quat⁻¹‖ + ‖q.quat⁻¹‖ := by
      have := norm_add_le (i.quat - q.quat⁻¹) q.quat⁻¹
      simpa using this
    rw [norm_inv] at h3
    have h4 : 17 * F.u * ‖q.quat‖⁻¹ ≤ 17 / 1000 * ‖q.quat‖⁻¹ := mul_le_mul_of_nonneg_right (by linarith) hqi0.le
    linarith
  obtain ⟨m, hm⟩ : ∃ m : Rot ℝ, m = Rot.mul (K := Fl F) (⟨v.x, v.y, v.z, (0 : ℝ)⟩ : Rot ℝ) i := ⟨_, rfl⟩
  have hvq : Rot.quat ⟨v.x, v.y, v.z, 0⟩ = v.quat := rfl
  have hvi : ‖v.quat‖ * ‖i.quat‖ ≤ 1017 / 1000 * (‖v.quat‖ * ‖q.quat‖⁻¹) := by
    have := mul_le_mul_of_nonneg_left hni hv
    linarith
  have hviN : ‖v.quat‖ * ‖q.quat‖⁻¹ ≤ N * ‖v.quat‖ := by
    have := mul_le_mul_of_nonneg_left h2 hv
    linarith
  have hvi0 : 0 ≤ ‖v.quat‖ * ‖q.quat‖⁻¹ := by positivity
  have e2 : ‖m.quat - v.quat * i.quat‖ ≤ 1017 / 100 * F.u * (‖v.quat‖ * ‖q.quat‖⁻¹) + 16 * F.u * F.tiny := by
    have := F.mul_quat ⟨v.x, v.y, v.z, 0⟩ i (by rw [hvq]; nlinarith)
    rw [hvq] at this
    have h3 := mul_le_mul_of_nonneg_left hvi hu
    rw [hm]
    linarith
  have hnm : ‖m.quat‖ ≤ 103 / 100 * (‖v.quat‖ * ‖q.quat‖⁻¹) + 16 / 1000 * F.tiny := by
    have h3 : ‖m.quat‖ ≤ ‖m.quat - v.quat * i.quat‖ + ‖v.quat * i.quat‖ := by
      have := norm_add_le (m.quat - v.quat * i.quat) (v.quat * i.quat)
      simpa using this
    rw [norm_mul] at h3
    have h4 : F.u * (‖v.quat‖ * ‖q.quat‖⁻¹) ≤ 1 / 1000 * (‖v.quat‖ * ‖q.quat‖⁻¹) := mul_le_mul_of_nonneg_right hu1 hvi0
    have h5 : F.u * F.tiny ≤ 1 / 1000 * F.tiny := mul_le_mul_of_nonneg_right hu1 htn
    linarith
  have hqm : ‖q.quat‖ * ‖m.quat‖ ≤ 103 / 100 * ‖v.quat‖ + 16 / 1000 * (F.tiny * N) := by
    have h3 := mul_le_mul_of_nonneg_left hnm hq.le
    have h4 : ‖q.quat‖ * (103 / 100 * (‖v.quat‖ * ‖q.quat‖⁻¹) + 16 / 1000 * F.tiny) =
        103 / 100 * ‖v.quat‖ * (‖q.quat‖⁻¹ * ‖q.quat‖) + 16 / 1000 * (F.tiny * ‖q.quat‖) := by ring
    rw [h4, hqi, mul_one] at h3
    have h5 := mul_le_mul_of_nonneg_left h1 htn
    linarith
  obtain ⟨r, hr⟩ : ∃ r : Rot ℝ, r = Rot.mul (K := Fl F) q m := ⟨_, rfl⟩
  have e3 : ‖r.quat - q.quat * m.quat‖ ≤ 103 / 10 * F.u * ‖v.quat‖ + 16 / 100 * F.u * (F.tiny * N) + 16 * F.u * F.tiny := by
    have := F.mul_quat q m (by linarith)
    have h3 := mul_le_mul_of_nonneg_left hqm hu
    rw [hr]
    linarith
  have hrot : Rot.rotate (K := Fl F) q v = (⟨r.x, r.y, r.z⟩ : Vec3 ℝ) := by
    subst hr hm hi; rfl
  have hre := conj_re q.quat v.quat rfl
  rw [hrot]
  refine (quat_norm_vec r _ hre).trans ?_
  have split : r.quat - q.quat * v.quat * q.quat⁻¹ = (r.quat - q.quat * m.quat) + q.quat * (m.quat - v.quat * i.quat) +
      q.quat * v.quat * (i.quat - q.quat⁻¹) := by
    simp only [mul_sub, mul_assoc]; abel
  have k1 : ‖q.quat * (m.quat - v.quat * i.quat)‖ ≤ 1017 / 100 * F.u * ‖v.quat‖ + 16 * F.u * (F.tiny * N) := by
    rw [norm_mul]
    have h3 := mul_le_mul_of_nonneg_left e2 hq.le
    have h4 : ‖q.quat‖ * (1017 / 100 * F.u * (‖v.quat‖ * ‖q.quat‖⁻¹) + 16 * F.u * F.tiny) =
      1017 / 100 * F.u * ‖v.quat‖ * (‖q.quat‖⁻¹ * ‖q.quat‖) + 16 * (F.u * F.tiny) * ‖q.quat‖ := by ring
    rw [h4, hqi, mul_one] at h3
    have h5 := mul_le_mul_of_nonneg_left h1 (mul_nonneg hu htn)
    linarith
  have k2 : ‖q.quat * v.quat * (i.quat - q.quat⁻¹)‖ ≤ 17 * F.u * ‖v.quat‖ := by
    rw [norm_mul, norm_mul]
    have h3 := mul_le_mul_of_nonneg_left e1 (mul_nonneg hq.le hv)
    have h4 : ‖q.quat‖ * ‖v.quat‖ * (17 * F.u * ‖q.quat‖⁻¹) = 17 * F.u * ‖v.quat‖ * (‖q.quat‖⁻¹ * ‖q.quat‖) := by ring
    rw [h4, hqi, mul_one] at h3
    exact h3
  have k3 : F.u * F.tiny ≤ F.u * (F.tiny * N) := mul_le_mul_of_nonneg_left (by nlinarith) hu
  have k4 : 0 ≤ F.u * (F.tiny * N) := by positivity
  have k5 : 0 ≤ F.u * ‖v.quat‖ := by positivity
  rw [split]
  have := norm_add₃_le (a := r.quat - q.quat * m.quat) (b := q.quat * (m.quat - v.quat * i.quat)) (c := q.quat * v.quat * (i.quat - q.quat⁻¹))
  linarith

end

/-- Rotating by a nearby quaternion. -/
theorem rotate_pert {q q' v : ℍ[ℝ]} {a : ℝ} (hq : 0 < ‖q‖) (h : ‖q' - q‖ ≤ a * ‖q‖) (ha : a ≤ 1 / 4) :
    ‖q' * v * q'⁻¹ - q * v * q⁻¹‖ ≤ 3 * a * ‖v‖ := by
  have hq0 : q ≠ 0 := norm_pos_iff.mp hq
  have ha0 : 0 ≤ a := by
    by_contra hn
    have := mul_neg_of_neg_of_pos (not_le.mp hn) hq
    linarith [norm_nonneg (q' - q)]
  obtain ⟨e, he⟩ : ∃ e, e = q⁻¹ * (q' - q) := ⟨_, rfl⟩
  have hne : ‖e‖ ≤ a := by
    rw [he, norm_mul, norm_inv, inv_mul_le_iff₀ hq, mul_comm]; exact h
  have hs : q' = q * (1 + e) := by
    rw [he, mul_add, ← mul_assoc, mul_inv_cancel₀ hq0]; simp
  have hs1 : 3 / 4 ≤ ‖1 + e‖ := by
    have h1 : ‖(1 : ℍ[ℝ])‖ ≤ ‖1 + e‖ + ‖e‖ := by
      have := norm_sub_le (1 + e) e
      simpa using this
    rw [norm_one] at h1
    linarith
  have hs0 : 1 + e ≠ 0 := by
    intro h0; rw [h0, norm_zero] at hs1; linarith
  have key : q' * v * q'⁻¹ - q * v * q⁻¹ = q * ((e * v - v * e) * (1 + e)⁻¹) * q⁻¹ := by
    have h1 : (e * v - v * e) * (1 + e)⁻¹ = (1 + e) * v * (1 + e)⁻¹ - v := by
      have : e * v - v * e = (1 + e) * v - v * (1 + e) := by rw [add_mul, mul_add, one_mul, mul_one]; abel
      rw [this, sub_mul, mul_assoc v, mul_inv_cancel₀ hs0, mul_one]
    rw [h1, hs, mul_inv_rev, mul_sub, sub_mul]
    simp only [mul_assoc]
  rw [key, norm_mul, norm_mul, norm_mul, norm_inv, norm_inv]
  have h3 : ‖e * v - v * e‖ ≤ 2 * a * ‖v‖ := by
    have h4 := norm_sub_le (e * v) (v * e)
    rw [norm_mul, norm_mul] at h4
    have h5 := mul_le_mul_of_nonneg_right hne (norm_nonneg v)
    linarith
  have h6 : ‖1 + e‖⁻¹ ≤ 4 / 3 := by
    rw [inv_le_comm₀ (by linarith) (by norm_num)]; linarith
  have h7 : ‖e * v - v * e‖ * ‖1 + e‖⁻¹ ≤ 2 * a * ‖v‖ * (4 / 3) := mul_le_mul h3 h6 (by positivity) (by positivity)
  have h8 : ‖q‖ * (‖e * v - v * e‖ * ‖1 + e‖⁻¹) * ‖q‖⁻¹ = ‖e * v - v * e‖ * ‖1 + e‖⁻¹ := by
    field_simp
  rw [h8]
  have : 0 ≤ a * ‖v‖ := by positivity
  linarith

/-- a quaternion of which the length and its inverse are at most `N / 2` -/
structure Tame (N : ℝ) (q : ℍ[ℝ]) : Prop where
  pos : 0 < ‖q‖
  up : 2 * ‖q‖ ≤ N
  low : 2 * ‖q‖⁻¹ ≤ N

theorem norm_near {q q' : ℍ[ℝ]} {a : ℝ} (h : ‖q' - q‖ ≤ a * ‖q‖) : ‖q'‖ ≤ (1 + a) * ‖q‖ ∧ (1 - a) * ‖q‖ ≤ ‖q'‖ := by
  have h1 : ‖q'‖ ≤ ‖q' - q‖ + ‖q‖ := by simpa using norm_add_le (q' - q) q
  have h2 : ‖q‖ ≤ ‖q'‖ + ‖q' - q‖ := by simpa using norm_sub_le q' (q' - q)
  constructor <;> linarith

theorem Tame.near {N a : ℝ} {q q' : ℍ[ℝ]} (hq : Tame N q) (h : ‖q' - q‖ ≤ a * ‖q‖) (ha : a ≤ 1 / 4) :
    0 < ‖q'‖ ∧ ‖q'‖ ≤ N ∧ ‖q'‖⁻¹ ≤ N ∧ 3 / 4 * ‖q‖ ≤ ‖q'‖ := by
  obtain ⟨h1, h2⟩ := norm_near h
  have hp := hq.pos
  have h3 : 3 / 4 * ‖q‖ ≤ ‖q'‖ := by nlinarith
  have h4 : ‖q'‖ ≤ 5 / 4 * ‖q‖ := by nlinarith
  have h5 : 0 < ‖q'‖ := by linarith
  refine ⟨h5, by linarith [hq.up], ?_, h3⟩
  have h6 : ‖q'‖⁻¹ ≤ (3 / 4 * ‖q‖)⁻¹ := inv_anti₀ (by positivity) h3
  rw [mul_inv] at h6
  have := hq.low
  have : 0 < ‖q‖⁻¹ := by positivity
  linarith

section
variable (F : Rounding)

/-- The rounded product of two inexact quaternions. -/
theorem Rounding.mul_pert {N a1 a2 : ℝ} {p q : ℍ[ℝ]} (p' q' : Rot ℝ) (hp : Tame N p) (hq : Tame N q)
    (h1 : ‖p'.quat - p‖ ≤ a1 * ‖p‖) (h2 : ‖q'.quat - q‖ ≤ a2 * ‖q‖) (ha1 : a1 ≤ 1 / 4) (ha2 : a2 ≤ 1 / 4)
    (ht : F.tiny * N ^ 2 ≤ 1) (hb : 4 * (N ^ 2 + 1) ≤ F.big) :
    ‖Rot.quat (Rot.mul (K := Fl F) p' q') - p * q‖ ≤ ((1 + a1) * (1 + a2) * (1 + 26 * F.u) - 1) * ‖p * q‖ := by
  have hu := F.u_nonneg
  have htn := F.tiny_nonneg
  obtain ⟨p0, pN, pi, _⟩ := hp.near h1 ha1
  obtain ⟨q0, qN, qi, _⟩ := hq.near h2 ha2
  have hN : 0 ≤ N := p0.le.trans pN
  have hpp := hp.pos
  have hqp := hq.pos
  have n1 := (norm_near h1).1
  have n2 := (norm_near h2).1
  have pq : ‖p'.quat‖ * ‖q'.quat‖ ≤ N ^ 2 := by rw [pow_two]; exact mul_le_mul pN qN q0.le hN
  have hlow : 1 ≤ N ^ 2 * (‖p'.quat‖ * ‖q'.quat‖) := by
    have l1 : 1 ≤ N * ‖p'.quat‖ := by rw [← inv_mul_cancel₀ p0.ne']; exact mul_le_mul_of_nonneg_right pi p0.le
    have l2 : 1 ≤ N * ‖q'.quat‖ := by rw [← inv_mul_cancel₀ q0.ne']; exact mul_le_mul_of_nonneg_right qi q0.le
    have := one_le_mul_of_one_le_of_one_le l1 l2
    calc 1 ≤ _ := this
      _ = _ := by ring
  have hpq0 : 0 < ‖p'.quat‖ * ‖q'.quat‖ := by positivity
  have htpq : F.tiny ≤ ‖p'.quat‖ * ‖q'.quat‖ := by nlinarith
  have hN2 : 0 < N ^ 2 := by
    by_contra hn
    have := mul_nonpos_of_nonpos_of_nonneg (not_lt.mp hn) hpq0.le
    linarith
  have ht1 : F.tiny ≤ N ^ 2 := htpq.trans pq
  have main := F.mul_quat p' q' (by linarith)
  have m2 : ‖Rot.quat (Rot.mul (K := Fl F) p' q') - p'.quat * q'.quat‖ ≤ 26 * F.u * (‖p'.quat‖ * ‖q'.quat‖) := by
    have := mul_le_mul_of_nonneg_left htpq hu
    linarith
  have a10 : 0 ≤ a1 := by
    by_contra hn
    have := mul_neg_of_neg_of_pos (not_le.mp hn) hpp
    linarith [norm_nonneg (p'.quat - p)]
  have a20 : 0 ≤ a2 := by
    by_contra hn
    have := mul_neg_of_neg_of_pos (not_le.mp hn) hqp
    linarith [norm_nonneg (q'.quat - q)]
  have m3 : ‖p'.quat‖ * ‖q'.quat‖ ≤ (1 + a1) * (1 + a2) * (‖p‖ * ‖q‖) := by
    calc _ ≤ (1 + a1) * ‖p‖ * ((1 + a2) * ‖q‖) := mul_le_mul n1 n2 q0.le (by positivity)
      _ = _ := by ring
  have split : Rot.quat (Rot.mul (K := Fl F) p' q') - p * q = (Rot.quat (Rot.mul (K := Fl F) p' q') - p'.quat * q'.quat) +
      (p'.quat - p) * q'.quat + p * (q'.quat - q) := by
    rw [sub_mul, mul_sub]; abel
  have k1 : ‖(p'.quat - p) * q'.quat‖ ≤ a1 * (1 + a2) * (‖p‖ * ‖q‖) := by
    rw [norm_mul]
    calc _ ≤ a1 * ‖p‖ * ((1 + a2) * ‖q‖) := mul_le_mul h1 n2 q0.le (by positivity)
      _ = _ := by ring
  have k2 : ‖p * (q'.quat - q)‖ ≤ a2 * (‖p‖ * ‖q‖) := by
    rw [norm_mul]
    calc _ ≤ ‖p‖ * (a2 * ‖q‖) := mul_le_mul_of_nonneg_left h2 hpp.le
      _ = _ := by ring
  have k3 : 26 * F.u * (‖p'.quat‖ * ‖q'.quat‖) ≤ 26 * F.u * ((1 + a1) * (1 + a2) * (‖p‖ * ‖q‖)) :=
    mul_le_mul_of_nonneg_left m3 (by positivity)
  rw [split, norm_mul p q]
  have := norm_add₃_le (a := Rot.quat (Rot.mul (K := Fl F) p' q') - p'.quat * q'.quat) (b := (p'.quat - p) * q'.quat) (c := p * (q'.quat - q))
  calc _ ≤ _ := this
    _ ≤ 26 * F.u * ((1 + a1) * (1 + a2) * (‖p‖ * ‖q‖)) + a1 * (1 + a2) * (‖p‖ * ‖q‖) + a2 * (‖p‖ * ‖q‖) := by linarith
    _ = _ := by ring

theorem Rounding.add_vec_aux (v w s : Vec3 ℝ) (hx : s.x = F.add v.x w.x) (hy : s.y = F.add v.y w.y) (hz : s.z = F.add v.z w.z)
    (hb : ‖v.quat + w.quat‖ ≤ F.big) : ‖s.quat - (v.quat + w.quat)‖ ≤ F.u * ‖v.quat + w.quat‖ + 2 * (F.u * F.tiny) := by
  have hu := F.u_nonneg
  have sq := quat_norm_sq (v.quat + w.quat)
  have n0 := norm_nonneg (v.quat + w.quat)
  simp at sq
  have cmp : ∀ x : ℝ, x ^ 2 ≤ ‖v.quat + w.quat‖ ^ 2 → |x| ≤ F.big := fun x hx => (abs_le_of_sq_le_sq hx n0).trans hb
  refine quat_norm_rel hu (mul_nonneg hu F.tiny_nonneg) ?_ ?_ ?_ ?_
  · simp; exact mul_nonneg hu F.tiny_nonneg
  · simpa [hx] using F.add_near (cmp _ (by rw [sq]; nlinarith))
  · simpa [hy] using F.add_near (cmp _ (by rw [sq]; nlinarith))
  · simpa [hz] using F.add_near (cmp _ (by rw [sq]; nlinarith))

/-- The rounded sum of two vectors. -/
theorem Rounding.add_vec (v w : Vec3 ℝ) (hb : ‖v.quat + w.quat‖ ≤ F.big) :
    ‖Vec3.quat (Vec3.add (K := Fl F) v w) - (v.quat + w.quat)‖ ≤ F.u * ‖v.quat + w.quat‖ + 2 * (F.u * F.tiny) :=
  F.add_vec_aux v w _ rfl rfl rfl hb

/-- The rounded composition of two inexact poses. -/
theorem Rounding.transform_pert {N a1 a2 b1 b2 : ℝ} {A B : Pose ℝ} (A' B' : Pose ℝ) (hA : Tame N A.rotation.quat) (hB : Tame N B.rotation.quat)
    (h1 : ‖A'.rotation.quat - A.rotation.quat‖ ≤ a1 * ‖A.rotation.quat‖) (h2 : ‖B'.rotation.quat - B.rotation.quat‖ ≤ a2 * ‖B.rotation.quat‖)
    (h3 : ‖A'.position.quat - A.position.quat‖ ≤ b1) (h4 : ‖B'.position.quat - B.position.quat‖ ≤ b2)
    (ha1 : a1 ≤ 1 / 4) (ha2 : a2 ≤ 1 / 4) (hN : 1 ≤ N) (ht : F.tiny * N ^ 2 ≤ 1)
    (hb : 4 * (N ^ 2 + N * (‖A.position.quat‖ + ‖B.position.quat‖ + b1 + b2) + 1) ≤ F.big) :
    ‖Rot.quat (Pose.transform (K := Fl F) A' B').rotation - (Pose.transform A B).rotation.quat‖ ≤
      ((1 + a1) * (1 + a2) * (1 + 26 * F.u) - 1) * ‖(Pose.transform A B).rotation.quat‖ ∧
    ‖Vec3.quat (Pose.transform (K := Fl F) A' B').position - (Pose.transform A B).position.quat‖ ≤
      (1 + F.u) * (b1 + (1 + 40 * F.u) * b2 + 3 * a1 * ‖B.position.quat‖) + F.u * ‖A.position.quat‖ + 42 * F.u * ‖B.position.quat‖ +
        90 * F.u * (F.tiny * N) := by
  have hu := F.u_nonneg
  have hu1 := F.u_small
  have htn := F.tiny_nonneg
  have nA := norm_nonneg A.position.quat
  have nB := norm_nonneg B.position.quat
  have b10 : 0 ≤ b1 := (norm_nonneg _).trans h3
  have b20 : 0 ≤ b2 := (norm_nonneg _).trans h4
  have hNb : 0 ≤ N * (‖A.position.quat‖ + ‖B.position.quat‖ + b1 + b2) := by positivity
  constructor
  · have := F.mul_pert A'.rotation B'.rotation hA hB h1 h2 ha1 ha2 ht (by linarith)
    rw [show (Pose.transform A B).rotation.quat = A.rotation.quat * B.rotation.quat from Rot.quat_mul _ _]
    exact this
  · obtain ⟨q0, qN, qi, _⟩ := hA.near h1 ha1
    have pB : ‖B'.position.quat‖ ≤ ‖B.position.quat‖ + b2 := by
      have := norm_add_le (B'.position.quat - B.position.quat) B.position.quat
      simp only [sub_add_cancel] at this
      linarith
    have pA : ‖A'.position.quat‖ ≤ ‖A.position.quat‖ + b1 := by
      have := norm_add_le (A'.position.quat - A.position.quat) A.position.quat
      simp only [sub_add_cancel] at this
      linarith
    have hNpB : N * ‖B'.position.quat‖ ≤ N * (‖A.position.quat‖ + ‖B.position.quat‖ + b1 + b2) :=
      mul_le_mul_of_nonneg_left (by linarith) (by linarith)
    obtain ⟨r, hr⟩ : ∃ r : Vec3 ℝ, r = Rot.rotate (K := Fl F) A'.rotation B'.position := ⟨_, rfl⟩
    have e1 : ‖r.quat - A'.rotation.quat * B'.position.quat * A'.rotation.quat⁻¹‖ ≤ 40 * F.u * (‖B'.position.quat‖ + F.tiny * N) := by
      rw [hr]
      exact F.rotate_near A'.rotation B'.position q0 hN qN qi ht (by linarith)
    have e2 := rotate_pert (v := B.position.quat) hA.pos h1 ha1
    have e3 : ‖A'.rotation.quat * B'.position.quat * A'.rotation.quat⁻¹ - A'.rotation.quat * B.position.quat * A'.rotation.quat⁻¹‖ ≤ b2 := by
      rw [← sub_mul, ← mul_sub, norm_mul, norm_mul, norm_inv]
      have : ‖A'.rotation.quat‖ * ‖B'.position.quat - B.position.quat‖ * ‖A'.rotation.quat‖⁻¹ = ‖B'.position.quat - B.position.quat‖ := by
        field_simp
      rw [this]
      exact h4
    have e4 : ‖r.quat - A.rotation.quat * B.position.quat * A.rotation.quat⁻¹‖ ≤
        40 * F.u * (‖B.position.quat‖ + b2 + F.tiny * N) + b2 + 3 * a1 * ‖B.position.quat‖ := by
      have split : r.quat - A.rotation.quat * B.position.quat * A.rotation.quat⁻¹ =
        (r.quat - A'.rotation.quat * B'.position.quat * A'.rotation.quat⁻¹) +
        (A'.rotation.quat * B'.position.quat * A'.rotation.quat⁻¹ - A'.rotation.quat * B.position.quat * A'.rotation.quat⁻¹) +
        (A'.rotation.quat * B.position.quat * A'.rotation.quat⁻¹ - A.rotation.quat * B.position.quat * A.rotation.quat⁻¹) := by abel
      rw [split]
      refine (norm_add₃_le).trans ?_
      have := mul_le_mul_of_nonneg_left pB hu
      linarith
    have hrot : (A.rotation.rotate B.position).quat = A.rotation.quat * B.position.quat * A.rotation.quat⁻¹ := Rot.quat_rotate _ hA.pos _
    have hnr : ‖A.rotation.quat * B.position.quat * A.rotation.quat⁻¹‖ = ‖B.position.quat‖ := by
      rw [norm_mul, norm_mul, norm_inv]
      have := hA.pos
      field_simp
    have hex : (Pose.transform A B).position.quat = A.rotation.quat * B.position.quat * A.rotation.quat⁻¹ + A.position.quat := by
      rw [← hrot]; exact Vec3.quat_add _ _
    have a10 : 0 ≤ a1 := by
      by_contra hn
      have := mul_neg_of_neg_of_pos (not_le.mp hn) hA.pos
      linarith [norm_nonneg (A'.rotation.quat - A.rotation.quat)]
    have ht1 : F.tiny * N ≤ 1 := by nlinarith
    have htN0 : 0 ≤ F.tiny * N := by positivity
    have u1 : F.u * (‖B.position.quat‖ + b2 + F.tiny * N) ≤ 1 / 1000 * (‖B.position.quat‖ + b2 + F.tiny * N) :=
      mul_le_mul_of_nonneg_right hu1 (by positivity)
    have a1B : a1 * ‖B.position.quat‖ ≤ 1 / 4 * ‖B.position.quat‖ := mul_le_mul_of_nonneg_right ha1 nB
    have tot : ‖(r.quat + A'.position.quat) - (A.rotation.quat * B.position.quat * A.rotation.quat⁻¹ + A.position.quat)‖ ≤
        40 * F.u * (‖B.position.quat‖ + b2 + F.tiny * N) + b2 + 3 * a1 * ‖B.position.quat‖ + b1 := by
      rw [add_sub_add_comm]
      exact (norm_add_le _ _).trans (by linarith)
    have hsz : ‖r.quat + A'.position.quat‖ ≤ (40 * F.u * (‖B.position.quat‖ + b2 + F.tiny * N) + b2 + 3 * a1 * ‖B.position.quat‖ + b1) +
        (‖B.position.quat‖ + ‖A.position.quat‖) := by
      have h5 := norm_add_le ((r.quat + A'.position.quat) - (A.rotation.quat * B.position.quat * A.rotation.quat⁻¹ + A.position.quat))
        (A.rotation.quat * B.position.quat * A.rotation.quat⁻¹ + A.position.quat)
      rw [sub_add_cancel] at h5
      have h6 := norm_add_le (A.rotation.quat * B.position.quat * A.rotation.quat⁻¹) A.position.quat
      rw [hnr] at h6
      linarith
    have hNs : ‖A.position.quat‖ + ‖B.position.quat‖ + b1 + b2 ≤ N * (‖A.position.quat‖ + ‖B.position.quat‖ + b1 + b2) :=
      le_mul_of_one_le_left (by positivity) hN
    have hN2 : 1 ≤ N ^ 2 := one_le_pow₀ hN
    have hadd := F.add_vec r A'.position (by linarith)
    have hpos : (Pose.transform (K := Fl F) A' B').position = Vec3.add (K := Fl F) r A'.position := by rw [hr]; rfl
    rw [hpos, hex]
    have fin := norm_add_le (Vec3.quat (Vec3.add (K := Fl F) r A'.position) - (r.quat + A'.position.quat))
      ((r.quat + A'.position.quat) - (A.rotation.quat * B.position.quat * A.rotation.quat⁻¹ + A.position.quat))
    rw [sub_add_sub_cancel] at fin
    have us := mul_le_mul_of_nonneg_left hsz hu
    have u2 : F.u * (F.u * (‖B.position.quat‖ + b2 + F.tiny * N)) ≤ F.u * (1 / 1000 * (‖B.position.quat‖ + b2 + F.tiny * N)) :=
      mul_le_mul_of_nonneg_left u1 hu
    have u3 : F.u * F.tiny ≤ F.u * (F.tiny * N) := mul_le_mul_of_nonneg_left (le_mul_of_one_le_right htn hN) hu
    have u4 : 0 ≤ F.u * (F.tiny * N) := by positivity
    have u5 : 0 ≤ F.u * ‖B.position.quat‖ := by positivity
    have u6 : 0 ≤ F.u * b2 := by positivity
    have u7 : 0 ≤ F.u * F.u * b2 := by positivity
    nlinarith

end

end Tinyfk
