import Verif.Proofs.RoundAngles
import Verif.Proofs.Change
import Verif.Props.BaseAngles

/-!
# Rounding errors of the columns of the base angles
-/

set_option linter.unusedSectionVars false

open scoped Quaternion

namespace Tinyfk

variable {F : Rounding}

theorem Rot.quat_inverse (q : Rot ℝ) : q.inverse.quat = q.quat⁻¹ := by
  rw [quat_inv_comp, Rot.quat_sq]
  have e : q.norm2 = q.w ^ 2 + q.x ^ 2 + q.y ^ 2 + q.z ^ 2 := by simp only [Rot.norm2]; ring
  rw [← e]
  rfl

theorem Rot.quat_len_one {q : Rot ℝ} (h : q.norm2 = 1) : ‖q.quat‖ = 1 := by
  rw [← abs_of_nonneg (norm_nonneg _), ← Real.sqrt_sq_eq_abs, Rot.quat_sq, Real.sqrt_eq_one, ← h]
  simp only [Rot.norm2]; ring

theorem rpyV_len (a : Vec3 ℝ) : ‖(rpyV a).quat‖ = 1 := Rot.quat_len_one (Rot.norm2_fromRPY _ _ _)

theorem Rot.rotate_len {q : Rot ℝ} (h : ‖q.quat‖ = 1) (v : Vec3 ℝ) : ‖(q.rotate v).quat‖ = ‖v.quat‖ := by
  rw [Rot.quat_rotate q (by rw [h]; norm_num), norm_mul, norm_mul, norm_inv, h]; simp

theorem Rot.rotate_diff {q : Rot ℝ} (h : ‖q.quat‖ = 1) (v w : Vec3 ℝ) : ‖(q.rotate v).quat - (q.rotate w).quat‖ = ‖v.quat - w.quat‖ := by
  have hp : 0 < ‖q.quat‖ := by rw [h]; norm_num
  rw [Rot.quat_rotate q hp, Rot.quat_rotate q hp, ← sub_mul, ← mul_sub, norm_mul, norm_mul, norm_inv, h]; simp

/-- the rounded rotation of a vector by an inexact rotation -/
theorem Rounding.rotate_by {α : ℝ} (q' q : Rot ℝ) (a w : Vec3 ℝ) (hq : ‖q.quat‖ = 1) (h : ‖q'.quat - q.quat‖ ≤ α) (hα : α ≤ 1 / 4)
    (hεα : 125 * F.u ≤ α) (ht : 4 * F.tiny ≤ 1) (hb : 4 * (5 + 3 * ‖a.quat‖) ≤ F.big) (hw : w = Rot.rotate (K := Fl F) q' a) :
    ‖w.quat - (q.rotate a).quat‖ ≤ 7 / 2 * α * ‖a.quat‖ + α * F.tiny :=
  F.axis_near q' q a a w hq h hα le_rfl hεα (by rw [sub_self, norm_zero]; exact mul_nonneg F.u_nonneg (norm_nonneg _)) ht hb hw

/-! ### the angles of the base, turned on by `eps` -/

theorem sum_setAng (t s : Vec3 ℝ) (k : Nat) (h : ℝ) :
    let T := setAng k (t.cmp k + h) t
    let S := setAng k (s.cmp k + h) s
    k < 3 → |T.x - S.x| + |T.y - S.y| + |T.z - S.z| = |t.x - s.x| + |t.y - s.y| + |t.z - s.z| := by
  intro T S hk
  obtain rfl | rfl | rfl : k = 0 ∨ k = 1 ∨ k = 2 := by omega
  · show |t.x + h - (s.x + h)| + |t.y - s.y| + |t.z - s.z| = _
    rw [add_sub_add_right_eq_sub]
  · show |t.x - s.x| + |t.y + h - (s.y + h)| + |t.z - s.z| = _
    rw [add_sub_add_right_eq_sub]
  · show |t.x - s.x| + |t.y - s.y| + |t.z + h - (s.z + h)| = _
    rw [add_sub_add_right_eq_sub]

theorem rotate_congr {a b : Vec3 ℝ} (h1 : Real.cos a.x = Real.cos b.x) (h2 : Real.sin a.x = Real.sin b.x) (h3 : Real.cos a.y = Real.cos b.y)
    (h4 : Real.sin a.y = Real.sin b.y) (h5 : Real.cos a.z = Real.cos b.z) (h6 : Real.sin a.z = Real.sin b.z) (v : Vec3 ℝ) :
    (rpyV a).rotate v = (rpyV b).rotate v := by
  rw [rpyV, rpyV, rotate_fromRPY, rotate_fromRPY, h1, h2, h3, h4, h5, h6]

/-- The rounded rotation of the base with one angle increased by `eps`. -/
theorem Rounding.tweak_near {ε c : ℝ} (hi : InverseTrig F) (q' : Rot ℝ) (a : Vec3 ℝ) (h : ‖q'.quat - (rpyV a).quat‖ ≤ ε)
    (hc : c ≤ Real.cos a.y) (hc0 : 1 / 50 ≤ c) (hu : 125 * F.u ≤ ε) (hε : ε ≤ 9 / 10 ^ 6) (hb : 20 ≤ F.big) (ht : F.tiny ≤ 1 / 10 ^ 8)
    {k : Nat} (hk : k < 3) {q : Rot ℝ}
    (hq : q = Rot.fromRPY (K := Fl F) (tweak (K := Fl F) (Rot.getRPY (K := Fl F) q') k).x (tweak (K := Fl F) (Rot.getRPY (K := Fl F) q') k).y
      (tweak (K := Fl F) (Rot.getRPY (K := Fl F) q') k).z) :
    ∃ p : Rot ℝ, ‖p.quat‖ = 1 ∧ (∀ v, p.rotate v = (rpyV (setAng k (a.cmp k + 1 / 10 ^ 7) a)).rotate v) ∧ ‖q.quat - p.quat‖ ≤ 41 * ε / c := by
  have hu0 := F.u_nonneg
  have ht0 := F.tiny_nonneg
  have hc1 : 0 < c := by linarith
  have hε0 : 0 ≤ ε := (norm_nonneg _).trans h
  have hcos0 : 0 ≤ Real.cos a.y := by linarith
  have hPs : Real.sin a.y = Real.sin (Real.arcsin (Real.sin a.y)) := (Real.sin_arcsin (Real.neg_one_le_sin _) (Real.sin_le_one _)).symm
  have hPc : Real.cos a.y = Real.cos (Real.arcsin (Real.sin a.y)) := by
    rw [Real.cos_arcsin, ← Real.abs_cos_eq_sqrt_one_sub_sin_sq, abs_of_nonneg hcos0]
  obtain ⟨i, j, g1, g2, g3, g4, g5, g6⟩ := F.getRPY_near hi q' (Real.neg_pi_div_two_le_arcsin _) (Real.arcsin_le_pi_div_two _) hPc hPs
    (hPc ▸ hc) hc0 h (by linarith) (by linarith) (by linarith) rfl
  obtain ⟨t, htd⟩ : ∃ t : Vec3 ℝ, t = Rot.getRPY (K := Fl F) q' := ⟨_, rfl⟩
  rw [← htd] at g1 g2 g3 g4 g5 g6
  rw [← htd] at hq
  obtain ⟨s, hs⟩ : ∃ s : Vec3 ℝ, s = ⟨a.x + 2 * Real.pi * i, Real.arcsin (Real.sin a.y), a.z + 2 * Real.pi * j⟩ := ⟨_, rfl⟩
  -- the exact rotation
  have hrot : ∀ v, (rpyV (setAng k (s.cmp k + 1 / 10 ^ 7) s)).rotate v = (rpyV (setAng k (a.cmp k + 1 / 10 ^ 7) a)).rotate v := by
    have c1 : ∀ (x d : ℝ) (i : ℤ), Real.cos (x + 2 * Real.pi * i + d) = Real.cos (x + d) := by
      intro x d i
      rw [show x + 2 * Real.pi * i + d = x + d + i * (2 * Real.pi) by ring, Real.cos_add_int_mul_two_pi]
    have s1 : ∀ (x d : ℝ) (i : ℤ), Real.sin (x + 2 * Real.pi * i + d) = Real.sin (x + d) := by
      intro x d i
      rw [show x + 2 * Real.pi * i + d = x + d + i * (2 * Real.pi) by ring, Real.sin_add_int_mul_two_pi]
    have c2 : ∀ (x : ℝ) (i : ℤ), Real.cos (x + 2 * Real.pi * i) = Real.cos x := by intro x i; simpa using c1 x 0 i
    have s2 : ∀ (x : ℝ) (i : ℤ), Real.sin (x + 2 * Real.pi * i) = Real.sin x := by intro x i; simpa using s1 x 0 i
    have c3 : Real.cos (Real.arcsin (Real.sin a.y) + 1 / 10 ^ 7) = Real.cos (a.y + 1 / 10 ^ 7) := by
      rw [Real.cos_add, Real.cos_add, ← hPc, ← hPs]
    have s3 : Real.sin (Real.arcsin (Real.sin a.y) + 1 / 10 ^ 7) = Real.sin (a.y + 1 / 10 ^ 7) := by
      rw [Real.sin_add, Real.sin_add, ← hPc, ← hPs]
    subst hs
    obtain rfl | rfl | rfl : k = 0 ∨ k = 1 ∨ k = 2 := by omega
    · exact rotate_congr (c1 _ _ _) (s1 _ _ _) hPc.symm hPs.symm (c2 _ _) (s2 _ _)
    · exact rotate_congr (c2 _ _) (s2 _ _) c3 s3 (c2 _ _) (s2 _ _)
    · exact rotate_congr (c2 _ _) (s2 _ _) hPc.symm hPs.symm (c1 _ _ _) (s1 _ _ _)
  refine ⟨_, rpyV_len _, hrot, ?_⟩
  -- the rounded sum
  have heps : |F.lit 1 7 - 1 / 10 ^ 7| ≤ F.u * (1 / 10 ^ 7) := by
    have h1 := F.lit_rounded 1 7 (by norm_num; linarith)
    unfold Rounded at h1
    rw [max_eq_left (by norm_num at ht ⊢; linarith)] at h1
    norm_num at h1 ⊢
    exact h1
  have hadd : ∀ x : ℝ, |x| ≤ 5 → |F.add x (F.lit 1 7) - (x + 1 / 10 ^ 7)| ≤ F.u * 6 ∧ |F.add x (F.lit 1 7)| ≤ 6 := by
    intro x hx
    have hl : |F.lit 1 7| ≤ 1 / 2 := by
      have := abs_sub_abs_le_abs_sub (F.lit 1 7) (1 / 10 ^ 7)
      rw [abs_of_nonneg (by norm_num : (0 : ℝ) ≤ 1 / 10 ^ 7)] at this
      have := F.u_small
      linarith
    have h1 := abs_add_le x (F.lit 1 7)
    have h2 := F.add_near (a := x) (b := F.lit 1 7) (by linarith)
    have h3 : F.u * |x + F.lit 1 7| ≤ F.u * (11 / 2) := mul_le_mul_of_nonneg_left (by linarith) hu0
    have h4 : F.u * F.tiny ≤ F.u * (1 / 10 ^ 8) := mul_le_mul_of_nonneg_left ht hu0
    have h5 := abs_sub_le (F.add x (F.lit 1 7)) (x + F.lit 1 7) (x + 1 / 10 ^ 7)
    rw [add_sub_add_left_eq_sub] at h5
    have h6 : |F.add x (F.lit 1 7) - (x + 1 / 10 ^ 7)| ≤ F.u * 6 := by linarith
    refine ⟨h6, ?_⟩
    have h7 := abs_sub_abs_le_abs_sub (F.add x (F.lit 1 7)) (x + F.lit 1 7)
    have := F.u_small
    linarith
  have hz : ∀ x : ℝ, |x - x| ≤ F.u * 6 := by intro x; rw [sub_self, abs_zero]; linarith
  have hfr : ‖q.quat - (rpyV (setAng k (t.cmp k + 1 / 10 ^ 7) t)).quat‖ ≤ 200 * (F.u * 6) := by
    obtain rfl | rfl | rfl : k = 0 ∨ k = 1 ∨ k = 2 := by omega
    · exact (F.rpy_near (A := 6) (by norm_num) (hadd _ g4).2 (g5.trans (by norm_num)) (g6.trans (by norm_num)) (hadd _ g4).1 (hz _) (hz _)
        (by linarith) (by linarith) (by linarith) hq).1
    · exact (F.rpy_near (A := 6) (by norm_num) (g4.trans (by norm_num)) (hadd _ g5).2 (g6.trans (by norm_num)) (hz _) (hadd _ g5).1 (hz _)
        (by linarith) (by linarith) (by linarith) hq).1
    · exact (F.rpy_near (A := 6) (by norm_num) (g4.trans (by norm_num)) (g5.trans (by norm_num)) (hadd _ g6).2 (hz _) (hz _) (hadd _ g6).1
        (by linarith) (by linarith) (by linarith) hq).1
  have hd := Rot.dist_fromRPY (setAng k (s.cmp k + 1 / 10 ^ 7) s).x (setAng k (s.cmp k + 1 / 10 ^ 7) s).y (setAng k (s.cmp k + 1 / 10 ^ 7) s).z
    (setAng k (t.cmp k + 1 / 10 ^ 7) t).x (setAng k (t.cmp k + 1 / 10 ^ 7) t).y (setAng k (t.cmp k + 1 / 10 ^ 7) t).z
  rw [sum_setAng t s k _ hk, Rot.dist_quat] at hd
  have hsum : |t.x - s.x| + |t.y - s.y| + |t.z - s.z| ≤ 3 * (20 * (ε + 4 * F.u) / c) := by
    subst hs
    simp only
    linarith
  have htri := norm_sub_le_norm_sub_add_norm_sub q.quat (rpyV (setAng k (t.cmp k + 1 / 10 ^ 7) t)).quat
    (rpyV (setAng k (s.cmp k + 1 / 10 ^ 7) s)).quat
  have h1 : 3 * (20 * (ε + 4 * F.u) / c) / 2 ≤ 31 * ε / c := by
    rw [show 3 * (20 * (ε + 4 * F.u) / c) / 2 = 30 * (ε + 4 * F.u) / c by ring]
    exact div_le_div_of_nonneg_right (by linarith) hc1.le
  have h2 : 10 * ε ≤ 10 * ε / c := by
    rw [le_div_iff₀ hc1]
    exact mul_le_of_le_one_right (by linarith) (hc.trans (Real.cos_le_one _))
  have h3 : 31 * ε / c + 10 * ε / c = 41 * ε / c := by ring
  unfold rpyV at *
  linarith

/-! ### the position of the link after turning the base -/

/-- negation by multiplication with `-1` -/
theorem Rounding.neg_vec (v w : Vec3 ℝ) (hw : w = Vec3.inverseInplace (K := Fl F) v) (hb : ‖v.quat‖ ≤ F.big) :
    ‖w.quat + v.quat‖ ≤ 2 * (F.u * (‖v.quat‖ + F.tiny)) := by
  have hn := quat_norm_sq v.quat
  have hv := norm_nonneg v.quat
  have key : ∀ x : ℝ, |x| ≤ ‖v.quat‖ → |F.mul x (-1) + x| ≤ F.u * (‖v.quat‖ + F.tiny) := by
    intro x hx
    have e : |x * -1| = |x| := by rw [abs_mul, abs_neg, abs_one, mul_one]
    have h1 := F.mul_near (a := x) (b := -1) (by rw [e]; linarith)
    rw [e, show F.mul x (-1) - x * -1 = F.mul x (-1) + x by ring] at h1
    have h2 := mul_le_mul_of_nonneg_left hx F.u_nonneg
    linarith
  have hc : |v.x| ≤ ‖v.quat‖ ∧ |v.y| ≤ ‖v.quat‖ ∧ |v.z| ≤ ‖v.quat‖ := by
    simp only [Vec3.quat] at hn hv ⊢
    refine ⟨abs_le_of_sq_le_sq ?_ hv, abs_le_of_sq_le_sq ?_ hv, abs_le_of_sq_le_sq ?_ hv⟩ <;> rw [hn] <;> nlinarith [sq_nonneg v.x, sq_nonneg v.y, sq_nonneg v.z]
  refine quat_norm_le ?_ ?_ ?_ ?_
  · show |(0 : ℝ) + 0| ≤ _
    rw [add_zero, abs_zero]
    exact mul_nonneg F.u_nonneg (by have := F.tiny_nonneg; linarith)
  · rw [hw]; exact key v.x hc.1
  · rw [hw]; exact key v.y hc.2.1
  · rw [hw]; exact key v.z hc.2.2

/-- The rounded position of the link in the frame of the base. -/
theorem Rounding.local_near {ε M : ℝ} (B' E' : Pose ℝ) (q : Rot ℝ) (hq : ‖q.quat‖ = 1) (h : ‖B'.rotation.quat - q.quat‖ ≤ ε)
    (hu : 125 * F.u ≤ ε) (hε : ε ≤ 9 / 10 ^ 6) (ht : F.tiny ≤ 1 / 10 ^ 8) (hM : F.tiny ≤ M) (hE : ‖E'.position.quat‖ ≤ M)
    (hB : ‖B'.position.quat‖ ≤ M) (hb : 100 * (M + 1) ≤ F.big) {l : Vec3 ℝ}
    (hl : l = (Pose.transform (K := Fl F) (Pose.inverse (K := Fl F) B') E').position) :
    ‖l.quat - (q.inverse.rotate (Vec3.sub E'.position B'.position)).quat‖ ≤ 15 * ε * M := by
  have hu0 := F.u_nonneg
  have ht0 := F.tiny_nonneg
  have hε0 : 0 ≤ ε := (norm_nonneg _).trans h
  have hM0 : 0 ≤ M := (norm_nonneg _).trans hE
  obtain ⟨i, hi⟩ : ∃ i : Rot ℝ, i = Rot.inverse (K := Fl F) B'.rotation := ⟨_, rfl⟩
  obtain ⟨n, hn⟩ : ∃ n : Vec3 ℝ, n = Vec3.inverseInplace (K := Fl F) B'.position := ⟨_, rfl⟩
  obtain ⟨x, hx⟩ : ∃ x : Vec3 ℝ, x = Rot.rotate (K := Fl F) i E'.position := ⟨_, rfl⟩
  obtain ⟨y, hy⟩ : ∃ y : Vec3 ℝ, y = Rot.rotate (K := Fl F) i n := ⟨_, rfl⟩
  have hl' : l = Vec3.add (K := Fl F) x y := by rw [hl, hx, hy, hn, hi]; rfl
  have i1 := F.inverse_near B'.rotation q i hq h (by linarith) le_rfl hu (by linarith) (by linarith) hi
  have hqi : ‖q.inverse.quat‖ = 1 := by rw [Rot.quat_inverse, norm_inv, hq, inv_one]
  rw [← Rot.quat_inverse] at i1
  have n1 := F.neg_vec B'.position n hn (by linarith)
  have uM : F.u * (‖B'.position.quat‖ + F.tiny) ≤ F.u * (2 * M) := mul_le_mul_of_nonneg_left (by linarith) hu0
  have uM' : F.u * (2 * M) ≤ 2 / 125 * ε * M := by nlinarith
  have εM : ε * M ≤ 9 / 10 ^ 6 * M := mul_le_mul_of_nonneg_right hε hM0
  have εt : ε * F.tiny ≤ ε * M := mul_le_mul_of_nonneg_left hM hε0
  have n2 : ‖n.quat‖ ≤ 1001 / 1000 * M := by
    have e : n.quat = (n.quat + B'.position.quat) - B'.position.quat := by abel
    have := norm_sub_le (n.quat + B'.position.quat) B'.position.quat
    rw [← e] at this
    linarith
  have x1 := F.rotate_by i q.inverse E'.position x hqi i1 (by linarith) (by linarith) (by linarith) (by linarith) hx
  have y1 := F.rotate_by i q.inverse n y hqi i1 (by linarith) (by linarith) (by linarith) (by linarith) hy
  have xl := Rot.rotate_len hqi E'.position
  have yl := Rot.rotate_len hqi n
  have εE : ε * ‖E'.position.quat‖ ≤ ε * M := mul_le_mul_of_nonneg_left hE hε0
  have εn : ε * ‖n.quat‖ ≤ ε * (1001 / 1000 * M) := mul_le_mul_of_nonneg_left n2 hε0
  have hp : 0 < ‖q.inverse.quat‖ := by rw [hqi]; norm_num
  have xn : ‖x.quat‖ ≤ 11 / 10 * M := by
    have := norm_le_near x1
    linarith
  have yn : ‖y.quat‖ ≤ 11 / 10 * M := by
    have := norm_le_near y1
    linarith
  have hxy := norm_add_le x.quat y.quat
  have a1 := F.add_vec x y (by linarith)
  rw [← hl'] at a1
  have uxy : F.u * ‖x.quat + y.quat‖ ≤ F.u * (22 / 10 * M) := mul_le_mul_of_nonneg_left (by linarith) hu0
  have ut : F.u * F.tiny ≤ F.u * M := mul_le_mul_of_nonneg_left hM hu0
  -- the exact vector
  have hex : (q.inverse.rotate (Vec3.sub E'.position B'.position)).quat = (q.inverse.rotate E'.position).quat -
      (q.inverse.rotate B'.position).quat := by
    rw [Rot.quat_rotate _ hp, Rot.quat_rotate _ hp, Rot.quat_rotate _ hp, Vec3.quat_sub, mul_sub, sub_mul]
  have hyn : ‖(q.inverse.rotate n).quat + (q.inverse.rotate B'.position).quat‖ = ‖n.quat + B'.position.quat‖ := by
    rw [Rot.quat_rotate _ hp, Rot.quat_rotate _ hp, ← add_mul, ← mul_add, norm_mul, norm_mul, norm_inv, hqi]; simp
  rw [hex]
  have e : l.quat - ((q.inverse.rotate E'.position).quat - (q.inverse.rotate B'.position).quat) = (l.quat - (x.quat + y.quat)) +
      (x.quat - (q.inverse.rotate E'.position).quat) + (y.quat - (q.inverse.rotate n).quat) +
      ((q.inverse.rotate n).quat + (q.inverse.rotate B'.position).quat) := by abel
  rw [e]
  have k1 := norm_add_le ((l.quat - (x.quat + y.quat)) + (x.quat - (q.inverse.rotate E'.position).quat) + (y.quat - (q.inverse.rotate n).quat))
      ((q.inverse.rotate n).quat + (q.inverse.rotate B'.position).quat)
  have k2 := norm_add_le ((l.quat - (x.quat + y.quat)) + (x.quat - (q.inverse.rotate E'.position).quat)) (y.quat - (q.inverse.rotate n).quat)
  have k3 := norm_add_le (l.quat - (x.quat + y.quat)) (x.quat - (q.inverse.rotate E'.position).quat)
  have εM0 : 0 ≤ ε * M := mul_nonneg hε0 hM0
  have z1 : 15 * ε * M = 15 * (ε * M) := by ring
  have z2 : 2 / 125 * ε * M = 2 / 125 * (ε * M) := by ring
  linarith

/-- The rounded displacement of the link when the base turns. -/
theorem Rounding.shift_near {ε c M : ℝ} (B' E' : Pose ℝ) (q p p' : Rot ℝ) (hq : ‖q.quat‖ = 1) (h : ‖B'.rotation.quat - q.quat‖ ≤ ε)
    (hp : ‖p.quat‖ = 1) (hp' : ‖p'.quat - p.quat‖ ≤ 41 * ε / c) (hc0 : 1 / 50 ≤ c) (hc1 : c ≤ 1)
    (hu : 125 * F.u ≤ ε) (hε : ε ≤ 9 / 10 ^ 6) (ht : F.tiny ≤ 1 / 10 ^ 8) (hM : F.tiny ≤ M) (hE : ‖E'.position.quat‖ ≤ M)
    (hB : ‖B'.position.quat‖ ≤ M) (hb : 100 * (M + 1) ≤ F.big) {l d : Vec3 ℝ}
    (hl : l = (Pose.transform (K := Fl F) (Pose.inverse (K := Fl F) B') E').position)
    (hd : d = Vec3.sub (K := Fl F) (Vec3.add (K := Fl F) (Rot.rotate (K := Fl F) p' l) B'.position) E'.position) :
    ‖d.quat - ((p.rotate (q.inverse.rotate (Vec3.sub E'.position B'.position))).quat - (E'.position.quat - B'.position.quat))‖ ≤
      344 * (ε / c * M) ∧ ‖d.quat‖ ≤ 5 * M := by
  have hu0 := F.u_nonneg
  have ht0 := F.tiny_nonneg
  have hε0 : 0 ≤ ε := (norm_nonneg _).trans h
  have hM0 : 0 ≤ M := (norm_nonneg _).trans hE
  have hcp : 0 < c := by linarith
  obtain ⟨β, hβ⟩ : ∃ β, β = ε / c := ⟨_, rfl⟩
  have hβε : ε ≤ β := by rw [hβ, le_div_iff₀ hcp]; exact mul_le_of_le_one_right hε0 hc1
  have hβ1 : β ≤ 45 / 10 ^ 5 := by
    rw [hβ, div_le_iff₀ hcp]
    linarith
  have e41 : 41 * ε / c = 41 * β := by rw [hβ]; ring
  rw [e41] at hp'
  rw [← hβ]
  have l1 := F.local_near B' E' q hq h hu hε ht hM hE hB hb hl
  have hqi : ‖q.inverse.quat‖ = 1 := by rw [Rot.quat_inverse, norm_inv, hq, inv_one]
  have vl := Rot.rotate_len hqi (Vec3.sub E'.position B'.position)
  generalize q.inverse.rotate (Vec3.sub E'.position B'.position) = v at *
  have vs : ‖(Vec3.sub E'.position B'.position).quat‖ ≤ 2 * M := by
    rw [Vec3.quat_sub]
    have := norm_sub_le E'.position.quat B'.position.quat
    linarith
  obtain ⟨w, hw⟩ : ∃ w : Vec3 ℝ, w = Rot.rotate (K := Fl F) p' l := ⟨_, rfl⟩
  obtain ⟨o, ho⟩ : ∃ o : Vec3 ℝ, o = Vec3.add (K := Fl F) w B'.position := ⟨_, rfl⟩
  have hd' : d = Vec3.sub (K := Fl F) o E'.position := by rw [hd, ho, hw]
  have εM : ε * M ≤ β * M := mul_le_mul_of_nonneg_right hβε hM0
  have βM : β * M ≤ 45 / 10 ^ 5 * M := mul_le_mul_of_nonneg_right hβ1 hM0
  have εMs : ε * M ≤ 9 / 10 ^ 6 * M := mul_le_mul_of_nonneg_right hε hM0
  have z1 : 15 * ε * M = 15 * (ε * M) := by ring
  have β0 : 0 ≤ β := by linarith
  have βM0 : 0 ≤ β * M := mul_nonneg β0 hM0
  have ln : ‖l.quat‖ ≤ 2001 / 1000 * M := by
    have := norm_le_near l1
    linarith
  have w1 := F.rotate_by p' p l w hp hp' (by linarith) (by linarith) (by linarith) (by linarith) hw
  have w2 := Rot.rotate_diff hp l v
  have βl : β * ‖l.quat‖ ≤ β * (2001 / 1000 * M) := mul_le_mul_of_nonneg_left ln β0
  have βt : β * F.tiny ≤ β * M := mul_le_mul_of_nonneg_left hM β0
  have w3 : ‖w.quat - (p.rotate v).quat‖ ≤ 34365 / 100 * (β * M) := by
    have := norm_sub_le_norm_sub_add_norm_sub w.quat (p.rotate l).quat (p.rotate v).quat
    linarith
  have pv := Rot.rotate_len hp v
  have wn : ‖w.quat‖ ≤ 22 / 10 * M := by
    have := norm_le_near w3
    linarith
  have uM : F.u * M ≤ 1 / 125 * (β * M) := by nlinarith
  have ut : F.u * F.tiny ≤ F.u * M := mul_le_mul_of_nonneg_left hM hu0
  have hwb := norm_add_le w.quat B'.position.quat
  have o1 := F.add_vec w B'.position (by linarith)
  rw [← ho] at o1
  have o2 : F.u * ‖w.quat + B'.position.quat‖ ≤ F.u * (32 / 10 * M) := mul_le_mul_of_nonneg_left (by linarith) hu0
  have on : ‖o.quat‖ ≤ 33 / 10 * M := by
    have := norm_le_near o1
    linarith
  have hoe := norm_sub_le o.quat E'.position.quat
  have d1 := F.sub_vec o E'.position (by linarith)
  rw [← hd'] at d1
  have d2 : F.u * ‖o.quat - E'.position.quat‖ ≤ F.u * (43 / 10 * M) := mul_le_mul_of_nonneg_left (by linarith) hu0
  constructor
  · have e : d.quat - ((p.rotate v).quat - (E'.position.quat - B'.position.quat)) = (d.quat - (o.quat - E'.position.quat)) +
        (o.quat - (w.quat + B'.position.quat)) + (w.quat - (p.rotate v).quat) := by abel
    rw [e]
    have k1 := norm_add_le ((d.quat - (o.quat - E'.position.quat)) + (o.quat - (w.quat + B'.position.quat))) (w.quat - (p.rotate v).quat)
    have k2 := norm_add_le (d.quat - (o.quat - E'.position.quat)) (o.quat - (w.quat + B'.position.quat))
    linarith
  · have := norm_le_near d1
    linarith

/-- division by `eps` -/
theorem Rounding.quot_near {N x : ℝ} (hx : |x| ≤ N) (ht : F.tiny ≤ 1 / 10 ^ 8) (hb : 10 ^ 8 * (N + 1) ≤ F.big) :
    |F.div x (F.lit 1 7) - x * 10 ^ 7| ≤ 3 * 10 ^ 7 * (F.u * (N + F.tiny)) := by
  have hu := F.u_nonneg
  have hu1 := F.u_small
  have ht0 := F.tiny_nonneg
  have hN : 0 ≤ N := (abs_nonneg _).trans hx
  have heps : |F.lit 1 7 - 1 / 10 ^ 7| ≤ F.u * (1 / 10 ^ 7) := by
    have h1 := F.lit_rounded 1 7 (by norm_num; linarith)
    unfold Rounded at h1
    rw [max_eq_left (by norm_num at ht ⊢; linarith)] at h1
    norm_num at h1 ⊢
    exact h1
  generalize F.lit 1 7 = g at *
  obtain ⟨h1, h2⟩ := abs_le.mp heps
  have hg : 999 / 1000 / 10 ^ 7 ≤ g := by linarith
  have hg0 : 0 < g := lt_of_lt_of_le (by norm_num) hg
  have hq : |x / g| ≤ 10011 / 1000 * 10 ^ 6 * N := by
    rw [abs_div, abs_of_pos hg0, div_le_iff₀ hg0]
    have : N * (999 / 1000 / 10 ^ 7) ≤ N * g := mul_le_mul_of_nonneg_left hg hN
    linarith
  have h3 := F.div_rounded hg0.ne' (hq.trans (by linarith))
  unfold Rounded at h3
  have h4 : max |x / g| F.tiny ≤ 10011 / 1000 * 10 ^ 6 * N + F.tiny := max_le (by linarith) (by nlinarith)
  have h5 := mul_le_mul_of_nonneg_left h4 hu
  have h6 : |x / g - x * 10 ^ 7| ≤ 10011 / 1000 * 10 ^ 6 * (F.u * N) := by
    have e : x / g - x * 10 ^ 7 = -(x / g * ((g - 1 / 10 ^ 7) * 10 ^ 7)) := by field_simp; ring
    rw [e, abs_neg, abs_mul, abs_mul, abs_of_pos (by norm_num : (0 : ℝ) < 10 ^ 7)]
    have : |g - 1 / 10 ^ 7| * 10 ^ 7 ≤ F.u := by linarith
    have := mul_le_mul hq this (by positivity) (by positivity)
    linarith
  have h7 := abs_sub_le (F.div x g) (x / g) (x * 10 ^ 7)
  have h8 : 0 ≤ F.u * F.tiny := mul_nonneg hu ht0
  have h9 : 0 ≤ F.u * N := mul_nonneg hu hN
  have h10 : F.u * (10011 / 1000 * 10 ^ 6 * N + F.tiny) = 10011000 * (F.u * N) + F.u * F.tiny := by ring
  have h11 : 3 * 10 ^ 7 * (F.u * (N + F.tiny)) = 30000000 * (F.u * N) + 30000000 * (F.u * F.tiny) := by ring
  rw [h11]
  generalize x * 10 ^ 7 = e at h6 h7 ⊢
  norm_num at h6
  linarith

theorem Vec3.sqrt_len2 (v : Vec3 ℝ) : Real.sqrt v.len2 = ‖v.quat‖ := by
  rw [← Vec3.len_quat]; unfold Vec3.len; congr 1

theorem harm_ang (a v : Vec3 ℝ) {k q : Nat} (hk : k < 3) (hq : q < 3) :
    Harm 1 ‖v.quat‖ fun t => ((rpyV (setAng k t a)).rotate v).cmp q := by
  rw [← Vec3.sqrt_len2]
  obtain rfl | rfl | rfl : k = 0 ∨ k = 1 ∨ k = 2 := by omega
  · exact harm_roll a.y a.z v hq
  · exact harm_pitch a.x a.z v hq
  · exact harm_yaw a.x a.y v hq

/-- the velocity of a point when one of the angles changes -/
theorem speed_ang (a v X : Vec3 ℝ) {k : Nat} (hk : k < 3) {t : ℝ} (h : Vec3.HasDeriv (fun s => (rpyV (setAng k s a)).rotate v) X t) :
    ‖X.quat‖ ≤ 2 * ‖v.quat‖ := by
  have key : ∀ {q : Nat} {D : ℝ}, q < 3 → HasDerivAt (fun s => ((rpyV (setAng k s a)).rotate v).cmp q) D t → |D| ≤ ‖v.quat‖ := by
    intro q D hq hD
    obtain ⟨A, B, C, e, hAB⟩ := harm_ang a v hk hq
    have h1 : HasDerivAt (fun s : ℝ => A * Real.cos (1 * s) + B * Real.sin (1 * s) + C) (A * -Real.sin t + B * Real.cos t) t := by
      simp only [one_mul]
      exact ((((Real.hasDerivAt_cos t).const_mul A).add ((Real.hasDerivAt_sin t).const_mul B)).add_const C)
    rw [show (fun s => ((rpyV (setAng k s a)).rotate v).cmp q) = fun s : ℝ => A * Real.cos (1 * s) + B * Real.sin (1 * s) + C from funext e] at hD
    rw [hD.unique h1]
    apply abs_le_of_sq_le_sq _ (norm_nonneg _)
    have h2 := Real.sin_sq_add_cos_sq t
    nlinarith [sq_nonneg (A * Real.cos t + B * Real.sin t)]
  refine quat_norm_le ?_ (key (q := 0) (by norm_num) h.1) (key (q := 1) (by norm_num) h.2.1) (key (q := 2) (by norm_num) h.2.2)
  show |(0 : ℝ)| ≤ _
  rw [abs_zero]; exact norm_nonneg _

/-- **The rounded column of a base angle**, position rows, against the velocity of the point where the link is thought to be. -/
theorem Rounding.ang_col {ε c M : ℝ} (hi : InverseTrig F) (B' E' : Pose ℝ) (a : Vec3 ℝ) (h : ‖B'.rotation.quat - (rpyV a).quat‖ ≤ ε)
    (hc : c ≤ Real.cos a.y) (hc0 : 1 / 50 ≤ c) (hu : 125 * F.u ≤ ε) (hε : ε ≤ 9 / 10 ^ 6) (ht : F.tiny ≤ 1 / 10 ^ 8) (hM : F.tiny ≤ M)
    (hE : ‖E'.position.quat‖ ≤ M) (hB : ‖B'.position.quat‖ ≤ M) (hb : 10 ^ 9 * (M + 1) ≤ F.big) (rt : RotType) {k : Nat} (hk : k < 3)
    {col : Nat → ℝ} (hcol : ∀ r, col r = baseRotCol (K := Fl F) rt E' B' k r) :
    ∃ X : Vec3 ℝ, Vec3.HasDeriv (fun s => (rpyV (setAng k s a)).rotate ((rpyV a).inverse.rotate (Vec3.sub E'.position B'.position))) X (a.cmp k) ∧
      Vec3.dist ⟨col 0, col 1, col 2⟩ X ≤ (35 * 10 ^ 8 * (ε / c) + 2 / 10 ^ 7) * M := by
  have hu0 := F.u_nonneg
  have ht0 := F.tiny_nonneg
  have hε0 : 0 ≤ ε := (norm_nonneg _).trans h
  have hM0 : 0 ≤ M := (norm_nonneg _).trans hE
  have hc1 : c ≤ 1 := hc.trans (Real.cos_le_one _)
  have hcp : 0 < c := by linarith
  obtain ⟨p', hp'⟩ : ∃ p' : Rot ℝ, p' = Rot.fromRPY (K := Fl F) (tweak (K := Fl F) (Rot.getRPY (K := Fl F) B'.rotation) k).x
    (tweak (K := Fl F) (Rot.getRPY (K := Fl F) B'.rotation) k).y (tweak (K := Fl F) (Rot.getRPY (K := Fl F) B'.rotation) k).z := ⟨_, rfl⟩
  obtain ⟨p, p1, p2, p3⟩ := F.tweak_near hi B'.rotation a h hc hc0 hu hε (by linarith) ht hk hp'
  obtain ⟨l, hl⟩ : ∃ l : Vec3 ℝ, l = (Pose.transform (K := Fl F) (Pose.inverse (K := Fl F) B') E').position := ⟨_, rfl⟩
  obtain ⟨d, hd⟩ : ∃ d : Vec3 ℝ, d = Vec3.sub (K := Fl F) (Vec3.add (K := Fl F) (Rot.rotate (K := Fl F) p' l) B'.position) E'.position := ⟨_, rfl⟩
  obtain ⟨d1, d2⟩ := F.shift_near B' E' (rpyV a) p p' (rpyV_len a) h p1 p3 hc0 hc1 hu hε ht hM hE hB (by linarith) hl hd
  rw [p2] at d1
  have hvl : ‖((rpyV a).inverse.rotate (Vec3.sub E'.position B'.position)).quat‖ ≤ 2 * M := by
    rw [Rot.rotate_len (by rw [Rot.quat_inverse, norm_inv, rpyV_len, inv_one]), Vec3.quat_sub]
    have := norm_sub_le E'.position.quat B'.position.quat
    linarith
  have hback : ((rpyV a).rotate ((rpyV a).inverse.rotate (Vec3.sub E'.position B'.position))).quat = E'.position.quat - B'.position.quat := by
    have hq : 0 < ‖(rpyV a).quat‖ := by rw [rpyV_len]; norm_num
    have hq0 : (rpyV a).quat ≠ 0 := norm_pos_iff.mp hq
    have hqi : 0 < ‖(rpyV a).inverse.quat‖ := by rw [Rot.quat_inverse, norm_inv, rpyV_len, inv_one]; norm_num
    rw [Rot.quat_rotate _ hq, Rot.quat_rotate _ hqi, Rot.quat_inverse, inv_inv, Vec3.quat_sub]
    simp only [← mul_assoc]
    rw [mul_inv_cancel₀ hq0, one_mul, mul_assoc, mul_inv_cancel₀ hq0, mul_one]
  generalize (rpyV a).inverse.rotate (Vec3.sub E'.position B'.position) = v at *
  -- the derivative and the forward difference
  have hfwd : ∀ q, q < 3 → ∃ D, HasDerivAt (fun t => ((rpyV (setAng k t a)).rotate v).cmp q) D (a.cmp k) ∧
      |(((rpyV (setAng k (a.cmp k + 1 / 10 ^ 7) a)).rotate v).cmp q - ((rpyV a).rotate v).cmp q) * 10 ^ 7 - D| ≤ 1 / 10 ^ 7 * M := by
    intro q hq
    obtain ⟨D, h1, h2⟩ := (harm_ang a v hk hq).fwd (by norm_num) (norm_nonneg _) (a.cmp k) (h := 1 / 10 ^ 7) (by norm_num)
    refine ⟨D, h1, ?_⟩
    simp only [setAng_self k hk a] at h2
    rw [show ∀ x : ℝ, x * 10 ^ 7 = x / (1 / 10 ^ 7) by intro x; field_simp]
    refine h2.trans ?_
    have := mul_le_mul_of_nonneg_right hvl (by norm_num : (0 : ℝ) ≤ 1 / 10 ^ 7 / 2)
    linarith
  obtain ⟨D0, f0, g0⟩ := hfwd 0 (by norm_num)
  obtain ⟨D1, f1, g1⟩ := hfwd 1 (by norm_num)
  obtain ⟨D2, f2, g2⟩ := hfwd 2 (by norm_num)
  refine ⟨⟨D0, D1, D2⟩, ⟨f0, f1, f2⟩, ?_⟩
  -- the division
  have hdc : |d.x| ≤ 5 * M ∧ |d.y| ≤ 5 * M ∧ |d.z| ≤ 5 * M := by
    have hn := quat_norm_sq d.quat
    have h5 : ‖d.quat‖ ^ 2 ≤ (5 * M) ^ 2 := pow_le_pow_left₀ (norm_nonneg _) d2 2
    simp only [Vec3.quat] at hn h5
    refine ⟨abs_le_of_sq_le_sq ?_ (by linarith), abs_le_of_sq_le_sq ?_ (by linarith), abs_le_of_sq_le_sq ?_ (by linarith)⟩ <;>
      nlinarith [sq_nonneg d.x, sq_nonneg d.y, sq_nonneg d.z]
  have hquot : ∀ x : ℝ, |x| ≤ 5 * M → |F.div x (F.lit 1 7) - x * 10 ^ 7| ≤ 18 * 10 ^ 7 * (F.u * M) := by
    intro x hx
    have h1 := F.quot_near hx ht (by linarith)
    have h2 : F.u * (5 * M + F.tiny) ≤ F.u * (6 * M) := mul_le_mul_of_nonneg_left (by linarith) hu0
    refine h1.trans ?_
    have := mul_le_mul_of_nonneg_left h2 (by norm_num : (0 : ℝ) ≤ 3 * 10 ^ 7)
    linarith
  have c0 : col 0 = F.div d.x (F.lit 1 7) := by rw [hcol, hd, hl, hp']; rfl
  have c1 : col 1 = F.div d.y (F.lit 1 7) := by rw [hcol, hd, hl, hp']; rfl
  have c2 : col 2 = F.div d.z (F.lit 1 7) := by rw [hcol, hd, hl, hp']; rfl
  rw [c0, c1, c2, Vec3.dist_quat]
  have q0 := hquot _ hdc.1
  have q1 := hquot _ hdc.2.1
  have q2 := hquot _ hdc.2.2
  generalize F.div d.x (F.lit 1 7) = y0 at *
  generalize F.div d.y (F.lit 1 7) = y1 at *
  generalize F.div d.z (F.lit 1 7) = y2 at *
  rw [← hback] at d1
  generalize (rpyV (setAng k (a.cmp k + 1 / 10 ^ 7) a)).rotate v = G at *
  generalize (rpyV a).rotate v = H at *
  obtain ⟨V, hV⟩ : ∃ V : Vec3 ℝ, V = ⟨y0 - d.x * 10 ^ 7, y1 - d.y * 10 ^ 7, y2 - d.z * 10 ^ 7⟩ := ⟨_, rfl⟩
  obtain ⟨W, hW⟩ : ∃ W : Vec3 ℝ, W = ⟨(G.x - H.x) * 10 ^ 7 - D0, (G.y - H.y) * 10 ^ 7 - D1, (G.z - H.z) * 10 ^ 7 - D2⟩ := ⟨_, rfl⟩
  obtain ⟨S, hS⟩ : ∃ S : ℍ[ℝ], S = (10 ^ 7 : ℝ) • (d.quat - (G.quat - H.quat)) := ⟨_, rfl⟩
  have e : (⟨y0, y1, y2⟩ : Vec3 ℝ).quat - (⟨D0, D1, D2⟩ : Vec3 ℝ).quat = V.quat + S + W.quat := by
    rw [hV, hW, hS]
    ext <;> simp <;> ring
  rw [e]
  have k1 := norm_add_le (V.quat + S) W.quat
  have k2 := norm_add_le V.quat S
  have k3 : ‖V.quat‖ ≤ 2 * (18 * 10 ^ 7 * (F.u * M)) := by
    rw [hV]
    exact quat_norm_le (by show |(0 : ℝ)| ≤ _; rw [abs_zero]; positivity) q0 q1 q2
  have k4 : ‖W.quat‖ ≤ 2 * (1 / 10 ^ 7 * M) := by
    rw [hW]
    exact quat_norm_le (by show |(0 : ℝ)| ≤ _; rw [abs_zero]; positivity) g0 g1 g2
  have k5 : ‖S‖ ≤ 10 ^ 7 * (344 * (ε / c * M)) := by
    rw [hS, norm_smul, Real.norm_of_nonneg (by norm_num : (0 : ℝ) ≤ 10 ^ 7)]
    exact mul_le_mul_of_nonneg_left d1 (by norm_num)
  have hβ : ε ≤ ε / c := by rw [le_div_iff₀ hcp]; exact mul_le_of_le_one_right hε0 hc1
  have k6 : F.u * M ≤ 1 / 125 * (ε / c * M) := by
    have := mul_le_mul_of_nonneg_right (show F.u ≤ 1 / 125 * (ε / c) by linarith) hM0
    linarith
  have z : (35 * 10 ^ 8 * (ε / c) + 2 / 10 ^ 7) * M = 35 * 10 ^ 8 * (ε / c * M) + 2 / 10 ^ 7 * M := by ring
  rw [z]
  have k7 : 0 ≤ ε / c * M := mul_nonneg (div_nonneg hε0 hcp.le) hM0
  generalize ε / c * M = w at *
  generalize F.u * M = x at *
  linarith

end Tinyfk
