import Verif.Proofs.RoundDist
import Verif.Proofs.RoundCol
import Verif.Spec.Deriv

/-!
# Rounding errors of the gradient of a squared distance
-/

namespace Tinyfk

open Quaternion

section
variable {F : Rounding}

/-- the scalar product -/
noncomputable def Vec3.dotR (a b : Vec3 ℝ) : ℝ := a.x * b.x + a.y * b.y + a.z * b.z

theorem Vec3.abs_dot (a b : Vec3 ℝ) : |a.x * b.x| + |a.y * b.y| + |a.z * b.z| ≤ ‖a.quat‖ * ‖b.quat‖ := by
  have ha := quat_norm_sq a.quat
  have hb := quat_norm_sq b.quat
  have := cauchy4 a.quat b.quat (a0 := 0) (a1 := a.x) (a2 := a.y) (a3 := a.z) (b0 := 0) (b1 := b.x) (b2 := b.y) (b3 := b.z)
    ha.symm hb.symm
  simpa using this

theorem Vec3.dotR_le (a b : Vec3 ℝ) : |Vec3.dotR a b| ≤ ‖a.quat‖ * ‖b.quat‖ := by
  have h := Vec3.abs_dot a b
  have h1 := abs_add_le (a.x * b.x + a.y * b.y) (a.z * b.z)
  have h2 := abs_add_le (a.x * b.x) (a.y * b.y)
  unfold Vec3.dotR
  linarith

/-- The rounded scalar product. -/
theorem Rounding.dot3_near (a b : Vec3 ℝ) (r : ℝ) (hb : 2 * (‖a.quat‖ * ‖b.quat‖ + F.tiny) ≤ F.big)
    (hr : r = F.add (F.add (F.mul a.x b.x) (F.mul a.y b.y)) (F.mul a.z b.z)) :
    |r - Vec3.dotR a b| ≤ 5 * F.u * (‖a.quat‖ * ‖b.quat‖) + 8 * F.u * F.tiny := by
  have hu := F.u_nonneg
  have ht := F.tiny_nonneg
  have hN := Vec3.abs_dot a b
  have n1 := abs_nonneg (a.x * b.x)
  have n2 := abs_nonneg (a.y * b.y)
  have n3 := abs_nonneg (a.z * b.z)
  have g := sum4_near (t := F.tiny) (p4 := 0) (t4 := 0) (s2 := F.add (F.mul a.x b.x) (F.mul a.y b.y)) (s3 := r) (s4 := r) hu F.u_small ht (big := F.big)
    (F.mul_near (a := a.x) (b := b.x) (by linarith)) (F.mul_near (a := a.y) (b := b.y) (by linarith))
    (F.mul_near (a := a.z) (b := b.z) (by linarith)) (by simpa using mul_nonneg hu ht)
    (by rw [abs_zero]; linarith)
    (fun h => (F.add_rounded h).le hu ht) (fun h => by rw [hr]; exact (F.add_rounded h).le hu ht)
    (fun _ => by simp only [add_zero, sub_self, abs_zero]; positivity)
  rw [abs_zero, add_zero, add_zero] at g
  refine g.trans ?_
  have := mul_le_mul_of_nonneg_left hN (show 0 ≤ 5 * F.u by linarith)
  linarith

theorem Rounding.two_near (hb : 2 ≤ F.big) (ht : F.tiny ≤ 2) : |F.lit 2 0 - 2| ≤ 2 * F.u := by
  have e : ((2 : Int) : ℝ) / 10 ^ 0 = 2 := by norm_num
  have := F.lit_rounded 2 0 (by rw [e, abs_of_pos] <;> linarith)
  unfold Rounded at this
  rw [e, abs_of_pos (by norm_num : (0 : ℝ) < 2), max_eq_left ht] at this
  linarith

/-- twice a number, rounded -/
theorem Rounding.twice_near {w : ℝ} (hb : 2 ≤ F.big) (ht2 : F.tiny ≤ 2) (hw : 3 * |w| ≤ F.big) :
    |F.mul (F.lit 2 0) w - 2 * w| ≤ 5 * F.u * |w| + F.u * F.tiny := by
  have hu := F.u_nonneg
  have hu1 := F.u_small
  have h2 := F.two_near hb ht2
  have w0 := abs_nonneg w
  have uw0 : 0 ≤ F.u * |w| := mul_nonneg hu w0
  have hl : |F.lit 2 0| ≤ 21 / 10 := by
    have := abs_add_le (F.lit 2 0 - 2) 2
    rw [sub_add_cancel, abs_of_pos (show (0 : ℝ) < 2 by norm_num)] at this
    linarith
  have hp : |F.lit 2 0 * w| ≤ 21 / 10 * |w| := by
    rw [abs_mul]; exact mul_le_mul_of_nonneg_right hl w0
  have h1 := F.mul_near (a := F.lit 2 0) (b := w) (by linarith)
  have h3 : |F.lit 2 0 * w - 2 * w| ≤ 2 * F.u * |w| := by
    rw [← sub_mul, abs_mul]; exact mul_le_mul_of_nonneg_right h2 w0
  have h4 := abs_sub_le (F.mul (F.lit 2 0) w) (F.lit 2 0 * w) (2 * w)
  have h5 := mul_le_mul_of_nonneg_left hp hu
  linarith

theorem grad_arith {u t C V E D c e z dd P g : ℝ} (hu : 0 ≤ u) (hu1 : u ≤ 1 / 1000) (ht : 0 ≤ t) (hC : 0 ≤ C) (hV : 0 ≤ V) (hE : 0 ≤ E) (hD : 0 ≤ D)
    (hEs : 500 * (u * (D + t)) ≤ E) (hCs : 500 * (u * t) ≤ C)
    (hc : c = 2 * C + 8 * (u * (V + C)) + 15 * (u * t)) (he : e = E + u * (D + E) + 2 * (u * t))
    (hd0 : 0 ≤ dd) (hz : z ≤ 2 * V + c) (hd : dd ≤ D + e)
    (hg : |g - P| ≤ 5 * u * (z * dd) + 8 * u * t + c * dd + 2 * V * e) :
    |g - P| ≤ 3 * ((V + C) * E + C * D) + 8 * u * t := by
  have uC : u * C ≤ 1 / 1000 * C := mul_le_mul_of_nonneg_right hu1 hC
  have uE : u * E ≤ 1 / 1000 * E := mul_le_mul_of_nonneg_right hu1 hE
  have uV : u * V ≤ 1 / 1000 * V := mul_le_mul_of_nonneg_right hu1 hV
  have ut0 : 0 ≤ u * t := by positivity
  have uD0 : 0 ≤ u * D := by positivity
  have uV0 : 0 ≤ u * V := by positivity
  have hdd : dd ≤ D + 1006 / 1000 * E := by rw [he] at hd; linarith
  have hee : e ≤ 1006 / 1000 * E := by rw [he]; linarith
  have hcc : c ≤ 2040 / 1000 * C + 8 * (u * V) := by rw [hc]; linarith
  have hzz : z ≤ 2008 / 1000 * V + 2040 / 1000 * C := by linarith
  have k1 : z * dd ≤ (2008 / 1000 * V + 2040 / 1000 * C) * (D + 1006 / 1000 * E) := mul_le_mul hzz hdd hd0 (by linarith)
  have k2 : c * dd ≤ (2040 / 1000 * C + 8 * (u * V)) * (D + 1006 / 1000 * E) := mul_le_mul hcc hdd hd0 (by linarith)
  have k3 : V * e ≤ V * (1006 / 1000 * E) := mul_le_mul_of_nonneg_left hee hV
  have k4 : u * (z * dd) ≤ u * ((2008 / 1000 * V + 2040 / 1000 * C) * (D + 1006 / 1000 * E)) := mul_le_mul_of_nonneg_left k1 hu
  have uDE : u * D ≤ 1 / 500 * E := by linarith
  have k5 : u * D * V ≤ 1 / 500 * E * V := mul_le_mul_of_nonneg_right uDE hV
  have k6 : u * D * C ≤ 1 / 500 * E * C := mul_le_mul_of_nonneg_right uDE hC
  have k7 : u * E * V ≤ 1 / 1000 * E * V := mul_le_mul_of_nonneg_right uE hV
  have k8 : u * E * C ≤ 1 / 1000 * E * C := mul_le_mul_of_nonneg_right uE hC
  have p1 : 0 ≤ C * D := by positivity
  have p2 : 0 ≤ V * E := by positivity
  have p3 : 0 ≤ C * E := by positivity
  refine hg.trans ?_
  have e1 : u * ((2008 / 1000 * V + 2040 / 1000 * C) * (D + 1006 / 1000 * E)) =
      2008 / 1000 * (u * D * V) + 2040 / 1000 * (u * D * C) + 2008 / 1000 * (1006 / 1000) * (u * E * V) + 2040 / 1000 * (1006 / 1000) * (u * E * C) := by ring
  have e2 : (2040 / 1000 * C + 8 * (u * V)) * (D + 1006 / 1000 * E) =
      2040 / 1000 * (C * D) + 2040 / 1000 * (1006 / 1000) * (C * E) + 8 * (u * D * V) + 8 * (1006 / 1000) * (u * E * V) := by ring
  rw [e1] at k4
  rw [e2] at k2
  have e3 : (1 / 500 : ℝ) * E * V = 1 / 500 * (V * E) := by ring
  have e4 : (1 / 500 : ℝ) * E * C = 1 / 500 * (C * E) := by ring
  have e5 : (1 / 1000 : ℝ) * E * V = 1 / 1000 * (V * E) := by ring
  have e6 : (1 / 1000 : ℝ) * E * C = 1 / 1000 * (C * E) := by ring
  have e7 : V * (1006 / 1000 * E) = 1006 / 1000 * (V * E) := by ring
  rw [e3] at k5; rw [e4] at k6; rw [e5] at k7; rw [e6] at k8; rw [e7] at k3
  have e8 : 3 * ((V + C) * E + C * D) = 3 * (V * E) + 3 * (C * E) + 3 * (C * D) := by ring
  rw [e8]
  linarith

/-- the rounded difference of two inexact vectors -/
theorem Rounding.diff_near (a' b' g : Vec3 ℝ) {a b : Vec3 ℝ} {e : ℝ} (hab : Vec3.dist a' a + Vec3.dist b' b ≤ e) (hb : Vec3.dist a b + e ≤ F.big)
    (hx : g.x = F.sub a'.x b'.x) (hy : g.y = F.sub a'.y b'.y) (hz : g.z = F.sub a'.z b'.z) :
    ‖g.quat - (a.quat - b.quat)‖ ≤ e + F.u * (Vec3.dist a b + e) + 2 * (F.u * F.tiny) := by
  have hu := F.u_nonneg
  simp only [Vec3.dist_quat] at hab hb ⊢
  have h1 : ‖a'.quat - b'.quat - (a.quat - b.quat)‖ ≤ e := by
    rw [show a'.quat - b'.quat - (a.quat - b.quat) = (a'.quat - a.quat) - (b'.quat - b.quat) by abel]
    exact (norm_sub_le _ _).trans hab
  have h2 : ‖a'.quat - b'.quat‖ ≤ ‖a.quat - b.quat‖ + e := norm_le_near h1
  have h3 := F.sub_vec_aux a' b' g hx hy hz (h2.trans hb)
  have h4 := norm_add_le (g.quat - (a'.quat - b'.quat)) (a'.quat - b'.quat - (a.quat - b.quat))
  rw [sub_add_sub_cancel] at h4
  have h5 := mul_le_mul_of_nonneg_left h2 hu
  linarith

/-- The rounded entry of the gradient: `X'`, `Y'` are the computed columns of the two Jacobians, `a'`, `b'` the computed positions. -/
theorem grad_near (X' Y' a' b' : Vec3 ℝ) {X Y a b : Vec3 ℝ} {C E g : ℝ} (hXY : Vec3.dist X' X + Vec3.dist Y' Y ≤ C)
    (hab : Vec3.dist a' a + Vec3.dist b' b ≤ E) (hEs : 500 * (F.u * (Vec3.dist a b + F.tiny)) ≤ E) (hCs : 500 * (F.u * F.tiny) ≤ C)
    (ht2 : F.tiny ≤ 1) (hb : 12 * (Vec3.dist X Y + C + 1) * (Vec3.dist a b + E + 1) ≤ F.big)
    (hg : g = F.add (F.add (F.mul (F.mul (F.lit 2 0) (F.sub X'.x Y'.x)) (F.sub a'.x b'.x))
      (F.mul (F.mul (F.lit 2 0) (F.sub X'.y Y'.y)) (F.sub a'.y b'.y))) (F.mul (F.mul (F.lit 2 0) (F.sub X'.z Y'.z)) (F.sub a'.z b'.z))) :
    |g - 2 * ((X.x - Y.x) * (a.x - b.x) + (X.y - Y.y) * (a.y - b.y) + (X.z - Y.z) * (a.z - b.z))| ≤
      3 * ((Vec3.dist X Y + C) * E + C * Vec3.dist a b) + 8 * F.u * F.tiny := by
  have hu := F.u_nonneg
  have hu1 := F.u_small
  have ht := F.tiny_nonneg
  obtain ⟨V, hV⟩ : ∃ V, V = Vec3.dist X Y := ⟨_, rfl⟩
  obtain ⟨D, hD⟩ : ∃ D, D = Vec3.dist a b := ⟨_, rfl⟩
  have hV0 : 0 ≤ V := by rw [hV]; exact Real.sqrt_nonneg _
  have hD0 : 0 ≤ D := by rw [hD]; exact Real.sqrt_nonneg _
  have hC0 : 0 ≤ C := le_trans (add_nonneg (Real.sqrt_nonneg _) (Real.sqrt_nonneg _)) hXY
  have hE0 : 0 ≤ E := le_trans (add_nonneg (Real.sqrt_nonneg _) (Real.sqrt_nonneg _)) hab
  rw [← hV, ← hD] at hb
  have q1 : 1 * 1 ≤ (V + C + 1) * (D + E + 1) := mul_le_mul (by linarith) (by linarith) (by norm_num) (by linarith)
  have q2 : (V + C + 1) * 1 ≤ (V + C + 1) * (D + E + 1) := mul_le_mul_of_nonneg_left (by linarith) (by linarith)
  have q3 : 1 * (D + E + 1) ≤ (V + C + 1) * (D + E + 1) := mul_le_mul_of_nonneg_right (by linarith) (by linarith)
  have uVC : F.u * (V + C) ≤ 1 / 1000 * (V + C) := mul_le_mul_of_nonneg_right hu1 (by linarith)
  have uDE : F.u * (D + E) ≤ 1 / 1000 * (D + E) := mul_le_mul_of_nonneg_right hu1 (by linarith)
  have utt : F.u * F.tiny ≤ 1 / 1000 * F.tiny := mul_le_mul_of_nonneg_right hu1 ht
  have ut0 : 0 ≤ F.u * F.tiny := mul_nonneg hu ht
  have uVC0 : 0 ≤ F.u * (V + C) := mul_nonneg hu (by linarith)
  have uDE0 : 0 ≤ F.u * (D + E) := mul_nonneg hu (by linarith)
  obtain ⟨w, hw⟩ : ∃ w : Vec3 ℝ, w = ⟨F.sub X'.x Y'.x, F.sub X'.y Y'.y, F.sub X'.z Y'.z⟩ := ⟨_, rfl⟩
  obtain ⟨d, hd⟩ : ∃ d : Vec3 ℝ, d = ⟨F.sub a'.x b'.x, F.sub a'.y b'.y, F.sub a'.z b'.z⟩ := ⟨_, rfl⟩
  obtain ⟨z, hz⟩ : ∃ z : Vec3 ℝ, z = ⟨F.mul (F.lit 2 0) w.x, F.mul (F.lit 2 0) w.y, F.mul (F.lit 2 0) w.z⟩ := ⟨_, rfl⟩
  have hwn := F.diff_near X' Y' w hXY (by rw [← hV]; linarith) (by rw [hw]) (by rw [hw]) (by rw [hw])
  have hdn := F.diff_near a' b' d hab (by rw [← hD]; linarith) (by rw [hd]) (by rw [hd]) (by rw [hd])
  rw [← hV] at hwn
  rw [← hD] at hdn
  have hVq : ‖X.quat - Y.quat‖ = V := by rw [hV, Vec3.dist_quat]
  have hDq : ‖a.quat - b.quat‖ = D := by rw [hD, Vec3.dist_quat]
  have hwl := norm_le_near hwn
  have hdl := norm_le_near hdn
  rw [hVq] at hwl
  rw [hDq] at hdl
  obtain ⟨wx, wy, wz⟩ := w.abs_le
  have hz2 : ‖z.quat - (2 : ℝ) • w.quat‖ ≤ 5 * F.u * ‖w.quat‖ + 2 * (F.u * F.tiny) := by
    have hw3 : 3 * ‖w.quat‖ ≤ F.big := by linarith
    refine quat_norm_rel (c := 5 * F.u) (d := F.u * F.tiny) (by linarith) ut0 ?_ ?_ ?_ ?_
    · show |(0 : ℝ) - 2 * 0| ≤ 5 * F.u * |(0 : ℝ)| + F.u * F.tiny
      simpa using ut0
    · show |z.x - 2 * w.x| ≤ 5 * F.u * |w.x| + F.u * F.tiny
      rw [hz]
      exact F.twice_near (by linarith) (by linarith) (by linarith)
    · show |z.y - 2 * w.y| ≤ 5 * F.u * |w.y| + F.u * F.tiny
      rw [hz]
      exact F.twice_near (by linarith) (by linarith) (by linarith)
    · show |z.z - 2 * w.z| ≤ 5 * F.u * |w.z| + F.u * F.tiny
      rw [hz]
      exact F.twice_near (by linarith) (by linarith) (by linarith)
  obtain ⟨c, hc⟩ : ∃ c, c = 2 * C + 8 * (F.u * (V + C)) + 15 * (F.u * F.tiny) + 0 := ⟨_, rfl⟩
  rw [add_zero] at hc
  obtain ⟨e, he⟩ : ∃ e, e = E + F.u * (D + E) + 2 * (F.u * F.tiny) := ⟨_, rfl⟩
  obtain ⟨v, hv⟩ : ∃ v : Vec3 ℝ, v = ⟨X.x - Y.x, X.y - Y.y, X.z - Y.z⟩ := ⟨_, rfl⟩
  obtain ⟨δ, hδ⟩ : ∃ δ : Vec3 ℝ, δ = ⟨a.x - b.x, a.y - b.y, a.z - b.z⟩ := ⟨_, rfl⟩
  have hvq : v.quat = X.quat - Y.quat := by rw [hv]; exact Vec3.quat_sub X Y
  have hδq : δ.quat = a.quat - b.quat := by rw [hδ]; exact Vec3.quat_sub a b
  rw [← hvq] at hwn hVq
  rw [← hδq] at hdn hDq
  rw [← he] at hdn hdl
  have hzv : ‖z.quat - (2 : ℝ) • v.quat‖ ≤ c := by
    have h1 := norm_add_le (z.quat - (2 : ℝ) • w.quat) ((2 : ℝ) • (w.quat - v.quat))
    rw [show z.quat - (2 : ℝ) • w.quat + (2 : ℝ) • (w.quat - v.quat) = z.quat - (2 : ℝ) • v.quat by rw [smul_sub]; abel, norm_smul,
      Real.norm_of_nonneg (by norm_num : (0 : ℝ) ≤ 2)] at h1
    have h2 := mul_le_mul_of_nonneg_left hwl (show 0 ≤ 5 * F.u by linarith)
    have h3 : F.u * (F.u * (V + C)) ≤ 1 / 1000 * (F.u * (V + C)) := mul_le_mul_of_nonneg_right hu1 uVC0
    have h4 : F.u * (F.u * F.tiny) ≤ 1 / 1000 * (F.u * F.tiny) := mul_le_mul_of_nonneg_right hu1 ut0
    rw [hc]
    linarith
  have hzl : ‖z.quat‖ ≤ 2 * V + c := by
    have := norm_le_near hzv
    rwa [norm_smul, Real.norm_of_nonneg (by norm_num : (0 : ℝ) ≤ 2), hVq] at this
  have z0 := norm_nonneg z.quat
  have d0 := norm_nonneg d.quat
  have hzd : ‖z.quat‖ * ‖d.quat‖ ≤ (3 * (V + C + 1)) * (11 / 10 * (D + E + 1)) :=
    mul_le_mul (by rw [hc] at hzl; linarith) (by rw [he] at hdl; linarith) d0 (by linarith)
  have hdot := F.dot3_near z d g (by linarith) (by rw [hg, hz, hd, hw])
  let y : Vec3 ℝ := ⟨z.x - 2 * v.x, z.y - 2 * v.y, z.z - 2 * v.z⟩
  have hy : y.quat = z.quat - (2 : ℝ) • v.quat := by
    ext
    · show (0 : ℝ) = 0 - 2 * 0; ring
    · rfl
    · rfl
    · rfl
  let f : Vec3 ℝ := ⟨d.x - δ.x, d.y - δ.y, d.z - δ.z⟩
  have hf : f.quat = d.quat - δ.quat := Vec3.quat_sub d δ
  have k1 := Vec3.dotR_le y d
  have k2 := Vec3.dotR_le v f
  rw [hy] at k1
  rw [hf, hVq] at k2
  have k3 : ‖z.quat - (2 : ℝ) • v.quat‖ * ‖d.quat‖ ≤ c * ‖d.quat‖ := mul_le_mul_of_nonneg_right hzv d0
  have k4 : V * ‖d.quat - δ.quat‖ ≤ V * e := mul_le_mul_of_nonneg_left hdn hV0
  rw [← hV, ← hD]
  rw [← hD] at hEs
  refine grad_arith hu hu1 ht hC0 hV0 hE0 hD0 hEs hCs hc he d0 hzl hdl ?_
  have ex : g - 2 * ((X.x - Y.x) * (a.x - b.x) + (X.y - Y.y) * (a.y - b.y) + (X.z - Y.z) * (a.z - b.z)) =
      (g - Vec3.dotR z d) + (Vec3.dotR y d + 2 * Vec3.dotR v f) := by
    simp only [Vec3.dotR, y, f, hv, hδ]
    ring
  rw [ex]
  have k5 := abs_add_le (g - Vec3.dotR z d) (Vec3.dotR y d + 2 * Vec3.dotR v f)
  have k6 := abs_add_le (Vec3.dotR y d) (2 * Vec3.dotR v f)
  rw [abs_mul, abs_of_pos (by norm_num : (0 : ℝ) < 2)] at k6
  linarith

end
end Tinyfk
