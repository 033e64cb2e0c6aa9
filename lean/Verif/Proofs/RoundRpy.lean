import Verif.Proofs.RoundEdge
import Verif.Proofs.FwdDiff

/-!
# Rounding errors of a rotation given by roll, pitch and yaw
-/

namespace Tinyfk

open Quaternion

section
variable (F : Rounding)

/-- half an angle, by division -/
theorem Rounding.half_div {θ A : ℝ} (hA : 1 ≤ A) (hθ : |θ| ≤ A) (hb : 2 * A ≤ F.big) (ht : F.tiny ≤ 1 / 2) :
    |F.div θ (F.lit 2 0) - θ / 2| ≤ 2 * F.u * A := by
  have hu := F.u_nonneg
  have hu1 := F.u_small
  have htn := F.tiny_nonneg
  have e : ((2 : Int) : ℝ) / 10 ^ 0 = 2 := by norm_num
  have h0 := F.lit_rounded 2 0 (by rw [e, abs_of_pos] <;> linarith)
  unfold Rounded at h0
  rw [e, show |(2 : ℝ)| = 2 by norm_num, max_eq_left (by linarith)] at h0
  obtain ⟨c, hc⟩ : ∃ c, c = F.lit 2 0 := ⟨_, rfl⟩
  rw [← hc] at h0 ⊢
  have h1 := abs_le.mp h0
  have hc0 : 199 / 100 ≤ c := by linarith
  have hcp : 0 < c := by linarith
  have h2 : |θ / c - θ / 2| ≤ 11 / 10 * (F.u * A) * (1 / 2) * (1001 / 1000) := by
    rw [show θ / c - θ / 2 = θ * ((2 - c) / (2 * c)) by field_simp, abs_mul]
    have h3 : |(2 - c) / (2 * c)| ≤ F.u * (1 / 2) * (1001 / 1000) * (11 / 10) := by
      rw [abs_div, abs_of_pos (show 0 < 2 * c by linarith), div_le_iff₀ (by linarith), abs_sub_comm]
      nlinarith
    calc |θ| * _ ≤ A * (F.u * (1 / 2) * (1001 / 1000) * (11 / 10)) := mul_le_mul hθ h3 (abs_nonneg _) (by linarith)
      _ = _ := by ring
  have h4 : |θ / c| ≤ A * (3 / 5) := by
    rw [abs_div, abs_of_pos hcp, div_le_iff₀ hcp]
    nlinarith
  have h5 := F.div_near (a := θ) (b := c) hcp.ne' (by linarith)
  have h6 := abs_add_le (F.div θ c - θ / c) (θ / c - θ / 2)
  rw [sub_add_sub_cancel] at h6
  have h7 := mul_le_mul_of_nonneg_left h4 hu
  have h8 := mul_le_mul_of_nonneg_left ht hu
  have h9 := mul_le_mul_of_nonneg_left hA hu
  linarith

theorem Rounding.sin_half_div {θ' θ A : ℝ} (hA : 1 ≤ A) (hθ : |θ'| ≤ A) (hd : |θ' - θ| ≤ F.u * A) (hb : 2 * A ≤ F.big) (ht : F.tiny ≤ 1 / 2) :
    |F.sin (F.div θ' (F.lit 2 0)) - Real.sin (θ / 2)| ≤ 4 * (F.u * A) := by
  have hu := F.u_nonneg
  have h1 := F.half_div hA hθ hb ht
  have h2 : |F.sin (F.div θ' (F.lit 2 0)) - Real.sin (F.div θ' (F.lit 2 0))| ≤ F.u * 1 :=
    (F.sin_rounded _).trans (mul_le_mul_of_nonneg_left (max_le (Real.abs_sin_le_one _) (by linarith)) hu)
  have h3 := abs_sin_sub_le (F.div θ' (F.lit 2 0)) (θ / 2)
  have h4 := abs_add_le (F.sin (F.div θ' (F.lit 2 0)) - Real.sin (F.div θ' (F.lit 2 0))) (Real.sin (F.div θ' (F.lit 2 0)) - Real.sin (θ / 2))
  rw [sub_add_sub_cancel] at h4
  have h5 := abs_add_le (F.div θ' (F.lit 2 0) - θ' / 2) (θ' / 2 - θ / 2)
  rw [sub_add_sub_cancel, show θ' / 2 - θ / 2 = (θ' - θ) / 2 by ring, abs_div, abs_two] at h5
  have h7 := mul_le_mul_of_nonneg_left hA hu
  linarith

theorem Rounding.cos_half_div {θ' θ A : ℝ} (hA : 1 ≤ A) (hθ : |θ'| ≤ A) (hd : |θ' - θ| ≤ F.u * A) (hb : 2 * A ≤ F.big) (ht : F.tiny ≤ 1 / 2) :
    |F.cos (F.div θ' (F.lit 2 0)) - Real.cos (θ / 2)| ≤ 4 * (F.u * A) := by
  have hu := F.u_nonneg
  have h1 := F.half_div hA hθ hb ht
  have h2 : |F.cos (F.div θ' (F.lit 2 0)) - Real.cos (F.div θ' (F.lit 2 0))| ≤ F.u * 1 :=
    (F.cos_rounded _).trans (mul_le_mul_of_nonneg_left (max_le (Real.abs_cos_le_one _) (by linarith)) hu)
  have h3 := abs_cos_sub_le (F.div θ' (F.lit 2 0)) (θ / 2)
  have h4 := abs_add_le (F.cos (F.div θ' (F.lit 2 0)) - Real.cos (F.div θ' (F.lit 2 0))) (Real.cos (F.div θ' (F.lit 2 0)) - Real.cos (θ / 2))
  rw [sub_add_sub_cancel] at h4
  have h5 := abs_add_le (F.div θ' (F.lit 2 0) - θ' / 2) (θ' / 2 - θ / 2)
  rw [sub_add_sub_cancel, show θ' / 2 - θ / 2 = (θ' - θ) / 2 by ring, abs_div, abs_two] at h5
  have h7 := mul_le_mul_of_nonneg_left hA hu
  linarith

/-- a product of numbers of size at most one -/
theorem Rounding.mul_unit {η c d x y x' y' : ℝ} (hu : F.u ≤ η) (hη : η ≤ 1 / 5000) (hc : 0 ≤ c) (hd : 0 ≤ d) (hc8 : c ≤ 10) (hd8 : d ≤ 10)
    (hx : |x' - x| ≤ c * η) (hy : |y' - y| ≤ d * η) (hx1 : |x| ≤ 1) (hy1 : |y| ≤ 1) (hb : 2 ≤ F.big) (ht : F.tiny ≤ 1 / 2) :
    |F.mul x' y' - x * y| ≤ (c + d + 2) * η ∧ |x * y| ≤ 1 := by
  have h0 := F.u_nonneg
  have hη0 := h0.trans hu
  have hxy : |x * y| ≤ 1 := by rw [abs_mul]; exact mul_le_one₀ hx1 (abs_nonneg _) hy1
  have e : |x' * y' - x * y| ≤ (c + d + 1 / 50) * η := by
    rw [show x' * y' - x * y = (x' - x) * (y' - y) + (x' - x) * y + x * (y' - y) by ring]
    refine (abs_add_three _ _ _).trans ?_
    rw [abs_mul, abs_mul, abs_mul]
    have a1 : |x' - x| * |y' - y| ≤ (c * η) * (d * η) := mul_le_mul hx hy (abs_nonneg _) (by positivity)
    have a2 : |x' - x| * |y| ≤ (c * η) * 1 := mul_le_mul hx hy1 (abs_nonneg _) (by positivity)
    have a3 : |x| * |y' - y| ≤ 1 * (d * η) := mul_le_mul hx1 hy (abs_nonneg _) (by norm_num)
    have a4 : (c * η) * (d * η) ≤ 1 / 50 * η := by
      have : c * d ≤ 100 := by nlinarith
      have : c * d * η ≤ 100 * (1 / 5000) := mul_le_mul this hη hη0 (by norm_num)
      nlinarith
    linarith
  have e2 : (c + d + 1 / 50) * η ≤ 1 / 100 := by nlinarith
  have e3 : |x' * y'| ≤ 101 / 100 := by
    have := abs_add_le (x' * y' - x * y) (x * y)
    rw [sub_add_cancel] at this
    linarith
  have h5 := F.mul_near (a := x') (b := y') (by linarith)
  have h6 := abs_add_le (F.mul x' y' - x' * y') (x' * y' - x * y)
  rw [sub_add_sub_cancel] at h6
  have h7 := mul_le_mul_of_nonneg_left e3 h0
  have h8 := mul_le_mul_of_nonneg_left ht h0
  exact ⟨by linarith, hxy⟩

theorem Rounding.mul3_unit {η x y z x' y' z' : ℝ} (hu : F.u ≤ η) (hη : η ≤ 1 / 5000)
    (hx : |x' - x| ≤ 4 * η) (hy : |y' - y| ≤ 4 * η) (hz : |z' - z| ≤ 4 * η) (hx1 : |x| ≤ 1) (hy1 : |y| ≤ 1) (hz1 : |z| ≤ 1)
    (hb : 2 ≤ F.big) (ht : F.tiny ≤ 1 / 2) : |F.mul (F.mul x' y') z' - x * y * z| ≤ 16 * η ∧ |x * y * z| ≤ 1 := by
  obtain ⟨h1, h2⟩ := F.mul_unit hu hη (by norm_num) (by norm_num) (by norm_num) (by norm_num) hx hy hx1 hy1 hb ht
  obtain ⟨h3, h4⟩ := F.mul_unit (c := 4 + 4 + 2) hu hη (by norm_num) (by norm_num) (by norm_num) (by norm_num) h1 hz h2 hz1 hb ht
  exact ⟨by linarith, h4⟩

theorem Rounding.add_unit {η x y x' y' : ℝ} (hu : F.u ≤ η) (hη : η ≤ 1 / 5000) (hx : |x' - x| ≤ 16 * η) (hy : |y' - y| ≤ 16 * η)
    (hx1 : |x| ≤ 1) (hy1 : |y| ≤ 1) (hb : 4 ≤ F.big) (ht : F.tiny ≤ 1 / 2) :
    |F.add x' y' - (x + y)| ≤ 35 * η ∧ |F.sub x' y' - (x - y)| ≤ 35 * η := by
  have h0 := F.u_nonneg
  have hη0 := h0.trans hu
  have n1 : |x'| ≤ 101 / 100 := by
    have := abs_add_le (x' - x) x
    rw [sub_add_cancel] at this
    linarith
  have n2 : |y'| ≤ 101 / 100 := by
    have := abs_add_le (y' - y) y
    rw [sub_add_cancel] at this
    linarith
  have s1 : |x' + y'| ≤ 101 / 50 := (abs_add_le _ _).trans (by linarith)
  have s2 : |x' - y'| ≤ 101 / 50 := (abs_sub _ _).trans (by linarith)
  have h8 := mul_le_mul_of_nonneg_left ht h0
  constructor
  · have h5 := F.add_near (a := x') (b := y') (by linarith)
    have h6 := abs_add_three (F.add x' y' - (x' + y')) (x' - x) (y' - y)
    rw [show F.add x' y' - (x' + y') + (x' - x) + (y' - y) = F.add x' y' - (x + y) by ring] at h6
    have h7 := mul_le_mul_of_nonneg_left s1 h0
    linarith
  · have h5 := F.sub_near (a := x') (b := y') (by linarith)
    have h6 := abs_add_three (F.sub x' y' - (x' - y')) (x' - x) (-(y' - y))
    rw [show F.sub x' y' - (x' - y') + (x' - x) + -(y' - y) = F.sub x' y' - (x - y) by ring, abs_neg] at h6
    have h7 := mul_le_mul_of_nonneg_left s2 h0
    linarith

/-- the rounded length of a quaternion of length about one -/
theorem Rounding.norm_unit {η r n s : ℝ} (hu : F.u ≤ η) (hη : η ≤ 1 / 5000) (hr : |r - 1| ≤ 70 * η) (hn : |n - r ^ 2| ≤ 5 * F.u * r ^ 2 + 8 * F.u * F.tiny)
    (hs : s = F.sqrt n) (hb : 4 ≤ F.big) (ht : F.tiny ≤ 1 / 2) : |s - 1| ≤ 84 * η ∧ 9 / 10 ≤ s := by
  have h0 := F.u_nonneg
  have hη0 := h0.trans hu
  obtain ⟨r1, r2⟩ := abs_le.mp hr
  have rl : 98 / 100 ≤ r := by linarith
  have rh : r ≤ 102 / 100 := by linarith
  have h8 := mul_le_mul_of_nonneg_left ht h0
  have r22 : r ^ 2 ≤ 105 / 100 := by nlinarith
  have hn2 : |n - r ^ 2| ≤ 10 * F.u := hn.trans (by nlinarith)
  obtain ⟨n1, n2⟩ := abs_le.mp hn2
  have hn0 : 0 ≤ n := by nlinarith
  have q0 := Real.sqrt_nonneg n
  have qs := Real.sq_sqrt hn0
  have hq : |√n - r| ≤ 11 * F.u := by
    have e : (√n - r) * (√n + r) = n - r ^ 2 := by nlinarith
    have e2 : |√n - r| * (√n + r) ≤ 10 * F.u := by
      rw [← abs_of_nonneg (show 0 ≤ √n + r by linarith), ← abs_mul, e]; exact hn2
    have a0 := abs_nonneg (√n - r)
    nlinarith
  obtain ⟨q1, q2⟩ := abs_le.mp hq
  have hq3 : √n ≤ 103 / 100 := by linarith
  have h := (F.sqrt_rounded hn0 (by linarith)).le h0 F.tiny_nonneg
  rw [abs_of_nonneg q0, ← hs] at h
  have h7 := mul_le_mul_of_nonneg_left hq3 h0
  have h3 := abs_add_three (s - √n) (√n - r) (r - 1)
  rw [show s - √n + (√n - r) + (r - 1) = s - 1 by ring] at h3
  have k : |s - 1| ≤ 84 * η := by linarith
  exact ⟨k, by linarith [(abs_le.mp k).1]⟩

/-- The rounded normalisation of a quaternion of length about one. -/
theorem Rounding.normalize_unit {η : ℝ} {q q' : Rot ℝ} (hu : F.u ≤ η) (hη : η ≤ 1 / 5000) (hq : ‖q.quat‖ = 1)
    (h : ‖q'.quat - q.quat‖ ≤ 70 * η) (hb : 4 ≤ F.big) (ht : F.tiny ≤ 1 / 2) {p : Rot ℝ} (hp : p = Rot.normalize (K := Fl F) q') :
    ‖p.quat - q.quat‖ ≤ 200 * η := by
  have h0 := F.u_nonneg
  have hη0 := h0.trans hu
  have hr : |‖q'.quat‖ - 1| ≤ 70 * η := by rw [← hq]; exact (abs_norm_sub_norm_le _ _).trans h
  obtain ⟨r1, r2⟩ := abs_le.mp hr
  obtain ⟨n, hn⟩ : ∃ n, n = F.add (F.add (F.add (F.mul q'.x q'.x) (F.mul q'.y q'.y)) (F.mul q'.z q'.z)) (F.mul q'.w q'.w) := ⟨_, rfl⟩
  obtain ⟨s, hs⟩ : ∃ s, s = F.sqrt n := ⟨_, rfl⟩
  have sq : ‖q'.quat‖ ^ 2 = q'.w ^ 2 + q'.x ^ 2 + q'.y ^ 2 + q'.z ^ 2 := quat_norm_sq _
  have sqb : ‖q'.quat‖ ^ 2 ≤ 105 / 100 := by nlinarith
  have hn2 : |n - ‖q'.quat‖ ^ 2| ≤ 5 * F.u * ‖q'.quat‖ ^ 2 + 8 * F.u * F.tiny := by
    have hw := F.dot4 (s2 := true) (s3 := true) (s4 := true) (r := n) (N := ‖q'.quat‖ ^ 2)
      (a0 := q'.x) (a1 := q'.y) (a2 := q'.z) (a3 := q'.w) (b0 := q'.x) (b1 := q'.y) (b2 := q'.z) (b3 := q'.w)
      (by rw [pow_two]; exact cauchy4 q'.quat q'.quat (by rw [sq]; ring) (by rw [sq]; ring)) (by linarith) hn
    convert hw using 2
    rw [sq]
    simp
    ring
  obtain ⟨s1, s2⟩ := F.norm_unit hu hη hr hn2 hs hb ht
  have sp : 0 < s := by linarith
  have hpe : p = ⟨F.div q'.x s, F.div q'.y s, F.div q'.z s, F.div q'.w s⟩ := by
    rw [hp]
    have e : Scalar.eq (K := Fl F) (Scalar.sqrt (K := Fl F) (n : ℝ)) (0 : Fl F) = false := by
      show @decide (F.sqrt n = (0 : ℝ)) (Classical.dec _) = false
      rw [← hs]
      simpa using sp.ne'
    unfold Rot.normalize
    show (if Scalar.eq (K := Fl F) (Scalar.sqrt (K := Fl F) (F.add (F.add (F.add (F.mul q'.x q'.x) (F.mul q'.y q'.y)) (F.mul q'.z q'.z)) (F.mul q'.w q'.w))) (0 : Fl F) then _ else _) = _
    rw [← hn, e]
    rw [hs, hn]
    rfl
  have nrm : ‖q'.quat‖ ≤ 102 / 100 := by linarith
  have cmp : ∀ x : ℝ, |x| ≤ ‖q'.quat‖ → |F.div x s - x / s| ≤ F.u * |x / s| + F.u * F.tiny := by
    intro x hx
    refine F.div_near sp.ne' ?_
    rw [abs_div, abs_of_pos sp, div_le_iff₀ sp]
    nlinarith
  have c0 := norm_nonneg q'.quat
  have cx : |q'.x| ≤ ‖q'.quat‖ := abs_le_of_sq_le_sq (by rw [sq]; nlinarith) c0
  have cy : |q'.y| ≤ ‖q'.quat‖ := abs_le_of_sq_le_sq (by rw [sq]; nlinarith) c0
  have cz : |q'.z| ≤ ‖q'.quat‖ := abs_le_of_sq_le_sq (by rw [sq]; nlinarith) c0
  have cw : |q'.w| ≤ ‖q'.quat‖ := abs_le_of_sq_le_sq (by rw [sq]; nlinarith) c0
  have d1 := quat_norm_rel (a := s⁻¹ • q'.quat) (e := p.quat - s⁻¹ • q'.quat) (c := F.u) (d := F.u * F.tiny) h0 (mul_nonneg h0 F.tiny_nonneg)
    (by have := cmp _ cw; rw [hpe]; simpa [div_eq_inv_mul] using this)
    (by have := cmp _ cx; rw [hpe]; simpa [div_eq_inv_mul] using this)
    (by have := cmp _ cy; rw [hpe]; simpa [div_eq_inv_mul] using this)
    (by have := cmp _ cz; rw [hpe]; simpa [div_eq_inv_mul] using this)
  have si : s⁻¹ ≤ 10 / 9 := by
    rw [inv_le_comm₀ sp (by norm_num)]; linarith
  have si0 : 0 < s⁻¹ := by positivity
  rw [norm_smul, Real.norm_eq_abs, abs_of_pos si0] at d1
  have d2 : s⁻¹ * ‖q'.quat‖ ≤ 10 / 9 * (102 / 100) := mul_le_mul si nrm c0 (by norm_num)
  have d3 := mul_le_mul_of_nonneg_left d2 h0
  have d4 := mul_le_mul_of_nonneg_left ht h0
  have d5 : ‖s⁻¹ • q'.quat - q'.quat‖ ≤ 100 * η := by
    rw [show s⁻¹ • q'.quat - q'.quat = (s⁻¹ - 1) • q'.quat by rw [sub_smul, one_smul], norm_smul, Real.norm_eq_abs,
      show s⁻¹ - 1 = (1 - s) * s⁻¹ by field_simp, abs_mul, abs_of_pos si0, abs_sub_comm]
    have e1 : |s - 1| * s⁻¹ ≤ 84 * η * (10 / 9) := mul_le_mul s1 si si0.le (by positivity)
    have e2 : |s - 1| * s⁻¹ * ‖q'.quat‖ ≤ 84 * η * (10 / 9) * (102 / 100) := mul_le_mul e1 nrm c0 (by positivity)
    linarith
  have tri : ‖p.quat - q.quat‖ ≤ ‖p.quat - s⁻¹ • q'.quat‖ + ‖s⁻¹ • q'.quat - q'.quat‖ + ‖q'.quat - q.quat‖ := by
    have := norm_add₃_le (a := p.quat - s⁻¹ • q'.quat) (b := s⁻¹ • q'.quat - q'.quat) (c := q'.quat - q.quat)
    rwa [show p.quat - s⁻¹ • q'.quat + (s⁻¹ • q'.quat - q'.quat) + (q'.quat - q.quat) = p.quat - q.quat by abel] at this
  linarith

/-- The rounded rotation of three angles. -/
theorem Rounding.rpy_near {A r p w r' p' w' : ℝ} (hA : 1 ≤ A) (hr : |r'| ≤ A) (hp : |p'| ≤ A) (hw : |w'| ≤ A)
    (dr : |r' - r| ≤ F.u * A) (dp : |p' - p| ≤ F.u * A) (dw : |w' - w| ≤ F.u * A) (hs : 5000 * F.u * A ≤ 1)
    (hb : 2 * A + 4 ≤ F.big) (ht : F.tiny ≤ 1 / 2) {q : Rot ℝ} (hq : q = Rot.fromRPY (K := Fl F) r' p' w') :
    ‖q.quat - (Rot.fromRPY (K := ℝ) r p w).quat‖ ≤ 200 * (F.u * A) ∧ ‖(Rot.fromRPY (K := ℝ) r p w).quat‖ = 1 := by
  have h0 := F.u_nonneg
  have hn : ‖(Rot.fromRPY (K := ℝ) r p w).quat‖ = 1 := by
    have h1 := quat_norm_sq (Rot.fromRPY (K := ℝ) r p w).quat
    obtain ⟨q1, hq1⟩ : ∃ q1, q1 = Rot.fromRPY (K := ℝ) r p w := ⟨_, rfl⟩
    have h2 : q1.w * q1.w + q1.x * q1.x + q1.y * q1.y + q1.z * q1.z = (1 : ℝ) := by rw [hq1]; exact Rot.norm2_fromRPY r p w
    rw [← hq1] at h1
    simp at h1
    have : ‖(Rot.fromRPY (K := ℝ) r p w).quat‖ ^ 2 = 1 := by rw [← hq1, h1, ← h2]; ring
    have g := norm_nonneg (Rot.fromRPY (K := ℝ) r p w).quat
    nlinarith
  refine ⟨?_, hn⟩
  have hu : F.u ≤ F.u * A := le_mul_of_one_le_right h0 hA
  have hη : F.u * A ≤ 1 / 5000 := by linarith
  have b2 : 2 * A ≤ F.big := by linarith
  have s1 := F.sin_half_div hA hr dr b2 ht
  have s2 := F.sin_half_div hA hp dp b2 ht
  have s3 := F.sin_half_div hA hw dw b2 ht
  have c1 := F.cos_half_div hA hr dr b2 ht
  have c2 := F.cos_half_div hA hp dp b2 ht
  have c3 := F.cos_half_div hA hw dw b2 ht
  obtain ⟨S1, hS1⟩ : ∃ x, x = F.sin (F.div r' (F.lit 2 0)) := ⟨_, rfl⟩
  obtain ⟨S2, hS2⟩ : ∃ x, x = F.sin (F.div p' (F.lit 2 0)) := ⟨_, rfl⟩
  obtain ⟨S3, hS3⟩ : ∃ x, x = F.sin (F.div w' (F.lit 2 0)) := ⟨_, rfl⟩
  obtain ⟨C1, hC1⟩ : ∃ x, x = F.cos (F.div r' (F.lit 2 0)) := ⟨_, rfl⟩
  obtain ⟨C2, hC2⟩ : ∃ x, x = F.cos (F.div p' (F.lit 2 0)) := ⟨_, rfl⟩
  obtain ⟨C3, hC3⟩ : ∃ x, x = F.cos (F.div w' (F.lit 2 0)) := ⟨_, rfl⟩
  rw [← hS1] at s1; rw [← hS2] at s2; rw [← hS3] at s3; rw [← hC1] at c1; rw [← hC2] at c2; rw [← hC3] at c3
  have m : ∀ {x y z x' y' z' : ℝ}, |x' - x| ≤ 4 * (F.u * A) → |y' - y| ≤ 4 * (F.u * A) → |z' - z| ≤ 4 * (F.u * A) → |x| ≤ 1 → |y| ≤ 1 → |z| ≤ 1 →
      |F.mul (F.mul x' y') z' - x * y * z| ≤ 16 * (F.u * A) ∧ |x * y * z| ≤ 1 :=
    fun g1 g2 g3 g4 g5 g6 => F.mul3_unit hu hη g1 g2 g3 g4 g5 g6 (by linarith) ht
  have a : ∀ {x y x' y' : ℝ}, |x' - x| ≤ 16 * (F.u * A) ∧ |x| ≤ 1 → |y' - y| ≤ 16 * (F.u * A) ∧ |y| ≤ 1 →
      |F.add x' y' - (x + y)| ≤ 35 * (F.u * A) ∧ |F.sub x' y' - (x - y)| ≤ 35 * (F.u * A) :=
    fun g1 g2 => F.add_unit hu hη g1.1 g2.1 g1.2 g2.2 (by linarith) ht
  have u1 := Real.abs_sin_le_one (r / 2)
  have u2 := Real.abs_sin_le_one (p / 2)
  have u3 := Real.abs_sin_le_one (w / 2)
  have v1 := Real.abs_cos_le_one (r / 2)
  have v2 := Real.abs_cos_le_one (p / 2)
  have v3 := Real.abs_cos_le_one (w / 2)
  have kx := (a (m s1 c2 c3 u1 v2 v3) (m c1 s2 s3 v1 u2 u3)).2
  have ky := (a (m c1 s2 c3 v1 u2 v3) (m s1 c2 s3 u1 v2 u3)).1
  have kz := (a (m c1 c2 s3 v1 v2 u3) (m s1 s2 c3 u1 u2 v3)).2
  have kw := (a (m c1 c2 c3 v1 v2 v3) (m s1 s2 s3 u1 u2 u3)).1
  refine F.normalize_unit (q' := ⟨F.sub (F.mul (F.mul S1 C2) C3) (F.mul (F.mul C1 S2) S3), F.add (F.mul (F.mul C1 S2) C3) (F.mul (F.mul S1 C2) S3),
    F.sub (F.mul (F.mul C1 C2) S3) (F.mul (F.mul S1 S2) C3), F.add (F.mul (F.mul C1 C2) C3) (F.mul (F.mul S1 S2) S3)⟩) hu hη hn ?_ (by linarith) ht
    (by rw [hq, hS1, hS2, hS3, hC1, hC2, hC3]; rfl)
  rw [show 70 * (F.u * A) = 2 * (35 * (F.u * A)) by ring]
  rw [Rot.fromRPY_raw]
  refine quat_norm_le ?_ ?_ ?_ ?_ <;> simp <;> assumption

end

end Tinyfk
