import Verif.Proofs.RoundEdge

/-!
# Rounding errors along the path to a link
-/

namespace Tinyfk

open Quaternion

/-- growth of the relative error -/
theorem pow_growth {κ : ℝ} (hκ : 0 ≤ κ) (m : Nat) (h : m * κ ≤ 1 / 5) : (1 + κ) ^ m - 1 ≤ 5 / 4 * (m * κ) := by
  rcases Nat.eq_zero_or_pos m with rfl | hm
  · simp
  have hk1 : κ ≤ 1 / 5 := by
    have : (1 : ℝ) ≤ m := by exact_mod_cast hm
    nlinarith
  have h1 : 1 + (m : ℝ) * (-κ) ≤ (1 + -κ) ^ m := one_add_mul_le_pow (by linarith) m
  have h2 : (1 + κ) ^ m * (1 + -κ) ^ m ≤ 1 := by
    rw [← mul_pow]
    exact pow_le_one₀ (by nlinarith) (by nlinarith)
  have h3 : 0 < (1 + κ) ^ m := by positivity
  have h4 : (1 + κ) ^ m * (1 - m * κ) ≤ 1 := by
    refine le_trans (mul_le_mul_of_nonneg_left ?_ h3.le) h2
    linarith
  have h0 : 0 ≤ (m : ℝ) * κ := by positivity
  have h5 : (1 + κ) ^ m ≤ 5 / 4 := by nlinarith
  have h6 : (1 + κ) ^ m * (m * κ) ≤ 5 / 4 * (m * κ) := mul_le_mul_of_nonneg_right h5 h0
  linarith

section
variable {F : Rounding} {ε μ A : ℝ}

theorem Small.mono {D : Nat} {L L' : ℝ} (h : Small F ε μ A D L) (hL : L' ≤ L) : Small F ε μ A D L' :=
  ⟨h.acc, h.tiny, h.unit, le_trans (mul_le_mul_of_nonneg_left (by linarith) (by positivity)) h.range⟩

theorem step_arith {u κ α d L ℓ x y t : ℝ} (hu : 0 ≤ u) (hu1 : u ≤ 1 / 1000) (hue : u ≤ ε) (he : 0 ≤ ε) (hκe : 100 * ε ≤ κ) (hα0 : 0 ≤ α)
    (hα4 : α ≤ 1 / 4) (hd0 : 0 ≤ d) (hμ0 : 0 ≤ μ) (hx0 : 0 ≤ x) (hy0 : 0 ≤ y) (hx : x ≤ L) (hy : y ≤ ℓ) (ht0 : 0 ≤ t) (ht : t ≤ μ) :
    (1 + u) * (4 * α * (L + (d + 1) * μ) + (1 + 40 * u) * (100 * ε * (ℓ + μ)) + 3 * α * y) + u * x + 42 * u * y + 90 * u * t ≤
      4 * (α + κ + α * κ) * (L + ℓ + (d + 2) * μ) := by
  have hL0 := hx0.trans hx
  have hℓ0 := hy0.trans hy
  have hκ0 : 0 ≤ κ := by linarith
  have hΛ0 : 0 ≤ L + (d + 1) * μ := by positivity
  have hb1 : 4 * α * (L + (d + 1) * μ) ≤ L + (d + 1) * μ := by nlinarith
  have c1 : α * y ≤ α * ℓ := mul_le_mul_of_nonneg_left hy hα0
  have c2 : u * (α * y) ≤ 1 / 1000 * (α * ℓ) := mul_le_mul hu1 c1 (by positivity) (by norm_num)
  have c3 : u * x ≤ ε * L := mul_le_mul hue hx hx0 he
  have c4 : u * y ≤ ε * ℓ := mul_le_mul hue hy hy0 he
  have c5 : u * t ≤ ε * μ := mul_le_mul hue ht ht0 he
  have c6 : u * (4 * α * (L + (d + 1) * μ)) ≤ ε * (L + (d + 1) * μ) := mul_le_mul hue hb1 (by positivity) he
  have x0 : 0 ≤ ε * (ℓ + μ) := by positivity
  have c7 : u * (ε * (ℓ + μ)) ≤ 1 / 1000 * (ε * (ℓ + μ)) := mul_le_mul_of_nonneg_right hu1 x0
  have c8 : u * (u * (ε * (ℓ + μ))) ≤ 1 / 1000 * (1 / 1000 * (ε * (ℓ + μ))) := mul_le_mul hu1 c7 (by positivity) (by norm_num)
  have r1 : 100 * ε * (L + (d + 1) * μ) ≤ κ * (L + (d + 1) * μ) := mul_le_mul_of_nonneg_right hκe hΛ0
  have r2 : 100 * ε * (ℓ + μ) ≤ κ * (ℓ + μ) := mul_le_mul_of_nonneg_right hκe (by linarith)
  have r3 : 0 ≤ α * κ * (L + ℓ + (d + 2) * μ) := by positivity
  have r4 : 0 ≤ α * μ := by positivity
  have r5 : 0 ≤ ε * (L + (d + 1) * μ) := by positivity
  have r6 : 0 ≤ ε * ((d + 1) * μ) := by positivity
  have r7 : 0 ≤ ε * μ := by positivity
  have r8 : 0 ≤ ε * ℓ := by positivity
  have r9 : 0 ≤ α * ℓ := by positivity
  have rhs : 4 * (α + κ + α * κ) * (L + ℓ + (d + 2) * μ) = 4 * α * (L + (d + 1) * μ) + 4 * (κ * (L + (d + 1) * μ)) + 4 * (α * ℓ) + 4 * (α * μ) +
    4 * (κ * (ℓ + μ)) + 4 * (α * κ * (L + ℓ + (d + 2) * μ)) := by ring
  have lhs : (1 + u) * (4 * α * (L + (d + 1) * μ) + (1 + 40 * u) * (100 * ε * (ℓ + μ)) + 3 * α * y) =
    4 * α * (L + (d + 1) * μ) + u * (4 * α * (L + (d + 1) * μ)) + 100 * (ε * (ℓ + μ)) + 4100 * (u * (ε * (ℓ + μ))) +
      4000 * (u * (u * (ε * (ℓ + μ)))) + 3 * (α * y) + 3 * (u * (α * y)) := by ring
  rw [lhs, rhs]
  linarith

theorem step_range {N L ℓ x y b1 b2 d big : ℝ} (hN16 : 16 ≤ N) (hL0 : 0 ≤ L) (hℓ0 : 0 ≤ ℓ) (hx : x ≤ L) (hy : y ≤ ℓ)
    (hb1 : b1 ≤ L + (d + 1) * μ) (hμ0 : 0 ≤ μ) (hμ1 : μ ≤ 1) (hdN : d + 1 ≤ N) (hee : b2 ≤ 1 / 5 * (ℓ + μ)) (hA : 1 ≤ A)
    (hr : N ^ 3 * (1 + (L + ℓ) + A) ≤ big) : 4 * (N ^ 2 + N * (x + y + b1 + b2) + 1) ≤ big := by
  have hdμ : (d + 1) * μ ≤ N := by nlinarith
  have h1 : x + y + b1 + b2 ≤ 2 * L + 2 * ℓ + N + 1 := by linarith
  have h2 := mul_le_mul_of_nonneg_left h1 (show 0 ≤ N by linarith)
  have h3 : 16 * N ^ 2 * (1 + (L + ℓ) + A) ≤ N ^ 3 * (1 + (L + ℓ) + A) := by
    refine mul_le_mul_of_nonneg_right ?_ (by linarith)
    calc 16 * N ^ 2 ≤ N * N ^ 2 := mul_le_mul_of_nonneg_right hN16 (by positivity)
      _ = N ^ 3 := by ring
  have h4 : N * (L + ℓ) ≤ N ^ 2 * (L + ℓ) := mul_le_mul_of_nonneg_right (by nlinarith) (by linarith)
  have h5 : 0 ≤ N ^ 2 * A := by positivity
  have h6 : N ≤ N ^ 2 := by nlinarith
  have h7 : 0 ≤ N ^ 2 * (L + ℓ) := by positivity
  nlinarith

theorem RawJoint.reach_nonneg (j : RawJoint ℝ) (θ : ℝ) : 0 ≤ j.reach θ := by
  unfold RawJoint.reach Vec3.len
  split <;> positivity

theorem alpha_le {κ : ℝ} {D d : Nat} (hκ : κ = 100 * ε * A) (hκ0 : 0 ≤ κ) (hd : d ≤ D) (hacc : 500 * (D + 1) * ε * A ≤ 1) :
    0 ≤ (1 + κ) ^ (d + 1) - 1 ∧ (1 + κ) ^ (d + 1) - 1 ≤ 1 / 4 := by
  have hdD : (d : ℝ) ≤ D := by exact_mod_cast hd
  refine ⟨by have := one_le_pow₀ (show 1 ≤ 1 + κ by linarith) (n := d + 1); linarith, ?_⟩
  have h1 : ((d + 1 : Nat) : ℝ) * κ ≤ 1 / 5 := by
    push_cast
    have h3 : ((d : ℝ) + 1) * κ ≤ (D + 1) * κ := mul_le_mul_of_nonneg_right (by linarith) hκ0
    have h4 : ((D : ℝ) + 1) * κ = (500 * (D + 1) * ε * A) / 5 := by rw [hκ]; ring
    linarith
  have := pow_growth hκ0 (d + 1) h1
  linarith

theorem size_facts {D d : Nat} {N : ℝ} (hN : N = 4 ^ (D + 2)) (hd : d ≤ D) :
    (64 : ℝ) ^ (D + 2) = N ^ 3 ∧ 16 ≤ N ∧ (d : ℝ) + 1 ≤ N ∧ (4 : ℝ) ^ d * 16 ≤ N ∧ 2 ≤ N * (1 / 2 * (1 / 4) ^ d) := by
  have hNd : (4 : ℝ) ^ d * 16 ≤ N := by
    rw [hN, show (16 : ℝ) = 4 ^ 2 by norm_num, ← pow_add]
    exact pow_le_pow_right₀ (by norm_num) (by omega)
  refine ⟨by rw [hN, ← pow_mul, mul_comm, pow_mul]; norm_num, ?_, ?_, hNd, ?_⟩
  · have : (1 : ℝ) ≤ 4 ^ d := one_le_pow₀ (by norm_num)
    linarith
  · have h1 : d + 1 < 4 ^ (d + 1) := Nat.lt_pow_self (by norm_num)
    have h2 : (4 : ℝ) ^ (d + 1) ≤ 4 ^ (D + 2) := pow_le_pow_right₀ (by norm_num) (by omega)
    have h3 : ((d + 1 : Nat) : ℝ) ≤ ((4 ^ (d + 1) : Nat) : ℝ) := by exact_mod_cast h1.le
    push_cast at h3
    rw [hN]; linarith
  · have h1 : (4 : ℝ) ^ d * (1 / 4) ^ d = 1 := by rw [← mul_pow]; norm_num
    have h2 : (4 : ℝ) ^ d * 16 * (1 / 2 * (1 / 4) ^ d) ≤ N * (1 / 2 * (1 / 4) ^ d) := mul_le_mul_of_nonneg_right hNd (by positivity)
    nlinarith

theorem rot_arith {u : ℝ} (hu : 0 ≤ u) (hu1 : u ≤ 1 / 1000) (hue : u ≤ ε) (hA : 1 ≤ A) :
    (1 + 60 * ε * A) * (1 + 26 * u) ≤ 1 + 100 * ε * A := by
  have he := hu.trans hue
  have e1 : ε ≤ ε * A := le_mul_of_one_le_right he hA
  have m4 : u * (ε * A) ≤ 1 / 1000 * (ε * A) := mul_le_mul_of_nonneg_right hu1 (by positivity)
  nlinarith

/-- one more joint -/
theorem step_near {D d : Nat} {L ℓ : ℝ} {B' E' : Pose (Fl F)} {B E : Pose ℝ} (hue : F.u ≤ ε) (hA : 1 ≤ A) (hd : d ≤ D)
    (hsm : Small F ε μ A D (L + ℓ)) (hL : B.position.len ≤ L) (hℓ : E.position.len ≤ ℓ)
    (hB1 : 1 / 2 * (1 / 4) ^ d ≤ B.rotation.len) (hB2 : B.rotation.len ≤ 2 * 4 ^ d) (hE1 : 1 / 4 ≤ E.rotation.len) (hE2 : E.rotation.len ≤ 4)
    (hB : PoseNear ((1 + 100 * ε * A) ^ (d + 1) - 1) (4 * ((1 + 100 * ε * A) ^ (d + 1) - 1) * (L + (d + 1) * μ)) B' B)
    (hE : PoseNear (60 * ε * A) (100 * ε * (ℓ + μ)) E' E) :
    PoseNear ((1 + 100 * ε * A) ^ (d + 2) - 1) (4 * ((1 + 100 * ε * A) ^ (d + 2) - 1) * (L + ℓ + (d + 2) * μ))
      (Pose.transform (K := Fl F) B' E') (Pose.transform B E) := by
  have hu := F.u_nonneg
  have hu1 := F.u_small
  have htn := F.tiny_nonneg
  have he : 0 ≤ ε := hu.trans hue
  have e1 : ε ≤ ε * A := le_mul_of_one_le_right he hA
  have e0 : 0 ≤ ε * A := by positivity
  have hdD : (d : ℝ) ≤ D := by exact_mod_cast hd
  have hD0 : (0 : ℝ) ≤ D := by positivity
  have hd0 : (0 : ℝ) ≤ d := by positivity
  have es : ε * A ≤ 1 / 500 := by nlinarith [hsm.acc, mul_nonneg hD0 e0]
  have hL0 : 0 ≤ L := (Real.sqrt_nonneg _).trans hL
  have hℓ0 : 0 ≤ ℓ := (Real.sqrt_nonneg _).trans hℓ
  -- the size of the quaternions
  obtain ⟨N, hN⟩ : ∃ N : ℝ, N = 4 ^ (D + 2) := ⟨_, rfl⟩
  obtain ⟨hN3, hN16, hdN, hNd, hNl⟩ := size_facts hN hd
  have htiny := hsm.tiny
  have hrange := hsm.range
  rw [hN3] at htiny hrange
  have hμ1 := hsm.unit
  have hN2 : 1 ≤ N ^ 2 := one_le_pow₀ (by linarith)
  have hμ0 : 0 ≤ μ := le_trans (by positivity) htiny
  have ht2 : F.tiny * N ^ 2 ≤ 1 := by
    have : F.tiny * N ^ 2 ≤ F.tiny * N ^ 3 := mul_le_mul_of_nonneg_left (pow_le_pow_right₀ (by linarith) (by norm_num)) htn
    linarith
  have htN : F.tiny * N ≤ μ := by
    have : F.tiny * N ≤ F.tiny * N ^ 3 := mul_le_mul_of_nonneg_left (by nlinarith) htn
    linarith
  -- the errors
  obtain ⟨κ, hκ⟩ : ∃ κ : ℝ, κ = 100 * ε * A := ⟨_, rfl⟩
  have hκ0 : 0 ≤ κ := by rw [hκ]; positivity
  have hκe : 100 * ε ≤ κ := by rw [hκ]; linarith
  rw [← hκ] at hB ⊢
  obtain ⟨α, hα⟩ : ∃ α : ℝ, α = (1 + κ) ^ (d + 1) - 1 := ⟨_, rfl⟩
  have hα' : (1 + κ) ^ (d + 2) - 1 = α + κ + α * κ := by rw [pow_succ, hα]; ring
  rw [← hα] at hB
  rw [hα']
  obtain ⟨hα0, hα4⟩ : 0 ≤ α ∧ α ≤ 1 / 4 := hα ▸ alpha_le hκ hκ0 hd hsm.acc
  obtain ⟨hBr, hBp⟩ := poseNear_iff.mp hB
  obtain ⟨hEr, hEp⟩ := poseNear_iff.mp hE
  rw [Rot.len_quat] at hB1 hB2 hE1 hE2
  rw [Vec3.len_quat] at hL hℓ
  have tB : Tame N B.rotation.quat :=
    tame_of (l := 1 / 2 * (1 / 4) ^ d) (h := 2 * 4 ^ d) (by positivity) hB1 hB2 (by linarith [show (0:ℝ) < 4 ^ d by positivity]) hNl
  have tE : Tame N E.rotation.quat := tame_of (l := 1 / 4) (by norm_num) hE1 hE2 (by linarith) (by linarith)
  have hΛ0 : 0 ≤ L + (d + 1) * μ := by positivity
  have hb1 : 4 * α * (L + (d + 1) * μ) ≤ L + (d + 1) * μ := by nlinarith
  have hee : 100 * ε * (ℓ + μ) ≤ 1 / 5 * (ℓ + μ) := mul_le_mul_of_nonneg_right (by linarith) (by linarith)
  obtain ⟨k1, k2⟩ := F.transform_pert (A := B) (B := E) B'.real E'.real (a1 := α) (a2 := 60 * ε * A) tB tE hBr hEr hBp hEp hα4
    (by linarith) (by linarith) ht2 (step_range hN16 hL0 hℓ0 hL hℓ hb1 hμ0 hμ1 hdN hee hA hrange)
  refine poseNear_iff.mpr ⟨k1.trans (mul_le_mul_of_nonneg_right ?_ (norm_nonneg _)), k2.trans ?_⟩
  · have m2 := mul_le_mul_of_nonneg_left (rot_arith hu hu1 hue hA) (show 0 ≤ 1 + α by linarith)
    rw [← hκ] at m2
    linarith
  · exact step_arith hu hu1 hue he (by linarith) hα0 hα4 hd0 hμ0 (norm_nonneg _) (norm_nonneg _) hL hℓ (mul_nonneg htn (by linarith)) htN

theorem transform_len (d : Nat) {B E : Pose ℝ} (h1 : 1 / 2 * (1 / 4) ^ d ≤ B.rotation.len) (h2 : B.rotation.len ≤ 2 * 4 ^ d)
    (h3 : 1 / 4 ≤ E.rotation.len) (h4 : E.rotation.len ≤ 4) :
    1 / 2 * (1 / 4) ^ (d + 1) ≤ (Pose.transform B E).rotation.len ∧ (Pose.transform B E).rotation.len ≤ 2 * 4 ^ (d + 1) := by
  rw [Rot.len_quat] at h1 h2 h3 h4
  rw [Rot.len_quat, show (Pose.transform B E).rotation.quat = B.rotation.quat * E.rotation.quat from Rot.quat_mul _ _, norm_mul]
  have p4 : (0 : ℝ) < 4 ^ d := by positivity
  have p5 : (0 : ℝ) < (1 / 4) ^ d := by positivity
  constructor
  · calc 1 / 2 * (1 / 4 : ℝ) ^ (d + 1) = 1 / 2 * (1 / 4) ^ d * (1 / 4) := by ring
      _ ≤ _ := mul_le_mul h1 h3 (by norm_num) (norm_nonneg _)
  · calc _ ≤ 2 * (4 : ℝ) ^ d * 4 := mul_le_mul h2 h4 (norm_nonneg _) (by positivity)
      _ = _ := by ring

theorem transform_pos_len {B E : Pose ℝ} {L ℓ : ℝ} (h1 : 0 < B.rotation.len) (h2 : B.position.len ≤ L) (h3 : E.position.len ≤ ℓ) :
    (Pose.transform B E).position.len ≤ L + ℓ := by
  rw [Rot.len_quat] at h1
  rw [Vec3.len_quat] at h2 h3 ⊢
  rw [show (Pose.transform B E).position.quat = (B.rotation.rotate E.position).quat + B.position.quat from Vec3.quat_add _ _,
    Rot.quat_rotate _ h1]
  refine (norm_add_le _ _).trans ?_
  rw [norm_mul, norm_mul, norm_inv]
  have : ‖B.rotation.quat‖ * ‖E.position.quat‖ * ‖B.rotation.quat‖⁻¹ = ‖E.position.quat‖ := by field_simp
  rw [this]
  linarith

/-- The pose `T'` of the link named `n` in rounded arithmetic and its exact pose `T`, at the end of a path of `d` joints and
welds and of length `L`. -/
structure NearAt {F : Rounding} (ε μ A : ℝ) (ls : List (RawLink ℝ)) (js : List (RawJoint ℝ)) (welds : Weld ℝ → Prop) (θ : String → ℝ)
    (base : Pose ℝ) (n : String) (T' : Pose (Fl F)) (d : Nat) (L : ℝ) (T : Pose ℝ) : Prop where
  world : WorldPose ls js welds θ base n T
  path : PathLength ls js welds θ base n d L
  len : T.position.len ≤ L
  low : 1 / 2 * (1 / 4) ^ d ≤ T.rotation.len
  up : T.rotation.len ≤ 2 * 4 ^ d
  near : PoseNear ((1 + 100 * ε * A) ^ (d + 1) - 1) (4 * ((1 + 100 * ε * A) ^ (d + 1) - 1) * (L + (d + 1) * μ)) T' T

section
variable {ls : List (RawLink ℝ)} {js : List (RawJoint ℝ)} {welds : Weld ℝ → Prop} {θ : String → ℝ} {base' : Pose (Fl F)} {base : Pose ℝ}

theorem NearAt.root {l : RawLink ℝ} (hl : l ∈ ls) (hr : ∀ j ∈ js, j.childLinkName ≠ l.name) (hue : F.u ≤ ε) (hA : 1 ≤ A)
    (hb : PoseNear ε (ε * (base.position.len + μ)) base' base) (hb1 : 1 / 2 ≤ base.rotation.len) (hb2 : base.rotation.len ≤ 2)
    {D : Nat} {R : ℝ} (hsm : Small F ε μ A D R) :
    NearAt ε μ A ls js welds θ base l.name base' 0 base.position.len base := by
  have hu := F.u_nonneg
  have he : 0 ≤ ε := hu.trans hue
  have e1 : ε ≤ ε * A := le_mul_of_one_le_right he hA
  refine ⟨.root hl hr, .root hl hr, le_rfl, by simpa using hb1, by simpa using hb2, ?_⟩
  obtain ⟨k1, k2⟩ := poseNear_iff.mp hb
  have n0 : 0 ≤ base.position.len := Real.sqrt_nonneg _
  have hμ0 : 0 ≤ μ := le_trans (mul_nonneg F.tiny_nonneg (by positivity)) hsm.tiny
  refine poseNear_iff.mpr ⟨k1.trans (mul_le_mul_of_nonneg_right ?_ (norm_nonneg _)), k2.trans ?_⟩
  · simp only [zero_add, pow_one, add_sub_cancel_left]
    nlinarith
  · simp only [zero_add, pow_one, add_sub_cancel_left, Nat.cast_zero, one_mul]
    refine mul_le_mul_of_nonneg_right ?_ (by linarith)
    nlinarith

theorem NearAt.joint {j : RawJoint ℝ} {j' : RawJoint (Fl F)} (hP : Proper js welds) (hue : F.u ≤ ε) (hA : 1 ≤ A) (hθ : |θ j.name| ≤ A)
    {D : Nat} {R : ℝ} (hsm : Small F ε μ A D R) (hj : j ∈ js) (hjn : JointNear ε μ j' j) {d : Nat} {L : ℝ} {B' E' : Pose (Fl F)} {B : Pose ℝ}
    (hB : NearAt ε μ A ls js welds θ base j.parentLinkName B' d L B) (g1 : d + 1 ≤ D) (g2 : L + j.reach (θ j.name) ≤ R)
    (hE : RawEdge (K := Fl F) j' (θ j.name) E') :
    ∃ E, RawEdge j (θ j.name) E ∧
      NearAt ε μ A ls js welds θ base j.childLinkName (Pose.transform (K := Fl F) B' E') (d + 1) (L + j.reach (θ j.name)) (Pose.transform B E) := by
  obtain ⟨hB, hpl, hBl, hB1, hB2, hBn⟩ := hB
  have hu := F.u_nonneg
  have he : 0 ≤ ε := hu.trans hue
  have hL0 : 0 ≤ L := (Real.sqrt_nonneg _).trans hBl
  obtain ⟨o1, o2⟩ := hP.origin j hj
  have h64 : (4096 : ℝ) ≤ 64 ^ (D + 2) := by
    rw [pow_add]
    have : (1 : ℝ) ≤ 64 ^ D := one_le_pow₀ (by norm_num)
    linarith
  have hr0 := j.reach_nonneg (θ j.name)
  obtain ⟨E, hE1, hE5, hE2, hE3, hE4⟩ := edge_near hjn ⟨o1, o2⟩ (hP.axis j hj) hue hA
    (by
      have := hsm.acc
      have h1 : 0 ≤ (D : ℝ) * (ε * A) := by positivity
      linarith)
    hθ
    (by
      have := mul_le_mul_of_nonneg_left h64 F.tiny_nonneg
      have := hsm.tiny
      have := F.tiny_nonneg
      linarith)
    hsm.unit
    (by
      refine le_trans ?_ hsm.range
      exact mul_le_mul (by linarith) (by linarith) (by linarith) (by positivity)) hE
  obtain ⟨q1, q2⟩ := transform_len d hB1 hB2 hE3 hE4
  have hBpos : 0 < B.rotation.len := lt_of_lt_of_le (by positivity) hB1
  refine ⟨E, hE1, .joint hj hB hE1, .joint hj hpl, transform_pos_len hBpos hBl hE2, q1, q2, ?_⟩
  have := step_near hue hA (by omega) (hsm.mono g2) hBl hE2 hB1 hB2 hE3 hE4 hBn hE5
  push_cast
  convert this using 2
  ring

theorem NearAt.weld {w : Weld ℝ} {w' : Weld (Fl F)} (hP : Proper js welds) (hue : F.u ≤ ε) (hA : 1 ≤ A)
    {D : Nat} {R : ℝ} (hsm : Small F ε μ A D R) (hw : welds w) (hwn : WeldNear ε μ w' w) {d : Nat} {L : ℝ} {B' : Pose (Fl F)} {B : Pose ℝ}
    (hB : NearAt ε μ A ls js welds θ base w.carrier B' d L B) (g1 : d + 1 ≤ D) (g2 : L + w.offset.position.len ≤ R) :
    NearAt ε μ A ls js welds θ base w.name (Pose.transform (K := Fl F) B' w'.offset) (d + 1) (L + w.offset.position.len)
      (Pose.transform B w.offset) := by
  obtain ⟨hB, hpl, hBl, hB1, hB2, hBn⟩ := hB
  have hu := F.u_nonneg
  have he : 0 ≤ ε := hu.trans hue
  have e1 : ε ≤ ε * A := le_mul_of_one_le_right he hA
  obtain ⟨o1, o2⟩ := hP.offset w hw
  obtain ⟨q1, q2⟩ := transform_len d hB1 hB2 (E := w.offset) (by linarith) (by linarith)
  have hBpos : 0 < B.rotation.len := lt_of_lt_of_le (by positivity) hB1
  have hL0 : 0 ≤ L := (Real.sqrt_nonneg _).trans hBl
  have hr0 : 0 ≤ w.offset.position.len := Real.sqrt_nonneg _
  refine ⟨.weld hw hB, .weld hw hpl, transform_pos_len hBpos hBl le_rfl, q1, q2, ?_⟩
  have hμ0 : 0 ≤ μ := le_trans (mul_nonneg F.tiny_nonneg (by positivity)) hsm.tiny
  obtain ⟨k1, k2⟩ := poseNear_iff.mp hwn.offset
  have hE : PoseNear (60 * ε * A) (100 * ε * (w.offset.position.len + μ)) w'.offset w.offset := by
    refine poseNear_iff.mpr ⟨k1.trans (mul_le_mul_of_nonneg_right (by nlinarith) (norm_nonneg _)), k2.trans ?_⟩
    have : 0 ≤ ε * (w.offset.position.len + μ) := by positivity
    linarith
  have := step_near hue hA (by omega) (hsm.mono g2) hBl le_rfl hB1 hB2 (by linarith) (by linarith) hBn hE
  push_cast
  convert this using 2
  ring

end

/-- Rounding errors of the pose of any link. -/
theorem world_near {ls' : List (RawLink (Fl F))} {js' : List (RawJoint (Fl F))} {welds' : Weld (Fl F) → Prop}
    {ls : List (RawLink ℝ)} {js : List (RawJoint ℝ)} {welds : Weld ℝ → Prop} {θ : String → ℝ} {base' : Pose (Fl F)} {base : Pose ℝ}
    (hR : RobotNear ε μ ls' js' welds' ls js welds) (hP : Proper js welds) (hue : F.u ≤ ε) (hA : 1 ≤ A) (hθ : ∀ j ∈ js, |θ j.name| ≤ A)
    (hb : PoseNear ε (ε * (base.position.len + μ)) base' base) (hb1 : 1 / 2 ≤ base.rotation.len) (hb2 : base.rotation.len ≤ 2)
    {D : Nat} {R : ℝ} (hsm : Small F ε μ A D R)
    {n : String} {T' : Pose (Fl F)} (h : WorldPose (K := Fl F) ls' js' welds' θ base' n T')
    (hD : ∀ d L, PathLength ls js welds θ base n d L → d ≤ D ∧ L ≤ R) :
    ∃ d L T, WorldPose ls js welds θ base n T ∧ PathLength ls js welds θ base n d L ∧ T.position.len ≤ L ∧
      1 / 2 * (1 / 4) ^ d ≤ T.rotation.len ∧ T.rotation.len ≤ 2 * 4 ^ d ∧
      PoseNear ((1 + 100 * ε * A) ^ (d + 1) - 1) (4 * ((1 + 100 * ε * A) ^ (d + 1) - 1) * (L + (d + 1) * μ)) T' T := by
  suffices H : ∃ d L T, NearAt ε μ A ls js welds θ base n T' d L T by
    obtain ⟨d, L, T, H⟩ := H
    exact ⟨d, L, T, H.world, H.path, H.len, H.low, H.up, H.near⟩
  induction h with
  | @root l' hl' hroot =>
    obtain ⟨l, hl, hn⟩ := hR.links l' hl'
    have hr : ∀ j ∈ js, j.childLinkName ≠ l.name := by
      intro j hj heq
      obtain ⟨j', hj', hc⟩ := hR.children j hj
      exact hroot j' hj' (by rw [hc, heq, hn])
    rw [hn]
    exact ⟨0, base.position.len, base, .root hl hr hue hA hb hb1 hb2 hsm⟩
  | @joint j' B' E' hj' _ hE ih =>
    obtain ⟨j, hj, hjn⟩ := hR.joints j' hj'
    rw [hjn.child] at hD ⊢
    obtain ⟨d, L, B, hB⟩ := ih (fun d L hdl => by
      obtain ⟨g1, g2⟩ := hD (d + 1) (L + j.reach (θ j.name)) (.joint hj (hjn.parent ▸ hdl))
      have := j.reach_nonneg (θ j.name)
      exact ⟨by omega, by linarith⟩)
    rw [hjn.parent] at hB
    obtain ⟨g1, g2⟩ := hD _ _ (.joint hj hB.path)
    rw [hjn.name] at hE
    obtain ⟨E, _, h⟩ := hB.joint hP hue hA (hθ j hj) hsm hj hjn g1 g2 hE
    exact ⟨_, _, _, h⟩
  | @weld w' B' hw' _ ih =>
    obtain ⟨w, hw, hwn⟩ := hR.welds w' hw'
    rw [hwn.name] at hD ⊢
    obtain ⟨d, L, B, hB⟩ := ih (fun d L hdl => by
      obtain ⟨g1, g2⟩ := hD (d + 1) (L + w.offset.position.len) (.weld hw (hwn.carrier ▸ hdl))
      have : 0 ≤ w.offset.position.len := Real.sqrt_nonneg _
      exact ⟨by omega, by linarith⟩)
    rw [hwn.carrier] at hB
    obtain ⟨g1, g2⟩ := hD _ _ (.weld hw hB.path)
    exact ⟨_, _, _, hB.weld hP hue hA hsm hw hwn g1 g2⟩

end

end Tinyfk
