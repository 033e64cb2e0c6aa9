import Verif.Spec.RoundSums
import Verif.Proofs.RoundPath
import Verif.Proofs.JacQuery
import Verif.Props.Rotation

/-!
# Rounding errors of a column of the Jacobian
-/

namespace Tinyfk

open Scalar

theorem Rot.len_one {q : Rot ℝ} (h : q.norm2 = 1) : q.len = 1 := by
  rw [Rot.len, show q.x ^ 2 + q.y ^ 2 + q.z ^ 2 + q.w ^ 2 = 1 by rw [← h]; simp [Rot.norm2]; ring, Real.sqrt_one]

theorem Vec3.len_one {v : Vec3 ℝ} (h : v.IsUnit) : v.len = 1 := by
  rw [Vec3.len, h, Real.sqrt_one]

theorem Proper.of_unit {js : List (RawJoint ℝ)} {welds : Weld ℝ → Prop} (hu : UnitDesc js) (hw : ∀ w, welds w → w.offset.rotation.norm2 = 1) :
    Proper js welds := by
  refine ⟨fun j hj => ?_, fun j hj ht => ?_, fun w h => ?_⟩
  · rw [Rot.len_one (hu j hj).1]; norm_num
  · rw [Vec3.len_one ((hu j hj).2 ht)]; norm_num
  · rw [Rot.len_one (hw w h)]; norm_num

section
variable {F : Rounding} {ε μ A : ℝ} {ls' : List (RawLink (Fl F))} {js' : List (RawJoint (Fl F))}
  {ls : List (RawLink ℝ)} {js : List (RawJoint ℝ)} {welds : Weld ℝ → Prop} {θ : String → ℝ} {base : Pose ℝ} {m : KinModel (Fl F)}

/-- the bounds of `NearAt`, weakened to a longer path -/
theorem NearAt.bounds {n : String} {T' : Pose (Fl F)} {dc d D : Nat} {Lc L : ℝ} {C : Pose ℝ} (h : NearAt ε μ A ls js welds θ base n T' dc Lc C)
    (hue : F.u ≤ ε) (hA : 1 ≤ A) {R : ℝ} (hsm : Small F ε μ A D R) (hd : dc ≤ d) (hdD : d ≤ D) (hL : Lc ≤ L) :
    ‖T'.real.rotation.quat - C.rotation.quat‖ ≤ 125 * (d + 1) * ε * A * ‖C.rotation.quat‖ ∧
      ‖T'.real.position.quat - C.position.quat‖ ≤ 4 * (125 * (d + 1) * ε * A) * (L + (d + 1) * μ) := by
  have he : 0 ≤ ε := F.u_nonneg.trans hue
  have hκ : 0 ≤ 100 * ε * A := by positivity
  have hdR : (dc : ℝ) ≤ d := by exact_mod_cast hd
  have hDR : (d : ℝ) ≤ D := by exact_mod_cast hdD
  have e0 : 0 ≤ ε * A := by positivity
  have hacc := hsm.acc
  have g := pow_growth hκ (dc + 1) (by
    push_cast
    have : ((dc : ℝ) + 1) * (ε * A) ≤ (D + 1) * (ε * A) := mul_le_mul_of_nonneg_right (by linarith) e0
    linarith)
  push_cast at g
  have g2 : (1 + 100 * ε * A) ^ (dc + 1) - 1 ≤ 125 * (d + 1) * ε * A := by
    have : ((dc : ℝ) + 1) * (ε * A) ≤ (d + 1) * (ε * A) := mul_le_mul_of_nonneg_right (by linarith) e0
    linarith
  have hL0 : 0 ≤ Lc := (Real.sqrt_nonneg _).trans h.len
  have hμ0 : 0 ≤ μ := le_trans (mul_nonneg F.tiny_nonneg (by positivity)) hsm.tiny
  have hg0 : 0 ≤ (1 + 100 * ε * A) ^ (dc + 1) - 1 := by
    have := one_le_pow₀ (show 1 ≤ 1 + 100 * ε * A by linarith) (n := dc + 1)
    linarith
  obtain ⟨k1, k2⟩ := poseNear_iff.mp h.near
  refine ⟨k1.trans (mul_le_mul_of_nonneg_right g2 (norm_nonneg _)), k2.trans ?_⟩
  refine mul_le_mul (by linarith) ?_ (by positivity) (by positivity)
  have : ((dc : ℝ) + 1) * μ ≤ (d + 1) * μ := mul_le_mul_of_nonneg_right (by linarith) hμ0
  linarith

/-- The column of a joint on the path. -/
theorem Carried.column {jp : Nat} {s n : String} {d D : Nat} {L R : ℝ} {T' : Pose (Fl F)} {T : Pose ℝ}
    {r' : RawJoint (Fl F)} {r : RawJoint ℝ} {j : Joint (Fl F)} {c : Nat} {C' : Pose (Fl F)} {dc : Nat} {Lc : ℝ} {C B E0 S : Pose ℝ}
    (h : Carried ε μ A js' ls js welds θ base m jp s n d L T r' r j c C' dc Lc C B E0 S)
    (hT : NearAt ε μ A ls js welds θ base n T' d L T) (hu : UnitDesc js) (hw : ∀ w, welds w → w.offset.rotation.norm2 = 1)
    (hb : base.rotation.norm2 = 1) (hue : F.u ≤ ε) (hA : 1 ≤ A) (hsm : Small F ε μ A D R) (hd : d ≤ D) (hL : L ≤ R) (hax : r.axis.len ≤ 1 + R)
    (hm : r.type.Movable) :
    ∃ (P : ℝ → Pose ℝ) (X : Vec3 ℝ) (Q : Rot ℝ), (∀ v, WorldPose ls js welds (Function.update θ s v) base n (P v)) ∧ P (θ s) = T ∧
      Vec3.HasDeriv (fun v => (P v).position) X (θ s) ∧ Rot.HasDeriv (fun v => (P v).rotation) Q (θ s) ∧
      Vec3.dist (Vec3.real (F := F) (if r.type = .prismatic then Rot.rotate (K := Fl F) C'.rotation r'.axis else
        Vec3.cross (K := Fl F) (Rot.rotate (K := Fl F) C'.rotation r'.axis) (Vec3.sub (K := Fl F) T'.position C'.position))) X ≤ colBound ε μ A r d L ∧
      (if r.type = .prismatic then Q = ⟨0, 0, 0, 0⟩ else
        Rot.dist (Rot.real (F := F) (qDerivative (K := Fl F) (Rot.inverse (K := Fl F) T'.rotation) (Rot.rotate (K := Fl F) C'.rotation r'.axis))) Q ≤
          500 * (d + 1) * ε * A) ∧ X.len ≤ colSize r L := by
  obtain ⟨ck, _, _, hC⟩ := h.child
  have he : 0 ≤ ε := F.u_nonneg.trans hue
  have ht0 := F.tiny_nonneg
  have e0 : 0 ≤ ε * A := by positivity
  have e1 : ε ≤ ε * A := le_mul_of_one_le_right he hA
  have hdR : (d : ℝ) ≤ D := by exact_mod_cast hd
  have hd0 : (0 : ℝ) ≤ d := by positivity
  have hD0 : (0 : ℝ) ≤ D := by positivity
  have hacc := hsm.acc
  have hCu : C.rotation.norm2 = 1 := hC.world.unit hu hw hb
  have hTu : T.rotation.norm2 = 1 := hT.world.unit hu hw hb
  have hBu : B.rotation.norm2 = 1 := h.parent.unit hu hw hb
  have hCn : ‖C.rotation.quat‖ = 1 := by rw [← Rot.len_quat, Rot.len_one hCu]
  have hTn : ‖T.rotation.quat‖ = 1 := by rw [← Rot.len_quat, Rot.len_one hTu]
  obtain ⟨c1, c2⟩ := hC.bounds hue hA hsm h.depth hd h.length
  obtain ⟨t1, t2⟩ := hT.bounds hue hA hsm le_rfl hd le_rfl
  obtain ⟨α, hα⟩ : ∃ α : ℝ, α = 125 * (d + 1) * ε * A := ⟨_, rfl⟩
  obtain ⟨M, hM⟩ : ∃ M : ℝ, M = L + (d + 1) * μ := ⟨_, rfl⟩
  rw [← hα, hCn, mul_one] at c1
  rw [← hα, hTn, mul_one] at t1
  rw [← hα, ← hM] at c2 t2
  have hα4 : α ≤ 1 / 4 := by
    have : ((d : ℝ) + 1) * (ε * A) ≤ (D + 1) * (ε * A) := mul_le_mul_of_nonneg_right (by linarith) e0
    rw [hα]; linarith
  have hεα : 125 * ε ≤ α := by
    have : 0 ≤ (d : ℝ) * (ε * A) := by positivity
    rw [hα]; linarith
  have hα0 : 0 ≤ α := by linarith
  -- sizes
  have h64 : 4096 * ((D : ℝ) + 1) ≤ 64 ^ (D + 2) := by
    rw [pow_add]
    have h1 : D + 1 ≤ 64 ^ D := Nat.succ_le_of_lt (Nat.lt_pow_self (by norm_num))
    have h2 : ((D + 1 : Nat) : ℝ) ≤ ((64 ^ D : Nat) : ℝ) := by exact_mod_cast h1
    push_cast at h2
    linarith
  have h64' : (4096 : ℝ) ≤ 64 ^ (D + 2) := by linarith
  have htm : 4096 * F.tiny ≤ μ := by
    have := mul_le_mul_of_nonneg_left h64' ht0
    have := hsm.tiny
    linarith
  have hμ1 := hsm.unit
  have hμ0 : 0 ≤ μ := by linarith
  have hL0 : 0 ≤ L := (Real.sqrt_nonneg _).trans hT.len
  have hR0 : 0 ≤ R := hL0.trans hL
  have hbig : 4096 * ((D : ℝ) + 1) * (1 + R + A) ≤ F.big :=
    (mul_le_mul_of_nonneg_right h64 (by linarith)).trans hsm.range
  have hbig1 : 4096 * (1 + R + A) ≤ F.big := (mul_le_mul_of_nonneg_right h64' (by linarith)).trans hsm.range
  have hdμ : ((d : ℝ) + 1) * μ ≤ D + 1 := by nlinarith
  have hdμ' : μ ≤ ((d : ℝ) + 1) * μ := by nlinarith
  have hM0 : F.tiny ≤ M := by rw [hM]; linarith
  have hMb : 20 * (M + 1) ≤ F.big := by
    have : 0 ≤ (D : ℝ) * R := by positivity
    have : 0 ≤ (D : ℝ) * A := by positivity
    have : 0 ≤ ((D : ℝ) + 1) * (A - 1) := mul_nonneg (by linarith) (by linarith)
    rw [hM]
    nlinarith
  have hLM : L ≤ M := by rw [hM]; linarith [hμ0.trans hdμ']
  -- the axis
  have haxn := h.near.axis
  rw [Vec3.dist_quat, Vec3.len_quat] at haxn
  rw [Vec3.len_quat] at hax
  obtain ⟨w', hw'⟩ : ∃ w' : Vec3 ℝ, w' = Rot.rotate (K := Fl F) C'.rotation r'.axis := ⟨_, rfl⟩
  have hwn := F.axis_near C'.real.rotation C.rotation r'.axis.real r.axis w' hCn c1 hα4 hue hεα haxn (by linarith) (by linarith) hw'
  have hres : ∀ v E, RawEdge r v E → WorldPose ls js welds (Function.update θ s v) base n (Pose.transform (Pose.transform B E) S) := h.moved
  by_cases hp : r.type = .prismatic
  · have hrot : ∀ v : ℝ, RawEdge r v (Pose.transform r.origin ⟨⟨r.axis.x * v, r.axis.y * v, r.axis.z * v⟩, Rot.one⟩) := fun v => .slide hp
    have hC0 : C = Pose.transform (Pose.transform B r.origin) ⟨⟨r.axis.x * θ s, r.axis.y * θ s, r.axis.z * θ s⟩, Rot.one⟩ := by
      rw [h.pose, Pose.transform_assoc]
      congr 1
      cases h.edge with
      | fixed ht => rw [ht] at hp; cases hp
      | rot ht => rw [hp] at ht; rcases ht with h | h <;> cases h
      | slide ht => rfl
    obtain ⟨d1, d2⟩ := slide_deriv (S := S) hC0
    refine ⟨_, _, _, fun v => ?_, ?_, d1, d2, ?_, ?_, ?_⟩
    · have := hres v _ (hrot v)
      rwa [← Pose.transform_assoc] at this
    · rw [h.rest, hC0]
    · rw [if_pos hp, ← hw', colBound, if_pos hp, Vec3.dist_quat, Vec3.len_quat]
      refine hwn.trans ?_
      have n0 := norm_nonneg r.axis.quat
      have k1 : 0 ≤ α * ‖r.axis.quat‖ := by positivity
      have k2 : α * (4096 * F.tiny) ≤ α * μ := mul_le_mul_of_nonneg_left htm hα0
      have k3 : 0 ≤ α * F.tiny := by positivity
      have : 500 * ((d : ℝ) + 1) * ε * A * (‖r.axis.quat‖ + μ) = 4 * (α * ‖r.axis.quat‖) + 4 * (α * μ) := by rw [hα]; ring
      linarith
    · rw [if_pos hp]
    · rw [colSize, if_pos hp, Vec3.len_quat, Vec3.len_quat, Rot.quat_rotate _ (by rw [hCn]; norm_num), norm_mul, norm_mul, norm_inv, hCn]
      simp
  · have ht : r.type = .revolute ∨ r.type = .continuous := by
      rcases hm with h | h | h
      · exact .inl h
      · exact .inr h
      · exact absurd h hp
    have hk := (hu r h.mem).2 ht
    have hkn : ‖r.axis.quat‖ = 1 := by rw [← Vec3.len_quat, Vec3.len_one hk]
    have eq : ∀ v : ℝ, RawEdge r v (Pose.transform r.origin ⟨Vec3.zero, Rot.axisQ r.axis v⟩) := by
      intro v
      have := RawEdge.rot (θ := v) ht
      simp only [real_half, real_sin, real_cos] at this
      rw [show v * (1 / 2) = v / 2 by ring] at this
      exact this
    have hC0 : C = Pose.transform (Pose.transform B r.origin) ⟨Vec3.zero, Rot.axisQ r.axis (θ s)⟩ := by
      rw [h.pose, Pose.transform_assoc]
      congr 1
      have h1 := eq (θ s)
      have h2 := h.edge
      cases h2 with
      | fixed ht' => rw [ht'] at ht; rcases ht with h | h <;> cases h
      | rot ht' =>
        simp only [real_half, real_sin, real_cos]
        rw [show θ s * (1 / 2) = θ s / 2 by ring]
        rfl
      | slide ht' => exact absurd ht' hp
    have hGu : (Pose.transform B r.origin).rotation.norm2 = 1 := by
      rw [Pose.transform, Rot.norm2_mul, hBu, (hu r h.mem).1, one_mul]
    obtain ⟨d1, d2⟩ := turn_deriv hGu hk hC0 h.rest
    have hw1 : ‖(C.rotation.rotate r.axis).quat‖ = 1 := by
      rw [Rot.quat_rotate _ (by rw [hCn]; norm_num), norm_mul, norm_mul, norm_inv, hCn, hkn]
      norm_num
    rw [hkn, mul_one] at hwn
    refine ⟨_, _, _, fun v => ?_, ?_, d1, d2, ?_, ?_, ?_⟩
    · have := hres v _ (eq v)
      rwa [← Pose.transform_assoc] at this
    · rw [h.rest, hC0]
    · rw [if_neg hp, ← hw', colBound, if_neg hp, Vec3.dist_quat]
      have hTl := hT.len
      have hCl := hC.len
      rw [Vec3.len_quat] at hTl hCl
      have := F.turn_pos w' (C.rotation.rotate r.axis) T'.real.position T.position C'.real.position C.position _ hα4 hue hεα hM0 hw1 hwn t2 c2
        (hTl.trans hLM) ((hCl.trans h.length).trans hLM) (by linarith) hMb rfl
      refine this.trans (le_of_eq ?_)
      rw [hα, hM]; ring
    · rw [if_neg hp, ← hw', Rot.dist_quat]
      have := F.turn_rot T'.real.rotation T.rotation _ w' (C.rotation.rotate r.axis) hTu t1 hα4 hue hεα hw1 hwn (by linarith) (by linarith) rfl
      refine this.trans (le_of_eq ?_)
      rw [hα]; ring
    · have hTl := hT.len
      have hCl := hC.len
      rw [Vec3.len_quat] at hTl hCl
      rw [colSize, if_neg hp, Vec3.len_quat]
      refine (Vec3.cross_len _ _).trans ?_
      rw [hw1, one_mul, Vec3.quat_sub]
      have := norm_sub_le T.position.quat C.position.quat
      linarith [h.length]

end

end Tinyfk
