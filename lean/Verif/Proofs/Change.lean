import Mathlib.Analysis.SpecialFunctions.Trigonometric.Bounds
import Verif.Spec.Change
import Verif.Proofs.RoundPose
import Verif.Props.Rotation

/-!
# How far poses move when the configuration changes
-/

namespace Tinyfk

open Scalar Quaternion

theorem Rot.norm_quat {q : Rot ℝ} (h : q.norm2 = 1) : ‖q.quat‖ = 1 := by
  have hn : q.norm2 = ‖q.quat‖ ^ 2 := by rw [quat_norm_sq]; simp [Rot.norm2]; ring
  rw [h] at hn
  have := norm_nonneg q.quat
  nlinarith

/-- the chord is shorter than the arc -/
theorem chord_le (a b : ℝ) : (Real.sin a - Real.sin b) ^ 2 + (Real.cos a - Real.cos b) ^ 2 ≤ (a - b) ^ 2 := by
  have h := Real.one_sub_sq_div_two_le_cos (x := a - b)
  rw [Real.cos_sub] at h
  have h1 := Real.sin_sq_add_cos_sq a
  have h2 := Real.sin_sq_add_cos_sq b
  nlinarith

theorem Rot.dist_le_of {q r : Rot ℝ} {s s' : ℝ}
    (h : (q.x - r.x) ^ 2 + (q.y - r.y) ^ 2 + (q.z - r.z) ^ 2 + (q.w - r.w) ^ 2 =
      (Real.sin s' - Real.sin s) ^ 2 + (Real.cos s' - Real.cos s) ^ 2) : Rot.dist q r ≤ |s' - s| := by
  unfold Rot.dist
  rw [h, ← Real.sqrt_sq_eq_abs]
  exact Real.sqrt_le_sqrt (chord_le _ _)

theorem Rot.dist_axisQ {a : Vec3 ℝ} (ha : a.IsUnit) (s s' : ℝ) :
    Rot.dist ⟨a.x * Real.sin s', a.y * Real.sin s', a.z * Real.sin s', Real.cos s'⟩
      ⟨a.x * Real.sin s, a.y * Real.sin s, a.z * Real.sin s, Real.cos s⟩ ≤ |s' - s| := by
  apply Rot.dist_le_of
  simp only
  unfold Vec3.IsUnit at ha
  linear_combination (Real.sin s' - Real.sin s) ^ 2 * ha

theorem Rot.dist_fromRPY (r p y r' p' y' : ℝ) :
    Rot.dist (Rot.fromRPY r' p' y') (Rot.fromRPY r p y) ≤ (|r' - r| + |p' - p| + |y' - y|) / 2 := by
  have h1 : ∀ r r' p y : ℝ, Rot.dist (Rot.fromRPY r' p y) (Rot.fromRPY r p y) ≤ |r' - r| / 2 := by
    intro r r' p y
    have e : |r' - r| / 2 = |r' / 2 - r / 2| := by rw [← sub_div, abs_div, abs_two]
    rw [e]
    apply Rot.dist_le_of
    simp only [Rot.fromRPY_raw]
    have a2 := Real.sin_sq_add_cos_sq (p / 2)
    have a3 := Real.sin_sq_add_cos_sq (y / 2)
    generalize Real.sin (r' / 2) = sr' at *
    generalize Real.cos (r' / 2) = cr' at *
    generalize Real.sin (r / 2) = sr at *
    generalize Real.cos (r / 2) = cr at *
    generalize Real.sin (p / 2) = sp at *
    generalize Real.cos (p / 2) = cp at *
    generalize Real.sin (y / 2) = sy at *
    generalize Real.cos (y / 2) = cy at *
    linear_combination ((sr' - sr) ^ 2 + (cr' - cr) ^ 2) * (sy ^ 2 + cy ^ 2) * a2 + ((sr' - sr) ^ 2 + (cr' - cr) ^ 2) * a3
  have h2 : ∀ r p p' y : ℝ, Rot.dist (Rot.fromRPY r p' y) (Rot.fromRPY r p y) ≤ |p' - p| / 2 := by
    intro r p p' y
    have e : |p' - p| / 2 = |p' / 2 - p / 2| := by rw [← sub_div, abs_div, abs_two]
    rw [e]
    apply Rot.dist_le_of
    simp only [Rot.fromRPY_raw]
    have a2 := Real.sin_sq_add_cos_sq (r / 2)
    have a3 := Real.sin_sq_add_cos_sq (y / 2)
    generalize Real.sin (p' / 2) = sr' at *
    generalize Real.cos (p' / 2) = cr' at *
    generalize Real.sin (p / 2) = sr at *
    generalize Real.cos (p / 2) = cr at *
    generalize Real.sin (r / 2) = sp at *
    generalize Real.cos (r / 2) = cp at *
    generalize Real.sin (y / 2) = sy at *
    generalize Real.cos (y / 2) = cy at *
    linear_combination ((sr' - sr) ^ 2 + (cr' - cr) ^ 2) * (sy ^ 2 + cy ^ 2) * a2 + ((sr' - sr) ^ 2 + (cr' - cr) ^ 2) * a3
  have h3 : ∀ r p y y' : ℝ, Rot.dist (Rot.fromRPY r p y') (Rot.fromRPY r p y) ≤ |y' - y| / 2 := by
    intro r p y y'
    have e : |y' - y| / 2 = |y' / 2 - y / 2| := by rw [← sub_div, abs_div, abs_two]
    rw [e]
    apply Rot.dist_le_of
    simp only [Rot.fromRPY_raw]
    have a2 := Real.sin_sq_add_cos_sq (r / 2)
    have a3 := Real.sin_sq_add_cos_sq (p / 2)
    generalize Real.sin (y' / 2) = sr' at *
    generalize Real.cos (y' / 2) = cr' at *
    generalize Real.sin (y / 2) = sr at *
    generalize Real.cos (y / 2) = cr at *
    generalize Real.sin (r / 2) = sp at *
    generalize Real.cos (r / 2) = cp at *
    generalize Real.sin (p / 2) = sy at *
    generalize Real.cos (p / 2) = cy at *
    linear_combination ((sr' - sr) ^ 2 + (cr' - cr) ^ 2) * (sy ^ 2 + cy ^ 2) * a2 + ((sr' - sr) ^ 2 + (cr' - cr) ^ 2) * a3
  have k1 := h1 r r' p y
  have k2 := h2 r' p p' y
  have k3 := h3 r' p' y y'
  rw [Rot.dist_quat] at *
  have t1 := norm_sub_le_norm_sub_add_norm_sub (Rot.fromRPY r' p' y').quat (Rot.fromRPY r' p y).quat (Rot.fromRPY r p y).quat
  have t2 := norm_sub_le_norm_sub_add_norm_sub (Rot.fromRPY r' p' y').quat (Rot.fromRPY r' p' y).quat (Rot.fromRPY r' p y).quat
  linarith

/-- two unit quaternions turn a vector to places that are twice their distance apart at most -/
theorem rotate_change {p q : ℍ[ℝ]} (hp : ‖p‖ = 1) (hq : ‖q‖ = 1) (v : ℍ[ℝ]) :
    ‖p * v * p⁻¹ - q * v * q⁻¹‖ ≤ 2 * ‖p - q‖ * ‖v‖ := by
  have hi : ∀ x : ℍ[ℝ], ‖x‖ = 1 → x⁻¹ = star x := by
    intro x hx
    rw [Quaternion.inv_def]
    rw [Quaternion.normSq_eq_norm_mul_self, hx]
    simp
  rw [hi p hp, hi q hq]
  have e : p * v * star p - q * v * star q = (p - q) * v * star p + q * v * star (p - q) := by
    rw [star_sub]; noncomm_ring
  rw [e]
  refine (norm_add_le _ _).trans ?_
  rw [norm_mul, norm_mul, norm_mul, norm_mul, norm_star, norm_star, hp, hq]
  linarith

/-- Composing two poses that both change. -/
theorem transform_change {A A' B B' : Pose ℝ} (hA : A.rotation.norm2 = 1) (hA' : A'.rotation.norm2 = 1)
    (hB : B.rotation.norm2 = 1) (hB' : B'.rotation.norm2 = 1) {a b p r : ℝ}
    (h1 : Rot.dist A'.rotation A.rotation ≤ a) (h2 : Rot.dist B'.rotation B.rotation ≤ b)
    (h3 : Vec3.dist A'.position A.position ≤ p) (h4 : Vec3.dist B'.position B.position ≤ r) :
    Rot.dist (Pose.transform A' B').rotation (Pose.transform A B).rotation ≤ a + b ∧
    Vec3.dist (Pose.transform A' B').position (Pose.transform A B).position ≤ p + 2 * a * B'.position.len + r := by
  have n1 := Rot.norm_quat hA
  have n2 := Rot.norm_quat hA'
  have n3 := Rot.norm_quat hB
  have n4 := Rot.norm_quat hB'
  rw [Rot.dist_quat] at h1 h2 ⊢
  rw [Vec3.dist_quat] at h3 h4 ⊢
  rw [Vec3.len_quat]
  constructor
  · show ‖(Rot.mul A'.rotation B'.rotation).quat - (Rot.mul A.rotation B.rotation).quat‖ ≤ _
    rw [Rot.quat_mul, Rot.quat_mul]
    have e : A'.rotation.quat * B'.rotation.quat - A.rotation.quat * B.rotation.quat =
        (A'.rotation.quat - A.rotation.quat) * B'.rotation.quat + A.rotation.quat * (B'.rotation.quat - B.rotation.quat) := by
      noncomm_ring
    rw [e]
    refine (norm_add_le _ _).trans ?_
    rw [norm_mul, norm_mul, n4, n1]
    linarith
  · show ‖(Vec3.add (A'.rotation.rotate B'.position) A'.position).quat - (Vec3.add (A.rotation.rotate B.position) A.position).quat‖ ≤ _
    rw [Vec3.quat_add, Vec3.quat_add, Rot.quat_rotate _ (by rw [n2]; exact one_pos), Rot.quat_rotate _ (by rw [n1]; exact one_pos)]
    have e : A'.rotation.quat * B'.position.quat * A'.rotation.quat⁻¹ + A'.position.quat -
          (A.rotation.quat * B.position.quat * A.rotation.quat⁻¹ + A.position.quat) =
        (A'.rotation.quat * B'.position.quat * A'.rotation.quat⁻¹ - A.rotation.quat * B'.position.quat * A.rotation.quat⁻¹) +
          A.rotation.quat * (B'.position.quat - B.position.quat) * A.rotation.quat⁻¹ + (A'.position.quat - A.position.quat) := by
      noncomm_ring
    rw [e]
    have k1 := rotate_change n2 n1 B'.position.quat
    have k2 : ‖A.rotation.quat * (B'.position.quat - B.position.quat) * A.rotation.quat⁻¹‖ = ‖B'.position.quat - B.position.quat‖ := by
      rw [norm_mul, norm_mul, norm_inv, n1]; simp
    have k3 := norm_add₃_le (a := A'.rotation.quat * B'.position.quat * A'.rotation.quat⁻¹ - A.rotation.quat * B'.position.quat * A.rotation.quat⁻¹)
      (b := A.rotation.quat * (B'.position.quat - B.position.quat) * A.rotation.quat⁻¹) (c := A'.position.quat - A.position.quat)
    have k4 : 2 * ‖A'.rotation.quat - A.rotation.quat‖ * ‖B'.position.quat‖ ≤ 2 * a * ‖B'.position.quat‖ :=
      mul_le_mul_of_nonneg_right (by linarith) (norm_nonneg _)
    linarith

theorem Vec3.dist_self (v : Vec3 ℝ) : Vec3.dist v v = 0 := by simp [Vec3.dist]
theorem Rot.dist_self (q : Rot ℝ) : Rot.dist q q = 0 := by simp [Rot.dist]
theorem Vec3.len_nonneg (v : Vec3 ℝ) : 0 ≤ v.len := Real.sqrt_nonneg _

theorem Vec3.dist_scale (a : Vec3 ℝ) (θ θ' : ℝ) :
    Vec3.dist ⟨a.x * θ', a.y * θ', a.z * θ'⟩ ⟨a.x * θ, a.y * θ, a.z * θ⟩ = a.len * |θ' - θ| := by
  unfold Vec3.dist Vec3.len
  rw [← Real.sqrt_sq_eq_abs, ← Real.sqrt_mul (by positivity)]
  congr 1
  ring

theorem Vec3.len_scale (a : Vec3 ℝ) (θ : ℝ) : Vec3.len ⟨a.x * θ, a.y * θ, a.z * θ⟩ = a.len * |θ| := by
  unfold Vec3.len
  rw [← Real.sqrt_sq_eq_abs, ← Real.sqrt_mul (by positivity)]
  congr 1
  ring

/-- the displacement of one joint -/
theorem RawEdge.change {j : RawJoint ℝ} (hu : j.origin.rotation.norm2 = 1 ∧ ((j.type = .revolute ∨ j.type = .continuous) → j.axis.IsUnit))
    {θ θ' : ℝ} {E : Pose ℝ} (h : RawEdge j θ E) :
    ∃ E', RawEdge j θ' E' ∧ Rot.dist E'.rotation E.rotation ≤ j.turned θ θ' / 2 ∧ Vec3.dist E'.position E.position ≤ j.slid θ θ' ∧
      E'.position.len ≤ j.reach θ' := by
  cases h with
  | fixed ht =>
    refine ⟨_, .fixed ht, ?_, ?_, ?_⟩
    · rw [Rot.dist_self]; simp [RawJoint.turned, ht]
    · rw [Vec3.dist_self]; simp [RawJoint.slid, ht]
    · simp [RawJoint.reach, ht]
  | rot ht =>
    have hns : j.type ≠ .prismatic := by rintro e; rw [e] at ht; simp at ht
    refine ⟨_, .rot ht, ?_⟩
    have n1 : ∀ θ : ℝ, Rot.norm2 (⟨j.axis.x * sin (θ * half), j.axis.y * sin (θ * half), j.axis.z * sin (θ * half), cos (θ * half)⟩ : Rot ℝ) = 1 :=
      fun θ => by
        have := Rot.norm2_axis (hu.2 ht) θ
        simpa only [real_half, real_sin, real_cos] using this
    obtain ⟨k1, k2⟩ := transform_change (A := j.origin) (A' := j.origin)
      (B := ⟨Vec3.zero, ⟨j.axis.x * sin (θ * half), j.axis.y * sin (θ * half), j.axis.z * sin (θ * half), cos (θ * half)⟩⟩)
      (B' := ⟨Vec3.zero, ⟨j.axis.x * sin (θ' * half), j.axis.y * sin (θ' * half), j.axis.z * sin (θ' * half), cos (θ' * half)⟩⟩)
      hu.1 hu.1 (n1 θ) (n1 θ') (a := 0) (p := 0) (r := 0) (b := |θ' - θ| / 2) (by rw [Rot.dist_self]) (by
        have := Rot.dist_axisQ (hu.2 ht) (θ * (1 / 2)) (θ' * (1 / 2))
        simp only [real_sin, real_cos, real_half]
        refine this.trans (le_of_eq ?_)
        rw [← sub_mul, abs_mul]; norm_num; ring) (by rw [Vec3.dist_self]) (by rw [Vec3.dist_self])
    refine ⟨?_, ?_, ?_⟩
    · refine k1.trans ?_
      simp only [RawJoint.turned, if_pos ht]
      linarith
    · refine k2.trans ?_
      simp [RawJoint.slid, hns]
    · have e : (Pose.transform j.origin ⟨Vec3.zero, ⟨j.axis.x * sin (θ' * half), j.axis.y * sin (θ' * half), j.axis.z * sin (θ' * half), cos (θ' * half)⟩⟩).position
          = j.origin.position := by
        simp only [Pose.transform]
        rw [Rot.rotate_unit _ _ hu.1]
        simp [Vec3.add, Vec3.zero]
      rw [e]
      simp [RawJoint.reach, hns]
  | slide ht =>
    refine ⟨_, .slide ht, ?_⟩
    obtain ⟨k1, k2⟩ := transform_change (A := j.origin) (A' := j.origin)
      (B := ⟨⟨j.axis.x * θ, j.axis.y * θ, j.axis.z * θ⟩, Rot.one⟩)
      (B' := ⟨⟨j.axis.x * θ', j.axis.y * θ', j.axis.z * θ'⟩, Rot.one⟩)
      hu.1 hu.1 Rot.norm2_one Rot.norm2_one (a := 0) (p := 0) (b := 0) (r := j.axis.len * |θ' - θ|) (by rw [Rot.dist_self]) (by rw [Rot.dist_self])
      (by rw [Vec3.dist_self]) (by rw [Vec3.dist_scale])
    refine ⟨?_, ?_, ?_⟩
    · refine k1.trans ?_
      simp [RawJoint.turned, ht]
    · refine k2.trans ?_
      simp [RawJoint.slid, ht]
    · have n1 := Rot.norm_quat hu.1
      simp only [Pose.transform, RawJoint.reach, if_pos ht]
      rw [Vec3.len_quat, Vec3.quat_add, Rot.quat_rotate _ (by rw [n1]; exact one_pos), ← Vec3.len_scale, Vec3.len_quat, Vec3.len_quat, add_comm ‖j.origin.position.quat‖]
      refine (norm_add_le _ _).trans ?_
      rw [norm_mul, norm_mul, norm_inv, n1]
      simp

/-- How far a link moves when the joints and the base move. -/
theorem WorldPose.change {ls : List (RawLink ℝ)} {js : List (RawJoint ℝ)} {welds : Weld ℝ → Prop} (hu : UnitDesc js)
    (hw : ∀ w, welds w → w.offset.rotation.norm2 = 1) {θ θ' : String → ℝ} {b b' : Pose ℝ} (hb : b.rotation.norm2 = 1)
    (hb' : b'.rotation.norm2 = 1) {β ρ : ℝ} (h1 : Rot.dist b'.rotation b.rotation ≤ β / 2) (h2 : Vec3.dist b'.position b.position ≤ ρ)
    {n : String} {T : Pose ℝ} (h : WorldPose ls js welds θ b n T) :
    ∃ T' τ σ L, WorldPose ls js welds θ' b' n T' ∧ PathChange ls js welds θ θ' n τ σ L ∧
      Rot.dist T'.rotation T.rotation ≤ (β + τ) / 2 ∧ Vec3.dist T'.position T.position ≤ ρ + (β + τ) * L + σ ∧ 0 ≤ L ∧ 0 ≤ τ := by
  have hβ : 0 ≤ β := by have := (Real.sqrt_nonneg _).trans h1; linarith
  induction h with
  | root g1 g2 => exact ⟨b', 0, 0, 0, .root g1 g2, .root g1 g2, by simpa using h1, by simpa using h2, le_rfl, le_rfl⟩
  | joint g1 g2 g3 ih =>
    obtain ⟨B', τ, σ, L, k1, k2, k3, k4, k5, k6⟩ := ih
    obtain ⟨E', f1, f2, f3, f4⟩ := g3.change (θ' := θ' _) (hu _ g1)
    obtain ⟨c1, c2⟩ := transform_change (g2.unit hu hw hb) (k1.unit hu hw hb') (g3.unit (hu _ g1)) (f1.unit (hu _ g1)) k3 f2 k4 f3
    rename_i j B T
    have t0 : 0 ≤ j.turned (θ j.name) (θ' j.name) := by unfold RawJoint.turned; split <;> positivity
    have r0 : 0 ≤ j.reach (θ' j.name) := (Vec3.len_nonneg _).trans f4
    refine ⟨_, _, _, _, .joint g1 k1 f1, .joint g1 k2, c1.trans (by linarith), c2.trans ?_, by positivity, by positivity⟩
    have e1 : (β + τ) * E'.position.len ≤ (β + τ) * j.reach (θ' j.name) := mul_le_mul_of_nonneg_left f4 (by linarith)
    have e2 : 0 ≤ j.turned (θ j.name) (θ' j.name) * (L + j.reach (θ' j.name)) := by positivity
    nlinarith
  | weld g1 g2 ih =>
    obtain ⟨B', τ, σ, L, k1, k2, k3, k4, k5, k6⟩ := ih
    obtain ⟨c1, c2⟩ := transform_change (g2.unit hu hw hb) (k1.unit hu hw hb') (hw _ g1) (hw _ g1) k3 (Rot.dist_self _).le k4 (Vec3.dist_self _).le
    have := Vec3.len_nonneg (Weld.offset ‹_›).position
    refine ⟨_, _, _, _, .weld g1 k1, .weld g1 k2, c1.trans (by linarith), c2.trans ?_, by positivity, k6⟩
    linarith

end Tinyfk
