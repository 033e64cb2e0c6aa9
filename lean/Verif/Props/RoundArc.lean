import Verif.Proofs.RoundAsin
import Verif.Props.RoundBase
import Verif.Props.RoundJac
import Verif.Props.Rounding
import Verif.Props.RpyPole
import Verif.Props.Rotation
import Verif.Proofs.RoundJac

/-!
# Properties: rounding errors of roll, pitch and yaw

C136. The angles themselves can jump by a full turn, so the rotation that they describe is compared, entry by entry of its matrix.
-/

set_option linter.unusedSectionVars false

namespace Tinyfk

section
variable {F : Rounding} {ls' : List (RawLink (Fl F))} {js' : List (RawJoint (Fl F))} {ls : List (RawLink ℝ)} {js : List (RawJoint ℝ)}
  {welds : Weld ℝ → Prop} {ε μ A R : ℝ} {D : Nat}
  {m0 : KinModel (Fl F)} {cs : List (Call (Fl F))} {h : List (PyCall (Fl F))} {s : PyModel (Fl F)} {qs : QArg (Fl F)} {es ids : List Nat}
  {bt : BaseType} {wj : Bool} {c : SizedCache (Pose (Fl F))}

/-- **C136.** The roll, pitch and yaw in `P` of `solve_fk(..., rot_type=rpy, use_cache=False)`, in rounded arithmetic: as long as the sine
of the exact pitch is at most 0.9999, they describe a rotation whose matrix is, in every entry, within
`87500 * (d + 1) * ε * A / cos(pitch)` of that of the link in the exact robot. For every rotation, also at the singularity and where
the branch that is taken depends on rounding, they are within 1/100, if the quaternion is accurate to eight digits. (The sine of the pitch is minus the entry 2, 0 of the
matrix.) -/
theorem C136_solve_fk (hr : PyReach ls' js' m0 h cs s) (hf : Shallow ls' js' m0 cs)
    (hc : c.Fits s.robot.links.length) (ha : FkArgs m0 s qs es ids bt)
    (hne : wj = true → (∃ r ∈ ls', r.inertial.isSome) ∨ weldsAfter (names0 m0) cs ≠ [])
    (hR : RobotNear ε μ ls' js' (AllWelds ls' m0 cs) ls js welds) (hu : UnitDesc js) (hw : ∀ w, welds w → w.offset.rotation.norm2 = 1)
    (hue : F.u ≤ ε) (hA : 1 ≤ A) (hsm : Small F ε μ A D R) (hacc : 125 * (D + 1) * ε * A ≤ 1 / 1000000) (hF : InverseTrig F) :
    ∃ P J s', pySolveFk qs es ids .rpy bt wj false (s.withCache c) = .ok (P, J) s' ∧
      ∀ (k j l : Nat) (q : List (Fl F)) (n : String) (θ : String → ℝ) (base : Pose ℝ),
        qs.rows[k]? = some q → es[j]? = some l → getLinkIds [n] s.robot = .ok [l] s.robot →
        AnglesAfter (K := Fl F) m0 (cs ++ configCalls ids bt q) θ →
        PoseNear ε (ε * (base.position.len + μ)) (baseAfter Pose.identity (cs ++ configCalls ids bt q)) base →
        base.rotation.norm2 = 1 →
        (∀ j ∈ js, |θ j.name| ≤ A) → (∀ d L, PathLength ls js welds θ base n d L → d ≤ D ∧ L ≤ R) →
        ∃ d L T, WorldPose ls js welds θ base n T ∧ PathLength ls js welds θ base n d L ∧
          (|T.rotation.matrix 2 0| ≤ 9999 / 10000 →
            RpyNear (P.f (k * es.length + j) 3) (P.f (k * es.length + j) 4) (P.f (k * es.length + j) 5) T.rotation.matrix
              (87500 * (d + 1) * ε * A / √(1 - T.rotation.matrix 2 0 ^ 2))) ∧
          (125 * (d + 1) * ε * A ≤ 1 / 10 ^ 8 →
            RpyNear (P.f (k * es.length + j) 3) (P.f (k * es.length + j) 4) (P.f (k * es.length + j) 5) T.rotation.matrix (1 / 100)) := by
  obtain ⟨P, J, s', e, _, _, hrow⟩ := C02_solve_fk (rt := .rpy) hr hf hc ha hne
  refine ⟨P, J, s', e, fun k j l q n θ base h1 h2 h3 h4 hb hb1 hθ hD => ?_⟩
  obtain ⟨T', hT', hp⟩ := hrow k j l q n θ h1 h2 h3 h4
  have hbl := Rot.len_one hb1
  obtain ⟨_, _, _, _, hL1, hTL, _, _, _⟩ := world_near hR (Proper.of_unit hu hw) hue hA hθ hb (by rw [hbl]; norm_num) (by rw [hbl]; norm_num) hsm
    ((hT' T').mpr rfl) hD
  have hL0 := (hD _ _ hL1).2
  obtain ⟨d, L, T, hT, hL, hn⟩ := C94_world hR (Proper.of_unit hu hw) hue hA hsm hθ hb (by rw [hbl]; norm_num) (by rw [hbl]; norm_num) hD
    ((hT' T').mpr rfl)
  obtain ⟨_, _, _, p3, p4, p5⟩ := hp
  obtain ⟨hdD, hLR⟩ := hD d L hL
  have hTu : T.rotation.norm2 = 1 := hT.unit hu hw hb1
  have he : 0 ≤ ε := F.u_nonneg.trans hue
  have e0 : 0 ≤ ε * A := by positivity
  have hdR : (d : ℝ) ≤ D := by exact_mod_cast hdD
  have hR0 : 0 ≤ R := ((Real.sqrt_nonneg _).trans hTL).trans hL0
  have h64 : (64 : ℝ) ≤ 64 ^ (D + 2) := le_self_pow₀ (by norm_num) (by omega)
  have hbig : 9 ≤ F.big := by
    have := mul_le_mul h64 (show (1 : ℝ) ≤ 1 + R + A by linarith) (by norm_num) (by positivity)
    linarith [hsm.range]
  have htiny : F.tiny ≤ 1 / 2 := by
    have := mul_le_mul_of_nonneg_left h64 F.tiny_nonneg
    linarith [hsm.tiny, hsm.unit]
  have hrot := hn.rot
  rw [Rot.len_one hTu, mul_one] at hrot
  have hmat : T.rotation.matrix 2 0 = -T.rotation.sarg := by
    rw [Rot.matrix_unit hTu]; simp [Rot.sarg]
  have a1 : ((d : ℝ) + 1) * (ε * A) ≤ (D + 1) * (ε * A) := mul_le_mul_of_nonneg_right (by linarith) e0
  have a2 : ε * A ≤ ((d : ℝ) + 1) * (ε * A) := le_mul_of_one_le_left e0 (by linarith [Nat.cast_nonneg (α := ℝ) d])
  have a3 : ε ≤ ε * A := le_mul_of_one_le_right he hA
  have a4 : F.u ≤ 125 * (d + 1) * ε * A := by linarith
  refine ⟨d, L, T, hT, hL, fun hs => ?_, fun h8 => ?_⟩ <;> rw [p3, p4, p5] <;> intro i j'
  · show |(rotZ (Vec3.real T'.rotation.getRPY).z * rotY (Vec3.real T'.rotation.getRPY).y * rotX (Vec3.real T'.rotation.getRPY).x) i j' -
      T.rotation.matrix i j'| ≤ _
    rw [hmat, abs_neg] at hs
    rw [show T.rotation.matrix 2 0 ^ 2 = T.rotation.sarg ^ 2 by rw [hmat, neg_sq]]
    refine (Rounding.getRPY_matrix_near (q' := T'.rotation) hF a4 (by linarith) hbig htiny hTu hrot hs i j').trans (le_of_eq ?_)
    ring
  · exact Rounding.getRPY_every (q' := T'.rotation) hF a4 (by norm_num at h8 ⊢; exact h8) hbig htiny hTu hrot i j'

/-- the rotation that `set_base_pose` stores -/
theorem base_rotation_near {r p w : ℝ} (hA : 1 ≤ A) (h1 : |r| ≤ A) (h2 : |p| ≤ A) (h3 : |w| ≤ A)
    (hacc : 200 * F.u * A ≤ 1 / 1000000) (hb : 2 * A + 7 ≤ F.big) (ht : F.tiny ≤ 1 / 2) :
    Rot.dist (Rot.real (Rot.fromRPY (K := Fl F) r p w)) (Rot.fromRPY r p w) ≤ 200 * F.u * A := by
  have h0 := F.u_nonneg
  have e1 : F.u ≤ F.u * A := le_mul_of_one_le_right h0 hA
  obtain ⟨k1, _⟩ := F.rpy_near hA h1 h2 h3 (show |r - r| ≤ F.u * A by simp; linarith) (show |p - p| ≤ F.u * A by simp; linarith)
    (show |w - w| ≤ F.u * A by simp; linarith) (by linarith) (by linarith) ht (q := Rot.real (Rot.fromRPY (K := Fl F) r p w)) rfl
  rw [Rot.dist_quat]
  linarith

/-- **C136**, the base pose: after `set_base_pose` of six numbers, `get_base_pose` returns the same position and angles of nearly the same
rotation: within `140000 * u * A / |cos(pitch)|` if the sine of the pitch is at most 0.9999, and within 1/100 always. -/
theorem C136_base_pose (m : KinModel (Fl F)) {x y z r p w : ℝ} (hA : 1 ≤ A) (h1 : |r| ≤ A) (h2 : |p| ≤ A) (h3 : |w| ≤ A)
    (hacc : 200 * F.u * A ≤ 1 / 1000000) (hb : 2 * A + 7 ≤ F.big) (ht : F.tiny ≤ 1 / 2) (hF : InverseTrig F) :
    ∃ m1, ∃ r' p' w' : ℝ, setBasePoseVec (K := Fl F) [x, y, z, r, p, w] m = .ok () m1 ∧ getBasePose m1 = .ok [x, y, z, r', p', w'] m1 ∧
      (|Real.sin p| ≤ 9999 / 10000 → RpyNear r' p' w' (rotZ w * rotY p * rotX r) (140000 * F.u * A / |Real.cos p|)) ∧
      (200 * F.u * A ≤ 1 / 10 ^ 8 → RpyNear r' p' w' (rotZ w * rotY p * rotX r) (1 / 100)) := by
  have h0 := F.u_nonneg
  have e1 : F.u ≤ F.u * A := le_mul_of_one_le_right h0 hA
  have hd := base_rotation_near hA h1 h2 h3 hacc hb ht
  have hsa : (Rot.fromRPY r p w).sarg = Real.sin p := (Rot.fromRPY_entries r p w).2.2.2.2
  refine ⟨_, (Rot.fromRPY (K := Fl F) r p w).getRPY.real.x, (Rot.fromRPY (K := Fl F) r p w).getRPY.real.y,
    (Rot.fromRPY (K := Fl F) r p w).getRPY.real.z, rfl, rfl, fun hs i j => ?_, fun h8 i j => ?_⟩ <;> rw [← Rot.matrix_fromRPY r p w]
  · refine (Rounding.getRPY_matrix_near (q' := Rot.fromRPY (K := Fl F) r p w) hF (by linarith) hacc (by linarith) ht
      (Rot.norm2_fromRPY r p w) hd (by rw [hsa]; exact hs) i j).trans (le_of_eq ?_)
    rw [hsa, ← Real.abs_cos_eq_sqrt_one_sub_sin_sq]; ring
  · exact Rounding.getRPY_every (q' := Rot.fromRPY (K := Fl F) r p w) hF (by linarith) (by norm_num at h8 ⊢; exact h8) (by linarith) ht
      (Rot.norm2_fromRPY r p w) hd i j

end

namespace RoundExample

/-- the hand is turned about the vertical, tilted by 1/10 and turned again -/
theorem tilt {n : String} {T : Pose ℝ} (h : WorldPose ls js (fun w => w = com) θ base n T) :
    (n = "base" → T.rotation.matrix = rotZ 1) ∧
    (n = "arm" ∨ n = "hand" → T.rotation.matrix = rotZ 1 * (rotX (1 / 10) * rodrigues ⟨0, 0, 1⟩ 1)) := by
  have z0 : rotZ 0 = 1 := by ext i j; fin_cases i <;> fin_cases j <;> simp [rotZ]
  have y0 : rotY 0 = 1 := by ext i j; fin_cases i <;> fin_cases j <;> simp [rotY]
  have x0 : rotX 0 = 1 := by ext i j; fin_cases i <;> fin_cases j <;> simp [rotX]
  induction h with
  | @root l h1 h2 =>
    simp only [ls, List.mem_cons, List.not_mem_nil, or_false] at h1
    rcases h1 with rfl | rfl | rfl <;> simp [js, turn, slide] at h2 ⊢
    simp [base, Rot.matrix_fromRPY, x0, y0]
  | joint h1 _ he ih =>
    simp only [js, List.mem_cons, List.not_mem_nil, or_false] at h1
    rcases h1 with rfl | rfl
    · refine ⟨fun h => by simp [turn] at h, fun _ => ?_⟩
      cases he with
      | fixed h => simp [turn] at h
      | slide h => simp [turn] at h
      | rot h =>
        have hm := Rot.matrix_axis (k := turn.axis) (by simp [turn, Vec3.IsUnit]) (θ turn.name)
        simp only [Pose.transform, Rot.matrix_mul, ih.1 rfl, real_half, real_sin, real_cos]
        rw [hm]
        simp [turn, θ, Rot.matrix_fromRPY, z0, y0]
    · refine ⟨fun h => by simp [slide] at h, fun _ => ?_⟩
      cases he with
      | fixed h => simp [slide] at h
      | rot h => simp [slide] at h
      | slide h =>
        simp only [Pose.transform, Rot.matrix_mul, ih.2 (.inl rfl), Rot.matrix_one]
        simp [slide, Rot.matrix_fromRPY, z0, y0, x0]
  | weld h1 _ ih =>
    rw [h1]
    simp [com]

/-- In IEEE arithmetic the roll, pitch and yaw that `solve_fk` returns describe the rotation of the hand to eight digits. -/
theorem hand_rpy : ∃ P J s', pySolveFk (.nd1 q) [2] [0, 1] .rpy .planer false false (s0.withCache stale) = .ok (P, J) s' ∧
    ∃ T, WorldPose ls js (fun w => w = com) θ base "hand" T ∧ RpyNear (P.f 0 3) (P.f 0 4) (P.f 0 5) T.rotation.matrix (1 / 10 ^ 7) := by
  obtain ⟨P, J, s', e, h⟩ := C136_solve_fk (c := stale) (wj := false) (A := 2) s0_reach shallow stale_fits args nofun robot_near unitDesc
    (fun w hw => by subst hw; simp [com, Rot.norm2, Rot.one])
    (by have := dbl.u_nonneg; linarith) (by norm_num) small (by rw [u_eq]; norm_num) (binary64_inverse _)
  obtain ⟨d, L, T, hT, hp, hq, _⟩ := h 0 0 2 q "hand" θ base rfl rfl hand_id angles base_near.1 (Rot.norm2_fromRPY _ _ _) (by
      intro j hj
      simp only [js, List.mem_cons, List.not_mem_nil, or_false] at hj
      rcases hj with rfl | rfl <;> simp [turn, slide, θ]; norm_num)
    (fun d L h => by have := path h; simp at this; exact ⟨by omega, this.2⟩)
  obtain ⟨k1, k2⟩ := path hp
  simp at k1 k2
  subst k1
  have hm : |T.rotation.matrix 2 0| ≤ 1 / 2 := by
    rw [(tilt hT).2 (.inr rfl)]
    have h1 : (rotZ 1 * (rotX (1 / 10) * rodrigues ⟨0, 0, 1⟩ 1)) 2 0 = Real.sin (1 / 10) * Real.sin 1 := by
      simp [rotZ, rotX, rodrigues, crossMat, Matrix.vecMul, dotProduct, Fin.sum_univ_three]
    rw [h1, abs_mul]
    have a := abs_sin_sub_le (1 / 10) 0
    rw [Real.sin_zero, sub_zero, sub_zero] at a
    have b := mul_le_mul a (Real.abs_sin_le_one 1) (abs_nonneg _) (abs_nonneg _)
    norm_num at b ⊢
    linarith
  refine ⟨P, J, s', e, T, hT, fun i j => (hq (hm.trans (by norm_num)) i j).trans ?_⟩
  have hc : 1 / 2 ≤ √(1 - T.rotation.matrix 2 0 ^ 2) := by
    apply Real.le_sqrt_of_sq_le
    nlinarith [abs_le.mp hm, sq_abs (T.rotation.matrix 2 0), abs_nonneg (T.rotation.matrix 2 0)]
  rw [div_le_iff₀ (by linarith), u_eq]
  norm_num
  linarith

/-- `get_base_pose` after `set_base_pose`, in IEEE arithmetic -/
example : ∃ m1, ∃ r' p' w' : ℝ, setBasePoseVec (K := Fl dbl) [(1 : ℝ), (2 : ℝ), (3 : ℝ), (1 : ℝ), (1 / 2 : ℝ), (2 : ℝ)] m0 = .ok () m1 ∧
    getBasePose m1 = .ok [(1 : ℝ), (2 : ℝ), (3 : ℝ), r', p', w'] m1 ∧
    RpyNear r' p' w' (rotZ 2 * rotY (1 / 2) * rotX 1) (140000 * dbl.u * 2 / |Real.cos (1 / 2)|) := by
  obtain ⟨m1, r', p', w', k1, k2, k3, _⟩ := C136_base_pose (F := dbl) (A := 2) (x := 1) (y := 2) (z := 3) (r := 1) (p := 1 / 2) (w := 2) m0
    (by norm_num) (by norm_num) (by norm_num) (by norm_num) (by rw [u_eq]; norm_num)
    (by rw [big_eq]; norm_num) (by linarith [tiny_le]) (binary64_inverse _)
  refine ⟨m1, r', p', w', k1, k2, k3 ?_⟩
  have a := abs_sin_sub_le (1 / 2) 0
  rw [Real.sin_zero, sub_zero, sub_zero] at a
  norm_num at a ⊢
  linarith

/-- the same at a pitch of π/2, exactly at the singularity -/
example : ∃ m1, ∃ r' p' w' : ℝ, setBasePoseVec (K := Fl dbl) [(1 : ℝ), (2 : ℝ), (3 : ℝ), (1 : ℝ), (Real.pi / 2 : ℝ), (2 : ℝ)] m0 = .ok () m1 ∧
    getBasePose m1 = .ok [(1 : ℝ), (2 : ℝ), (3 : ℝ), r', p', w'] m1 ∧
    RpyNear r' p' w' (rotZ 2 * rotY (Real.pi / 2) * rotX 1) (1 / 100) := by
  obtain ⟨m1, r', p', w', k1, k2, _, k3⟩ := C136_base_pose (F := dbl) (A := 2) (x := 1) (y := 2) (z := 3) (r := 1) (p := Real.pi / 2) (w := 2) m0
    (by norm_num) (by norm_num) (by rw [abs_of_pos (by positivity)]; linarith [Real.pi_le_four]) (by norm_num) (by rw [u_eq]; norm_num)
    (by rw [big_eq]; norm_num) (by linarith [tiny_le]) (binary64_inverse _)
  exact ⟨m1, r', p', w', k1, k2, k3 (by rw [u_eq]; norm_num)⟩

end RoundExample

end Tinyfk
