import Verif.Proofs.FwdDiff
import Verif.Props.BaseJac

/-!
# C80: how far the base rotation columns are from the derivative
-/

namespace Tinyfk

open Scalar

section
variable {ls : List (RawLink ℝ)} {js : List (RawJoint ℝ)} {m0 m m' : KinModel ℝ} {cs : List (Call ℝ)}

section

theorem Pose.row_pos (rt : RotType) (T : Pose ℝ) {q : Nat} (hq : q < 3) : T.row rt q = T.position.cmp q := by
  match q, hq with
  | 0, _ | 1, _ | 2, _ => rfl

theorem Pose.row_quat (T : Pose ℝ) {q : Nat} (hq : q < 4) : T.row .xyzw (3 + q) = T.rotation.cmp q := by
  match q, hq with
  | 0, _ | 1, _ | 2, _ | 3, _ => rfl

theorem Vec3.cmp_add (a b : Vec3 ℝ) (q : Nat) : (Vec3.add a b).cmp q = a.cmp q + b.cmp q := by
  match q with
  | 0 | 1 | 2 => rfl
  | _ + 3 => simp [Vec3.cmp]

theorem Harm.add_const {k ρ : ℝ} {g : ℝ → ℝ} (h : Harm k ρ g) (c : ℝ) : Harm k ρ fun t => g t + c := by
  obtain ⟨a, b, c', hg, hab⟩ := h
  exact ⟨a, b, c' + c, fun t => by simp only [hg]; ring, hab⟩

/-- the distance from the base, in the base frame -/
theorem len2_local {B E : Pose ℝ} (hB : B.rotation.norm2 = 1) :
    (Pose.transform B.inverse E).position.len2 = (Vec3.sub E.position B.position).len2 := by
  have hi : B.rotation.inverse.norm2 = 1 := Rot.norm2_inverse hB
  have e : (Pose.transform B.inverse E).position = B.rotation.inverse.rotate (Vec3.sub E.position B.position) := by
    show Vec3.add (B.rotation.inverse.rotate E.position) (B.rotation.inverse.rotate B.position.inverseInplace) = _
    have h1 := Rot.rotate_matrix B.rotation.inverse
    have : ∀ a b : Vec3 ℝ, a.toV = b.toV → a = b := by
      intro a b h
      have h0 := congrFun h 0
      have h1 := congrFun h 1
      have h2 := congrFun h 2
      simp [Vec3.toV] at h0 h1 h2
      exact Vec3.ext h0 h1 h2
    apply this
    have ha : ∀ a b : Vec3 ℝ, (Vec3.add a b).toV = a.toV + b.toV := by
      intro a b; ext i; fin_cases i <;> rfl
    have hs : (Vec3.sub E.position B.position).toV = E.position.toV + B.position.inverseInplace.toV := by
      ext i; fin_cases i <;> simp [Vec3.toV, Vec3.sub, Vec3.inverseInplace] <;> ring
    rw [ha, h1, h1, h1, hs, Matrix.mulVec_add]
  rw [e, len2_rotate hi]

end

/-- `J` is within `ε` of the derivative of `g` at `t` -/
def NearDeriv (g : ℝ → ℝ) (t J ε : ℝ) : Prop := ∃ D, HasDerivAt g D t ∧ |J - D| ≤ ε

/-- **C80.** After any history, let `[x, y, z, r, p, w]` be what `get_base_pose` returns, the pitch being away
from the singularity. The position rows of the last three columns of `get_jacobian` with `with_base` differ
from the derivative of the link position in base roll, pitch and yaw by at most `5e-8` times the distance of the
link from the base. -/
theorem C80_base_rotation_error (h : Reach ls js m0 cs m) (hf : Shallow ls js m0 cs) (hu : UnitDesc js) (hc : UnitCalls cs)
    (hne : (∃ r ∈ ls, r.inertial.isSome) ∨ weldsAfter (names0 m0) cs ≠ []) {l : Nat} (hl : l < m.links.length)
    {ids : List Nat} (hids : ∀ i ∈ ids, i < m.joints.length) (rt : RotType)
    (hb : |m.base.rotation.sarg| < 99999 / 100000) :
    ∃ J m' f E m2 x y z r p w, getJacobian l ids rt true m = .ok J m' ∧ BaseCurve m l f ∧
      getLinkPose l m = .ok E m2 ∧ getBasePose m = .ok [x, y, z, r, p, w] m ∧
      let d := Real.sqrt ((E.position.x - x) ^ 2 + (E.position.y - y) ^ 2 + (E.position.z - z) ^ 2)
      ∀ q < 3,
        NearDeriv (fun t => (f x y z t p w).row rt q) r (J.f q (ids.length + 3)) (5 / 10 ^ 8 * d) ∧
        NearDeriv (fun t => (f x y z r t w).row rt q) p (J.f q (ids.length + 4)) (5 / 10 ^ 8 * d) ∧
        NearDeriv (fun t => (f x y z r p t).row rt q) w (J.f q (ids.length + 5)) (5 / 10 ^ 8 * d) := by
  obtain ⟨E, J, m', hE, e, hJ⟩ := h.baseRot hf hu hc hne hl hids rt hb
  obtain ⟨m2, e2, _⟩ := getLinkPose_spec (h.ready hf) hE
  refine ⟨J, m', onBase m E, E, m2, m.base.position.x, m.base.position.y, m.base.position.z, m.base.rotation.getRPY.x,
    m.base.rotation.getRPY.y, m.base.rotation.getRPY.z, e, h.baseCurve hf hu hc hE, e2, rfl, ?_⟩
  intro d q hq
  have hd : d = Real.sqrt (Pose.transform m.base.inverse E).position.len2 := by
    rw [len2_local (h.unitModel hu hc).base]; rfl
  have hdim : q < rt.dim := by cases rt <;> simp [RotType.dim] <;> omega
  obtain ⟨j1, j2, j3⟩ := hJ q hdim (.inl hq)
  rw [j1, j2, j3]
  have hε : ∀ D, (1 : ℝ) ^ 2 * D * (1 / 10 ^ 7) / 2 = 5 / 10 ^ 8 * D := by intro D; ring
  have key : ∀ g : ℝ → ℝ, Harm 1 d g → ∀ t, NearDeriv g t ((g (t + 1 / 10 ^ 7) - g t) / (1 / 10 ^ 7)) (5 / 10 ^ 8 * d) := by
    intro g hg t
    obtain ⟨D, h1, h2⟩ := hg.fwd (by norm_num) (Real.sqrt_nonneg _) t (h := 1 / 10 ^ 7) (by positivity)
    exact ⟨D, h1, by rw [← hε]; exact h2⟩
  have hrow : ∀ x y z r p w, (onBase m E x y z r p w).row rt q =
      ((Rot.fromRPY r p w).rotate (Pose.transform m.base.inverse E).position).cmp q + (⟨x, y, z⟩ : Vec3 ℝ).cmp q := by
    intro x y z r p w
    rw [Pose.row_pos rt _ hq, onBase, Pose.transform, Vec3.cmp_add]
  refine ⟨key _ ?_ _, key _ ?_ _, key _ ?_ _⟩
  all_goals
    simp only [hrow, hd]
    apply Harm.add_const
  · exact harm_roll _ _ _ hq
  · exact harm_pitch _ _ _ hq
  · exact harm_yaw _ _ _ hq

/-- **C80, quaternion rows.** If the base was just set with roll and yaw in `(-π, π]` and pitch in
`(-π/2, π/2)` away from the singularity, the quaternion rows of the last three columns differ from the derivative of
the link's quaternion by at most `1.25e-8`. -/
theorem C80_quaternion_error (h : Reach ls js m0 cs m) (hf : Shallow ls js m0 cs) (hu : UnitDesc js) (hc : UnitCalls cs)
    (hne : (∃ r ∈ ls, r.inertial.isSome) ∨ weldsAfter (names0 m0) cs ≠ []) {l : Nat} (hl : l < m.links.length)
    {ids : List Nat} (hids : ∀ i ∈ ids, i < m.joints.length) (x y z : ℝ) {r p w : ℝ} (hbox : RpyBox r p w) :
    ∃ m1 J m' f, setBasePoseVec [x, y, z, r, p, w] m = .ok () m1 ∧ getJacobian l ids .xyzw true m1 = .ok J m' ∧ BaseCurve m1 l f ∧
      ∀ q, 3 ≤ q → q < 7 →
        NearDeriv (fun t => (f x y z t p w).row .xyzw q) r (J.f q (ids.length + 3)) (125 / 10 ^ 10) ∧
        NearDeriv (fun t => (f x y z r t w).row .xyzw q) p (J.f q (ids.length + 4)) (125 / 10 ^ 10) ∧
        NearDeriv (fun t => (f x y z r p t).row .xyzw q) w (J.f q (ids.length + 5)) (125 / 10 ^ 10) := by
  obtain ⟨m1, cs1, e1, hr1, hf1, hc1, hw1, hb1, hl1, hj1, _⟩ := h.setBaseVec hf hc x y z r p w
  have hg : m1.base.rotation.getRPY = ⟨r, p, w⟩ := by rw [hb1]; exact hbox.getRPY
  have hs : |m1.base.rotation.sarg| < 99999 / 100000 := by
    rw [hb1, (Rot.fromRPY_entries r p w).2.2.2.2]; exact hbox.band
  obtain ⟨E, J, m', hE, e, hJ⟩ := hr1.baseRot hf1 hu hc1 (by rw [hw1]; exact hne) (by rw [hl1]; exact hl) (ids := ids)
    (by rw [hj1]; exact hids) .xyzw hs
  refine ⟨m1, J, m', onBase m1 E, e1, e, hr1.baseCurve hf1 hu hc1 hE, ?_⟩
  have hE1 := (onBase_reported hr1 hu hc1 hs hE).2 (by rw [hg, hb1])
  rw [hg, hb1] at hE1 hJ
  intro q hq hq7
  obtain ⟨j1, j2, j3⟩ := hJ q hq7 (.inr (.inr hE1))
  obtain ⟨i, rfl⟩ : ∃ i, q = 3 + i := ⟨q - 3, by omega⟩
  have hi : i < 4 := by omega
  rw [j1, j2, j3]
  have hε : (1 / 2 : ℝ) ^ 2 * 1 * (1 / 10 ^ 7) / 2 = 125 / 10 ^ 10 := by norm_num
  have key : ∀ g : ℝ → ℝ, Harm (1 / 2) 1 g → ∀ t, NearDeriv g t ((g (t + 1 / 10 ^ 7) - g t) / (1 / 10 ^ 7)) (125 / 10 ^ 10) := by
    intro g hg t
    obtain ⟨D, h1, h2⟩ := hg.fwd (by norm_num) (by norm_num) t (h := 1 / 10 ^ 7) (by positivity)
    exact ⟨D, h1, by rw [← hε]; exact h2⟩
  have hu1 := hr1.unitModel hu hc1
  have hs1 : (Pose.transform m1.base.inverse E).rotation.norm2 = 1 := by
    show (Rot.mul m1.base.rotation.inverse E.rotation).norm2 = 1
    rw [Rot.norm2_mul, Rot.norm2_inverse hu1.base, hE.unit hu1, mul_one]
  have hrow : ∀ x y z r p w, (onBase m1 E x y z r p w).row .xyzw (3 + i) =
      (Rot.mul (Rot.fromRPY r p w) (Pose.transform m1.base.inverse E).rotation).cmp i := by
    intro x y z r p w
    rw [Pose.row_quat _ hi, onBase]; rfl
  refine ⟨key _ ?_ _, key _ ?_ _, key _ ?_ _⟩
  all_goals simp only [hrow]
  · exact harm_quat_roll _ _ hs1 _
  · exact harm_quat_pitch _ _ hs1 _
  · exact harm_quat_yaw _ _ hs1 _

end

namespace Example

-- the link "tool" after a history
example := C80_base_rotation_error m1_reach shallow unitDesc unitCalls_hist hasInertial (m1_reach.link_lt tool_id) two_joints .rpy
  (by rw [m1_reach.abs.base]; simp [hist, baseAfter, Rot.sarg, Rot.one])
example := C80_quaternion_error m1_reach shallow unitDesc unitCalls_hist hasInertial (m1_reach.link_lt tool_id) two_joints
  1 2 3 (r := 1) (p := 0) (w := 2) ⟨⟨by linarith [Real.pi_pos], by linarith [Real.pi_gt_three]⟩,
    ⟨by linarith [Real.pi_pos], by linarith [Real.pi_pos]⟩, ⟨by linarith [Real.pi_pos], by linarith [Real.pi_gt_three]⟩, by simp⟩

end Example

end Tinyfk
