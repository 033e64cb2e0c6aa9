import Verif.Props.Axis
import Verif.Spec.NoAxis
import Mathlib.Tactic.IntervalCases

/-!
# C121: turning joints without an axis
-/

set_option linter.unusedSectionVars false

namespace Tinyfk

open Scalar

namespace Rot

theorem faded_rotate {κ : ℝ} (hκ : κ ≠ 0) (q : Rot ℝ) (v : Vec3 ℝ) : (faded κ q).rotate v = q.rotate v := by
  by_cases h : q.norm2 = 0
  · rw [eq_zero_of_norm2 h]
    simp [faded]
  · have hn : (faded κ q).norm2 = κ ^ 2 * q.norm2 := by simp only [faded, norm2]; ring
    rw [rotate_eq _ _ h, rotate_eq _ _ (by rw [hn]; positivity), hn]
    simp only [faded, Vec3.mk.injEq]
    refine ⟨?_, ?_, ?_⟩ <;> (field_simp)

theorem faded_mul (a b : ℝ) (q r : Rot ℝ) : mul (faded a q) (faded b r) = faded (a * b) (mul q r) := by
  simp only [faded, mul, Rot.mk.injEq]
  refine ⟨?_, ?_, ?_, ?_⟩ <;> ring

theorem faded_one (q : Rot ℝ) : faded 1 q = q := by simp [faded]

theorem faded_zero (q : Rot ℝ) : faded 0 q = ⟨0, 0, 0, 0⟩ := by simp [faded]

theorem mul_zero_left (r : Rot ℝ) : mul ⟨0, 0, 0, 0⟩ r = ⟨0, 0, 0, 0⟩ := by simp [mul]

end Rot

/-- the transform of a turning joint without an axis -/
theorem RawJoint.axisless.edge {j : RawJoint ℝ} (h : j.axisless) {θ : ℝ} {T : Pose ℝ} (hT : RawEdge j θ T) :
    T = ⟨j.origin.position, Rot.faded (Real.cos (θ / 2)) j.origin.rotation⟩ := by
  obtain ⟨ht, ha⟩ := h
  cases hT with
  | fixed h' => rcases ht with ht | ht <;> rw [ht] at h' <;> cases h'
  | slide h' => rcases ht with ht | ht <;> rw [ht] at h' <;> cases h'
  | rot _ =>
    simp only [ha, real_half, real_sin, real_cos]
    rw [show θ * (1 / 2) = θ / 2 by ring]
    simp only [Pose.transform, Vec3.zero, Rot.rotate_zero, Vec3.add, Pose.mk.injEq]
    refine ⟨by ext <;> simp, ?_⟩
    simp only [Rot.mul, Rot.faded, Rot.mk.injEq]
    refine ⟨?_, ?_, ?_, ?_⟩ <;> ring

section

variable {ls : List (RawLink ℝ)} {js : List (RawJoint ℝ)} {welds : Weld ℝ → Prop} {θ : String → ℝ} {base : Pose ℝ}

theorem RawJoint.frozen_child (j : RawJoint ℝ) : j.frozen.childLinkName = j.childLinkName := by
  unfold RawJoint.frozen; split <;> rfl

theorem RawJoint.frozen_parent (j : RawJoint ℝ) : j.frozen.parentLinkName = j.parentLinkName := by
  unfold RawJoint.frozen; split <;> rfl

theorem RawJoint.frozen_name (j : RawJoint ℝ) : j.frozen.name = j.name := by
  unfold RawJoint.frozen; split <;> rfl

/-- the pose of a link is that of the robot with those joints fixed, with a smaller quaternion -/
theorem WorldPose.faded (hcos : ∀ j ∈ js, j.axisless → Real.cos (θ j.name / 2) ≠ 0) {n : String} {T : Pose ℝ}
    (h : WorldPose ls js welds θ base n T) :
    ∃ κ S, κ ≠ 0 ∧ Fading ls js welds θ n κ ∧ WorldPose ls (js.map RawJoint.frozen) welds θ base n S ∧
      T.position = S.position ∧ T.rotation = Rot.faded κ S.rotation := by
  induction h with
  | root hl hr =>
    refine ⟨1, base, one_ne_zero, .root hl hr, .root hl ?_, rfl, (Rot.faded_one _).symm⟩
    intro j hj
    obtain ⟨r, hr', rfl⟩ := List.mem_map.mp hj
    rw [RawJoint.frozen_child]
    exact hr r hr'
  | @joint j B T hj _ hE ih =>
    obtain ⟨κ, S, hκ, hf, hS, hp, hq⟩ := ih
    have hm := List.mem_map_of_mem (f := RawJoint.frozen) hj
    by_cases ha : j.axisless
    · have e := ha.edge hE
      refine ⟨κ * Real.cos (θ j.name / 2), Pose.transform S j.origin, mul_ne_zero hκ (hcos j hj ha), .bare hj ha hf, ?_, ?_, ?_⟩
      · have := WorldPose.joint (ls := ls) (welds := welds) (θ := θ) (base := base) hm (B := S) (T := j.origin)
          (by rw [RawJoint.frozen_parent]; exact hS) (by
            have : j.frozen = { j with type := .fixed } := by simp [RawJoint.frozen, ha]
            rw [this]; exact .fixed rfl)
        rw [RawJoint.frozen_child] at this
        exact this
      · rw [e]; simp only [Pose.transform]; rw [hp, hq, Rot.faded_rotate hκ]
      · rw [e]; simp only [Pose.transform]; rw [hq, Rot.faded_mul]
    · have hfr : j.frozen = j := by simp [RawJoint.frozen, ha]
      refine ⟨κ, Pose.transform S T, hκ, .joint hj ha hf, ?_, ?_, ?_⟩
      · rw [hfr] at hm
        exact .joint hm hS hE
      · simp only [Pose.transform]; rw [hp, hq, Rot.faded_rotate hκ]
      · simp only [Pose.transform]; rw [hq, ← Rot.faded_one T.rotation, Rot.faded_mul, Rot.faded_one, mul_one]
  | @weld w B hw _ ih =>
    obtain ⟨κ, S, hκ, hf, hS, hp, hq⟩ := ih
    refine ⟨κ, _, hκ, .weld hw hf, .weld hw hS, ?_, ?_⟩
    · simp only [Pose.transform]; rw [hp, hq, Rot.faded_rotate hκ]
    · simp only [Pose.transform]; rw [hq, ← Rot.faded_one w.offset.rotation, Rot.faded_mul, Rot.faded_one, mul_one]

end

section

variable {ls : List (RawLink ℝ)} {js : List (RawJoint ℝ)} {m0 m m' : KinModel ℝ} {cs : List (Call ℝ)}

/-- **C121 (poses).** Unless one of them stands at an odd multiple of `π`, turning joints without an axis act on
positions as if they were fixed, while the quaternion `get_link_pose` returns is multiplied by the cosine of half
of each of their angles. -/
theorem C121_poses (h : Reach ls js m0 cs m) (hf : Shallow ls js m0 cs) {θ : String → ℝ} (hθ : AnglesAfter m0 cs θ)
    (hcos : ∀ j ∈ js, j.axisless → Real.cos (θ j.name / 2) ≠ 0) {n : String} {l : Nat} (hn : getLinkIds [n] m = .ok [l] m) :
    ∃ T m' κ S, getLinkPose l m = .ok T m' ∧ Fading ls js (AllWelds ls m0 cs) θ n κ ∧
      WorldPose ls (js.map RawJoint.frozen) (AllWelds ls m0 cs) θ (baseAfter Pose.identity cs) n S ∧
      T.position = S.position ∧ T.rotation = Rot.faded κ S.rotation := by
  obtain ⟨lk, h1, rfl⟩ := h.link hn
  obtain ⟨T, hT⟩ := h.abs.inv.exists_pose (List.getElem?_eq_some_iff.mp h1).1
  obtain ⟨m2, e, _⟩ := getLinkPose_spec (h.abs.inv.ready (h.fits hf)) hT
  obtain ⟨κ, S, _, hk, hS, hp, hq⟩ := ((h.abs.worldPose_iff h.tree hθ.find h1 T).mp hT).faded hcos
  exact ⟨T, m2, κ, S, e, hk, hS, hp, hq⟩

/-- **C121 (length).** If the description is otherwise normalised, the quaternion has length `|κ|`. -/
theorem C121_length (hu : UnitDesc (js.map RawJoint.frozen)) (hc : UnitCalls cs) {θ : String → ℝ} {n : String} {S : Pose ℝ} (κ : ℝ)
    (hS : WorldPose ls (js.map RawJoint.frozen) (AllWelds ls m0 cs) θ (baseAfter Pose.identity cs) n S) :
    (Rot.faded κ S.rotation).norm2 = κ ^ 2 := by
  have := WorldPose.unit hu (fun w hw => hc.allWelds hw) (hc.base (b := Pose.identity) Rot.norm2_one) hS
  have e : (Rot.faded κ S.rotation).norm2 = κ ^ 2 * S.rotation.norm2 := by simp only [Rot.faded, Rot.norm2]; ring
  rw [e, this, mul_one]

/-- **C121 (roll, pitch, yaw).** Away from the poles the roll and yaw read off such a quaternion are right, and the
pitch is `asin (κ² sin p)` where `p` is the pitch of the link. -/
theorem C121_rpy {κ : ℝ} (hκ : κ ≠ 0) (h1 : κ ^ 2 ≤ 1) {q : Rot ℝ} (hq : |q.sarg| < 99999 / 100000) :
    (Rot.faded κ q).getRPY.x = q.getRPY.x ∧ (Rot.faded κ q).getRPY.z = q.getRPY.z ∧
      (Rot.faded κ q).getRPY.y = Real.arcsin (κ ^ 2 * Real.sin q.getRPY.y) := by
  have hk : 0 < κ ^ 2 := by positivity
  obtain ⟨ha, hb⟩ := abs_lt.mp hq
  have e : (Rot.faded κ q).sarg = κ ^ 2 * q.sarg := by simp only [Rot.faded, Rot.sarg]; ring
  have hf : |κ ^ 2 * q.sarg| < 99999 / 100000 := by
    rw [abs_mul, abs_of_pos hk]
    nlinarith [abs_nonneg q.sarg]
  obtain ⟨hc, hd⟩ := abs_lt.mp hf
  rw [Rot.getRPY_of_band hq, Rot.getRPY_of_band (by rw [e]; exact hf)]
  have harg : ∀ a b : ℝ, Complex.arg ⟨κ ^ 2 * a, κ ^ 2 * b⟩ = Complex.arg ⟨a, b⟩ := by
    intro a b
    generalize κ ^ 2 = t at hk
    rw [← Complex.arg_real_mul ⟨a, b⟩ hk]
    congr 1
    apply Complex.ext <;> simp
  refine ⟨?_, ?_, ?_⟩
  · simp only
    rw [← harg (q.w * q.w - q.x * q.x - q.y * q.y + q.z * q.z)]
    simp only [Rot.faded]
    congr 2 <;> ring
  · simp only
    rw [← harg (q.w * q.w + q.x * q.x - q.y * q.y - q.z * q.z)]
    simp only [Rot.faded]
    congr 2 <;> ring
  · simp only
    rw [e, Real.sin_arcsin (by linarith) (by linarith)]

/-- the robot around a turning joint without an axis -/
theorem Reach.bare_split (h : Reach ls js m0 cs m) {j : RawJoint ℝ} (hj : j ∈ js) (ha : j.axisless) {i : Nat}
    (hi : getJointIds [j.name] m = .ok [i] m) {n : String} {l : Nat} (hn : getLinkIds [n] m = .ok [l] m)
    (hon : JointOnPath js (AllWelds ls m0 cs) j.name n) :
    ∃ (F R : Pose ℝ) (c : Nat), getLinkIds [j.childLinkName] m = .ok [c] m ∧
      ∀ v, IsPose (turned m i v) c ⟨F.position, Rot.faded (Real.cos (v / 2)) F.rotation⟩ ∧
        IsPose (turned m i v) l (Pose.transform ⟨F.position, Rot.faded (Real.cos (v / 2)) F.rotation⟩ R) := by
  have hA := h.abs
  have g := hA.inv.graph
  have hfi := getJointIds_one.mp hi
  obtain ⟨jp, j1, hjp, hj1, hnm⟩ := (g.jointNames _ i).mp hfi
  obtain ⟨lk, h1, rfl⟩ := h.link hn
  have hon' : OnPath m jp l := (hA.desc.onPath_iff g h.tree hfi hjp h1).mpr hon
  obtain ⟨j', c, p, ck, B, R, e1, e2, e3, e4, e5, e6, hB, key⟩ := g.joint_split hjp hon'
  rw [hj1] at e1; cases e1
  obtain ⟨r, j2, hr, hj2, hraw⟩ := hA.desc.joints i jp hjp
  rw [hj1] at hj2; cases hj2
  have hrj : r = j := by
    refine List.inj_on_of_nodup_map hA.desc.jointNodup hr hj ?_
    rw [← hnm]
    obtain ⟨_, _, rfl⟩ := hraw
    rfl
  subst hrj
  have hax : j1.axis = ⟨0, 0, 0⟩ := by obtain ⟨_, _, rfl⟩ := hraw; exact ha.2
  have hty : j1.type = .revolute ∨ j1.type = .continuous := by obtain ⟨_, _, rfl⟩ := hraw; exact ha.1
  have hcn : ck.name = r.childLinkName := by
    rcases hA.desc.links c ck e4 with ⟨hp, _⟩ | ⟨p', pk, jp', j'', a1, a2, a3, a4, hcase⟩
    · rw [e5] at hp; cases hp
    · rw [e6] at a3; cases a3
      rw [hj1] at a4; cases a4
      rcases hcase with ⟨r', hr', hraw', _, b2⟩ | ⟨hw, _⟩
      · have : r' = r := by
          refine List.inj_on_of_nodup_map hA.desc.jointNodup hr' hr ?_
          obtain ⟨_, _, q1⟩ := hraw
          obtain ⟨_, _, q2⟩ := hraw'
          have := congrArg Joint.name (q2.symm.trans q1)
          exact this
        rw [← b2, this]
      · rw [hw] at hty
        rcases hty with h' | h' <;> cases h'
  refine ⟨Pose.transform B j1.origin, R, c, getLinkIds_one.mpr ((g.linkNames _ _).mpr ⟨ck, e4, hcn⟩), fun v => ?_⟩
  have hM := jointMotion_rot hty v
  have hq : Rot.axisQ j1.axis v = ⟨0, 0, 0, Real.cos (v / 2)⟩ := by rw [hax]; simp [Rot.axisQ]
  have hP : Pose.transform (Pose.transform B j1.origin) ⟨Vec3.zero, Rot.axisQ j1.axis v⟩ =
      ⟨(Pose.transform B j1.origin).position, Rot.faded (Real.cos (v / 2)) (Pose.transform B j1.origin).rotation⟩ := by
    rw [hq]
    generalize Pose.transform B j1.origin = F
    simp only [Pose.transform, Vec3.zero, Rot.rotate_zero, Vec3.add, Pose.mk.injEq]
    refine ⟨by ext <;> simp, ?_⟩
    simp only [Rot.mul, Rot.faded, Rot.mk.injEq]
    refine ⟨?_, ?_, ?_, ?_⟩ <;> ring
  have hk := key v _ hM
  rw [hP] at hk
  exact hk

/-- **C121 (collapse).** With such a joint at an odd multiple of `π`, every link behind it is reported at the
position of the joint's child link, with the zero quaternion. -/
theorem C121_collapse (h : Reach ls js m0 cs m) (hf : Shallow ls js m0 cs) {j : RawJoint ℝ} (hj : j ∈ js) (ha : j.axisless)
    {i : Nat} (hi : getJointIds [j.name] m = .ok [i] m) {n : String} {l c : Nat} (hn : getLinkIds [n] m = .ok [l] m)
    (hc : getLinkIds [j.childLinkName] m = .ok [c] m) (hon : JointOnPath js (AllWelds ls m0 cs) j.name n)
    {v : ℝ} (hv : Real.cos (v / 2) = 0) :
    ∃ m1 T m2 C m3, setJointAngles [i] [v] m = .ok () m1 ∧ getLinkPose l m1 = .ok T m2 ∧ getLinkPose c m1 = .ok C m3 ∧
      T.position = C.position ∧ T.rotation = ⟨0, 0, 0, 0⟩ := by
  obtain ⟨F, R, c', hc', key⟩ := h.bare_split hj ha hi hn hon
  rw [hc] at hc'
  injection hc' with e _
  injection e with e _
  subst e
  obtain ⟨jp, _, hjp, _⟩ := (h.abs.inv.graph.jointNames _ i).mp (getJointIds_one.mp hi)
  have hil : i < m.angles.length := by rw [h.abs.inv.graph.anglesLen]; exact (List.getElem?_eq_some_iff.mp hjp).1
  have hready := (h.abs.inv.turned i v).ready (FitsStack.congr (m := m) rfl rfl (h.fits hf))
  obtain ⟨k1, k2⟩ := key v
  obtain ⟨m2, e2, _⟩ := getLinkPose_spec hready k2
  obtain ⟨m3, e3, _⟩ := getLinkPose_spec hready k1
  refine ⟨_, _, m2, _, m3, turned_set hil v, e2, e3, ?_, ?_⟩
  · rw [hv, Rot.faded_zero]
    simp only [Pose.transform, Rot.rotate_zero_quat, Vec3.add]
    ext <;> simp
  · rw [hv, Rot.faded_zero]
    simp only [Pose.transform, Rot.mul_zero_left]

/-- **C121 (Jacobian).** The Jacobian column of such a joint is zero: right for the position, which does not depend on
the angle, but not for the quaternion, which is `cos (v / 2)` times a constant. -/
theorem C121_column (h : Reach ls js m0 cs m) (hf : Shallow ls js m0 cs)
    (hne : (∃ r ∈ ls, r.inertial.isSome) ∨ weldsAfter (names0 m0) cs ≠ []) {j : RawJoint ℝ} (hj : j ∈ js) (ha : j.axisless)
    {i : Nat} (hi : getJointIds [j.name] m = .ok [i] m) {n : String} {l : Nat} (hn : getLinkIds [n] m = .ok [l] m)
    (hon : JointOnPath js (AllWelds ls m0 cs) j.name n)
    {ids : List Nat} (hids : ∀ i ∈ ids, i < m.joints.length) (rt : RotType) (wb : Bool) :
    (∃ J m', getJacobian l ids rt wb m = .ok J m' ∧ ∀ k, ids[k]? = some i →
      (∀ r < 3, J.f r k = 0) ∧ (rt = .xyzw → ∀ r < 7, J.f r k = 0)) ∧
    ∃ (T : ℝ → Pose ℝ) (P : Vec3 ℝ) (Q : Rot ℝ), PoseCurve m l i T ∧
      (∀ v, Real.cos (v / 2) ≠ 0 → (T v).position = P) ∧ ∀ v, (T v).rotation = Rot.faded (Real.cos (v / 2)) Q := by
  have hg := h.abs.inv.graph
  have hfi := getJointIds_one.mp hi
  obtain ⟨jp, j1, hjp, hj1, hnm⟩ := (hg.jointNames _ i).mp hfi
  have hil : i < m.joints.length := (List.getElem?_eq_some_iff.mp hjp).1
  obtain ⟨lk, hl1, rfl⟩ := h.link hn
  have hl : l < m.links.length := (List.getElem?_eq_some_iff.mp hl1).1
  constructor
  · obtain ⟨E, cols, hE, hcols, m', e, _⟩ := h.jacobian hf hne hl hids rt wb
    refine ⟨_, m', e, ?_⟩
    intro k hk
    have hkl : k < cols.length := by rw [← hcols.length_eq]; exact (List.getElem?_eq_some_iff.mp hk).1
    have hkc : cols[k]? = some cols[k] := by simp [hkl]
    have hcol : IsJointCol m rt l E i cols[k] := by
      obtain ⟨hk1, hk2⟩ := List.getElem?_eq_some_iff.mp hk
      rw [← hk2]
      exact (List.forall₂_iff_get.mp hcols).2 k hk1 hkl
    have hv : ∀ q, q < rt.dim → (jacMat rt cols E (if wb then some m.base else none)).f q k = cols[k] q := by
      intro q hq
      simp only [jacMat, hq, hkl, if_true, List.getD_eq_getElem?_getD, hkc, Option.getD_some]
    have h3 := rt.dim_ge
    have hz : (∀ r < 3, cols[k] r = 0) ∧ (rt = .xyzw → ∀ r < 7, cols[k] r = 0) := by
      rcases hcol with ⟨_, h2⟩ | ⟨jp', j', c, C, _, h2, h3', h4, _, h6, h7⟩
      · rw [h2]; exact ⟨fun _ _ => rfl, fun _ _ _ => rfl⟩
      · rw [hjp] at h2; cases h2
        rw [hj1] at h3'; cases h3'
        obtain ⟨r, j2, hr, hj2, hraw⟩ := h.abs.desc.joints i jp hjp
        rw [hj1] at hj2; cases hj2
        have hrj : r = j := by
          refine List.inj_on_of_nodup_map h.abs.desc.jointNodup hr hj ?_
          rw [← hnm]
          obtain ⟨_, _, rfl⟩ := hraw
          rfl
        subst hrj
        have hax : j1.axis = ⟨0, 0, 0⟩ := by obtain ⟨_, _, rfl⟩ := hraw; exact ha.2
        have hty : j1.type ≠ .prismatic := by
          obtain ⟨_, _, rfl⟩ := hraw
          intro hp
          rcases ha.1 with h' | h' <;> (have := h'.symm.trans hp; cases this)
        rw [h7]
        refine ⟨?_, ?_⟩
        · intro q hq
          interval_cases q <;> simp [jointCol, hax, hty, Vec3.cross]
        · rintro rfl q hq
          interval_cases q <;> simp [jointCol, hax, hty, Vec3.cross, qDerivative]
    refine ⟨fun r hr => ?_, ?_⟩
    · rw [hv r (by omega)]; exact hz.1 r hr
    · rintro rfl r hr
      rw [hv r hr]; exact hz.2 rfl r hr
  · obtain ⟨F, R, c, _, key⟩ := h.bare_split hj ha hi hn hon
    refine ⟨_, Vec3.add (F.rotation.rotate R.position) F.position, Rot.mul F.rotation R.rotation,
      h.poseCurve hf hil fun v => (key v).2, ?_, ?_⟩
    · intro v hv
      simp only [Pose.transform]
      rw [Rot.faded_rotate hv]
    · intro v
      simp only [Pose.transform]
      rw [← Rot.faded_one R.rotation, Rot.faded_mul, Rot.faded_one, mul_one]

end

namespace NoAxis

open Example

/-- the revolute joint of the example without an axis -/
noncomputable def turn0 : RawJoint ℝ := { turn with axis := ⟨0, 0, 0⟩ }

/-- the `<joint>` elements -/
noncomputable def js0 : List (RawJoint ℝ) := [turn0, slide, weld]

theorem isTree0 : IsTree js0 := by
  refine ⟨by simp [js0, turn0, turn, slide, weld], ?_⟩
  refine ⟨fun s => if s = "base" then 0 else if s = "arm" then 1 else if s = "hand" then 2 else 3, ?_⟩
  simp [js0, turn0, turn, slide, weld]

theorem supported0 : Supported js0 := by
  intro j hj
  simp only [js0, List.mem_cons, List.not_mem_nil, or_false] at hj
  rcases hj with rfl | rfl | rfl
  · right; left; rfl
  · right; right; right; rfl
  · left; rfl

theorem accepted0 : (buildModel ls js0).isSome := by
  rw [buildModel_isSome]
  refine ⟨by simp [ls], by simp [js0, turn0, turn, slide, weld], by simp [ls], ?_, "base", ?_, ?_⟩
  · simp [ls, js0, turn0, turn, slide, weld]
  · simp [ls, js0, turn0, turn, slide, weld]
  · simp [ls, js0, turn0, turn, slide, weld]

theorem constructs0 : ∃ m0, construct (buildModel ls js0) = .ok m0 :=
  construct_exists accepted0 isTree0 supported0 noClash

/-- the constructed robot -/
noncomputable def n0 : KinModel ℝ := constructs0.choose

theorem n0_spec : construct (buildModel ls js0) = .ok n0 := constructs0.choose_spec

theorem reach0 : Reach ls js0 n0 [] n0 := ⟨isTree0, supported0, n0_spec, .nil⟩

theorem bare : turn0.axisless := ⟨.inl rfl, rfl⟩

theorem not_bare : ¬ slide.axisless ∧ ¬ weld.axisless := by
  constructor <;> rintro ⟨h | h, _⟩ <;> cases h

theorem frozen0 : js0.map RawJoint.frozen = [{ turn0 with type := .fixed }, slide, weld] := by
  simp [js0, RawJoint.frozen, bare, not_bare.1, not_bare.2]

theorem unit0 : UnitDesc (js0.map RawJoint.frozen) := by
  rw [frozen0]
  intro j hj
  simp only [List.mem_cons, List.not_mem_nil, or_false] at hj
  rcases hj with rfl | rfl | rfl <;> simp [turn0, turn, slide, weld, Rot.norm2, Rot.one]

theorem on_tip {W : Weld ℝ → Prop} : JointOnPath js0 W "turn" "tip" :=
  .up (j := weld) (by simp [js0]) (.up (j := slide) (by simp [js0]) (.here (j := turn0) (by simp [js0]) rfl))

theorem ids0 : ∃ l c i, getLinkIds ["tip"] n0 = .ok [l] n0 ∧ getLinkIds ["arm"] n0 = .ok [c] n0 ∧
    getJointIds ["turn"] n0 = .ok [i] n0 ∧ i < n0.joints.length := by
  have hg := reach0.abs.inv.graph
  obtain ⟨l, lk, hl, hlk⟩ := reach0.abs.desc.all ⟨"tip", some tipInertial⟩ (by simp [ls])
  obtain ⟨c, ck, hc, hck⟩ := reach0.abs.desc.all ⟨"arm", some armInertial⟩ (by simp [ls])
  obtain ⟨i, jp, j, hi, hjp, hraw⟩ := reach0.abs.desc.movable turn0 (by simp [js0]) (by simp [turn0, turn, JointType.Movable])
  have hjn : j.name = "turn" := by obtain ⟨_, _, rfl⟩ := hraw; rfl
  exact ⟨l, c, i, getLinkIds_one.mpr ((hg.linkNames "tip" l).mpr ⟨lk, hl, hlk⟩),
    getLinkIds_one.mpr ((hg.linkNames "arm" c).mpr ⟨ck, hc, hck⟩),
    getJointIds_one.mpr ((hg.jointNames "turn" i).mpr ⟨jp, j, hi, hjp, hjn⟩), (List.getElem?_eq_some_iff.mp hi).1⟩

theorem shallow0 : Shallow ls js0 n0 [] := C08_no_added_link reach0 rfl

theorem angles0 {i : Nat} (hi : getJointIds ["turn"] n0 = .ok [i] n0) (v : ℝ) :
    AnglesAfter n0 ([] ++ [.setJointAngles [i] [v]]) (fun s => if s = "turn" then v else 0) := by
  intro s i' hs
  by_cases h : s = "turn"
  · subst h
    rw [hi] at hs
    simp only [Res.ok.injEq, List.cons.injEq, and_true] at hs
    subst hs
    simp [angleAfter, lastWrite]
  · have hne : i' ≠ i := by
      rintro rfl
      rw [getJointIds_one] at hs hi
      obtain ⟨_, _, a1, a2, a3⟩ := (reach0.abs.inv.graph.jointNames _ _).mp hs
      obtain ⟨_, _, b1, b2, b3⟩ := (reach0.abs.inv.graph.jointNames _ _).mp hi
      rw [b1] at a1; cases a1
      rw [b2] at a2; cases a2
      exact h (by rw [← a3, b3])
    simp [h, angleAfter, lastWrite, Ne.symm hne]

/-- **Witness for C121.** The example robot without an axis on its revolute joint, at `2π/3`: the tip is at the right
position, and the quaternion that is returned for it has length 1/2. At `π` the tip is reported at the position of the
arm, more than 3 m from where it is, with the zero quaternion. -/
theorem C121_witness : ∃ (l i : Nat) (m1 m2 m3 m4 : KinModel ℝ) (S T : Pose ℝ),
    getLinkIds ["tip"] n0 = .ok [l] n0 ∧ getJointIds ["turn"] n0 = .ok [i] n0 ∧
    setJointAngles [i] [2 * Real.pi / 3] n0 = .ok () m1 ∧ getLinkPose l m1 = .ok S m2 ∧
    S = ⟨⟨0, 3, 3⟩, ⟨0, 0, 0, 1 / 2⟩⟩ ∧
    setJointAngles [i] [Real.pi] n0 = .ok () m3 ∧ getLinkPose l m3 = .ok T m4 ∧
    T = ⟨⟨0, 0, 1⟩, ⟨0, 0, 0, 0⟩⟩ := by
  obtain ⟨l, c, i, hl, hc, hi, hil⟩ := ids0
  have hia : i < n0.angles.length := by rw [reach0.abs.inv.graph.anglesLen]; exact hil
  have key : ∀ v, ∃ T m2, getLinkPose l (turned n0 i v) = .ok T m2 ∧
      T = Pose.transform (Pose.transform (Pose.transform Pose.identity
        ⟨⟨0, 0, 1⟩, ⟨0, 0, 0, Real.cos (v / 2)⟩⟩) ⟨⟨0, 0, 2⟩, Rot.one⟩) ⟨⟨0, 3, 0⟩, Rot.one⟩ := by
    intro v
    have e1 := turned_set hia v
    have r1 : Reach ls js0 n0 ([] ++ [.setJointAngles [i] [v]]) (turned n0 i v) := reach0.snoc e1
    have hf1 : Shallow ls js0 n0 ([] ++ [.setJointAngles [i] [v]]) := C08_no_added_link r1 rfl
    have hang := angles0 hi v
    have hlv : getLinkIds ["tip"] (turned n0 i v) = .ok [l] (turned n0 i v) := by
      rw [getLinkIds_one] at hl ⊢
      exact hl
    obtain ⟨T1, m3, e3, hw⟩ := r1.pose_ok hf1 hang hlv
    refine ⟨T1, m3, e3, ((hw _).mp ?_).symm⟩
    have p0 : WorldPose ls js0 (AllWelds ls n0 ([] ++ [.setJointAngles [i] [v]])) (fun s => if s = "turn" then v else 0)
        Pose.identity "base" Pose.identity :=
      .root (l := ⟨"base", none⟩) (by simp [ls]) (by simp [js0, turn0, turn, slide, weld])
    have p1 := WorldPose.joint (j := turn0) (by simp [js0]) p0 (.rot (.inl rfl))
    have p2 := WorldPose.joint (j := slide) (by simp [js0]) p1 (.slide rfl)
    have p3 := WorldPose.joint (j := weld) (by simp [js0]) p2 (.fixed rfl)
    rw [bare.edge (.rot (.inl rfl))] at p3
    have hn : turn0.name = "turn" := rfl
    have hs : slide.name = "slide" := rfl
    show WorldPose _ _ _ _ Pose.identity _ _
    simpa [hn, hs, turn0, turn, slide, weld, Rot.faded, Rot.one, Pose.transform, Vec3.add, Rot.mul] using p3
  obtain ⟨S, m2, e2, hS⟩ := key (2 * Real.pi / 3)
  obtain ⟨T, m4, e4, hT⟩ := key Real.pi
  refine ⟨l, i, _, m2, _, m4, S, T, hl, hi, turned_set hia _, e2, ?_, turned_set hia _, e4, ?_⟩
  · rw [hS, show 2 * Real.pi / 3 / 2 = Real.pi / 3 by ring, Real.cos_pi_div_three]
    simp [Pose.transform, Pose.identity, Vec3.add, Vec3.zero, Rot.one, Rot.mul, Rot.rotate, Rot.getInverse, Rot.norm2]
    norm_num
  · rw [hT, Real.cos_pi_div_two]
    simp [Pose.transform, Pose.identity, Vec3.add, Vec3.zero, Rot.one, Rot.mul, Rot.rotate, Rot.getInverse, Rot.norm2]

/-- C121 of the example robot with its joint at `2π/3` -/
example : ∃ (l i : Nat) (m1 : KinModel ℝ), setJointAngles [i] [2 * Real.pi / 3] n0 = .ok () m1 ∧
    ∃ (T : Pose ℝ) (m' : KinModel ℝ) (κ : ℝ) (S : Pose ℝ), getLinkPose l m1 = .ok T m' ∧
      Fading ls js0 (AllWelds ls n0 [.setJointAngles [i] [2 * Real.pi / 3]]) (fun s => if s = "turn" then 2 * Real.pi / 3 else 0) "tip" κ ∧
      T.position = S.position ∧ T.rotation = Rot.faded κ S.rotation ∧ T.rotation.norm2 = κ ^ 2 := by
  obtain ⟨l, c, i, hl, hc, hi, hil⟩ := ids0
  have hia : i < n0.angles.length := by rw [reach0.abs.inv.graph.anglesLen]; exact hil
  have e1 := turned_set hia (2 * Real.pi / 3)
  have r1 : Reach ls js0 n0 ([] ++ [.setJointAngles [i] [2 * Real.pi / 3]]) (turned n0 i (2 * Real.pi / 3)) := reach0.snoc e1
  have hf1 : Shallow ls js0 n0 ([] ++ [.setJointAngles [i] [2 * Real.pi / 3]]) := C08_no_added_link r1 rfl
  have hc1 : UnitCalls ([] ++ [Call.setJointAngles [i] [2 * Real.pi / 3]]) := by
    intro c hc; simp only [List.nil_append, List.mem_singleton] at hc; subst hc; trivial
  have hlv : getLinkIds ["tip"] (turned n0 i (2 * Real.pi / 3)) = .ok [l] (turned n0 i (2 * Real.pi / 3)) := by
    rw [getLinkIds_one] at hl ⊢
    exact hl
  obtain ⟨T, m', κ, S, h1, h2, h3, h4, h5⟩ := C121_poses r1 hf1 (angles0 hi _) (by
    intro j hj ha
    simp only [js0, List.mem_cons, List.not_mem_nil, or_false] at hj
    rcases hj with rfl | rfl | rfl
    · rw [show turn0.name = "turn" from rfl]
      simp only [if_true]
      rw [show 2 * Real.pi / 3 / 2 = Real.pi / 3 by ring, Real.cos_pi_div_three]
      norm_num
    · exact absurd ha not_bare.1
    · exact absurd ha not_bare.2) hlv
  refine ⟨l, i, _, e1, T, m', κ, S, h1, h2, h4, h5, ?_⟩
  rw [h5]
  exact C121_length unit0 hc1 κ h3

example : ∃ (l c i : Nat) (m1 m2 m3 : KinModel ℝ) (T C : Pose ℝ), getLinkIds ["tip"] n0 = .ok [l] n0 ∧
    setJointAngles [i] [Real.pi] n0 = .ok () m1 ∧ getLinkPose l m1 = .ok T m2 ∧ getLinkPose c m1 = .ok C m3 ∧
    T.position = C.position ∧ T.rotation = ⟨0, 0, 0, 0⟩ := by
  obtain ⟨l, c, i, hl, hc, hi, hil⟩ := ids0
  obtain ⟨m1, T, m2, C, m3, h⟩ := C121_collapse reach0 shallow0 (j := turn0) (by simp [js0]) bare hi hl hc on_tip
    (v := Real.pi) Real.cos_pi_div_two
  exact ⟨l, c, i, m1, m2, m3, T, C, hl, h⟩

example : ∃ (l i : Nat) (J : Mat ℝ) (m' : KinModel ℝ), getJacobian l [i] .xyzw false n0 = .ok J m' ∧ J.f 6 0 = 0 := by
  obtain ⟨l, c, i, hl, hc, hi, hil⟩ := ids0
  obtain ⟨⟨J, m', e, h⟩, _⟩ := C121_column reach0 shallow0 (.inl inertial) (j := turn0) (by simp [js0]) bare hi hl on_tip
    (ids := [i]) (by simpa using hil) .xyzw false
  exact ⟨l, i, J, m', e, (h 0 rfl).2 rfl 6 (by norm_num)⟩

/-- a pitch of 30°, at half length: the reported pitch is `asin (1/8)` -/
example : (Rot.faded (1 / 2) (Rot.fromRPY 0 (Real.pi / 6) 0)).getRPY.y =
    Real.arcsin ((1 / 2) ^ 2 * Real.sin (Rot.fromRPY 0 (Real.pi / 6) 0).getRPY.y) := by
  have hs : (Rot.fromRPY 0 (Real.pi / 6) 0).sarg = 1 / 2 := by
    rw [(Rot.fromRPY_entries 0 (Real.pi / 6) 0).2.2.2.2, Real.sin_pi_div_six]
  exact (C121_rpy (by norm_num) (by norm_num) (by rw [hs, abs_of_pos (by norm_num)]; norm_num)).2.2

end NoAxis

end Tinyfk
