import Mathlib.Analysis.Calculus.Deriv.Add
import Mathlib.Tactic.IntervalCases
import Mathlib.Analysis.SpecialFunctions.Trigonometric.Bounds
import Mathlib.Analysis.Real.Pi.Bounds
import Verif.Proofs.Rebase

/-!
# C28, C29: the base columns of the Jacobian
-/

namespace Tinyfk

open Scalar

section
variable {ls : List (RawLink ℝ)} {js : List (RawJoint ℝ)} {m0 m m' : KinModel ℝ} {cs : List (Call ℝ)}

section

theorem real_epsFD : (epsFD : ℝ) = 1 / 10 ^ 7 := by
  simp [epsFD, real_lit]

/-- the pose of a link as a function of the base -/
noncomputable def onBase (m : KinModel ℝ) (E : Pose ℝ) (x y z r p w : ℝ) : Pose ℝ :=
  Pose.transform ⟨⟨x, y, z⟩, Rot.fromRPY r p w⟩ (Pose.transform m.base.inverse E)

theorem Reach.baseCurve (h : Reach ls js m0 cs m) (hf : Shallow ls js m0 cs) (hu : UnitDesc js) (hc : UnitCalls cs)
    {l : Nat} {E : Pose ℝ} (hE : IsPose m l E) : BaseCurve m l (onBase m E) := by
  intro x y z r p w
  have hready := (h.abs.inv.setBase ⟨⟨x, y, z⟩, Rot.fromRPY r p w⟩).ready (FitsStack.congr (m := m) rfl rfl (h.fits hf))
  obtain ⟨m2, e, _⟩ := getLinkPose_spec hready (hE.rebased (h.unitModel hu hc).base ⟨⟨x, y, z⟩, Rot.fromRPY r p w⟩)
  exact ⟨_, m2, rfl, e⟩

/-- base columns in the Jacobian -/
theorem jacMat_base {rt : RotType} {cols : List (Nat → ℝ)} {E B : Pose ℝ} {r c : Nat} (hr : r < rt.dim) (hc : c < 6) :
    (jacMat rt cols E (some B)).f r (cols.length + c) = baseCol rt E B c r := by
  simp only [jacMat, hr, if_true]
  rw [if_neg (by omega), if_pos (by omega)]
  simp

theorem baseRotCol_row {rt : RotType} {E B : Pose ℝ} {k r : Nat} (hr : r < rt.dim) :
    baseRotCol rt E B k r = ((Pose.transform ⟨B.position, Rot.fromRPY (tweak B.rotation.getRPY k).x (tweak B.rotation.getRPY k).y
      (tweak B.rotation.getRPY k).z⟩ (Pose.transform B.inverse E)).row rt r - E.row rt r) / (1 / 10 ^ 7) := by
  rw [← real_epsFD]
  cases rt
  all_goals
    simp [RotType.dim] at hr
    interval_cases r <;> simp [baseRotCol, Pose.row, Vec3.sub]

end

/-- **C28.** After any history, the three columns after the joints are the derivatives of the link pose with
respect to the base position: the identity in the position rows and zero in the rotation rows. `f` is the
link pose as a function of the vector given to `set_base_pose`; the derivative with respect to the `c`-th
coordinate of the position is taken for any base. -/
theorem C28_base_translation (h : Reach ls js m0 cs m) (hf : Shallow ls js m0 cs) (hu : UnitDesc js) (hc : UnitCalls cs)
    (hne : (∃ r ∈ ls, r.inertial.isSome) ∨ weldsAfter (names0 m0) cs ≠ []) {l : Nat} (hl : l < m.links.length)
    {ids : List Nat} (hids : ∀ i ∈ ids, i < m.joints.length) (rt : RotType) :
    ∃ J m' f, getJacobian l ids rt true m = .ok J m' ∧ J.cols = ids.length + 6 ∧ BaseCurve m l f ∧
      ∀ r < rt.dim,
        (∀ c < 3, J.f r (ids.length + c) = if r = c then 1 else 0) ∧
        ∀ x y z a b w,
          HasDerivAt (fun v => (f v y z a b w).row rt r) (J.f r (ids.length + 0)) x ∧
          HasDerivAt (fun v => (f x v z a b w).row rt r) (J.f r (ids.length + 1)) y ∧
          HasDerivAt (fun v => (f x y v a b w).row rt r) (J.f r (ids.length + 2)) z := by
  obtain ⟨E, cols, hE, hcols, m', e, _⟩ := h.jacobian hf hne hl hids rt true
  refine ⟨_, m', onBase m E, e, ?_, h.baseCurve hf hu hc hE, ?_⟩
  · simp [jacMat, hcols.length_eq]
  intro r hr
  have hval : ∀ c < 3, (jacMat rt cols E (if true = true then some m.base else none)).f r (ids.length + c) = if r = c then 1 else 0 := by
    intro c hc
    rw [hcols.length_eq, if_pos rfl, jacMat_base hr (by omega)]
    simp [baseCol, hc]
  refine ⟨hval, ?_⟩
  intro x y z a b w
  rw [hval 0 (by omega), hval 1 (by omega), hval 2 (by omega)]
  have hcst : ∀ (u t : ℝ), HasDerivAt (fun _ : ℝ => u) 0 t := fun u t => hasDerivAt_const t u
  have hadd : ∀ (u t : ℝ), HasDerivAt (fun v : ℝ => u + v) 1 t := fun u t => (hasDerivAt_id t).const_add u
  cases rt
  all_goals
    simp [RotType.dim] at hr
    interval_cases r <;>
    simp [Pose.row, onBase, Pose.transform, Vec3.add, hcst, hadd]

section

theorem onBase_reported (h : Reach ls js m0 cs m) (hu : UnitDesc js) (hc : UnitCalls cs)
    (hb : |m.base.rotation.sarg| < 99999 / 100000) {l : Nat} {E : Pose ℝ} (hE : IsPose m l E) :
    let b := m.base.position
    let q := m.base.rotation.getRPY
    (onBase m E b.x b.y b.z q.x q.y q.z = E ∨ onBase m E b.x b.y b.z q.x q.y q.z = ⟨E.position, E.rotation.neg⟩) ∧
    (Rot.fromRPY q.x q.y q.z = m.base.rotation → onBase m E b.x b.y b.z q.x q.y q.z = E) := by
  intro b q
  have hbu := (h.unitModel hu hc).base
  have hEu := hE.unit (h.unitModel hu hc)
  have e0 : Pose.transform m.base (Pose.transform m.base.inverse E) = E := by
    rw [← Pose.transform_assoc, Pose.transform_inverse (by rw [hbu]; norm_num), Pose.identity_transform]
  have h1 : Rot.fromRPY q.x q.y q.z = m.base.rotation → onBase m E b.x b.y b.z q.x q.y q.z = E := by
    intro e
    rw [onBase, e]
    exact e0
  refine ⟨?_, h1⟩
  rcases Rot.fromRPY_getRPY hbu hb with e | e
  · exact .inl (h1 e)
  · right
    rw [onBase]
    show Pose.transform ⟨b, Rot.fromRPY q.x q.y q.z⟩ _ = _
    rw [e]
    have e1 := congrArg Pose.position e0
    have e2 := congrArg Pose.rotation e0
    simp only [Pose.transform] at e1 e2 ⊢
    rw [Rot.rotate_neg hbu, Rot.neg_mul, e1, e2]

theorem row_neg {rt : RotType} {E : Pose ℝ} {q : Nat} (h : q < 3 ∨ rt = .rpy ∧ |E.rotation.sarg| < 99999 / 100000) :
    (⟨E.position, E.rotation.neg⟩ : Pose ℝ).row rt q = E.row rt q := by
  match q with
  | 0 => rfl
  | 1 => rfl
  | 2 => rfl
  | q + 3 =>
    rcases h with h | ⟨rfl, h⟩
    · omega
    · match q with
      | 0 | 1 | 2 | q + 3 => simp only [Pose.row, Rot.getRPY_neg h]

/-- the base rotation columns -/
theorem Reach.baseRot (h : Reach ls js m0 cs m) (hf : Shallow ls js m0 cs) (hu : UnitDesc js) (hc : UnitCalls cs)
    (hne : (∃ r ∈ ls, r.inertial.isSome) ∨ weldsAfter (names0 m0) cs ≠ []) {l : Nat} (hl : l < m.links.length)
    {ids : List Nat} (hids : ∀ i ∈ ids, i < m.joints.length) (rt : RotType)
    (hb : |m.base.rotation.sarg| < 99999 / 100000) :
    ∃ E J m', IsPose m l E ∧ getJacobian l ids rt true m = .ok J m' ∧
      let x := m.base.position.x
      let y := m.base.position.y
      let z := m.base.position.z
      let r := m.base.rotation.getRPY.x
      let p := m.base.rotation.getRPY.y
      let w := m.base.rotation.getRPY.z
      ∀ q < rt.dim, q < 3 ∨ (rt = .rpy ∧ |E.rotation.sarg| < 99999 / 100000) ∨ onBase m E x y z r p w = E →
        J.f q (ids.length + 3) = ((onBase m E x y z (r + 1 / 10 ^ 7) p w).row rt q - (onBase m E x y z r p w).row rt q) / (1 / 10 ^ 7) ∧
        J.f q (ids.length + 4) = ((onBase m E x y z r (p + 1 / 10 ^ 7) w).row rt q - (onBase m E x y z r p w).row rt q) / (1 / 10 ^ 7) ∧
        J.f q (ids.length + 5) = ((onBase m E x y z r p (w + 1 / 10 ^ 7)).row rt q - (onBase m E x y z r p w).row rt q) / (1 / 10 ^ 7) := by
  obtain ⟨E, cols, hE, hcols, m', e, _⟩ := h.jacobian hf hne hl hids rt true
  refine ⟨E, _, m', hE, e, ?_⟩
  intro x y z r p w q hq hcase
  have hrow : (onBase m E x y z r p w).row rt q = E.row rt q := by
    rcases (onBase_reported h hu hc hb hE).1 with e | e
    · rw [e]
    · rcases hcase with h1 | h1 | h1
      · rw [e]; exact row_neg (.inl h1)
      · rw [e]; exact row_neg (.inr h1)
      · rw [h1]
  rw [hrow]
  have hcol : ∀ k < 3, (jacMat rt cols E (if true = true then some m.base else none)).f q (ids.length + (3 + k)) =
      baseRotCol rt E m.base k q := by
    intro k hk
    rw [hcols.length_eq, if_pos rfl, jacMat_base hq (by omega)]
    simp [baseCol]
  rw [hcol 0 (by omega), hcol 1 (by omega), hcol 2 (by omega), baseRotCol_row hq, baseRotCol_row hq, baseRotCol_row hq]
  simp only [tweak, real_epsFD]
  exact ⟨rfl, rfl, rfl⟩

/-- the state after `set_base_pose` -/
theorem Reach.setBaseVec (h : Reach ls js m0 cs m) (hf : Shallow ls js m0 cs) (hc : UnitCalls cs) (x y z r p w : ℝ) :
    ∃ m1 cs1, setBasePoseVec [x, y, z, r, p, w] m = .ok () m1 ∧ Reach ls js m0 cs1 m1 ∧ Shallow ls js m0 cs1 ∧ UnitCalls cs1 ∧
      weldsAfter (names0 m0) cs1 = weldsAfter (names0 m0) cs ∧ m1.base = ⟨⟨x, y, z⟩, Rot.fromRPY r p w⟩ ∧
      m1.links = m.links ∧ m1.joints = m.joints ∧ m1.rootLinkId = m.rootLinkId := by
  refine ⟨rebased m ⟨⟨x, y, z⟩, Rot.fromRPY r p w⟩, cs ++ [.setBasePose ⟨⟨x, y, z⟩, Rot.fromRPY r p w⟩], rfl,
    h.snoc rfl, hf.sets (by simp [Call.IsSet]), hc.append ?_, welds_sets _ (by simp [Call.IsSet]), rfl, rfl, rfl, rfl⟩
  intro c hc
  simp only [List.mem_singleton] at hc
  subst hc
  exact Rot.norm2_fromRPY _ _ _

end

/-- **C29 (partial).** After any history, let `[x, y, z, r, p, w]` be what `get_base_pose` returns, the pitch
being away from the singularity. The last three columns are the forward difference quotients, with step
`1e-7`, of the reported link pose in base roll, pitch and yaw: always in the position rows; in the
roll-pitch-yaw rows, if the link is away from its pitch singularity; in all rows, if setting the base to
`[x, y, z, r, p, w]` again does not change the pose of the link. Missing: the quaternion rows in the
remaining case, where they are wrong (`C29_xyzw_false`). -/
theorem C29_base_rotation_partial (h : Reach ls js m0 cs m) (hf : Shallow ls js m0 cs) (hu : UnitDesc js) (hc : UnitCalls cs)
    (hne : (∃ r ∈ ls, r.inertial.isSome) ∨ weldsAfter (names0 m0) cs ≠ []) {l : Nat} (hl : l < m.links.length)
    {ids : List Nat} (hids : ∀ i ∈ ids, i < m.joints.length) (rt : RotType)
    (hb : |m.base.rotation.sarg| < 99999 / 100000) :
    ∃ J m' f E m2 x y z r p w, getJacobian l ids rt true m = .ok J m' ∧ BaseCurve m l f ∧
      getLinkPose l m = .ok E m2 ∧ getBasePose m = .ok [x, y, z, r, p, w] m ∧
      ∀ q < rt.dim, q < 3 ∨ (rt = .rpy ∧ |E.rotation.sarg| < 99999 / 100000) ∨ f x y z r p w = E →
        J.f q (ids.length + 3) = ((f x y z (r + 1 / 10 ^ 7) p w).row rt q - (f x y z r p w).row rt q) / (1 / 10 ^ 7) ∧
        J.f q (ids.length + 4) = ((f x y z r (p + 1 / 10 ^ 7) w).row rt q - (f x y z r p w).row rt q) / (1 / 10 ^ 7) ∧
        J.f q (ids.length + 5) = ((f x y z r p (w + 1 / 10 ^ 7)).row rt q - (f x y z r p w).row rt q) / (1 / 10 ^ 7) := by
  obtain ⟨E, J, m', hE, e, hJ⟩ := h.baseRot hf hu hc hne hl hids rt hb
  obtain ⟨m2, e2, _⟩ := getLinkPose_spec (h.ready hf) hE
  exact ⟨J, m', onBase m E, E, m2, m.base.position.x, m.base.position.y, m.base.position.z, m.base.rotation.getRPY.x,
    m.base.rotation.getRPY.y, m.base.rotation.getRPY.z, e, h.baseCurve hf hu hc hE, e2, rfl, hJ⟩

/-- **C29, base set within the box.** If the base was just set with roll and yaw in `(-π, π]` and pitch in
`(-π/2, π/2)` away from the singularity, the last three columns are the forward difference quotients of the
link pose in all rows. -/
theorem C29_in_box_partial (h : Reach ls js m0 cs m) (hf : Shallow ls js m0 cs) (hu : UnitDesc js) (hc : UnitCalls cs)
    (hne : (∃ r ∈ ls, r.inertial.isSome) ∨ weldsAfter (names0 m0) cs ≠ []) {l : Nat} (hl : l < m.links.length)
    {ids : List Nat} (hids : ∀ i ∈ ids, i < m.joints.length) (rt : RotType)
    (x y z : ℝ) {r p w : ℝ} (hbox : RpyBox r p w) :
    ∃ m1 J m' f, setBasePoseVec [x, y, z, r, p, w] m = .ok () m1 ∧ getJacobian l ids rt true m1 = .ok J m' ∧ BaseCurve m1 l f ∧
      ∀ q < rt.dim,
        J.f q (ids.length + 3) = ((f x y z (r + 1 / 10 ^ 7) p w).row rt q - (f x y z r p w).row rt q) / (1 / 10 ^ 7) ∧
        J.f q (ids.length + 4) = ((f x y z r (p + 1 / 10 ^ 7) w).row rt q - (f x y z r p w).row rt q) / (1 / 10 ^ 7) ∧
        J.f q (ids.length + 5) = ((f x y z r p (w + 1 / 10 ^ 7)).row rt q - (f x y z r p w).row rt q) / (1 / 10 ^ 7) := by
  obtain ⟨m1, cs1, e1, hr1, hf1, hc1, hw1, hb1, hl1, hj1, _⟩ := h.setBaseVec hf hc x y z r p w
  have hg : m1.base.rotation.getRPY = ⟨r, p, w⟩ := by rw [hb1]; exact hbox.getRPY
  have hs : |m1.base.rotation.sarg| < 99999 / 100000 := by
    rw [hb1, (Rot.fromRPY_entries r p w).2.2.2.2]; exact hbox.band
  obtain ⟨E, J, m', hE, e, hJ⟩ := hr1.baseRot hf1 hu hc1 (by rw [hw1]; exact hne) (by rw [hl1]; exact hl) (ids := ids)
    (by rw [hj1]; exact hids) rt hs
  refine ⟨m1, J, m', onBase m1 E, e1, e, hr1.baseCurve hf1 hu hc1 hE, ?_⟩
  have hE1 := (onBase_reported hr1 hu hc1 hs hE).2 (by rw [hg, hb1])
  rw [hg, hb1] at hE1 hJ
  intro q hq
  exact hJ q hq (.inr (.inr hE1))

section

theorem fromRPY_yaw (w : ℝ) : Rot.fromRPY 0 0 w = ⟨0, 0, Real.sin (w / 2), Real.cos (w / 2)⟩ := by
  rw [Rot.fromRPY_raw]; simp

/-- a yaw of 4 is reported as `4 - 2π` -/
theorem getRPY_four : (Rot.fromRPY 0 0 (4 : ℝ)).getRPY = ⟨0, 0, 4 - 2 * Real.pi⟩ ∧ |(Rot.fromRPY 0 0 (4 : ℝ)).sarg| < 99999 / 100000 := by
  have hpi := Real.pi_gt_three
  have hpi2 := Real.pi_lt_four
  have hbox : RpyBox 0 0 (4 - 2 * Real.pi) :=
    ⟨⟨by linarith, by linarith⟩, ⟨by linarith, by linarith⟩, ⟨by linarith [Real.pi_lt_d2], by linarith⟩, by simp⟩
  have hneg : Rot.fromRPY 0 0 (4 : ℝ) = (Rot.fromRPY 0 0 (4 - 2 * Real.pi)).neg := by
    rw [fromRPY_yaw, fromRPY_yaw, show (4 - 2 * Real.pi) / 2 = 4 / 2 - Real.pi by ring, Real.sin_sub_pi, Real.cos_sub_pi]
    simp [Rot.neg]
  have hs : |(Rot.fromRPY 0 0 (4 - 2 * Real.pi)).sarg| < 99999 / 100000 := by
    rw [(Rot.fromRPY_entries _ _ _).2.2.2.2]; exact hbox.band
  refine ⟨by rw [hneg, Rot.getRPY_neg hs, hbox.getRPY], ?_⟩
  rw [(Rot.fromRPY_entries _ _ _).2.2.2.2]; simp

end

/-- **C29 is false** of the quaternion rows. For every robot, after `set_base_pose([0, 0, 0, 0, 0, 4])` the
forward difference of the root link's quaternion in the base yaw is at most 1, but the entry of the
Jacobian with `XYZW` is more than a million. -/
theorem C29_xyzw_false (h : Reach ls js m0 cs m) (hf : Shallow ls js m0 cs) (hu : UnitDesc js) (hc : UnitCalls cs)
    (hne : (∃ r ∈ ls, r.inertial.isSome) ∨ weldsAfter (names0 m0) cs ≠ []) {n : String} {l : Nat}
    (hn : getLinkIds [n] m = .ok [l] m) (hroot : ∃ r ∈ ls, r.name = n ∧ ∀ j ∈ js, j.childLinkName ≠ n) :
    ∃ m1 J m' f x y z r p w, setBasePoseVec [0, 0, 0, 0, 0, 4] m = .ok () m1 ∧
      getJacobian l [] .xyzw true m1 = .ok J m' ∧ BaseCurve m1 l f ∧ getBasePose m1 = .ok [x, y, z, r, p, w] m1 ∧
      |((f x y z r p (w + 1 / 10 ^ 7)).rotation.w - (f x y z r p w).rotation.w) / (1 / 10 ^ 7)| ≤ 1 ∧
      10 ^ 6 < J.f 6 5 := by
  obtain ⟨m1, cs1, e1, hr1, hf1, hc1, hw1, hb1, hl1, hj1, _⟩ := h.setBaseVec hf hc 0 0 0 0 0 4
  have hlt : l < m1.links.length := by rw [hl1]; exact h.link_lt hn
  obtain ⟨E, cols, hE, hcols, m', e, _⟩ := hr1.jacobian hf1 (by rw [hw1]; exact hne) hlt (ids := []) (by simp) .xyzw true
  obtain ⟨hg, hs⟩ := getRPY_four
  -- the link is the root
  have hEb : E = m1.base := by
    obtain ⟨lk, k1, rfl⟩ := h.link hn
    obtain ⟨r, hr, hrn, hnc⟩ := hroot
    rw [← hl1] at k1
    rcases hr1.abs.desc.links l lk k1 with ⟨hp, _⟩ | ⟨p', pk, jp', j', k2, k3, k4, k5, hcase⟩
    · exact hE.unique (.root k1 hp)
    · exfalso
      rcases hcase with ⟨r', hr', _, _, h5⟩ | ⟨_, hw⟩
      · exact hnc r' hr' h5
      · have := hr1.abs.desc.weldFresh _ hw
        exact this (List.mem_map.mpr ⟨r, hr, hrn⟩)
  have hon : ∀ v, (onBase m1 E 0 0 0 0 0 v).rotation.w = Real.cos (v / 2) := by
    intro v
    have hu1 := (hr1.unitModel hu hc1).base
    rw [onBase, hEb, Pose.inverse_transform (by rw [hu1]; norm_num), Pose.transform_identity, fromRPY_yaw]
  refine ⟨m1, _, m', onBase m1 E, 0, 0, 0, 0, 0, 4 - 2 * Real.pi, e1, e, hr1.baseCurve hf1 hu hc1 hE, ?_, ?_, ?_⟩
  · simp only [getBasePose, Prog.read, hb1, hg]
  · rw [hon, hon, abs_div, div_le_iff₀ (by positivity)]
    have h1 := Real.abs_cos_sub_cos_le ((4 - 2 * Real.pi + 1 / 10 ^ 7) / 2) ((4 - 2 * Real.pi) / 2)
    have h2 : |(4 - 2 * Real.pi + 1 / 10 ^ 7) / 2 - (4 - 2 * Real.pi) / 2| = 1 / 10 ^ 7 / 2 := by
      rw [show (4 - 2 * Real.pi + 1 / 10 ^ 7) / 2 - (4 - 2 * Real.pi) / 2 = 1 / 10 ^ 7 / 2 by ring, abs_of_nonneg (by positivity)]
    rw [h2] at h1
    rw [abs_of_pos (by positivity : (0 : ℝ) < 1 / 10 ^ 7)]
    linarith [show (0 : ℝ) < 1 / 10 ^ 7 by positivity]
  · have hcol : (jacMat .xyzw cols E (if true = true then some m1.base else none)).f 6 (cols.length + 5) = _ :=
      jacMat_base (B := m1.base) (c := 5) (by decide) (by decide)
    rw [← hcols.length_eq] at hcol
    refine lt_of_lt_of_eq ?_ hcol.symm
    have h5 : baseCol .xyzw E m1.base 5 6 = baseRotCol .xyzw E m1.base 2 6 := rfl
    rw [h5, baseRotCol_row (by decide)]
    have hpos : m1.base.position = ⟨0, 0, 0⟩ := by rw [hb1]
    have hrpy : m1.base.rotation.getRPY = ⟨0, 0, 4 - 2 * Real.pi⟩ := by rw [hb1]; exact hg
    simp only [hpos, hrpy, tweak, real_epsFD]
    have hEw : E.row .xyzw 6 = Real.cos 2 := by
      rw [hEb, hb1]
      simp only [Pose.row, fromRPY_yaw]; norm_num
    rw [hEw]
    show 10 ^ 6 < ((onBase m1 E 0 0 0 0 0 (4 - 2 * Real.pi + 1 / 10 ^ 7)).rotation.w - Real.cos 2) / (1 / 10 ^ 7)
    rw [hon, lt_div_iff₀ (by positivity)]
    have h1 := Real.abs_cos_sub_cos_le ((4 + 1 / 10 ^ 7) / 2) 2
    have h2 : |(4 + 1 / 10 ^ 7 : ℝ) / 2 - 2| = 1 / 10 ^ 7 / 2 := by
      rw [show (4 + 1 / 10 ^ 7 : ℝ) / 2 - 2 = 1 / 10 ^ 7 / 2 by ring, abs_of_nonneg (by positivity)]
    rw [h2] at h1
    have h3 : Real.cos ((4 - 2 * Real.pi + 1 / 10 ^ 7) / 2) = -Real.cos ((4 + 1 / 10 ^ 7) / 2) := by
      rw [show (4 - 2 * Real.pi + 1 / 10 ^ 7) / 2 = (4 + 1 / 10 ^ 7) / 2 - Real.pi by ring, Real.cos_sub_pi]
    have h4 : Real.cos 2 ≤ -1 / 9 := by
      have := Real.cos_two_mul 1
      rw [mul_one] at this
      rw [this]
      nlinarith [Real.cos_one_le, Real.cos_one_pos]
    rw [h3]
    have := (abs_le.mp h1).2
    norm_num at this ⊢
    linarith

end

namespace Example

theorem no_joints : ∀ i ∈ ([] : List Nat), i < m1.joints.length := by simp
theorem two_joints : ∀ i ∈ [1, 0], i < m1.joints.length := by rw [m1_joints]; simp

-- C25-C29 apply to the link "tool" after a history, with the turning and the sliding joint
example := C25_position m1_reach shallow unitDesc unitCalls_hist hasInertial (m1_reach.link_lt tool_id) two_joints .rpy true
example := C26_quaternion m1_reach shallow unitDesc unitCalls_hist hasInertial (m1_reach.link_lt tool_id) two_joints true
example := C28_base_translation m1_reach shallow unitDesc unitCalls_hist hasInertial (m1_reach.link_lt tool_id) two_joints .rpy
example := C29_in_box_partial m1_reach shallow unitDesc unitCalls_hist hasInertial (m1_reach.link_lt tool_id) two_joints .xyzw
  1 2 3 (r := 1) (p := 0) (w := 2) ⟨⟨by linarith [Real.pi_pos], by linarith [Real.pi_gt_three]⟩,
    ⟨by linarith [Real.pi_pos], by linarith [Real.pi_pos]⟩, ⟨by linarith [Real.pi_pos], by linarith [Real.pi_gt_three]⟩, by simp⟩
example := C29_xyzw_false m1_reach shallow unitDesc unitCalls_hist hasInertial base_id
  ⟨⟨"base", none⟩, by simp [ls], rfl, by simp [js, turn, slide, weld]⟩

/-- the base of the example is away from the singularity, as C29 asks -/
example : |m1.base.rotation.sarg| < 99999 / 100000 := by
  rw [m1_reach.abs.base]; simp [hist, baseAfter, Rot.sarg, Rot.one]

/-- the arm of the example is away from the singularity and the jumps, as C27 asks -/
theorem arm_regular {E : Pose ℝ} {m2 : KinModel ℝ} (h : getLinkPose 0 m1 = .ok E m2) :
    |E.rotation.sarg| < 99999 / 100000 ∧ E.rotation.getRPY.x ≠ Real.pi ∧ E.rotation.getRPY.z ≠ Real.pi := by
  have hp := Real.pi_gt_three
  obtain ⟨T, m', e, hT⟩ := m1_reach.pose_ok shallow angles_m1 arm_id
  rw [h] at e; cases e
  have hw : E.rotation = Rot.fromRPY 0 0 (1 / 2) := by
    have h1 : WorldPose ls js (AllWelds ls m0 hist) θ1 (baseAfter Pose.identity hist) "base" (baseAfter Pose.identity hist) :=
      .root (l := ⟨"base", none⟩) (by simp [ls]) (by simp [js, turn, slide, weld])
    have h2 := (hT _).mp (WorldPose.joint (j := turn) (by simp [js]) h1 (.rot (.inl rfl)))
    rw [← h2, fromRPY_yaw]
    simp [baseAfter, hist, Pose.transform, turn, θ1]
    norm_num
  have hbox : RpyBox 0 0 (1 / 2) :=
    ⟨⟨by linarith, by linarith⟩, ⟨by linarith, by linarith⟩, ⟨by linarith, by linarith⟩, by simp⟩
  rw [hw, hbox.getRPY, (Rot.fromRPY_entries _ _ _).2.2.2.2]
  refine ⟨by simp, ?_, ?_⟩
  · simp only; exact Real.pi_pos.ne
  · simp only; intro h; linarith

example : ∃ J m' θ T, getJacobian 0 [1, 0] .rpy true m1 = .ok J m' ∧ PoseCurve m1 0 1 T ∧
    HasDerivAt (fun v => (T v).rotation.getRPY.z) (J.f 5 0) θ := by
  obtain ⟨E, m2, J, m', e1, e2, hk⟩ :=
    C27_rpy m1_reach shallow unitDesc unitCalls_hist hasInertial (m1_reach.link_lt arm_id) two_joints true
  obtain ⟨a, b, c⟩ := arm_regular e1
  obtain ⟨θ, T, _, hT, _, _, h3⟩ := hk a b c 0 1 rfl
  exact ⟨J, m', θ, T, e2, hT, h3⟩

end Example
end Tinyfk
