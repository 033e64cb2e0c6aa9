import Verif.Proofs.Rpy
import Verif.Props.State
import Verif.Props.Rotation
import Mathlib.Analysis.Real.Pi.Bounds

/-!
# Properties: reading the base pose and link rotations back; one-dimensional arguments

C18, C19, C59, C61, C62.
-/

set_option linter.unusedSectionVars false

namespace Tinyfk

open Matrix

/-! ### C19 -/

/-- roll and yaw in (-π, π], pitch in (-π/2, π/2) and not within the cut-off of the singularity -/
structure RpyBox (r p y : ℝ) : Prop where
  roll : -Real.pi < r ∧ r ≤ Real.pi
  pitch : -(Real.pi / 2) < p ∧ p < Real.pi / 2
  yaw : -Real.pi < y ∧ y ≤ Real.pi
  band : |Real.sin p| < 99999 / 100000

theorem RpyBox.getRPY {r p y : ℝ} (h : RpyBox r p y) : (Rot.fromRPY r p y).getRPY = ⟨r, p, y⟩ :=
  Rot.getRPY_fromRPY h.roll.1 h.roll.2 h.yaw.1 h.yaw.2 h.pitch.1 h.pitch.2 h.band

/-- **C19.** On any model, `set_base_pose` of six numbers in the box succeeds, and `get_base_pose` then
returns these numbers. -/
theorem C19_round_trip (m : KinModel ℝ) (x y z : ℝ) {r p w : ℝ} (h : RpyBox r p w) :
    ∃ m1, setBasePoseVec [x, y, z, r, p, w] m = .ok () m1 ∧ getBasePose m1 = .ok [x, y, z, r, p, w] m1 := by
  refine ⟨_, rfl, ?_⟩
  simp only [getBasePose, Prog.read]
  show Res.ok [x, y, z, (Rot.fromRPY r p w).getRPY.x, (Rot.fromRPY r p w).getRPY.y, (Rot.fromRPY r p w).getRPY.z] _ = _
  rw [h.getRPY]

/-- **C19, rejection.** A vector of any other length is rejected and changes nothing. -/
theorem C19_wrong_length {K : Type} [Scalar K] (m : KinModel K) {v : List K} (hv : v.length ≠ 6) :
    setBasePoseVec v m = .exn (.invalidArgument "argument must have size 6") m := by
  match v with
  | [] => rfl
  | [_] => rfl
  | [_, _] => rfl
  | [_, _, _] => rfl
  | [_, _, _, _] => rfl
  | [_, _, _, _, _] => rfl
  | [_, _, _, _, _, _] => simp at hv
  | _ :: _ :: _ :: _ :: _ :: _ :: _ :: _ => rfl

/-- the box is not empty -/
example : RpyBox 1 0 2 := by
  have h1 : (3 : ℝ) < Real.pi := Real.pi_gt_three
  exact ⟨⟨by linarith, by linarith⟩, ⟨by linarith, by linarith⟩, ⟨by linarith, by linarith⟩, by simp⟩

theorem rpyBox_planar {w : ℝ} (h1 : -Real.pi < w) (h2 : w ≤ Real.pi) : RpyBox 0 0 w :=
  ⟨⟨by linarith [Real.pi_pos], Real.pi_pos.le⟩, ⟨by linarith [Real.pi_pos], by linarith [Real.pi_pos]⟩, ⟨h1, h2⟩, by simp⟩

/-! ### C18 -/

/-- **C18, floating base.** -/
theorem C18_set_get_floating (s : PyModel ℝ) {ids : List Nat} {a : List ℝ} {x y z r p w : ℝ} (hd : ids.Nodup)
    (hi : ∀ i ∈ ids, i < s.robot.angles.length) (hl : a.length = ids.length) (hb : RpyBox r p w) :
    ∃ s1 s2, pySetQ ids (a ++ [x, y, z, r, p, w]) .floating s = .ok () s1 ∧
      pyGetQ ids .floating s1 = .ok (a ++ [x, y, z, r, p, w]) s2 ∧ s2 = s1 := by
  obtain ⟨a', ha⟩ : ∃ a', writeAngles ids a s.robot.angles = .ok a' := writeAngles_ok (by omega) hi
  have h1 : (a ++ [x, y, z, r, p, w]).length - 6 = a.length := by simp
  have h2 : ((a ++ [x, y, z, r, p, w]).length == ids.length + 6) = true := by simp [hl]
  have h3 := writeAngles_read ha hd hl
  refine ⟨⟨s.xml, { s.robot with angles := a', cache := s.robot.cache.clear.clear, base := poseOfXyzrpy x y z r p w }, s.addHist,
    s.setHist ++ [⟨ids, a ++ [x, y, z, r, p, w], .floating⟩]⟩, _, ?_, ?_, rfl⟩
  · simp only [pySetQ, Prog.bind_apply, Prog.modify, pyAssert, h2, if_true, Prog.pure_apply, h1, List.take_left',
      List.drop_left', onRobot, setJointAngles, setJointAnglesNC, ha, clearCache, setBasePoseVec, setBasePose]
  · simp only [pyGetQ, Prog.bind_apply, Prog.pure_apply, onRobot, getJointAngles, getBasePose, Prog.read, h3]
    show Res.ok (a ++ [x, y, z, (Rot.fromRPY r p w).getRPY.x, (Rot.fromRPY r p w).getRPY.y, (Rot.fromRPY r p w).getRPY.z]) _ = _
    rw [hb.getRPY]

/-- **C18, planar base.** -/
theorem C18_set_get_planar (s : PyModel ℝ) {ids : List Nat} {a : List ℝ} {x y w : ℝ} (hd : ids.Nodup)
    (hi : ∀ i ∈ ids, i < s.robot.angles.length) (hl : a.length = ids.length) (h1 : -Real.pi < w) (h2 : w ≤ Real.pi) :
    ∃ s1 s2, pySetQ ids (a ++ [x, y, w]) .planer s = .ok () s1 ∧
      pyGetQ ids .planer s1 = .ok (a ++ [x, y, w]) s2 ∧ s2 = s1 := by
  obtain ⟨a', ha⟩ : ∃ a', writeAngles ids a s.robot.angles = .ok a' := writeAngles_ok (by omega) hi
  have e1 : (a ++ [x, y, w]).length - 3 = a.length := by simp
  have e2 : ((a ++ [x, y, w]).length == ids.length + 3) = true := by simp [hl]
  have e3 := writeAngles_read ha hd hl
  refine ⟨⟨s.xml, { s.robot with angles := a', cache := s.robot.cache.clear.clear, base := poseOfXyzrpy x y 0 0 0 w }, s.addHist,
    s.setHist ++ [⟨ids, a ++ [x, y, w], .planer⟩]⟩, _, ?_, ?_, rfl⟩
  · simp only [pySetQ, Prog.bind_apply, Prog.modify, pyAssert, e2, if_true, Prog.pure_apply, e1, List.take_left',
      List.drop_left', onRobot, setJointAngles, setJointAnglesNC, ha, clearCache, setBasePoseVec, setBasePose]
  · simp only [pyGetQ, Prog.bind_apply, Prog.pure_apply, onRobot, getJointAngles, getBasePose, Prog.read, e3]
    show Res.ok (a ++ [x, y, (Rot.fromRPY 0 0 w).getRPY.z]) _ = _
    rw [(rpyBox_planar h1 h2).getRPY]

/-! ### C62 -/

section
variable {ls : List (RawLink ℝ)} {js : List (RawJoint ℝ)} {m0 : KinModel ℝ} {cs : List (Call ℝ)}

/-- **C62.** `solve_fk(..., rot_type=RPY, use_cache=False)`: away from the singularity, the three angles
in the row of a link in a configuration are roll, pitch and yaw of the rotation of that link in the
described robot. -/
theorem C62_rpy_rows {h : List (PyCall ℝ)} {s : PyModel ℝ} {qs : QArg ℝ} {es ids : List Nat} {bt : BaseType} {wj : Bool}
    (hr : PyReach ls js m0 h cs s) (hf : Shallow ls js m0 cs) (hu : UnitDesc js) (ha : FkArgs m0 s qs es ids bt)
    (hne : wj = true → (∃ r ∈ ls, r.inertial.isSome) ∨ weldsAfter (names0 m0) cs ≠ []) :
    ∃ P J s', pySolveFk qs es ids .rpy bt wj false s = .ok (P, J) s' ∧ P.cols = 6 ∧
      ∀ (k j l : Nat) (q : List ℝ) (n : String) (θ : String → ℝ),
        qs.rows[k]? = some q → es[j]? = some l → getLinkIds [n] s.robot = .ok [l] s.robot →
        AnglesAfter m0 (cs ++ configCalls ids bt q) θ →
        ∃ T, (∀ T', WorldPose ls js (AllWelds ls m0 cs) θ
            (baseAfter Pose.identity (cs ++ configCalls ids bt q)) n T' ↔ T' = T) ∧
          (|T.rotation.matrix 2 0| < 99999 / 100000 →
            rotZ (P.f (k * es.length + j) 5) * rotY (P.f (k * es.length + j) 4) * rotX (P.f (k * es.length + j) 3) =
              T.rotation.matrix) := by
  obtain ⟨mc, hat⟩ := hr.at
  obtain ⟨P, J, s', mc', e, _, hres⟩ := hat.pySolveFk (rt := .rpy) (wj := wj) (uc := false) hf ha (.inr rfl) hne
  refine ⟨P, J, s', e, hres.pCols, ?_⟩
  intro k j l q n θ hq hl hn hθ
  obtain ⟨T, hT, hP⟩ := hres.world hat ha.shape ha.joints _ _ l q n θ hq hl hn hθ
  refine ⟨T, hT, ?_⟩
  intro hb
  have hu' := WorldPose.unit hu (fun w hw => hr.unitCalls.allWelds hw)
    ((hr.unitCalls.append (configCalls_unit ids bt q)).base (b := Pose.identity) Rot.norm2_one) ((hT _).mpr rfl)
  obtain ⟨_, _, _, h3, h4, h5⟩ := hP
  rw [h3, h4, h5]
  apply Rot.matrix_getRPY hu'
  have : T.rotation.sarg = -(T.rotation.matrix 2 0) := by rw [Rot.matrix_unit hu']; simp [Rot.sarg]
  rw [this, abs_neg]; exact hb

end

/-! ### C59, C61 -/

section
variable {K : Type} [Scalar K]

/-- **C59 (partial).** A single configuration is the same as a batch of one: as a 1-d array for
`solve_fk`, as a flat list for `solve_com_fk`. Missing: the other two cases, which raise
(`C59_flat_list`, `C59_array`). -/
theorem C59_one_dim_partial (q : List K) (es ids : List Nat) (rt : RotType) (bt : BaseType) (wj uc : Bool)
    (act : Option (List Nat × List K)) (s : PyModel K) :
    pySolveFk (.nd1 q) es ids rt bt wj uc s = pySolveFk (.nd2 ⟨q.length, [q], by simp⟩) es ids rt bt wj uc s ∧
    pySolveComFk (.list1 q) ids act bt wj s = pySolveComFk (.nd2 ⟨q.length, [q], by simp⟩) ids act bt wj s := ⟨rfl, rfl⟩

/-- **C59 is false** of `solve_fk` with a flat list: it always raises `ValueError`. -/
theorem C59_flat_list (q : List K) (es ids : List Nat) (rt : RotType) (bt : BaseType) (wj uc : Bool) (s : PyModel K) :
    ∃ e, pySolveFk (.list1 q) es ids rt bt wj uc s = .exn (.valueError e) s := ⟨_, rfl⟩

/-- **C59 is false** of `solve_com_fk` with a 1-d array: it always raises `ValueError`. -/
theorem C59_array (q : List K) (ids : List Nat) (act : Option (List Nat × List K)) (bt : BaseType) (wj : Bool) (s : PyModel K) :
    ∃ e, pySolveComFk (.nd1 q) ids act bt wj s = .exn (.valueError e) s := ⟨_, rfl⟩

/-- **C61 (partial).** With a fixed base, `solve_fk` of an empty batch of the right width returns empty
matrices and leaves the model alone. Missing: planar and floating base (`C61_empty_base`). -/
theorem C61_empty_batch_partial (es ids : List Nat) (rt : RotType) (wj uc : Bool) (s : PyModel K) :
    ∃ P J, pySolveFk (.nd2 ⟨ids.length, [], by simp⟩) es ids rt .fixed wj uc s = .ok (P, J) s ∧ P.rows = 0 ∧ J.rows = 0 := by
  refine ⟨(Mat.zero rt.dim (0 * es.length)).transpose, Mat.zero (0 * es.length * rt.dim) ids.length, ?_,
    by simp [Mat.transpose, Mat.zero], by simp [Mat.zero]⟩
  simp [pySolveFk, fkArg, Prog.bind_apply, Prog.lift, Prog.read, prepareRows, pyAssert, Prog.pure_apply,
    onRobot, solveForwardKinematics, fkLoop]

/-- **C61 is false** with a planar or floating base: `solve_fk` of an empty batch of the right width
reads element 0 of an empty vector. -/
theorem C61_empty_base (es ids : List Nat) (rt : RotType) {bt : BaseType} (hb : bt ≠ .fixed) (wj uc : Bool) (s : PyModel K) :
    ∃ u, pySolveFk (.nd2 ⟨ids.length + bt.dof, [], by simp⟩) es ids rt bt wj uc s = .ub u := by
  refine ⟨.outOfBounds "joint_angles_sequence[0]", ?_⟩
  cases bt with
  | fixed => exact absurd rfl hb
  | planer =>
    simp [pySolveFk, fkArg, Prog.bind_apply, Prog.lift, Prog.read, prepareRows, pyAssert, BaseType.dof, Prog.pure_apply,
      onRobot, solveForwardKinematics, modifyInput, mapOutcome]
  | floating =>
    simp [pySolveFk, fkArg, Prog.bind_apply, Prog.lift, Prog.read, prepareRows, pyAssert, BaseType.dof, Prog.pure_apply,
      onRobot, solveForwardKinematics]

end

namespace Example

-- the tip of the example robot, after a history, in two configurations with a planar base
example := C62_rpy_rows (wj := true) s1_reach s1_shallow unitDesc (a1_args s1_links) (fun _ => .inl inertial)
example := C18_set_get_floating s0 (ids := [1, 0]) (a := [5, 6]) (x := 1) (y := 2) (z := 3) (r := 0) (p := 0) (w := 0)
  (by simp) (by show ∀ i ∈ [1, 0], i < m0.angles.length; rw [constructed.inv.graph.anglesLen, joints_length]; simp) rfl (rpyBox_planar (by linarith [Real.pi_pos]) Real.pi_pos.le)

end Example
end Tinyfk
