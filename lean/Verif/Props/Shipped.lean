import Verif.Proofs.Shipped
import Verif.Props.EndToEnd
import Verif.Props.Deriv
import Verif.Props.Inertia

/-!
# Properties: the robots in `data/`

C96.
-/

set_option maxRecDepth 20000

namespace Tinyfk

/-- `Shipped val t ls js`: `t` is the text of a file in `data/`, and `ls` and `js` are the links and joints of its table. -/
inductive Shipped {K : Type} [Scalar K] (val : Dec → K) : List Char → List (RawLink K) → List (RawJoint K) → Prop
  | kuka : Shipped val Kuka.text (Kuka.links.map (LinkRow.link val)) (Kuka.joints.map (JointRow.joint val))
  | fetch : Shipped val Fetch.text (Fetch.links.map (LinkRow.link val)) (Fetch.joints.map (JointRow.joint val))
  | pr2 : Shipped val Pr2.text (Pr2.links.map (LinkRow.link val)) (Pr2.joints.map (JointRow.joint val))

section
variable {K : Type} [Scalar K] {rnd : Bool → Nat → Int → Option K} {val : Dec → K} {t : List Char}
  {ls : List (RawLink K)} {js : List (RawJoint K)}

/-- **C96, the files.** Each file in `data/` is well-formed XML, its links and joints are those of the table, and they form a tree of
supported joints: the robots meet the hypothesis of C76, for every rounding of decimal numbers. -/
theorem C96_files (hv : Reads rnd val) (h : Shipped val t ls js) : RobotText (strToDouble rnd) t ls js := by
  cases h with
  | kuka => exact Chk.checkRobot_sound hv kuka_checked
  | fetch => exact Chk.checkRobot_sound hv fetch_checked
  | pr2 => exact Chk.checkRobot_sound hv pr2_checked

/-- **C96, loading.** `KinematicModel(text)` for a file in `data/` succeeds, and no pose query on the
model overflows its stack. -/
theorem C96_loads (hv : Reads rnd val) (h : Shipped val t ls js) :
    ∃ m0, pyInit (parseText (strToDouble rnd)) (String.ofList t) = .ok ⟨String.ofList t, m0, [], []⟩ ∧
      PyReach ls js m0 [] [] ⟨String.ofList t, m0, [], []⟩ ∧ Shallow ls js m0 [] :=
  C76_from_text (C96_files hv h)

/-- **C96, poses.** Load a file of `data/`, look up joints and links by name, compute poses: row `k * n_link + j` is the pose of
the `j`-th named link at configuration `k` in the robot of the table. -/
theorem C96_poses (hv : Reads rnd val) (h : Shipped val t ls js)
    {jn ln : List String} (hjn : ∀ n ∈ jn, ∃ j ∈ js, j.type.Movable ∧ j.name = n) (hd : jn.Nodup)
    (hln : ∀ n ∈ ln, n ∈ ls.map RawLink.name) (bt : BaseType) (qs : Arr2 K) (hq : qs.cols = jn.length + bt.dof) (hne : qs.rows ≠ [])
    (rt : RotType) :
    ∃ s0 ids es P J s, pyInit (parseText (strToDouble rnd)) (String.ofList t) = .ok s0 ∧
      pyGetJointIds jn s0 = .ok ids s0 ∧ pyGetLinkIds ln s0 = .ok es s0 ∧
      pySolveFk (.nd2 qs) es ids rt bt false false s0 = .ok (P, J) s ∧
      P.rows = qs.rows.length * ln.length ∧ P.cols = rt.width ∧
      ∀ (k j : Nat) (q : List K) (n : String) (θ : String → K),
        qs.rows[k]? = some q → ln[j]? = some n → ConfigSays jn q θ →
        ∃ T, (∀ T', WorldPose ls js (ComWeld ls) θ (configBase jn.length bt q) n T' ↔ T' = T) ∧
          PoseRow rt P (k * ln.length + j) T :=
  C76_end_to_end (C96_files hv h) hjn hd hln bt qs hq hne rt

/-- **C96, position limits.** `get_joint_limits` on a robot of `data/` never fails and returns the limits of the table. -/
theorem C96_position_limits (hv : Reads rnd val) (hs : Shipped val t ls js) {m0 : KinModel K} {hist : List (PyCall K)}
    {cs : List (Call K)} {s : PyModel K} (hr : PyReach ls js m0 hist cs s) {names : List String} {ids : List Nat}
    (hn : pyGetJointIds names s = .ok ids s) :
    ∃ out, pyGetJointLimits ids s = .ok out s ∧ List.Forall₂ (LimitsOf js) names out := by
  refine C42_position_limits hr (fun j hj ht => ?_) hn
  obtain ⟨e, _, _, _, _, _, _, h2⟩ := (C96_files hv hs).document
  obtain ⟨i, hi⟩ := List.getElem?_of_mem hj
  obtain ⟨x, _, hx⟩ := forall₂_get' h2 hi
  exact C42_limits_present hx.1 ht

/-- **C96: the shipped PR2 meets C43.** Three continuous joints of `data/pr2.urdf` have no `<limit>`: the C++ calls for velocity and
effort limits on them follow a null pointer, after every history. -/
theorem C96_pr2_null_limits {m0 m : KinModel K} {cs : List (Call K)}
    (h : Reach (Pr2.links.map (LinkRow.link val)) (Pr2.joints.map (JointRow.joint val)) m0 cs m) {n : String}
    (hn : n ∈ ["torso_lift_motor_screw_joint", "r_gripper_motor_screw_joint", "l_gripper_motor_screw_joint"]) :
    ∃ i, getJointIds [n] m = .ok [i] m ∧
      (∃ u, getJointVelocityLimits [i] m = .ub u) ∧ ∃ u, getJointEffortLimits [i] m = .ub u := by
  have key : ∀ l ∈ [chars "torso_lift_motor_screw_joint", chars "r_gripper_motor_screw_joint", chars "l_gripper_motor_screw_joint"],
      ∃ j ∈ Pr2.joints, j.name = l ∧ j.limit = none ∧ j.type = .continuous := by decide +kernel
  obtain ⟨l, hl, rfl⟩ : ∃ l ∈ [chars "torso_lift_motor_screw_joint", chars "r_gripper_motor_screw_joint",
      chars "l_gripper_motor_screw_joint"], n = String.ofList l := by
    simp only [List.mem_cons, List.not_mem_nil, or_false] at hn
    rcases hn with rfl | rfl | rfl
    · exact ⟨_, by simp, rfl⟩
    · exact ⟨_, by simp, rfl⟩
    · exact ⟨_, by simp, rfl⟩
  obtain ⟨j, hj, rfl, hlim, ht⟩ := key l hl
  have hmem : j.joint val ∈ Pr2.joints.map (JointRow.joint val) := List.mem_map_of_mem hj
  obtain ⟨names, _, _, hs, _, hi⟩ := C12_joint_names h
  have hin : String.ofList j.name ∈ names := (hs _).mpr ⟨_, hmem, by simp [JointRow.joint, ht, JointType.Movable], rfl⟩
  obtain ⟨i, hi'⟩ := List.getElem?_of_mem hin
  have hid := (hi _ i).mpr hi'
  exact ⟨i, hid, C43_null_limits h (r := j.joint val) hmem (by simp [JointRow.joint, hlim]) hid⟩

/-- **C96, velocity and effort limits.** On the other two robots the calls are defined and return the values of the table. -/
theorem C96_limits {m0 m : KinModel K} {cs : List (Call K)} (hs : Shipped val t ls js) (hp : t ≠ Pr2.text)
    (h : Reach ls js m0 cs m) {names : List String} {ids : List Nat} (hn : getJointIds names m = .ok ids m) :
    ∃ vs es, getJointVelocityLimits ids m = .ok vs m ∧ getJointEffortLimits ids m = .ok es m ∧
      List.Forall₂ (fun n v => ∃ r ∈ js, r.name = n ∧ ∃ l, r.limits = some l ∧ v = l.velocity) names vs ∧
      List.Forall₂ (fun n v => ∃ r ∈ js, r.name = n ∧ ∃ l, r.limits = some l ∧ v = l.effort) names es := by
  refine C43_limits_partial h hn fun r hr hrn => ?_
  have hmov : r.type.Movable := by
    obtain ⟨all, h1, h2⟩ := C14_unknown_joints h names
    obtain ⟨names', g1, _, g3, _⟩ := C12_joint_names h
    rw [h1] at g1
    injection g1 with g1 _
    subst g1
    rcases h2 with ⟨h2, _⟩ | ⟨_, e, h2⟩
    · obtain ⟨r', hr', ht, he⟩ := (g3 _).mp (h2 _ hrn)
      have : r' = r := List.inj_on_of_nodup_map h.abs.desc.jointNodup hr' hr he
      exact this ▸ ht
    · rw [h2] at hn; cases hn
  have fin : ∀ {jr : List JointRow}, (jr.all fun j => j.limit.isSome || !decide j.type.Movable) = true →
      r ∈ jr.map (JointRow.joint val) → r.limits.isSome := by
    intro jr hall hr
    obtain ⟨j, hj, rfl⟩ := List.mem_map.mp hr
    have := List.all_eq_true.mp hall j hj
    simp only [Bool.or_eq_true, Bool.not_eq_true', decide_eq_false_iff_not] at this
    rcases this with h | h
    · simpa [JointRow.joint] using h
    · exact absurd hmov h
  cases hs with
  | kuka => exact fin (by decide +kernel) hr
  | fetch => exact fin (by decide +kernel) hr
  | pr2 => exact absurd rfl hp

end

/-- the number a decimal denotes -/
noncomputable def Dec.exact (d : Dec) : ℝ := (if d.neg then -1 else 1) * d.digits * (10 : ℝ) ^ d.exp

/-- reading without rounding -/
theorem reads_exact : Reads exactReal Dec.exact := fun _ _ => rfl

namespace Shipped

/-- one of the six coordinate directions -/
def isAxis (v : Vec3 Dec) : Bool :=
  let z : Dec → Bool := fun d => d.digits = 0
  let o : Dec → Bool := fun d => d.digits = 1 ∧ d.exp = 0
  o v.x && z v.y && z v.z || z v.x && o v.y && z v.z || z v.x && z v.y && o v.z

/-- the numbers of the tables that matter for geometry -/
def geometry (ls : List LinkRow) (js : List JointRow) : Bool :=
  js.all (fun j => match j.axis with
    | none => true
    | some v => j.type = .fixed || isAxis v) &&
  ls.all (fun l => match l.inertial with
    | none => true
    | some i => !i.mass.neg && (match i.origin with
      | none => true
      | some o => match o.rpy with
        | none => true
        | some r => r.x.digits = 0 ∧ r.y.digits = 0 ∧ r.z.digits = 0)) &&
  ls.any (fun l => match l.inertial with
    | none => false
    | some i => 0 < i.mass.digits)

theorem exact_zero {d : Dec} (h : d.digits = 0) : d.exact = 0 := by simp [Dec.exact, h]

theorem exact_one {d : Dec} (h : d.digits = 1) (h' : d.exp = 0) : d.exact ^ 2 = 1 := by
  cases hn : d.neg <;> simp [Dec.exact, h, h', hn]

theorem isAxis_unit {v : Vec3 Dec} (h : isAxis v = true) : (decVec Dec.exact v).IsUnit := by
  simp only [isAxis, Bool.or_eq_true, Bool.and_eq_true, decide_eq_true_eq] at h
  unfold Vec3.IsUnit decVec
  rcases h with (⟨⟨⟨a, a'⟩, b⟩, c⟩ | ⟨⟨a, b, b'⟩, c⟩) | ⟨⟨a, b⟩, c, c'⟩
  · simp [exact_one a a', exact_zero b, exact_zero c]
  · simp [exact_one b b', exact_zero a, exact_zero c]
  · simp [exact_one c c', exact_zero a, exact_zero b]

theorem fromRPY_zero : Rot.fromRPY (0 : ℝ) 0 0 = Rot.one := by
  simp [Rot.fromRPY, Rot.one, Rot.normalize, Scalar.sin, Scalar.cos, Scalar.sqrt]

theorem originOf_unit (o : Option OriginRow) : (originOf Dec.exact o).rotation.norm2 = 1 := by
  cases o with
  | none => simp [originOf, Rot.norm2]
  | some o =>
    cases h : o.rpy with
    | none => simp [originOf, h, Rot.norm2]
    | some r => simp only [originOf, h]; exact Rot.norm2_fromRPY _ _ _

variable {lr : List LinkRow} {jr : List JointRow}

theorem geometry_unit (h : geometry lr jr = true) : UnitDesc (jr.map (JointRow.joint Dec.exact)) := by
  simp only [geometry, Bool.and_eq_true] at h
  intro j hj
  obtain ⟨r, hr, rfl⟩ := List.mem_map.mp hj
  refine ⟨originOf_unit _, fun ht => ?_⟩
  have := List.all_eq_true.mp h.1.1 r hr
  have hne : ¬ (r.type = .floating ∨ r.type = .fixed) := by
    have ht' : r.type = .revolute ∨ r.type = .continuous := ht
    rcases ht' with e | e <;> simp [e]
  simp only [JointRow.joint, if_neg hne]
  cases ha : r.axis with
  | none => simp [axisOf, Vec3.IsUnit]
  | some v =>
    rw [ha] at this
    simp only [Bool.or_eq_true, decide_eq_true_eq] at this
    rcases this with e | e
    · exact absurd (.inr e) hne
    · exact isAxis_unit e

theorem geometry_inertial (h : geometry lr jr = true) : (∀ r ∈ lr.map (LinkRow.link Dec.exact), ∀ i, r.inertial = some i →
    0 ≤ i.mass ∧ i.origin.rotation = Rot.one) ∧ ∃ r ∈ lr.map (LinkRow.link Dec.exact), ∃ i, r.inertial = some i ∧ 0 < i.mass := by
  simp only [geometry, Bool.and_eq_true] at h
  refine ⟨?_, ?_⟩
  · intro r hr i hi
    obtain ⟨l, hl, rfl⟩ := List.mem_map.mp hr
    obtain ⟨ir, hir, rfl⟩ := Option.map_eq_some_iff.mp hi
    have := List.all_eq_true.mp h.1.2 l hl
    rw [hir] at this
    simp only [Bool.and_eq_true, Bool.not_eq_true'] at this
    refine ⟨?_, ?_⟩
    · simp only [InertialRow.inertial, Dec.exact, this.1, Bool.false_eq_true, if_false]
      positivity
    · simp only [InertialRow.inertial]
      cases ho : ir.origin with
      | none => rfl
      | some o =>
        cases hq : o.rpy with
        | none => simp only [originOf, hq]; rfl
        | some v =>
          have h2 := this.2
          simp only [ho, hq, decide_eq_true_eq] at h2
          simp only [originOf, hq, exact_zero h2.1, exact_zero h2.2.1, exact_zero h2.2.2, fromRPY_zero]
  · obtain ⟨l, hl, hp⟩ := List.any_eq_true.mp h.2
    cases hi : l.inertial with
    | none => rw [hi] at hp; cases hp
    | some ir =>
      rw [hi] at hp
      simp only [decide_eq_true_eq] at hp
      have hneg := List.all_eq_true.mp h.1.2 l hl
      rw [hi] at hneg
      simp only [Bool.and_eq_true, Bool.not_eq_true'] at hneg
      refine ⟨_, List.mem_map_of_mem hl, _, by simp only [LinkRow.link, hi]; rfl, ?_⟩
      simp only [InertialRow.inertial, Dec.exact, hneg.1, Bool.false_eq_true, if_false]
      have : (0 : ℝ) < ir.mass.digits := by exact_mod_cast hp
      positivity

end Shipped

section
variable {t : List Char} {ls : List (RawLink ℝ)} {js : List (RawJoint ℝ)} {m0 m : KinModel ℝ} {cs : List (Call ℝ)}

/-- **C96, geometry.** The robots of `data/`, read exactly: all turning axes have length 1 (C78), no inertia tensor is rotated (C34), no
mass is negative and at least one is positive. -/
theorem C96_geometry (h : Shipped Dec.exact t ls js) : UnitDesc js ∧
    (∀ r ∈ ls, ∀ i, r.inertial = some i → 0 ≤ i.mass ∧ i.origin.rotation = Rot.one) ∧
    ∃ r ∈ ls, ∃ i, r.inertial = some i ∧ 0 < i.mass := by
  cases h with
  | kuka =>
    have h : Shipped.geometry Kuka.links Kuka.joints = true := by decide +kernel
    exact ⟨Shipped.geometry_unit h, Shipped.geometry_inertial h⟩
  | fetch =>
    have h : Shipped.geometry Fetch.links Fetch.joints = true := by decide +kernel
    exact ⟨Shipped.geometry_unit h, Shipped.geometry_inertial h⟩
  | pr2 =>
    have h : Shipped.geometry Pr2.links Pr2.joints = true := by decide +kernel
    exact ⟨Shipped.geometry_unit h, Shipped.geometry_inertial h⟩

/-- **C96, Jacobians.** For the robots of `data/` the columns of the Jacobian are derivatives of the position (C25) after every
history whose base poses and added links have unit rotations. -/
theorem C96_jacobian (hs : Shipped Dec.exact t ls js) (h : Reach ls js m0 cs m) (hf : Shallow ls js m0 cs) (hc : UnitCalls cs)
    {l : Nat} (hl : l < m.links.length) {ids : List Nat} (hids : ∀ i ∈ ids, i < m.joints.length) (rt : RotType) (wb : Bool) :
    ∃ J m', getJacobian l ids rt wb m = .ok J m' ∧ ∀ k i, ids[k]? = some i →
      ∃ θ T, getJointAngles [i] m = .ok [θ] m ∧ PoseCurve m l i T ∧
        HasDerivAt (fun v => (T v).position.x) (J.f 0 k) θ ∧
        HasDerivAt (fun v => (T v).position.y) (J.f 1 k) θ ∧
        HasDerivAt (fun v => (T v).position.z) (J.f 2 k) θ := by
  obtain ⟨hu, _, r, hr, i, hi, _⟩ := C96_geometry hs
  exact C25_position h hf hu hc (.inl ⟨r, hr, by rw [hi]; rfl⟩) hl hids rt wb

/-- **C96, inertia.** For the robots of `data/` the inertia matrix is that of the bodies about the centre of mass (the claim of C34). -/
theorem C96_inertia (hs : Shipped Dec.exact t ls js) (h : Reach ls js m0 cs m) (hf : Shallow ls js m0 cs) {θ : String → ℝ}
    (hθ : AnglesAfter m0 cs θ) (hc : UnitCalls cs) :
    ∃ bs, (∀ bs', Bodies ls js (AllWelds ls m0 cs) θ (baseAfter Pose.identity cs) bs' ↔ bs' = bs) ∧
      ∃ I m', getTotalInertia m = .ok I m' ∧ Matrix.of I = inertiaAbout bs (comOf bs) := by
  obtain ⟨hu, h2, _⟩ := C96_geometry hs
  exact C34_inertia_partial h hf hθ hu hc fun r hr i hi => (h2 r hr i hi).2

end

example : Kuka.text ≠ Pr2.text ∧ Fetch.text ≠ Pr2.text := by
  constructor <;> (intro h; have := congrArg List.length h; revert this; decide +kernel)

/-- the hypotheses: a history of the PR2, read exactly -/
example : ∃ m0 : KinModel ℝ, Reach (Pr2.links.map (LinkRow.link Dec.exact)) (Pr2.joints.map (JointRow.joint Dec.exact)) m0 [] m0 := by
  obtain ⟨m0, _, h, _⟩ := C96_loads reads_exact .pr2
  exact ⟨m0, h.tree, h.supported, h.built, .nil⟩

end Tinyfk
