import Verif.Props.PySolve

/-!
# Properties: reading back joint angles, failed calls, Jacobian columns, joint limits

C18 (fixed base), C41, C42, C43, C60.
-/

set_option linter.unusedSectionVars false

namespace Tinyfk

open Scalar

section
variable {K : Type} [Scalar K]
  {ls : List (RawLink K)} {js : List (RawJoint K)} {m0 : KinModel K} {cs : List (Call K)} {mc m : KinModel K}
  {h : List (PyCall K)} {s s' : PyModel K}

/-! ### C60 -/

/-- **C60.** A Python call that raises an exception leaves joint angles, base pose, links, ids, masses
and limits as they were: the robot is the same up to the contents of cache and traversal stack. -/
theorem C60_failed_call (hr : PyReach ls js m0 h cs s) {c : PyCall K} (hc : c.Shaped) {e : Exn}
    (he : c.run s = .exn e s') : ∃ st ca, s'.robot = { s.robot with stack := st, cache := ca } := by
  obtain ⟨mc, ha⟩ := hr.at
  have := PyCall.does c hc cs mc s ha
  rw [he] at this
  obtain ⟨mc', ha'⟩ := this
  have : mc = mc' := ha.reach.runs.det ha'.reach.runs
  subst this
  obtain ⟨⟨st, ca, h1⟩, _⟩ := ha.same
  obtain ⟨⟨st', ca', h2⟩, _⟩ := ha'.same
  exact ⟨st', ca', by rw [h1, h2]⟩

/-! ### C18, fixed base -/

theorem writeAngles_read {ids : List Nat} {q a a' : List K} (hw : writeAngles ids q a = .ok a')
    (hd : ids.Nodup) (hl : q.length = ids.length) :
    mapOutcome (fun i => Outcome.idx "joint_angles_" a' i) ids = .ok q := by
  have hv := writeAngles_valid hw
  have hget : ∀ (k i : Nat), ids[k]? = some i → a'[i]? = q[k]? := by
    intro k i hk
    obtain ⟨hkl, rfl⟩ := List.getElem?_eq_some_iff.mp hk
    have hlt : ids[k] < a.length := hv.1 _ (by simp)
    rw [writeAngles_get hw _ hlt, List.getElem?_eq_getElem (by omega : k < q.length)]
    congr 1
    have key : ∀ (ids : List Nat) (q : List K) (k : Nat) (h1 : k < ids.length) (h2 : k < q.length),
        ids.Nodup → ids.length = q.length → lastWrite (ids.zip q) ids[k] = some q[k] := by
      intro ids
      induction ids with
      | nil => intro q k h1; simp at h1
      | cons i ids ih =>
        intro q k h1 h2 hd hl
        cases q with
        | nil => simp at h2
        | cons v q =>
          rw [List.zip_cons_cons]
          cases k with
          | zero =>
            have hn : lastWrite (ids.zip q) i = none := lastWrite_eq_none (by simp at hd; exact hd.1)
            simp only [lastWrite] at hn ⊢
            have he : (ids.zip q).filter (fun w => w.1 == i) = [] := by
              simpa using hn
            simp [he]
          | succ k =>
            simp only [List.length_cons, Nat.add_lt_add_iff_right] at h1 h2
            have := ih q k h1 h2 (List.nodup_cons.mp hd).2 (by simpa using hl)
            simp only [lastWrite, List.getElem_cons_succ] at this ⊢
            rw [List.filter_cons]
            split
            · have hne : (ids.zip q).filter (fun w => w.1 == ids[k]) ≠ [] := by
                intro hn; rw [hn] at this; simp at this
              rw [List.getLast?_cons_of_ne_nil hne]; exact this
            · exact this
    rw [key ids q k hkl (by omega) hd hl.symm]
    rfl
  clear hw hv hd
  induction ids generalizing q with
  | nil =>
    cases q with
    | nil => rfl
    | cons => simp at hl
  | cons i ids ih =>
    cases q with
    | nil => simp at hl
    | cons v q =>
      have h0 := hget 0 i rfl
      have := ih (q := q) (by simpa using hl) (fun k i hk => by simpa using hget (k + 1) i (by simpa using hk))
      simp only [mapOutcome, Outcome.idx, h0, List.getElem?_cons_zero, Outcome.bind_eq, Outcome.bind_ok,
        Outcome.pure_eq]
      simp only [Outcome.idx] at this
      rw [this]
      rfl

/-- **C18, fixed base.** On any model, for distinct joint ids: `set_q(ids, q)` with as many numbers as
ids succeeds, and `get_q(ids)` then returns `q`, bit for bit. -/
theorem C18_set_get_fixed (s : PyModel K) {ids : List Nat} {q : List K} (hd : ids.Nodup)
    (hi : ∀ i ∈ ids, i < s.robot.angles.length) (hl : q.length = ids.length) :
    ∃ s1 s2, pySetQ ids q .fixed s = .ok () s1 ∧ pyGetQ ids .fixed s1 = .ok q s2 ∧ s2 = s1 := by
  obtain ⟨a, ha⟩ : ∃ a, writeAngles ids q s.robot.angles = .ok a := writeAngles_ok (by omega) hi
  have hs : pySetQ ids q .fixed s =
      .ok () { s with setHist := s.setHist ++ [⟨ids, q, .fixed⟩],
                      robot := { s.robot with angles := a, cache := s.robot.cache.clear } } := by
    simp only [pySetQ, Prog.bind_apply, Prog.modify, pyAssert, hl, beq_self_eq_true, if_true, Prog.pure_apply,
      onRobot, setJointAngles, setJointAnglesNC, ha, clearCache]
  refine ⟨_, _, hs, ?_, rfl⟩
  have hr := writeAngles_read ha hd hl
  simp only [pyGetQ, Prog.bind_apply, Prog.pure_apply, onRobot, getJointAngles, Prog.read]
  rw [hr]
  simp

/-! ### C41 -/

/-- **C41.** The column of a joint in `get_jacobian` depends neither on the other joints of the list nor
on their order, nor on `with_base`; and the six base columns do not depend on the list. -/
theorem C41_columns (h : Reach ls js m0 cs m) (hf : Shallow ls js m0 cs)
    (hne : (∃ r ∈ ls, r.inertial.isSome) ∨ weldsAfter (names0 m0) cs ≠ [])
    {l : Nat} (hl : l < m.links.length) {ids ids' : List Nat} (hi : ∀ i ∈ ids, i < m.joints.length)
    (hi' : ∀ i ∈ ids', i < m.joints.length) (rt : RotType) (wb wb' : Bool) :
    ∃ J m1 J' m2, getJacobian l ids rt wb m = .ok J m1 ∧ getJacobian l ids' rt wb' m = .ok J' m2 ∧
      (∀ (k k' : Nat), k < ids.length → ids[k]? = ids'[k']? → ∀ r, J.f r k = J'.f r k') ∧
      (wb = true → wb' = true → ∀ c < 6, ∀ r, J.f r (ids.length + c) = J'.f r (ids'.length + c)) := by
  obtain ⟨T, cols, hT, hc, m1, e1, _⟩ := h.jacobian hf hne hl hi rt wb
  obtain ⟨T', cols', hT', hc', m2, e2, _⟩ := h.jacobian hf hne hl hi' rt wb'
  have : T = T' := hT.unique hT'
  subst this
  have len1 := hc.length_eq
  have len2 := hc'.length_eq
  refine ⟨_, m1, _, m2, e1, e2, ?_, ?_⟩
  · intro k k' hk hkk r
    have hk' : k' < ids'.length := by
      rw [List.getElem?_eq_getElem hk] at hkk
      exact (List.getElem?_eq_some_iff.mp hkk.symm).1
    have hee : ids[k] = ids'[k'] := by
      rw [List.getElem?_eq_getElem hk, List.getElem?_eq_getElem hk'] at hkk
      exact Option.some.inj hkk
    have c1 := hc.get hk (by omega)
    have c2 := hc'.get hk' (by omega)
    simp only [List.get_eq_getElem] at c1 c2
    rw [← hee] at c2
    have hcol : cols[k] = cols'[k'] := by
      rcases c1 with ⟨a1, a2⟩ | ⟨jp, j, c, tfC, a1, a2, a3, a4, a5, a6, a7⟩
      · rcases c2 with ⟨b1, b2⟩ | ⟨_, _, _, _, b1, _⟩
        · rw [a2, b2]
        · rw [a1] at b1; cases b1
      · rcases c2 with ⟨b1, b2⟩ | ⟨jp', j', c', tfC', b1, b2, b3, b4, b5, b6, b7⟩
        · rw [a1] at b1; cases b1
        · rw [a2] at b2; cases b2
          rw [a3] at b3; cases b3
          rw [a4] at b4; cases b4
          have := a6.unique b6
          subst this
          rw [a7, b7]
    simp only [jacMat]
    rw [if_pos (by omega : k < cols.length), if_pos (by omega : k' < cols'.length)]
    simp only [List.getD_eq_getElem?_getD, List.getElem?_eq_getElem (by omega : k < cols.length),
      List.getElem?_eq_getElem (by omega : k' < cols'.length), Option.getD_some, hcol]
  · rintro rfl rfl c hc r
    simp only [jacMat, if_true, len1, len2]
    have e1 : ¬ cols.length + c < cols.length := by omega
    have e2 : ¬ cols'.length + c < cols'.length := by omega
    have e3 : cols.length + c < cols.length + 6 := by omega
    have e4 : cols'.length + c < cols'.length + 6 := by omega
    simp only [e1, e2, e3, e4, if_false, if_true, Nat.add_sub_cancel_left]

/-! ### C42, C43 -/

/-- the limits of the joint called `n`, as `get_joint_limits` reports them -/
inductive LimitsOf (js : List (RawJoint K)) (n : String) : Option (Bound K) × Option (Bound K) → Prop
  | continuous {j : RawJoint K} : j ∈ js → j.name = n → j.type = .continuous →
      LimitsOf js n (none, none)
  | bounded {j : RawJoint K} {l : JointLimits K} : j ∈ js → j.name = n →
      j.type = .revolute ∨ j.type = .prismatic → j.limits = some l →
      LimitsOf js n (some (.fin l.lower), some (.fin l.upper))

theorem At.rawJoint (ha : At ls js m0 cs mc m) {n : String} {i : Nat} (hn : m.jointIds.find n = some i) :
    ∃ r jp j, r ∈ js ∧ r.name = n ∧ r.type.Movable ∧ m.joints[i]? = some jp ∧ m.jheap[jp]? = some j ∧
      j.type = r.type ∧ j.limits = r.limits := by
  obtain ⟨⟨st, c, rfl⟩, _⟩ := ha.same
  have hA := ha.reach.abs
  obtain ⟨jp, j, h1, h2, h3⟩ := (hA.inv.graph.jointNames n i).mp hn
  obtain ⟨r, j', hr, h4, h5⟩ := hA.desc.joints i jp h1
  rw [h2] at h4; cases h4
  obtain ⟨j2, _, _, _, g1, _, g2, _⟩ := hA.inv.graph.joint h1
  rw [h2] at g1; cases g1
  obtain ⟨i0, c0, rfl⟩ := h5
  exact ⟨r, jp, _, hr, h3, g2, h1, h2, rfl, rfl⟩

/-- **C42.** `get_joint_limits` on the ids of named joints returns, name by name, `(None, None)` for a
continuous joint and the lower and upper limit of the description for the others. (Descriptions in
which a revolute or prismatic joint has no limits do not parse.) -/
theorem C42_position_limits (hr : PyReach ls js m0 h cs s)
    (hlim : ∀ j ∈ js, j.type = .revolute ∨ j.type = .prismatic → j.limits.isSome)
    {names : List String} {ids : List Nat} (hn : pyGetJointIds names s = .ok ids s) :
    ∃ out, pyGetJointLimits ids s = .ok out s ∧ List.Forall₂ (LimitsOf js) names out := by
  obtain ⟨mc, ha⟩ := hr.at
  have hn' : getJointIds names s.robot = .ok ids s.robot := by
    simp only [pyGetJointIds, onRobot] at hn
    split at hn
    · rename_i a r e
      simp only [Res.ok.injEq] at hn
      rw [e]
      have := hn.2
      rw [hn.1, ← hn.2]
    all_goals cases hn
  have hf := (getJointIds_ok.mp hn').2
  have key : ∃ out0, mapOutcome (positionLimit s.robot) ids = .ok out0 ∧
      List.Forall₂ (fun n o => LimitsOf js n (pyLimit o)) names out0 := by
    clear hn hn'
    induction hf with
    | nil => exact ⟨[], rfl, .nil⟩
    | @cons n i names ids h1 _ ih =>
      obtain ⟨out0, e0, f0⟩ := ih
      obtain ⟨r, jp, j, r1, r2, r3, r4, r5, r6, r7⟩ := ha.rawJoint h1
      by_cases hcont : r.type = .continuous
      · refine ⟨(.negInf, .posInf) :: out0, ?_, .cons (.continuous r1 r2 hcont) f0⟩
        simp only [mapOutcome, positionLimit, Outcome.idx, r4, derefJoint, r5, r6, hcont, if_true,
          Outcome.bind_eq, Outcome.bind_ok, Outcome.pure_eq, e0]
      · have ht : r.type = .revolute ∨ r.type = .prismatic := by
          unfold JointType.Movable at r3
          rcases r3 with h | h | h
          · exact .inl h
          · exact absurd h hcont
          · exact .inr h
        obtain ⟨lim, hl⟩ := Option.isSome_iff_exists.mp (hlim r r1 ht)
        refine ⟨(.fin lim.lower, .fin lim.upper) :: out0, ?_, .cons (.bounded r1 r2 ht hl) f0⟩
        simp only [mapOutcome, positionLimit, Outcome.idx, r4, derefJoint, r5, r6, hcont, if_false, r7, hl,
          Outcome.bind_eq, Outcome.bind_ok, Outcome.pure_eq, e0]
  obtain ⟨out0, e0, f0⟩ := key
  refine ⟨out0.map pyLimit, ?_, List.forall₂_map_right_iff.mpr f0⟩
  simp only [pyGetJointLimits, Prog.bind_apply, onRobot, getJointPositionLimits, Prog.read, e0, Prog.pure_apply]

/-- **C43 is false.** On every reached state, asking for the velocity or effort limit of a joint without
`<limit>` (which a continuous joint may be) dereferences null. -/
theorem C43_null_limits (h : Reach ls js m0 cs m) {r : RawJoint K} (hr : r ∈ js) (hl : r.limits = none)
    {i : Nat} (hi : getJointIds [r.name] m = .ok [i] m) :
    (∃ u, getJointVelocityLimits [i] m = .ub u) ∧ ∃ u, getJointEffortLimits [i] m = .ub u := by
  obtain ⟨r', jp, j, r1, r2, r3, r4, r5, r6, r7⟩ := (At.of_reach h).rawJoint (getJointIds_one.mp hi)
  have : r' = r := by
    have hnd := h.abs.desc.jointNodup
    exact List.inj_on_of_nodup_map hnd r1 hr r2
  subst this
  rw [hl] at r7
  constructor
  · exact ⟨.nullDeref "limits", by simp only [getJointVelocityLimits, Prog.read, mapOutcome, derefLimits,
      Outcome.idx, r4, derefJoint, r5, r7, Outcome.bind_eq, Outcome.bind]⟩
  · exact ⟨.nullDeref "limits", by simp only [getJointEffortLimits, Prog.read, mapOutcome, derefLimits,
      Outcome.idx, r4, derefJoint, r5, r7, Outcome.bind_eq, Outcome.bind]⟩

/-- **C43 (partial).** For joints whose description has limits, velocity and effort limits are
those of the description. Missing: joints without `<limit>`, for which the calls crash
(`C43_null_limits`). -/
theorem C43_limits_partial (h : Reach ls js m0 cs m) {names : List String} {ids : List Nat}
    (hn : getJointIds names m = .ok ids m) (hl : ∀ r ∈ js, r.name ∈ names → r.limits.isSome) :
    ∃ vs es, getJointVelocityLimits ids m = .ok vs m ∧ getJointEffortLimits ids m = .ok es m ∧
      List.Forall₂ (fun n v => ∃ r ∈ js, r.name = n ∧ ∃ l, r.limits = some l ∧ v = l.velocity) names vs ∧
      List.Forall₂ (fun n v => ∃ r ∈ js, r.name = n ∧ ∃ l, r.limits = some l ∧ v = l.effort) names es := by
  have hf := (getJointIds_ok.mp hn).2
  have key : ∃ out, mapOutcome (derefLimits m) ids = .ok out ∧
      List.Forall₂ (fun n v => ∃ r ∈ js, r.name = n ∧ r.limits = some v) names out := by
    clear hn
    induction hf with
    | nil => exact ⟨[], rfl, .nil⟩
    | @cons n i names ids h1 _ ih =>
      obtain ⟨out, e0, f0⟩ := ih (fun r hr hm => hl r hr (by simp [hm]))
      obtain ⟨r, jp, j, r1, r2, r3, r4, r5, r6, r7⟩ := (At.of_reach h).rawJoint h1
      obtain ⟨lim, hlim⟩ := Option.isSome_iff_exists.mp (hl r r1 (by simp [r2]))
      refine ⟨lim :: out, ?_, .cons ⟨r, r1, r2, hlim⟩ f0⟩
      have hd : derefLimits m i = .ok lim := by
        simp only [derefLimits, Outcome.idx, r4, derefJoint, r5, r7, hlim,
          Outcome.bind_eq, Outcome.bind_ok, Outcome.pure_eq]
      simp only [mapOutcome, hd, e0, Outcome.bind_eq, Outcome.bind_ok, Outcome.pure_eq]
  obtain ⟨out, e0, f0⟩ := key
  have hmap : ∀ {β : Type} (g : JointLimits K → β) (ids : List Nat) (out : List (JointLimits K)),
      mapOutcome (derefLimits m) ids = .ok out →
      mapOutcome (fun i => do let l ← derefLimits m i; pure (g l)) ids = .ok (out.map g) := by
    intro β g ids
    induction ids with
    | nil => intro out e; simp only [mapOutcome] at e; cases e; rfl
    | cons i ids ih =>
      intro out e
      simp only [mapOutcome, Outcome.bind_eq] at e ⊢
      cases h1 : derefLimits m i with
      | ok l =>
        rw [h1, Outcome.bind_ok] at e
        cases h2 : mapOutcome (derefLimits m) ids with
        | ok out' =>
          rw [h2, Outcome.bind_ok] at e
          cases e
          have := ih _ h2
          simp only [Outcome.bind_eq, Outcome.pure_eq] at this
          simp only [Outcome.bind_ok, Outcome.pure_eq, this, List.map_cons]
        | exn x => rw [h2] at e; cases e
        | ub x => rw [h2] at e; cases e
        | hang => rw [h2] at e; cases e
      | exn x => rw [h1] at e; cases e
      | ub x => rw [h1] at e; cases e
      | hang => rw [h1] at e; cases e
  refine ⟨out.map JointLimits.velocity, out.map JointLimits.effort, ?_, ?_, ?_, ?_⟩
  · simp only [getJointVelocityLimits, Prog.read, hmap _ _ _ e0]
  · simp only [getJointEffortLimits, Prog.read, hmap _ _ _ e0]
  · exact List.forall₂_map_right_iff.mpr (f0.imp fun _ _ ⟨r, a, b, c⟩ => ⟨r, a, b, _, c, rfl⟩)
  · exact List.forall₂_map_right_iff.mpr (f0.imp fun _ _ ⟨r, a, b, c⟩ => ⟨r, a, b, _, c, rfl⟩)

end

/-! ### The hypotheses are met -/

namespace Example

-- get_link_ids(["gripper"]) raises on `s0`
example : ∃ st ca, s0.robot = { s0.robot with stack := st, cache := ca } :=
  C60_failed_call (c := .getLinkIds ["gripper"]) (e := .invalidArgument ("no link named " ++ "gripper"))
    s0_reach trivial (by
      have hg : s0.robot.linkIds.find "gripper" = none := by
        cases hf : s0.robot.linkIds.find "gripper" with
        | none => rfl
        | some l =>
          have := (linkIds "gripper" l).mp hf
          match l with
          | 0 => simp at this
          | 1 => simp at this
          | 2 => simp at this
          | 3 => simp at this
          | 4 => simp at this
          | 5 => simp at this
          | l + 6 => simp at this
      simp only [PyCall.run, Prog.bind, pyGetLinkIds, onRobot, getLinkIds, Prog.read, mapOutcome, hg,
        Outcome.bind_eq, Outcome.bind])

example := C18_set_get_fixed s0 (ids := [1, 0]) (q := [7, 8]) (by simp)
  (by rw [show s0.robot = m0 from rfl, constructed.inv.graph.anglesLen, joints_length]; simp) rfl
example := C41_columns m1_reach shallow hasInertial (l := 6) (ids := [0, 1]) (ids' := [1]) (m1_reach.link_lt tool_id)
  (by rw [m1_joints]; simp) (by rw [m1_joints]; simp) .xyzw true true

example : ∃ out, pyGetJointLimits [1, 0] s0 = .ok out s0 ∧ List.Forall₂ (LimitsOf js) ["turn", "slide"] out := by
  refine C42_position_limits s0_reach ?_ ?_
  · intro j hj
    simp only [js, List.mem_cons, List.not_mem_nil, or_false] at hj
    rcases hj with rfl | rfl | rfl <;> simp [turn, slide, weld]
  · have h1 : s0.robot.jointIds.find "turn" = some 1 := (jointIds _ _).mpr (.inr ⟨rfl, rfl⟩)
    have h2 : s0.robot.jointIds.find "slide" = some 0 := (jointIds _ _).mpr (.inl ⟨rfl, rfl⟩)
    simp only [pyGetJointIds, onRobot, getJointIds, Prog.read, mapOutcome, h1, h2, Outcome.bind_eq,
      Outcome.bind_ok, Outcome.pure_eq]

example := C43_limits_partial m1_reach turn_id (by
  intro r hr _
  simp only [js, List.mem_cons, List.not_mem_nil, or_false] at hr
  rcases hr with rfl | rfl | rfl <;> simp_all [turn, slide, weld])

end Example

/-- **C43, witness.** A two-link robot with a continuous joint without `<limit>`, freshly constructed. -/
theorem C43_witness {K : Type} [Scalar K] : ∃ (ls : List (RawLink K)) (js : List (RawJoint K)) (m : KinModel K),
    Reach ls js m [] m ∧ getJointIds ["spin"] m = .ok [0] m ∧
    (∃ u, getJointVelocityLimits [0] m = .ub u) ∧ ∃ u, getJointEffortLimits [0] m = .ub u := by
  let j : RawJoint K := ⟨"spin", .continuous, ⟨0, 0, 1⟩, Pose.identity, "a", "b", none⟩
  have ht : IsTree [j] := ⟨by simp, fun s => if s = "a" then 0 else 1, by simp [j]⟩
  have hs : Supported [j] := by
    intro j' hj; simp only [List.mem_singleton] at hj; subst hj
    exact .inr (.inr (.inl rfl))
  have hb : (buildModel [⟨"a", none⟩, ⟨"b", none⟩] [j]).isSome := by
    rw [buildModel_isSome]
    exact ⟨by simp, by simp, by simp, by simp [j], "a", by simp [j], by simp [j]⟩
  have hcl : NoComClash [(⟨"a", none⟩ : RawLink K), ⟨"b", none⟩] := by
    intro r hr; simp at hr; rcases hr with rfl | rfl <;> simp
  obtain ⟨m0, h0⟩ := construct_exists hb ht hs hcl
  have hC := constructed_of_ok ht hs h0
  have hr : Reach [⟨"a", none⟩, ⟨"b", none⟩] [j] m0 [] m0 := ⟨ht, hs, h0, .nil⟩
  have hid : getJointIds ["spin"] m0 = .ok [0] m0 := by
    rw [getJointIds_one]
    obtain ⟨i, jp, j', h1, h2, ⟨i0, c0, rfl⟩⟩ := hC.abs.desc.movable j (by simp) (.inr (.inl rfl))
    have hf : m0.jointIds.find "spin" = some i := (hC.inv.graph.jointNames _ _).mpr ⟨jp, _, h1, h2, rfl⟩
    obtain ⟨names, _, hp, hjo⟩ := hC.jointOrder
    have hl : names = ["spin"] := by
      have e : ((([j] : List (RawJoint K)).filter fun j => decide j.type.Movable).map RawJoint.name) = ["spin"] := by
        simp [j, JointType.Movable]
      rw [e] at hp
      exact List.perm_singleton.mp hp
    have := (hjo i "spin").mpr ⟨jp, _, h1, h2, rfl⟩
    rw [hl] at this
    match i, this with
    | 0, _ => exact hf
    | i + 1, this => simp at this
  exact ⟨_, _, m0, hr, hid, C43_null_limits hr (r := j) (by simp) rfl hid⟩

end Tinyfk
