import Verif.Proofs.ShownRun
import Verif.Props.SetAngle

/-!
# Properties: which configuration a query answers for

C102.
-/

set_option linter.unusedSectionVars false

namespace Tinyfk

open Scalar

section
variable {K : Type} [Scalar K]
  {ls : List (RawLink K)} {js : List (RawJoint K)} {m0 m m1 m2 : KinModel K} {cs : List (Call K)} {evs : List (Event K)}

/-- the robot with the shown angles, as a reached state -/
theorem Sits.config (h : Sits ls js m0 cs evs m) {θ : String → K} (hθ : ShownAngles ls js m0 cs evs θ) :
    ∃ (a : List K) (mk : KinModel K), a.length = m0.joints.length ∧
      At ls js m0 (cs ++ [.setJointAngles (List.range m0.joints.length) a]) mk (m.hid a) ∧
      AnglesAfter m0 (cs ++ [.setJointAngles (List.range m0.joints.length) a]) θ ∧ Coherent (m.hid a) ∧ Sees a m := by
  obtain ⟨a, mk, h1, h2, h3, h4, h5⟩ := h.shown
  refine ⟨a, mk, h1, h3, ?_, h4, h5⟩
  intro s i hi
  have hf := getJointIds_one.mp hi
  rw [hθ s i hi]
  have e : mk.angles = a := by
    obtain ⟨⟨st, c, e⟩, _⟩ := h3.same
    have := congrArg KinModel.angles e
    exact this.symm
  have hlt : i < m0.joints.length := by
    rw [← h1]; exact (List.getElem?_eq_some_iff.mp (h2 s i hf)).1
  have := h3.reach.abs.angles i (by rw [h3.reach.abs.joints]; exact hlt)
  rw [e, h2 s i hf] at this
  exact Option.some.inj this

theorem isSet_one {ids : List Nat} {a : List K} : ∀ c ∈ [(.setJointAngles ids a : Call K)], c.IsSet := by
  intro c hc
  rw [List.mem_singleton.mp hc]
  trivial

theorem baseAfter_setAll {ids : List Nat} {a : List K} (b : Pose K) :
    baseAfter b (cs ++ [.setJointAngles ids a]) = baseAfter b cs := by
  rw [baseAfter_append]; rfl

/-- a program that ignores hidden angles answers on `m` as on the robot with the shown angles -/
theorem Sits.answer (h : Sits ls js m0 cs evs m) (hf : Shallow ls js m0 cs) {a : List K} {mk : KinModel K}
    (ha : At ls js m0 (cs ++ [.setJointAngles (List.range m0.joints.length) a]) mk (m.hid a)) (hc : Coherent (m.hid a))
    (hs : Sees a m) {α : Type} {p : Prog (KinModel K) α} (hb : Blind p) (hu : Uniform p) :
    (p m).answer = (p mk).answer := by
  have hf' := hf.sets (isSet_one (ids := List.range m0.joints.length) (a := a))
  have e1 : (p (m.hid a)).answer = (p m).answer := by
    rw [hb m a h.graph.tree hs]
    cases p m <;> rfl
  rw [← e1]
  exact hu _ _ ha.same.symm (ha.ready_coh hf' hc) (ha.reach.ready hf')

/-- the pose of a link on a state that sits -/
theorem Sits.poseOf (h : Sits ls js m0 cs evs m) {θ : String → K} (hθ : ShownAngles ls js m0 cs evs θ) {n : String} {l : Nat}
    (hn : getLinkIds [n] m = .ok [l] m) :
    ∃ T, (∀ T', WorldPose ls js (AllWelds ls m0 cs) θ (baseAfter Pose.identity cs) n T' ↔ T' = T) ∧
      ((∃ m', getLinkPose l m = .ok T m') ∨
        (∃ u, getLinkPose l m = .ub u) ∧ ∃ d, LinkDepth ls js (AllWelds ls m0 cs) n d ∧ ls.length < d) := by
  obtain ⟨a, mk, h1, ha, hang, hc, hs⟩ := h.config hθ
  have hids : mk.linkIds = m.linkIds := by
    obtain ⟨⟨st, c, e⟩, _⟩ := ha.same
    exact (congrArg KinModel.linkIds e).symm
  have hn' : getLinkIds [n] mk = .ok [l] mk := by
    rw [getLinkIds_one] at hn ⊢; rw [hids]; exact hn
  have hr := ha.reach
  have hi := hr.abs.inv
  obtain ⟨lk, g1, _⟩ := hr.link hn'
  have hlt := (List.getElem?_eq_some_iff.mp g1).1
  obtain ⟨T, hT⟩ := hi.exists_pose hlt
  have hw : AllWelds ls m0 (cs ++ [.setJointAngles (List.range m0.joints.length) a]) = AllWelds ls m0 cs :=
    allWelds_sets isSet_one
  have hT' := (IsPose.of_same ha.same).mpr hT
  have hb := Blind.getLinkPose l m a h.graph.tree hs
  refine ⟨T, ?_, ?_⟩
  · intro T'
    have := hr.worldPose_iff hang hn' T'
    rw [hw, baseAfter_setAll] at this
    rw [← this]
    constructor
    · intro hT'; exact hT'.unique hT
    · rintro rfl; exact hT
  · rcases getLinkPose_total ha.tree ha.sized hc l with ⟨T', m', e1, e2, _⟩ | ⟨u, hu⟩
    · rw [e2.unique hT'] at e1
      left
      rw [hb] at e1
      cases e : getLinkPose l m with
      | ok v m'' => rw [e] at e1; simp only [Res.hid, Res.ok.injEq] at e1; rw [e1.1]; exact ⟨m'', rfl⟩
      | exn x m'' => rw [e] at e1; cases e1
      | ub u => rw [e] at e1; cases e1
      | hang => rw [e] at e1; cases e1
    · right
      constructor
      · rw [hb] at hu
        cases e : getLinkPose l m with
        | ok v m'' => rw [e] at hu; cases hu
        | exn x m'' => rw [e] at hu; cases hu
        | ub u => exact ⟨u, rfl⟩
        | hang => rw [e] at hu; cases hu
      · obtain ⟨d, hd⟩ := hi.graph.depth hlt
        refine ⟨d, by rw [← hw]; exact (hr.depth_iff hn' d).mp hd, ?_⟩
        by_contra hle
        have hl : (m.hid a).links = mk.links := ha.links
        obtain ⟨T', m', e⟩ := getLinkPose_fits ha.tree ha.sized hc (l := l) (n := d)
          (Depth.congr (m := mk) (m' := m.hid a) hl hd) (by
            have := ha.same.2
            have := hr.cap
            omega)
        rw [e] at hu; cases hu

/-- **C102, poses.** After any history of calls of the C++ class, among them `set_joint_angle` and `_set_joint_angles`, which
write angles and keep the cache, `get_link_pose` returns the pose of the link in one configuration of the robot: each joint
has the value it had when, first since the cache was last cleared, a pose was asked for that depends on it, and its present
value if there was no such query. (Or, as in C01, the traversal stack overflows, for a link deeper than the description is
long.) -/
theorem C102_pose {scs : List (SCall K)} (h : SReach ls js m0 scs m) {θ : String → K}
    (hθ : ShownAngles ls js m0 (scs.flatMap SCall.effect) (eventsOf (names0 m0) scs) θ) {n : String} {l : Nat}
    (hn : getLinkIds [n] m = .ok [l] m) :
    ∃ T, (∀ T', WorldPose ls js (AllWelds ls m0 (scs.flatMap SCall.effect)) θ
        (baseAfter Pose.identity (scs.flatMap SCall.effect)) n T' ↔ T' = T) ∧
      ((∃ m', getLinkPose l m = .ok T m') ∨
        (∃ u, getLinkPose l m = .ub u) ∧
          ∃ d, LinkDepth ls js (AllWelds ls m0 (scs.flatMap SCall.effect)) n d ∧ ls.length < d) :=
  h.sits.poseOf hθ hn

/-- **C102, all queries.** After such a history the model answers every query, of a pose, a Jacobian, the centre of mass, its
Jacobian, or the inertia, as a robot with the same links and base on which all joints were set to the values of `θ` with
`set_joint_angles`, which drops the cache: a state of which C01 and the other theorems about `Reach` tell the answers. -/
theorem C102_queries {scs : List (SCall K)} (h : SReach ls js m0 scs m)
    (hf : Shallow ls js m0 (scs.flatMap SCall.effect)) {θ : String → K}
    (hθ : ShownAngles ls js m0 (scs.flatMap SCall.effect) (eventsOf (names0 m0) scs) θ) :
    ∃ (a : List K) (mk : KinModel K),
      Reach ls js m0 (scs.flatMap SCall.effect ++ [.setJointAngles (List.range m0.joints.length) a]) mk ∧
      AnglesAfter m0 (scs.flatMap SCall.effect ++ [.setJointAngles (List.range m0.joints.length) a]) θ ∧
      AnswersAs m mk := by
  obtain ⟨a, mk, h1, ha, hang, hc, hs⟩ := h.sits.config hθ
  have key := fun {α : Type} {p : Prog (KinModel K) α} (hb : Blind p) (hu : Uniform p) => h.sits.answer hf ha hc hs hb hu
  exact ⟨a, mk, ha.reach, hang, fun l => key (.getLinkPose l) (.getLinkPose l),
    fun l ids rt b => key (.getJacobian l ids rt b) (.getJacobian l ids rt b), key .getCom .getCom,
    fun ids b => key (.getComJacobian ids b) (.getComJacobian ids b), key .getTotalInertia .getTotalInertia⟩

/-- **C102, the angles.** There is always exactly one such configuration, on the joints of the robot. -/
theorem C102_exists (ls : List (RawLink K)) (js : List (RawJoint K)) (m0 : KinModel K) (cs : List (Call K))
    (evs : List (Event K)) :
    ∃ θ, ShownAngles ls js m0 cs evs θ ∧
      ∀ θ', ShownAngles ls js m0 cs evs θ' ↔ ∀ s i, getJointIds [s] m0 = .ok [i] m0 → θ' s = θ s := by
  classical
  refine ⟨fun s => if h : ∃ i, getJointIds [s] m0 = .ok [i] m0 then (seenAfter h.choose
    (fun l => ∃ n, (linksAfter (names0 m0) cs)[l]? = some n ∧ JointOnPath js (AllWelds ls m0 cs) s n)
    (∃ w, ComWeld ls w ∧ JointOnPath js (AllWelds ls m0 cs) s w.name) evs).value else 0, ?_⟩
  have hex : ∀ s i, getJointIds [s] m0 = .ok [i] m0 → ∀ h : ∃ i, getJointIds [s] m0 = .ok [i] m0, h.choose = i := by
    intro s i hi h
    have := hi.symm.trans h.choose_spec
    simpa using this.symm
  constructor
  · intro s i hi
    have h : ∃ i, getJointIds [s] m0 = .ok [i] m0 := ⟨i, hi⟩
    simp only [dif_pos h, hex s i hi h]
  · intro θ'
    constructor
    · intro h s i hi
      have h' : ∃ i, getJointIds [s] m0 = .ok [i] m0 := ⟨i, hi⟩
      rw [h s i hi]
      simp only [dif_pos h', hex s i hi h']
    · intro h s i hi
      have h' : ∃ i, getJointIds [s] m0 = .ok [i] m0 := ⟨i, hi⟩
      rw [h s i hi]
      simp only [dif_pos h', hex s i hi h']

end

namespace Example

/-- the history of `C102_mixed`: ask for the arm, then write both joints -/
def mixed : List (SCall ℝ) := [.call (.getLinkPose 0), .write [0, 1] [1, 5]]

theorem turn_on_arm {welds : Weld ℝ → Prop} : JointOnPath js welds "turn" "arm" :=
  .here (j := turn) (by simp [js]) rfl

theorem slide_off {welds : Weld ℝ → Prop} (hw : ∀ w, welds w → w.name ≠ "arm" ∧ w.name ≠ "base") :
    ¬ JointOnPath js welds "slide" "arm" := by
  have key : ∀ n, JointOnPath js welds "slide" n → n ≠ "arm" ∧ n ≠ "base" := by
    intro n hn
    induction hn with
    | @here j hj hs =>
      simp only [js, List.mem_cons, List.not_mem_nil, or_false] at hj
      rcases hj with rfl | rfl | rfl <;> simp_all [turn, slide, weld]
    | @up j hj _ ih =>
      simp only [js, List.mem_cons, List.not_mem_nil, or_false] at hj
      rcases hj with rfl | rfl | rfl <;> simp_all [turn, slide, weld]
    | weld hw' _ _ => exact hw _ hw'
  exact fun h => (key _ h).1 rfl

theorem comWeld_names : ∀ w, AllWelds ls m0 [] w → w.name ≠ "arm" ∧ w.name ≠ "base" := by
  intro w hw
  rcases hw with hw | hw
  · obtain @⟨r, inr, hr, hin⟩ := hw
    simp only [ls, List.mem_cons, List.not_mem_nil, or_false] at hr
    rcases hr with rfl | rfl | rfl | rfl <;> simp_all
  · cases hw

/-- after that history `turn` shows its old value and `slide` its new one -/
theorem mixed_shown : ShownAngles ls js m0 (mixed.flatMap SCall.effect) (eventsOf (names0 m0) mixed) (θa 1) := by
  intro s i h
  have hw : AllWelds ls m0 (mixed.flatMap SCall.effect) = AllWelds ls m0 [] := rfl
  have hn : linksAfter (names0 m0) (mixed.flatMap SCall.effect) = ["arm", "base", "hand", "tip", "arm_com", "tip_com"] := linkNames
  rw [getJointIds_one, jointIds] at h
  rw [hw, hn]
  rcases h with ⟨rfl, rfl⟩ | ⟨rfl, rfl⟩
  · have := slide_off comWeld_names
    simp [θa, seenAfter, eventsOf, mixed, SCall.events, Seen.step, Seen.value, lastWrite, this]
  · have := turn_on_arm (welds := AllWelds ls m0 [])
    simp [θa, seenAfter, eventsOf, mixed, SCall.events, Seen.step, Seen.value, lastWrite, this]

/-- **C102, an example.** A new robot is asked for the pose of its arm, which depends on `turn` and not on `slide`; both joints
are written with `_set_joint_angles`, `turn` to 5 and `slide` to 1; then the tip is asked for. The answer has `slide` at 1 and
`turn` at 0: a configuration the robot never had. -/
theorem C102_mixed : ∃ T1 m1 m2 m3, getLinkPose 0 m0 = .ok T1 m1 ∧ setJointAnglesNC [0, 1] [1, 5] m1 = .ok () m2 ∧
    getJointAngles [0, 1] m2 = .ok [1, 5] m2 ∧ getLinkPose 3 m2 = .ok ⟨⟨1, 3, 3⟩, Rot.one⟩ m3 := by
  have harm : getLinkIds ["arm"] m0 = .ok [0] m0 := by
    rw [getLinkIds_one]; exact (linkIds "arm" 0).mpr rfl
  have hdep : LinkDepth ls js (AllWelds ls m0 []) "arm" (0 + 1) :=
    .joint (j := turn) (by simp [js]) (.root (l := ⟨"base", none⟩) (by simp [ls]) (by simp [js, turn, slide, weld]))
  obtain ⟨T1, m1, e1⟩ := C08_pose_safe_partial m0_reach harm hdep (by simp [ls])
  have er : (Call.getLinkPose 0).run m0 = .ok () m1 := by
    show (Prog.bind (getLinkPose 0) fun _ => Prog.pure ()) m0 = _
    unfold Prog.bind; rw [e1]; rfl
  have r1 : Reach ls js m0 ([] ++ [.getLinkPose 0]) m1 := m0_reach.snoc er
  have hl : m1.angles.length = 2 := by rw [r1.anglesLen, joints_length]
  obtain ⟨x, y, hxy⟩ : ∃ x y, m1.angles = [x, y] := by
    match h : m1.angles, hl with
    | [x, y], _ => exact ⟨x, y, rfl⟩
  have e2 : setJointAnglesNC [0, 1] [1, 5] m1 = .ok () { m1 with angles := [1, 5] } := by
    simp [setJointAnglesNC, writeAngles, hxy]
  have hr : SReach ls js m0 mixed { m1 with angles := [1, 5] } :=
    ⟨isTree, supported, m0_spec, .ok er (.ok e2 .nil)⟩
  have htip : getLinkIds ["tip"] ({ m1 with angles := [1, 5] } : KinModel ℝ) = .ok [3] { m1 with angles := [1, 5] } := by
    rw [getLinkIds_one]
    show m1.linkIds.find "tip" = some 3
    have hk : m1.linkIds = m0.linkIds := by
      obtain ⟨⟨st, c, hh⟩, _⟩ := ((Stays.getLinkPose 0).ok m0_reach.abs.inv.graph.tree e1).same
      rw [hh]
    rw [hk]; exact (linkIds "tip" 3).mpr rfl
  obtain ⟨T, hT, h3⟩ := C102_pose hr mixed_shown htip
  have hT1 : T = ⟨⟨1, 3, 3⟩, Rot.one⟩ := ((hT _).mp (tip_pose 1)).symm
  rcases h3 with ⟨m3, h3⟩ | ⟨_, d, hd, hlt⟩
  · refine ⟨T1, m1, _, m3, e1, e2, ?_, ?_⟩
    · simp [getJointAngles, Prog.read, mapOutcome, Outcome.idx]
    · rw [← hT1]; exact h3
  · exact absurd (shallow_sets (cs := mixed.flatMap SCall.effect) rfl _ _ hd) (by omega)

/-- the hypotheses of `C102_queries` -/
example : ∃ m, SReach ls js m0 mixed m ∧ Shallow ls js m0 (mixed.flatMap SCall.effect) ∧
    ShownAngles ls js m0 (mixed.flatMap SCall.effect) (eventsOf (names0 m0) mixed) (θa 1) := by
  obtain ⟨T1, m1, m2, m3, e1, e2, _⟩ := C102_mixed
  refine ⟨m2, ⟨isTree, supported, m0_spec, .ok (m1 := m1) ?_ (.ok e2 .nil)⟩, shallow_sets rfl, mixed_shown⟩
  show (Prog.bind (getLinkPose 0) fun _ => Prog.pure ()) m0 = _
  unfold Prog.bind; rw [e1]; rfl

end Example

end Tinyfk
