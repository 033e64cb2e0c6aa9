import Verif.Props.CacheWitness

/-!
# Properties: the C++ method `set_joint_angle`

C95.
-/

set_option linter.unusedSectionVars false

namespace Tinyfk

open Scalar

section
variable {K : Type} [Scalar K]
  {ls : List (RawLink K)} {js : List (RawJoint K)} {m0 m m1 m2 : KinModel K} {cs : List (Call K)}

theorem setJointAngle_eq (i : Nat) (v : K) (m : KinModel K) : setJointAngle i v m = setJointAnglesNC [i] [v] m := by
  unfold setJointAngle setJointAnglesNC writeAngles
  by_cases h : i < m.angles.length
  · simp only [h, if_true]; rfl
  · simp only [h, if_false]

/-- **C95 (partial): with `clear_cache`.** `set_joint_angle(i, v)` followed by `clear_cache()` is
`set_joint_angles({i}, {v})`, on every model, for every id (also an id out of range, which is undefined in both). -/
theorem C95_clear (i : Nat) (v : K) (m : KinModel K) :
    (Prog.bind (setJointAngle i v) fun _ => clearCache) m = setJointAngles [i] [v] m := by
  show _ = (Prog.bind (setJointAnglesNC [i] [v]) fun _ => clearCache) m
  unfold Prog.bind
  rw [setJointAngle_eq]

/-- set single angles one after the other -/
def setEach : List (Nat × K) → Prog (KinModel K) Unit
  | [] => Prog.pure ()
  | w :: ws => Prog.bind (setJointAngle w.1 w.2) fun _ => setEach ws

/-- the calls that drop the cache -/
def Call.Clears : Call K → Prop
  | .setJointAngles _ _ | .setBasePose _ | .setInitAngles | .clearCache => True
  | _ => False

theorem clear_clear {D : Type} (c : SizedCache D) : c.clear.clear = c.clear := rfl

theorem Call.Clears.cleared {c : Call K} (hc : c.Clears) (h : c.run m = .ok () m1) : m1.cache.clear = m1.cache := by
  cases c <;> simp only [Call.Clears] at hc
  · rename_i ids vals
    change (Prog.bind (setJointAnglesNC ids vals) fun _ => Tinyfk.clearCache) m = _ at h
    unfold Prog.bind at h
    split at h <;> cases h
    rfl
  · cases h; rfl
  · cases h; rfl
  · cases h; rfl

theorem setJointAngle_ok {i : Nat} (v : K) (h : i < m.angles.length) :
    setJointAngle i v m = .ok () { m with angles := m.angles.set i v } := by
  simp only [setJointAngle, h, if_true]

/-- **C95 (partial): before the first pose is asked for.** After a call that drops the cache, any number of
`set_joint_angle` act as as many `set_joint_angles`: the model is one that those reach, so that C01 and all other
theorems hold of it. Missing: the claim after a pose has been asked for, which is false (`C95_stale`). -/
theorem C95_fresh_partial {c : Call K} (hc : c.Clears) (h0 : Reach ls js m0 cs m) (h : c.run m = .ok () m1) {ws : List (Nat × K)}
    (hw : ∀ w ∈ ws, w.1 < m0.joints.length) :
    ∃ m2, setEach ws m1 = .ok () m2 ∧
      Reach ls js m0 (cs ++ [c] ++ ws.map fun w => .setJointAngles [w.1] [w.2]) m2 := by
  have hcl := hc.cleared h
  have hr := h0.snoc h
  clear h h0
  revert hr
  generalize cs ++ [c] = cs'
  intro hr
  induction ws generalizing cs' m1 with
  | nil => exact ⟨m1, rfl, by simpa using hr⟩
  | cons w ws ih =>
    have hlt : w.1 < m1.angles.length := by rw [hr.anglesLen]; exact hw w (by simp)
    have e := setJointAngle_ok (m := m1) w.2 hlt
    have er : (Call.setJointAngles [w.1] [w.2]).run m1 = .ok () { m1 with angles := m1.angles.set w.1 w.2 } := by
      show setJointAngles [w.1] [w.2] m1 = _
      rw [← C95_clear]
      unfold Prog.bind
      rw [e]
      simp only [clearCache, Prog.modify, hcl]
    obtain ⟨m2, e2, h2⟩ := ih (m1 := { m1 with angles := m1.angles.set w.1 w.2 }) (fun w' hw' => hw w' (by simp [hw'])) hcl _ (hr.snoc er)
    refine ⟨m2, ?_, ?_⟩
    · simp only [setEach, Prog.bind, e, e2]
    · simpa using h2

/-- **C95 is false in general.** Once the pose of a link other than the root has been asked for, `set_joint_angle` of any
joint to any value leaves the answer as it was: `get_link_pose` returns the old pose. -/
theorem C95_stale (h : Reach ls js m0 cs m) {n : String} {l d : Nat} (hn : getLinkIds [n] m = .ok [l] m)
    (hd : LinkDepth ls js (AllWelds ls m0 cs) n (d + 1)) {T : Pose K} (e : getLinkPose l m = .ok T m1) {ws : List (Nat × K)}
    (es : setEach ws m1 = .ok () m2) : getLinkPose l m2 = .ok T m2 := by
  have hat : At ls js m0 cs m m := .of_reach h
  have hpar := PyReach.hasParent hat hn hd
  obtain ⟨lk, p, h1, h2⟩ := hpar
  have hc := getLinkPose_caches h.abs.inv.graph.tree h1 h2 e
  have hk : m2.cache = m1.cache := by
    clear hc e
    induction ws generalizing m1 with
    | nil => cases es; rfl
    | cons w ws ih =>
      simp only [setEach, Prog.bind] at es
      by_cases hw : w.1 < m1.angles.length
      · rw [setJointAngle_ok w.2 hw] at es
        exact ih (m1 := { m1 with angles := m1.angles.set w.1 w.2 }) es
      · simp only [setJointAngle, hw, if_false] at es
        cases es
  simp only [getLinkPose, hk, hc]

end

namespace Example

theorem m0_reach : Reach ls js m0 [] m0 := ⟨isTree, supported, m0_spec, .nil⟩

theorem angles_0 : AnglesAfter m0 ([] : List (Call ℝ)) (θa 0) := by
  intro s i _
  simp [θa, angleAfter]

theorem tip_id0 : getLinkIds ["tip"] m0 = .ok [3] m0 := by
  rw [getLinkIds_one]; exact (linkIds "tip" 3).mpr rfl

theorem tip_depth : LinkDepth ls js (AllWelds ls m0 []) "tip" (2 + 1) :=
  .joint (j := weld) (by simp [js]) (.joint (j := slide) (by simp [js]) (.joint (j := turn) (by simp [js])
    (.root (l := ⟨"base", none⟩) (by simp [ls]) (by simp [js, turn, slide, weld]))))

/-- **Witness against C95.** A new robot is asked for the pose of its tip (x = 0), the joint `slide` is set to 1
with `set_joint_angle`, `get_joint_angles` returns 1, and the pose of the tip is asked for again: x is still 0. The tip of
the robot with `slide` at 1 is at x = 1. -/
theorem C95_false : ∃ T m1 m2, getLinkPose 3 m0 = .ok T m1 ∧ setJointAngle 0 1 m1 = .ok () m2 ∧
    getJointAngles [0] m2 = .ok [1] m2 ∧ getLinkPose 3 m2 = .ok T m2 ∧ T.position.x = 0 ∧
    ∀ T', WorldPose ls js (AllWelds ls m0 []) (θa 1) Pose.identity "tip" T' → T'.position.x = 1 := by
  obtain ⟨T, m1, e⟩ := C08_pose_safe_partial m0_reach tip_id0 tip_depth (by simp [ls])
  obtain ⟨T1, hT, h1⟩ := C01_link_pose m0_reach angles_0 tip_id0
  have hTT : T = T1 := by
    rcases h1 with ⟨_, h1⟩ | ⟨⟨_, h1⟩, _⟩
    · rw [e] at h1; cases h1; rfl
    · rw [e] at h1; cases h1
  subst hTT
  have hx : T = ⟨⟨0, 3, 3⟩, Rot.one⟩ := ((hT _).mp (tip_pose 0)).symm
  have r1 : Reach ls js m0 ([] ++ [.getLinkPose 3]) m1 := m0_reach.snoc (by
    show (Prog.bind (getLinkPose 3) fun _ => Prog.pure ()) m0 = _
    unfold Prog.bind; rw [e]; rfl)
  have hl : 0 < m1.angles.length := by rw [r1.anglesLen, joints_length]; decide
  have hl0 : 0 < m0.angles.length := by rw [m0_reach.anglesLen, joints_length]; decide
  have e2 := setJointAngle_ok (m := m1) 1 hl
  have es : setEach [(0, 1)] m1 = .ok () { m1 with angles := m1.angles.set 0 1 } := by
    simp only [setEach, Prog.bind, e2, Prog.pure]
  refine ⟨T, m1, _, e, e2, ?_, C95_stale m0_reach tip_id0 tip_depth e es, by rw [hx], ?_⟩
  · simp [getJointAngles, Prog.read, mapOutcome, Outcome.idx, hl]
  · intro T' hT'
    have r3 : Reach ls js m0 ([] ++ configCalls [0] .fixed [1]) _ :=
      m0_reach.snoc (c := .setJointAngles [0] [1]) (m' := { m0 with angles := m0.angles.set 0 1, cache := m0.cache.clear })
        (by
          show setJointAngles [0] [1] m0 = _
          rw [← C95_clear]; unfold Prog.bind; rw [setJointAngle_ok 1 hl0]; rfl)
    obtain ⟨T3, h3, _⟩ := C01_link_pose r3 (angles_a 1) (n := "tip") (l := 3)
      (by rw [getLinkIds_one]; exact (linkIds "tip" 3).mpr rfl)
    rw [(h3 T').mp hT', ← (h3 _).mp (tip_pose 1)]

/-- the hypotheses of `C95_fresh_partial`: two writes after `set_init_angles` -/
example : ∃ m1 m2, setInitAngles m0 = .ok () m1 ∧ setEach [(1, 2), (0, 1)] m1 = .ok () m2 ∧
    Reach ls js m0 ([] ++ [.setInitAngles] ++ [.setJointAngles [1] [2], .setJointAngles [0] [1]]) m2 := by
  obtain ⟨m2, h⟩ := C95_fresh_partial (c := .setInitAngles) trivial m0_reach rfl (ws := [(1, 2), (0, 1)])
    (by rw [joints_length]; simp)
  exact ⟨_, m2, rfl, h⟩

end Example

end Tinyfk
