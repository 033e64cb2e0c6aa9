import Verif.Proofs.ShownSolve
import Verif.Props.CacheWitness

/-!
# Properties: which configuration the rows of a Python call answer for

C103.
-/

set_option linter.unusedSectionVars false

namespace Tinyfk

open Scalar

section
variable {K : Type} [Scalar K]
  {ls : List (RawLink K)} {js : List (RawJoint K)} {m0 mc : KinModel K} {h : List (PyCall K)} {cs : List (Call K)}
  {evs : List (Event K)} {s : PyModel K}

/-- any angles can be set -/
theorem Reach.setAll (hr : Reach ls js m0 cs mc) (θ : String → K) :
    ∃ (a : List K) (mk : KinModel K), Reach ls js m0 (cs ++ [.setJointAngles (List.range m0.joints.length) a]) mk ∧
      AnglesAfter m0 (cs ++ [.setJointAngles (List.range m0.joints.length) a]) θ := by
  have g := (Reach.abs (⟨hr.tree, hr.supported, hr.built, .nil⟩ : Reach ls js m0 [] m0)).inv.graph
  have hname : ∀ i, i < m0.joints.length → ∃ s, m0.jointIds.find s = some i ∧ ∀ s', m0.jointIds.find s' = some i → s' = s := by
    intro i hi
    obtain ⟨jp, hjp⟩ : ∃ jp, m0.joints[i]? = some jp := ⟨_, List.getElem?_eq_getElem hi⟩
    obtain ⟨j, _, _, _, hj, _⟩ := g.joint hjp
    refine ⟨j.name, (g.jointNames _ _).mpr ⟨jp, j, hjp, hj, rfl⟩, fun s' hs' => ?_⟩
    obtain ⟨jp', j', h1, h2, h3⟩ := (g.jointNames _ _).mp hs'
    rw [hjp] at h1; cases h1
    rw [hj] at h2; cases h2
    exact h3.symm
  obtain ⟨a, hl, ha⟩ : ∃ a : List K, a.length = m0.joints.length ∧
      ∀ s i, m0.jointIds.find s = some i → a[i]? = some (θ s) := by
    classical
    refine ⟨(List.range m0.joints.length).map fun i =>
      if h : ∃ s, m0.jointIds.find s = some i then θ h.choose else 0, by simp, ?_⟩
    intro s i hs
    obtain ⟨jp, j, hjp, _⟩ := (g.jointNames s i).mp hs
    have hlt := (List.getElem?_eq_some_iff.mp hjp).1
    have hex : ∃ s, m0.jointIds.find s = some i := ⟨s, hs⟩
    obtain ⟨s0, _, hu⟩ := hname i hlt
    rw [List.getElem?_map, List.getElem?_range hlt, Option.map_some, dif_pos hex, hu _ hex.choose_spec, hu _ hs]
  have h6 := (At.of_reach hr).hid hl
  generalize hmk : ({ mc with angles := a, cache := mc.cache.clear } : KinModel K) = mk at h6
  refine ⟨a, mk, h6.reach, ?_⟩
  intro s i hi
  have hf := getJointIds_one.mp hi
  obtain ⟨jp, j, hjp, _⟩ := (g.jointNames s i).mp hf
  have x := h6.reach.angles_get i (List.getElem?_eq_some_iff.mp hjp).1
  have y : mk.angles = a := by
    obtain ⟨⟨st, c, e⟩, _⟩ := h6.same
    exact (congrArg KinModel.angles e).symm
  rw [y, ha s i hf] at x
  exact Option.some.inj x

/-- **C103, the robot.** After any history of Python calls and for any further events there is a robot that shows, and the
angles it was set to are determined by the events. -/
theorem C103_robot (hr : PySReach ls js m0 h cs evs s) (evs' : List (Event K)) :
    (∃ mk, ShownRobot ls js m0 cs evs' mk) ∧
    ∀ mk1 mk2, ShownRobot ls js m0 cs evs' mk1 → ShownRobot ls js m0 cs evs' mk2 → SameRobot mk1 mk2 := by
  obtain ⟨mc, hat⟩ := hr.sits.at_
  obtain ⟨θ, hθ, _⟩ := C102_exists ls js m0 cs evs'
  obtain ⟨a, mk, h1, h2⟩ := hat.reach.setAll θ
  exact ⟨⟨mk, θ, a, hθ, h1, h2⟩, fun _ _ => ShownRobot.same hat.reach⟩

/-- **C103, `solve_fk`.** With a fixed base and `use_cache=True` each row is that of the robot that shows: each joint has the
value it had when, first since the cache was last cleared, a pose was asked for that depends on it. -/
theorem C103_solve_fk (hr : PySReach ls js m0 h cs evs s) (hf : Shallow ls js m0 cs) {qs : QArg K} {es ids : List Nat}
    (ha : FkArgs m0 s qs es ids .fixed) (rt : RotType) (wj : Bool)
    (hne : wj = true → (∃ r ∈ ls, r.inertial.isSome) ∨ weldsAfter (names0 m0) cs ≠ []) :
    ∃ P J s', pySolveFk qs es ids rt .fixed wj true s = .ok (P, J) s' ∧
      FkShown ls js m0 cs evs qs.rows es ids rt wj P J :=
  hr.sits.pySolveFk hf ha hne

/-- **C103, `solve_com_fk`** with a fixed base, which never clears the cache. -/
theorem C103_solve_com_fk (hr : PySReach ls js m0 h cs evs s) (hf : Shallow ls js m0 cs) {qs : QArg K} {ids : List Nat}
    {act : Option (List Nat × List K)}
    (ha : ComArgs m0 s qs ids (act.getD ([], [])).1 (act.getD ([], [])).2 .fixed) (wj : Bool)
    (hne : wj = true → act ≠ none → (∃ r ∈ ls, r.inertial.isSome) ∨ weldsAfter (names0 m0) cs ≠ []) :
    ∃ C J s', pySolveComFk qs ids act .fixed wj s = .ok (C, J) s' ∧
      ComShown ls js m0 cs evs qs.rows ids (act.getD ([], [])).1 (act.getD ([], [])).2 wj C J :=
  hr.sits.pySolveComFk hf ha hne

/-- **C103, `compute_inter_link_sqdists`** with a fixed base and `use_cache=True`. -/
theorem C103_sqdists (hr : PySReach ls js m0 h cs evs s) (hf : Shallow ls js m0 cs) {qs : List (List K)}
    {ps : List (Nat × Nat)} {ids : List Nat} (ha : DistArgs m0 s qs ps ids .fixed) (wj : Bool)
    (hne : wj = true → (∃ r ∈ ls, r.inertial.isSome) ∨ weldsAfter (names0 m0) cs ≠ []) :
    ∃ V J s', pySqdists qs ps ids .fixed wj true s = .ok (V, J) s' ∧ DistShown ls js m0 cs evs qs ps ids wj V J :=
  hr.sits.pySqdists hf ha hne

/-- **C103, `compute_total_inertia_matrix`**, which never clears the cache. -/
theorem C103_inertia (hr : PySReach ls js m0 h cs evs s) (hf : Shallow ls js m0 cs) {q : List K} {ids : List Nat}
    (hi : ∀ i ∈ ids, i < m0.joints.length) (hq : q.length = ids.length) :
    ∃ I s', pyInertia q ids s = .ok I s' ∧
      ∀ mk, ShownRobot ls js m0 cs (evs ++ configEvents ids .fixed true q) mk → ∃ mk', getTotalInertia mk = .ok I mk' := by
  obtain ⟨mk0, h0⟩ := (C103_robot hr (evs ++ configEvents ids .fixed true q)).1
  obtain ⟨I, s', _, e, _⟩ := hr.sits.pyInertia hf hi hq h0
  refine ⟨I, s', e, fun mk hmk => ?_⟩
  obtain ⟨I', s'', mk', e', g⟩ := hr.sits.pyInertia hf hi hq hmk
  rw [e] at e'; cases e'
  exact ⟨mk', g⟩

/-- **C103, poses.** The same for the poses, without a second robot: the row of link `n` for configuration `k` is its pose in
the description with the angles that show and the base left by the calls. -/
theorem C103_poses (hr : PySReach ls js m0 h cs evs s) (hf : Shallow ls js m0 cs) {qs : QArg K} {es ids : List Nat}
    (ha : FkArgs m0 s qs es ids .fixed) (rt : RotType) :
    ∃ P J s', pySolveFk qs es ids rt .fixed false true s = .ok (P, J) s' ∧
      ∀ (k j l : Nat) (q : List K) (n : String) (θ : String → K), qs.rows[k]? = some q → es[j]? = some l →
        getLinkIds [n] s.robot = .ok [l] s.robot →
        ShownAngles ls js m0 cs (rowEvents evs ids (es.map .ask) qs.rows k q) θ →
        ∃ T, (∀ T', WorldPose ls js (AllWelds ls m0 cs) θ (baseAfter Pose.identity cs) n T' ↔ T' = T) ∧
          PoseRow rt P (k * es.length + j) T := by
  obtain ⟨P, J, s', e, hS⟩ := C103_solve_fk hr hf ha rt false (by simp)
  refine ⟨P, J, s', e, fun k j l q n θ hk hj hn hθ => ?_⟩
  obtain ⟨mc, hat⟩ := hr.sits.at_
  obtain ⟨a, mk, h1, h2⟩ := hat.reach.setAll θ
  obtain ⟨T, mk', e1, e2⟩ := hS.pose k j l q mk hk hj ⟨θ, a, hθ, h1, h2⟩
  have hn' : getLinkIds [n] mk = .ok [l] mk := by
    rw [getLinkIds_one] at hn ⊢
    have hc : s.robot.linkIds = mc.linkIds := by
      obtain ⟨⟨st, c, e⟩, _⟩ := hat.same; rw [e]
    have hg := h1.abs.inv.graph
    have hg0 := hat.reach.abs.inv.graph
    have hnm := (h1.abs.names.trans (links_sets _ isSet_one)).trans hat.reach.abs.names.symm
    rw [hc] at hn
    rw [hg.linkNames]; rw [hg0.linkNames] at hn
    obtain ⟨lk, g1, g2⟩ := hn
    have : (mk.links.map Link.name)[l]? = some n := by
      rw [hnm, List.getElem?_map, g1, ← g2]; rfl
    rw [List.getElem?_map, Option.map_eq_some_iff] at this
    exact this
  refine ⟨T, fun T' => ?_, e2⟩
  have := h1.worldPose_iff h2 hn' T'
  rw [allWelds_sets isSet_one, baseAfter_setAll] at this
  rw [← this]
  obtain ⟨T0, hT0⟩ := h1.abs.inv.exists_pose (l := l) (by
    obtain ⟨lk, g1, _⟩ := h1.link hn'
    exact (List.getElem?_eq_some_iff.mp g1).1)
  obtain ⟨m2, f1, _⟩ := (Query.getLinkPose hT0).run (h1.ready (hf.sets isSet_one))
  rw [e1] at f1; cases f1
  exact ⟨fun hT' => hT'.unique hT0, fun hT' => hT' ▸ hT0⟩

end

namespace Example

/-- one configuration of `slide` and `turn` -/
noncomputable def qb (a b : ℝ) : QArg ℝ := .nd2 ⟨2, [[a, b]], by simp⟩

/-- asking for the arm with `turn` at 0 -/
noncomputable def askArm : PyCall ℝ := .solveFk (qa 0) [0] [1] .ignore .fixed false true

theorem armArgs : FkArgs m0 s0 (qa 0) [0] [1] .fixed :=
  ⟨by simp [qa], by simp [qa, QArg.rows], by simp [qa, QArg.rows, BaseType.dof], by rw [joints_length]; simp,
    by show ∀ l ∈ [0], l < m0.links.length; rw [links_length]; simp⟩

theorem s0_shows : PySReach ls js m0 [] [] [] s0 := ⟨isTree, supported, m0_spec, "", .nil⟩

theorem askArm_shows {P J : Mat ℝ} {s : PyModel ℝ} (e : pySolveFk (qa 0) [0] [1] .ignore .fixed false true s0 = .ok (P, J) s) :
    PySReach ls js m0 [askArm] (askArm.effect ++ []) (askArm.events ++ []) s := by
  refine ⟨isTree, supported, m0_spec, "", .ok ?_ ?_ .nil⟩
  · simp [askArm, PyCall.Shaped]
  · simp only [askArm, PyCall.run]
    unfold Prog.bind
    unfold s0 at e
    rw [e]; rfl

theorem askArm_angles : ShownAngles ls js m0 (askArm.effect ++ [])
    (rowEvents (askArm.events ++ []) [0, 1] ([3].map .ask) (qb 1 5).rows 0 [1, 5]) (θa 1) := by
  intro s i h
  have hw : AllWelds ls m0 (askArm.effect ++ []) = AllWelds ls m0 [] := by
    rw [List.append_nil]
    exact allWelds_sets (cs := []) (a := batchCalls [1] .fixed (qa 0).rows) (batchCalls_isSet _ _ _)
  have hn : linksAfter (names0 m0) (askArm.effect ++ []) = ["arm", "base", "hand", "tip", "arm_com", "tip_com"] := linkNames
  rw [getJointIds_one, jointIds] at h
  rw [hw, hn]
  rcases h with ⟨rfl, rfl⟩ | ⟨rfl, rfl⟩
  · have := slide_off comWeld_names
    simp [θa, seenAfter, rowEvents, askArm, qa, qb, QArg.rows, PyCall.events, batchEvents, configEvents, Seen.step, Seen.value,
      lastWrite, this]
  · have := turn_on_arm (welds := AllWelds ls m0 [])
    simp [θa, seenAfter, rowEvents, askArm, qa, qb, QArg.rows, PyCall.events, batchEvents, configEvents, Seen.step, Seen.value,
      lastWrite, this]

/-- **C103, an example.** A new object is asked for the arm with `turn` at 0, and then, with `use_cache=True`, for the tip
with `slide` at 1 and `turn` at 5. The answer has `slide` at 1 and `turn` at 0. -/
theorem C103_mixed : ∃ P J s1 P' J' s2, pySolveFk (qa 0) [0] [1] .ignore .fixed false true s0 = .ok (P, J) s1 ∧
    pySolveFk (qb 1 5) [3] [0, 1] .ignore .fixed false true s1 = .ok (P', J') s2 ∧
    P'.f 0 0 = 1 ∧ P'.f 0 1 = 3 ∧ P'.f 0 2 = 3 := by
  obtain ⟨P, J, s1, e1, _⟩ := C103_solve_fk s0_shows s0_shallow armArgs .ignore false (by simp)
  have hr := askArm_shows e1
  obtain ⟨mc, hat⟩ := hr.sits.at_
  have hl : s1.robot.links.length = 6 := by
    rw [hat.nlinks]; show (m0.links.map Link.name).length = 6; rw [linkNames]; rfl
  obtain ⟨P', J', s2, e2, hT⟩ := C103_poses hr (shallow_sets rfl) (qs := qb 1 5) (es := [3]) (ids := [0, 1])
    ⟨by simp [qb], by simp [qb, QArg.rows], by simp [qb, QArg.rows, BaseType.dof], by rw [joints_length]; simp,
      by rw [hl]; simp⟩ .ignore
  refine ⟨P, J, s1, P', J', s2, e1, e2, ?_⟩
  have htip : getLinkIds ["tip"] s1.robot = .ok [3] s1.robot := by
    rw [getLinkIds_one]
    have hc : s1.robot.linkIds = mc.linkIds := by
      obtain ⟨⟨st, c, e⟩, _⟩ := hat.same; rw [e]
    have : (mc.links.map Link.name)[3]? = some "tip" := by
      rw [hat.reach.abs.names]
      show (m0.links.map Link.name)[3]? = _
      rw [linkNames]; rfl
    rw [List.getElem?_map, Option.map_eq_some_iff] at this
    rw [hc, hat.reach.abs.inv.graph.linkNames]; exact this
  obtain ⟨T, h1, h2⟩ := hT 0 0 3 [1, 5] "tip" (θa 1) rfl rfl htip askArm_angles
  have := (h1 _).mp (tip_pose 1)
  rw [← this] at h2
  exact ⟨h2.1, h2.2.1, h2.2.2.1⟩

/-! the hypotheses of the theorems, after that call -/

example {P J : Mat ℝ} {s : PyModel ℝ} (e : pySolveFk (qa 0) [0] [1] .ignore .fixed false true s0 = .ok (P, J) s) :=
  C103_robot (askArm_shows e)

example {P J : Mat ℝ} {s : PyModel ℝ} (e : pySolveFk (qa 0) [0] [1] .ignore .fixed false true s0 = .ok (P, J) s)
    (hl : s.robot.links.length = 6) :=
  C103_solve_fk (askArm_shows e) (shallow_sets rfl) (qs := .list2 ⟨2, [[1, 5], [2, 6]], by simp⟩ (by simp)) (es := [3, 0]) (ids := [0, 1])
    ⟨by simp, by simp [QArg.rows], by simp [QArg.rows, BaseType.dof], by rw [joints_length]; simp, by rw [hl]; simp⟩
    .rpy true fun _ => .inl inertial

example {P J : Mat ℝ} {s : PyModel ℝ} (e : pySolveFk (qa 0) [0] [1] .ignore .fixed false true s0 = .ok (P, J) s)
    (hl : s.robot.links.length = 6) :=
  C103_solve_com_fk (askArm_shows e) (shallow_sets rfl) (qs := .list2 ⟨2, [[1, 5], [2, 6]], by simp⟩ (by simp)) (ids := [0, 1])
    (act := some ([3], [2])) ⟨by simp, by simp [QArg.rows], by simp [QArg.rows, BaseType.dof], by rw [joints_length]; simp,
      by rw [hl]; simp, rfl⟩ true fun _ _ => .inl inertial

example {P J : Mat ℝ} {s : PyModel ℝ} (e : pySolveFk (qa 0) [0] [1] .ignore .fixed false true s0 = .ok (P, J) s)
    (hl : s.robot.links.length = 6) :=
  C103_sqdists (askArm_shows e) (shallow_sets rfl) (qs := [[1, 5], [2, 6]]) (ps := [(3, 0), (0, 1)]) (ids := [0, 1])
    ⟨by simp, by simp [BaseType.dof], by rw [joints_length]; simp, by rw [hl]; simp⟩ true fun _ => .inl inertial

example {P J : Mat ℝ} {s : PyModel ℝ} (e : pySolveFk (qa 0) [0] [1] .ignore .fixed false true s0 = .ok (P, J) s) :=
  C103_inertia (askArm_shows e) (shallow_sets rfl) (q := [1, 5]) (ids := [0, 1]) (by rw [joints_length]; simp) rfl

end Example

end Tinyfk
