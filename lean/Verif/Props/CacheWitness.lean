import Verif.Props.Cache
import Verif.Proofs.RealPose

/-!
# Witnesses: stale caches give wrong results (C04, C05, C06)

The example robot with joint `turn` at 0 and joint `slide` at `a`: the tip is at `(a, 3, 3)`, the
centre of mass at x = `(a + 1) / 3`.
-/

namespace Tinyfk.Example

open Tinyfk

/-- configuration of the example robot: `turn` at 0, `slide` at `a` -/
noncomputable def θa (a : ℝ) : String → ℝ := fun s => if s = "slide" then a else 0

section
variable {welds : Weld ℝ → Prop} (a : ℝ)

theorem _root_.Tinyfk.WorldPose.cast {ls : List (RawLink ℝ)} {js : List (RawJoint ℝ)} {θ : String → ℝ} {b T T' : Pose ℝ}
    {n n' : String} (h : WorldPose ls js welds θ b n T) (hn : n = n') (hT : T = T') : WorldPose ls js welds θ b n' T' := by
  subst hn; subst hT; exact h

theorem arm_pose : WorldPose ls js welds (θa a) Pose.identity "arm" ⟨⟨0, 0, 1⟩, Rot.one⟩ := by
  have h0 : WorldPose ls js welds (θa a) Pose.identity "base" Pose.identity :=
    WorldPose.root (l := ⟨"base", none⟩) (by simp [ls]) (by simp [js, turn, slide, weld])
  refine (WorldPose.joint (j := turn) (by simp [js]) h0 (.rot (.inl rfl))).cast rfl ?_
  rw [Pose.identity_transform]
  simp [turn, θa, Pose.transform, Vec3.add, Vec3.zero]
  simp [Rot.one]

theorem hand_pose : WorldPose ls js welds (θa a) Pose.identity "hand" ⟨⟨a, 0, 3⟩, Rot.one⟩ := by
  refine (WorldPose.joint (j := slide) (by simp [js]) (arm_pose (welds := welds) a) (.slide rfl)).cast rfl ?_
  simp [slide, θa, Pose.transform, Vec3.add]
  norm_num

theorem tip_pose : WorldPose ls js welds (θa a) Pose.identity "tip" ⟨⟨a, 3, 3⟩, Rot.one⟩ := by
  refine (WorldPose.joint (j := weld) (by simp [js]) (hand_pose (welds := welds) a) (.fixed rfl)).cast rfl ?_
  simp [weld, Pose.transform, Vec3.add]

theorem bodies_a : Bodies ls js welds (θa a) Pose.identity
    [(armInertial, ⟨⟨0, 0, 1⟩, Rot.one⟩), (tipInertial, ⟨⟨a, 3, 3⟩, Rot.one⟩)] := by
  refine ⟨[⟨"arm", some armInertial⟩, ⟨"base", none⟩, ⟨"hand", none⟩, ⟨"tip", some tipInertial⟩],
    List.Perm.swap _ _ _, ?_, ?_⟩
  · simp only [List.map_cons, List.map_nil, List.pairwise_cons, List.mem_cons, List.not_mem_nil, or_false, forall_eq_or_imp, forall_eq, false_implies, implies_true, List.Pairwise.nil, and_true]
    decide
  · exact .cons ⟨rfl, arm_pose a⟩ (.cons ⟨rfl, tip_pose a⟩ .nil)

theorem com_a : comOf [(armInertial, (⟨⟨0, 0, 1⟩, Rot.one⟩ : Pose ℝ)), (tipInertial, ⟨⟨a, 3, 3⟩, Rot.one⟩)] =
    ⟨(a + 1) / 3, 1, 2⟩ := by
  simp only [comOf, bodyCentre, armInertial, tipInertial, List.foldl_cons, List.foldl_nil, Pose.transform,
    Rot.rotate_one, Vec3.add, Vec3.mk.injEq]
  refine ⟨?_, ?_, ?_⟩ <;> ring

/-- the configuration is reached by setting joint 0 -/
theorem angles_a : AnglesAfter m0 ([] ++ configCalls [0] .fixed [a]) (θa a) := by
  intro s i h
  rw [getJointIds_one, jointIds] at h
  rcases h with ⟨rfl, rfl⟩ | ⟨rfl, rfl⟩ <;>
    simp [θa, configCalls, angleAfter, lastWrite, basePart]

end

/-- one configuration of joint `slide` -/
noncomputable def qa (a : ℝ) : QArg ℝ := .nd2 ⟨1, [[a]], by simp⟩

theorem tip_id : getLinkIds ["tip"] s0.robot = .ok [3] s0.robot := by
  rw [getLinkIds_one]; exact (linkIds "tip" 3).mpr rfl

theorem s0_shallow : Shallow ls js m0 [] := shallow_sets rfl

theorem fkArgs_a (a : ℝ) : FkArgs m0 s0 (qa a) [3] [0] .fixed :=
  ⟨by simp [qa], by simp [qa, QArg.rows], by simp [qa, QArg.rows, BaseType.dof], by rw [joints_length]; simp,
    by show ∀ l ∈ [3], l < m0.links.length; rw [links_length]; simp⟩

theorem comArgs_a (s : PyModel ℝ) (a : ℝ) : ComArgs m0 s (qa a) [0] [] [] .fixed :=
  ⟨by simp [qa], by simp [qa, QArg.rows], by simp [qa, QArg.rows, BaseType.dof], by rw [joints_length]; simp,
    by simp, rfl⟩

/-- **Witness against C04.** A fresh object solves the pose of the tip for displacement 0, then with
`use_cache=True` for displacement 1. The second answer says x = 0; the tip is at x = 1. -/
theorem C04_witness : ∃ (P1 J1 : Mat ℝ) (s1 : PyModel ℝ) (P2 J2 : Mat ℝ) (s2 : PyModel ℝ),
    pySolveFk (qa 0) [3] [0] .ignore .fixed false false s0 = .ok (P1, J1) s1 ∧
    pySolveFk (qa 1) [3] [0] .ignore .fixed false true s1 = .ok (P2, J2) s2 ∧ P2.f 0 0 = 0 ∧
    ∀ T, WorldPose ls js (AllWelds ls m0 []) (θa 1) Pose.identity "tip" T → T.position.x = 1 := by
  obtain ⟨mc, h0⟩ := s0_reach.at
  obtain ⟨P1, J1, s1, mc', e1, hat, hres, _⟩ := h0.pySolveFk_coh (rt := .ignore) (wj := false) (uc := false) s0_shallow
    (fkArgs_a 0) (.inr ⟨rfl, .inr (.inl rfl)⟩) (by simp)
  have hd : LinkDepth ls js (AllWelds ls m0 []) "tip" (2 + 1) :=
    .joint (j := weld) (by simp [js]) (.joint (j := slide) (by simp [js]) (.joint (j := turn) (by simp [js])
      (.root (l := ⟨"base", none⟩) (by simp [ls]) (by simp [js, turn, slide, weld]))))
  obtain ⟨P2, J2, s2, e2⟩ := C04_stale_returns (q := [1]) (ids2 := [0]) (j1 := 0) s0_reach (by simp [qa, QArg.rows]) tip_id hd
    (by simp) e1 (by rw [joints_length]; simp) rfl
  have hst := C04_stale (j1 := 0) (j2 := 0) s0_reach (by simp [qa, QArg.rows]) tip_id hd (by simp) (by simp) e1 e2
    0 (by simp [QArg.rows]) 0 (by simp [RotType.width])
  obtain ⟨T, hT, hP⟩ := hres.world h0 (fkArgs_a 0).shape (fkArgs_a 0).joints 0 0 3 [0] "tip" (θa 0) rfl rfl tip_id
    (angles_a 0)
  refine ⟨P1, J1, s1, P2, J2, s2, e1, e2, ?_, ?_⟩
  · simp only [List.length_cons, List.length_nil, Nat.zero_mul, Nat.zero_add] at hst hP
    rw [hst, hP.1, ← (hT _).mp (tip_pose 0)]
  · intro T hT
    obtain ⟨_, _, _, _, _, _, hres1, _⟩ := h0.pySolveFk_coh (rt := .ignore) (wj := false) (uc := false) s0_shallow
      (fkArgs_a 1) (.inr ⟨rfl, .inr (.inl rfl)⟩) (by simp)
    obtain ⟨T1, hT1, _⟩ := hres1.world h0 (fkArgs_a 1).shape (fkArgs_a 1).joints 0 0 3 [1] "tip" (θa 1) rfl rfl tip_id
      (angles_a 1)
    rw [(hT1 T).mp hT, ← (hT1 _).mp (tip_pose 1)]

/-- the robot with an empty cache -/
theorem sc_exists : ∃ (sc : PyModel ℝ) (mc : KinModel ℝ), pyClearCache s0 = .ok () sc ∧ At ls js m0 [] mc sc.robot ∧
    Fresh sc.robot ∧ PyReach ls js m0 [.clearCache] [] sc := by
  obtain ⟨mc, h0⟩ := s0_reach.at
  obtain ⟨m1, e1, a1, a2, _⟩ := h0.clear
  have e : pyClearCache s0 = .ok () { s0 with robot := m1 } := by simp only [pyClearCache, onRobot, e1]
  refine ⟨_, mc, e, a1, a2, isTree, supported, m0_spec, "", .ok trivial (s1 := { s0 with robot := m1 }) ?_ .nil⟩
  show PyCall.clearCache.run s0 = _
  simp only [PyCall.run, e]

/-- **Witness against C05.** After `clear_cache`, an object computes the centre of mass for displacement
0 and then for displacement 1. The second answer says x = 1/3; the centre of mass is at x = 2/3. -/
theorem C05_witness : ∃ (sc : PyModel ℝ) (C1 J1 : Mat ℝ) (s1 : PyModel ℝ) (C2 J2 : Mat ℝ) (s2 : PyModel ℝ),
    pyClearCache s0 = .ok () sc ∧
    pySolveComFk (qa 0) [0] none .fixed false sc = .ok (C1, J1) s1 ∧
    pySolveComFk (qa 1) [0] none .fixed false s1 = .ok (C2, J2) s2 ∧ C2.f 0 0 = 1 / 3 ∧
    ∀ bs, Bodies ls js (AllWelds ls m0 []) (θa 1) Pose.identity bs → (comOf bs).x = 2 / 3 := by
  obtain ⟨sc, mc, ec, h0, hfr, hrc⟩ := sc_exists
  have key : ∀ a, ∃ C J s', pySolveComFk (qa a) [0] none .fixed false sc = .ok (C, J) s' ∧
      C.f 0 0 = (a + 1) / 3 ∧ ∀ bs, Bodies ls js (AllWelds ls m0 []) (θa a) Pose.identity bs →
        bs = [(armInertial, ⟨⟨0, 0, 1⟩, Rot.one⟩), (tipInertial, ⟨⟨a, 3, 3⟩, Rot.one⟩)] := by
    intro a
    obtain ⟨C, J, s', mc', e, _, hres⟩ := h0.pySolveComFk (act := none) (wj := false) s0_shallow (comArgs_a sc a)
      (.inr ⟨hfr, by simp [qa, QArg.rows]⟩) (by simp)
    obtain ⟨bs, Ts, hb, hTs, hC⟩ := hres.world h0 s0_shallow (comArgs_a sc a).shape (comArgs_a sc a).joints (by simp) 0 [a] (θa a) rfl
      (angles_a a)
    refine ⟨C, J, s', e, ?_, ?_⟩
    · rw [hC 0 (by omega), ← (hb _).mp (bodies_a a), com_a]
      simp [actionMean, Vec3.coord]
    · intro bs' hbs'
      exact ((hb _).mp hbs').trans ((hb _).mp (bodies_a a)).symm
  obtain ⟨C1, J1, s1, e1, hC1, _⟩ := key 0
  obtain ⟨C2, J2, s2, e2⟩ := C05_stale_returns hrc (by simp [qa, QArg.rows]) e1 (comArgs_a sc 1)
  have hst := (C05_stale hrc (by simp [qa, QArg.rows]) e1 e2).2 0 (by simp [qa, QArg.rows]) 0 (by omega)
  refine ⟨sc, C1, J1, s1, C2, J2, s2, ec, e1, e2, ?_, ?_⟩
  · rw [hst, hC1]; norm_num
  · intro bs hbs
    obtain ⟨_, _, _, _, _, hu⟩ := key 1
    rw [hu bs hbs, com_a]; norm_num

/-! ### The hypotheses of the partial theorems are met -/

-- C04: the pose of the tip, then with the cache the poses of tip and arm at the same displacement
example : ∃ P J s1, pySolveFk (qa 1) [3] [0] .ignore .fixed false false s0 = .ok (P, J) s1 ∧
    ∃ P2 J2 s2, pySolveFk (qa 1) [3, 0] [0] .rpy .fixed true true s1 = .ok (P2, J2) s2 ∧ P2.rows = 2 := by
  obtain ⟨mc, h0⟩ := s0_reach.at
  obtain ⟨P1, J1, s1, mc', e1, _⟩ := h0.pySolveFk_coh (rt := .ignore) (wj := false) (uc := false) s0_shallow
    (fkArgs_a 1) (.inr ⟨rfl, .inr (.inl rfl)⟩) (by simp)
  obtain ⟨P2, J2, s2, e2, h2, _⟩ := C04_use_cache_partial (rt2 := .rpy) (wj2 := true) (es2 := [3, 0]) (qs2 := qa 1) s0_reach
    s0_shallow (fkArgs_a 1)
    ⟨by simp [qa], by simp [qa, QArg.rows], by simp [qa, QArg.rows, BaseType.dof], by rw [joints_length]; simp,
      by show ∀ l ∈ [3, 0], l < m0.links.length; rw [links_length]; simp⟩
    (.inl inertial) (q := [1]) rfl (by simp [qa, QArg.rows]) e1
  exact ⟨P1, J1, s1, e1, P2, J2, s2, e2, h2⟩

theorem comArgs_planar {s : PyModel ℝ} (hs : s.robot.links.length = 6) :
    ComArgs m0 s (.nd2 a1) [0, 1] [3] [2] .planer :=
  ⟨by simp, by simp [QArg.rows, a1], by simp [QArg.rows, a1, BaseType.dof], by rw [joints_length]; simp,
    by rw [hs]; simp, rfl⟩

-- C05 after a history, with a planar base and an action link; and right after `clear_cache`
example := C05_com_partial (act := some ([3], [2])) (wj := true) s1_reach s1_shallow (comArgs_planar s1_links)
  (.inl ⟨by simp, rfl⟩) (fun _ _ => .inl inertial)
example (sc : PyModel ℝ) (hc : pyClearCache s0 = .ok () sc) := C05_com_partial (act := none) (wj := true) s0_reach s0_shallow
  (comArgs_a s0 1) (.inr ⟨hc, by simp [qa, QArg.rows]⟩) (by simp)
example := C38_planar_columns (act := some ([3], [2])) (wj := true) s1_reach s1_shallow (comArgs_planar s1_links)
  (fun _ _ => .inl inertial)
example := C38_columns_partial (qs := .nd2 ⟨8, [[1, 2, 3, 4, 5, 1, 1, 1], [0, 1, 0, 0, 0, 0, 0, 0]], by simp⟩) (ids := [0, 1])
  (act := some ([3], [2])) (wj := true) s1_reach s1_shallow
  ⟨by simp, by simp [QArg.rows], by simp [QArg.rows, BaseType.dof], by rw [joints_length]; simp, by rw [s1_links]; simp, rfl⟩
  (fun _ _ => .inl inertial)
example (sc : PyModel ℝ) (hc : pyClearCache s1 = .ok () sc) := C06_inertia_partial (q := [1, 2]) (ids := [1, 0]) s1_reach
  s1_shallow (by rw [joints_length]; simp) rfl hc

end Tinyfk.Example
