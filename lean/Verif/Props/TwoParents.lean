import Verif.Props.Build
import Verif.Model.Jacobian
import Verif.Proofs.RealPose

/-!
# C49: a link with two parent joints is accepted

The parser accepts two joints with the same child. The link then follows the joint whose name comes last, but
the Jacobian also has a column for the other joint.
-/

set_option linter.unusedSimpArgs false

namespace Tinyfk

open Scalar

namespace TwoParents

/-- an inertial element -/
noncomputable def inr : Inertial ℝ := ⟨Pose.identity, 1, 1, 0, 0, 1, 0, 1⟩

/-- "root" and its child "tip" -/
noncomputable def ls : List (RawLink ℝ) := [⟨"root", some inr⟩, ⟨"tip", none⟩]

/-- two joints from "root" to "tip": "j1" slides along x, "j2" along y -/
noncomputable def js : List (RawJoint ℝ) :=
  [⟨"j1", .prismatic, ⟨1, 0, 0⟩, Pose.identity, "root", "tip", some ⟨0, 0, 0, 0⟩⟩,
   ⟨"j2", .prismatic, ⟨0, 1, 0⟩, Pose.identity, "root", "tip", some ⟨0, 0, 0, 0⟩⟩]

theorem builds : buildModel ls js = some
    ⟨[⟨"root", unsetLinkId, some inr, none, none, [0, 1], [1, 1]⟩,
      ⟨"tip", unsetLinkId, none, some 0, some 1, [], []⟩],
     [⟨"j1", .prismatic, ⟨1, 0, 0⟩, Pose.identity, "root", "tip", some ⟨0, 0, 0, 0⟩, none, none⟩,
      ⟨"j2", .prismatic, ⟨0, 1, 0⟩, Pose.identity, "root", "tip", some ⟨0, 0, 0, 0⟩, none, none⟩], 0⟩ := by
  simp [buildModel, ls, js, insertAll, insertSorted, RawLink.toLink,
      RawJoint.toJoint, initTree, initTreeStep, findLink, initRoot, List.findIdx?,
      List.findIdx?.go, List.modify, List.range, List.range.loop, List.filter]

/-- the constructed model -/
noncomputable def m : KinModel ℝ :=
  { rootLinkId := 0
    links := [⟨"root", 0, some { inr with origin := Pose.identity }, none, none, [0, 1], [1, 1, 2]⟩,
      ⟨"tip", 1, none, some 0, some 1, [], []⟩,
      ⟨"root_com", 2, some { inr with origin := Pose.identity }, some 0, some 2, [], []⟩]
    linkIds := [("root", 0), ("tip", 1), ("root_com", 2)]
    comDummy := [2]
    jheap := [⟨"j1", .prismatic, ⟨1, 0, 0⟩, Pose.identity, "root", "tip", some ⟨0, 0, 0, 0⟩, some 0, some 1⟩,
      ⟨"j2", .prismatic, ⟨0, 1, 0⟩, Pose.identity, "root", "tip", some ⟨0, 0, 0, 0⟩, some 1, some 1⟩,
      newFixedJoint ⟨inr.origin.position, Rot.one⟩]
    joints := [0, 1]
    jointIds := [("j1", 0), ("j2", 1)]
    angles := [0, 0]
    base := Pose.identity
    rptable := [[false, false], [true, true], [false, false]]
    numDof := 2
    totalMass := inr.mass
    stack := ⟨[⟨0, Pose.identity⟩, ⟨0, Pose.identity⟩], 0⟩
    cache := ⟨3, [Pose.identity, Pose.identity, Pose.identity], [false, false, false]⟩ }

theorem constructs : construct (buildModel ls js) = .ok m := by
  rw [builds]
  have h0 : dfs
      [(⟨"root", 0, some inr, none, none, [0, 1], [1, 1, 2]⟩ : Link ℝ), ⟨"tip", 1, none, some 0, some 1, [], []⟩,
        ⟨"root_com", 2, none, some 0, some 2, [], []⟩] 0 [1] (RpTable.mk' 3 2) =
      some (.ok [[false, false], [true, false], [false, false]]) := by
    rw [dfs.eq_def]
    simp only [List.getElem?_cons_succ, List.getElem?_cons_zero, RpTable.mk', RpTable.setTrue, List.replicate, List.length_cons,
      List.length_nil, List.set, List.reverse_nil, List.nil_append, Nat.reduceAdd, Nat.reduceLT, if_true]
    rw [dfs.eq_def]
  have h1 : dfs
      [(⟨"root", 0, some inr, none, none, [0, 1], [1, 1, 2]⟩ : Link ℝ), ⟨"tip", 1, none, some 0, some 1, [], []⟩,
        ⟨"root_com", 2, none, some 0, some 2, [], []⟩] 1 [1] [[false, false], [true, false], [false, false]] =
      some (.ok [[false, false], [true, true], [false, false]]) := by
    rw [dfs.eq_def]
    simp only [List.getElem?_cons_succ, List.getElem?_cons_zero, RpTable.mk', RpTable.setTrue, List.replicate, List.length_cons,
      List.length_nil, List.set, List.reverse_nil, List.nil_append, Nat.reduceAdd, Nat.reduceLT, if_true]
    rw [dfs.eq_def]
  simp [construct, initMembers, numberLinks, NameMap.set, NameMap.find, numberJoints, setChildLinks,
    NameMap.opIndex, List.lookup, addComLinks, addNewLink, Res.toOutcome, List.range, List.range.loop,
    updateRptable, rpLoop, derefJoint, sumMass, List.modify, h0, h1, setBasePose, Prog.modify, clearCache, m,
    SizedCache.clear, SizedCache.extend, SizedCache.mk', SizedStack.mk', List.replicate]
  rfl

/-- the joint angles of `m` set to `a`, `b` -/
noncomputable def at' (a b : ℝ) : KinModel ℝ := { m with angles := [a, b] }

theorem at'_set (a b : ℝ) : setJointAngles [0, 1] [a, b] m = .ok () (at' a b) := by
  rfl

/-- **C49 is false (two parents).** The description with two joints from "root" to "tip" is accepted and
constructed. The pose of "tip" (link 1) does not depend on joint "j1" (joint 0); the Jacobian says it moves along x with it. -/
theorem C49_two_parents : (buildModel ls js).isSome ∧ construct (buildModel ls js) = .ok m ∧
    (∀ a b, ∃ m1, setJointAngles [0, 1] [a, b] m = .ok () m1 ∧
      (∃ T m2, getLinkPose 1 m1 = .ok T m2 ∧ T.position = ⟨0, b, 0⟩) ∧
      ∃ J m2, getJacobian 1 [0] .ignore false m1 = .ok J m2 ∧ J.f 0 0 = 1) := by
  refine ⟨by rw [builds]; rfl, constructs, ?_⟩
  intro a b
  refine ⟨at' a b, at'_set a b, ?_⟩
  have hp : ∃ st c, getLinkPose 1 (at' a b) = .ok ⟨⟨0, b, 0⟩, Rot.one⟩ { at' a b with stack := st, cache := c } ∧
      c.getCache 1 = .ok (some ⟨⟨0, b, 0⟩, Rot.one⟩) := by
    have hup : upLoop (at' a b) 1 ⟨[⟨0, Pose.identity⟩, ⟨0, Pose.identity⟩], 0⟩ =
        .ok (⟨[⟨1, ⟨⟨0, b, 0⟩, Rot.one⟩⟩, ⟨0, Pose.identity⟩], 1⟩, Pose.identity) := by
      rw [upLoop.eq_def]
      simp only [at', m, List.getElem?_cons_succ, List.getElem?_cons_zero, SizedCache.getCache, jointTransform, Outcome.idx, Joint.transform, reduceCtorEq, if_false,
        Outcome.bind_eq, Outcome.bind_ok, Outcome.pure_eq, Pose.identity_transform, List.length_cons, List.length_nil, Nat.reduceAdd, Nat.reduceLT, dif_pos,
        List.set, zero_mul, one_mul]
      rw [upLoop.eq_def]
      simp only [List.getElem?_cons_zero]
    refine ⟨⟨[⟨1, ⟨⟨0, b, 0⟩, Rot.one⟩⟩, ⟨0, Pose.identity⟩], 0⟩,
      ⟨3, [Pose.identity, ⟨⟨0, b, 0⟩, Rot.one⟩, Pose.identity], [false, true, false]⟩, ?_, rfl⟩
    have hc : (at' a b).cache.getCache 1 = .ok none := rfl
    have hs : (at' a b).stack.reset = ⟨[⟨0, Pose.identity⟩, ⟨0, Pose.identity⟩], 0⟩ := rfl
    simp only [getLinkPose, hc, getLinkPoseInner, hs, hup, downLoop, Outcome.idx, List.getElem?_cons_zero, Outcome.bind_eq, Outcome.bind_ok, Pose.identity_transform]
    rfl
  obtain ⟨st, c, h1, h2⟩ := hp
  refine ⟨⟨_, _, h1, rfl⟩, ?_⟩
  have h3 : getLinkPose 1 { at' a b with stack := st, cache := c } = .ok ⟨⟨0, b, 0⟩, Rot.one⟩ { at' a b with stack := st, cache := c } := by
    simp only [getLinkPose, h2]
  have hrel : RpTable.isRelevant (at' a b).rptable 1 0 = .ok true := rfl
  simp only [getJacobian, Prog.bind_apply, h1, jacJointLoop, jacJoint, Prog.read, hrel, if_true]
  simp only [at', m, Outcome.idx, derefJoint, List.getElem?_cons_succ, List.getElem?_cons_zero, Outcome.bind_eq, Outcome.bind_ok]
  simp only [at', m] at h3
  simp only [h3, Prog.lift, jacJointWrite, if_true, Mat.setCol, Rot.rotate_one, Outcome.bind_eq]
  refine ⟨_, _, rfl, ?_⟩
  simp

end TwoParents
end Tinyfk
