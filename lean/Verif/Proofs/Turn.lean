import Verif.Props.Links
import Verif.Proofs.Rotation

/-!
# Poses as functions of one joint angle
-/

set_option linter.unusedSectionVars false

namespace Tinyfk

open Scalar

section
variable {K : Type} [Scalar K] {m : KinModel K}

/-- the model after `set_joint_angles([i], [v])` -/
def turned (m : KinModel K) (i : Nat) (v : K) : KinModel K :=
  { m with angles := m.angles.set i v, cache := m.cache.clear }

theorem turned_set {i : Nat} (h : i < m.angles.length) (v : K) :
    setJointAngles [i] [v] m = .ok () (turned m i v) := by
  simp only [setJointAngles, Prog.bind_apply, setJointAnglesNC, writeAngles, h, if_true, clearCache, Prog.modify,
    turned]

theorem Inv.turned (h : Inv m) (i : Nat) (v : K) : Inv (turned m i v) :=
  h.setAngles _ (by simp)

/-- edges of other joints do not move -/
theorem Graph.edge_turned (g : Graph m) {i jp : Nat} (hjp : m.joints[i]? = some jp) {l p jp' : Nat} {lk : Link K}
    {j : Joint K} {E : Pose K} (h1 : m.links[l]? = some lk) (h2 : lk.parent = some p)
    (h3 : lk.parentJoint = some jp') (h4 : m.jheap[jp']? = some j) (hne : jp' ≠ jp) (v : K)
    (h : EdgeTf m.angles j E) : EdgeTf (Tinyfk.turned m i v).angles j E := by
  cases h with
  | fixed ht => exact .fixed ht
  | @movable i' θ M f1 f2 f3 =>
    refine .movable f1 ?_ f3
    have hii : i' ≠ i := by
      rintro rfl
      obtain ⟨jp2, j2, g1, g2, g3⟩ := g.pjoint h1 h2
      rw [h3] at g1; cases g1
      rw [h4] at g2; cases g2
      rcases g3 with g3 | ⟨_, k, g4, g5⟩
      · cases f3 with
        | rot hr => rcases hr with hr | hr <;> rw [hr] at g3 <;> cases g3
        | slide hr => rw [hr] at g3; cases g3
      · rw [f1] at g4; cases g4
        rw [hjp] at g5; cases g5
        exact hne rfl
    show (m.angles.set i v)[i']? = some θ
    rw [List.getElem?_set_ne (Ne.symm hii)]
    exact f2

/-- links off the path of a joint do not move with it -/
theorem Graph.pose_turned (g : Graph m) {i jp : Nat} (hjp : m.joints[i]? = some jp) (v : K) {l : Nat} {T : Pose K}
    (hT : IsPose m l T) (hoff : ¬ OnPath m jp l) : IsPose (Tinyfk.turned m i v) l T := by
  induction hT with
  | root e1 e2 => exact IsPose.root (m := Tinyfk.turned m i v) e1 e2
  | @child l p jp' lk' j' T' B e1 e2 e3 e4 e5 e6 ih =>
    refine IsPose.child (m := Tinyfk.turned m i v) e1 e2 e3 e4 ?_ (ih fun hp => hoff (.up e1 e2 hp))
    refine g.edge_turned hjp e1 e2 e3 e4 ?_ v e5
    rintro rfl
    exact hoff (.here e1 e2 e3)

theorem Anc.depth_le {c x a b : Nat} (h : Anc m c x) (hc : Depth m c a) (hx : Depth m x b) : a ≤ b := by
  induction h generalizing b with
  | refl => rw [hc.unique hx]
  | up h1 h2 _ ih =>
    cases hx with
    | root e1 e2 => rw [h1] at e1; cases e1; rw [h2] at e2; cases e2
    | child e1 e2 e3 =>
      rw [h1] at e1; cases e1; rw [h2] at e2; cases e2
      exact Nat.le_succ_of_le (ih e3)

/-- the parent of a link is not below it -/
theorem Graph.parent_not_below (g : Graph m) {c p : Nat} {lk : Link K} (h1 : m.links[c]? = some lk)
    (h2 : lk.parent = some p) : ¬ Anc m c p := by
  intro h
  obtain ⟨d, hd⟩ := g.depth (List.getElem?_eq_some_iff.mp h1).1
  cases hd with
  | root e1 e2 => rw [h1] at e1; cases e1; rw [h2] at e2; cases e2
  | child e1 e2 e3 =>
    rw [h1] at e1; cases e1; rw [h2] at e2; cases e2
    have := h.depth_le (Depth.child h1 h2 e3) e3
    omega

theorem turned_self {i : Nat} {θ : K} (h : m.angles[i]? = some θ) {l : Nat} {T : Pose K} :
    IsPose (Tinyfk.turned m i θ) l T ↔ IsPose m l T := by
  have e : m.angles.set i θ = m.angles := by
    obtain ⟨h1, h2⟩ := List.getElem?_eq_some_iff.mp h
    subst h2
    exact List.set_getElem_self h1
  constructor
  · intro h; exact IsPose.congr (m := Tinyfk.turned m i θ) (m' := m) rfl rfl e.symm rfl h
  · intro h; exact IsPose.congr (m := m) (m' := Tinyfk.turned m i θ) rfl rfl e rfl h

end

variable {m : KinModel ℝ}

/-- The pose of a link below joint `i`, as a function of the angle `v` of the joint: fixed frame `F`, motion
of the joint, fixed offset `R`. -/
theorem Graph.joint_split (g : Graph m) {i jp l : Nat} (hjp : m.joints[i]? = some jp) (hon : OnPath m jp l) :
    ∃ j c p lk B R, m.jheap[jp]? = some j ∧ j.type.Movable ∧ j.childLink = some c ∧ m.links[c]? = some lk ∧
      lk.parent = some p ∧ lk.parentJoint = some jp ∧ IsPose m p B ∧
      ∀ v M, JointMotion j v M →
        IsPose (turned m i v) c (Pose.transform (Pose.transform B j.origin) M) ∧
        IsPose (turned m i v) l (Pose.transform (Pose.transform (Pose.transform B j.origin) M) R) := by
  obtain ⟨j, c, lk, p, h1, h2, h3, h4, h5, h6, h7⟩ := g.joint hjp
  have hi : i < m.angles.length := by rw [g.anglesLen]; exact (List.getElem?_eq_some_iff.mp hjp).1
  have hp : ∃ B, IsPose m p B := by
    obtain ⟨C, hC⟩ := g.tree.exists_pose (List.getElem?_eq_some_iff.mp h5).1
    cases hC with
    | root e1 e2 => rw [h5] at e1; cases e1; rw [h7] at e2; cases e2
    | @child _ _ _ _ _ _ B e1 e2 _ _ _ e6 =>
      rw [h5] at e1; cases e1; rw [h7] at e2; cases e2
      exact ⟨B, e6⟩
  obtain ⟨B, hB⟩ := hp
  have hnb := g.parent_not_below h5 h7
  have hc : ∀ v M, JointMotion j v M → IsPose (turned m i v) c (Pose.transform (Pose.transform B j.origin) M) := by
    intro v M hM
    rw [Pose.transform_assoc]
    refine IsPose.child (m := turned m i v) h5 h7 h6 h1 (.movable h2 ?_ hM) ?_
    · show (m.angles.set i v)[i]? = some v
      simp [hi]
    · exact g.pose_turned hjp v hB (fun h => hnb ((g.onPath_iff h5 h6 h7 p).mp h))
  have key : ∀ x, Anc m c x → ∃ R, ∀ v M, JointMotion j v M →
      IsPose (turned m i v) x (Pose.transform (Pose.transform (Pose.transform B j.origin) M) R) := by
    intro x hx
    induction hx with
    | refl =>
      refine ⟨Pose.identity, fun v M hM => ?_⟩
      rw [Pose.transform_identity]; exact hc v M hM
    | @up x p' xk e1 e2 hA ih =>
      obtain ⟨R, hR⟩ := ih
      obtain ⟨X, hX⟩ := g.tree.exists_pose (List.getElem?_eq_some_iff.mp e1).1
      cases hX with
      | root f1 f2 => rw [e1] at f1; cases f1; rw [e2] at f2; cases f2
      | @child _ _ jp' _ j' E _ f1 f2 f3 f4 f5 f6 =>
        rw [e1] at f1; cases f1; rw [e2] at f2; cases f2
        refine ⟨Pose.transform R E, fun v M hM => ?_⟩
        rw [← Pose.transform_assoc]
        refine IsPose.child (m := turned m i v) e1 e2 f3 f4 (g.edge_turned hjp e1 e2 f3 f4 ?_ v f5) (hR v M hM)
        rintro rfl
        obtain rfl := g.pjUnique e1 h5 f3 h6
        exact g.parent_not_below e1 e2 hA
  obtain ⟨R, hR⟩ := key l ((g.onPath_iff h5 h6 h7 l).mp hon)
  exact ⟨j, c, p, lk, B, R, h1, h3, h4, h5, h7, h6, hB, fun v M hM => ⟨hc v M hM, hR v M hM⟩⟩

end Tinyfk
