import Verif.Proofs.LoopsRun
import Verif.Props.Deriv

/-!
# Robots with loops: what moves with a joint
-/

set_option linter.unusedSectionVars false

namespace Tinyfk

open Scalar

section
variable {K : Type} [Scalar K] {ls : List (RawLink K)} {js : List (RawJoint K)} {W : Weld K → Prop} {m : KinModel K}

/-- the link carried by a movable joint is the child of the joint -/
theorem Net.owner (h : Net ls js W m) {i jp l p : Nat} {lk : Link K} (hjp : m.joints[i]? = some jp)
    (h1 : m.links[l]? = some lk) (h2 : lk.parent = some p) (h3 : lk.parentJoint = some jp) :
    ∃ j, m.jheap[jp]? = some j ∧ j.id = some i ∧ j.type.Movable ∧ j.childLink = some l := by
  obtain ⟨j, r, c, ck, a1, a2, ⟨_, _, rfl⟩, a4, a5, a6, a7, a8⟩ := h.joint hjp
  rcases h.links l lk h1 with ⟨b1, _⟩ | ⟨p', pk, jp', j', b1, b2, b3, b4, b5⟩
  · rw [h2] at b1; cases b1
  · rw [h3] at b3; cases b3
    rw [a1] at b4; cases b4
    rcases b5 with ⟨r', _, ⟨_, _, e⟩, _, e2, _⟩ | ⟨hj, _⟩
    · have : r'.childLinkName = r.childLinkName := (congrArg Joint.childLinkName e).symm
      have : l = c := h.name_unique h1 a7 (by rw [a8, ← this, e2])
      subst this
      exact ⟨_, a1, a4, a5, a6⟩
    · rw [hj] at a5
      simp [newFixedJoint, JointType.Movable] at a5

/-- edges of other joints do not move -/
theorem Net.edge_turned (g : Net ls js W m) {i jp : Nat} (hjp : m.joints[i]? = some jp) {l p jp' : Nat} {lk : Link K}
    {j : Joint K} {E : Pose K} (h1 : m.links[l]? = some lk) (h2 : lk.parent = some p)
    (h3 : lk.parentJoint = some jp') (h4 : m.jheap[jp']? = some j) (hne : jp' ≠ jp) (v : K)
    (h : EdgeTf m.angles j E) : EdgeTf (Tinyfk.turned m i v).angles j E := by
  cases h with
  | fixed ht => exact .fixed ht
  | @movable i' θ M f1 f2 f3 =>
    refine .movable f1 ?_ f3
    have hii : i' ≠ i := by
      rintro rfl
      obtain ⟨jp2, j2, g1, g2, g3⟩ := g.pjoint h1 h2
      rw [h3] at g1; cases g1
      rw [h4] at g2; cases g2
      rcases g3 with g3 | ⟨_, k, g4, g5⟩
      · cases f3 with
        | rot hr => rcases hr with hr | hr <;> rw [hr] at g3 <;> cases g3
        | slide hr => rw [hr] at g3; cases g3
      · rw [f1] at g4; cases g4
        rw [hjp] at g5; cases g5
        exact hne rfl
    show (m.angles.set i v)[i']? = some θ
    rw [List.getElem?_set_ne (Ne.symm hii)]
    exact f2

theorem Net.pose_turned (g : Net ls js W m) {i jp : Nat} (hjp : m.joints[i]? = some jp) (v : K) {l : Nat} {T : Pose K}
    (hT : IsPose m l T) (hoff : ¬ OnPath m jp l) : IsPose (Tinyfk.turned m i v) l T := by
  induction hT with
  | root e1 e2 => exact IsPose.root (m := Tinyfk.turned m i v) e1 e2
  | @child l p jp' lk' j' T' B e1 e2 e3 e4 e5 e6 ih =>
    refine IsPose.child (m := Tinyfk.turned m i v) e1 e2 e3 e4 ?_ (ih fun hp => hoff (.up e1 e2 hp))
    refine g.edge_turned hjp e1 e2 e3 e4 ?_ v e5
    rintro rfl
    exact hoff (.here e1 e2 e3)

/-- the walk up the parent pointers passes the joint iff the followed route does -/
theorem Net.onPath_iff (g : Net ls js W m) {s : String} {i jp l : Nat} {lk : Link K} (hs : m.jointIds.find s = some i)
    (hjp : m.joints[i]? = some jp) (hl : m.links[l]? = some lk) :
    OnPath m jp l ↔ JointOnPath (followed js) W s lk.name := by
  obtain ⟨jp', j, f1, f2, f3⟩ := (g.jointNames s i).mp hs
  rw [hjp] at f1; cases f1
  constructor
  · intro h
    induction h generalizing lk with
    | here h1 h2 h3 =>
      rw [h1] at hl; cases hl
      rcases g.links _ _ h1 with ⟨b1, _⟩ | ⟨p', pk, jp', j', b1, b2, b3, b4, b5⟩
      · rw [h2] at b1; cases b1
      · rw [h3] at b3; cases b3
        rw [f2] at b4; cases b4
        rcases b5 with ⟨r', hr', ⟨_, _, e⟩, _, e2, _⟩ | ⟨hj, _⟩
        · rw [← e2]
          exact .here hr' (by rw [← f3, e]; rfl)
        · obtain ⟨j', q1, _, q3, _⟩ := g.owner hjp h1 h2 h3
          rw [f2] at q1; cases q1
          rw [hj] at q3
          simp [newFixedJoint, JointType.Movable] at q3
    | up h1 h2 _ ih =>
      rw [h1] at hl; cases hl
      rcases g.links _ _ h1 with ⟨b1, _⟩ | ⟨p', pk, jp', j', b1, b2, b3, b4, b5⟩
      · rw [h2] at b1; cases b1
      · rw [h2] at b1; cases b1
        have := ih b2
        rcases b5 with ⟨r', hr', _, e1, e2, _⟩ | ⟨_, hw⟩
        · rw [← e2]; rw [← e1] at this
          exact .up hr' this
        · exact .weld (w := ⟨_, _, _⟩) hw this
  · intro h
    have key : ∀ n, JointOnPath (followed js) W s n → ∃ (l : Nat) (lk : Link K), m.links[l]? = some lk ∧ lk.name = n ∧ OnPath m jp l := by
      intro n hn
      induction hn with
      | @here r hr hrs =>
        obtain ⟨l, lk, p, pk, jp', j', h1, h2, h3, h4, h5, h6, h7, h8⟩ := g.edge_of_joint hr
        refine ⟨l, lk, h1, h2, .here h1 h3 ?_⟩
        rw [h6]
        obtain ⟨jp2, j2, g1, g2, g3⟩ := g.pjoint h1 h3
        rw [h6] at g1; cases g1
        rw [h7] at g2; cases g2
        obtain ⟨_, _, rfl⟩ := h8
        -- the joint is movable
        obtain ⟨j0, r0, c, ck, a1, a2, ⟨_, _, rfl⟩, a4, a5, _⟩ := g.joint hjp
        rw [f2] at a1; cases a1
        have hrr : r0 = r := List.inj_on_of_nodup_map g.jointNodup a2 (mem_followed.mp hr).1 (by rw [hrs, ← f3]; rfl)
        subst hrr
        rcases g3 with g3 | ⟨_, k, g4, g5⟩
        · have : r0.type.Movable := a5
          have g3 : r0.type = .fixed := g3
          rw [g3] at this
          simp [JointType.Movable] at this
        · have := (g.jointNames r0.name k).mpr ⟨_, _, g5, h7, rfl⟩
          rw [hrs, hs] at this
          cases this
          rw [hjp] at g5
          exact g5.symm
      | @up r hr _ ih =>
        obtain ⟨l, lk, p, pk, jp', j', h1, h2, h3, h4, h5, h6, h7, h8⟩ := g.edge_of_joint hr
        obtain ⟨q, qk, q1, q2, q3⟩ := ih
        have := g.name_unique q1 h4 (q2.trans h5.symm)
        subst this
        exact ⟨l, lk, h1, h2, .up h1 h3 q3⟩
      | @weld w hw _ ih =>
        obtain ⟨l, lk, p, pk, jp', j', h1, h2, h3, h4, h5, h6, h7, h8⟩ := g.edge_of_weld hw
        obtain ⟨q, qk, q1, q2, q3⟩ := ih
        have := g.name_unique q1 h4 (q2.trans h5.symm)
        subst this
        exact ⟨l, lk, h1, h2, .up h1 h3 q3⟩
    obtain ⟨l', lk', h1, h2, h3⟩ := key _ h
    have := g.name_unique h1 hl h2
    subst this
    exact h3

theorem Tree.parent_not_below (g : Tree m) {c p : Nat} {lk : Link K} (h1 : m.links[c]? = some lk)
    (h2 : lk.parent = some p) : ¬ Anc m c p := by
  intro h
  obtain ⟨d, hd⟩ := g.depth (List.getElem?_eq_some_iff.mp h1).1
  cases hd with
  | root e1 e2 => rw [h1] at e1; cases e1; rw [h2] at e2; cases e2
  | child e1 e2 e3 =>
    rw [h1] at e1; cases e1; rw [h2] at e2; cases e2
    have := h.depth_le (Depth.child h1 h2 e3) e3
    omega

/-- the walk up passes the joint iff it passes the link the joint carries -/
theorem Net.onPath_anc (g : Net ls js W m) {i jp c p : Nat} {ck : Link K} (hjp : m.joints[i]? = some jp)
    (hc : m.links[c]? = some ck) (hp : ck.parent = some p) (hj : ck.parentJoint = some jp) (x : Nat) :
    OnPath m jp x ↔ Anc m c x := by
  constructor
  · intro h
    induction h with
    | here h1 h2 h3 =>
      obtain ⟨j, a1, _, _, a2⟩ := g.owner hjp h1 h2 h3
      obtain ⟨j', b1, _, _, b2⟩ := g.owner hjp hc hp hj
      rw [a1] at b1; cases b1
      rw [a2] at b2; cases b2
      exact .refl
    | up h1 h2 _ ih => exact .up h1 h2 ih
  · intro h
    induction h with
    | refl => exact .here hc hp hj
    | up h1 h2 _ ih => exact .up h1 h2 ih

end

section
variable {ls : List (RawLink ℝ)} {js : List (RawJoint ℝ)} {W : Weld ℝ → Prop} {m : KinModel ℝ}

theorem OnPath.carried {jp l : Nat} (h : OnPath m jp l) : ∃ (c p : Nat) (ck : Link ℝ), m.links[c]? = some ck ∧
    ck.parent = some p ∧ ck.parentJoint = some jp := by
  induction h with
  | here h1 h2 h3 => exact ⟨_, _, _, h1, h2, h3⟩
  | up _ _ _ ih => exact ih

/-- The pose of a link below joint `i`, as a function of the angle `v` of the joint: fixed frame `F`, motion
of the joint, fixed offset `R`. -/
theorem Net.joint_split (g : Net ls js W m) {i jp l : Nat} (hjp : m.joints[i]? = some jp) (hon : OnPath m jp l) :
    ∃ j c p lk B R, m.jheap[jp]? = some j ∧ j.type.Movable ∧ j.childLink = some c ∧ m.links[c]? = some lk ∧
      lk.parent = some p ∧ lk.parentJoint = some jp ∧ IsPose m p B ∧
      ∀ v M, JointMotion j v M →
        IsPose (turned m i v) c (Pose.transform (Pose.transform B j.origin) M) ∧
        IsPose (turned m i v) l (Pose.transform (Pose.transform (Pose.transform B j.origin) M) R) := by
  obtain ⟨c, p, lk, h5, h7, h6⟩ := hon.carried
  obtain ⟨j, h1, h2, h3, h4⟩ := g.owner hjp h5 h7 h6
  have hi : i < m.angles.length := by rw [g.anglesLen]; exact (List.getElem?_eq_some_iff.mp hjp).1
  have hp : ∃ B, IsPose m p B := by
    obtain ⟨C, hC⟩ := g.tree.exists_pose (List.getElem?_eq_some_iff.mp h5).1
    cases hC with
    | root e1 e2 => rw [h5] at e1; cases e1; rw [h7] at e2; cases e2
    | @child _ _ _ _ _ _ B e1 e2 _ _ _ e6 =>
      rw [h5] at e1; cases e1; rw [h7] at e2; cases e2
      exact ⟨B, e6⟩
  obtain ⟨B, hB⟩ := hp
  have hnb := g.tree.parent_not_below h5 h7
  have hc : ∀ v M, JointMotion j v M → IsPose (turned m i v) c (Pose.transform (Pose.transform B j.origin) M) := by
    intro v M hM
    rw [Pose.transform_assoc]
    refine IsPose.child (m := turned m i v) h5 h7 h6 h1 (.movable h2 ?_ hM) ?_
    · show (m.angles.set i v)[i]? = some v
      simp [hi]
    · exact g.pose_turned hjp v hB (fun h => hnb ((g.onPath_anc hjp h5 h7 h6 p).mp h))
  have key : ∀ x, Anc m c x → ∃ R, ∀ v M, JointMotion j v M →
      IsPose (turned m i v) x (Pose.transform (Pose.transform (Pose.transform B j.origin) M) R) := by
    intro x hx
    induction hx with
    | refl =>
      refine ⟨Pose.identity, fun v M hM => ?_⟩
      rw [Pose.transform_identity]; exact hc v M hM
    | @up x p' xk e1 e2 hA ih =>
      obtain ⟨R, hR⟩ := ih
      obtain ⟨X, hX⟩ := g.tree.exists_pose (List.getElem?_eq_some_iff.mp e1).1
      cases hX with
      | root f1 f2 => rw [e1] at f1; cases f1; rw [e2] at f2; cases f2
      | @child _ _ jp' _ j' E _ f1 f2 f3 f4 f5 f6 =>
        rw [e1] at f1; cases f1; rw [e2] at f2; cases f2
        refine ⟨Pose.transform R E, fun v M hM => ?_⟩
        rw [← Pose.transform_assoc]
        refine IsPose.child (m := turned m i v) e1 e2 f3 f4 (g.edge_turned hjp e1 e2 f3 f4 ?_ v f5) (hR v M hM)
        rintro rfl
        obtain ⟨j2, a1, _, _, a2⟩ := g.owner hjp e1 e2 f3
        rw [h1] at a1; cases a1
        rw [h4] at a2; cases a2
        exact g.tree.parent_not_below e1 e2 hA
  obtain ⟨R, hR⟩ := key l ((g.onPath_anc hjp h5 h7 h6 l).mp hon)
  exact ⟨j, c, p, lk, B, R, h1, h3, h4, h5, h7, h6, hB, fun v M hM => ⟨hc v M hM, hR v M hM⟩⟩

end

end Tinyfk
