import Verif.Proofs.Deriv

/-!
# The columns of a Jacobian are derivatives
-/

set_option linter.unusedSectionVars false

namespace Tinyfk

open Scalar

variable {m m' : KinModel ℝ}

/-- all rotations stored in the model are unit quaternions, all turning axes unit vectors -/
structure UnitModel (m : KinModel ℝ) : Prop where
  base : m.base.rotation.norm2 = 1
  edges : ∀ {l p jp : Nat} {lk : Link ℝ} {j : Joint ℝ}, m.links[l]? = some lk → lk.parent = some p →
    lk.parentJoint = some jp → m.jheap[jp]? = some j →
    j.origin.rotation.norm2 = 1 ∧ ((j.type = .revolute ∨ j.type = .continuous) → j.axis.IsUnit)

theorem UnitModel.turned (h : UnitModel m) (i : Nat) (v : ℝ) : UnitModel (turned m i v) := ⟨h.base, h.edges⟩

theorem JointMotion.unit {j : Joint ℝ} (hj : (j.type = .revolute ∨ j.type = .continuous) → j.axis.IsUnit) {θ : ℝ} {M : Pose ℝ}
    (h : JointMotion j θ M) : M.rotation.norm2 = 1 := by
  cases h with
  | rot ht =>
    have := Rot.axisQ_unit (hj ht) θ
    simp only [Rot.axisQ] at this
    simp only [real_half, real_sin, real_cos]
    rw [show θ * (1 / 2) = θ / 2 by ring]
    exact this
  | slide => exact Rot.norm2_one

theorem IsPose.unit (h : UnitModel m) {l : Nat} {T : Pose ℝ} (hT : IsPose m l T) : T.rotation.norm2 = 1 := by
  induction hT with
  | root => exact h.base
  | child e1 e2 e3 e4 e5 _ ih =>
    have hu := h.edges e1 e2 e3 e4
    rw [Pose.transform, Rot.norm2_mul, ih, one_mul]
    cases e5 with
    | fixed => exact hu.1
    | movable _ _ hM => rw [Pose.transform, Rot.norm2_mul, hu.1, one_mul, hM.unit hu.2]

theorem jointMotion_rot {j : Joint ℝ} (h : j.type = .revolute ∨ j.type = .continuous) (v : ℝ) :
    JointMotion j v ⟨Vec3.zero, Rot.axisQ j.axis v⟩ := by
  have := JointMotion.rot (θ := v) h
  simp only [real_half, real_sin, real_cos] at this
  rw [show v * (1 / 2) = v / 2 by ring] at this
  exact this

/-- The pose of link `l` as a function of the angle `v` of joint `i` in state `m`, with its derivative: the
linear velocity `d` and the angular velocity `a`. -/
structure Moves (m : KinModel ℝ) (i l : Nat) (θ : ℝ) (E : Pose ℝ) (d a : Vec3 ℝ) (T : ℝ → Pose ℝ) : Prop where
  pose : ∀ v, IsPose (turned m i v) l (T v)
  here : T θ = E
  pos : Vec3.HasDeriv (fun v => (T v).position) d θ
  rot : Rot.HasDeriv (fun v => (T v).rotation) (Rot.spin a E.rotation) θ
  unit : ∀ v, (T v).rotation.norm2 = 1

theorem Rot.spin_zero (q : Rot ℝ) : Rot.spin ⟨0, 0, 0⟩ q = ⟨0, 0, 0, 0⟩ := by simp [Rot.spin]

theorem Rot.hasDeriv_const (q : Rot ℝ) (t : ℝ) : Rot.HasDeriv (fun _ => q) ⟨0, 0, 0, 0⟩ t :=
  ⟨hasDerivAt_const _ _, hasDerivAt_const _ _, hasDerivAt_const _ _, hasDerivAt_const _ _⟩

theorem Vec3.hasDeriv_const (q : Vec3 ℝ) (t : ℝ) : Vec3.HasDeriv (fun _ => q) ⟨0, 0, 0⟩ t :=
  ⟨hasDerivAt_const _ _, hasDerivAt_const _ _, hasDerivAt_const _ _⟩

/-- a link off the path of the joint does not move -/
theorem Graph.moves_off (g : Graph m) (hu : UnitModel m) {i jp l : Nat} (hjp : m.joints[i]? = some jp)
    (hoff : ¬ OnPath m jp l) {E : Pose ℝ} (hE : IsPose m l E) (θ : ℝ) :
    Moves m i l θ E ⟨0, 0, 0⟩ ⟨0, 0, 0⟩ (fun _ => E) where
  pose v := g.pose_turned hjp v hE hoff
  here := rfl
  pos := Vec3.hasDeriv_const _ _
  rot := by rw [Rot.spin_zero]; exact Rot.hasDeriv_const _ _
  unit _ := hE.unit hu

/-- a link whose pose is a fixed frame, the motion of the joint and a fixed offset moves with the axis of the joint -/
theorem moves_of_split (hu : UnitModel m) {i jp l : Nat}
    (hsplit : ∃ j c p lk B R, m.jheap[jp]? = some j ∧ j.type.Movable ∧ j.childLink = some c ∧ m.links[c]? = some lk ∧
      lk.parent = some p ∧ lk.parentJoint = some jp ∧ IsPose m p B ∧
      ∀ v M, JointMotion j v M →
        IsPose (turned m i v) c (Pose.transform (Pose.transform B j.origin) M) ∧
        IsPose (turned m i v) l (Pose.transform (Pose.transform (Pose.transform B j.origin) M) R))
    {E : Pose ℝ} (hE : IsPose m l E) {θ : ℝ} (hθ : m.angles[i]? = some θ)
    {j : Joint ℝ} (hj : m.jheap[jp]? = some j) {c : Nat} (hc : j.childLink = some c) {C : Pose ℝ} (hC : IsPose m c C) :
    ∃ T, Moves m i l θ E
      (if j.type = .prismatic then C.rotation.rotate j.axis
        else Vec3.cross (C.rotation.rotate j.axis) (Vec3.sub E.position C.position))
      (if j.type = .prismatic then ⟨0, 0, 0⟩ else C.rotation.rotate j.axis) T := by
  obtain ⟨j', c', p, lk, B, R, e1, e2, e3, e4, e5, e6, hB, key⟩ := hsplit
  rw [hj] at e1; cases e1
  rw [hc] at e3; cases e3
  have hedge := hu.edges e4 e5 e6 hj
  have hBu := hB.unit hu
  generalize hF : Pose.transform B j.origin = F at key
  have hFu : F.rotation.norm2 = 1 := by rw [← hF, Pose.transform, Rot.norm2_mul, hBu, hedge.1, one_mul]
  have hEC : ∀ M, JointMotion j θ M → C = Pose.transform F M ∧ E = Pose.transform (Pose.transform F M) R := by
    intro M hM
    obtain ⟨k1, k2⟩ := key θ M hM
    exact ⟨hC.unique ((turned_self hθ).mp k1), hE.unique ((turned_self hθ).mp k2)⟩
  by_cases hp : j.type = .prismatic
  · simp only [hp, if_true]
    have hM : ∀ v, JointMotion j v ⟨⟨j.axis.x * v, j.axis.y * v, j.axis.z * v⟩, Rot.one⟩ := fun v => .slide hp
    obtain ⟨hC', hE'⟩ := hEC _ (hM θ)
    refine ⟨fun v => Pose.transform (Pose.transform F ⟨⟨j.axis.x * v, j.axis.y * v, j.axis.z * v⟩, Rot.one⟩) R,
      fun v => (key v _ (hM v)).2, hE'.symm, ?_, ?_, fun v => ((key v _ (hM v)).2).unit (hu.turned i v)⟩
    · have hrot : C.rotation.rotate j.axis = F.rotation.rotate j.axis := by
        rw [hC']; simp [Pose.transform]
      rw [hrot]
      have hsm : ∀ v, F.rotation.rotate ⟨j.axis.x * v, j.axis.y * v, j.axis.z * v⟩ =
          ⟨v * (F.rotation.rotate j.axis).x, v * (F.rotation.rotate j.axis).y, v * (F.rotation.rotate j.axis).z⟩ := by
        intro v
        have := Rot.rotate_smul F.rotation j.axis v
        rw [mul_comm j.axis.x, mul_comm j.axis.y, mul_comm j.axis.z]
        exact this
      simp only [Pose.transform, Rot.mul_one, hsm, Vec3.add]
      refine ⟨?_, ?_, ?_⟩
      · exact ((((hasDerivAt_id θ).mul_const (F.rotation.rotate j.axis).x).add_const F.position.x).const_add
          (F.rotation.rotate R.position).x).congr_deriv (one_mul _)
      · exact ((((hasDerivAt_id θ).mul_const (F.rotation.rotate j.axis).y).add_const F.position.y).const_add
          (F.rotation.rotate R.position).y).congr_deriv (one_mul _)
      · exact ((((hasDerivAt_id θ).mul_const (F.rotation.rotate j.axis).z).add_const F.position.z).const_add
          (F.rotation.rotate R.position).z).congr_deriv (one_mul _)
    · rw [Rot.spin_zero]
      exact Rot.hasDeriv_const (Rot.mul (Rot.mul F.rotation Rot.one) R.rotation) _
  · have ht : j.type = .revolute ∨ j.type = .continuous := by
      cases h : j.type <;> simp_all [JointType.Movable]
    simp only [hp, if_false]
    have hM : ∀ v, JointMotion j v ⟨Vec3.zero, Rot.axisQ j.axis v⟩ := fun v => jointMotion_rot ht v
    obtain ⟨hC', hE'⟩ := hEC _ (hM θ)
    have hk := hedge.2 ht
    have hax : C.rotation.rotate j.axis = F.rotation.rotate j.axis := by
      rw [hC']
      simp only [Pose.transform]
      rw [Rot.rotate_mul, Rot.axisQ_fixes hk]
    rw [hax]
    have hq : Rot.HasDeriv (fun v => Rot.mul F.rotation (Rot.axisQ j.axis v))
        (Rot.spin (F.rotation.rotate j.axis) (Rot.mul F.rotation (Rot.axisQ j.axis θ))) θ := by
      rw [← Rot.mul_spin hFu]
      exact (Rot.axisQ_deriv hk θ).mul_left _
    have hqu : ∀ v, (Rot.mul F.rotation (Rot.axisQ j.axis v)).norm2 = 1 := fun v => by
      rw [Rot.norm2_mul, hFu, Rot.axisQ_unit hk, one_mul]
    refine ⟨fun v => Pose.transform (Pose.transform F ⟨Vec3.zero, Rot.axisQ j.axis v⟩) R,
      fun v => (key v _ (hM v)).2, hE'.symm, ?_, ?_, fun v => ((key v _ (hM v)).2).unit (hu.turned i v)⟩
    · have hsub : Vec3.sub E.position C.position = (Rot.mul F.rotation (Rot.axisQ j.axis θ)).rotate R.position := by
        rw [hE', hC']
        simp only [Pose.transform, Vec3.add, Vec3.sub]
        ext <;> simp
      rw [hsub]
      exact (hq.rotate hqu R.position).add_const (Vec3.add (F.rotation.rotate Vec3.zero) F.position)
    · rw [hE']
      have := hq.mul_right R.rotation
      rw [Rot.spin_mul] at this
      exact this

/-- a link below the joint moves with its axis -/
theorem Graph.moves_on (g : Graph m) (hu : UnitModel m) {i jp l : Nat} (hjp : m.joints[i]? = some jp)
    (hon : OnPath m jp l) {E : Pose ℝ} (hE : IsPose m l E) {θ : ℝ} (hθ : m.angles[i]? = some θ)
    {j : Joint ℝ} (hj : m.jheap[jp]? = some j) {c : Nat} (hc : j.childLink = some c) {C : Pose ℝ} (hC : IsPose m c C) :
    ∃ T, Moves m i l θ E
      (if j.type = .prismatic then C.rotation.rotate j.axis
        else Vec3.cross (C.rotation.rotate j.axis) (Vec3.sub E.position C.position))
      (if j.type = .prismatic then ⟨0, 0, 0⟩ else C.rotation.rotate j.axis) T :=
  moves_of_split hu (g.joint_split hjp hon) hE hθ hj hc hC

end Tinyfk
