import Verif.Proofs.RpyDeriv

/-!
# C25, C26, C27, C28: the Jacobian is the derivative of the pose
-/

namespace Tinyfk

open Scalar

variable {ls : List (RawLink ℝ)} {js : List (RawJoint ℝ)} {m0 m m' : KinModel ℝ} {cs : List (Call ℝ)}

section

theorem Reach.unitModel (h : Reach ls js m0 cs m) (hu : UnitDesc js) (hc : UnitCalls cs) : UnitModel m where
  base := by rw [h.abs.base]; exact hc.base (b := Pose.identity) Rot.norm2_one
  edges := by
    intro l p jp lk j h1 h2 h3 h4
    rcases h.abs.desc.links l lk h1 with ⟨hp, _⟩ | ⟨p', pk, jp', j', e1, e2, e3, e4, hcase⟩
    · rw [h2] at hp; cases hp
    · rw [h3] at e3; cases e3
      rw [h4] at e4; cases e4
      rcases hcase with ⟨r, hr, ⟨_, _, rfl⟩, _⟩ | ⟨hj, hw⟩
      · exact hu r hr
      · have hor := hc.allWelds (m0 := m0) (ls := ls) (w := ⟨lk.name, pk.name, j.origin⟩) hw
        refine ⟨hor, ?_⟩
        rw [hj]
        simp [newFixedJoint]

/-- a pose curve at the level of the model is one at the level of calls -/
theorem Reach.poseCurve (h : Reach ls js m0 cs m) (hf : Shallow ls js m0 cs) {i l : Nat} (hi : i < m.joints.length)
    {T : ℝ → Pose ℝ} (hT : ∀ v, IsPose (turned m i v) l (T v)) : PoseCurve m l i T := by
  intro v
  have hil : i < m.angles.length := by rw [h.abs.inv.graph.anglesLen]; exact hi
  have hready := (h.abs.inv.turned i v).ready (FitsStack.congr (m := m) rfl rfl (h.fits hf))
  obtain ⟨m2, e, _⟩ := getLinkPose_spec hready (hT v)
  exact ⟨_, m2, turned_set hil v, e⟩

theorem rpyDerivative_zero (q : Vec3 ℝ) : rpyDerivative q ⟨0, 0, 0⟩ = ⟨0, 0, 0⟩ := by simp [rpyDerivative]

/-- what column `k` of the Jacobian contains -/
structure ColumnIs (rt : RotType) (J : Mat ℝ) (k : Nat) (E : Pose ℝ) (d a : Vec3 ℝ) : Prop where
  x : J.f 0 k = d.x
  y : J.f 1 k = d.y
  z : J.f 2 k = d.z
  quat : rt = .xyzw → J.f 3 k = (Rot.spin a E.rotation).x ∧ J.f 4 k = (Rot.spin a E.rotation).y ∧
    J.f 5 k = (Rot.spin a E.rotation).z ∧ J.f 6 k = (Rot.spin a E.rotation).w
  rpy : rt = .rpy → J.f 3 k = (rpyDerivative E.rotation.getRPY a).x ∧ J.f 4 k = (rpyDerivative E.rotation.getRPY a).y ∧
    J.f 5 k = (rpyDerivative E.rotation.getRPY a).z

theorem columnIs_of {rt : RotType} {cols : List (Nat → ℝ)} {E : Pose ℝ} {B : Option (Pose ℝ)} {k : Nat} {col : Nat → ℝ}
    (hk : cols[k]? = some col) (hEu : E.rotation.norm2 = 1) :
    (col = (fun _ => 0) → ColumnIs rt (jacMat rt cols E B) k E ⟨0, 0, 0⟩ ⟨0, 0, 0⟩) ∧
    ∀ C j, col = jointCol rt E C j → ColumnIs rt (jacMat rt cols E B) k E
      (if j.type = .prismatic then C.rotation.rotate j.axis
        else Vec3.cross (C.rotation.rotate j.axis) (Vec3.sub E.position C.position))
      (if j.type = .prismatic then ⟨0, 0, 0⟩ else C.rotation.rotate j.axis) := by
  have hlt := (List.getElem?_eq_some_iff.mp hk).1
  have hv : ∀ r, r < rt.dim → (jacMat rt cols E B).f r k = col r := by
    intro r hr
    simp only [jacMat, hr, hlt, if_true, List.getD_eq_getElem?_getD, hk, Option.getD_some]
  have h3 := rt.dim_ge
  constructor
  · rintro rfl
    refine ⟨hv 0 (by omega), hv 1 (by omega), hv 2 (by omega), ?_, ?_⟩
    · rintro rfl
      rw [Rot.spin_zero]
      exact ⟨hv 3 (by decide), hv 4 (by decide), hv 5 (by decide), hv 6 (by decide)⟩
    · rintro rfl
      rw [rpyDerivative_zero]
      exact ⟨hv 3 (by decide), hv 4 (by decide), hv 5 (by decide)⟩
  · rintro C j rfl
    refine ⟨by rw [hv 0 (by omega)]; rfl, by rw [hv 1 (by omega)]; rfl, by rw [hv 2 (by omega)]; rfl, ?_, ?_⟩
    · rintro rfl
      rw [hv 3 (by decide), hv 4 (by decide), hv 5 (by decide), hv 6 (by decide)]
      by_cases hp : j.type = .prismatic
      · simp [jointCol, hp, Rot.spin_zero]
      · simp [jointCol, hp, Rot.qDerivative_inverse hEu]
    · rintro rfl
      rw [hv 3 (by decide), hv 4 (by decide), hv 5 (by decide)]
      by_cases hp : j.type = .prismatic
      · simp [jointCol, hp, rpyDerivative_zero]
      · simp [jointCol, hp]

/-- a joint column is the velocity of the link -/
theorem Reach.moves (h : Reach ls js m0 cs m) (hu : UnitDesc js) (hc : UnitCalls cs)
    (hrp : RpOK m) {l i : Nat} (hl : l < m.links.length) (hi : i < m.joints.length) {E : Pose ℝ} (hE : IsPose m l E)
    {rt : RotType} {cols : List (Nat → ℝ)} {B : Option (Pose ℝ)} {k : Nat} {col : Nat → ℝ} (hk : cols[k]? = some col)
    (hcol : IsJointCol m rt l E i col) {θ : ℝ} (hθ : m.angles[i]? = some θ) :
    ∃ d a T, Moves m i l θ E d a T ∧ ColumnIs rt (jacMat rt cols E B) k E d a := by
  have hum := h.unitModel hu hc
  have hg := h.abs.inv.graph
  have hEu := hE.unit hum
  obtain ⟨b, hb, hiff⟩ := hrp.sized.isRelevant hl hi
  rw [hrp.iff] at hiff
  rcases hcol with ⟨h1, h2⟩ | ⟨jp, j, c, C, h1, h2, h3, h4, _, h6, h7⟩
  · rw [hb] at h1; cases h1
    have hjp : m.joints[i]? = some m.joints[i] := by simp [hi]
    have hoff : ¬ OnPath m m.joints[i] l := fun ho => by
      have := hiff.mpr ⟨_, hjp, ho⟩
      cases this
    exact ⟨_, _, _, hg.moves_off hum hjp hoff hE θ, (columnIs_of hk hEu).1 h2⟩
  · rw [hb] at h1; cases h1
    obtain ⟨jp', e1, hon⟩ := hiff.mp rfl
    rw [h2] at e1; cases e1
    obtain ⟨T, hT⟩ := hg.moves_on hum h2 hon hE hθ h3 h4 h6
    exact ⟨_, _, T, hT, (columnIs_of hk hEu).2 C j h7⟩

theorem getJointAngles_one {i : Nat} {θ : ℝ} (h : m.angles[i]? = some θ) : getJointAngles [i] m = .ok [θ] m := by
  simp [getJointAngles, Prog.read, mapOutcome, Outcome.idx, h]

/-- the common part of C25-C27 -/
theorem Reach.jacobian_moves (h : Reach ls js m0 cs m) (hf : Shallow ls js m0 cs) (hu : UnitDesc js) (hc : UnitCalls cs)
    (hne : (∃ r ∈ ls, r.inertial.isSome) ∨ weldsAfter (names0 m0) cs ≠ []) {l : Nat} (hl : l < m.links.length)
    {ids : List Nat} (hids : ∀ i ∈ ids, i < m.joints.length) (rt : RotType) (wb : Bool) :
    ∃ E J m', IsPose m l E ∧ getJacobian l ids rt wb m = .ok J m' ∧ ∀ k i, ids[k]? = some i →
      ∃ θ d a T, m.angles[i]? = some θ ∧ Moves m i l θ E d a T ∧ ColumnIs rt J k E d a := by
  obtain ⟨E, cols, hE, hcols, m', e, _⟩ := h.jacobian hf hne hl hids rt wb
  refine ⟨E, _, m', hE, e, ?_⟩
  intro k i hk
  have hi := hids i (List.mem_of_getElem? hk)
  have hil : i < m.angles.length := by rw [h.abs.inv.graph.anglesLen]; exact hi
  have hlen := hcols.length_eq
  have hkl : k < cols.length := by rw [← hlen]; exact (List.getElem?_eq_some_iff.mp hk).1
  have hkc : cols[k]? = some cols[k] := by simp [hkl]
  obtain ⟨d, a, T, h1, h2⟩ := h.moves hu hc (h.rpOK hne) hl hi hE (rt := rt) (B := if wb then some m.base else none) hkc (by
      obtain ⟨hk1, hk2⟩ := List.getElem?_eq_some_iff.mp hk
      rw [← hk2]
      exact (List.forall₂_iff_get.mp hcols).2 k hk1 hkl) (show m.angles[i]? = some m.angles[i] by simp [hil])
  exact ⟨_, d, a, T, by simp [hil], h1, h2⟩

end

/-- **C25.** After any history, the first three rows of the column of a listed joint in the Jacobian of a
link are the derivatives of the link's position with respect to the angle of that joint: `T v` is what
`get_link_pose` returns after `set_joint_angles([i], [v])`, and the derivative is taken at the current
angle. Rotations and turning axes of the description are unit. -/
theorem C25_position (h : Reach ls js m0 cs m) (hf : Shallow ls js m0 cs) (hu : UnitDesc js) (hc : UnitCalls cs)
    (hne : (∃ r ∈ ls, r.inertial.isSome) ∨ weldsAfter (names0 m0) cs ≠ []) {l : Nat} (hl : l < m.links.length)
    {ids : List Nat} (hids : ∀ i ∈ ids, i < m.joints.length) (rt : RotType) (wb : Bool) :
    ∃ J m', getJacobian l ids rt wb m = .ok J m' ∧ ∀ k i, ids[k]? = some i →
      ∃ θ T, getJointAngles [i] m = .ok [θ] m ∧ PoseCurve m l i T ∧
        HasDerivAt (fun v => (T v).position.x) (J.f 0 k) θ ∧
        HasDerivAt (fun v => (T v).position.y) (J.f 1 k) θ ∧
        HasDerivAt (fun v => (T v).position.z) (J.f 2 k) θ := by
  obtain ⟨E, J, m', hE, e, hcol⟩ := h.jacobian_moves hf hu hc hne hl hids rt wb
  refine ⟨J, m', e, ?_⟩
  intro k i hk
  obtain ⟨θ, d, a, T, hθ, hT, hJ⟩ := hcol k i hk
  refine ⟨θ, T, getJointAngles_one hθ, h.poseCurve hf (hids i (List.mem_of_getElem? hk)) hT.pose, ?_⟩
  rw [hJ.x, hJ.y, hJ.z]
  exact hT.pos

/-- **C26.** With `XYZW`, rows 3 to 6 of the column of a listed joint are the derivatives of the four
components of the quaternion of the link with respect to the angle of that joint. -/
theorem C26_quaternion (h : Reach ls js m0 cs m) (hf : Shallow ls js m0 cs) (hu : UnitDesc js) (hc : UnitCalls cs)
    (hne : (∃ r ∈ ls, r.inertial.isSome) ∨ weldsAfter (names0 m0) cs ≠ []) {l : Nat} (hl : l < m.links.length)
    {ids : List Nat} (hids : ∀ i ∈ ids, i < m.joints.length) (wb : Bool) :
    ∃ J m', getJacobian l ids .xyzw wb m = .ok J m' ∧ ∀ k i, ids[k]? = some i →
      ∃ θ T, getJointAngles [i] m = .ok [θ] m ∧ PoseCurve m l i T ∧
        HasDerivAt (fun v => (T v).rotation.x) (J.f 3 k) θ ∧
        HasDerivAt (fun v => (T v).rotation.y) (J.f 4 k) θ ∧
        HasDerivAt (fun v => (T v).rotation.z) (J.f 5 k) θ ∧
        HasDerivAt (fun v => (T v).rotation.w) (J.f 6 k) θ := by
  obtain ⟨E, J, m', hE, e, hcol⟩ := h.jacobian_moves hf hu hc hne hl hids .xyzw wb
  refine ⟨J, m', e, ?_⟩
  intro k i hk
  obtain ⟨θ, d, a, T, hθ, hT, hJ⟩ := hcol k i hk
  refine ⟨θ, T, getJointAngles_one hθ, h.poseCurve hf (hids i (List.mem_of_getElem? hk)) hT.pose, ?_⟩
  obtain ⟨e1, e2, e3, e4⟩ := hJ.quat rfl
  rw [e1, e2, e3, e4]
  exact hT.rot

/-- **C27.** With `RPY`, rows 3 to 5 of the column of a listed joint are the derivatives of roll, pitch and
yaw of the link, wherever these angles are differentiable functions of the rotation: away from the
pitch singularity (the code's band `|sin pitch| < 0.99999`) and from the jumps of `atan2` at `π`. -/
theorem C27_rpy (h : Reach ls js m0 cs m) (hf : Shallow ls js m0 cs) (hu : UnitDesc js) (hc : UnitCalls cs)
    (hne : (∃ r ∈ ls, r.inertial.isSome) ∨ weldsAfter (names0 m0) cs ≠ []) {l : Nat} (hl : l < m.links.length)
    {ids : List Nat} (hids : ∀ i ∈ ids, i < m.joints.length) (wb : Bool) :
    ∃ E m2 J m', getLinkPose l m = .ok E m2 ∧ getJacobian l ids .rpy wb m = .ok J m' ∧
      (|E.rotation.sarg| < 99999 / 100000 → E.rotation.getRPY.x ≠ Real.pi → E.rotation.getRPY.z ≠ Real.pi →
      ∀ k i, ids[k]? = some i →
      ∃ θ T, getJointAngles [i] m = .ok [θ] m ∧ PoseCurve m l i T ∧
        HasDerivAt (fun v => (T v).rotation.getRPY.x) (J.f 3 k) θ ∧
        HasDerivAt (fun v => (T v).rotation.getRPY.y) (J.f 4 k) θ ∧
        HasDerivAt (fun v => (T v).rotation.getRPY.z) (J.f 5 k) θ) := by
  obtain ⟨E, J, m', hE, e, hcol⟩ := h.jacobian_moves hf hu hc hne hl hids .rpy wb
  obtain ⟨m2, e2, _⟩ := getLinkPose_spec (h.ready hf) hE
  refine ⟨E, m2, J, m', e2, e, ?_⟩
  intro hb hc1 hc2 k i hk
  obtain ⟨θ, d, a, T, hθ, hT, hJ⟩ := hcol k i hk
  refine ⟨θ, T, getJointAngles_one hθ, h.poseCurve hf (hids i (List.mem_of_getElem? hk)) hT.pose, ?_⟩
  obtain ⟨e1, e2, e3⟩ := hJ.rpy rfl
  rw [e1, e2, e3]
  have hrot := hT.rot
  rw [← hT.here] at hrot hb hc1 hc2 ⊢
  exact Rot.getRPY_deriv (f := fun v => (T v).rotation) hT.unit hrot hb ⟨hc1, hc2⟩

end Tinyfk
