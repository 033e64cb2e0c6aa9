import Verif.Props.Inertia
import Verif.Props.Deriv
import Verif.Props.ComJac
import Verif.Props.BaseJac
import Verif.Proofs.Axis
import Verif.Spec.Example

/-!
# C113: moving the base carries the centre of mass and turns the Jacobians

The counterpart of C24 (poses) and C33 (inertia) for `get_com`, `get_jacobian` and `get_com_jacobian`.
-/

namespace Tinyfk

open Scalar

section
variable {ls : List (RawLink ℝ)} {js : List (RawJoint ℝ)} {m0 m m1 m3 : KinModel ℝ} {cs : List (Call ℝ)}

theorem setBase_sets (p : Pose ℝ) : ∀ c ∈ [Call.setBasePose p], c.IsSet := by
  intro c hc; simp only [List.mem_singleton] at hc; subst hc; trivial

theorem setBaseAngle_sets (p : Pose ℝ) (i : Nat) (v : ℝ) : ∀ c ∈ [Call.setBasePose p, .setJointAngles [i] [v]], c.IsSet := by
  intro c hc
  simp only [List.mem_cons, List.not_mem_nil, or_false] at hc
  rcases hc with rfl | rfl <;> trivial

/-- the pose of a link after moving the base and then one joint -/
theorem Reach.pose_based (h : Reach ls js m0 cs m) (hf : Shallow ls js m0 cs) {p : Pose ℝ} {i : Nat} {v : ℝ} {m2 : KinModel ℝ}
    (e1 : setBasePose p m = .ok () m1) (e2 : setJointAngles [i] [v] m1 = .ok () m2) {n : String} {l : Nat}
    (hn : getLinkIds [n] m = .ok [l] m) {T : Pose ℝ} {m3 : KinModel ℝ} (e3 : getLinkPose l m2 = .ok T m3) {θ : String → ℝ}
    (hθ : AnglesAfter m0 (cs ++ [.setJointAngles [i] [v]]) θ) (T' : Pose ℝ) :
    WorldPose ls js (AllWelds ls m0 cs) θ p n T' ↔ T' = T := by
  have h2 : Reach ls js m0 (cs ++ [.setBasePose p, .setJointAngles [i] [v]]) m2 := by
    have := (h.snoc (c := .setBasePose p) e1).snoc (c := .setJointAngles [i] [v]) e2
    rwa [List.append_assoc] at this
  have hs := setBaseAngle_sets p i v
  have hn2 : getLinkIds [n] m2 = .ok [l] m2 := by
    obtain ⟨_, _, _, rfl⟩ := h2.sets_eq h hs
    rw [getLinkIds_one] at hn ⊢; exact hn
  have hang : AnglesAfter m0 (cs ++ [.setBasePose p, .setJointAngles [i] [v]]) θ := by
    intro s k hsk
    rw [hθ s k hsk, angleAfter_append, angleAfter_append]
    rfl
  obtain ⟨T2, m4, e4, hT⟩ := h2.pose_ok (hf.sets hs) hang hn2
  rw [e3] at e4
  cases e4
  rw [← hT, allWelds_sets hs, baseAfter_append]
  rfl

/-- moving the base moves the curve that a joint makes a link describe -/
theorem Reach.curve_move (h : Reach ls js m0 cs m) (hf : Shallow ls js m0 cs) {g b : Pose ℝ}
    (e1 : setBasePose b m = .ok () m1) (e3 : setBasePose (Pose.transform g b) m = .ok () m3) {n : String} {l i : Nat}
    (hn : getLinkIds [n] m = .ok [l] m) {T T' : ℝ → Pose ℝ} (hT : PoseCurve m1 l i T) (hT' : PoseCurve m3 l i T') (v : ℝ) :
    T' v = Pose.transform g (T v) := by
  obtain ⟨a1, a2, ea, eb⟩ := hT v
  obtain ⟨a3, a4, ec, ed⟩ := hT' v
  obtain ⟨θ, hθ⟩ := exists_angles m0 (cs ++ [.setJointAngles [i] [v]])
  have := ((h.pose_based hf e1 ea hn eb hθ _).mpr rfl).move g
  exact ((h.pose_based hf e3 ec hn ed hθ _).mp this).symm

/-- derivatives of moved curves -/
theorem Vec3.HasDeriv.moved {f : ℝ → Vec3 ℝ} {f' : Vec3 ℝ} {t : ℝ} (h : Vec3.HasDeriv f f' t) {q : Rot ℝ} (hq : q.norm2 = 1) (p : Vec3 ℝ) :
    Vec3.HasDeriv (fun v => Vec3.add (q.rotate (f v)) p) (q.rotate f') t := by
  obtain ⟨h1, h2, h3⟩ := h.rotate (F := q) (by rw [hq]; norm_num)
  exact ⟨h1.add_const _, h2.add_const _, h3.add_const _⟩

theorem Vec3.HasDeriv.unique {f : ℝ → Vec3 ℝ} {a b : Vec3 ℝ} {t : ℝ} (h : Vec3.HasDeriv f a t) (h' : Vec3.HasDeriv f b t) : a = b :=
  Vec3.ext (h.1.unique h'.1) (h.2.1.unique h'.2.1) (h.2.2.unique h'.2.2)

theorem Rot.HasDeriv.unique {f : ℝ → Rot ℝ} {a b : Rot ℝ} {t : ℝ} (h : Rot.HasDeriv f a t) (h' : Rot.HasDeriv f b t) : a = b :=
  Rot.ext (h.1.unique h'.1) (h.2.1.unique h'.2.1) (h.2.2.1.unique h'.2.2.1) (h.2.2.2.unique h'.2.2.2)

theorem unit_transform {g b : Pose ℝ} (hg : g.rotation.norm2 = 1) (hb : b.rotation.norm2 = 1) : (Pose.transform g b).rotation.norm2 = 1 := by
  show (Rot.mul g.rotation b.rotation).norm2 = 1
  rw [Rot.norm2_mul, hg, hb, mul_one]

theorem UnitCalls.setBase (hc : UnitCalls cs) {p : Pose ℝ} (hp : p.rotation.norm2 = 1) : UnitCalls (cs ++ [.setBasePose p]) :=
  hc.append (by intro c hc; simp only [List.mem_singleton] at hc; subst hc; exact hp)

theorem angle_base (i : Nat) {x : ℝ} {p p' : Pose ℝ} (e1 : setBasePose p m = .ok () m1) (e3 : setBasePose p' m = .ok () m3)
    (h : getJointAngles [i] m1 = .ok [x] m1) : getJointAngles [i] m3 = .ok [x] m3 := by
  cases e1
  cases e3
  have hget : m.angles[i]? = some x := by
    cases hi : m.angles[i]? with
    | none =>
      simp [getJointAngles, Prog.read, mapOutcome, Outcome.idx, hi] at h
    | some y =>
      simp [getJointAngles, Prog.read, mapOutcome, Outcome.idx, hi] at h
      rw [h]
  exact getJointAngles_one hget

/-- the centre of mass after moving the base and then one joint -/
theorem Reach.com_based (h : Reach ls js m0 cs m) (hf : Shallow ls js m0 cs) {p : Pose ℝ} {i : Nat} {v : ℝ} {m2 : KinModel ℝ}
    (e1 : setBasePose p m = .ok () m1) (e2 : setJointAngles [i] [v] m1 = .ok () m2) {C : Vec3 ℝ} {m3 : KinModel ℝ}
    (e3 : getCom m2 = .ok C m3) {θ : String → ℝ} (hθ : AnglesAfter m0 (cs ++ [.setJointAngles [i] [v]]) θ) :
    ∃ bs, C = comOf bs ∧ ∀ bs', Bodies ls js (AllWelds ls m0 cs) θ p bs' ↔ bs' = bs := by
  have h2 : Reach ls js m0 (cs ++ [.setBasePose p, .setJointAngles [i] [v]]) m2 := by
    have := (h.snoc (c := .setBasePose p) e1).snoc (c := .setJointAngles [i] [v]) e2
    rwa [List.append_assoc] at this
  have hs := setBaseAngle_sets p i v
  have hang : AnglesAfter m0 (cs ++ [.setBasePose p, .setJointAngles [i] [v]]) θ := by
    intro s k hsk
    rw [hθ s k hsk, angleAfter_append, angleAfter_append]
    rfl
  obtain ⟨bs, hbs, m4, e4⟩ := C30_com h2 (hf.sets hs) hang
  rw [e3] at e4
  cases e4
  refine ⟨bs, rfl, fun bs' => ?_⟩
  rw [← hbs bs', allWelds_sets hs, baseAfter_append]
  rfl

theorem comOf_move_vec (g : Pose ℝ) {bs : List (Inertial ℝ × Pose ℝ)} (hM : massOf bs ≠ 0) :
    comOf (bs.map fun x => (x.1, Pose.transform g x.2)) = Vec3.add (g.rotation.rotate (comOf bs)) g.position := by
  have := comOf_move g hM
  rw [← Rot.rotate_matrix] at this
  exact Vec3.ext (congrFun this 0) (congrFun this 1) (congrFun this 2)

/-- moving the base moves the curve that a joint makes the centre of mass describe -/
theorem Reach.comCurve_move (h : Reach ls js m0 cs m) (hf : Shallow ls js m0 cs) (hM : m.totalMass ≠ 0) {g b : Pose ℝ}
    (e1 : setBasePose b m = .ok () m1) (e3 : setBasePose (Pose.transform g b) m = .ok () m3) {i : Nat}
    {c c' : ℝ → Vec3 ℝ} (hT : ComCurve m1 i c) (hT' : ComCurve m3 i c') (v : ℝ) :
    c' v = Vec3.add (g.rotation.rotate (c v)) g.position := by
  obtain ⟨a1, a2, ea, eb⟩ := hT v
  obtain ⟨a3, a4, ec, ed⟩ := hT' v
  obtain ⟨θ, hθ⟩ := exists_angles m0 (cs ++ [.setJointAngles [i] [v]])
  obtain ⟨bs, hc, hbs⟩ := h.com_based hf e1 ea eb hθ
  obtain ⟨bs', hc', hbs'⟩ := h.com_based hf e3 ec ed hθ
  have hB := (hbs bs).mpr rfl
  obtain rfl := (hbs' _).mp (hB.move g)
  rw [hc, hc', comOf_move_vec g (by rw [hB.massOf, ← C35_total_mass_real h]; exact hM)]

/-- **C113, centre of mass.** Moving the base by a rigid motion `g` moves the point that `get_com` returns by `g`. -/
theorem C113_com (h : Reach ls js m0 cs m) (hf : Shallow ls js m0 cs) (hM : m.totalMass ≠ 0) (g b : Pose ℝ) :
    ∃ m1 C m2 m3 C' m4, setBasePose b m = .ok () m1 ∧ getCom m1 = .ok C m2 ∧
      setBasePose (Pose.transform g b) m = .ok () m3 ∧ getCom m3 = .ok C' m4 ∧
      C' = Vec3.add (g.rotation.rotate C) g.position := by
  obtain ⟨θ, hθ⟩ := exists_angles m0 cs
  have key : ∀ p : Pose ℝ, ∃ m1 bs m2, setBasePose p m = .ok () m1 ∧ getCom m1 = .ok (comOf bs) m2 ∧
      ∀ bs', Bodies ls js (AllWelds ls m0 cs) θ p bs' ↔ bs' = bs := by
    intro p
    obtain ⟨m1, e1⟩ : ∃ m1, Tinyfk.setBasePose p m = .ok () m1 := ⟨_, rfl⟩
    have h1 : Reach ls js m0 (cs ++ [.setBasePose p]) m1 := h.snoc e1
    have hang : AnglesAfter m0 (cs ++ [.setBasePose p]) θ := by
      intro s i hs
      rw [hθ s i hs, angleAfter_append]; rfl
    obtain ⟨bs, hbs, m2, e2⟩ := C30_com h1 (hf.sets (setBase_sets p)) hang
    refine ⟨m1, bs, m2, e1, e2, fun bs' => ?_⟩
    rw [← hbs bs', allWelds_sets (setBase_sets p), baseAfter_append]
    rfl
  obtain ⟨m1, bs, m2, e1, e2, hbs⟩ := key b
  obtain ⟨m3, bs', m4, e3, e4, hbs'⟩ := key (Pose.transform g b)
  have hB := (hbs bs).mpr rfl
  obtain rfl := (hbs' _).mp (hB.move g)
  exact ⟨m1, _, m2, m3, _, m4, e1, e2, e3, e4,
    comOf_move_vec g (bs := bs) (by rw [hB.massOf, ← C35_total_mass_real h]; exact hM)⟩

/-- `get_jacobian` and the curves that its joints make the link describe -/
theorem Reach.jacobian_curves (h : Reach ls js m0 cs m) (hf : Shallow ls js m0 cs) (hu : UnitDesc js) (hc : UnitCalls cs)
    (hne : (∃ r ∈ ls, r.inertial.isSome) ∨ weldsAfter (names0 m0) cs ≠ []) {l : Nat} (hl : l < m.links.length)
    {ids : List Nat} (hids : ∀ i ∈ ids, i < m.joints.length) (rt : RotType) (wb : Bool) :
    ∃ J m2, getJacobian l ids rt wb m = .ok J m2 ∧
      ∀ k i, ids[k]? = some i → ∃ θ T, getJointAngles [i] m = .ok [θ] m ∧ PoseCurve m l i T ∧
        Vec3.HasDeriv (fun v => (T v).position) ⟨J.f 0 k, J.f 1 k, J.f 2 k⟩ θ ∧
        (rt = .xyzw → Rot.HasDeriv (fun v => (T v).rotation) ⟨J.f 3 k, J.f 4 k, J.f 5 k, J.f 6 k⟩ θ) := by
  obtain ⟨J, m2, e2, hJ⟩ := C25_position h hf hu hc hne hl hids rt wb
  refine ⟨J, m2, e2, fun k i hi => ?_⟩
  obtain ⟨θ, T, a1, a2, a3⟩ := hJ k i hi
  refine ⟨θ, T, a1, a2, a3, ?_⟩
  rintro rfl
  obtain ⟨J2, m2', e2', hJ'⟩ := C26_quaternion h hf hu hc hne hl hids wb
  rw [e2] at e2'
  cases e2'
  obtain ⟨θ', T', b1, b2, b3⟩ := hJ' k i hi
  rw [a1] at b1
  cases b1
  have : T = T' := by
    funext v
    obtain ⟨x1, x2, x3, x4⟩ := a2 v
    obtain ⟨y1, y2, y3, y4⟩ := b2 v
    rw [x3] at y3
    cases y3
    rw [x4] at y4
    injection y4
  subst this
  exact b3

/-- **C113, Jacobian of a link.** Moving the base by a rigid motion `g` turns, in the column of every joint, the position rows by the
rotation of `g`; the quaternion rows, when asked for, are multiplied by it, as the quaternion of the link is. -/
theorem C113_jacobian (h : Reach ls js m0 cs m) (hf : Shallow ls js m0 cs) (hu : UnitDesc js) (hc : UnitCalls cs)
    (hne : (∃ r ∈ ls, r.inertial.isSome) ∨ weldsAfter (names0 m0) cs ≠ []) {g b : Pose ℝ} (hg : g.rotation.norm2 = 1)
    (hb : b.rotation.norm2 = 1) {n : String} {l : Nat} (hn : getLinkIds [n] m = .ok [l] m)
    {ids : List Nat} (hids : ∀ i ∈ ids, i < m.joints.length) (rt : RotType) (wb : Bool) :
    ∃ m1 J m2 m3 J' m4, setBasePose b m = .ok () m1 ∧ getJacobian l ids rt wb m1 = .ok J m2 ∧
      setBasePose (Pose.transform g b) m = .ok () m3 ∧ getJacobian l ids rt wb m3 = .ok J' m4 ∧
      ∀ k, k < ids.length →
        (⟨J'.f 0 k, J'.f 1 k, J'.f 2 k⟩ : Vec3 ℝ) = g.rotation.rotate ⟨J.f 0 k, J.f 1 k, J.f 2 k⟩ ∧
        (rt = .xyzw → (⟨J'.f 3 k, J'.f 4 k, J'.f 5 k, J'.f 6 k⟩ : Rot ℝ) = Rot.mul g.rotation ⟨J.f 3 k, J.f 4 k, J.f 5 k, J.f 6 k⟩) := by
  have key : ∀ p : Pose ℝ, p.rotation.norm2 = 1 → ∃ m1 J m2, setBasePose p m = .ok () m1 ∧ getJacobian l ids rt wb m1 = .ok J m2 ∧
      ∀ k i, ids[k]? = some i → ∃ θ T, getJointAngles [i] m1 = .ok [θ] m1 ∧ PoseCurve m1 l i T ∧
        Vec3.HasDeriv (fun v => (T v).position) ⟨J.f 0 k, J.f 1 k, J.f 2 k⟩ θ ∧
        (rt = .xyzw → Rot.HasDeriv (fun v => (T v).rotation) ⟨J.f 3 k, J.f 4 k, J.f 5 k, J.f 6 k⟩ θ) := by
    intro p hp
    obtain ⟨m1, e1⟩ : ∃ m1, Tinyfk.setBasePose p m = .ok () m1 := ⟨_, rfl⟩
    have h1 : Reach ls js m0 (cs ++ [.setBasePose p]) m1 := h.snoc e1
    have hs := setBase_sets p
    have hjl : m1.joints = m.joints ∧ m1.links = m.links := by
      obtain ⟨_, _, _, rfl⟩ := h1.sets_eq h hs
      exact ⟨rfl, rfl⟩
    have hl : l < m1.links.length := by
      rw [hjl.2]
      obtain ⟨lk, h2, _⟩ := h.link hn
      exact (List.getElem?_eq_some_iff.mp h2).1
    have hids1 : ∀ i ∈ ids, i < m1.joints.length := by rw [hjl.1]; exact hids
    have hne1 : (∃ r ∈ ls, r.inertial.isSome) ∨ weldsAfter (names0 m0) (cs ++ [.setBasePose p]) ≠ [] := by
      rw [welds_sets _ hs]; exact hne
    obtain ⟨J, m2, e2, hJ⟩ := h1.jacobian_curves (hf.sets hs) hu (hc.setBase hp) hne1 hl hids1 rt wb
    exact ⟨m1, J, m2, e1, e2, hJ⟩
  obtain ⟨m1, J, m2, e1, e2, hJ⟩ := key b hb
  obtain ⟨m3, J', m4, e3, e4, hJ'⟩ := key _ (unit_transform hg hb)
  refine ⟨m1, J, m2, m3, J', m4, e1, e2, e3, e4, fun k hk => ?_⟩
  obtain ⟨θ, T, a1, a2, a3, a4⟩ := hJ k _ (List.getElem?_eq_getElem hk)
  obtain ⟨θ', T', b1, b2, b3, b4⟩ := hJ' k _ (List.getElem?_eq_getElem hk)
  have := angle_base _ e1 e3 a1
  rw [b1] at this
  cases this
  obtain rfl : T' = fun v => Pose.transform g (T v) := funext fun v => h.curve_move hf e1 e3 hn a2 b2 v
  exact ⟨b3.unique (a3.moved hg g.position), fun e => (b4 e).unique ((a4 e).mul_left g.rotation)⟩

/-- **C113, Jacobian of the centre of mass.** Its joint columns are turned by the rotation of `g`. -/
theorem C113_com_jacobian (h : Reach ls js m0 cs m) (hf : Shallow ls js m0 cs) (hu : UnitDesc js) (hc : UnitCalls cs)
    (hM : m.totalMass ≠ 0) {g b : Pose ℝ} (hg : g.rotation.norm2 = 1) (hb : b.rotation.norm2 = 1)
    {ids : List Nat} (hids : ∀ i ∈ ids, i < m.joints.length) (wb : Bool) :
    ∃ m1 J m2 m3 J' m4, setBasePose b m = .ok () m1 ∧ getComJacobian ids wb m1 = .ok J m2 ∧
      setBasePose (Pose.transform g b) m = .ok () m3 ∧ getComJacobian ids wb m3 = .ok J' m4 ∧
      ∀ k, k < ids.length → (⟨J'.f 0 k, J'.f 1 k, J'.f 2 k⟩ : Vec3 ℝ) = g.rotation.rotate ⟨J.f 0 k, J.f 1 k, J.f 2 k⟩ := by
  have key : ∀ p : Pose ℝ, p.rotation.norm2 = 1 → ∃ m1 J m2, setBasePose p m = .ok () m1 ∧ getComJacobian ids wb m1 = .ok J m2 ∧
      ∀ k i, ids[k]? = some i → ∃ θ c, getJointAngles [i] m1 = .ok [θ] m1 ∧ ComCurve m1 i c ∧
        Vec3.HasDeriv c ⟨J.f 0 k, J.f 1 k, J.f 2 k⟩ θ := by
    intro p hp
    obtain ⟨m1, e1⟩ : ∃ m1, Tinyfk.setBasePose p m = .ok () m1 := ⟨_, rfl⟩
    have h1 : Reach ls js m0 (cs ++ [.setBasePose p]) m1 := h.snoc e1
    have hs := setBase_sets p
    have hjl : m1.joints = m.joints := by
      obtain ⟨_, _, _, rfl⟩ := h1.sets_eq h hs
      rfl
    obtain ⟨J, m2, e2, _, hJ⟩ := C31_com_jacobian h1 (hf.sets hs) hu (hc.setBase hp) (by rw [hjl]; exact hids) wb
    refine ⟨m1, J, m2, e1, e2, fun k i hi => ?_⟩
    obtain ⟨θ, c, a1, a2, a3, a4, a5⟩ := hJ k i hi
    exact ⟨θ, c, a1, a2, a3, a4, a5⟩
  obtain ⟨m1, J, m2, e1, e2, hJ⟩ := key b hb
  obtain ⟨m3, J', m4, e3, e4, hJ'⟩ := key _ (unit_transform hg hb)
  refine ⟨m1, J, m2, m3, J', m4, e1, e2, e3, e4, fun k hk => ?_⟩
  obtain ⟨θ, c, a1, a2, a3⟩ := hJ k _ (List.getElem?_eq_getElem hk)
  obtain ⟨θ', c', b1, b2, b3⟩ := hJ' k _ (List.getElem?_eq_getElem hk)
  have := angle_base _ e1 e3 a1
  rw [b1] at this
  cases this
  obtain rfl : c' = fun v => Vec3.add (g.rotation.rotate (c v)) g.position := funext fun v => h.comCurve_move hf hM e1 e3 a2 b2 v
  exact b3.unique (a3.moved hg g.position)

end

/-! ### The hypotheses are met by the example robot -/

namespace Example

example := C113_com m1_reach shallow mass_m1 ⟨⟨1, 2, 3⟩, Rot.fromRPY 1 2 3⟩ ⟨⟨4, 5, 6⟩, Rot.fromRPY 3 2 1⟩
example := C113_jacobian m1_reach shallow unitDesc unitCalls_hist hasInertial (g := ⟨⟨1, 2, 3⟩, Rot.fromRPY 1 2 3⟩)
  (b := ⟨⟨4, 5, 6⟩, Rot.fromRPY 3 2 1⟩) (Rot.norm2_fromRPY _ _ _) (Rot.norm2_fromRPY _ _ _) tool_id two_joints .xyzw true
example := C113_com_jacobian m1_reach shallow unitDesc unitCalls_hist mass_m1 (g := ⟨⟨1, 2, 3⟩, Rot.fromRPY 1 2 3⟩)
  (b := ⟨⟨4, 5, 6⟩, Rot.fromRPY 3 2 1⟩) (Rot.norm2_fromRPY _ _ _) (Rot.norm2_fromRPY _ _ _) two_joints true

end Example

end Tinyfk
