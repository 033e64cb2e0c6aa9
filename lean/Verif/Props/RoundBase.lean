import Verif.Proofs.RoundBase
import Verif.Props.RoundJac

/-!
# Properties: rounding errors of the columns of the base

C118.
-/

set_option linter.unusedSectionVars false

namespace Tinyfk

theorem PathLength.base_le {ls : List (RawLink ℝ)} {js : List (RawJoint ℝ)} {welds : Weld ℝ → Prop} {θ : String → ℝ} {base : Pose ℝ}
    {n : String} {d : Nat} {L : ℝ} (h : PathLength ls js welds θ base n d L) : base.position.len ≤ L := by
  induction h with
  | root => exact le_rfl
  | @joint j d L hj _ ih =>
    have h1 : 0 ≤ j.origin.position.len := Real.sqrt_nonneg _
    have h2 : 0 ≤ j.axis.len * |θ j.name| := mul_nonneg (Real.sqrt_nonneg _) (abs_nonneg _)
    unfold RawJoint.reach
    split <;> linarith
  | @weld w d L hw _ ih =>
    have h1 : 0 ≤ w.offset.position.len := Real.sqrt_nonneg _
    linarith

theorem Pose.inverse_position (B T : Pose ℝ) :
    (Pose.transform B.inverse T).position = B.rotation.inverse.rotate (Vec3.sub T.position B.position) := by
  have e : Vec3.sub T.position B.position = Vec3.add T.position B.position.inverseInplace := by
    simp only [Vec3.sub, Vec3.add, Vec3.inverseInplace, Vec3.mk.injEq]
    refine ⟨?_, ?_, ?_⟩ <;> ring
  rw [e, Rot.rotate_add]
  rfl

theorem rotate_sub_vec (q : Rot ℝ) (v w : Vec3 ℝ) : q.rotate (Vec3.sub v w) = Vec3.sub (q.rotate v) (q.rotate w) := by
  have h := Rot.rotate_add (q := q) (v := Vec3.sub v w) (w := w)
  have e : Vec3.add (Vec3.sub v w) w = v := by
    cases v; simp [Vec3.add, Vec3.sub]
  rw [e] at h
  rw [h]
  simp [Vec3.add, Vec3.sub]

theorem deriv_ang (a v : Vec3 ℝ) {k : Nat} (hk : k < 3) (t : ℝ) : ∃ X, Vec3.HasDeriv (fun s => (rpyV (setAng k s a)).rotate v) X t := by
  have key : ∀ q, q < 3 → ∃ D, HasDerivAt (fun s => ((rpyV (setAng k s a)).rotate v).cmp q) D t := by
    intro q hq
    obtain ⟨D, h, _⟩ := (harm_ang a v hk hq).fwd (by norm_num) (norm_nonneg _) t (h := 1) (by norm_num)
    exact ⟨D, h⟩
  obtain ⟨D0, h0⟩ := key 0 (by norm_num)
  obtain ⟨D1, h1⟩ := key 1 (by norm_num)
  obtain ⟨D2, h2⟩ := key 2 (by norm_num)
  exact ⟨⟨D0, D1, D2⟩, h0, h1, h2⟩

section
variable {F : Rounding} {ls' : List (RawLink (Fl F))} {js' : List (RawJoint (Fl F))} {ls : List (RawLink ℝ)} {js : List (RawJoint ℝ)}
  {welds : Weld ℝ → Prop} {ε μ A R c : ℝ} {D : Nat} {m0 m : KinModel (Fl F)} {cs : List (Call (Fl F))}

/-- one column of a base angle, as the code computes it -/
theorem base_column_near {welds' : Weld (Fl F) → Prop} {θ : String → ℝ} {base' E : Pose (Fl F)} {base : Pose ℝ} {n : String}
    (hR : RobotNear ε μ ls' js' welds' ls js welds) (hP : Proper js welds) (hue : F.u ≤ ε) (hA : 1 ≤ A) (hsm : Small F ε μ A D R)
    (hi : InverseTrig F) (hst : StepSmall F ε D R)
    (hθ : ∀ j ∈ js, |θ j.name| ≤ A) (hb : PoseNear ε (ε * (base.position.len + μ)) base' base) {a : Vec3 ℝ} (ha : base.rotation = rpyV a)
    (hc : c ≤ Real.cos a.y) (hc0 : 1 / 50 ≤ c)
    (hD : ∀ d L, PathLength ls js welds θ base n d L → d ≤ D ∧ L ≤ R)
    (hE : WorldPose (K := Fl F) ls' js' welds' θ base' n E) (rt : RotType) {k : Nat} (hk : k < 3) :
    ∃ (d : Nat) (L : ℝ) (T : ℝ → Pose ℝ) (X : Vec3 ℝ), PathLength ls js welds θ base n d L ∧
      (∀ v, WorldPose ls js welds θ ⟨base.position, rpyV (setAng k v a)⟩ n (T v)) ∧
      Vec3.HasDeriv (fun v => (T v).position) X (a.cmp k) ∧
      Vec3.dist ⟨baseRotCol (K := Fl F) rt E base' k 0, baseRotCol (K := Fl F) rt E base' k 1, baseRotCol (K := Fl F) rt E base' k 2⟩ X ≤ angBound ε μ A c d L := by
  have hu1 : base.rotation.norm2 = 1 := by rw [ha]; exact Rot.norm2_fromRPY _ _ _
  obtain ⟨d, L, T, t1, t2, t3, t4, t5, t6⟩ := world_near hR hP hue hA hθ hb (by rw [Rot.len_one hu1]; norm_num) (by rw [Rot.len_one hu1]; norm_num) hsm hE hD
  have hT : NearAt ε μ A ls js welds θ base n E d L T := ⟨t1, t2, t3, t4, t5, t6⟩
  obtain ⟨hdD, hLR⟩ := hD d L hT.path
  have he : 0 ≤ ε := F.u_nonneg.trans hue
  have hμ0 : 0 ≤ μ := le_trans (mul_nonneg F.tiny_nonneg (by positivity)) hsm.tiny
  have hL0 : 0 ≤ L := (Real.sqrt_nonneg _).trans hT.len
  have hbl := hT.path.base_le
  have hdR : (d : ℝ) ≤ D := by exact_mod_cast hdD
  have hacc := hsm.acc
  have hμ1 := hsm.unit
  have hbl0 : 0 ≤ base.position.len := Real.sqrt_nonneg _
  -- sizes
  have hκ : 500 * ((d : ℝ) + 1) * ε * A ≤ 1 := by
    refine le_trans ?_ hacc
    have : 0 ≤ ε * A := by positivity
    have := mul_le_mul_of_nonneg_right (show (d : ℝ) + 1 ≤ D + 1 by linarith) this
    linarith
  have hεκ : ε ≤ 500 * ((d : ℝ) + 1) * ε * A := by
    have h1 : (1 : ℝ) ≤ 500 * ((d : ℝ) + 1) := by have : (0 : ℝ) ≤ d := Nat.cast_nonneg d; linarith
    have h2 : ε ≤ ε * A := le_mul_of_one_le_right he hA
    have h3 : ε * A ≤ 500 * ((d : ℝ) + 1) * (ε * A) := le_mul_of_one_le_left (by positivity) h1
    linarith
  have hdμ : 0 ≤ ((d : ℝ) + 1) * μ := by positivity
  have hpb : posBound ε μ A d L ≤ L + (d + 1) * μ := by
    unfold posBound
    exact mul_le_of_le_one_left (by linarith) hκ
  have hpb0 : 0 ≤ posBound ε μ A d L := by unfold posBound; positivity
  have hbp : ε * (base.position.len + μ) ≤ posBound ε μ A d L := by
    unfold posBound
    have h1 : base.position.len + μ ≤ L + (d + 1) * μ := by
      have : μ ≤ ((d : ℝ) + 1) * μ := le_mul_of_one_le_left hμ0 (by have : (0 : ℝ) ≤ d := Nat.cast_nonneg d; linarith)
      linarith
    exact mul_le_mul hεκ h1 (by linarith) (by positivity)
  have hpos : Vec3.dist E.real.position T.position ≤ posBound ε μ A d L := by
    have := (hT.bounds hue hA hsm le_rfl hdD le_rfl).2
    rw [Vec3.dist_quat]
    refine this.trans (le_of_eq ?_)
    unfold posBound
    ring
  have hbpos := hb.pos
  have hbrot := hb.rot
  rw [Rot.len_one hu1, mul_one, Rot.dist_quat, ha] at hbrot
  rw [Vec3.dist_quat] at hpos hbpos
  have hTl := hT.len
  rw [Vec3.len_quat] at hTl hbl hbl0 hbp hbpos
  have hE1 : ‖E.real.position.quat‖ ≤ L + posBound ε μ A d L + μ := by
    have := norm_le_near hpos
    linarith
  have hB1 : ‖base'.real.position.quat‖ ≤ L + posBound ε μ A d L + μ := by
    have := norm_le_near hbpos
    linarith
  have htμ : F.tiny ≤ μ := by
    refine le_trans ?_ hsm.tiny
    exact le_mul_of_one_le_right F.tiny_nonneg (one_le_pow₀ (by norm_num))
  have hdμ1 : ((d : ℝ) + 1) * μ ≤ D + 1 := by
    have := mul_le_mul (show (d : ℝ) + 1 ≤ D + 1 by linarith) hμ1 hμ0 (by have : (0 : ℝ) ≤ D := Nat.cast_nonneg D; linarith)
    linarith
  have hrange := hst.range
  obtain ⟨X', hX', hcol⟩ := F.ang_col hi base'.real E.real a hbrot hc hc0 hst.low hst.acc hst.tiny (M := L + posBound ε μ A d L + μ)
    (by linarith) hE1 hB1 (by
      refine le_trans ?_ hrange
      exact mul_le_mul_of_nonneg_left (by linarith) (by norm_num)) rt hk (col := baseRotCol (K := Fl F) rt E base' k) (fun r => rfl)
  -- the exact robot
  have hn0 : base.rotation.norm2 ≠ 0 := by rw [hu1]; norm_num
  have hworld : ∀ v, WorldPose ls js welds θ ⟨base.position, rpyV (setAng k v a)⟩ n
      (Pose.transform ⟨base.position, rpyV (setAng k v a)⟩ (Pose.transform base.inverse T)) := by
    intro v
    have h1 := hT.world.move (Pose.transform ⟨base.position, rpyV (setAng k v a)⟩ base.inverse)
    rw [Pose.transform_assoc, Pose.transform_assoc, Pose.inverse_transform hn0, Pose.transform_identity] at h1
    exact h1
  obtain ⟨X, hX⟩ := deriv_ang a (base.rotation.inverse.rotate (Vec3.sub T.position base.position)) hk (a.cmp k)
  refine ⟨d, L, _, X, hT.path, hworld, ?_, ?_⟩
  · simp only [Pose.transform, ← Pose.inverse_position] at hX ⊢
    exact ⟨hX.1.add_const _, hX.2.1.add_const _, hX.2.2.add_const _⟩
  · have hq : ‖(rpyV a).inverse.quat‖ = 1 := by rw [Rot.quat_inverse, norm_inv, rpyV_len, inv_one]
    have hsub : Vec3.HasDeriv (fun s => (rpyV (setAng k s a)).rotate (Vec3.sub
        ((rpyV a).inverse.rotate (Vec3.sub E.real.position base'.real.position))
        (base.rotation.inverse.rotate (Vec3.sub T.position base.position)))) (Vec3.sub X' X) (a.cmp k) := by
      have e2 : ∀ (v w : Vec3 ℝ), (fun s => (rpyV (setAng k s a)).rotate (Vec3.sub v w)) =
          fun s => Vec3.sub ((rpyV (setAng k s a)).rotate v) ((rpyV (setAng k s a)).rotate w) := fun v w => funext fun s => rotate_sub_vec _ _ _
      rw [e2]
      refine ⟨?_, ?_, ?_⟩
      · exact hX'.1.sub hX.1
      · exact hX'.2.1.sub hX.2.1
      · exact hX'.2.2.sub hX.2.2
    have h1 := speed_ang a _ _ hk hsub
    rw [ha, Vec3.quat_sub, Vec3.quat_sub, Rot.rotate_diff hq, Vec3.quat_sub, Vec3.quat_sub] at h1
    have h2 : ‖(E.real.position.quat - base'.real.position.quat) - (T.position.quat - base.position.quat)‖ ≤ 2 * posBound ε μ A d L := by
      rw [show (E.real.position.quat - base'.real.position.quat) - (T.position.quat - base.position.quat) =
        (E.real.position.quat - T.position.quat) - (base'.real.position.quat - base.position.quat) by abel]
      have := norm_sub_le (E.real.position.quat - T.position.quat) (base'.real.position.quat - base.position.quat)
      linarith
    rw [Vec3.dist_quat] at hcol ⊢
    have h3 := norm_sub_le_norm_sub_add_norm_sub
      (⟨baseRotCol (K := Fl F) rt E base' k 0, baseRotCol (K := Fl F) rt E base' k 1, baseRotCol (K := Fl F) rt E base' k 2⟩ : Vec3 ℝ).quat X'.quat X.quat
    unfold angBound
    linarith

/-- **C118.** `get_jacobian` with base in rounded arithmetic, on a robot with any past: the position rows of the columns of roll (`k = 0`),
pitch (1) and yaw (2) of the base are the derivative of the position of the link in the exact robot with respect to that angle, up to
`angBound`. The base of the exact robot has roll, pitch and yaw `a`, and the cosine of the pitch is at least `c`, which is at
least 1/50. -/
theorem C118_jacobian (h : Reach ls' js' m0 cs m) (hf : Shallow ls' js' m0 cs)
    (hne : (∃ r ∈ ls', r.inertial.isSome) ∨ weldsAfter (names0 m0) cs ≠ [])
    (hR : RobotNear ε μ ls' js' (AllWelds ls' m0 cs) ls js welds) (hP : Proper js welds)
    (hue : F.u ≤ ε) (hA : 1 ≤ A) (hsm : Small F ε μ A D R) (hi : InverseTrig F) (hst : StepSmall F ε D R)
    {n : String} {l : Nat} (hn : getLinkIds [n] m = .ok [l] m) {ids : List Nat}
    (hids : ∀ i ∈ ids, i < m.joints.length) (rt : RotType) {θ : String → ℝ} (hθ : AnglesAfter (K := Fl F) m0 cs θ)
    {base : Pose ℝ} (hb : PoseNear ε (ε * (base.position.len + μ)) (baseAfter Pose.identity cs) base)
    {a : Vec3 ℝ} (ha : base.rotation = Rot.fromRPY a.x a.y a.z) (hc : c ≤ Real.cos a.y) (hc0 : 1 / 50 ≤ c)
    (hθA : ∀ j ∈ js, |θ j.name| ≤ A) (hD : ∀ d L, PathLength ls js welds θ base n d L → d ≤ D ∧ L ≤ R) :
    ∃ J m', getJacobian l ids rt true m = .ok J m' ∧
      ∀ k, k < 3 → ∃ (d : Nat) (L : ℝ) (T : ℝ → Pose ℝ) (X : Vec3 ℝ), PathLength ls js welds θ base n d L ∧
        (∀ v, WorldPose ls js welds θ ⟨base.position, rpyV (setAng k v a)⟩ n (T v)) ∧
        Vec3.HasDeriv (fun v => (T v).position) X (a.cmp k) ∧
        Vec3.dist ⟨J.f 0 (ids.length + 3 + k), J.f 1 (ids.length + 3 + k), J.f 2 (ids.length + 3 + k)⟩ X ≤ angBound ε μ A c d L := by
  obtain ⟨lk, hlk, _⟩ := h.link hn
  have hl := (List.getElem?_eq_some_iff.mp hlk).1
  obtain ⟨E, cols, hE, hcols, m', e, _⟩ := h.jacobian hf hne hl hids rt true
  refine ⟨_, m', e, fun k hk => ?_⟩
  have hlen := hcols.length_eq
  obtain ⟨d, L, T, X, p1, p2, p3, p4⟩ := base_column_near hR hP hue hA hsm hi hst hθA hb ha hc hc0 hD
    ((h.worldPose_iff hθ hn E).mp hE) rt hk
  refine ⟨d, L, T, X, p1, p2, p3, ?_⟩
  have h3 := rt.dim_ge
  have hent : ∀ r, r < 3 → (jacMat rt cols E (if true then some m.base else none)).f r (ids.length + 3 + k) =
      baseRotCol rt E (baseAfter Pose.identity cs) k r := by
    intro r hr
    rw [← h.abs.base]
    have e1 : ids.length + 3 + k - cols.length = 3 + k := by omega
    have e2 : 3 + k - 3 = k := by omega
    simp only [jacMat, if_pos (show r < rt.dim by omega), if_neg (show ¬ ids.length + 3 + k < cols.length by omega),
      if_pos (show ids.length + 3 + k < cols.length + 6 by omega), if_true, baseCol, e1, if_neg (show ¬ 3 + k < 3 by omega), e2]
  rw [hent 0 (by norm_num), hent 1 (by norm_num), hent 2 (by norm_num)]
  exact p4

variable {h : List (PyCall (Fl F))} {s : PyModel (Fl F)} {qs : QArg (Fl F)} {es ids : List Nat}
  {rt : RotType} {bt : BaseType} {uc : Bool} {c' : SizedCache (Pose (Fl F))}

/-- **C118**, the Jacobians of `solve_fk` with a planar or floating base: `c0` is the number of the entry of the base part of the
configuration that is an angle. -/
theorem C118_solve_fk (hr : PyReach ls' js' m0 h cs s) (hf : Shallow ls' js' m0 cs)
    (hfit : c'.Fits s.robot.links.length) (hargs : FkArgs m0 s qs es ids bt) (hbt : bt ≠ .fixed)
    (hne : (∃ r ∈ ls', r.inertial.isSome) ∨ weldsAfter (names0 m0) cs ≠ [])
    (hR : RobotNear ε μ ls' js' (AllWelds ls' m0 cs) ls js welds) (hP : Proper js welds)
    (hue : F.u ≤ ε) (hA : 1 ≤ A) (hsm : Small F ε μ A D R) (hi : InverseTrig F) (hst : StepSmall F ε D R) (hc0 : 1 / 50 ≤ c) :
    ∃ P J s', pySolveFk qs es ids rt bt true uc (s.withCache c') = .ok (P, J) s' ∧
      ∀ (k j l c0 : Nat) (q : List (Fl F)) (n : String) (θ : String → ℝ) (base : Pose ℝ) (a : Vec3 ℝ),
        qs.rows[k]? = some q → es[j]? = some l → getLinkIds [n] s.robot = .ok [l] s.robot → IsBaseAngle bt c0 →
        AnglesAfter (K := Fl F) m0 (cs ++ configCalls ids bt q) θ →
        PoseNear ε (ε * (base.position.len + μ)) (baseAfter Pose.identity (cs ++ configCalls ids bt q)) base →
        base.rotation = Rot.fromRPY a.x a.y a.z → c ≤ Real.cos a.y →
        (∀ j ∈ js, |θ j.name| ≤ A) → (∀ d L, PathLength ls js welds θ base n d L → d ≤ D ∧ L ≤ R) →
        ∃ (d : Nat) (L : ℝ) (T : ℝ → Pose ℝ) (X : Vec3 ℝ), PathLength ls js welds θ base n d L ∧
          (∀ v, WorldPose ls js welds θ ⟨base.position, rpyV (setAng (angIdx bt c0) v a)⟩ n (T v)) ∧
          Vec3.HasDeriv (fun v => (T v).position) X (a.cmp (angIdx bt c0)) ∧
          Vec3.dist ⟨J.f ((k * es.length + j) * rt.width + 0) (ids.length + c0), J.f ((k * es.length + j) * rt.width + 1) (ids.length + c0),
            J.f ((k * es.length + j) * rt.width + 2) (ids.length + c0)⟩ X ≤ angBound ε μ A c d L := by
  obtain ⟨mc, hat⟩ := hr.at
  obtain ⟨P, J, s', mc', e, _, hres⟩ := (hat.withCache hfit).pySolveFk (rt := rt) (wj := true) (uc := uc)
    (qs := qs) (es := es) hf ⟨hargs.notFlat, hargs.nonempty, hargs.shape, hargs.joints, hargs.links⟩ (.inl hbt) (fun _ => hne)
  refine ⟨P, J, s', e, ?_⟩
  intro k j l c0 q n θ base a hk hjl hn hca hθ hb ha hc hθA hD
  have hql := hargs.shape q (List.mem_of_getElem? hk)
  obtain ⟨mk, hmk⟩ := hat.reach.config hargs.joints hql
  have hset := configCalls_isSet ids bt q
  obtain ⟨B, mk1, eB, hB1, hB2, hB3⟩ := hres.jac rfl k j _ q mk hk hjl hmk
  obtain ⟨J1, m', eJ, hcol⟩ := C118_jacobian hmk (hf.sets hset) (by rw [welds_sets _ hset]; exact hne) (by rw [allWelds_sets hset]; exact hR)
    hP hue hA hsm hi hst (hat.getLinkIds_config hn hmk hset) (ids := ids) (by rw [hmk.abs.joints]; exact hargs.joints) rt hθ hb ha hc hc0 hθA hD
  have hbt' : (bt != .fixed) = true := by cases bt <;> simp_all
  rw [hbt'] at eB
  rw [eB] at eJ
  cases eJ
  have h3 : 3 ≤ rt.width := by cases rt <;> decide
  have hi3 : angIdx bt c0 < 3 := by
    rcases hca with ⟨rfl, rfl⟩ | ⟨rfl, rfl | rfl | rfl⟩ <;> decide
  have hfc : ids.length + c0 < ids.length + bt.dof ∧ fullCol ids.length bt (ids.length + c0) = ids.length + 3 + angIdx bt c0 := by
    rcases hca with ⟨rfl, rfl⟩ | ⟨rfl, rfl | rfl | rfl⟩ <;> simp [fullCol, angIdx, BaseType.dof]
  obtain ⟨d, L, T, X, p1, p2, p3, p4⟩ := hcol _ hi3
  refine ⟨d, L, T, X, p1, p2, p3, ?_⟩
  rw [hB3 0 (by omega) _ hfc.1, hB3 1 (by omega) _ hfc.1, hB3 2 (by omega) _ hfc.1, hfc.2]
  exact p4

end

/-! ### The hypotheses are met

The robot of `RoundExample`: the column of the yaw of the base (entry 2 of the base part, column 4) for the hand. -/

theorem binary64_inverse (big : ℝ) : InverseTrig (binary64 big) := ⟨fun _ => round53_rounded _, fun _ _ => round53_rounded _⟩

namespace RoundExample

theorem steps : StepSmall dbl (200 * dbl.u * 2) 2 4 := by
  refine ⟨?_, ?_, ?_, ?_⟩
  · have := dbl.u_nonneg; linarith
  · rw [u_eq]; norm_num
  · rw [tiny_eq]
    exact (zpow_le_zpow_right₀ (by norm_num) (by norm_num : (-1022 : ℤ) ≤ -27)).trans (by norm_num)
  · rw [big_eq]; norm_num

/-- In IEEE arithmetic the column of the yaw is the derivative to three digits. -/
theorem hand_yaw : ∃ P J s', pySolveFk (.nd1 q) [2] [0, 1] .xyzw .planer true false (s0.withCache stale) = .ok (P, J) s' ∧
    ∃ (T : ℝ → Pose ℝ) (X : Vec3 ℝ), (∀ v, WorldPose ls js (fun w => w = com) θ ⟨⟨1, 0, 0⟩, Rot.fromRPY 0 0 v⟩ "hand" (T v)) ∧
      Vec3.HasDeriv (fun v => (T v).position) X 1 ∧ Vec3.dist ⟨J.f 0 4, J.f 1 4, J.f 2 4⟩ X ≤ 1 / 10 ^ 3 := by
  obtain ⟨P, J, s', e, h⟩ := C118_solve_fk (c' := stale) (rt := .xyzw) (uc := false) (A := 2) (c := 1) s0_reach shallow stale_fits args nofun
    (.inl ⟨⟨"hand", some mass'⟩, by simp [ls'], rfl⟩) robot_near proper
    (by have := dbl.u_nonneg; linarith) (by norm_num) small (binary64_inverse _) steps (by norm_num)
  refine ⟨P, J, s', e, ?_⟩
  obtain ⟨d, L, T, X, p1, p2, p3, p4⟩ := h 0 0 2 2 q "hand" θ base ⟨0, 0, 1⟩ rfl rfl hand_id (.inl ⟨rfl, rfl⟩) angles base_near.1 rfl
    (by simp) (by
      intro j hj
      simp only [js, List.mem_cons, List.not_mem_nil, or_false] at hj
      rcases hj with rfl | rfl <;> simp [turn, slide, θ]; norm_num)
    (fun d L h => by have := path h; simp at this; exact ⟨by omega, this.2⟩)
  obtain ⟨k1, k2⟩ := path p1
  simp at k1 k2
  subst k1
  have h1 := μ_le
  have hμ : μ ≤ 1 / 10 ^ 8 := by
    rw [μ]
    exact (zpow_le_zpow_right₀ (by norm_num) (by norm_num : (-900 : ℤ) ≤ -27)).trans (by norm_num)
  refine ⟨T, X, p2, p3, p4.trans ?_⟩
  have hp : posBound (200 * dbl.u * 2) μ 2 2 L ≤ 1 / 10 ^ 8 := by
    unfold posBound
    rw [u_eq]
    norm_num at hμ ⊢
    linarith
  unfold angBound
  have hK : 35 * 10 ^ 8 * (200 * dbl.u * 2 / 1) + 2 / 10 ^ 7 ≤ 2 / 10 ^ 4 := by rw [u_eq]; norm_num
  have hM : L + posBound (200 * dbl.u * 2) μ 2 2 L + μ ≤ 401 / 100 := by norm_num at hp hμ ⊢; linarith
  have hK0 : 0 ≤ 35 * 10 ^ 8 * (200 * dbl.u * 2 / 1) + 2 / 10 ^ 7 := by have := dbl.u_nonneg; linarith
  have := (mul_le_mul_of_nonneg_left hM hK0).trans (mul_le_mul_of_nonneg_right hK (by norm_num))
  norm_num at *
  linarith

end RoundExample

end Tinyfk
