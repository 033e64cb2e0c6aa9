import Verif.Proofs.RoundJac
import Verif.Props.Rounding
import Verif.Props.SolveFk

/-!
# Properties: rounding errors of Jacobians

C101.
-/

set_option linter.unusedSectionVars false

namespace Tinyfk

section
variable {F : Rounding} {ls' : List (RawLink (Fl F))} {js' : List (RawJoint (Fl F))} {ls : List (RawLink ℝ)} {js : List (RawJoint ℝ)}
  {welds : Weld ℝ → Prop} {ε μ A R : ℝ} {D : Nat} {m0 m : KinModel (Fl F)} {cs : List (Call (Fl F))}

/-- one column of the matrix, as the code computes it -/
theorem Reach.column_near (h : Reach ls' js' m0 cs m) (hR : RobotNear ε μ ls' js' (AllWelds ls' m0 cs) ls js welds)
    (hu : UnitDesc js) (hw : ∀ w, welds w → w.offset.rotation.norm2 = 1) (hax : ∀ r ∈ js, r.axis.len ≤ 1 + R)
    (hue : F.u ≤ ε) (hA : 1 ≤ A) (hsm : Small F ε μ A D R) (hrp : RpOK m) {l i : Nat} (hl : l < m.links.length) (hi : i < m.joints.length)
    {E : Pose (Fl F)} (hE : IsPose m l E) {rt : RotType} {col : Nat → Fl F} (hcol : IsJointCol m rt l E i col)
    {n s : String} {θ : String → ℝ} {base : Pose ℝ} (hn : getLinkIds [n] m = .ok [l] m) (hs : getJointIds [s] m0 = .ok [i] m0)
    (hθ : AnglesAfter (K := Fl F) m0 cs θ)
    (hb : PoseNear ε (ε * (base.position.len + μ)) (baseAfter Pose.identity cs) base) (hbu : base.rotation.norm2 = 1)
    (hθA : ∀ j ∈ js, |θ j.name| ≤ A) (hD : ∀ d L, PathLength ls js welds θ base n d L → d ≤ D ∧ L ≤ R) :
    ∃ (r : RawJoint ℝ) (d : Nat) (L : ℝ) (T : ℝ → Pose ℝ) (X : Vec3 ℝ) (Q : Rot ℝ), r ∈ js ∧ r.name = s ∧ PathLength ls js welds θ base n d L ∧
      (∀ v, WorldPose ls js welds (Function.update θ s v) base n (T v)) ∧
      Vec3.HasDeriv (fun v => (T v).position) X (θ s) ∧ Rot.HasDeriv (fun v => (T v).rotation) Q (θ s) ∧
      Vec3.dist ⟨col 0, col 1, col 2⟩ X ≤ colBound ε μ A r d L ∧
      (rt = .xyzw → Rot.dist ⟨col 3, col 4, col 5, col 6⟩ Q ≤ 500 * (d + 1) * ε * A) ∧ X.len ≤ colSize r L ∧ (T (θ s)).position.len ≤ L ∧
      Vec3.dist E.real.position (T (θ s)).position ≤ posBound ε μ A d L ∧ d ≤ D ∧ L ≤ R := by
  have g := h.abs.inv.graph
  have hd := h.abs.desc
  have he : 0 ≤ ε := F.u_nonneg.trans hue
  obtain ⟨lk, hlk, rfl⟩ := h.link hn
  rw [getJointIds_one, ← h.abs.jointIds] at hs
  have hjp : m.joints[i]? = some m.joints[i] := by simp [hi]
  rw [← h.abs.base] at hb
  obtain ⟨d, L, T, hT, hcase⟩ := hd.pose_near g (h.abs.anglesAre hθ.find) hR (Proper.of_unit hu hw) hue hA hθA hb
    (by rw [Rot.len_one hbu]; norm_num) (by rw [Rot.len_one hbu]; norm_num) hsm hjp hs hlk hE hD
  obtain ⟨hdD, hLR⟩ := hD d L hT.path
  have hμ0 : 0 ≤ μ := le_trans (mul_nonneg F.tiny_nonneg (by positivity)) hsm.tiny
  have hL0 : 0 ≤ L := (Real.sqrt_nonneg _).trans hT.len
  have hpos : Vec3.dist E.real.position T.position ≤ posBound ε μ A d L := by
    have := (hT.bounds hue hA hsm le_rfl hdD le_rfl).2
    rw [Vec3.dist_quat]
    refine this.trans (le_of_eq ?_)
    unfold posBound
    ring
  obtain ⟨b, hbr, hiff⟩ := hrp.sized.isRelevant hl hi
  rw [hrp.iff] at hiff
  rcases hcol with ⟨h1, h2⟩ | ⟨jp, j, c, C', h1, h2, h3, h4, _, h6, h7⟩
  · rw [hbr] at h1; cases h1
    have hoff : ¬ OnPath m m.joints[i] l := fun ho => by
      have := hiff.mpr ⟨_, hjp, ho⟩
      cases this
    rcases hcase with ⟨_, hst⟩ | ⟨hon, _⟩
    · obtain ⟨r', j, hr', hj, hraw⟩ := hd.joints i _ hjp
      obtain ⟨r, hr, hrn⟩ := hR.joints r' hr'
      have hname : r.name = s := by
        obtain ⟨jp2, j2, f1, f2, f3⟩ := (g.jointNames s i).mp hs
        rw [hjp] at f1; cases f1
        rw [hj] at f2; cases f2
        obtain ⟨i0, c0, rfl⟩ := hraw
        rw [← hrn.name]; exact f3
      refine ⟨r, d, L, fun _ => T, ⟨0, 0, 0⟩, ⟨0, 0, 0, 0⟩, hr, hname, hT.path, hst, Vec3.hasDeriv_const _ _, Rot.hasDeriv_const _ _, ?_, fun _ => ?_, ?_,
        hT.len, hpos, hdD, hLR⟩
      · rw [h2]
        have e0 : Vec3.dist (⟨(0 : ℝ), (0 : ℝ), (0 : ℝ)⟩ : Vec3 ℝ) ⟨0, 0, 0⟩ = 0 := by simp [Vec3.dist]
        refine (le_of_eq e0).trans ?_
        have := Real.sqrt_nonneg (r.axis.x ^ 2 + r.axis.y ^ 2 + r.axis.z ^ 2)
        unfold colBound Vec3.len
        split <;> positivity
      · rw [h2]
        have e0 : Rot.dist (⟨(0 : ℝ), (0 : ℝ), (0 : ℝ), (0 : ℝ)⟩ : Rot ℝ) ⟨0, 0, 0, 0⟩ = 0 := by simp [Rot.dist]
        exact (le_of_eq e0).trans (by positivity)
      · have e0 : Vec3.len (⟨(0 : ℝ), (0 : ℝ), (0 : ℝ)⟩ : Vec3 ℝ) = 0 := by simp [Vec3.len]
        refine (le_of_eq e0).trans ?_
        have := Real.sqrt_nonneg (r.axis.x ^ 2 + r.axis.y ^ 2 + r.axis.z ^ 2)
        unfold colSize Vec3.len
        split <;> linarith
    · exact absurd hon hoff
  · rw [hbr] at h1; cases h1
    obtain ⟨jp', e1, hon⟩ := hiff.mp rfl
    rw [h2] at hjp; cases hjp
    rw [h2] at e1; cases e1
    rcases hcase with ⟨hno, _⟩ | ⟨_, r', r, j2, c2, C2, dc, Lc, C, B, E0, S, hc⟩
    · exact absurd hon hno
    · have hj2 := hc.heap
      rw [h3] at hj2; cases hj2
      obtain ⟨ck, f1, f2, _⟩ := hc.child
      obtain ⟨j3, c3, lk3, p3, g1, _, g3, g4, g5, g6, _⟩ := g.joint h2
      rw [h3] at g1; cases g1
      rw [h4] at g4; cases g4
      obtain rfl := g.pjUnique f1 g5 f2 g6
      obtain rfl := hc.pose'.unique h6
      obtain ⟨i0, c0, hraw⟩ := hc.raw
      have etype : j.type = r.type := by rw [hraw]; exact hc.near.type
      have eaxis : j.axis = r'.axis := by rw [hraw]; rfl
      obtain ⟨P, X, Q, p1, p2, p3, p4, p5, p6, p7⟩ := hc.column hT hu hw hbu hue hA hsm hdD hLR (hax r hc.mem) (etype ▸ g3)
      refine ⟨r, d, L, P, X, Q, hc.mem, hc.name, hT.path, p1, p3, p4, ?_, fun hrt => ?_, p7, p2 ▸ hT.len, p2 ▸ hpos, hdD, hLR⟩
      · refine le_trans (le_of_eq ?_) p5
        congr 1
        rw [h7]
        simp only [jointCol, etype, eaxis]
        rfl
      · subst hrt
        by_cases hp : r.type = .prismatic
        · rw [if_pos hp] at p6
          rw [p6, h7]
          have e0 : Rot.dist (⟨(0 : ℝ), (0 : ℝ), (0 : ℝ), (0 : ℝ)⟩ : Rot ℝ) ⟨0, 0, 0, 0⟩ = 0 := by simp [Rot.dist]
          refine le_trans (le_of_eq ?_) ((le_of_eq e0).trans (by positivity))
          simp only [jointCol, etype, if_pos hp]
          rfl
        · rw [if_neg hp] at p6
          refine le_trans (le_of_eq ?_) p6
          congr 1
          rw [h7]
          simp only [jointCol, etype, eaxis, if_neg hp]
          rfl

/-- the columns of a Jacobian, with their sizes -/
theorem Reach.jacobian_near (h : Reach ls' js' m0 cs m) (hf : Shallow ls' js' m0 cs)
    (hne : (∃ r ∈ ls', r.inertial.isSome) ∨ weldsAfter (names0 m0) cs ≠ [])
    (hR : RobotNear ε μ ls' js' (AllWelds ls' m0 cs) ls js welds)
    (hu : UnitDesc js) (hw : ∀ w, welds w → w.offset.rotation.norm2 = 1) (hax : ∀ r ∈ js, r.axis.len ≤ 1 + R)
    (hue : F.u ≤ ε) (hA : 1 ≤ A) (hsm : Small F ε μ A D R) {n : String} {l : Nat} (hn : getLinkIds [n] m = .ok [l] m) {ids : List Nat}
    (hids : ∀ i ∈ ids, i < m.joints.length) (rt : RotType) (wb : Bool) {θ : String → ℝ} (hθ : AnglesAfter (K := Fl F) m0 cs θ)
    {base : Pose ℝ} (hb : PoseNear ε (ε * (base.position.len + μ)) (baseAfter Pose.identity cs) base) (hbu : base.rotation.norm2 = 1)
    (hθA : ∀ j ∈ js, |θ j.name| ≤ A) (hD : ∀ d L, PathLength ls js welds θ base n d L → d ≤ D ∧ L ≤ R) :
    ∃ J m', getJacobian l ids rt wb m = .ok J m' ∧
      ∀ (k i : Nat) (s : String), ids[k]? = some i → getJointIds [s] m0 = .ok [i] m0 →
        ∃ (r : RawJoint ℝ) (d : Nat) (L : ℝ) (T : ℝ → Pose ℝ) (X : Vec3 ℝ) (Q : Rot ℝ), r ∈ js ∧ r.name = s ∧ PathLength ls js welds θ base n d L ∧
          (∀ v, WorldPose ls js welds (Function.update θ s v) base n (T v)) ∧
          Vec3.HasDeriv (fun v => (T v).position) X (θ s) ∧ Rot.HasDeriv (fun v => (T v).rotation) Q (θ s) ∧
          Vec3.dist ⟨J.f 0 k, J.f 1 k, J.f 2 k⟩ X ≤ colBound ε μ A r d L ∧
          (rt = .xyzw → Rot.dist ⟨J.f 3 k, J.f 4 k, J.f 5 k, J.f 6 k⟩ Q ≤ 500 * (d + 1) * ε * A) ∧ X.len ≤ colSize r L := by
  obtain ⟨lk, hlk, _⟩ := h.link hn
  have hl := (List.getElem?_eq_some_iff.mp hlk).1
  obtain ⟨E, cols, hE, hcols, m', e, _⟩ := h.jacobian hf hne hl hids rt wb
  refine ⟨_, m', e, fun k i s hk hs => ?_⟩
  have hi := hids i (List.mem_of_getElem? hk)
  have hlen := hcols.length_eq
  have hkl : k < cols.length := by rw [← hlen]; exact (List.getElem?_eq_some_iff.mp hk).1
  obtain ⟨r, d, L, T, X, Q, p1, p2, p3, p4, p5, p6, p7, p8, p9, _⟩ := h.column_near hR hu hw hax hue hA hsm (h.rpOK hne) hl hi hE (rt := rt) (col := cols[k]) (by
      obtain ⟨hk1, hk2⟩ := List.getElem?_eq_some_iff.mp hk
      rw [← hk2]
      exact (List.forall₂_iff_get.mp hcols).2 k hk1 hkl) hn hs hθ hb hbu hθA hD
  have hent : ∀ r, r < rt.dim → (jacMat rt cols E (if wb then some m.base else none)).f r k = cols[k] r := by
    intro r hr
    simp [jacMat, hr, hkl]
  have h3 := rt.dim_ge
  refine ⟨r, d, L, T, X, Q, p1, p2, p3, p4, p5, p6, ?_, fun hrt => ?_, p9⟩
  · rw [hent 0 (by omega), hent 1 (by omega), hent 2 (by omega)]
    exact p7
  · subst hrt
    rw [hent 3 (by decide), hent 4 (by decide), hent 5 (by decide), hent 6 (by decide)]
    exact p8 rfl

/-- **C101.** `get_jacobian` in rounded arithmetic, on a robot with any past: the column of a joint is the derivative of the pose of the
link in the exact robot with respect to the angle of that joint, up to rounding. For a link behind `d` joints and welds and a path
of length `L`, the position rows of the column of a turning joint are within `3000 * (d + 1) * ε * A * (L + (d + 1) * μ)` of the
derivative, those of a sliding joint within `500 * (d + 1) * ε * A` of the length of its axis, and the quaternion rows within
`500 * (d + 1) * ε * A`. -/
theorem C101_jacobian (h : Reach ls' js' m0 cs m) (hf : Shallow ls' js' m0 cs)
    (hne : (∃ r ∈ ls', r.inertial.isSome) ∨ weldsAfter (names0 m0) cs ≠ [])
    (hR : RobotNear ε μ ls' js' (AllWelds ls' m0 cs) ls js welds)
    (hu : UnitDesc js) (hw : ∀ w, welds w → w.offset.rotation.norm2 = 1) (hax : ∀ r ∈ js, r.axis.len ≤ 1 + R)
    (hue : F.u ≤ ε) (hA : 1 ≤ A) (hsm : Small F ε μ A D R) {n : String} {l : Nat} (hn : getLinkIds [n] m = .ok [l] m) {ids : List Nat}
    (hids : ∀ i ∈ ids, i < m.joints.length) (rt : RotType) (wb : Bool) {θ : String → ℝ} (hθ : AnglesAfter (K := Fl F) m0 cs θ)
    {base : Pose ℝ} (hb : PoseNear ε (ε * (base.position.len + μ)) (baseAfter Pose.identity cs) base) (hbu : base.rotation.norm2 = 1)
    (hθA : ∀ j ∈ js, |θ j.name| ≤ A) (hD : ∀ d L, PathLength ls js welds θ base n d L → d ≤ D ∧ L ≤ R) :
    ∃ J m', getJacobian l ids rt wb m = .ok J m' ∧
      ∀ (k i : Nat) (s : String), ids[k]? = some i → getJointIds [s] m0 = .ok [i] m0 →
        ∃ (r : RawJoint ℝ) (d : Nat) (L : ℝ) (T : ℝ → Pose ℝ) (X : Vec3 ℝ) (Q : Rot ℝ), r ∈ js ∧ r.name = s ∧ PathLength ls js welds θ base n d L ∧
          (∀ v, WorldPose ls js welds (Function.update θ s v) base n (T v)) ∧
          Vec3.HasDeriv (fun v => (T v).position) X (θ s) ∧ Rot.HasDeriv (fun v => (T v).rotation) Q (θ s) ∧
          Vec3.dist ⟨J.f 0 k, J.f 1 k, J.f 2 k⟩ X ≤ colBound ε μ A r d L ∧
          (rt = .xyzw → Rot.dist ⟨J.f 3 k, J.f 4 k, J.f 5 k, J.f 6 k⟩ Q ≤ 500 * (d + 1) * ε * A) := by
  obtain ⟨J, m', e, hJ⟩ := h.jacobian_near hf hne hR hu hw hax hue hA hsm hn hids rt wb hθ hb hbu hθA hD
  refine ⟨J, m', e, fun k i s hk hs => ?_⟩
  obtain ⟨r, d, L, T, X, Q, p1, p2, p3, p4, p5, p6, p7, p8, _⟩ := hJ k i s hk hs
  exact ⟨r, d, L, T, X, Q, p1, p2, p3, p4, p5, p6, p7, p8⟩

variable {h : List (PyCall (Fl F))} {s : PyModel (Fl F)} {qs : QArg (Fl F)} {es ids : List Nat}
  {rt : RotType} {bt : BaseType} {uc : Bool} {c : SizedCache (Pose (Fl F))}

/-- **C101**, the Jacobians of `solve_fk`. -/
theorem C101_solve_fk (hr : PyReach ls' js' m0 h cs s) (hf : Shallow ls' js' m0 cs)
    (hc : c.Fits s.robot.links.length) (ha : FkArgs m0 s qs es ids bt) (huc : bt ≠ .fixed ∨ uc = false)
    (hne : (∃ r ∈ ls', r.inertial.isSome) ∨ weldsAfter (names0 m0) cs ≠ [])
    (hR : RobotNear ε μ ls' js' (AllWelds ls' m0 cs) ls js welds)
    (hu : UnitDesc js) (hw : ∀ w, welds w → w.offset.rotation.norm2 = 1) (hax : ∀ r ∈ js, r.axis.len ≤ 1 + R)
    (hue : F.u ≤ ε) (hA : 1 ≤ A) (hsm : Small F ε μ A D R) :
    ∃ P J s', pySolveFk qs es ids rt bt true uc (s.withCache c) = .ok (P, J) s' ∧
      ∀ (k j l i c : Nat) (q : List (Fl F)) (n jn : String) (θ : String → ℝ) (base : Pose ℝ),
        qs.rows[k]? = some q → es[j]? = some l → getLinkIds [n] s.robot = .ok [l] s.robot →
        ids[c]? = some i → getJointIds [jn] m0 = .ok [i] m0 →
        AnglesAfter (K := Fl F) m0 (cs ++ configCalls ids bt q) θ →
        PoseNear ε (ε * (base.position.len + μ)) (baseAfter Pose.identity (cs ++ configCalls ids bt q)) base →
        base.rotation.norm2 = 1 →
        (∀ j ∈ js, |θ j.name| ≤ A) → (∀ d L, PathLength ls js welds θ base n d L → d ≤ D ∧ L ≤ R) →
        ∃ (r : RawJoint ℝ) (d : Nat) (L : ℝ) (T : ℝ → Pose ℝ) (X : Vec3 ℝ) (Q : Rot ℝ), r ∈ js ∧ r.name = jn ∧ PathLength ls js welds θ base n d L ∧
          (∀ v, WorldPose ls js welds (Function.update θ jn v) base n (T v)) ∧
          Vec3.HasDeriv (fun v => (T v).position) X (θ jn) ∧ Rot.HasDeriv (fun v => (T v).rotation) Q (θ jn) ∧
          Vec3.dist ⟨J.f ((k * es.length + j) * rt.width + 0) c, J.f ((k * es.length + j) * rt.width + 1) c,
            J.f ((k * es.length + j) * rt.width + 2) c⟩ X ≤ colBound ε μ A r d L ∧
          (rt = .xyzw → Rot.dist ⟨J.f ((k * es.length + j) * 7 + 3) c, J.f ((k * es.length + j) * 7 + 4) c,
            J.f ((k * es.length + j) * 7 + 5) c, J.f ((k * es.length + j) * 7 + 6) c⟩ Q ≤ 500 * (d + 1) * ε * A) := by
  obtain ⟨mc, hat⟩ := hr.at
  obtain ⟨P, J, s', mc', e, _, hres⟩ := (hat.withCache hc).pySolveFk (rt := rt) (wj := true) (uc := uc)
    (qs := qs) (es := es) hf ⟨ha.notFlat, ha.nonempty, ha.shape, ha.joints, ha.links⟩ huc (fun _ => hne)
  refine ⟨P, J, s', e, ?_⟩
  intro k j l i c q n jn θ base hk hjl hn hci hjn hθ hb hbu hθA hD
  have hql := ha.shape q (List.mem_of_getElem? hk)
  obtain ⟨mk, hmk⟩ := hat.reach.config ha.joints hql
  have hset := configCalls_isSet ids bt q
  obtain ⟨B, mk1, eB, hB1, hB2, hB3⟩ := hres.jac rfl k j _ q mk hk hjl hmk
  obtain ⟨J1, m', eJ, hcol⟩ := C101_jacobian hmk (hf.sets hset) (by rw [welds_sets _ hset]; exact hne) (by rw [allWelds_sets hset]; exact hR)
    hu hw hax hue hA hsm (hat.getLinkIds_config hn hmk hset) (ids := ids) (by rw [hmk.abs.joints]; exact ha.joints) rt (bt != .fixed) hθ hb hbu hθA hD
  rw [eB] at eJ
  cases eJ
  obtain ⟨r, d, L, T, X, Q, p1, p2, p3, p4, p5, p6, p7, p8⟩ := hcol c i jn hci hjn
  have hcl := (List.getElem?_eq_some_iff.mp hci).1
  have hfc : fullCol ids.length bt c = c := by
    unfold fullCol
    split
    · rw [if_neg (by omega)]
    · rfl
  have hent : ∀ r, r < rt.width → J.f ((k * es.length + j) * rt.width + r) c = B.f r c := fun r hr => by
    rw [hB3 r hr c (by omega), hfc]
  have h3 : 3 ≤ rt.width := by cases rt <;> decide
  refine ⟨r, d, L, T, X, Q, p1, p2, p3, p4, p5, p6, ?_, fun hrt => ?_⟩
  · rw [hent 0 (by omega), hent 1 (by omega), hent 2 (by omega)]
    exact p7
  · subst hrt
    have h7 : RotType.width .xyzw = 7 := rfl
    rw [h7] at hent
    rw [hent 3 (by decide), hent 4 (by decide), hent 5 (by decide), hent 6 (by decide)]
    exact p8 rfl

end

/-! ### The hypotheses are met

The robot of `RoundExample`: the columns of the sliding joint (0) and of the turning joint (1) for the hand. -/

namespace RoundExample

theorem unitDesc : UnitDesc js := by
  intro j hj
  simp only [js, List.mem_cons, List.not_mem_nil, or_false] at hj
  rcases hj with rfl | rfl
  · refine ⟨Rot.norm2_fromRPY _ _ _, fun _ => ?_⟩
    simp [turn, Vec3.IsUnit]
  · refine ⟨Rot.norm2_fromRPY _ _ _, fun h => ?_⟩
    simp [slide] at h

theorem axes : ∀ r ∈ js, r.axis.len ≤ 1 + 4 := by
  intro j hj
  simp only [js, List.mem_cons, List.not_mem_nil, or_false] at hj
  rcases hj with rfl | rfl
  · have : turn.axis.len = 1 := by simp [turn, Vec3.len]
    rw [this]; norm_num
  · have : slide.axis.len = 1 / 3 := by simp [slide, Vec3.len]
    rw [this]; norm_num

/-- In IEEE arithmetic the columns of both joints are derivatives to eight digits. -/
theorem hand_jacobian : ∃ P J s', pySolveFk (.nd1 q) [2] [0, 1] .xyzw .planer true false (s0.withCache stale) = .ok (P, J) s' ∧
    ∀ c s, (c = 0 ∧ s = "slide") ∨ (c = 1 ∧ s = "turn") →
      ∃ (T : ℝ → Pose ℝ) (X : Vec3 ℝ) (Q : Rot ℝ), (∀ v, WorldPose ls js (fun w => w = com) (Function.update θ s v) base "hand" (T v)) ∧
        Vec3.HasDeriv (fun v => (T v).position) X (θ s) ∧ Rot.HasDeriv (fun v => (T v).rotation) Q (θ s) ∧
        Vec3.dist ⟨J.f 0 c, J.f 1 c, J.f 2 c⟩ X ≤ 1 / 10 ^ 8 ∧ Rot.dist ⟨J.f 3 c, J.f 4 c, J.f 5 c, J.f 6 c⟩ Q ≤ 1 / 10 ^ 8 := by
  obtain ⟨P, J, s', e, h⟩ := C101_solve_fk (c := stale) (rt := .xyzw) (uc := false) (A := 2) s0_reach shallow stale_fits args (.inr rfl)
    (.inl ⟨⟨"hand", some mass'⟩, by simp [ls'], rfl⟩) robot_near unitDesc
    (fun w hw => by rw [hw]; simp [com, Rot.norm2, Rot.one]) axes
    (by have := dbl.u_nonneg; linarith) (by norm_num) small
  refine ⟨P, J, s', e, fun c s hcs => ?_⟩
  obtain ⟨r, d, L, T, X, Q, p1, p2, p3, p4, p5, p6, p7, p8⟩ := h 0 0 2 c c q "hand" s θ base rfl rfl hand_id
    (by rcases hcs with ⟨rfl, rfl⟩ | ⟨rfl, rfl⟩ <;> rfl)
    (by rw [getJointIds_one, jointIds]; rcases hcs with ⟨rfl, rfl⟩ | ⟨rfl, rfl⟩ <;> simp) angles base_near.1
    (Rot.norm2_fromRPY _ _ _) (by
      intro j hj
      simp only [js, List.mem_cons, List.not_mem_nil, or_false] at hj
      rcases hj with rfl | rfl <;> simp [turn, slide, θ]; norm_num)
    (fun d L h => by have := path h; simp at this; exact ⟨by omega, this.2⟩)
  obtain ⟨k1, k2⟩ := path p3
  simp at k1 k2
  subst k1
  have hr := axes r p1
  have := μ_le
  refine ⟨T, X, Q, p4, p5, p6, p7.trans ?_, (p8 rfl).trans ?_⟩
  · unfold colBound
    rw [u_eq]
    split
    · norm_num
      linarith
    · norm_num
      linarith
  · rw [u_eq]; norm_num

end RoundExample

end Tinyfk
