import Verif.Proofs.RoundGrad
import Verif.Props.RoundJac
import Verif.Props.RoundDist

/-!
# Properties: rounding errors of the gradients of squared distances

C106.
-/

set_option linter.unusedSectionVars false

namespace Tinyfk

section
variable {F : Rounding} {ls' : List (RawLink (Fl F))} {js' : List (RawJoint (Fl F))} {ls : List (RawLink ℝ)} {js : List (RawJoint ℝ)}
  {welds : Weld ℝ → Prop} {ε μ A R : ℝ} {D : Nat} {m0 m : KinModel (Fl F)} {cs : List (Call (Fl F))}

/-- a computed column together with the computed position -/
theorem Reach.column_facts (h : Reach ls' js' m0 cs m) (hf : Shallow ls' js' m0 cs)
    (hne : (∃ r ∈ ls', r.inertial.isSome) ∨ weldsAfter (names0 m0) cs ≠ [])
    (hR : RobotNear ε μ ls' js' (AllWelds ls' m0 cs) ls js welds)
    (hu : UnitDesc js) (hw : ∀ w, welds w → w.offset.rotation.norm2 = 1) (hax : ∀ r ∈ js, r.axis.len ≤ 1 + R)
    (hue : F.u ≤ ε) (hA : 1 ≤ A) (hsm : Small F ε μ A D R) {n : String} {l : Nat} (hn : getLinkIds [n] m = .ok [l] m) {ids : List Nat}
    (hids : ∀ i ∈ ids, i < m.joints.length) {wb : Bool} {B : Mat (Fl F)} {m1 m2 : KinModel (Fl F)} {T' : Pose (Fl F)}
    (hB : getJacobian l ids .ignore wb m = .ok B m1) (hT : getLinkPose l m = .ok T' m2) {θ : String → ℝ} (hθ : AnglesAfter (K := Fl F) m0 cs θ)
    {base : Pose ℝ} (hb : PoseNear ε (ε * (base.position.len + μ)) (baseAfter Pose.identity cs) base) (hbu : base.rotation.norm2 = 1)
    (hθA : ∀ j ∈ js, |θ j.name| ≤ A) (hD : ∀ d L, PathLength ls js welds θ base n d L → d ≤ D ∧ L ≤ R)
    {k i : Nat} {s : String} (hk : ids[k]? = some i) (hs : getJointIds [s] m0 = .ok [i] m0) :
    ∃ (r : RawJoint ℝ) (d : Nat) (L : ℝ) (T : ℝ → Pose ℝ) (X : Vec3 ℝ), r ∈ js ∧ r.name = s ∧ PathLength ls js welds θ base n d L ∧
      (∀ v, WorldPose ls js welds (Function.update θ s v) base n (T v)) ∧ Vec3.HasDeriv (fun v => (T v).position) X (θ s) ∧
      Vec3.dist ⟨B.f 0 k, B.f 1 k, B.f 2 k⟩ X ≤ colBound ε μ A r d L ∧ X.len ≤ colSize r L ∧ (T (θ s)).position.len ≤ L ∧
      Vec3.dist T'.real.position (T (θ s)).position ≤ posBound ε μ A d L ∧ d ≤ D ∧ L ≤ R := by
  obtain ⟨lk, hlk, _⟩ := h.link hn
  have hl := (List.getElem?_eq_some_iff.mp hlk).1
  obtain ⟨E, cols, hE, hcols, m', e, _⟩ := h.jacobian hf hne hl hids .ignore wb
  rw [hB] at e
  cases e
  obtain ⟨m'', e', _⟩ := (Query.getLinkPose hE).run (h.ready hf)
  rw [hT] at e'
  cases e'
  have hi := hids i (List.mem_of_getElem? hk)
  have hlen := hcols.length_eq
  have hkl : k < cols.length := by rw [← hlen]; exact (List.getElem?_eq_some_iff.mp hk).1
  obtain ⟨r, d, L, T, X, Q, p1, p2, p3, p4, p5, p6, p7, p8, p9⟩ := h.column_near hR hu hw hax hue hA hsm (h.rpOK hne) hl hi hE (rt := .ignore)
    (col := cols[k]) (by
      obtain ⟨hk1, hk2⟩ := List.getElem?_eq_some_iff.mp hk
      rw [← hk2]
      exact (List.forall₂_iff_get.mp hcols).2 k hk1 hkl) hn hs hθ hb hbu hθA hD
  have hent : ∀ r, r < 3 → (jacMat .ignore cols T' (if wb then some m.base else none)).f r k = cols[k] r := by
    intro r hr
    simp [jacMat, RotType.dim, hr, hkl]
  refine ⟨r, d, L, T, X, p1, p2, p3, p4, p5, ?_, p9⟩
  rw [hent 0 (by omega), hent 1 (by omega), hent 2 (by omega)]
  exact p7

theorem colBound_nonneg {r : RawJoint ℝ} {d : Nat} {L : ℝ} (hε : 0 ≤ ε) (hμ : 0 ≤ μ) (hA : 0 ≤ A) (hL : 0 ≤ L) : 0 ≤ colBound ε μ A r d L := by
  have : 0 ≤ r.axis.len := Real.sqrt_nonneg _
  unfold colBound
  split <;> positivity

/-- the bound for a column is small, and not below what rounding makes of tiny numbers -/
theorem colBound_le (hsm : Small F ε μ A D R) (hue : F.u ≤ ε) (hA : 1 ≤ A) {d : Nat} {L : ℝ} {r : RawJoint ℝ} (hd : d ≤ D) (hL : L ≤ R) (hL0 : 0 ≤ L)
    (hax : r.axis.len ≤ 1 + R) :
    colBound ε μ A r d L ≤ 6 * (R + D + 1) ∧ 500 * (ε * μ) ≤ colBound ε μ A r d L ∧ colSize r L ≤ 2 * R + 1 := by
  have he : 0 ≤ ε := F.u_nonneg.trans hue
  have hμ0 : 0 ≤ μ := F.tiny_nonneg.trans hsm.tiny_le
  have hD0 : (0 : ℝ) ≤ D := by positivity
  obtain ⟨a1, a2⟩ := posBound_le hsm hue hA hd hL hL0
  have ha0 : 0 ≤ r.axis.len := Real.sqrt_nonneg _
  have e1 : 0 ≤ ε * L := by positivity
  by_cases hp : r.type = .prismatic
  · have hdR : (d : ℝ) ≤ D := by exact_mod_cast hd
    have e0 : 0 ≤ ε * A := by positivity
    have k1 : 500 * ((d : ℝ) + 1) * ε * A ≤ 1 := by
      have : ((d : ℝ) + 1) * (ε * A) ≤ (D + 1) * (ε * A) := mul_le_mul_of_nonneg_right (by linarith) e0
      linarith [hsm.acc]
    have k2 := mul_le_mul_of_nonneg_right k1 (show 0 ≤ r.axis.len + μ by linarith)
    have k3 : ε ≤ ε * A := le_mul_of_one_le_right he hA
    have k4 : ε * A ≤ (d + 1) * (ε * A) := le_mul_of_one_le_left e0 (by linarith [(Nat.cast_nonneg d : (0 : ℝ) ≤ d)])
    have k5 := mul_le_mul (show 500 * ε ≤ 500 * (d + 1) * ε * A by linarith) (show μ ≤ r.axis.len + μ by linarith) hμ0 (by positivity)
    have := hsm.unit
    simp only [colBound, colSize, if_pos hp]
    refine ⟨by linarith, by linarith, by linarith⟩
  · have e : colBound ε μ A r d L = 6 * posBound ε μ A d L := by
      simp only [colBound, if_neg hp, posBound]; ring
    rw [e]
    simp only [colSize, if_neg hp]
    have e2 : 0 ≤ ε * μ := by positivity
    refine ⟨by linarith, by linarith, by linarith⟩

/-- the derivative of a squared distance -/
theorem distSq_deriv {f g : ℝ → Vec3 ℝ} {X Y : Vec3 ℝ} {t : ℝ} (hf : Vec3.HasDeriv f X t) (hg : Vec3.HasDeriv g Y t) :
    HasDerivAt (fun v => Vec3.dist (f v) (g v) ^ 2)
      (2 * ((X.x - Y.x) * ((f t).x - (g t).x) + (X.y - Y.y) * ((f t).y - (g t).y) + (X.z - Y.z) * ((f t).z - (g t).z))) t := by
  have e : (fun v => Vec3.dist (f v) (g v) ^ 2) =
      fun v => ((f v).x - (g v).x) ^ 2 + ((f v).y - (g v).y) ^ 2 + ((f v).z - (g v).z) ^ 2 := by
    funext v
    exact Real.sq_sqrt (by positivity)
  rw [e]
  have h := (((hf.1.sub hg.1).pow 2).add ((hf.2.1.sub hg.2.1).pow 2)).add ((hf.2.2.sub hg.2.2).pow 2)
  refine h.congr_deriv ?_
  simp only [Pi.sub_apply]
  ring

variable {h : List (PyCall (Fl F))} {s : PyModel (Fl F)} {qs : List (List (Fl F))}
  {ps : List (Nat × Nat)} {ids : List Nat} {bt : BaseType} {uc : Bool} {c : SizedCache (Pose (Fl F))}

/-- **C106.** The gradients of `compute_inter_link_sqdists`, with `use_cache=False` or with a base, in rounded arithmetic, on a robot
with any past: the entry of a pair of links and a joint is the derivative of the squared distance of the links of the exact robot with
respect to the angle of the joint, up to rounding. If the links are `r` apart and move away from each other with the relative speed
`V` when the joint moves, if the computed positions may be off by `E` together (C94) and the computed columns of the Jacobians by `C`
together (C101), the entry is within `3 * ((V + C) * E + C * r) + 8 * ε * tiny` of the derivative. -/
theorem C106_gradient (hr : PyReach ls' js' m0 h cs s) (hf : Shallow ls' js' m0 cs)
    (hc : c.Fits s.robot.links.length) (ha : DistArgs m0 s qs ps ids bt) (huc : uc = false ∨ bt ≠ .fixed)
    (hne : (∃ r ∈ ls', r.inertial.isSome) ∨ weldsAfter (names0 m0) cs ≠ [])
    (hR : RobotNear ε μ ls' js' (AllWelds ls' m0 cs) ls js welds) (hnd : (js.map RawJoint.name).Nodup)
    (hu : UnitDesc js) (hw : ∀ w, welds w → w.offset.rotation.norm2 = 1) (hax : ∀ r ∈ js, r.axis.len ≤ 1 + R)
    (hue : F.u ≤ ε) (hA : 1 ≤ A) (hsm : Small F ε μ A D R) (hbig : 1000 * (1 + R + D) ^ 2 ≤ F.big) :
    ∃ V J s', pySqdists qs ps ids bt true uc (s.withCache c) = .ok (V, J) s' ∧
      ∀ (k j l1 l2 i c : Nat) (q : List (Fl F)) (n1 n2 jn : String) (θ : String → ℝ) (base : Pose ℝ),
        qs[k]? = some q → ps[j]? = some (l1, l2) → getLinkIds [n1] s.robot = .ok [l1] s.robot →
        getLinkIds [n2] s.robot = .ok [l2] s.robot → ids[c]? = some i → getJointIds [jn] m0 = .ok [i] m0 →
        AnglesAfter (K := Fl F) m0 (cs ++ configCalls ids bt q) θ →
        PoseNear ε (ε * (base.position.len + μ)) (baseAfter Pose.identity (cs ++ configCalls ids bt q)) base →
        base.rotation.norm2 = 1 →
        (∀ j ∈ js, |θ j.name| ≤ A) →
        (∀ n d L, n = n1 ∨ n = n2 → PathLength ls js welds θ base n d L → d ≤ D ∧ L ≤ R) →
        ∃ (r : RawJoint ℝ) (d1 d2 : Nat) (L1 L2 : ℝ) (T1 T2 : ℝ → Pose ℝ) (X1 X2 : Vec3 ℝ) (G E C : ℝ), r ∈ js ∧ r.name = jn ∧
          PathLength ls js welds θ base n1 d1 L1 ∧ PathLength ls js welds θ base n2 d2 L2 ∧
          (∀ v, WorldPose ls js welds (Function.update θ jn v) base n1 (T1 v)) ∧
          (∀ v, WorldPose ls js welds (Function.update θ jn v) base n2 (T2 v)) ∧
          Vec3.HasDeriv (fun v => (T1 v).position) X1 (θ jn) ∧ Vec3.HasDeriv (fun v => (T2 v).position) X2 (θ jn) ∧
          HasDerivAt (fun v => Vec3.dist (T1 v).position (T2 v).position ^ 2) G (θ jn) ∧
          E = posBound ε μ A d1 L1 + posBound ε μ A d2 L2 ∧ C = colBound ε μ A r d1 L1 + colBound ε μ A r d2 L2 ∧
          |(J.f (k * ps.length + j) c).real - G| ≤
            3 * ((Vec3.dist X1 X2 + C) * E + C * Vec3.dist (T1 (θ jn)).position (T2 (θ jn)).position) + 8 * ε * F.tiny := by
  obtain ⟨mc, hat⟩ := hr.at
  obtain ⟨V, J, s', e, hres⟩ := hr.sqdists (wj := true) hf hc ha huc (fun _ => hne)
  refine ⟨V, J, s', e, ?_⟩
  intro k j l1 l2 i c q n1 n2 jn θ base hk hjl hn1 hn2 hci hjn hθ hb hbu hθA hD
  have hql := ha.shape q (List.mem_of_getElem? hk)
  obtain ⟨mk, hmk⟩ := hat.reach.config ha.joints hql
  have hset := configCalls_isSet ids bt q
  obtain ⟨T1', mk1, T2', mk2, B1, mk3, B2, mk4, e1, e2, e3, e4, hJ⟩ := hres.grad rfl k j l1 l2 q mk hk hjl hmk
  have hjt : ∀ i ∈ ids, i < mk.joints.length := by rw [hmk.abs.joints]; exact ha.joints
  obtain ⟨r1, d1, L1, T1, X1, p1, p2, p3, p4, p5, p6, p7, p8, p9, p10, p11⟩ := hmk.column_facts (hf.sets hset) (by rw [welds_sets _ hset]; exact hne)
    (by rw [allWelds_sets hset]; exact hR) hu hw hax hue hA hsm (hat.getLinkIds_config hn1 hmk hset) hjt e3 e1 hθ hb hbu hθA
    (fun d L => hD n1 d L (.inl rfl)) hci hjn
  obtain ⟨r2, d2, L2, T2, X2, o1, o2, o3, o4, o5, o6, o7, o8, o9, o10, o11⟩ := hmk.column_facts (hf.sets hset) (by rw [welds_sets _ hset]; exact hne)
    (by rw [allWelds_sets hset]; exact hR) hu hw hax hue hA hsm (hat.getLinkIds_config hn2 hmk hset) hjt e4 e2 hθ hb hbu hθA
    (fun d L => hD n2 d L (.inr rfl)) hci hjn
  obtain rfl : r2 = r1 := List.inj_on_of_nodup_map hnd o1 p1 (o2.trans p2.symm)
  refine ⟨r2, d1, d2, L1, L2, T1, T2, X1, X2, _, _, _, p1, p2, p3, o3, p4, o4, p5, o5, distSq_deriv p5 o5, rfl, rfl, ?_⟩
  have hu0 := F.u_nonneg
  have he : 0 ≤ ε := hu0.trans hue
  have ht := F.tiny_nonneg
  have htμ := hsm.tiny_le
  have hμ0 : 0 ≤ μ := ht.trans htμ
  have hL10 : 0 ≤ L1 := (Real.sqrt_nonneg _).trans p8
  have hL20 : 0 ≤ L2 := (Real.sqrt_nonneg _).trans o8
  obtain ⟨a1, a2⟩ := posBound_le hsm hue hA p10 p11 hL10
  obtain ⟨b1, b2⟩ := posBound_le hsm hue hA o10 o11 hL20
  obtain ⟨x1, x2, x3⟩ := colBound_le (r := r2) hsm hue hA p10 p11 hL10 (hax _ p1)
  obtain ⟨y1, y2, y3⟩ := colBound_le (r := r2) hsm hue hA o10 o11 hL20 (hax _ p1)
  have hrr : Vec3.dist (T1 (θ jn)).position (T2 (θ jn)).position ≤ L1 + L2 := by
    rw [Vec3.dist_quat]
    rw [Vec3.len_quat] at p8 o8
    exact (norm_sub_le _ _).trans (add_le_add p8 o8)
  have hVV : Vec3.dist X1 X2 ≤ (2 * R + 1) + (2 * R + 1) := by
    rw [Vec3.dist_quat]
    rw [Vec3.len_quat] at p7 o7
    exact (norm_sub_le _ _).trans (add_le_add (p7.trans x3) (o7.trans y3))
  have hcl := (List.getElem?_eq_some_iff.mp hci).1
  have hfc : fullCol ids.length bt c = c := by
    unfold fullCol
    split
    · rw [if_neg (by omega)]
    · rfl
  have hval := hJ c (by omega)
  rw [hfc] at hval
  have r0 : 0 ≤ Vec3.dist (T1 (θ jn)).position (T2 (θ jn)).position := Real.sqrt_nonneg _
  have v0 : 0 ≤ Vec3.dist X1 X2 := Real.sqrt_nonneg _
  have et0 : 0 ≤ ε * μ := mul_nonneg he (ht.trans htμ)
  have key := grad_near (F := F) ⟨B1.f 0 c, B1.f 1 c, B1.f 2 c⟩ ⟨B2.f 0 c, B2.f 1 c, B2.f 2 c⟩ T1'.real.position T2'.real.position
    (g := (J.f (k * ps.length + j) c).real) (add_le_add p6 o6) (add_le_add p9 o9) (by
      have f1 : F.u * (Vec3.dist (T1 (θ jn)).position (T2 (θ jn)).position + F.tiny) ≤ ε * (L1 + L2 + μ) :=
        mul_le_mul hue (by linarith) (by linarith) he
      linarith) (by
      have f1 : F.u * F.tiny ≤ ε * μ := mul_le_mul hue htμ ht he
      linarith) (htμ.trans hsm.unit) (by
      refine le_trans ?_ hbig
      have hD0 : (0 : ℝ) ≤ D := by positivity
      have hR0 : 0 ≤ R := hL10.trans p11
      have g1 := mul_le_mul (show Vec3.dist X1 X2 + (colBound ε μ A r2 d1 L1 + colBound ε μ A r2 d2 L2) + 1 ≤ 16 * (1 + R + D) by linarith)
        (show Vec3.dist (T1 (θ jn)).position (T2 (θ jn)).position + (posBound ε μ A d1 L1 + posBound ε μ A d2 L2) + 1 ≤ 5 * (1 + R + D) by linarith)
        (by
          have c1 : 0 ≤ 500 * ε * (L1 + μ) := by positivity
          have c2 : 0 ≤ 500 * ε * (L2 + μ) := by positivity
          linarith) (by linarith)
      nlinarith [sq_nonneg (1 + R + D)]) (by rw [hval]; rfl)
  have f4 : F.u * F.tiny ≤ ε * F.tiny := mul_le_mul_of_nonneg_right hue ht
  refine key.trans ?_
  linarith

end

/-! ### The hypotheses are met -/

namespace RoundExample

/-- In IEEE arithmetic the derivatives of the squared distance of the hand from the base are right to seven digits. -/
theorem hand_gradient : ∃ V J s', pySqdists [q] [(2, 1)] [0, 1] .planer true true (s0.withCache stale) = .ok (V, J) s' ∧
    ∀ c s, (c = 0 ∧ s = "slide") ∨ (c = 1 ∧ s = "turn") →
      ∃ (T1 T2 : ℝ → Pose ℝ) (X1 X2 : Vec3 ℝ) (G : ℝ),
        (∀ v, WorldPose ls js (fun w => w = com) (Function.update θ s v) base "hand" (T1 v)) ∧
        (∀ v, WorldPose ls js (fun w => w = com) (Function.update θ s v) base "base" (T2 v)) ∧
        Vec3.HasDeriv (fun v => (T1 v).position) X1 (θ s) ∧ Vec3.HasDeriv (fun v => (T2 v).position) X2 (θ s) ∧
        HasDerivAt (fun v => Vec3.dist (T1 v).position (T2 v).position ^ 2) G (θ s) ∧
        |(J.f 0 c).real - G| ≤ 1 / 10 ^ 7 * (Vec3.dist X1 X2 + Vec3.dist (T1 (θ s)).position (T2 (θ s)).position + 1) := by
  obtain ⟨V, J, s', e, h⟩ := C106_gradient (c := stale) (uc := true) (A := 2) s0_reach shallow stale_fits distArgs (.inr nofun)
    (.inl ⟨⟨"hand", some mass'⟩, by simp [ls'], rfl⟩) robot_near (by simp [js, turn, slide]) unitDesc
    (fun w hw => by rw [hw]; simp [com, Rot.norm2, Rot.one]) axes
    (by have := dbl.u_nonneg; linarith) (by norm_num) small (by rw [big_eq]; norm_num)
  refine ⟨V, J, s', e, fun c s hcs => ?_⟩
  obtain ⟨r, d1, d2, L1, L2, T1, T2, X1, X2, G, E, C, p1, p2, p3, p4, p5, p6, p7, p8, p9, hE, hC, p12⟩ := h 0 0 2 1 c c q "hand" "base" s θ base rfl rfl
    hand_id base_id (by rcases hcs with ⟨rfl, rfl⟩ | ⟨rfl, rfl⟩ <;> rfl)
    (by rw [getJointIds_one, jointIds]; rcases hcs with ⟨rfl, rfl⟩ | ⟨rfl, rfl⟩ <;> simp) angles base_near.1
    (Rot.norm2_fromRPY _ _ _) (by
      intro j hj
      simp only [js, List.mem_cons, List.not_mem_nil, or_false] at hj
      rcases hj with rfl | rfl <;> simp [turn, slide, θ]; norm_num)
    (fun n d L hn h => by
      have := path h
      rcases hn with rfl | rfl
      · simp at this; exact ⟨by omega, this.2⟩
      · simp at this; exact ⟨by omega, by linarith⟩)
  obtain ⟨k1, k2⟩ := path p3
  obtain ⟨k3, k4⟩ := path p4
  simp at k1 k2 k3 k4
  subst k1 k3
  have hr := axes r p1
  have hμ : 0 ≤ μ := by unfold μ; positivity
  have hμ1 := μ_le
  have n1 := path_nonneg p3
  have n2 := path_nonneg p4
  have hu := dbl.u_nonneg
  have bE : E ≤ 11 / 10 ^ 10 := by
    rw [hE]; unfold posBound
    rw [u_eq]
    norm_num
    linarith
  have bC : C ≤ 66 / 10 ^ 10 := by
    rw [hC]; unfold colBound
    rw [u_eq]
    split
    · norm_num
      linarith
    · norm_num
      linarith
  have hE0 : 0 ≤ E := by
    rw [hE]
    exact add_nonneg (posBound_nonneg (by linarith) hμ (by norm_num) n1) (posBound_nonneg (by linarith) hμ (by norm_num) n2)
  have hC0 : 0 ≤ C := by
    rw [hC]
    exact add_nonneg (colBound_nonneg (by linarith) hμ (by norm_num) n1) (colBound_nonneg (by linarith) hμ (by norm_num) n2)
  refine ⟨T1, T2, X1, X2, G, p5, p6, p7, p8, p9, p12.trans ?_⟩
  have v0 : 0 ≤ Vec3.dist X1 X2 := Real.sqrt_nonneg _
  have r0 : 0 ≤ Vec3.dist (T1 (θ s)).position (T2 (θ s)).position := Real.sqrt_nonneg _
  have f1 : (Vec3.dist X1 X2 + C) * E ≤ (Vec3.dist X1 X2 + 1) * (11 / 10 ^ 10) := mul_le_mul (by linarith) bE hE0 (by linarith)
  have f2 := mul_le_mul_of_nonneg_right bC r0
  have f3 : 8 * (200 * dbl.u * 2) * dbl.tiny ≤ 1 / 10 ^ 10 := by
    have := tiny_le
    rw [u_eq]
    norm_num
    linarith
  linarith

end RoundExample
end Tinyfk
