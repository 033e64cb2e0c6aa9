import Verif.Props.Ways
import Verif.Props.BatchJac
import Verif.Proofs.RoundCol

/-!
# Properties: lever arms

C126, C127.
-/

namespace Tinyfk

open Scalar Quaternion

section
variable {K : Type} [Scalar K] {ls : List (RawLink K)} {js : List (RawJoint K)} {m0 m : KinModel K} {cs : List (Call K)} {rt : RotType}

/-- The column of a joint, in terms of the description: zero when it does not carry the link, else the column of the joint of the
description, its child link being where the description says. -/
theorem Reach.column_world (h : Reach ls js m0 cs m) (hne : (∃ r ∈ ls, r.inertial.isSome) ∨ weldsAfter (names0 m0) cs ≠ [])
    {x : RawJoint K} (hx : x ∈ js) {i l : Nat} {n : String} (hs : getJointIds [x.name] m0 = .ok [i] m0) (hn : getLinkIds [n] m = .ok [l] m)
    {E : Pose K} {col : Nat → K} (hcol : IsJointCol m rt l E i col) {θ : String → K} (hθ : AnglesAfter m0 cs θ) :
    (¬ JointOnPath js (AllWelds ls m0 cs) x.name n → col = fun _ => 0) ∧
    (JointOnPath js (AllWelds ls m0 cs) x.name n → ∃ (j : Joint K) (C : Pose K), j.type = x.type ∧ j.axis = x.axis ∧ x.type.Movable ∧
      WorldPose ls js (AllWelds ls m0 cs) θ (baseAfter Pose.identity cs) x.childLinkName C ∧ col = jointCol rt E C j) := by
  have g := h.abs.inv.graph
  have hd := h.abs.desc
  have hs : getJointIds [x.name] m = .ok [i] m := by
    rw [getJointIds_one, h.abs.jointIds]
    exact getJointIds_one.mp hs
  obtain ⟨b, hb, hiff⟩ := C10_relevance h hne hs hn
  rcases hcol with ⟨h1, h2⟩ | ⟨jp, j, c, C, h1, h2, h3, h4, _, h6, h7⟩
  · rw [hb] at h1; cases h1
    refine ⟨fun _ => h2, fun hon => ?_⟩
    have := hiff.mpr hon
    cases this
  · rw [hb] at h1; cases h1
    refine ⟨fun hoff => absurd (hiff.mp rfl) hoff, fun _ => ?_⟩
    obtain ⟨j', c', lk, p, g1, _, g3, g4, g5, g6, g7⟩ := g.joint h2
    rw [h3] at g1; cases g1
    rw [h4] at g4; cases g4
    obtain ⟨jp2, j2, f1, f2, f3⟩ := (g.jointNames _ _).mp (getJointIds_one.mp hs)
    rw [h2] at f1; cases f1
    rw [h3] at f2; cases f2
    rcases hd.links c lk g5 with ⟨e, _⟩ | ⟨p', pk, jp', j', k1, k2, k3, k4, hk⟩
    · rw [g7] at e; cases e
    · rw [g6] at k3; cases k3
      rw [h3] at k4; cases k4
      rcases hk with ⟨r, hr, ⟨i0, c1, hraw⟩, _, hrc⟩ | ⟨hw, _⟩
      · have hrx : r = x := by
          refine List.inj_on_of_nodup_map hd.jointNodup hr hx ?_
          rw [← f3, hraw]
          rfl
        subst hrx
        have et : j.type = r.type := by rw [hraw]; rfl
        refine ⟨j, C, et, by rw [hraw]; rfl, et ▸ g3, ?_, h7⟩
        have := (h.worldPose_iff hθ (n := lk.name) (l := c) (getLinkIds_one.mpr ((g.linkNames _ _).mpr ⟨lk, g5, rfl⟩)) C).mp h6
        rwa [hrc]
      · rw [hw] at g3
        simp [newFixedJoint, JointType.Movable] at g3

end

section
variable {ls : List (RawLink ℝ)} {js : List (RawJoint ℝ)} {m0 m : KinModel ℝ} {cs : List (Call ℝ)} {h : List (PyCall ℝ)} {s : PyModel ℝ}
  {c0 : SizedCache (Pose ℝ)} {es ids : List Nat} {ps : List (Nat × Nat)} {bt : BaseType} {rt : RotType} {wj uc : Bool}

/-- a link that hangs on the child of a joint is carried by the joint -/
theorem HangsOn.onPath {W : Weld ℝ → Prop} {θ : String → ℝ} {x : RawJoint ℝ} {n : String} {L : ℝ} (hx : x ∈ js)
    (h : HangsOn js W θ x.childLinkName n L) : JointOnPath js W x.name n := by
  generalize hc : x.childLinkName = c at h
  induction h with
  | here => exact hc ▸ .here hx rfl
  | joint hj _ ih => exact .up hj ih
  | weld hw _ ih => exact .weld hw ih

theorem Rot.len_rotate {q : Rot ℝ} (hq : q.norm2 = 1) (v : Vec3 ℝ) : (q.rotate v).len = v.len := by
  have n1 := Rot.norm_quat hq
  rw [Vec3.len_quat, Vec3.len_quat, Rot.quat_rotate _ (by rw [n1]; exact one_pos), norm_mul, norm_mul, norm_inv, n1]
  simp

/-- the sizes of the column of a joint: of the position rows and of the quaternion rows -/
theorem jointCol_size {E C : Pose ℝ} {j : Joint ℝ} (hE : E.rotation.norm2 = 1) (hC : C.rotation.norm2 = 1) :
    (j.type ≠ .prismatic → j.axis.IsUnit →
      Vec3.len ⟨jointCol rt E C j 0, jointCol rt E C j 1, jointCol rt E C j 2⟩ ≤ Vec3.dist E.position C.position ∧
      (rt = .xyzw → jointCol rt E C j 3 ^ 2 + jointCol rt E C j 4 ^ 2 + jointCol rt E C j 5 ^ 2 + jointCol rt E C j 6 ^ 2 = 1 / 4)) ∧
    (j.type = .prismatic → Vec3.len ⟨jointCol rt E C j 0, jointCol rt E C j 1, jointCol rt E C j 2⟩ = j.axis.len ∧
      ∀ r, 3 ≤ r → jointCol rt E C j r = 0) := by
  refine ⟨fun hp ha => ⟨?_, ?_⟩, fun hp => ⟨?_, ?_⟩⟩
  · have e : (⟨jointCol rt E C j 0, jointCol rt E C j 1, jointCol rt E C j 2⟩ : Vec3 ℝ) =
        Vec3.cross (C.rotation.rotate j.axis) (Vec3.sub E.position C.position) := by
      simp only [jointCol, if_neg hp]
    have h1 := Vec3.cross_len (C.rotation.rotate j.axis) (Vec3.sub E.position C.position)
    have h2 := Rot.len_rotate hC j.axis
    have h3 : j.axis.len = 1 := by
      unfold Vec3.len
      rw [Real.sqrt_eq_one]
      exact ha
    rw [e, Vec3.len_quat, Vec3.dist_quat]
    rw [Vec3.len_quat, h3] at h2
    rw [h2, one_mul, Vec3.quat_sub] at h1
    exact h1
  · rintro rfl
    have e : (⟨jointCol .xyzw E C j 3, jointCol .xyzw E C j 4, jointCol .xyzw E C j 5, jointCol .xyzw E C j 6⟩ : Rot ℝ) =
        qDerivative E.rotation.inverse (C.rotation.rotate j.axis) := by
      simp only [jointCol, if_neg hp]
      rfl
    rw [Rot.qDerivative_inverse hE] at e
    injection e with e1 e2 e3 e4
    rw [e1, e2, e3, e4]
    have h2 := Rot.len_rotate hC j.axis
    have h3 : j.axis.len = 1 := by
      unfold Vec3.len
      rw [Real.sqrt_eq_one]
      exact ha
    rw [h3] at h2
    unfold Vec3.len at h2
    rw [Real.sqrt_eq_one] at h2
    generalize C.rotation.rotate j.axis = a at h2 ⊢
    unfold Rot.norm2 at hE
    have : (a.x ^ 2 + a.y ^ 2 + a.z ^ 2) * (E.rotation.w * E.rotation.w + E.rotation.x * E.rotation.x + E.rotation.y * E.rotation.y + E.rotation.z * E.rotation.z) = 1 := by
      rw [h2, hE, one_mul]
    linear_combination (1 / 4 : ℝ) * this
  · have e : (⟨jointCol rt E C j 0, jointCol rt E C j 1, jointCol rt E C j 2⟩ : Vec3 ℝ) = C.rotation.rotate j.axis := by
      simp only [jointCol, if_pos hp]
    rw [e, Rot.len_rotate hC]
  · intro r hr
    match r, hr with
    | r + 3, _ => simp only [jointCol, if_pos hp]

/-- a column of a Jacobian that was returned -/
theorem Reach.jacobian_column (h : Reach ls js m0 cs m) (hf : Shallow ls js m0 cs)
    (hne : (∃ r ∈ ls, r.inertial.isSome) ∨ weldsAfter (names0 m0) cs ≠ []) {l : Nat} (hl : l < m.links.length)
    (hi : ∀ i ∈ ids, i < m0.joints.length) {wb : Bool} {B : Mat ℝ} {m1 : KinModel ℝ} (eB : getJacobian l ids rt wb m = .ok B m1)
    {c i : Nat} (hc : ids[c]? = some i) :
    ∃ E col, IsPose m l E ∧ IsJointCol m rt l E i col ∧ ∀ r < rt.dim, B.f r c = col r := by
  obtain ⟨E, cols, hE, hcols, m2, e, _⟩ := h.jacobian hf hne hl (ids := ids) (by rw [h.abs.joints]; exact hi) rt wb
  rw [eB] at e
  cases e
  obtain ⟨hc1, hc2⟩ := List.getElem?_eq_some_iff.mp hc
  have hcl : c < cols.length := by rw [← hcols.length_eq]; exact hc1
  have hcol := (List.forall₂_iff_get.mp hcols).2 c hc1 hcl
  simp only [List.get_eq_getElem, hc2] at hcol
  refine ⟨E, cols[c], hE, hcol, fun r hr => ?_⟩
  simp [jacMat, hr, hcl]

/-- **C126.** The position rows of the column of a turning joint in the Jacobian of `solve_fk` are never longer than the way from
its child link to the link: moving the joint at unit speed moves the link at most as fast as the way is long. For a sliding joint
that carries the link they are exactly as long as its axis. The quaternion rows have length 1/2 for a turning joint and vanish for a
sliding one (as do its roll-pitch-yaw rows). -/
theorem C126_solve_fk (hr : PyReach ls js m0 h cs s) (hf : Shallow ls js m0 cs) (hu : UnitDesc js) {qs : QArg ℝ}
    (hc : c0.Fits s.robot.links.length) (ha : FkArgs m0 s qs es ids bt) (huc : bt ≠ .fixed ∨ uc = false)
    (hne : (∃ r ∈ ls, r.inertial.isSome) ∨ weldsAfter (names0 m0) cs ≠ []) :
    ∃ P J s1, pySolveFk qs es ids rt bt true uc (s.withCache c0) = .ok (P, J) s1 ∧
      ∀ (k j l c i : Nat) (q : List ℝ) (n : String) (x : RawJoint ℝ) (θ : String → ℝ) (L : ℝ), qs.rows[k]? = some q → es[j]? = some l →
        getLinkIds [n] s.robot = .ok [l] s.robot → ids[c]? = some i → x ∈ js → getJointIds [x.name] m0 = .ok [i] m0 →
        AnglesAfter m0 (cs ++ configCalls ids bt q) θ → HangsOn js (AllWelds ls m0 cs) θ x.childLinkName n L →
        (x.type ≠ .prismatic →
          Vec3.len ⟨J.f ((k * es.length + j) * rt.width) c, J.f ((k * es.length + j) * rt.width + 1) c,
            J.f ((k * es.length + j) * rt.width + 2) c⟩ ≤ L ∧
          (rt = .xyzw → J.f ((k * es.length + j) * 7 + 3) c ^ 2 + J.f ((k * es.length + j) * 7 + 4) c ^ 2 +
            J.f ((k * es.length + j) * 7 + 5) c ^ 2 + J.f ((k * es.length + j) * 7 + 6) c ^ 2 = 1 / 4)) ∧
        (x.type = .prismatic →
          Vec3.len ⟨J.f ((k * es.length + j) * rt.width) c, J.f ((k * es.length + j) * rt.width + 1) c,
            J.f ((k * es.length + j) * rt.width + 2) c⟩ = x.axis.len ∧
          ∀ r, 3 ≤ r → r < rt.width → J.f ((k * es.length + j) * rt.width + r) c = 0) := by
  obtain ⟨mc, hat⟩ := hr.at
  obtain ⟨P, J, s1, _, e, _, hres⟩ := (hat.withCache hc).pySolveFk (rt := rt) (wj := true) (uc := uc)
    (qs := qs) (es := es) hf ⟨ha.notFlat, ha.nonempty, ha.shape, ha.joints, ha.links⟩ huc (fun _ => hne)
  refine ⟨P, J, s1, e, ?_⟩
  intro k j l c i q n x θ L hk hjl hn hci hx hi hθ hL
  have hql := ha.shape q (List.mem_of_getElem? hk)
  obtain ⟨mk, hmk⟩ := hat.reach.config ha.joints hql
  have hset := configCalls_isSet ids bt q
  have hnk := hat.getLinkIds_config hn hmk hset
  obtain ⟨lk, hlk, _⟩ := hmk.link hnk
  obtain ⟨B, mk1, eB, hB1, hB2, hB3⟩ := hres.jac rfl k j _ q mk hk hjl hmk
  have hne' : (∃ r ∈ ls, r.inertial.isSome) ∨ weldsAfter (names0 m0) (cs ++ configCalls ids bt q) ≠ [] := by rw [welds_sets _ hset]; exact hne
  obtain ⟨E, col, hE, hcol, hent⟩ := hmk.jacobian_column (hf.sets hset) hne' (List.getElem?_eq_some_iff.mp hlk).1 ha.joints eB hci
  have hcw := (hmk.column_world hne' hx hi hnk hcol hθ).2
  have hEw := (hmk.worldPose_iff hθ hnk E).mp hE
  rw [allWelds_sets hset] at hcw hEw
  obtain ⟨jj, C, ht, hax, hmv, hC, rfl⟩ := hcw (hL.onPath hx)
  have hw : ∀ w, AllWelds ls m0 cs w → w.offset.rotation.norm2 = 1 := fun w hw => hr.unitCalls.allWelds hw
  have hb : (baseAfter Pose.identity (cs ++ configCalls ids bt q)).rotation.norm2 = 1 :=
    (hr.unitCalls.append (configCalls_unit ids bt q)).base Rot.norm2_one
  obtain ⟨T, hT, hd⟩ := hL.near hr.supported hu hw hb hC
  have hTE : T = E := by
    have h1 := (hmk.worldPose_iff hθ hnk T).mpr (by rw [allWelds_sets hset]; exact hT)
    exact h1.unique hE
  subst hTE
  have hcl := (List.getElem?_eq_some_iff.mp hci).1
  have hfc : fullCol ids.length bt c = c := by
    unfold fullCol
    split
    · rw [if_neg (by omega)]
    · rfl
  have hent' : ∀ r, r < rt.width → J.f ((k * es.length + j) * rt.width + r) c = jointCol rt T C jj r := fun r hr => by
    rw [hB3 r hr c (by omega), hfc]
    exact hent r (lt_of_lt_of_eq hr (by cases rt <;> rfl))
  obtain ⟨z1, z2⟩ := jointCol_size (rt := rt) (j := jj) (hT.unit hu hw hb) (hC.unit hu hw hb)
  have h3 : 3 ≤ rt.width := by cases rt <;> decide
  have e0 := hent' 0 (by omega)
  rw [add_zero] at e0
  rw [e0, hent' 1 (by omega), hent' 2 (by omega)]
  rw [ht, hax] at z1 z2
  refine ⟨fun hp => ?_, fun hp => ⟨(z2 hp).1, fun r r3 rw' => ?_⟩⟩
  · have hun : x.axis.IsUnit := (hu x hx).2 (by
      rcases hmv with h | h | h
      · exact .inl h
      · exact .inr h
      · exact absurd h hp)
    obtain ⟨y1, y2⟩ := z1 hp hun
    refine ⟨y1.trans hd, fun hrt => ?_⟩
    subst hrt
    have h7 : RotType.width .xyzw = 7 := rfl
    rw [h7] at hent'
    rw [hent' 3 (by decide), hent' 4 (by decide), hent' 5 (by decide), hent' 6 (by decide)]
    exact y2 rfl
  · rw [hent' r rw']
    exact (z2 hp).2 r r3

/-- the size of a column entry by entry against a vector -/
theorem Vec3.dot_le (u v : Vec3 ℝ) : |u.x * v.x + u.y * v.y + u.z * v.z| ≤ u.len * v.len := by
  unfold Vec3.len
  rw [← Real.sqrt_mul (by positivity)]
  refine Real.abs_le_sqrt ?_
  nlinarith [sq_nonneg (u.x * v.y - u.y * v.x), sq_nonneg (u.x * v.z - u.z * v.x), sq_nonneg (u.y * v.z - u.z * v.y)]

/-- **C127.** The gradients of `compute_inter_link_sqdists`. A joint that carries both links or neither does not change
their distance: its entry is zero. A joint that carries one of them: the entry is at most twice the distance times the way from
the child of the joint to the link (turning), or times the length of the axis (sliding). -/
theorem C127_gradient (hr : PyReach ls js m0 h cs s) (hf : Shallow ls js m0 cs) {qs : List (List ℝ)}
    (hc : c0.Fits s.robot.links.length) (ha : DistArgs m0 s qs ps ids bt) (huc : uc = false ∨ bt ≠ .fixed)
    (hne : (∃ r ∈ ls, r.inertial.isSome) ∨ weldsAfter (names0 m0) cs ≠ []) :
    ∃ V J s1, pySqdists qs ps ids bt true uc (s.withCache c0) = .ok (V, J) s1 ∧
      ∀ (k j l1 l2 c i : Nat) (q : List ℝ) (n1 n2 : String) (x : RawJoint ℝ), qs[k]? = some q → ps[j]? = some (l1, l2) →
        getLinkIds [n1] s.robot = .ok [l1] s.robot → getLinkIds [n2] s.robot = .ok [l2] s.robot → ids[c]? = some i → x ∈ js →
        getJointIds [x.name] m0 = .ok [i] m0 →
        ((JointOnPath js (AllWelds ls m0 cs) x.name n1 ↔ JointOnPath js (AllWelds ls m0 cs) x.name n2) → J.f (k * ps.length + j) c = 0) ∧
        (UnitDesc js → ∀ (θ : String → ℝ) (L : ℝ), AnglesAfter m0 (cs ++ configCalls ids bt q) θ →
          (HangsOn js (AllWelds ls m0 cs) θ x.childLinkName n1 L ∧ ¬ JointOnPath js (AllWelds ls m0 cs) x.name n2 ∨
            HangsOn js (AllWelds ls m0 cs) θ x.childLinkName n2 L ∧ ¬ JointOnPath js (AllWelds ls m0 cs) x.name n1) →
          |J.f (k * ps.length + j) c| ≤ 2 * √(V.f (k * ps.length + j) 0) * if x.type = .prismatic then x.axis.len else L) := by
  obtain ⟨mc, hat⟩ := hr.at
  obtain ⟨V, J, s1, e, hres⟩ := hr.sqdists (wj := true) hf hc ha huc (fun _ => hne)
  refine ⟨V, J, s1, e, ?_⟩
  intro k j l1 l2 c i q n1 n2 x hk hj hn1 hn2 hci hx hi
  have hql := ha.shape q (List.mem_of_getElem? hk)
  obtain ⟨mk, hmk⟩ := hat.reach.config ha.joints hql
  have hset := configCalls_isSet ids bt q
  have hk1 := hat.getLinkIds_config hn1 hmk hset
  have hk2 := hat.getLinkIds_config hn2 hmk hset
  obtain ⟨lk1, hlk1, _⟩ := hmk.link hk1
  obtain ⟨lk2, hlk2, _⟩ := hmk.link hk2
  have hne' : (∃ r ∈ ls, r.inertial.isSome) ∨ weldsAfter (names0 m0) (cs ++ configCalls ids bt q) ≠ [] := by rw [welds_sets _ hset]; exact hne
  obtain ⟨T1, _, T2, _, B1, _, B2, _, f1, f2, f3, f4, f5⟩ := hres.grad rfl k j l1 l2 q mk hk hj hmk
  obtain ⟨U1, _, U2, _, g1, g2, hV⟩ := hres.dist k j l1 l2 q mk hk hj hmk
  rw [f1] at g1
  rw [f2] at g2
  cases g1
  cases g2
  obtain ⟨E1, col1, hE1, hcol1, hent1⟩ := hmk.jacobian_column (hf.sets hset) hne' (List.getElem?_eq_some_iff.mp hlk1).1 ha.joints f3 hci
  obtain ⟨E2, col2, hE2, hcol2, hent2⟩ := hmk.jacobian_column (hf.sets hset) hne' (List.getElem?_eq_some_iff.mp hlk2).1 ha.joints f4 hci
  obtain ⟨_, y1, _⟩ := (Query.getLinkPose hE1).run (hmk.ready (hf.sets hset))
  obtain ⟨_, y2, _⟩ := (Query.getLinkPose hE2).run (hmk.ready (hf.sets hset))
  rw [f1] at y1
  rw [f2] at y2
  cases y1
  cases y2
  have hcl := (List.getElem?_eq_some_iff.mp hci).1
  have hfc : fullCol ids.length bt c = c := by
    unfold fullCol
    split
    · rw [if_neg (by omega)]
    · rfl
  have hJ : J.f (k * ps.length + j) c = 2 * ((col1 0 - col2 0) * (T1.position.x - T2.position.x) +
      (col1 1 - col2 1) * (T1.position.y - T2.position.y) + (col1 2 - col2 2) * (T1.position.z - T2.position.z)) := by
    rw [f5 c (by omega), hfc]
    unfold sqDistGrad
    rw [hent1 0 (by decide), hent1 1 (by decide), hent1 2 (by decide), hent2 0 (by decide), hent2 1 (by decide), hent2 2 (by decide)]
    simp only [real_two]
    ring
  refine ⟨fun hiff => ?_, fun hu θ L hθ hcase => ?_⟩
  · obtain ⟨θ, hθ⟩ := exists_angles m0 (cs ++ configCalls ids bt q)
    obtain ⟨a1, a2⟩ := hmk.column_world hne' hx hi hk1 hcol1 hθ
    obtain ⟨b1, b2⟩ := hmk.column_world hne' hx hi hk2 hcol2 hθ
    rw [allWelds_sets hset] at a1 a2 b1 b2
    rw [hJ]
    by_cases ho : JointOnPath js (AllWelds ls m0 cs) x.name n1
    · obtain ⟨j1, C1, t1, x1, _, w1, rfl⟩ := a2 ho
      obtain ⟨j2, C2, t2, x2, _, w2, rfl⟩ := b2 (hiff.mp ho)
      have hCC : C1 = C2 := by
        have g := hmk.abs.inv.graph
        have w := fun {T : Pose ℝ} (hT : WorldPose ls js (AllWelds ls m0 cs) θ (baseAfter Pose.identity (cs ++ configCalls ids bt q)) x.childLinkName T) =>
          hmk.abs.desc.isPose g hmk.tree (hmk.abs.anglesAre hθ.find) (n := x.childLinkName) (T := T) (by
            rw [hmk.abs.base]
            show WorldPose ls js (AllWelds ls m0 (cs ++ configCalls ids bt q)) _ _ _ _
            rw [allWelds_sets hset]
            exact hT)
        obtain ⟨d1, k1, u1, v1, p1⟩ := w w1
        obtain ⟨d2, k2, u2, v2, p2⟩ := w w2
        have e1 := (g.linkNames _ _).mpr ⟨k1, u1, v1⟩
        rw [(g.linkNames _ _).mpr ⟨k2, u2, v2⟩] at e1
        cases e1
        exact p1.unique p2
      subst hCC
      simp only [jointCol, t1, t2, x1, x2]
      split
      · simp
      · simp only [Vec3.cross, Vec3.sub]
        ring
    · rw [a1 ho, b1 (fun h => ho (hiff.mpr h))]
      simp
  · have hw : ∀ w, AllWelds ls m0 cs w → w.offset.rotation.norm2 = 1 := fun w hw => hr.unitCalls.allWelds hw
    have hb : (baseAfter Pose.identity (cs ++ configCalls ids bt q)).rotation.norm2 = 1 :=
      (hr.unitCalls.append (configCalls_unit ids bt q)).base Rot.norm2_one
    have key : ∀ {l : Nat} {n : String} {T : Pose ℝ} {col : Nat → ℝ}, getLinkIds [n] mk = .ok [l] mk → IsPose mk l T →
        IsJointCol mk .ignore l T i col → HangsOn js (AllWelds ls m0 cs) θ x.childLinkName n L →
        Vec3.len ⟨col 0, col 1, col 2⟩ ≤ if x.type = .prismatic then x.axis.len else L := by
      intro l n T col hn hT hcol hL
      have a2 := (hmk.column_world hne' hx hi hn hcol hθ).2
      rw [allWelds_sets hset] at a2
      obtain ⟨jj, C, t1, x1, hmv, w1, rfl⟩ := a2 (hL.onPath hx)
      obtain ⟨U, hU, hd⟩ := hL.near hr.supported hu hw hb w1
      have hUT : U = T := by
        have h1 := (hmk.worldPose_iff hθ hn U).mpr (by rw [allWelds_sets hset]; exact hU)
        exact h1.unique hT
      subst hUT
      obtain ⟨z1, z2⟩ := jointCol_size (rt := .ignore) (j := jj) (hU.unit hu hw hb) (w1.unit hu hw hb)
      rw [t1, x1] at z1 z2
      split
      · rename_i hp
        exact (z2 hp).1.le
      · rename_i hp
        refine (z1 hp ((hu x hx).2 ?_)).1.trans hd
        rcases hmv with h | h | h
        · exact .inl h
        · exact .inr h
        · exact absurd h hp
    have hdist : √(V.f (k * ps.length + j) 0) = Vec3.len ⟨T1.position.x - T2.position.x, T1.position.y - T2.position.y, T1.position.z - T2.position.z⟩ := by
      rw [hV]
      unfold sqDist Vec3.len
      congr 1
      ring
    have h0 := Vec3.len_nonneg (⟨T1.position.x - T2.position.x, T1.position.y - T2.position.y, T1.position.z - T2.position.z⟩ : Vec3 ℝ)
    rw [hdist, hJ, abs_mul, abs_two, mul_assoc]
    refine mul_le_mul_of_nonneg_left ?_ (by norm_num)
    rcases hcase with ⟨hL, hoff⟩ | ⟨hL, hoff⟩
    · have b1 := (hmk.column_world hne' hx hi hk2 hcol2 hθ).1
      rw [allWelds_sets hset] at b1
      rw [b1 hoff]
      have h1 := Vec3.dot_le ⟨col1 0, col1 1, col1 2⟩ ⟨T1.position.x - T2.position.x, T1.position.y - T2.position.y, T1.position.z - T2.position.z⟩
      simp only [sub_zero]
      rw [mul_comm (Vec3.len _)]
      exact h1.trans (mul_le_mul_of_nonneg_right (key hk1 hE1 hcol1 hL) h0)
    · have b1 := (hmk.column_world hne' hx hi hk1 hcol1 hθ).1
      rw [allWelds_sets hset] at b1
      rw [b1 hoff]
      have h1 := Vec3.dot_le ⟨col2 0, col2 1, col2 2⟩ ⟨T1.position.x - T2.position.x, T1.position.y - T2.position.y, T1.position.z - T2.position.z⟩
      simp only [zero_sub, neg_mul, ← neg_add, abs_neg]
      rw [mul_comm (Vec3.len _)]
      exact h1.trans (mul_le_mul_of_nonneg_right (key hk2 hE2 hcol2 hL) h0)

/-- **C127, values.** Changing the value of a joint that carries both links or neither (in the last entry that lists it) does not change
their distance. -/
theorem C127_value (hr : PyReach ls js m0 h cs s) (hf : Shallow ls js m0 cs) (hu : UnitDesc js) {qs : List (List ℝ)}
    (hc : c0.Fits s.robot.links.length) (ha : DistArgs m0 s qs ps ids bt) (huc : uc = false ∨ bt ≠ .fixed)
    (hne : (∃ r ∈ ls, r.inertial.isSome) ∨ weldsAfter (names0 m0) cs ≠ []) {k j l1 l2 c i : Nat} {q : List ℝ} {n1 n2 : String}
    {x : RawJoint ℝ} (hk : qs[k]? = some q) (hj : ps[j]? = some (l1, l2)) (hn1 : getLinkIds [n1] s.robot = .ok [l1] s.robot)
    (hn2 : getLinkIds [n2] s.robot = .ok [l2] s.robot) (hci : ids[c]? = some i) (hx : x ∈ js) (hi : getJointIds [x.name] m0 = .ok [i] m0)
    (hl : LastListing ids c)
    (hiff : JointOnPath js (AllWelds ls m0 cs) x.name n1 ↔ JointOnPath js (AllWelds ls m0 cs) x.name n2) (v : ℝ) :
    ∃ V J s1 V' J' s2, pySqdists qs ps ids bt true uc (s.withCache c0) = .ok (V, J) s1 ∧
      pySqdists (qs.set k (q.set c v)) ps ids bt true uc (s.withCache c0) = .ok (V', J') s2 ∧
      V'.f (k * ps.length + j) 0 = V.f (k * ps.length + j) 0 := by
  have hcl := (List.getElem?_eq_some_iff.mp hci).1
  obtain ⟨hkl, hkq⟩ := List.getElem?_eq_some_iff.mp hk
  have hql := ha.shape q (List.mem_of_getElem? hk)
  have hcq : c < q.length := by omega
  have hargs : ∀ v, DistArgs m0 s (qs.set k (q.set c v)) ps ids bt := by
    intro v
    refine ⟨ha.nonempty, fun q' hq' => ?_, ha.joints, ha.links⟩
    rcases List.mem_or_eq_of_mem_set hq' with h | rfl
    · exact ha.shape q' h
    · rw [List.length_set]; exact hql
  have step : ∀ v, ∃ V J s1, pySqdists (qs.set k (q.set c v)) ps ids bt true uc (s.withCache c0) = .ok (V, J) s1 ∧ J.f (k * ps.length + j) c = 0 ∧
      ∃ D : ℝ → ℝ, (∀ w, ∃ V' J' s'', pySqdists (qs.set k (q.set c w)) ps ids bt true uc (s.withCache c0) = .ok (V', J') s'' ∧
        V'.f (k * ps.length + j) 0 = D w) ∧ HasDerivAt D 0 v := by
    intro v
    obtain ⟨V, J, s1, e, hz⟩ := C127_gradient hr hf hc (hargs v) huc hne
    obtain ⟨V2, J2, s2, e2, hd⟩ := C36_gradient hr hf hu hc (hargs v) huc hne
    rw [e] at e2
    cases e2
    have hk' : (qs.set k (q.set c v))[k]? = some (q.set c v) := by simp [hkl]
    have h0 := (hz k j l1 l2 c i _ n1 n2 x hk' hj hn1 hn2 hci hx hi).1 hiff
    obtain ⟨D, hD, hder⟩ := hd k j c _ v hk' (List.getElem?_eq_some_iff.mp hj).1 hcl (by simp [hcq]) hl
    rw [h0] at hder
    refine ⟨V, J, s1, e, h0, D, fun w => ?_, hder⟩
    have := hD w
    rwa [List.set_set, List.set_set] at this
  obtain ⟨V, J, s1, e, _, D, hD, _⟩ := step v
  have hder : ∀ w, HasDerivAt D 0 w := by
    intro w
    obtain ⟨_, _, _, _, _, D', hD', hder⟩ := step w
    have : D' = D := by
      funext u
      obtain ⟨V1, _, _, e1, x1⟩ := hD u
      obtain ⟨V2, _, _, e2, x2⟩ := hD' u
      rw [e1] at e2
      cases e2
      rw [← x1, ← x2]
    rwa [this] at hder
  have hconst := is_const_of_deriv_eq_zero (f := D) (fun w => (hder w).differentiableAt) (fun w => (hder w).deriv)
  obtain ⟨V1, J1, t1, e1, x1⟩ := hD v
  obtain ⟨V2, J2, t2, e2, x2⟩ := hD q[c]
  rw [List.set_getElem_self, ← hkq, List.set_getElem_self] at e2
  exact ⟨V2, J2, t2, V1, J1, t1, e2, e1, by rw [x1, x2]; exact hconst _ _⟩

end

namespace Example

/-! ### The hypotheses are met -/

example := C126_solve_fk (uc := true) (rt := .xyzw) s1_reach s1_shallow unitDesc bad_fits (a1_args s1_links) (.inl (by decide)) (.inl inertial)

example := C127_gradient (uc := true) s1_reach s1_shallow bad_fits (distArgs s1_links) (.inr (by decide)) (.inl inertial)

theorem turn_arm (W : Weld ℝ → Prop) : JointOnPath js W turn.name "arm" := .here (j := turn) (by simp [js]) rfl

theorem turn_tip (W : Weld ℝ → Prop) : JointOnPath js W turn.name "tip" :=
  .up (j := weld) (by simp [js]) (.up (j := slide) (by simp [js]) (turn_arm W))

/-- Whatever value "turn" takes, the squared distance of "tip" and "arm" stays the same. -/
example (v : ℝ) : ∃ V J s2 V' J' s3,
    pySqdists [[1, 2, 3, 4, 5], [0, 0, 1, 1, 2]] [(3, 0), (2, 2)] [0, 1] .planer true true (s1.withCache bad) = .ok (V, J) s2 ∧
    pySqdists [[1, 2, 3, 4, 5], [0, v, 1, 1, 2]] [(3, 0), (2, 2)] [0, 1] .planer true true (s1.withCache bad) = .ok (V', J') s3 ∧
    V'.f 2 0 = V.f 2 0 := by
  obtain ⟨mc, hat⟩ := s1_reach.at
  have hid : ∀ (i : Nat) (n : String), ["arm", "base", "hand", "tip", "arm_com", "tip_com"][i]? = some n → getLinkIds [n] s1.robot = .ok [i] s1.robot := by
    intro i n hi
    rw [getLinkIds_one]
    have hc : s1.robot.linkIds = mc.linkIds := by
      obtain ⟨⟨st, c, e⟩, _⟩ := hat.same
      rw [e]
    have : (mc.links.map Link.name)[i]? = some n := by
      rw [hat.reach.abs.names, cs1, List.append_nil, sets_links _ (batchCalls_isSet _ _ _)]
      show (m0.links.map Link.name)[i]? = _
      rw [linkNames]
      exact hi
    rw [List.getElem?_map, Option.map_eq_some_iff] at this
    rw [hc, hat.reach.abs.inv.graph.linkNames]
    exact this
  have hturn : getJointIds [turn.name] m0 = .ok [1] m0 := by
    rw [getJointIds_one, jointIds]
    simp [turn]
  exact C127_value (x := turn) (k := 1) (j := 0) (c := 1) s1_reach s1_shallow unitDesc bad_fits (distArgs s1_links) (.inr (by decide)) (.inl inertial) rfl rfl
    (hid 3 _ rfl) (hid 0 _ rfl) rfl (by simp [js]) hturn (by intro c' hc'; match c', hc' with | c' + 2, _ => simp)
    ⟨fun _ => turn_arm _, fun _ => turn_tip _⟩ v

end Example

end Tinyfk
