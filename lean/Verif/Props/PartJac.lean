import Verif.Props.Variants
import Verif.Props.Lever

/-!
# C114: Jacobians of a part of a robot
-/

namespace Tinyfk

open Scalar

section
variable {K : Type} [Scalar K] {ls ls' : List (RawLink K)} {js js' : List (RawJoint K)} {m0 m m0' m' : KinModel K} {cs cs' : List (Call K)}

omit [Scalar K] in
/-- a joint on the way to the root is not below the link -/
theorem JointOnPath.height {W : Weld K → Prop} (hW : ∀ w, W w → w.name ∉ ls.map RawLink.name)
    (hends : ∀ j ∈ js, j.parentLinkName ∈ ls.map RawLink.name) {height : String → Nat}
    (hh : ∀ j ∈ js, height j.parentLinkName < height j.childLinkName) {s n : String} (h : JointOnPath js W s n) (hn : n ∈ ls.map RawLink.name) :
    ∃ j ∈ js, j.name = s ∧ height j.childLinkName ≤ height n := by
  induction h with
  | here hj hs => exact ⟨_, hj, hs, Nat.le_refl _⟩
  | up hj _ ih =>
    obtain ⟨j', h1, h2, h3⟩ := ih (hends _ hj)
    exact ⟨j', h1, h2, h3.trans (hh _ hj).le⟩
  | weld hw _ _ => exact absurd hn (hW _ hw)

omit [Scalar K] in
/-- the links of a part are not above its root -/
theorem PartOf.height {r : String} (hp : PartOf ls' js' ls js r) {W' : Weld K → Prop} (hW : ∀ w, W' w → w.name ∉ ls'.map RawLink.name)
    (hends : ∀ j ∈ js', j.parentLinkName ∈ ls'.map RawLink.name) {height : String → Nat}
    (hh : ∀ j ∈ js, height j.parentLinkName < height j.childLinkName) {n : String} {d : Nat} (h : LinkDepth ls' js' W' n d)
    (hn : n ∈ ls'.map RawLink.name) : height r ≤ height n := by
  induction h with
  | root h1 h2 => rw [hp.root _ h1 h2]
  | joint hj _ ih => exact (ih (hends _ hj)).trans (hh _ (hp.joints _ hj)).le
  | weld hw _ _ => exact absurd hn (hW _ hw)

theorem PartOf.onPath_up {r x n : String} (hp : PartOf ls' js' ls js r)
    (hw : ∀ w ∈ weldsAfter (names0 m0') cs', w ∈ weldsAfter (names0 m0) cs) (h : JointOnPath js' (AllWelds ls' m0' cs') x n) :
    JointOnPath js (AllWelds ls m0 cs) x n := by
  induction h with
  | here hj hs => exact .here (hp.joints _ hj) hs
  | up hj _ ih => exact .up (hp.joints _ hj) ih
  | weld h1 _ ih => exact .weld (hp.welds hw _ h1) ih

/-- the way from a link of the part to the root of the whole leads to the root of the part -/
theorem PartOf.onPath_split (h : Reach ls js m0 cs m) {r x : String} (hp : PartOf ls' js' ls js r)
    (hw : ∀ w ∈ weldsAfter (names0 m0') cs', w ∈ weldsAfter (names0 m0) cs) {n : String} {d : Nat}
    (hn : LinkDepth ls' js' (AllWelds ls' m0' cs') n d) (ho : JointOnPath js (AllWelds ls m0 cs) x n) :
    JointOnPath js' (AllWelds ls' m0' cs') x n ∨ JointOnPath js (AllWelds ls m0 cs) x r := by
  obtain ⟨n1, n2⟩ := h.names
  induction hn with
  | root h1 h2 => rw [hp.root _ h1 h2] at ho; exact .inr ho
  | @joint j d hj _ ih =>
    generalize e : j.childLinkName = c at ho
    cases ho with
    | here hj2 hs =>
      obtain rfl := h.tree.eq_of_child (hp.joints _ hj) hj2 e
      exact .inl (e ▸ .here hj hs)
    | up hj2 h2 =>
      obtain rfl := h.tree.eq_of_child (hp.joints _ hj) hj2 e
      exact (ih h2).imp (fun a => .up hj a) id
    | weld hw2 _ => exact absurd (e ▸ (n2 _ (hp.joints _ hj)).2) (n1 _ hw2)
  | @weld w d hww _ ih =>
    have hww' := hp.welds hw _ hww
    generalize e : w.name = c at ho
    cases ho with
    | here hj2 hs => exact absurd (e ▸ (n2 _ hj2).2) (n1 _ hww')
    | up hj2 h2 => exact absurd (e ▸ (n2 _ hj2).2) (n1 _ hww')
    | weld hw2 h2 =>
      obtain rfl := h.abs.desc.weldUnique _ _ hww' hw2 e
      exact (ih h2).imp (fun a => .weld hww a) id

/-- A joint of the part carries a link of the part exactly when it carries it in the whole. -/
theorem PartOf.onPath (h : Reach ls js m0 cs m) (h' : Reach ls' js' m0' cs' m') {r : String} (hp : PartOf ls' js' ls js r)
    (hrl : r ∈ ls.map RawLink.name)
    (hw : ∀ w ∈ weldsAfter (names0 m0') cs', w ∈ weldsAfter (names0 m0) cs) {x : RawJoint K} (hx : x ∈ js') {n : String} {d d' : Nat}
    (hn : LinkDepth ls' js' (AllWelds ls' m0' cs') n d) (hpx : LinkDepth ls' js' (AllWelds ls' m0' cs') x.parentLinkName d') :
    JointOnPath js' (AllWelds ls' m0' cs') x.name n ↔ JointOnPath js (AllWelds ls m0 cs) x.name n := by
  refine ⟨hp.onPath_up hw, fun ho => ?_⟩
  rcases hp.onPath_split h hw hn ho with h1 | h1
  · exact h1
  · obtain ⟨height, hh⟩ := h.tree.acyclic
    obtain ⟨n1, n2⟩ := h.names
    obtain ⟨n1', n2'⟩ := h'.names
    obtain ⟨j, hj, hjn, hle⟩ := h1.height n1 (fun j hj => (n2 j hj).1) hh hrl
    obtain rfl := List.inj_on_of_nodup_map h.abs.desc.jointNodup hj (hp.joints _ hx) hjn
    have := hp.height n1' (fun j hj => (n2' j hj).1) hh hpx (n2' _ hx).1
    have := hh _ hj
    omega

theorem WorldPose.depth {W : Weld K → Prop} {θ : String → K} {b T : Pose K} {n : String} (h : WorldPose ls js W θ b n T) :
    ∃ d, LinkDepth ls js W n d := by
  induction h with
  | root h1 h2 => exact ⟨_, .root h1 h2⟩
  | joint hj _ _ ih => obtain ⟨d, hd⟩ := ih; exact ⟨_, .joint hj hd⟩
  | weld hw _ ih => obtain ⟨d, hd⟩ := ih; exact ⟨_, .weld hw hd⟩

/-- every link of the description has an id -/
theorem Reach.link_id (h : Reach ls js m0 cs m) {n : String} (hn : n ∈ ls.map RawLink.name) : ∃ l, getLinkIds [n] m = .ok [l] m := by
  obtain ⟨r, hr, rfl⟩ := List.mem_map.mp hn
  obtain ⟨l, lk, e, en⟩ := h.abs.desc.all r hr
  exact ⟨l, getLinkIds_one.mpr ((h.abs.inv.graph.linkNames _ _).mpr ⟨lk, e, en⟩)⟩

theorem PartOf.root_mem {r : String} (hp : PartOf ls' js' ls js r) (h' : Reach ls' js' m0' cs' m') : r ∈ ls.map RawLink.name := by
  have hb : (buildModel ls' js').isSome := by
    cases hb : buildModel ls' js' with
    | some _ => rfl
    | none => have := h'.built; rw [hb] at this; simp only [construct] at this; cases this
  obtain ⟨q, ⟨hq1, hq2⟩, _⟩ := ((buildModel_isSome ls' js').mp hb).2.2.2.2
  obtain ⟨l, hl, rfl⟩ := List.mem_map.mp hq1
  rw [← hp.root l hl hq2]
  exact List.mem_map_of_mem (hp.links _ hl)

theorem jointCol_congr {rt : RotType} {E C : Pose K} {j j' : Joint K} (ht : j.type = j'.type) (ha : j.axis = j'.axis) :
    jointCol rt E C j = jointCol rt E C j' := by
  funext r
  unfold jointCol
  rw [ht, ha]

/-- **C114, Jacobians.** The columns of the joints of the part, in the Jacobian of a link of the part, are bit for bit those of the whole. -/
theorem C114_jacobian (h : Reach ls js m0 cs m) (hf : Shallow ls js m0 cs) (h' : Reach ls' js' m0' cs' m') (hf' : Shallow ls' js' m0' cs')
    (hne : (∃ r ∈ ls, r.inertial.isSome) ∨ weldsAfter (names0 m0) cs ≠ [])
    (hne' : (∃ r ∈ ls', r.inertial.isSome) ∨ weldsAfter (names0 m0') cs' ≠ [])
    {r : String} (hp : PartOf ls' js' ls js r) (hw : ∀ w ∈ weldsAfter (names0 m0') cs', w ∈ weldsAfter (names0 m0) cs)
    {θ : String → K} (hθ : AnglesAfter m0 cs θ) (hθ' : AnglesAfter m0' cs' θ) {lr : Nat} (hr : getLinkIds [r] m = .ok [lr] m)
    {B : Pose K} {m2 : KinModel K} (eB : getLinkPose lr m = .ok B m2) (hb : baseAfter Pose.identity cs' = B)
    {n : String} {l l' : Nat} (hn : getLinkIds [n] m = .ok [l] m) (hn' : getLinkIds [n] m' = .ok [l'] m')
    {ids ids' : List Nat} (hi : ∀ i ∈ ids, i < m.joints.length) (hi' : ∀ i ∈ ids', i < m'.joints.length) (rt : RotType) (wb wb' : Bool) :
    ∃ J m3 J' m3', getJacobian l ids rt wb m = .ok J m3 ∧ getJacobian l' ids' rt wb' m' = .ok J' m3' ∧
      ∀ (k k' i i' : Nat) (x : RawJoint K), x ∈ js' → ids[k]? = some i → ids'[k']? = some i' → getJointIds [x.name] m0 = .ok [i] m0 →
        getJointIds [x.name] m0' = .ok [i'] m0' → ∀ a, J.f a k = J'.f a k' := by
  obtain ⟨lk, hlk, hlkn⟩ := h.link hn
  obtain ⟨lk', hlk', hlkn'⟩ := h'.link hn'
  obtain ⟨E, cols, hE, hc, m3, e, _⟩ := h.jacobian hf hne (List.getElem?_eq_some_iff.mp hlk).1 hi rt wb
  obtain ⟨E', cols', hE', hc', m3', e', _⟩ := h'.jacobian hf' hne' (List.getElem?_eq_some_iff.mp hlk').1 hi' rt wb'
  refine ⟨_, m3, _, m3', e, e', ?_⟩
  intro k k' i i' x hx hk hk' hxi hxi' a
  obtain ⟨B', m4, e4, hB⟩ := h.pose_any hf hθ hr
  rw [eB] at e4
  cases e4
  have same : ∀ {n : String} {T T' : Pose K}, WorldPose ls js (AllWelds ls m0 cs) θ (baseAfter Pose.identity cs) n T →
      WorldPose ls' js' (AllWelds ls' m0' cs') θ (baseAfter Pose.identity cs') n T' → (∃ l, getLinkIds [n] m = .ok [l] m) → T = T' := by
    rintro n T T' hT hT' ⟨l, hl⟩
    rw [hb] at hT'
    obtain ⟨T2, _, _, hT2⟩ := h.pose_any hf hθ hl
    rw [(hT2 _).mp hT, (hT2 _).mp (hp.pose (hp.welds hw) ((hB _).mpr rfl) hT')]
  have hEE : E = E' := same ((h.worldPose_iff hθ hn E).mp hE) ((h'.worldPose_iff hθ' hn' E').mp hE') ⟨l, hn⟩
  subst hEE
  have hkl := (List.getElem?_eq_some_iff.mp hk).1
  have hkl' := (List.getElem?_eq_some_iff.mp hk').1
  have len1 := hc.length_eq
  have len2 := hc'.length_eq
  have c1 := hc.get hkl (by omega)
  have c2 := hc'.get hkl' (by omega)
  simp only [List.get_eq_getElem] at c1 c2
  rw [(List.getElem?_eq_some_iff.mp hk).2] at c1
  rw [(List.getElem?_eq_some_iff.mp hk').2] at c2
  obtain ⟨a1, a2⟩ := h.column_world hne (hp.joints _ hx) hxi hn c1 hθ
  obtain ⟨b1, b2⟩ := h'.column_world hne' hx hxi' hn' c2 hθ'
  have hcol : cols[k] = cols'[k'] := by
    obtain ⟨d, hd⟩ := ((h'.worldPose_iff hθ' hn' E).mp hE').depth
    obtain ⟨lp, hlp⟩ := h'.link_id (h'.names.2 _ hx).1
    obtain ⟨P, _, _, hP⟩ := h'.pose_any hf' hθ' hlp
    obtain ⟨d', hd'⟩ := ((hP _).mpr rfl).depth
    have hiff := hp.onPath h h' (hp.root_mem h') hw hx hd hd'
    by_cases hon : JointOnPath js' (AllWelds ls' m0' cs') x.name n
    · obtain ⟨j, C, t1, t2, _, t4, t5⟩ := a2 (hiff.mp hon)
      obtain ⟨j', C', u1, u2, _, u4, u5⟩ := b2 hon
      obtain rfl := same t4 u4 (h.link_id (h.names.2 _ (hp.joints _ hx)).2)
      rw [t5, u5, jointCol_congr (t1.trans u1.symm) (t2.trans u2.symm)]
    · rw [a1 (fun hh => hon (hiff.mpr hh)), b1 hon]
  simp only [jacMat]
  rw [if_pos (by omega : k < cols.length), if_pos (by omega : k' < cols'.length)]
  simp only [List.getD_eq_getElem?_getD, List.getElem?_eq_getElem (by omega : k < cols.length),
    List.getElem?_eq_getElem (by omega : k' < cols'.length), Option.getD_some, hcol]

end

namespace Example

/-- the column of "slide" for "tip", in the whole robot and in the part that "arm" carries -/
example : ∃ m0 m m0' m' l l' i J J' a a',
    Reach ls js m0 (pose2 2 (1/2) ⟨1, 2, 3⟩) m ∧ (∃ cs', Reach partLs partJs m0' cs' m') ∧ getLinkIds ["tip"] m = .ok [l] m ∧
    getLinkIds ["tip"] m' = .ok [l'] m' ∧ getJointIds ["slide"] m0 = .ok [i] m0 ∧ getJacobian l [i] .xyzw false m = .ok J a ∧
    getJacobian l' [0] .xyzw false m' = .ok J' a' ∧ ∀ r, J.f r 0 = J'.f r 0 := by
  obtain ⟨m0, m, h, hf, hθ, hj, ⟨l, hl⟩, _, hw⟩ := posed (some armInertial) (some tipInertial) ⟨0, 0, 1⟩ ⟨1, 0, 0⟩ ⟨1, 0, 0⟩ ⟨⟨0, 0, 1⟩, Rot.one⟩
    ⟨⟨0, 0, 2⟩, Rot.one⟩ ⟨⟨0, 3, 0⟩, Rot.one⟩ 2 (1/2) ⟨1, 2, 3⟩
  change Reach ls js m0 _ m at h
  change Shallow ls js m0 _ at hf
  obtain ⟨m0', h0', ids⟩ := part_built
  obtain ⟨lr, hr⟩ := find_name h (n := "arm") (by simp [ls])
  obtain ⟨B, x, eB, _⟩ := h.pose_ok hf hθ hr
  have l0 := h0'.joint_lt (getJointIds_one.mpr ((ids "slide" 0).mpr ⟨rfl, rfl⟩))
  obtain ⟨m1, e1⟩ : ∃ m1, setJointAngles [0] [2] m0' = .ok () m1 := by
    rw [← h0'.abs.inv.graph.anglesLen] at l0
    exact ⟨_, by simp [setJointAngles, setJointAnglesNC, writeAngles, l0, Bind.bind, Prog.bind, Tinyfk.clearCache]; rfl⟩
  obtain ⟨m2, e2⟩ : ∃ m2, setBasePose B m1 = .ok () m2 := ⟨_, rfl⟩
  have h2 := (h0'.snoc (c := .setJointAngles [0] [2]) e1).snoc (c := .setBasePose B) e2
  obtain ⟨l', hl'⟩ := find_name h2 (n := "tip") (by simp [partLs])
  have him : getJointIds ["slide"] m = .ok [0] m := by
    obtain ⟨i, h1, h2⟩ := getJointIds_get hj (k := 1) (s := "slide") rfl
    simp only [List.getElem?_cons_succ, List.getElem?_cons_zero, Option.some.injEq] at h1
    rwa [← h1] at h2
  have hi : getJointIds ["slide"] m0 = .ok [0] m0 := by
    rw [getJointIds_one, ← h.abs.jointIds]
    exact getJointIds_one.mp him
  obtain ⟨J, a, J', a', e, e', hJ⟩ := C114_jacobian h hf h2 (C08_no_added_link h2 rfl) (.inl ⟨_, by simp [ls]; exact .inr (.inl rfl), rfl⟩)
    (.inl ⟨_, by simp [partLs]; exact .inl rfl, rfl⟩) partOf (by intro w hw; simp [weldsAfter] at hw) hθ (by
    intro s i hs
    rw [getJointIds_one, ids] at hs
    obtain ⟨rfl, rfl⟩ := hs
    simp [value2, angleAfter, lastWrite]) hr eB rfl hl hl' (ids := [0]) (ids' := [0]) (by
      intro i hi'
      rw [List.mem_singleton] at hi'; subst hi'
      exact h.joint_lt him) (by
      intro i hi'
      rw [List.mem_singleton] at hi'; subst hi'
      rw [h2.abs.joints]; exact l0) .xyzw false false
  exact ⟨m0, m, m0', m2, l, l', 0, J, J', a, a', h, ⟨_, h2⟩, hl, hl', hi, e, e', hJ 0 0 0 0 slide (by simp [partJs]) rfl rfl hi
    (getJointIds_one.mpr ((ids "slide" 0).mpr ⟨rfl, rfl⟩))⟩

end Example

end Tinyfk
