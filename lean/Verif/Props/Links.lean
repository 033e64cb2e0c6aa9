import Verif.Props.Names

/-!
# Properties: Jacobian safety, off-path joints, conservative extension

C09, C11, C16.
-/

set_option linter.unusedSectionVars false

namespace Tinyfk

open Scalar

section
variable {K : Type} [Scalar K]
variable {ls : List (RawLink K)} {js : List (RawJoint K)} {m0 m : KinModel K} {cs : List (Call K)}

/-- no link is deeper than the description has links (C08) -/
def Shallow (ls : List (RawLink K)) (js : List (RawJoint K)) (m0 : KinModel K) (cs : List (Call K)) :
    Prop := ∀ n d, LinkDepth ls js (AllWelds ls m0 cs) n d → d ≤ ls.length

theorem Reach.fits (h : Reach ls js m0 cs m) (hf : Shallow ls js m0 cs) : FitsStack m := by
  intro l d hd
  have hlk := List.getElem?_eq_getElem hd.lt
  rw [h.cap]
  exact hf _ d ((h.abs.desc.depth_iff h.abs.inv.graph h.tree hlk).mp hd)

theorem Reach.ready (h : Reach ls js m0 cs m) (hf : Shallow ls js m0 cs) : Ready m :=
  h.abs.inv.ready (h.fits hf)

theorem Reach.link_lt (h : Reach ls js m0 cs m) {n : String} {l : Nat}
    (hn : getLinkIds [n] m = .ok [l] m) : l < m.links.length := by
  obtain ⟨lk, h1, _⟩ := h.link hn
  exact (List.getElem?_eq_some_iff.mp h1).1

theorem Reach.joint_lt (h : Reach ls js m0 cs m) {s : String} {i : Nat}
    (hs : getJointIds [s] m = .ok [i] m) : i < m.joints.length := by
  obtain ⟨jp, j, hj, _⟩ := (h.abs.inv.graph.jointNames s i).mp (getJointIds_one.mp hs)
  exact (List.getElem?_eq_some_iff.mp hj).1

theorem Reach.root_pose (h : Reach ls js m0 cs m) : IsPose m m.rootLinkId m.base := by
  obtain ⟨lk, h1, h2⟩ := h.abs.inv.graph.root
  exact .root h1 h2

/-- the value of the Jacobian of a reached state -/
theorem Reach.jacobian (h : Reach ls js m0 cs m) (hf : Shallow ls js m0 cs)
    (hne : (∃ r ∈ ls, r.inertial.isSome) ∨ weldsAfter (names0 m0) cs ≠ [])
    {l : Nat} (hl : l < m.links.length) {ids : List Nat} (hi : ∀ i ∈ ids, i < m.joints.length)
    (rt : RotType) (wb : Bool) : ∃ tfE cols, IsPose m l tfE ∧
      List.Forall₂ (IsJointCol m rt l tfE) ids cols ∧
      ∃ m', getJacobian l ids rt wb m = .ok (jacMat rt cols tfE (if wb then some m.base else none)) m' ∧
        SameRobot m m' ∧ Ready m' := by
  obtain ⟨tfE, hE⟩ := h.abs.inv.exists_pose hl
  obtain ⟨cols, hc⟩ := (h.rpOK hne).exists_cols h.abs.inv.graph rt hl hi tfE
  refine ⟨tfE, cols, hE, hc, ?_⟩
  exact (Query.getJacobian hE hc wb (fun _ => h.root_pose)).run (h.ready hf)

/-- **C09 (partial).** If some link of the description has an `<inertial>` or a link has been
added, a Jacobian of existing links and joints never crashes. Missing: descriptions without
inertial, for which it does (`C09_no_table`). -/
theorem C09_jacobian_safe_partial (h : Reach ls js m0 cs m) (hf : Shallow ls js m0 cs)
    (hne : (∃ r ∈ ls, r.inertial.isSome) ∨ weldsAfter (names0 m0) cs ≠ [])
    {n : String} {l : Nat} (hn : getLinkIds [n] m = .ok [l] m)
    {names : List String} {ids : List Nat} (hi : getJointIds names m = .ok ids m)
    (rt : RotType) (wb : Bool) : ∃ J m', getJacobian l ids rt wb m = .ok J m' := by
  obtain ⟨tfE, cols, _, _, m', e, _⟩ := h.jacobian hf hne (h.link_lt hn) (ids := ids) (by
    intro i hi'
    have hfa := (getJointIds_ok.mp hi).2
    clear hi
    induction hfa with
    | nil => cases hi'
    | cons a _ ih =>
      rcases List.mem_cons.mp hi' with rfl | hi'
      · exact h.joint_lt (getJointIds_one.mpr a)
      · exact ih hi') rt wb
  exact ⟨_, m', e⟩

/-- **C09 is false.** If no link of the description has an `<inertial>` and no link was added,
every Jacobian with a joint in it reads an empty relevance table out of bounds (unless the
pose query before it already overflowed). -/
theorem C09_no_table (h : Reach ls js m0 cs m) (hin : ∀ r ∈ ls, r.inertial = none)
    (hw : weldsAfter (names0 m0) cs = []) (l i : Nat) (ids : List Nat) (rt : RotType) (wb : Bool) :
    ∃ u, getJacobian l (i :: ids) rt wb m = .ub u := by
  have hcom : m0.comDummy = [] := by
    obtain ⟨sorted, hp, _, _, hfa, _⟩ := h.constructed.order
    have : withInertial sorted = [] := by
      simp only [withInertial, List.filterMap_eq_nil_iff]
      intro r hr
      simp [hin r (hp.mem_iff.mp hr)]
    rw [this] at hfa
    exact List.forall₂_nil_right_iff.mp hfa
  have hrp : m.rptable = [] := (h.abs.noRp hw).trans (h.constructed.noRp hcom)
  have hi := h.abs.inv
  simp only [getJacobian, Prog.bind_apply]
  rcases getLinkPose_total hi.graph.tree hi.sized hi.coh l with ⟨T, m', e, _, ⟨⟨st, c, he⟩, _⟩, _⟩ | ⟨u, hu⟩
  · rw [e]
    refine ⟨.outOfBounds "rptable row", ?_⟩
    have : m'.rptable = [] := by rw [he]; exact hrp
    simp only [jacJointLoop, Prog.bind_apply, jacJoint, Prog.read, RpTable.isRelevant, this,
      List.getElem?_nil]
  · rw [hu]
    exact ⟨u, rfl⟩

/-- **C11 (poses).** Writing the angle of a joint that is not between the root and link `n`
leaves the pose of `n` as it was, bit for bit. -/
theorem C11_off_path_pose (h : Reach ls js m0 cs m) (hf : Shallow ls js m0 cs)
    {s n : String} {i l : Nat} (hs : getJointIds [s] m = .ok [i] m)
    (hn : getLinkIds [n] m = .ok [l] m) (hoff : ¬ JointOnPath js (AllWelds ls m0 cs) s n) (v : K) :
    ∃ m1 T m2 m3, setJointAngles [i] [v] m = .ok () m1 ∧ getLinkPose l m = .ok T m2 ∧
      getLinkPose l m1 = .ok T m3 := by
  have hA := h.abs
  have hfi := getJointIds_one.mp hs
  obtain ⟨jp, j, hj, hjh, _⟩ := (hA.inv.graph.jointNames s i).mp hfi
  obtain ⟨lk, h1, rfl⟩ := h.link hn
  have hoff' : ¬ OnPath m jp l := fun hp => hoff ((hA.desc.onPath_iff hA.inv.graph h.tree hfi hj h1).mp hp)
  have hilt : i < m.angles.length := by
    rw [hA.inv.graph.anglesLen]; exact (List.getElem?_eq_some_iff.mp hj).1
  have hset : setJointAngles [i] [v] m =
      .ok () { m with angles := m.angles.set i v, cache := m.cache.clear } := by
    simp only [setJointAngles, Prog.bind_apply, setJointAnglesNC, writeAngles, hilt, if_true,
      clearCache, Prog.modify]
  have hinv1 : Inv { m with angles := m.angles.set i v, cache := m.cache.clear } :=
    hA.inv.setAngles _ (by simp)
  have hfits1 : FitsStack { m with angles := m.angles.set i v, cache := m.cache.clear } :=
    FitsStack.congr (m := m) rfl rfl (h.fits hf)
  have hready1 := hinv1.ready hfits1
  obtain ⟨T, hT⟩ := hA.inv.exists_pose (h.link_lt hn)
  have key : ∀ {l : Nat} {T : Pose K}, IsPose m l T → ¬ OnPath m jp l →
      IsPose { m with angles := m.angles.set i v, cache := m.cache.clear } l T := by
    intro l T hT
    induction hT with
    | root e1 e2 => intro _; exact IsPose.root (m := { m with angles := m.angles.set i v, cache := m.cache.clear }) e1 e2
    | @child l p jp' lk' j' T' B e1 e2 e3 e4 e5 e6 ih =>
      intro hno
      refine IsPose.child (m := { m with angles := m.angles.set i v, cache := m.cache.clear }) e1 e2 e3 e4 ?_
        (ih fun hp => hno (.up e1 e2 hp))
      have hne : jp' ≠ jp := by
        rintro rfl
        exact hno (.here e1 e2 e3)
      cases e5 with
      | fixed ht => exact .fixed ht
      | @movable i' θ M f1 f2 f3 =>
        refine .movable f1 ?_ f3
        have hii : i' ≠ i := by
          rintro rfl
          obtain ⟨jp2, j2, g1, g2, g3⟩ := hA.inv.graph.pjoint e1 e2
          rw [e3] at g1; cases g1
          rw [e4] at g2; cases g2
          rcases g3 with g3 | ⟨_, k, g4, g5⟩
          · cases f3 with
            | rot hr => rcases hr with hr | hr <;> rw [hr] at g3 <;> cases g3
            | slide hr => rw [hr] at g3; cases g3
          · rw [f1] at g4; cases g4
            rw [hj] at g5; cases g5
            exact hne rfl
        show (m.angles.set i v)[i']? = some θ
        rw [List.getElem?_set_ne (Ne.symm hii)]
        exact f2
  obtain ⟨m2, q1, _⟩ := getLinkPose_spec (h.ready hf) hT
  obtain ⟨m3, q2, _⟩ := getLinkPose_spec hready1 (key hT hoff')
  exact ⟨_, T, m2, m3, hset, q1, q2⟩

/-- **C11 (Jacobians).** The column of a joint that is not between the root and link `n` is
zero in the Jacobian of `n`. -/
theorem C11_off_path_column (h : Reach ls js m0 cs m) (hf : Shallow ls js m0 cs)
    (hne : (∃ r ∈ ls, r.inertial.isSome) ∨ weldsAfter (names0 m0) cs ≠ [])
    {s n : String} {i l k : Nat} (hs : getJointIds [s] m = .ok [i] m)
    (hn : getLinkIds [n] m = .ok [l] m) (hoff : ¬ JointOnPath js (AllWelds ls m0 cs) s n)
    {ids : List Nat} (hids : ∀ i ∈ ids, i < m.joints.length) (hk : ids[k]? = some i)
    {rt : RotType} {wb : Bool} {J : Mat K} {m' : KinModel K}
    (hJ : getJacobian l ids rt wb m = .ok J m') (r : Nat) : J.f r k = 0 := by
  obtain ⟨tfE, cols, _, hc, m2, e, _⟩ := h.jacobian hf hne (h.link_lt hn) hids rt wb
  rw [hJ] at e; cases e
  obtain ⟨b, hb, hiff⟩ := C10_relevance h hne hs hn
  have hbf : b = false := by
    cases b
    · rfl
    · exact absurd (hiff.mp rfl) hoff
  subst hbf
  have hklt : k < ids.length := (List.getElem?_eq_some_iff.mp hk).1
  have hkc : k < cols.length := by rw [← hc.length_eq]; exact hklt
  have hcol := (List.forall₂_iff_get.mp hc).2 k hklt hkc
  simp only [List.get_eq_getElem] at hcol
  have : ids[k] = i := (List.getElem?_eq_some_iff.mp hk).2
  rw [this] at hcol
  simp only [jacMat, hkc, if_true, List.getD_eq_getElem?_getD, List.getElem?_eq_getElem hkc, Option.getD_some]
  split
  · rcases hcol with ⟨_, hz⟩ | ⟨_, _, _, _, hrel, _⟩
    · rw [hz]
    · rw [hb] at hrel; cases hrel
  · rfl

/-- what `add_new_link` does to a reached state -/
theorem Reach.addLink_eq (h : Reach ls js m0 cs m) {name : String} {parent l' : Nat} {o : Pose K}
    {m' : KinModel K} (ha : addNewLink name parent o m = .ok l' m') :
    m.linkIds.find name = none ∧ parent < m.links.length ∧ l' = m.links.length ∧
      ∃ t, m' = { attached m name parent o with rptable := t } ∧ Inv m' ∧ RpOK m' ∧
        Reach ls js m0 (cs ++ [.addNewLink name parent o]) m' := by
  cases hn : m.linkIds.find name with
  | some x => rw [addNewLink_dup hn] at ha; cases ha
  | none =>
    have hp : parent < m.links.length := by
      by_contra hp
      simp only [addNewLink, hn, hp, if_false] at ha
      cases ha
    obtain ⟨t, e, e2, e3⟩ := h.abs.inv.addNewLink name parent o hn hp
    rw [ha] at e
    cases e
    exact ⟨rfl, hp, rfl, t, rfl, e2, e3, h.snoc (by simp only [Call.run, Prog.bind, ha, Prog.pure])⟩

/-- **C16.** A successful `add_new_link` keeps link ids and names, joint ids, angles, limits,
base pose and total mass, the pose, the relevance entries and the Jacobian of every link there was, and the centre of
mass and total inertia; the new link has the next id, and its pose is the parent's composed
with the offset. -/
theorem C16_add_new_link_conservative (h : Reach ls js m0 cs m) {name : String} {parent l' : Nat}
    {o : Pose K} {m' : KinModel K} (ha : addNewLink name parent o m = .ok l' m')
    (hf : Shallow ls js m0 (cs ++ [.addNewLink name parent o])) :
    (∀ s i, getLinkIds [s] m = .ok [i] m → getLinkIds [s] m' = .ok [i] m') ∧
    getLinkIds [name] m' = .ok [l'] m' ∧
    (∀ ns ids, getJointIds ns m = .ok ids m → getJointIds ns m' = .ok ids m') ∧
    (∀ ids as, getJointAngles ids m = .ok as m → getJointAngles ids m' = .ok as m') ∧
    m'.base = m.base ∧ m'.totalMass = m.totalMass ∧
    (∀ l < l', ∃ T m1 m2, getLinkPose l m = .ok T m1 ∧ getLinkPose l m' = .ok T m2) ∧
    (∃ B m1 m2, getLinkPose parent m = .ok B m1 ∧ getLinkPose l' m' = .ok (Pose.transform B o) m2) ∧
    ((∃ r ∈ ls, r.inertial.isSome) ∨ weldsAfter (names0 m0) cs ≠ [] →
      (∀ l < l', ∀ i < m.joints.length, ∃ b, RpTable.isRelevant m.rptable l i = .ok b ∧
        RpTable.isRelevant m'.rptable l i = .ok b) ∧
      ∀ l < l', ∀ ids, (∀ i ∈ ids, i < m.joints.length) → ∀ rt wb,
        ∃ J m1 m2, getJacobian l ids rt wb m = .ok J m1 ∧ getJacobian l ids rt wb m' = .ok J m2) ∧
    (∃ c m1 m2, getCom m = .ok c m1 ∧ getCom m' = .ok c m2) ∧
    (∃ I m1 m2, getTotalInertia m = .ok I m1 ∧ getTotalInertia m' = .ok I m2) := by
  obtain ⟨hnone, hp, rfl, t, rfl, hinv', hrp', hreach'⟩ := h.addLink_eq ha
  have hmono : ∀ w, AllWelds ls m0 cs w → AllWelds ls m0 (cs ++ [.addNewLink name parent o]) w := by
    intro w hw
    rcases hw with hw | hw
    · exact .inl hw
    · right
      have : ∀ (cs : List (Call K)) (ns : List String), w ∈ weldsAfter ns cs →
          w ∈ weldsAfter ns (cs ++ [.addNewLink name parent o]) := by
        intro cs
        induction cs with
        | nil => intro ns hw; simp [weldsAfter] at hw
        | cons c cs ih =>
          intro ns hw
          rw [weldsAfter_cons, List.mem_append] at hw
          rw [List.cons_append, weldsAfter_cons, List.mem_append]
          rcases hw with hw | hw
          · exact .inl hw
          · exact .inr (ih _ hw)
      exact this _ _ hw
  have hf0 : Shallow ls js m0 cs := fun n d hd => hf n d (hd.mono hmono)
  have hR := h.ready hf0
  have hR' := hreach'.ready hf
  have hIP : ∀ {l : Nat} {T : Pose K}, IsPose m l T →
      IsPose { attached m name parent o with rptable := t } l T := fun hT =>
    IsPose.congr (m := attached m name parent o)
      (m' := { attached m name parent o with rptable := t }) rfl rfl rfl rfl (IsPose.attached hp hT)
  have hcomPt : ∀ {xs : List (Inertial K × Pose K)}, List.Forall₂ (IsComPt m) m.comDummy xs →
      List.Forall₂ (IsComPt { attached m name parent o with rptable := t }) m.comDummy xs := by
    intro xs hxs
    refine hxs.imp ?_
    rintro d x ⟨lk, e1, e2, e3, e4⟩
    obtain ⟨lk', f1, _, f3, f4, _⟩ := attached_old (name := name) (pose := o) hp e1
    exact ⟨lk', f1, f3.trans e2, f4.trans e3, hIP e4⟩
  obtain ⟨xs, hxs⟩ := h.abs.inv.exists_comPts
  refine ⟨?_, ?_, ?_, ?_, rfl, rfl, ?_, ?_, ?_, ?_, ?_⟩
  · intro s i hs
    rw [getLinkIds_one] at hs ⊢
    show (m.linkIds.set name m.links.length).find s = some i
    rw [NameMap.find_set, if_neg, hs]
    rintro rfl
    rw [hnone] at hs; cases hs
  · rw [getLinkIds_one]
    show (m.linkIds.set name m.links.length).find name = some _
    rw [NameMap.find_set, if_pos rfl]
  · intro ns ids hi
    rw [getJointIds_ok] at hi ⊢
    exact ⟨rfl, hi.2⟩
  · intro ids as hi
    simp only [getJointAngles, Prog.read] at hi ⊢
    have hang : (attached m name parent o).angles = m.angles := rfl
    rw [hang]
    cases hm : mapOutcome (Outcome.idx "joint_angles_" m.angles) ids with
    | ok a => rw [hm] at hi; cases hi; rfl
    | exn e => rw [hm] at hi; cases hi
    | ub u => rw [hm] at hi; cases hi
    | hang => rw [hm] at hi; cases hi
  · intro l hl
    obtain ⟨T, hT⟩ := h.abs.inv.exists_pose hl
    obtain ⟨m1, e1, _⟩ := getLinkPose_spec hR hT
    obtain ⟨m2, e2, _⟩ := getLinkPose_spec hR' (hIP hT)
    exact ⟨T, m1, m2, e1, e2⟩
  · obtain ⟨B, hB⟩ := h.abs.inv.exists_pose hp
    obtain ⟨m1, e1, _⟩ := getLinkPose_spec hR hB
    obtain ⟨m2, e2, _⟩ := getLinkPose_spec hR' (IsPose.congr (m := attached m name parent o)
      (m' := { attached m name parent o with rptable := t }) rfl rfl rfl rfl
      (IsPose.attached_new hp hB))
    exact ⟨B, m1, m2, e1, e2⟩
  · intro hne
    have hrp := h.rpOK hne
    have hrel : ∀ {l i : Nat}, l < m.links.length → i < m.joints.length →
        ∃ b, RpTable.isRelevant m.rptable l i = .ok b ∧ RpTable.isRelevant t l i = .ok b := by
      intro l i hl hi
      obtain ⟨b, hb, hbiff⟩ := hrp.sized.isRelevant hl hi
      have hl' : l < (attached m name parent o).links.length := by rw [attached_length]; omega
      obtain ⟨b', hb', hbiff'⟩ := hrp'.sized.isRelevant hl' (i := i) hi
      have hbb : b = true ↔ b' = true := by
        rw [hbiff, hbiff', hrp.iff, hrp'.iff]
        constructor
        · rintro ⟨jp, g1, g2⟩
          exact ⟨jp, g1, OnPath.congr (m := attached m name parent o)
            (m' := { attached m name parent o with rptable := t }) rfl (OnPath.attached hp g2)⟩
        · rintro ⟨jp, g1, g2⟩
          exact ⟨jp, g1, OnPath.of_attached h.abs.inv.graph hp hl
            (OnPath.congr (m := { attached m name parent o with rptable := t })
              (m' := attached m name parent o) rfl g2)⟩
      have hbb' : b' = b := by cases b <;> cases b' <;> simp_all
      subst hbb'
      exact ⟨b', hb, hb'⟩
    refine ⟨fun l hl i hi => hrel hl hi, fun l hl ids hids rt wb => ?_⟩
    obtain ⟨tfE, cols, hE, hc, m1, e1, _⟩ := h.jacobian hf0 hne hl hids rt wb
    have hc' : List.Forall₂ (IsJointCol { attached m name parent o with rptable := t } rt l tfE) ids cols := by
      have himp : ∀ i, i < m.joints.length → ∀ col, IsJointCol m rt l tfE i col →
          IsJointCol { attached m name parent o with rptable := t } rt l tfE i col := by
        intro i hi col hcol
        obtain ⟨b, hb, hb'⟩ := hrel hl hi
        rcases hcol with ⟨c1, c2⟩ | ⟨jp, j, c, tfC, c1, c2, c3, c4, ⟨lk, c5, c5'⟩, c6, c7⟩
        · left
          rw [hb] at c1
          exact ⟨hb'.trans c1, c2⟩
        · right
          rw [hb] at c1
          obtain ⟨lk', f1, _, f3, _⟩ := attached_old (name := name) (pose := o) hp c5
          exact ⟨jp, j, c, tfC, hb'.trans c1, c2, Graph.jheap_attached (name := name) (parent := parent) c3, c4,
            ⟨lk', f1, f3.trans c5'⟩, hIP c6, c7⟩
      clear e1
      induction hc with
      | nil => exact .nil
      | cons a _ ih =>
        exact .cons (himp _ (hids _ (by simp)) _ a) (ih fun i hi => hids i (by simp [hi]))
    obtain ⟨m2, e2, _⟩ := (Query.getJacobian (hIP hE) hc' wb (fun _ => hIP h.root_pose)).run hR'
    exact ⟨_, m1, m2, e1, e2⟩
  · obtain ⟨m1, e1, _⟩ := (Query.getCom hxs).run hR
    obtain ⟨m2, e2, _⟩ := (Query.getCom (m := { attached m name parent o with rptable := t }) (hcomPt hxs)).run hR'
    exact ⟨_, m1, m2, e1, e2⟩
  · obtain ⟨m1, e1, _⟩ := (Query.getTotalInertia hxs).run hR
    obtain ⟨m2, e2, _⟩ := (Query.getTotalInertia (m := { attached m name parent o with rptable := t }) (hcomPt hxs)).run hR'
    exact ⟨_, m1, m2, e1, e2⟩

end

/-! ### The hypotheses are met -/

namespace Example

theorem shallow : Shallow ls js m0 hist := by
  intro n d hd
  have := depth_hist hd
  have hl : ls.length = 4 := rfl
  rw [hl, this]
  split_ifs <;> omega

theorem hasInertial : (∃ r ∈ ls, r.inertial.isSome) ∨ weldsAfter (names0 m0) hist ≠ [] :=
  .inl ⟨⟨"arm", some armInertial⟩, by simp [ls], rfl⟩

theorem slide_id : getJointIds ["slide"] m1 = .ok [0] m1 := by
  rw [getJointIds_one, m1_reach.abs.jointIds, jointIds]
  simp

theorem arm_id : getLinkIds ["arm"] m1 = .ok [0] m1 := by
  rw [getLinkIds_one, m1_reach.abs.inv.graph.linkNames]
  have := congrArg (fun l => l[0]?) names_m1
  simpa [List.getElem?_map] using this

theorem m1_joints : m1.joints.length = 2 := by rw [m1_reach.abs.joints, joints_length]

/-- the sliding joint is above the arm -/
theorem slide_off_arm : ¬ JointOnPath js (AllWelds ls m0 hist) "slide" "arm" := by
  have : ∀ n, JointOnPath js (AllWelds ls m0 hist) "slide" n →
      n = "hand" ∨ n = "tip" ∨ n = "tip_com" ∨ n = "tool" := by
    intro n h
    induction h with
    | here h1 h2 =>
      simp only [js, List.mem_cons, List.not_mem_nil, or_false] at h1
      rcases h1 with rfl | rfl | rfl <;> simp [turn, slide, weld] at h2 ⊢
    | up h1 _ ih =>
      simp only [js, List.mem_cons, List.not_mem_nil, or_false] at h1
      rcases h1 with rfl | rfl | rfl <;> simp [turn, slide, weld] at ih ⊢
    | weld h1 _ ih =>
      rcases h1 with ⟨h1, h2⟩ | h1
      · simp only [ls, List.mem_cons, List.not_mem_nil, or_false] at h1
        rcases h1 with rfl | rfl | rfl | rfl <;> simp at h2 <;> simp at ih ⊢
      · rw [welds_hist] at h1
        simp only [List.mem_cons, List.not_mem_nil, or_false] at h1
        subst h1
        simp
  intro h
  have := this _ h
  simp at this

example := C09_jacobian_safe_partial m1_reach shallow hasInertial tool_id turn_id .rpy true
example := C11_off_path_pose m1_reach shallow slide_id arm_id slide_off_arm 7
example : ∃ J m', getJacobian 0 [1, 0] .xyzw false m1 = .ok J m' ∧ ∀ r, J.f r 1 = 0 := by
  have hids : ∀ i ∈ [1, 0], i < m1.joints.length := by rw [m1_joints]; simp
  obtain ⟨_, _, _, _, m', e, _⟩ := m1_reach.jacobian shallow hasInertial (m1_reach.link_lt arm_id) hids .xyzw false
  exact ⟨_, m', e, C11_off_path_column m1_reach shallow hasInertial slide_id arm_id slide_off_arm
    hids (k := 1) rfl e⟩

/-- adding a link to the arm satisfies the hypotheses of C16 -/
example : ∃ l' m', addNewLink "elbow" 0 Pose.identity m1 = .ok l' m' ∧
    Shallow ls js m0 (hist ++ [.addNewLink "elbow" 0 Pose.identity]) := by
  have hl := m1_reach.length
  obtain ⟨m', e, _⟩ := m1_reach.addLink (name := "elbow") (parent := 0) Pose.identity
    (by rw [← m1_reach.abs.names, names_m1]; simp) (m1_reach.link_lt arm_id)
  refine ⟨_, m', e, ?_⟩
  have hw : weldsAfter (names0 m0) (hist ++ [.addNewLink "elbow" 0 Pose.identity]) =
      [⟨"tool", "tip", ⟨⟨0, 0, 1⟩, Rot.one⟩⟩, ⟨"elbow", "arm", Pose.identity⟩] := by
    simp [names0, linkNames, hist, weldsAfter]
  have : ∀ n d, LinkDepth ls js (AllWelds ls m0 (hist ++ [.addNewLink "elbow" 0 Pose.identity])) n d →
      d = if n = "base" then 0 else if n = "arm" then 1 else if n = "hand" then 2 else
      if n = "arm_com" then 2 else if n = "elbow" then 2 else if n = "tip" then 3 else 4 := by
    intro n d h
    induction h with
    | @root l h1 h2 =>
      simp only [ls, List.mem_cons, List.not_mem_nil, or_false] at h1
      rcases h1 with rfl | rfl | rfl | rfl <;> simp [js, turn, slide, weld] at h2 ⊢
    | joint h1 _ ih =>
      simp only [js, List.mem_cons, List.not_mem_nil, or_false] at h1
      rcases h1 with rfl | rfl | rfl <;> simp [turn, slide, weld] at ih ⊢ <;> omega
    | weld h1 _ ih =>
      rcases h1 with ⟨h1, h2⟩ | h1
      · simp only [ls, List.mem_cons, List.not_mem_nil, or_false] at h1
        rcases h1 with rfl | rfl | rfl | rfl <;> simp at h2 <;> simp at ih ⊢ <;> omega
      · rw [hw] at h1
        simp only [List.mem_cons, List.not_mem_nil, or_false] at h1
        rcases h1 with rfl | rfl <;> simp at ih ⊢ <;> omega
  intro n d hd
  have hl : ls.length = 4 := rfl
  rw [hl, this n d hd]
  split_ifs <;> omega

/-- a description without inertial for `C09_no_table`: two links and a joint -/
theorem bare_exists : ∃ m0 : KinModel ℝ, Reach [⟨"base", none⟩, ⟨"arm", none⟩] [turn] m0 [] m0 ∧
    weldsAfter (names0 m0) ([] : List (Call ℝ)) = [] := by
  have ht : IsTree [turn] := ⟨by simp, fun s => if s = "base" then 0 else 1, by simp [turn]⟩
  have hs : Supported [turn] := by intro j hj; simp at hj; subst hj; right; left; rfl
  have hb : (buildModel [⟨"base", none⟩, ⟨"arm", none⟩] [turn]).isSome := by
    rw [buildModel_isSome]
    exact ⟨by simp, by simp, by simp, by simp [turn], "base", by simp [turn], by simp [turn]⟩
  have hcl : NoComClash [(⟨"base", none⟩ : RawLink ℝ), ⟨"arm", none⟩] := by
    intro r hr; simp at hr; rcases hr with rfl | rfl <;> simp
  obtain ⟨m, hm⟩ := construct_exists hb ht hs hcl
  exact ⟨m, ⟨ht, hs, hm, .nil⟩, rfl⟩

end Example

end Tinyfk
