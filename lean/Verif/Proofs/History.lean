import Verif.Spec.Api
import Verif.Proofs.Describes

/-!
# Histories of calls refine their specification
-/

set_option linter.unusedSectionVars false

namespace Tinyfk

open Scalar

variable {K : Type} [Scalar K]

theorem lastWrite_nil (i : Nat) : lastWrite ([] : List (Nat × K)) i = none := rfl

theorem lastWrite_cons (a : Nat) (v : K) (ws : List (Nat × K)) (i : Nat) :
    lastWrite ((a, v) :: ws) i = (lastWrite ws i).or (if a = i then some v else none) := by
  unfold lastWrite
  rw [List.filter_cons]
  by_cases h : a = i
  · simp only [h, beq_self_eq_true, if_true, List.getLast?_cons]
    cases (ws.filter fun w => w.1 == i).getLast? <;> simp
  · have : (a == i) = false := by simpa using h
    simp [this, h]

/-- writing angles: last write wins, other joints keep their value -/
theorem writeAngles_get {ids : List Nat} {vals a a' : List K} (h : writeAngles ids vals a = .ok a')
    (i : Nat) (hi : i < a.length) : a'[i]? = some ((lastWrite (ids.zip vals) i).getD a[i]) := by
  induction ids generalizing vals a with
  | nil =>
    simp only [writeAngles, Outcome.ok.injEq] at h
    subst h
    simp [lastWrite_nil, hi]
  | cons x ids ih =>
    cases vals with
    | nil => simp [writeAngles] at h
    | cons v vals =>
      simp only [writeAngles] at h
      split at h
      · rename_i hx
        rw [ih h (by simpa using hi), List.zip_cons_cons, lastWrite_cons]
        cases hw : lastWrite (ids.zip vals) i with
        | some w => simp
        | none =>
          by_cases hxi : x = i
          · subst hxi; simp
          · simp [hxi]
      · cases h

/-- when `set_joint_angles` is defined: ids in range, enough values -/
theorem writeAngles_ok {ids : List Nat} {vals a : List K} (h1 : ids.length ≤ vals.length)
    (h2 : ∀ i ∈ ids, i < a.length) : ∃ a', writeAngles ids vals a = .ok a' := by
  induction ids generalizing vals a with
  | nil => exact ⟨a, rfl⟩
  | cons x ids ih =>
    cases vals with
    | nil => simp at h1
    | cons v vals =>
      simp only [writeAngles, h2 x (by simp), if_true]
      exact ih (by simpa using h1) (fun i hi => by simpa using h2 i (by simp [hi]))

theorem Keeps.run_inv {m : KinModel K} {α : Type} {p : Prog (KinModel K) α} (hk : Keeps m p) (hi : Inv m)
    {m1 : KinModel K} (h : (∃ a, p m = .ok a m1) ∨ ∃ e, p m = .exn e m1) :
    Inv m1 ∧ SameRobot m m1 := by
  have := hk m hi.goodCache
  rcases h with ⟨a, h⟩ | ⟨e, h⟩ <;>
  · rw [h] at this
    exact ⟨hi.of_goodCache this, this.same⟩

/-- the abstraction of a model state used for histories -/
structure Abs (ls : List (RawLink K)) (js : List (RawJoint K)) (m0 : KinModel K)
    (ns : List String) (welds : List (Weld K)) (θ : Nat → K) (b : Pose K) (m : KinModel K) : Prop where
  inv : Inv m
  desc : Describes ls js (fun w => ComWeld ls w ∨ w ∈ welds) m
  names : m.links.map Link.name = ns
  angles : ∀ i, i < m.joints.length → m.angles[i]? = some (θ i)
  base : m.base = b
  cap : m.stack.data.length = m0.stack.data.length
  joints : m.joints = m0.joints
  jointIds : m.jointIds = m0.jointIds
  mass : m.totalMass = m0.totalMass
  coms : m.comDummy = m0.comDummy
  root : m.rootLinkId = m0.rootLinkId
  old : ∀ (l : Nat) (lk : Link K), m0.links[l]? = some lk → ∃ lk', m.links[l]? = some lk' ∧
    lk'.name = lk.name ∧ lk'.inertial = lk.inertial ∧ lk'.parent = lk.parent ∧ lk'.parentJoint = lk.parentJoint
  oldJ : ∀ (jp : Nat) (j : Joint K), m0.jheap[jp]? = some j → m.jheap[jp]? = some j
  /-- the relevance table exists as soon as a link was added -/
  rpw : welds ≠ [] → RpOK m
  noRp : welds = [] → m.rptable = m0.rptable

section
variable {ls : List (RawLink K)} {js : List (RawJoint K)}
  {m0 : KinModel K}
  {ns : List String} {welds : List (Weld K)} {θ : Nat → K} {b : Pose K} {m : KinModel K}

theorem Abs.same (h : Abs ls js m0 ns welds θ b m) {m1 : KinModel K} (hi : Inv m1)
    (hs : SameRobot m m1) : Abs ls js m0 ns welds θ b m1 := by
  obtain ⟨⟨s, c, rfl⟩, hcap⟩ := hs
  exact ⟨hi, h.desc.congr (.of_links rfl) rfl rfl, h.names, h.angles, h.base, hcap.trans h.cap,
    h.joints, h.jointIds, h.mass, h.coms, h.root, h.old, h.oldJ,
    fun hne => RpOK.congr (m := m) (.of_links rfl) rfl rfl (h.rpw hne), h.noRp⟩

/-- the step of the specification -/
theorem Abs.step (h : Abs ls js m0 ns welds θ b m) {c : Call K} {m1 : KinModel K}
    (hr : c.run m = .ok () m1 ∨ ∃ e, c.run m = .exn e m1) :
    Abs ls js m0 (linksAfter ns [c]) (welds ++ weldsAfter ns [c])
      (fun i => angleAfter i (θ i) [c]) (baseAfter b [c]) m1 := by
  -- queries
  have query : ∀ {α : Type} {p : Prog (KinModel K) α}, Keeps m p →
      ((Prog.bind p fun _ => Prog.pure ()) m = .ok () m1 ∨ ∃ e, (Prog.bind p fun _ => Prog.pure ()) m = .exn e m1) →
      Abs ls js m0 ns welds θ b m1 := by
    intro α p hk hr
    have hk' : Keeps m (Prog.bind p fun _ => Prog.pure ()) := hk.bind fun _ => Keeps.pure m ()
    obtain ⟨a, b⟩ := hk'.run_inv h.inv (hr.imp (fun h => ⟨_, h⟩) id)
    exact h.same a b
  cases c with
  | setJointAngles ids vals =>
    simp only [linksAfter, weldsAfter, List.append_nil, angleAfter, baseAfter]
    have e : (Call.setJointAngles ids vals).run m = match writeAngles ids vals m.angles with
        | .ok a => .ok () { m with angles := a, cache := m.cache.clear }
        | .exn e => .exn e m
        | .ub u => .ub u
        | .hang => .hang := by
      simp only [Call.run, Tinyfk.setJointAngles, Prog.bind_apply, setJointAnglesNC]
      cases writeAngles ids vals m.angles <;> rfl
    have hnoexn : ∀ (ids : List Nat) (vals a : List K) e, writeAngles ids vals a ≠ .exn e := by
      intro ids
      induction ids with
      | nil => intro vals a e; simp [writeAngles]
      | cons x ids ih =>
        intro vals a e
        cases vals with
        | nil => simp [writeAngles]
        | cons v vals =>
          simp only [writeAngles]
          split
          · exact ih _ _ _
          · simp
    rw [e] at hr
    cases hw : writeAngles ids vals m.angles with
    | exn e' => exact absurd hw (hnoexn _ _ _ _)
    | ub u => rw [hw] at hr; rcases hr with h | ⟨_, h⟩ <;> cases h
    | hang => rw [hw] at hr; rcases hr with h | ⟨_, h⟩ <;> cases h
    | ok a =>
      rw [hw] at hr
      have hm1 : m1 = { m with angles := a, cache := m.cache.clear } := by
        rcases hr with h | ⟨_, h⟩
        · cases h; rfl
        · cases h
      subst hm1
      refine ⟨h.inv.setAngles a (writeAngles_length hw), h.desc.congr (.of_links rfl) rfl rfl, h.names,
        ?_, h.base, h.cap, h.joints, h.jointIds, h.mass, h.coms, h.root, h.old, h.oldJ,
        fun hne => RpOK.congr (m := m) (.of_links rfl) rfl rfl (h.rpw hne), h.noRp⟩
      intro i hi
      have hi' : i < m.joints.length := hi
      have hlt : i < m.angles.length := by rw [h.inv.graph.anglesLen]; exact hi'
      have hθ := h.angles i hi'
      rw [List.getElem?_eq_getElem hlt, Option.some.injEq] at hθ
      show a[i]? = _
      rw [writeAngles_get hw i hlt, hθ]
  | setBasePose p =>
    have e : (Call.setBasePose p).run m = .ok () { m with base := p, cache := m.cache.clear } := rfl
    rw [e] at hr
    have hm1 : m1 = { m with base := p, cache := m.cache.clear } := by
      rcases hr with h | ⟨_, h⟩
      · cases h; rfl
      · cases h
    subst hm1
    simp only [linksAfter, weldsAfter, List.append_nil, angleAfter, baseAfter]
    exact ⟨h.inv.setBase p, h.desc.congr (.of_links rfl) rfl rfl, h.names,
        h.angles, rfl, h.cap, h.joints, h.jointIds, h.mass, h.coms, h.root, h.old, h.oldJ,
        fun hne => RpOK.congr (m := m) (.of_links rfl) rfl rfl (h.rpw hne), h.noRp⟩
  | setInitAngles =>
    have e : (Call.setInitAngles : Call K).run m =
      .ok () { m with angles := List.replicate m.numDof 0, cache := m.cache.clear } := rfl
    rw [e] at hr
    have hm1 : m1 = { m with angles := List.replicate m.numDof 0, cache := m.cache.clear } := by
      rcases hr with h | ⟨_, h⟩
      · cases h; rfl
      · cases h
    subst hm1
    simp only [linksAfter, weldsAfter, List.append_nil, angleAfter, baseAfter]
    refine ⟨h.inv.setAngles _ (by simp [h.inv.graph.numDof, h.inv.graph.anglesLen]), h.desc.congr (.of_links rfl) rfl rfl, h.names,
        ?_, h.base, h.cap, h.joints, h.jointIds, h.mass, h.coms, h.root, h.old, h.oldJ,
        fun hne => RpOK.congr (m := m) (.of_links rfl) rfl rfl (h.rpw hne), h.noRp⟩
    intro i hi
    have hi' : i < m.joints.length := hi
    show (List.replicate m.numDof (0 : K))[i]? = some 0
    simp [h.inv.graph.numDof, hi']
  | clearCache =>
    have e : (Call.clearCache : Call K).run m = .ok () { m with cache := m.cache.clear } := rfl
    rw [e] at hr
    have hm1 : m1 = { m with cache := m.cache.clear } := by
      rcases hr with h | ⟨_, h⟩
      · cases h; rfl
      · cases h
    subst hm1
    simp only [linksAfter, weldsAfter, List.append_nil, angleAfter, baseAfter]
    exact ⟨h.inv.clear, h.desc.congr (.of_links rfl) rfl rfl, h.names,
        h.angles, h.base, h.cap, h.joints, h.jointIds, h.mass, h.coms, h.root, h.old, h.oldJ,
        fun hne => RpOK.congr (m := m) (.of_links rfl) rfl rfl (h.rpw hne), h.noRp⟩
  | addNewLink name parent pose =>
    simp only [linksAfter, weldsAfter, angleAfter, baseAfter, List.append_nil]
    have hmem : name ∈ ns ↔ ∃ l, m.linkIds.find name = some l := by
      rw [← h.names, List.mem_map]
      constructor
      · rintro ⟨lk, h1, h2⟩
        obtain ⟨l, hl⟩ := List.mem_iff_getElem?.mp h1
        exact ⟨l, (h.inv.graph.linkNames name l).mpr ⟨lk, hl, h2⟩⟩
      · rintro ⟨l, hl⟩
        obtain ⟨lk, h1, h2⟩ := (h.inv.graph.linkNames name l).mp hl
        exact ⟨lk, List.mem_of_getElem? h1, h2⟩
    by_cases hn : name ∈ ns
    · obtain ⟨l, hl⟩ := hmem.mp hn
      simp only [hn, if_true, List.append_nil]
      have e : (Call.addNewLink name parent pose).run m =
          .exn (.invalidArgument ("link name : " ++ name ++ " already exists")) m := by
        simp only [Call.run, Prog.bind, addNewLink_dup hl]
      rw [e] at hr
      rcases hr with h' | ⟨_, h'⟩
      · cases h'
      · cases h'; exact h
    · have hnone : m.linkIds.find name = none := by
        by_contra hne
        exact hn (hmem.mpr (Option.ne_none_iff_exists'.mp hne))
      simp only [hn, if_false]
      by_cases hp : parent < m.links.length
      · obtain ⟨t, h1, h2, h3⟩ := h.inv.addNewLink name parent pose hnone hp
        have hm1 : m1 = { attached m name parent pose with rptable := t } := by
          have e : (Call.addNewLink name parent pose).run m =
              .ok () { attached m name parent pose with rptable := t } := by
            simp only [Call.run, Prog.bind, h1, Prog.pure]
          rw [e] at hr
          rcases hr with h' | ⟨_, h'⟩
          · cases h'; rfl
          · cases h'
        subst hm1
        have hpk : m.links[parent]? = some m.links[parent] := List.getElem?_eq_getElem hp
        have hns : ns[parent]? = some m.links[parent].name := by
          rw [← h.names, List.getElem?_map, hpk]; rfl
        rw [hns]
        have hd := (h.desc.attached h.inv.graph pose hnone hpk).congr
          (m' := { attached m name parent pose with rptable := t }) (.of_links rfl) rfl rfl
        refine ⟨h2, ?_, ?_, h.angles, h.base, h.cap, h.joints, h.jointIds, h.mass, h.coms, h.root, ?_, ?_,
          fun _ => h3, fun he => absurd he (by simp)⟩
        · have : (fun w => (ComWeld ls w ∨ w ∈ welds) ∨ w = ⟨name, m.links[parent].name, pose⟩) =
              fun w => ComWeld ls w ∨ w ∈ welds ++ [⟨name, m.links[parent].name, pose⟩] := by
            funext w
            simp [or_assoc]
          rw [this] at hd
          exact hd
        · show (attached m name parent pose).links.map Link.name = _
          rw [← h.names]
          apply List.ext_getElem?
          intro l
          rw [List.getElem?_map]
          by_cases hl : l < m.links.length
          · obtain ⟨lk', a1, a2, _⟩ := attached_old (name := name) (pose := pose) hp (List.getElem?_eq_getElem hl)
            rw [a1, List.getElem?_append_left (by simpa using hl), List.getElem?_map, List.getElem?_eq_getElem hl]
            simp [a2]
          · by_cases hl' : l = m.links.length
            · subst hl'
              rw [attached_new hp, List.getElem?_append_right (by simp)]
              simp [newLink]
            · rw [List.getElem?_eq_none_iff.mpr (by rw [attached_length]; omega),
                List.getElem?_eq_none_iff.mpr (by simp; omega)]
              rfl
        · intro l lk hl
          obtain ⟨lk1, e1, e2, e3, e4, e5⟩ := h.old l lk hl
          obtain ⟨lk', a1, a2, a3, a4, a5, a6⟩ := attached_old (name := name) (pose := pose) hp e1
          exact ⟨lk', a1, a2.trans e2, a4.trans e3, a5.trans e4, a6.trans e5⟩
        · intro jp j hj
          have := h.oldJ jp j hj
          show (m.jheap ++ [newFixedJoint pose])[jp]? = some j
          rw [List.getElem?_append_left (List.getElem?_eq_some_iff.mp this).1]
          exact this
      · exfalso
        have e : (Call.addNewLink name parent pose).run m = .ub (.outOfBounds "links_[parent_id]") := by
          simp only [Call.run, Prog.bind, addNewLink, hnone, hp, if_false]
        rw [e] at hr
        rcases hr with h' | ⟨_, h'⟩ <;> cases h'
  | getLinkPose l => simpa only [linksAfter, weldsAfter, List.append_nil, angleAfter, baseAfter] using query (Keeps.getLinkPose l) hr
  | getJacobian l ids rt wb => simpa only [linksAfter, weldsAfter, List.append_nil, angleAfter, baseAfter] using query (Keeps.getJacobian l ids rt wb) hr
  | getCom => simpa only [linksAfter, weldsAfter, List.append_nil, angleAfter, baseAfter] using query Keeps.getCom hr
  | getComJacobian ids wb => simpa only [linksAfter, weldsAfter, List.append_nil, angleAfter, baseAfter] using query (Keeps.getComJacobian ids wb) hr
  | getTotalInertia => simpa only [linksAfter, weldsAfter, List.append_nil, angleAfter, baseAfter] using query Keeps.getTotalInertia hr
  | getJointIds x => simpa only [linksAfter, weldsAfter, List.append_nil, angleAfter, baseAfter] using query (Keeps.read _) hr
  | getLinkIds x => simpa only [linksAfter, weldsAfter, List.append_nil, angleAfter, baseAfter] using query (Keeps.read _) hr
  | getJointAngles x => simpa only [linksAfter, weldsAfter, List.append_nil, angleAfter, baseAfter] using query (Keeps.read _) hr
  | getJointPositionLimits x => simpa only [linksAfter, weldsAfter, List.append_nil, angleAfter, baseAfter] using query (Keeps.read _) hr

theorem linksAfter_cons (ns : List String) (c : Call K) (cs : List (Call K)) :
    linksAfter ns (c :: cs) = linksAfter (linksAfter ns [c]) cs := by cases c <;> rfl

theorem weldsAfter_cons (ns : List String) (c : Call K) (cs : List (Call K)) :
    weldsAfter ns (c :: cs) = weldsAfter ns [c] ++ weldsAfter (linksAfter ns [c]) cs := by
  cases c <;> try rfl
  rename_i n p o
  simp only [weldsAfter, linksAfter]
  by_cases h : n ∈ ns
  · simp [h]
  · simp [h]

theorem angleAfter_cons (i : Nat) (v : K) (c : Call K) (cs : List (Call K)) :
    angleAfter i v (c :: cs) = angleAfter i (angleAfter i v [c]) cs := by cases c <;> rfl

theorem baseAfter_cons (b : Pose K) (c : Call K) (cs : List (Call K)) :
    baseAfter b (c :: cs) = baseAfter (baseAfter b [c]) cs := by cases c <;> rfl

theorem Abs.runs (h : Abs ls js m0 ns welds θ b m) {cs : List (Call K)} {m' : KinModel K}
    (hr : Runs m cs m') : Abs ls js m0 (linksAfter ns cs) (welds ++ weldsAfter ns cs)
      (fun i => angleAfter i (θ i) cs) (baseAfter b cs) m' := by
  induction hr generalizing ns welds θ b with
  | nil => simpa [linksAfter, weldsAfter, angleAfter, baseAfter] using h
  | ok h1 _ ih =>
    have := ih (h.step (.inl h1))
    rw [linksAfter_cons, weldsAfter_cons, baseAfter_cons, ← List.append_assoc]
    rw [funext fun i => angleAfter_cons i (θ i) _ _]
    exact this
  | exn h1 _ ih =>
    have := ih (h.step (.inr ⟨_, h1⟩))
    rw [linksAfter_cons, weldsAfter_cons, baseAfter_cons, ← List.append_assoc]
    rw [funext fun i => angleAfter_cons i (θ i) _ _]
    exact this

theorem Constructed.abs (h : Constructed ls js m) :
    Abs ls js m (m.links.map Link.name) []
      (fun _ => 0) Pose.identity m := by
  refine ⟨h.inv, ?_, rfl, ?_, h.base, rfl, rfl, rfl, rfl, rfl, rfl, fun l lk hl => ⟨lk, hl, rfl, rfl, rfl, rfl⟩,
    fun _ _ h => h, fun h => absurd rfl h, fun _ => rfl⟩
  · have := h.desc
    simpa using this
  · intro i hi
    rw [h.angles]
    simp [hi]

end

end Tinyfk
