import Verif.Proofs.ShownTrack

/-!
# Answers do not depend on a coherent cache; histories of the C++ class
-/

set_option linter.unusedSectionVars false

namespace Tinyfk

open Scalar

variable {K : Type} [Scalar K] {α β : Type}

/-- `p` answers the same on all ready states of a robot -/
def Uniform (p : Prog (KinModel K) α) : Prop :=
  ∀ m1 m2, SameRobot m1 m2 → Ready m1 → Ready m2 → (p m1).answer = (p m2).answer

/-- `p` leaves ready states ready -/
theorem Ready.after {m m' : KinModel K} (h : Ready m) {p : Prog (KinModel K) α} {v : α} (hst : Stays p) (hk : ∀ m, Keeps m p)
    (e : p m = .ok v m') : SameRobot m m' ∧ Ready m' := by
  have hg : GoodCache m m := ⟨.refl _, h.tree, h.sized, h.coh⟩
  have := hk m m hg
  rw [e] at this
  have he := hst.ok h.tree e
  refine ⟨he.same, he.tree h.tree, he.sized h.sized, this.coh, ?_⟩
  obtain ⟨⟨st, c, rfl⟩, hcap⟩ := he.same
  exact FitsStack.congr (m := m) rfl hcap h.fits

theorem SameRobot.symm {m m' : KinModel K} (h : SameRobot m m') : SameRobot m' m := by
  obtain ⟨⟨st, c, rfl⟩, hcap⟩ := h
  exact ⟨⟨m.stack, m.cache, rfl⟩, hcap.symm⟩

theorem Uniform.pure (v : α) : Uniform (Pure.pure v : Prog (KinModel K) α) := fun _ _ _ _ _ => rfl

theorem Uniform.read {f : KinModel K → Outcome α} (hf : ∀ m st c, f { m with stack := st, cache := c } = f m) :
    Uniform (Prog.read f) := by
  rintro m m' ⟨⟨st, c, rfl⟩, _⟩ _ _
  cases e : f m <;> have e' := (hf m st c).trans e <;> simp only [Prog.read, e, e', Res.answer]

theorem Uniform.lift (o : Outcome α) : Uniform (Prog.lift o : Prog (KinModel K) α) := Uniform.read fun _ _ _ => rfl

theorem Uniform.ite {c : Prop} [Decidable c] {p q : Prog (KinModel K) α} (hp : Uniform p) (hq : Uniform q) :
    Uniform (if c then p else q) := by
  split <;> assumption

theorem Uniform.bind {p : Prog (KinModel K) α} {f : α → Prog (KinModel K) β} (hp : Uniform p) (sp : Stays p)
    (kp : ∀ m, Keeps m p) (hf : ∀ v, Uniform (f v)) : Uniform (p >>= f) := by
  intro m1 m2 hs h1 h2
  have h := hp m1 m2 hs h1 h2
  rw [Prog.bind_apply, Prog.bind_apply]
  cases e1 : p m1 <;> cases e2 : p m2 <;> rw [e1, e2] at h <;> simp only [Res.answer] at h <;> cases h <;> try rfl
  rename_i v a b
  obtain ⟨s1, r1⟩ := h1.after sp kp e1
  obtain ⟨s2, r2⟩ := h2.after sp kp e2
  exact hf _ _ _ ((s1.symm.trans hs).trans s2) r1 r2

theorem getLinkPose_oob {m : KinModel K} (hs : CacheSized m) {l : Nat} (h : ¬ l < m.links.length) :
    getLinkPose l m = .ub (.outOfBounds "SizedCache::get_cache") := by
  have : m.cache.pred[l]? = none := by rw [List.getElem?_eq_none_iff, hs.pred]; omega
  simp only [getLinkPose, SizedCache.getCache, this]

theorem Uniform.getLinkPose (l : Nat) : Uniform (getLinkPose l : Prog (KinModel K) (Pose K)) := by
  intro m1 m2 hs h1 h2
  by_cases hl : l < m1.links.length
  · obtain ⟨T, hT⟩ := h1.tree.exists_pose hl
    obtain ⟨a, e1, _⟩ := getLinkPose_spec h1 hT
    obtain ⟨b, e2, _⟩ := getLinkPose_spec h2 ((IsPose.of_same hs).mpr hT)
    rw [e1, e2]
    simp only [Res.answer]
  · rw [getLinkPose_oob h1.sized hl, getLinkPose_oob h2.sized (by rw [hs.links]; exact hl)]

theorem Uniform.jacJoint (elink : Nat) (rt : RotType) (tfE : Pose K) (erpy : Vec3 K)
    (einv : Rot K) (jid i : Nat) (J : Mat K) : Uniform (jacJoint elink rt tfE erpy einv jid i J) := by
  unfold Tinyfk.jacJoint
  refine Uniform.bind (Uniform.read fun _ _ _ => rfl) (Stays.read fun _ => noExn_isRelevant _ _ _) (fun _ => Keeps.read _)
    (fun b => Uniform.ite ?_ (Uniform.pure _))
  refine Uniform.bind (Uniform.read fun _ _ _ => rfl) (Stays.read fun _ => .bind (.idx _ _ _) fun _ => noExn_derefJoint _ _)
    (fun _ => Keeps.read _) fun j =>
    Uniform.bind (Uniform.read fun _ _ _ => rfl) (Stays.read fun m => ?_) (fun _ => Keeps.read _) fun _ =>
    Uniform.bind (Uniform.getLinkPose _) (Stays.getLinkPose _) (fun _ => Keeps.getLinkPose _) fun _ => Uniform.lift _
  cases j.childLink with
  | none => exact .ub _
  | some c =>
    simp only
    split
    · exact .ub _
    · exact .ok _

theorem Uniform.jacJointLoop (elink : Nat) (rt : RotType) (tfE : Pose K)
    (erpy : Vec3 K) (einv : Rot K) (ids : List Nat) (i : Nat) (J : Mat K) :
    Uniform (jacJointLoop elink rt tfE erpy einv ids i J) := by
  induction ids generalizing i J with
  | nil => exact Uniform.pure _
  | cons a l ih =>
    exact Uniform.bind (Uniform.jacJoint _ _ _ _ _ _ _ _) (Stays.jacJoint _ _ _ _ _ _ _ _)
      (fun _ => Keeps.jacJoint _ _ _ _ _ _ _ _) fun _ => ih _ _

theorem Uniform.getJacobian (elink : Nat) (ids : List Nat) (rt : RotType) (b : Bool) :
    Uniform (getJacobian elink ids rt b : Prog (KinModel K) (Mat K)) := by
  unfold Tinyfk.getJacobian
  refine Uniform.bind (Uniform.getLinkPose _) (Stays.getLinkPose _) (fun _ => Keeps.getLinkPose _) fun _ =>
    Uniform.bind (Uniform.jacJointLoop _ _ _ _ _ _ _ _) (Stays.jacJointLoop _ _ _ _ _ _ _ _)
      (fun _ => Keeps.jacJointLoop _ _ _ _ _ _ _ _) fun _ => Uniform.ite ?_ (Uniform.pure _)
  exact Uniform.bind (Uniform.read fun _ _ _ => rfl) (Stays.read fun _ => .ok _) (fun _ => Keeps.read _) fun _ =>
    Uniform.bind (Uniform.getLinkPose _) (Stays.getLinkPose _) (fun _ => Keeps.getLinkPose _) fun _ => Uniform.lift _

theorem Uniform.comLinkData (l : Nat) : Uniform (comLinkData l : Prog (KinModel K) (Inertial K × Nat)) :=
  Uniform.read fun _ _ _ => rfl

theorem Keeps.comLinkData' {m : KinModel K} (l : Nat) : Keeps m (comLinkData l : Prog (KinModel K) (Inertial K × Nat)) :=
  Keeps.read _

theorem Uniform.comLoop (ds : List Nat) (acc : Vec3 K) (mt : K) : Uniform (comLoop ds acc mt) := by
  induction ds generalizing acc mt with
  | nil => exact Uniform.pure _
  | cons a l ih =>
    exact Uniform.bind (Uniform.comLinkData _) (Stays.comLinkData _) (fun _ => Keeps.comLinkData' _) fun _ =>
      Uniform.bind (Uniform.getLinkPose _) (Stays.getLinkPose _) (fun _ => Keeps.getLinkPose _) fun _ => ih _ _

theorem Uniform.getCom : Uniform (getCom : Prog (KinModel K) (Vec3 K)) := by
  unfold Tinyfk.getCom
  exact Uniform.bind (Uniform.read fun _ _ _ => rfl) (Stays.read fun _ => .ok _) (fun _ => Keeps.read _) fun _ =>
    Uniform.bind (Uniform.comLoop _ _ _) (Stays.comLoop _ _ _) (fun _ => Keeps.comLoop _ _ _) fun _ => Uniform.pure _

theorem Uniform.comJacLoop (ids : List Nat) (b : Bool) (ds : List Nat) (acc : Mat K)
    (mt : K) : Uniform (comJacLoop ids b ds acc mt) := by
  induction ds generalizing acc mt with
  | nil => exact Uniform.pure _
  | cons a l ih =>
    exact Uniform.bind (Uniform.comLinkData _) (Stays.comLinkData _) (fun _ => Keeps.comLinkData' _) fun _ =>
      Uniform.bind (Uniform.getJacobian _ _ _ _) (Stays.getJacobian _ _ _ _) (fun _ => Keeps.getJacobian _ _ _ _) fun _ =>
      Uniform.bind (Uniform.lift _) (Stays.lift (Mat.noExn_addBlock _ _ _ _ _ _ _)) (fun _ => Keeps.lift _) fun _ => ih _ _

theorem Uniform.getComJacobian (ids : List Nat) (b : Bool) :
    Uniform (getComJacobian ids b : Prog (KinModel K) (Mat K)) := by
  unfold Tinyfk.getComJacobian
  exact Uniform.bind (Uniform.read fun _ _ _ => rfl) (Stays.read fun _ => .ok _) (fun _ => Keeps.read _) fun _ =>
    Uniform.bind (Uniform.comJacLoop _ _ _ _ _) (Stays.comJacLoop _ _ _ _ _) (fun _ => Keeps.comJacLoop _ _ _ _ _) fun _ =>
    Uniform.lift _

theorem Uniform.inertiaLoop (com : Vec3 K) (ds : List Nat) (acc : M3 K) : Uniform (inertiaLoop com ds acc) := by
  induction ds generalizing acc with
  | nil => exact Uniform.pure _
  | cons a l ih =>
    refine Uniform.bind (Uniform.read fun _ _ _ => rfl) (Stays.read fun m => ?_) (fun _ => Keeps.read _) fun d => ?_
    · split
      · exact .ub _
      · exact .ok _
    · rcases d with ⟨_ | inr, lid⟩
      · exact ih _
      · exact Uniform.bind (Uniform.getLinkPose _) (Stays.getLinkPose _) (fun _ => Keeps.getLinkPose _) fun _ => ih _

theorem Uniform.getTotalInertia : Uniform (getTotalInertia : Prog (KinModel K) (M3 K)) := by
  unfold Tinyfk.getTotalInertia
  exact Uniform.bind Uniform.getCom Stays.getCom (fun _ => Keeps.getCom) fun _ =>
    Uniform.bind (Uniform.read fun _ _ _ => rfl) (Stays.read fun _ => .ok _) (fun _ => Keeps.read _) fun _ =>
    Uniform.inertiaLoop _ _ _

/-! ### What is shown -/

section
variable {ls : List (RawLink K)} {js : List (RawJoint K)} {m0 m m' mc : KinModel K} {cs : List (Call K)} {evs : List (Event K)}

/-- the specification of `on` and `mass` by names -/
def onOf (ls : List (RawLink K)) (js : List (RawJoint K)) (m0 : KinModel K) (cs : List (Call K)) (s : String) (l : Nat) : Prop :=
  ∃ n, (linksAfter (names0 m0) cs)[l]? = some n ∧ JointOnPath js (AllWelds ls m0 cs) s n

def massesOf (ls : List (RawLink K)) (js : List (RawJoint K)) (m0 : KinModel K) (cs : List (Call K)) (s : String) : Prop :=
  ∃ w, ComWeld ls w ∧ JointOnPath js (AllWelds ls m0 cs) s w.name

theorem writeAngles_range (a b : List K) (h : b.length = a.length) (k : Nat) (hk : k ≤ a.length) :
    writeAngles ((List.range' k (a.length - k))) (a.drop k) (a.take k ++ b.drop k) = .ok a := by
  induction hn : a.length - k generalizing k b with
  | zero =>
    have : k = a.length := by omega
    subst this
    simp only [List.range'_zero, writeAngles, List.take_length]
    rw [List.drop_eq_nil_of_le (by omega)]
    simp
  | succ n ih =>
    have hlt : k < a.length := by omega
    rw [List.range'_succ, List.drop_eq_getElem_cons hlt, writeAngles]
    rw [if_pos (by simp; omega)]
    have : (List.take k a ++ List.drop k b).set k a[k] = List.take (k + 1) a ++ List.drop (k + 1) b := by
      apply List.ext_getElem?
      intro i
      rw [List.getElem?_set]
      by_cases hi : k = i
      · subst hi
        simp only [if_true]
        rw [if_pos (by simp; omega), List.getElem?_append_left (by simp; omega), List.getElem?_take, if_pos (by omega),
          List.getElem?_eq_getElem hlt]
      · rw [if_neg hi]
        by_cases hi' : i < k
        · rw [List.getElem?_append_left (by simp; omega), List.getElem?_append_left (by simp; omega), List.getElem?_take,
            List.getElem?_take, if_pos hi', if_pos (by omega)]
        · rw [List.getElem?_append_right (by simp; omega), List.getElem?_append_right (by simp; omega), List.getElem?_drop,
            List.getElem?_drop]
          congr 1
          simp only [List.length_take]
          omega
    rw [this]
    exact ih b h (k + 1) (by omega) (by omega)

/-- the model with other angles is reached by setting all angles -/
theorem At.hid (h : At ls js m0 cs mc m) {a : List K} (ha : a.length = m0.joints.length) :
    At ls js m0 (cs ++ [.setJointAngles (List.range m0.joints.length) a]) { mc with angles := a, cache := mc.cache.clear } (m.hid a) := by
  have hw : writeAngles (List.range m0.joints.length) a mc.angles = .ok a := by
    have hl : mc.angles.length = a.length := by rw [h.reach.anglesLen, ha]
    have := writeAngles_range a mc.angles hl 0 (by omega)
    simpa [List.range_eq_range', ha] using this
  have hrun : Call.run (.setJointAngles (List.range m0.joints.length) a) mc = .ok () { mc with angles := a, cache := mc.cache.clear } := by
    simp only [Call.run, setJointAngles, Prog.bind_apply, setJointAnglesNC, hw, clearCache, Prog.modify]
  obtain ⟨⟨st, c, rfl⟩, hcap⟩ := h.same
  exact ⟨h.reach.snoc hrun, ⟨⟨st, c, rfl⟩, hcap⟩, ⟨h.sized.size, h.sized.pred, h.sized.data⟩⟩

/-- joint names of a reached model -/
theorem At.jointName (h : At ls js m0 cs mc m) {i jp : Nat} (hi : m.joints[i]? = some jp) :
    ∃ s, m0.jointIds.find s = some i ∧ m.jointIds.find s = some i := by
  obtain ⟨j, lk, _, _, h1, _⟩ := h.graph.joint hi
  have hs : m.jointIds = m0.jointIds := by
    obtain ⟨⟨st, c, rfl⟩, _⟩ := h.same
    exact h.reach.abs.jointIds
  have := (h.graph.jointNames j.name i).mpr ⟨jp, j, hi, h1, rfl⟩
  exact ⟨j.name, by rw [← hs]; exact this, this⟩

theorem At.linkName (h : At ls js m0 cs mc m) (l : Nat) : (linksAfter (names0 m0) cs)[l]? = m.links[l]?.map Link.name := by
  obtain ⟨⟨st, c, rfl⟩, _⟩ := h.same
  rw [← h.reach.abs.names, List.getElem?_map]

theorem At.desc (h : At ls js m0 cs mc m) : Describes ls js (AllWelds ls m0 cs) m := by
  obtain ⟨⟨st, c, rfl⟩, _⟩ := h.same
  exact h.reach.abs.desc.congr (.of_links rfl) rfl rfl

theorem At.onOf_iff (h : At ls js m0 cs mc m) {s : String} {i jp : Nat} (hs : m.jointIds.find s = some i)
    (hi : m.joints[i]? = some jp) {l : Nat} (hl : l < m.links.length) : onOf ls js m0 cs s l ↔ OnPath m jp l := by
  have hlk := List.getElem?_eq_getElem hl
  rw [h.desc.onPath_iff h.graph h.reach.tree hs hi hlk]
  unfold onOf
  rw [h.linkName, hlk]
  simp

theorem At.massesOf_iff (h : At ls js m0 cs mc m) {s : String} {i jp : Nat} (hs : m.jointIds.find s = some i)
    (hi : m.joints[i]? = some jp) : massesOf ls js m0 cs s ↔ ∃ d ∈ m.comDummy, OnPath m jp d := by
  have hA := h.reach.abs
  have hcom : m.comDummy = m0.comDummy := by
    obtain ⟨⟨st, c, rfl⟩, _⟩ := h.same
    exact hA.coms
  have hlk : ∀ (d : Nat) (lk : Link K), m0.links[d]? = some lk → ∃ lk', m.links[d]? = some lk' ∧ lk'.name = lk.name := by
    intro d lk hd
    obtain ⟨lk', h1, h2, _⟩ := hA.old d lk hd
    obtain ⟨⟨st, c, rfl⟩, _⟩ := h.same
    exact ⟨lk', h1, h2⟩
  obtain ⟨sorted, hp, _, _, hF, _⟩ := h.reach.constructed.order
  rw [hcom]
  constructor
  · rintro ⟨w, hw, hon⟩
    obtain @⟨r, inr, hr, hin⟩ := hw
    have hmem : (r, inr) ∈ withInertial sorted := by
      unfold withInertial
      rw [List.mem_filterMap]
      exact ⟨r, hp.mem_iff.mpr hr, by rw [hin]; rfl⟩
    obtain ⟨k, hk⟩ := List.mem_iff_getElem?.mp hmem
    obtain ⟨hl, hF⟩ := List.forall₂_iff_get.mp hF
    have hk2 := (List.getElem?_eq_some_iff.mp hk).1
    obtain ⟨lk, h1, h2, _⟩ := hF k (by omega) hk2
    obtain ⟨lk', h3, h4⟩ := hlk _ _ h1
    refine ⟨_, List.get_mem _ _, (h.desc.onPath_iff h.graph h.reach.tree hs hi h3).mpr ?_⟩
    rw [h4, h2]
    have : (withInertial sorted).get ⟨k, hk2⟩ = (r, inr) := (List.getElem?_eq_some_iff.mp hk).2
    rw [this]
    exact hon
  · rintro ⟨d, hd, hon⟩
    obtain ⟨k, hk⟩ := List.mem_iff_getElem?.mp hd
    obtain ⟨hl, hF⟩ := List.forall₂_iff_get.mp hF
    have hk1 := (List.getElem?_eq_some_iff.mp hk).1
    have hdk : m0.comDummy.get ⟨k, hk1⟩ = d := (List.getElem?_eq_some_iff.mp hk).2
    obtain ⟨lk, h1, h2, _⟩ := hF k hk1 (by omega)
    rw [hdk] at h1
    obtain ⟨lk', h3, h4⟩ := hlk _ _ h1
    have hmem := List.get_mem (withInertial sorted) ⟨k, by omega⟩
    unfold withInertial at hmem
    rw [List.mem_filterMap] at hmem
    obtain ⟨r, hr, hr'⟩ := hmem
    cases hin : r.inertial with
    | none => rw [hin] at hr'; cases hr'
    | some inr =>
      rw [hin] at hr'
      simp only [Option.map_some, Option.some.injEq] at hr'
      have h5 := (h.desc.onPath_iff h.graph h.reach.tree hs hi h3).mp hon
      rw [h4, h2] at h5
      unfold withInertial at h5
      rw [← hr'] at h5
      exact ⟨_, .mk (hp.mem_iff.mp hr) hin, h5⟩

/-- agreement by name -/
theorem At.agrees (h : At ls js m0 cs mc m) : ∃ on mass, Agrees m on mass ∧
    ∀ s i, m0.jointIds.find s = some i → on i = onOf ls js m0 cs s ∧ mass i = massesOf ls js m0 cs s := by
  classical
  have hs : m.jointIds = m0.jointIds := by
    obtain ⟨⟨st, c, rfl⟩, _⟩ := h.same
    exact h.reach.abs.jointIds
  refine ⟨fun i l => ∃ s, m0.jointIds.find s = some i ∧ onOf ls js m0 cs s l,
    fun i => ∃ s, m0.jointIds.find s = some i ∧ massesOf ls js m0 cs s, ?_, ?_⟩
  · intro i jp hi
    obtain ⟨s, h1, h2⟩ := h.jointName hi
    have huniq : ∀ s', m0.jointIds.find s' = some i → s' = s := by
      intro s' h'
      rw [← hs] at h'
      obtain ⟨jp1, j1, a1, a2, a3⟩ := (h.graph.jointNames s' i).mp h'
      obtain ⟨jp2, j2, b1, b2, b3⟩ := (h.graph.jointNames s i).mp h2
      rw [a1] at b1; cases b1
      rw [a2] at b2; cases b2
      rw [← a3, b3]
    refine ⟨fun l hl => ?_, ?_⟩
    · rw [← h.onOf_iff h2 hi hl]
      exact ⟨fun ⟨s', a, b⟩ => huniq s' a ▸ b, fun b => ⟨s, h1, b⟩⟩
    · rw [← h.massesOf_iff h2 hi]
      exact ⟨fun ⟨s', a, b⟩ => huniq s' a ▸ b, fun b => ⟨s, h1, b⟩⟩
  · intro s i hi
    have huniq : ∀ s', m0.jointIds.find s' = some i → s' = s := by
      intro s' h'
      rw [← hs] at h' hi
      obtain ⟨jp1, j1, a1, a2, a3⟩ := (h.graph.jointNames s' i).mp h'
      obtain ⟨jp2, j2, b1, b2, b3⟩ := (h.graph.jointNames s i).mp hi
      rw [a1] at b1; cases b1
      rw [a2] at b2; cases b2
      rw [← a3, b3]
    refine ⟨?_, ?_⟩
    · funext l
      exact propext ⟨fun ⟨s', a, b⟩ => huniq s' a ▸ b, fun b => ⟨s, hi, b⟩⟩
    · exact propext ⟨fun ⟨s', a, b⟩ => huniq s' a ▸ b, fun b => ⟨s, hi, b⟩⟩

/-- the state of the robot with the shown angles -/
theorem Sits.shown (h : Sits ls js m0 cs evs m) : ∃ (a : List K) (mk : KinModel K), a.length = m0.joints.length ∧
    (∀ s i, m0.jointIds.find s = some i →
      a[i]? = some (seenAfter i (onOf ls js m0 cs s) (massesOf ls js m0 cs s) evs).value) ∧
    At ls js m0 (cs ++ [.setJointAngles (List.range m0.joints.length) a]) mk (m.hid a) ∧ Coherent (m.hid a) ∧ Sees a m := by
  obtain ⟨mc, ha⟩ := h.at_
  obtain ⟨on, mass, hag, hn⟩ := ha.agrees
  have ht := h.tracks on mass hag
  have hlen : m.angles.length = m0.joints.length := by
    obtain ⟨⟨st, c, rfl⟩, _⟩ := ha.same
    exact ha.reach.anglesLen
  have hl : (shownList m fun i => seenAfter i (on i) (mass i) evs).length = m0.joints.length := by rw [shownList_length, hlen]
  refine ⟨shownList m fun i => seenAfter i (on i) (mass i) evs, _, hl, ?_, ha.hid hl, ht.coh, ht.sees ha.graph⟩
  intro s i hs
  obtain ⟨h1, h2⟩ := hn s i hs
  rw [← h1, ← h2]
  have hs' : m.jointIds = m0.jointIds := by
    obtain ⟨⟨st, c, rfl⟩, _⟩ := ha.same
    exact ha.reach.abs.jointIds
  rw [← hs'] at hs
  obtain ⟨jp, j, a1, _, _⟩ := (ha.graph.jointNames s i).mp hs
  exact shownList_get (by rw [ha.graph.anglesLen]; exact (List.getElem?_eq_some_iff.mp a1).1)

/-! ### Histories -/

theorem drop_ok_inv {p : Prog (KinModel K) α} {u : Unit} (e : (Prog.bind p fun _ => Prog.pure ()) m = .ok u m') :
    ∃ v, p m = .ok v m' := by
  unfold Prog.bind at e
  cases hp : p m with
  | ok v m1 => rw [hp] at e; simp only [Prog.pure, Res.ok.injEq] at e; exact ⟨v, by rw [e.2]⟩
  | exn x m1 => rw [hp] at e; cases e
  | ub u => rw [hp] at e; cases e
  | hang => rw [hp] at e; cases e

theorem drop_exn_inv {p : Prog (KinModel K) α} {x : Exn} (e : (Prog.bind p fun _ => Prog.pure ()) m = .exn x m') :
    p m = .exn x m' := by
  unfold Prog.bind at e
  cases hp : p m with
  | ok v m1 => rw [hp] at e; cases e
  | exn x m1 => rw [hp] at e; cases e; rfl
  | ub u => rw [hp] at e; cases e
  | hang => rw [hp] at e; cases e

theorem read_exn_inv {f : KinModel K → Outcome α} {x : Exn} (e : Prog.read f m = .exn x m') : m' = m := by
  unfold Prog.read at e
  split at e
  · cases e
  · cases e; rfl
  · cases e
  · cases e

theorem above_one (l : Nat) : AboveAny m [l] = Above m l := by
  funext x
  simp [AboveAny]

theorem getLinkPose_ok_lt {v : Pose K} {l : Nat} (hs : CacheSized m) (e : getLinkPose l m = .ok v m') : l < m.links.length := by
  by_contra hl
  rw [getLinkPose_oob hs hl] at e
  cases e

theorem Sits.sized (h : Sits ls js m0 cs evs m) : CacheSized m := by
  obtain ⟨_, ha⟩ := h.at_
  exact ha.sized

theorem Sits.pose (h : Sits ls js m0 cs evs m) {l : Nat} {T : Pose K} (e : getLinkPose l m = .ok T m') :
    Sits ls js m0 cs (evs ++ [.ask l]) m' :=
  h.ask (L := [l]) e (Stays.getLinkPose l) (Blind.getLinkPose l) (fun _ => Keeps.getLinkPose l)
    (by intro x hx; rw [List.mem_singleton] at hx; subst hx; exact getLinkPose_ok_lt h.sized e)
    (by rw [above_one]; exact Asks.getLinkPose h.graph.tree l)

theorem Sits.rpSound (h : Sits ls js m0 cs evs m) : RpSound m := by
  obtain ⟨_, ha⟩ := h.at_
  exact ha.rpSound

theorem getJacobian_ok_lt {v : Mat K} {l : Nat} {ids : List Nat} {rt : RotType} {b : Bool} (hs : CacheSized m)
    (e : getJacobian l ids rt b m = .ok v m') : l < m.links.length := by
  by_contra hl
  unfold getJacobian at e
  rw [Prog.bind_apply, getLinkPose_oob hs hl] at e
  cases e

theorem Sits.jac (h : Sits ls js m0 cs evs m) {l : Nat} {ids : List Nat} {rt : RotType} {b : Bool} {J : Mat K}
    (e : getJacobian l ids rt b m = .ok J m') : Sits ls js m0 cs (evs ++ [.ask l]) m' :=
  h.ask (L := [l]) e (Stays.getJacobian l ids rt b) (Blind.getJacobian l ids rt b) (fun _ => Keeps.getJacobian l ids rt b)
    (by intro x hx; rw [List.mem_singleton] at hx; subst hx; exact getJacobian_ok_lt h.sized e)
    (by rw [above_one]; exact Asks.getJacobian h.graph h.rpSound l ids rt b)

theorem Sits.com (h : Sits ls js m0 cs evs m) {v : Vec3 K} (e : getCom m = .ok v m') :
    Sits ls js m0 cs (evs ++ [.askMasses]) m' :=
  h.askMasses e Stays.getCom Blind.getCom (fun _ => Keeps.getCom) (Asks.getCom h.graph.tree)

theorem Sits.comJac (h : Sits ls js m0 cs evs m) {ids : List Nat} {b : Bool} {v : Mat K} (e : getComJacobian ids b m = .ok v m') :
    Sits ls js m0 cs (evs ++ [.askMasses]) m' :=
  h.askMasses e (Stays.getComJacobian ids b) (Blind.getComJacobian ids b) (fun _ => Keeps.getComJacobian ids b)
    (Asks.getComJacobian h.graph h.rpSound ids b)

theorem Sits.inertia (h : Sits ls js m0 cs evs m) {v : M3 K} (e : getTotalInertia m = .ok v m') :
    Sits ls js m0 cs (evs ++ [.askMasses]) m' :=
  h.askMasses e Stays.getTotalInertia Blind.getTotalInertia (fun _ => Keeps.getTotalInertia) (Asks.getTotalInertia h.graph.tree)

theorem Runs.snoc_exn {a b c : KinModel K} {cl : Call K} {x : Exn} (hr : Runs a cs b) (h : cl.run b = .exn x c) :
    Runs a (cs ++ [cl]) c := by
  induction hr with
  | nil => exact .exn h .nil
  | ok h1 _ ih => exact .ok h1 (ih h)
  | exn h1 _ ih => exact .exn h1 (ih h)

/-- adding a link whose name is taken -/
theorem Sits.dup (h : Sits ls js m0 cs evs m) {name : String} {parent l : Nat} {o : Pose K} (hn : m.linkIds.find name = some l) :
    Sits ls js m0 (cs ++ [.addNewLink name parent o]) evs m := by
  obtain ⟨mc, ha⟩ := h.at_
  refine ⟨⟨mc, ⟨ha.reach.tree, ha.reach.supported, ha.reach.built, ?_⟩, ha.same, ha.sized⟩, h.closed, h.tracks⟩
  have hn' : mc.linkIds.find name = some l := by
    obtain ⟨⟨st, c, rfl⟩, _⟩ := ha.same
    exact hn
  exact ha.reach.runs.snoc_exn (x := .invalidArgument ("link name : " ++ name ++ " already exists"))
    (by simp only [Call.run, Prog.bind, addNewLink_dup hn'])

theorem setJointAnglesNC_noExn {ids : List Nat} {q : List K} {x : Exn} : setJointAnglesNC ids q m ≠ .exn x m' := by
  have hnoexn : ∀ (ids : List Nat) (vals a : List K) e, writeAngles ids vals a ≠ .exn e := by
    intro ids
    induction ids with
    | nil => intro vals a e h; cases h
    | cons i ids ih =>
      intro vals a e h
      cases vals with
      | nil => cases h
      | cons v vals =>
        unfold writeAngles at h
        split at h
        · exact ih _ _ _ h
        · cases h
  intro h
  unfold setJointAnglesNC at h
  split at h
  · cases h
  · rename_i e; exact hnoexn _ _ _ _ e
  · cases h
  · cases h

theorem Sits.step (h : Sits ls js m0 cs evs m) {c : SCall K} (hr : c.run m = .ok () m' ∨ ∃ x, c.run m = .exn x m') :
    Sits ls js m0 (cs ++ c.effect) (evs ++ c.events (linksAfter (names0 m0) cs)) m' := by
  cases c with
  | write ids vals =>
    rcases hr with hr | ⟨x, hr⟩
    · exact h.write hr
    · exact absurd hr setJointAnglesNC_noExn
  | call c =>
    cases c with
    | setJointAngles ids vals =>
      have e : ∀ r, (SCall.call (.setJointAngles ids vals)).run m = r → (Prog.bind (setJointAnglesNC ids vals) fun _ => clearCache) m = r :=
        fun r h => h
      simp only [Prog.bind] at e
      rcases hr with hr | ⟨x, hr⟩
      · have := e _ hr
        cases hp : setJointAnglesNC ids vals m with
        | ok u m1 =>
          rw [hp] at this
          have := (h.write hp).clear this
          simpa [SCall.effect, SCall.events] using this
        | exn x m1 => rw [hp] at this; cases this
        | ub u => rw [hp] at this; cases this
        | hang => rw [hp] at this; cases this
      · have := e _ hr
        cases hp : setJointAnglesNC ids vals m with
        | ok u m1 => rw [hp] at this; cases this
        | exn x m1 => exact absurd hp setJointAnglesNC_noExn
        | ub u => rw [hp] at this; cases this
        | hang => rw [hp] at this; cases this
    | setBasePose b =>
      rcases hr with hr | ⟨x, hr⟩
      · exact h.setBase hr
      · cases hr
    | setInitAngles =>
      rcases hr with hr | ⟨x, hr⟩
      · exact h.zero hr
      · cases hr
    | clearCache =>
      rcases hr with hr | ⟨x, hr⟩
      · have := h.clear hr
        simpa [SCall.effect, SCall.events] using this
      · cases hr
    | addNewLink n p o =>
      obtain ⟨mc, ha⟩ := h.at_
      have hm := ha.find_none n
      simp only [SCall.effect, SCall.events]
      cases hn : m.linkIds.find n with
      | some l =>
        rw [hn] at hm
        have hmem : n ∈ linksAfter (names0 m0) cs := by
          by_contra hne
          cases hm.mpr hne
        rw [if_pos hmem, List.append_nil]
        have hm' : m' = m := by
          rcases hr with hr | ⟨x, hr⟩
          · obtain ⟨v, hv⟩ := drop_ok_inv hr
            rw [addNewLink_dup hn] at hv; cases hv
          · have := drop_exn_inv hr
            rw [addNewLink_dup hn] at this; cases this; rfl
        rw [hm']
        exact h.dup hn
      | none =>
        rw [hn] at hm
        rw [if_neg (hm.mp rfl)]
        rcases hr with hr | ⟨x, hr⟩
        · obtain ⟨v, hv⟩ := drop_ok_inv hr
          exact h.addLink hv
        · exfalso
          have := drop_exn_inv hr
          by_cases hp : p < m.links.length
          · obtain ⟨_, _, e, _⟩ := ha.addLink (o := o) hn hp
            rw [e] at this; cases this
          · simp only [Tinyfk.addNewLink, hn] at this
            rw [if_neg hp] at this
            cases this
    | getLinkPose l =>
      simp only [SCall.effect, SCall.events, List.append_nil]
      rcases hr with hr | ⟨x, hr⟩
      · obtain ⟨v, hv⟩ := drop_ok_inv hr
        exact h.pose hv
      · exact ((Stays.getLinkPose l).noExn h.graph.tree (drop_exn_inv hr)).elim
    | getJacobian l ids rt b =>
      simp only [SCall.effect, SCall.events, List.append_nil]
      rcases hr with hr | ⟨x, hr⟩
      · obtain ⟨v, hv⟩ := drop_ok_inv hr
        exact h.jac hv
      · exact ((Stays.getJacobian l ids rt b).noExn h.graph.tree (drop_exn_inv hr)).elim
    | getCom =>
      simp only [SCall.effect, SCall.events, List.append_nil]
      rcases hr with hr | ⟨x, hr⟩
      · obtain ⟨v, hv⟩ := drop_ok_inv hr
        exact h.com hv
      · exact (Stays.getCom.noExn h.graph.tree (drop_exn_inv hr)).elim
    | getComJacobian ids b =>
      simp only [SCall.effect, SCall.events, List.append_nil]
      rcases hr with hr | ⟨x, hr⟩
      · obtain ⟨v, hv⟩ := drop_ok_inv hr
        exact h.comJac hv
      · exact ((Stays.getComJacobian ids b).noExn h.graph.tree (drop_exn_inv hr)).elim
    | getTotalInertia =>
      simp only [SCall.effect, SCall.events, List.append_nil]
      rcases hr with hr | ⟨x, hr⟩
      · obtain ⟨v, hv⟩ := drop_ok_inv hr
        exact h.inertia hv
      · exact (Stays.getTotalInertia.noExn h.graph.tree (drop_exn_inv hr)).elim
    | getJointIds _ | getLinkIds _ | getJointAngles _ | getJointPositionLimits _ =>
      have : m' = m := by
        rcases hr with hr | ⟨x, hr⟩
        · obtain ⟨v, hv⟩ := drop_ok_inv hr
          exact (read_ok_inv hv).2
        · exact read_exn_inv (drop_exn_inv hr)
      rw [this]
      simpa [SCall.effect, SCall.events] using h

theorem Sits.runs (h : Sits ls js m0 cs evs m) {scs : List (SCall K)} (hr : SRuns m scs m') :
    Sits ls js m0 (cs ++ scs.flatMap SCall.effect) (evs ++ eventsOf (linksAfter (names0 m0) cs) scs) m' := by
  induction hr generalizing cs evs with
  | nil => simpa [eventsOf] using h
  | ok h1 _ ih =>
    have := ih (h.step (.inl h1))
    rw [linksAfter_append] at this
    simpa [eventsOf] using this
  | exn h1 _ ih =>
    have := ih (h.step (.inr ⟨_, h1⟩))
    rw [linksAfter_append] at this
    simpa [eventsOf] using this

theorem SReach.sits {scs : List (SCall K)} (h : SReach ls js m0 scs m) :
    Sits ls js m0 (scs.flatMap SCall.effect) (eventsOf (names0 m0) scs) m := by
  have := (Sits.start h.tree h.supported h.built).runs h.runs
  simpa [linksAfter] using this

end

end Tinyfk
