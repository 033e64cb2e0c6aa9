import Verif.Proofs.Construct
import Verif.Proofs.Query

/-!
# The invariant of reachable models and its preservation
-/

set_option linter.unusedSectionVars false

namespace Tinyfk

open Scalar

variable {K : Type} [Scalar K] {α β : Type}

/-! ### Changing only inertials -/

/-- all of a link but its inertial -/
def Link.strip (l : Link K) : Link K := { l with inertial := none }

/-- same links up to inertials -/
def SameShape (m m' : KinModel K) : Prop :=
  ∀ l : Nat, (m'.links[l]?).map Link.strip = (m.links[l]?).map Link.strip

theorem SameShape.symm {m m' : KinModel K} (h : SameShape m m') : SameShape m' m :=
  fun l => (h l).symm

theorem SameShape.of_links {m m' : KinModel K} (h : m'.links = m.links) : SameShape m m' := by
  intro l; rw [h]

theorem SameShape.get {m m' : KinModel K} (h : SameShape m m') {l : Nat} {lk' : Link K}
    (hl : m'.links[l]? = some lk') : ∃ lk, m.links[l]? = some lk ∧ lk'.name = lk.name ∧
      lk'.id = lk.id ∧ lk'.parent = lk.parent ∧ lk'.parentJoint = lk.parentJoint ∧
      lk'.childLinks = lk.childLinks := by
  have := h l
  rw [hl] at this
  cases hm : m.links[l]? with
  | none => rw [hm] at this; simp at this
  | some lk =>
    rw [hm] at this
    simp only [Option.map_some, Option.some.injEq, Link.strip, Link.mk.injEq] at this
    exact ⟨lk, rfl, this.1, this.2.1, this.2.2.2.1, this.2.2.2.2.1, this.2.2.2.2.2.2⟩

theorem SameShape.length {m m' : KinModel K} (h : SameShape m m') :
    m'.links.length = m.links.length := by
  have key : ∀ {a b : KinModel K}, SameShape a b → b.links.length ≤ a.links.length := by
    intro a b h
    by_contra hlt
    have h1 : a.links.length < b.links.length := by omega
    have e1 : b.links[a.links.length]? = some b.links[a.links.length] := by simp [h1]
    obtain ⟨lk, hlk, _⟩ := h.get e1
    have := (List.getElem?_eq_some_iff.mp hlk).1
    omega
  exact Nat.le_antisymm (key h) (key h.symm)

theorem SameShape.depth {m m' : KinModel K} (h : SameShape m m') {l n : Nat} (hd : Depth m l n) :
    Depth m' l n := by
  induction hd with
  | root h1 h2 =>
    obtain ⟨lk, e1, _, _, e2, _⟩ := h.symm.get h1
    exact .root e1 (by rw [← e2]; exact h2)
  | child h1 h2 _ ih =>
    obtain ⟨lk, e1, _, _, e2, _⟩ := h.symm.get h1
    exact .child e1 (by rw [← e2]; exact h2) ih

theorem SameShape.onPath {m m' : KinModel K} (h : SameShape m m') {jp l : Nat}
    (hd : OnPath m jp l) : OnPath m' jp l := by
  induction hd with
  | here h1 h2 h3 =>
    obtain ⟨lk, e1, _, _, e2, e3, _⟩ := h.symm.get h1
    exact .here e1 (by rw [← e2]; exact h2) (by rw [← e3]; exact h3)
  | up h1 h2 _ ih =>
    obtain ⟨lk, e1, _, _, e2, _⟩ := h.symm.get h1
    exact .up e1 (by rw [← e2]; exact h2) ih

theorem SameShape.isPose {m m' : KinModel K} (h : SameShape m m') (hj : m'.jheap = m.jheap)
    (ha : m'.angles = m.angles) (hb : m'.base = m.base) {l : Nat} {T : Pose K}
    (hp : IsPose m l T) : IsPose m' l T := by
  induction hp with
  | root h1 h2 =>
    obtain ⟨lk, e1, _, _, e2, _⟩ := h.symm.get h1
    rw [← hb]
    exact .root e1 (by rw [← e2]; exact h2)
  | child h1 h2 h3 h4 h5 _ ih =>
    obtain ⟨lk, e1, _, _, e2, e3, _⟩ := h.symm.get h1
    exact .child e1 (by rw [← e2]; exact h2) (by rw [← e3]; exact h3) (by rw [hj]; exact h4)
      (by rw [ha]; exact h5) ih

theorem Graph.congr {m m' : KinModel K} (h : SameShape m m') (hj : m'.jheap = m.jheap)
    (hjo : m'.joints = m.joints) (hji : m'.jointIds = m.jointIds) (hli : m'.linkIds = m.linkIds)
    (ha : m'.angles.length = m.angles.length) (hn : m'.numDof = m.numDof)
    (hr : m'.rootLinkId = m.rootLinkId) (g : Graph m) : Graph m' := by
  have hlen := h.length
  refine ⟨?_, ?_, ?_, ?_, ?_, ?_, ?_, ?_, ?_, ?_, ?_, ?_, ?_, ?_, ?_⟩
  · intro l lk h1
    obtain ⟨x, e1, e2, e3, e4, e5, e6⟩ := h.get h1
    rw [e3]; exact g.ids e1
  · intro l h1
    rw [hlen] at h1
    obtain ⟨n, hn⟩ := g.depth h1
    exact ⟨n, h.depth hn⟩
  · intro l p lk h1 h2
    obtain ⟨x, e1, e2, e3, e4, e5, e6⟩ := h.get h1
    rw [hj, hjo, e5]
    exact g.pjoint e1 (e4 ▸ h2)
  · intro l jp lk h1 h2
    obtain ⟨x, e1, e2, e3, e4, e5, e6⟩ := h.get h1
    rw [hj]; exact g.pjValid e1 (e5 ▸ h2)
  · intro l l' jp lk lk' h1 h2 h3 h4
    obtain ⟨x, e1, e2, e3, e4, e5, e6⟩ := h.get h1
    obtain ⟨y, f1, f2, f3, f4, f5, f6⟩ := h.get h2
    exact g.pjUnique e1 f1 (e5 ▸ h3) (f5 ▸ h4)
  · intro l c lk h1
    obtain ⟨x, e1, e2, e3, e4, e5, e6⟩ := h.get h1
    rw [e6, g.children e1]
    constructor
    · rintro ⟨ck, a1, a2⟩
      obtain ⟨y, f1, f2, f3, f4, f5, f6⟩ := h.symm.get a1
      exact ⟨y, f1, f4 ▸ a2⟩
    · rintro ⟨ck, a1, a2⟩
      obtain ⟨y, f1, f2, f3, f4, f5, f6⟩ := h.get a1
      exact ⟨y, f1, f4 ▸ a2⟩
  · obtain ⟨lk, a1, a2⟩ := g.root
    obtain ⟨y, f1, f2, f3, f4, f5, f6⟩ := h.symm.get a1
    exact ⟨y, by rw [hr]; exact f1, f4 ▸ a2⟩
  · intro l lk h1 h2
    obtain ⟨x, e1, e2, e3, e4, e5, e6⟩ := h.get h1
    rw [hr]; exact g.rootUnique e1 (e4 ▸ h2)
  · intro s l
    rw [hli, g.linkNames]
    constructor
    · rintro ⟨lk, a1, a2⟩
      obtain ⟨y, f1, f2, _⟩ := h.symm.get a1
      exact ⟨y, f1, f2 ▸ a2⟩
    · rintro ⟨lk, a1, a2⟩
      obtain ⟨y, f1, f2, _⟩ := h.get a1
      exact ⟨y, f1, f2 ▸ a2⟩
  · rw [hli, hlen]; exact g.linkIdsLen
  · intro i jp h1
    rw [hjo] at h1
    obtain ⟨j, c, lk, p, a1, a2, a3, a4, a5, a6, a7⟩ := g.joint h1
    obtain ⟨y, f1, f2, f3, f4, f5, f6⟩ := h.symm.get a5
    exact ⟨j, c, y, p, by rw [hj]; exact a1, a2, a3, a4, f1, f5 ▸ a6, f4 ▸ a7⟩
  · intro s i; rw [hji, hjo, hj]; exact g.jointNames s i
  · rw [hji, hjo]; exact g.jointIdsLen
  · rw [ha, hjo]; exact g.anglesLen
  · rw [hn, hjo]; exact g.numDof

theorem RpOK.congr {m m' : KinModel K} (h : SameShape m m') (hjo : m'.joints = m.joints)
    (hr : m'.rptable = m.rptable) (r : RpOK m) : RpOK m' := by
  refine ⟨by rw [hr, h.length, hjo]; exact r.sized, ?_⟩
  intro l i
  rw [hr, hjo, r.iff]
  constructor
  · rintro ⟨jp, h1, h2⟩; exact ⟨jp, h1, h.onPath h2⟩
  · rintro ⟨jp, h1, h2⟩; exact ⟨jp, h1, h.symm.onPath h2⟩

/-! ### The invariant -/

/-- The centre-of-mass links exist and carry an inertial. -/
def ComOK (m : KinModel K) : Prop :=
  ∀ d ∈ m.comDummy, ∃ lk inr, m.links[d]? = some lk ∧ lk.inertial = some inr

/-- Invariant of all reachable models. -/
structure Inv (m : KinModel K) : Prop where
  graph : Graph m
  sized : CacheSized m
  coh : Coherent m
  com : ComOK m
  /-- a model with centre-of-mass links has its relevance table -/
  rp : m.comDummy ≠ [] → RpOK m

theorem Inv.ready {m : KinModel K} (h : Inv m) (hf : FitsStack m) : Ready m :=
  ⟨h.graph.tree, h.sized, h.coh, hf⟩

theorem coherent_clear {m : KinModel K} : Coherent { m with cache := m.cache.clear } := by
  intro l hl
  simp only [SizedCache.clear, List.getElem?_replicate] at hl
  split at hl <;> simp at hl

theorem coherent_of_fresh {m : KinModel K} (h : ∀ l : Nat, m.cache.pred[l]? ≠ some true) :
    Coherent m := fun l hl => absurd hl (h l)

theorem clear_pred (c : SizedCache (Pose K)) (l : Nat) : c.clear.pred[l]? ≠ some true := by
  simp only [SizedCache.clear, List.getElem?_replicate]
  split <;> simp

theorem cacheSized_clear {m : KinModel K} (h : CacheSized m) :
    CacheSized { m with cache := m.cache.clear } :=
  ⟨h.size, by simp [SizedCache.clear, h.size], h.data⟩

/-! ### Queries keep the invariant whatever their outcome -/

/-- The robots that are `m` up to cache and stack, with a good cache. -/
structure GoodCache (m m1 : KinModel K) : Prop where
  same : SameRobot m m1
  tree : Tree m1
  sized : CacheSized m1
  coh : Coherent m1

/-- `p` changes at most cache and stack, and keeps them good, whether it returns or throws. -/
def Keeps (m : KinModel K) (p : Prog (KinModel K) α) : Prop :=
  ∀ m1, GoodCache m m1 → match p m1 with
    | .ok _ m2 => GoodCache m m2
    | .exn _ m2 => GoodCache m m2
    | .ub _ => True
    | .hang => True

theorem Keeps.pure (m : KinModel K) (v : α) : Keeps m (Pure.pure v) := fun _ h => h

theorem Keeps.bind {m : KinModel K} {p : Prog (KinModel K) α} {f : α → Prog (KinModel K) β}
    (h : Keeps m p) (h' : ∀ v, Keeps m (f v)) : Keeps m (p >>= f) := by
  intro m1 hg
  have h1 := h m1 hg
  rw [Prog.bind_apply]
  cases hp : p m1 with
  | ok a m2 => rw [hp] at h1; exact h' a m2 h1
  | exn e m2 => rw [hp] at h1; exact h1
  | ub u => trivial
  | hang => trivial

theorem Keeps.read {m : KinModel K} (f : KinModel K → Outcome α) : Keeps m (Prog.read f) := by
  intro m1 hg
  unfold Prog.read
  cases f m1 <;> simp [hg]

theorem Keeps.lift {m : KinModel K} (o : Outcome α) : Keeps m (Prog.lift o) := Keeps.read _

theorem Keeps.throw {m : KinModel K} (e : Exn) : Keeps m (Prog.throw e : Prog (KinModel K) α) :=
  fun _ h => h

/-- a pose query that returns, returns the right pose; it never throws or hangs -/
theorem getLinkPose_total {m : KinModel K} (ht : Tree m) (hs : CacheSized m) (hc : Coherent m)
    (l : Nat) :
    (∃ T m', getLinkPose l m = .ok T m' ∧ IsPose m l T ∧ SameRobot m m' ∧ CacheOK m m'.cache) ∨
    ∃ u, getLinkPose l m = .ub u := by
  have hok : CacheOK m m.cache := ⟨hs.size, hs.pred, hs.data, hc⟩
  by_cases hl : l < m.links.length
  · rcases getCache_of_lt hs hl with ⟨hg, _⟩ | ⟨T, hg, hp, hd⟩
    · -- the upward loop either overflows or succeeds
      have key : ∀ (h n : Nat), Depth m h n → ∀ st : SizedStack (LinkIdAndTransform K),
          st.cur ≤ st.data.length → UpPath m l (st.data.take st.cur) h →
          (∃ u, upLoop m h st = .ub u) ∨
          ∃ st' tf h', upLoop m h st = .ok (st', tf) ∧ st'.data.length = st.data.length ∧
            st'.cur ≤ st'.data.length ∧ UpPath m l (st'.data.take st'.cur) h' ∧ IsPose m h' tf := by
        intro h n hd
        induction hd with
        | root hl hp =>
          intro st hcur hpath
          rw [upLoop]
          simp only [hl, hp]
          exact .inr ⟨st, m.base, _, rfl, rfl, hcur, hpath, .root hl hp⟩
        | @child h p n lk hl hp hd ih =>
          intro st hcur hpath
          rw [upLoop]
          have hlt := (List.getElem?_eq_some_iff.mp hl).1
          simp only [hl, hp, ht.ids hl]
          rcases getCache_of_lt hs hlt with ⟨hg, _⟩ | ⟨T, hg, hpt, hdt⟩
          · obtain ⟨jp, j, hj, hh, hok⟩ := ht.pjoint hl hp
            obtain ⟨T, hT, hE⟩ := jointTransform_spec (m := m) hok
            simp only [hg, hj, hh, hT]
            by_cases hcap : st.cur < st.data.length
            · simp only [hcap, dif_pos]
              rcases ih ⟨st.data.set st.cur ⟨h, T⟩, st.cur + 1⟩ (by simp; omega) (by
                have htk : (st.data.set st.cur ⟨h, T⟩).take (st.cur + 1) =
                    st.data.take st.cur ++ [⟨h, T⟩] := by
                  rw [List.take_succ_eq_append_getElem (by simpa using hcap)]
                  simp [List.take_set_of_le]
                simp only [htk]
                exact .snoc hpath ⟨lk, jp, j, hl, hp, hj, hh, hE, rfl⟩) with ⟨u, hu⟩ |
                  ⟨st', tf, h', e1, e2, e3, e4, e5⟩
              · exact .inl ⟨u, hu⟩
              · exact .inr ⟨st', tf, h', e1, by simpa using e2, e3, e4, e5⟩
            · simp only [hcap, dif_neg, not_false_iff]
              exact .inl ⟨_, rfl⟩
          · simp only [hg]
            obtain ⟨T', hT', hP⟩ := hc _ hpt
            rw [hdt] at hT'; cases hT'
            exact .inr ⟨st, T, _, rfl, rfl, hcur, hpath, hP⟩
      obtain ⟨n, hdep⟩ := ht.depth hl
      unfold getLinkPose
      simp only [hg]
      rcases key l n hdep m.stack.reset (by simp [SizedStack.reset])
        (by simpa [SizedStack.reset] using UpPath.nil) with ⟨u, hu⟩ | ⟨st, tf, h', e1, e2, e3, e4, e5⟩
      · exact .inr ⟨u, by simp only [getLinkPoseInner, hu]⟩
      · obtain ⟨T', c', f1, f2, f3⟩ := downLoop_spec l st.data st.cur e3 e4 e5 hok
        refine .inl ⟨T', { m with stack := { st with cur := 0 }, cache := c' }, ?_, f2,
          ⟨⟨_, _, rfl⟩, by simpa [SizedStack.reset] using e2⟩, f3⟩
        simp only [getLinkPoseInner, e1, f1]
    · unfold getLinkPose
      simp only [hg]
      obtain ⟨T'', h1, h2⟩ := hc l hp
      rw [hd] at h1; cases h1
      exact .inl ⟨T, m, rfl, h2, .refl m, hok⟩
  · right
    refine ⟨.outOfBounds "SizedCache::get_cache", ?_⟩
    have : m.cache.pred[l]? = none := by
      rw [List.getElem?_eq_none_iff, hs.pred]; omega
    simp [getLinkPose, SizedCache.getCache, this]

theorem Keeps.getLinkPose {m : KinModel K} (l : Nat) : Keeps m (getLinkPose l) := by
  intro m1 hg
  rcases getLinkPose_total hg.tree hg.sized hg.coh l with ⟨T, m2, h1, h2, h3, h4⟩ | ⟨u, hu⟩
  · rw [h1]
    have h3' := h3
    obtain ⟨⟨s, c, rfl⟩, hcap⟩ := h3
    refine ⟨hg.same.trans h3', Tree.congr (m := m1) rfl rfl rfl hg.tree,
      ⟨h4.size, h4.pred, h4.data⟩, ?_⟩
    intro k hk
    obtain ⟨T, a, b⟩ := h4.coh k hk
    exact ⟨T, a, (IsPose.of_same h3').mpr b⟩
  · rw [hu]; trivial

theorem Keeps.ite {m : KinModel K} {c : Prop} [Decidable c] {p q : Prog (KinModel K) α}
    (hp : Keeps m p) (hq : Keeps m q) : Keeps m (if c then p else q) := by
  split <;> assumption

theorem Keeps.jacJoint {m : KinModel K} (elink : Nat) (rt : RotType) (tfE : Pose K) (erpy : Vec3 K)
    (einv : Rot K) (jid i : Nat) (J : Mat K) : Keeps m (jacJoint elink rt tfE erpy einv jid i J) := by
  unfold Tinyfk.jacJoint
  refine Keeps.bind (Keeps.read _) (fun b => Keeps.ite ?_ (Keeps.pure _ _))
  exact Keeps.bind (Keeps.read _) fun _ => Keeps.bind (Keeps.read _) fun _ =>
    Keeps.bind (Keeps.getLinkPose _) fun _ => Keeps.lift _

theorem Keeps.jacJointLoop {m : KinModel K} (elink : Nat) (rt : RotType) (tfE : Pose K)
    (erpy : Vec3 K) (einv : Rot K) (ids : List Nat) (i : Nat) (J : Mat K) :
    Keeps m (jacJointLoop elink rt tfE erpy einv ids i J) := by
  induction ids generalizing i J with
  | nil => exact Keeps.pure _ _
  | cons a l ih => exact Keeps.bind (Keeps.jacJoint _ _ _ _ _ _ _ _) fun _ => ih _ _

theorem Keeps.getJacobian {m : KinModel K} (elink : Nat) (ids : List Nat) (rt : RotType) (b : Bool) :
    Keeps m (getJacobian elink ids rt b) := by
  unfold Tinyfk.getJacobian
  refine Keeps.bind (Keeps.getLinkPose _) fun _ => Keeps.bind (Keeps.jacJointLoop _ _ _ _ _ _ _ _) fun _ =>
    Keeps.ite ?_ (Keeps.pure _ _)
  exact Keeps.bind (Keeps.read _) fun _ => Keeps.bind (Keeps.getLinkPose _) fun _ => Keeps.lift _

theorem Keeps.comLoop {m : KinModel K} (ds : List Nat) (acc : Vec3 K) (mt : K) :
    Keeps m (comLoop ds acc mt) := by
  induction ds generalizing acc mt with
  | nil => exact Keeps.pure _ _
  | cons a l ih => exact Keeps.bind (Keeps.read _) fun _ => Keeps.bind (Keeps.getLinkPose _) fun _ => ih _ _

theorem Keeps.getCom {m : KinModel K} : Keeps m (getCom : Prog (KinModel K) (Vec3 K)) := by
  unfold Tinyfk.getCom
  exact Keeps.bind (Keeps.read _) fun _ => Keeps.bind (Keeps.comLoop _ _ _) fun _ => Keeps.pure _ _

theorem Keeps.comJacLoop {m : KinModel K} (ids : List Nat) (b : Bool) (ds : List Nat) (acc : Mat K)
    (mt : K) : Keeps m (comJacLoop ids b ds acc mt) := by
  induction ds generalizing acc mt with
  | nil => exact Keeps.pure _ _
  | cons a l ih =>
    exact Keeps.bind (Keeps.read _) fun _ => Keeps.bind (Keeps.getJacobian _ _ _ _) fun _ =>
      Keeps.bind (Keeps.lift _) fun _ => ih _ _

theorem Keeps.getComJacobian {m : KinModel K} (ids : List Nat) (b : Bool) :
    Keeps m (getComJacobian ids b) := by
  unfold Tinyfk.getComJacobian
  exact Keeps.bind (Keeps.read _) fun _ => Keeps.bind (Keeps.comJacLoop _ _ _ _ _) fun _ => Keeps.lift _

theorem Keeps.inertiaLoop {m : KinModel K} (com : Vec3 K) (ds : List Nat) (acc : M3 K) :
    Keeps m (inertiaLoop com ds acc) := by
  induction ds generalizing acc with
  | nil => exact Keeps.pure _ _
  | cons a l ih =>
    refine Keeps.bind (Keeps.read _) fun d => ?_
    rcases d with ⟨_ | inr, lid⟩
    · exact ih _
    · exact Keeps.bind (Keeps.getLinkPose _) fun _ => ih _

theorem Keeps.getTotalInertia {m : KinModel K} :
    Keeps m (getTotalInertia : Prog (KinModel K) (M3 K)) := by
  unfold Tinyfk.getTotalInertia
  exact Keeps.bind Keeps.getCom fun _ => Keeps.bind (Keeps.read _) fun _ => Keeps.inertiaLoop _ _ _

theorem Inv.goodCache {m : KinModel K} (h : Inv m) : GoodCache m m :=
  ⟨.refl m, h.graph.tree, h.sized, h.coh⟩

theorem Inv.of_goodCache {m m1 : KinModel K} (h : Inv m) (hg : GoodCache m m1) : Inv m1 := by
  obtain ⟨⟨⟨s, c, rfl⟩, hcap⟩, h1, h2, h3⟩ := hg
  exact ⟨Graph.congr (m := m) (.of_links rfl) rfl rfl rfl rfl rfl rfl rfl h.graph, h2, h3, h.com,
    fun hne => RpOK.congr (m := m) (.of_links rfl) rfl rfl (h.rp hne)⟩

/-! ### Setters -/

theorem writeAngles_length {ids : List Nat} {vals a a' : List K} (h : writeAngles ids vals a = .ok a') :
    a'.length = a.length := by
  induction ids generalizing vals a with
  | nil => simp only [writeAngles, Outcome.ok.injEq] at h; rw [h]
  | cons i ids ih =>
    cases vals with
    | nil => simp [writeAngles] at h
    | cons v vals =>
      simp only [writeAngles] at h
      split at h
      · rw [ih h]; simp
      · cases h

theorem Inv.setAngles {m : KinModel K} (h : Inv m) (a : List K) (ha : a.length = m.angles.length) :
    Inv { m with angles := a, cache := m.cache.clear } :=
  ⟨Graph.congr (m := m) (.of_links rfl) rfl rfl rfl rfl ha rfl rfl h.graph,
    ⟨h.sized.size, by simp [SizedCache.clear, h.sized.size], h.sized.data⟩,
    coherent_of_fresh (clear_pred _), h.com,
    fun hne => RpOK.congr (m := m) (.of_links rfl) rfl rfl (h.rp hne)⟩

theorem Inv.setBase {m : KinModel K} (h : Inv m) (b : Pose K) :
    Inv { m with base := b, cache := m.cache.clear } :=
  ⟨Graph.congr (m := m) (.of_links rfl) rfl rfl rfl rfl rfl rfl rfl h.graph,
    ⟨h.sized.size, by simp [SizedCache.clear, h.sized.size], h.sized.data⟩,
    coherent_of_fresh (clear_pred _), h.com,
    fun hne => RpOK.congr (m := m) (.of_links rfl) rfl rfl (h.rp hne)⟩

theorem Inv.clear {m : KinModel K} (h : Inv m) : Inv { m with cache := m.cache.clear } :=
  ⟨Graph.congr (m := m) (.of_links rfl) rfl rfl rfl rfl rfl rfl rfl h.graph,
    cacheSized_clear h.sized, coherent_clear, h.com,
    fun hne => RpOK.congr (m := m) (.of_links rfl) rfl rfl (h.rp hne)⟩

/-! ### Adding a link -/

theorem cacheSized_attached {m : KinModel K} (h : CacheSized m) (name : String) (parent : Nat)
    (pose : Pose K) : CacheSized (attached m name parent pose) := by
  refine ⟨?_, ?_, ?_⟩
  · rw [attached_length]; simp [attached, SizedCache.extend, SizedCache.clear, h.size]
  · rw [attached_length]; simp [attached, SizedCache.extend, SizedCache.clear, h.size]
  · rw [attached_length]; simp [attached, SizedCache.extend, SizedCache.clear, h.data]

theorem addNewLink_spec {m : KinModel K} (g : Graph m) (name : String) (parent : Nat)
    (pose : Pose K) (hn : m.linkIds.find name = none) (hp : parent < m.links.length) :
    ∃ t, addNewLink name parent pose m =
        .ok m.links.length { attached m name parent pose with rptable := t } ∧
      Graph { attached m name parent pose with rptable := t } ∧
      RpOK { attached m name parent pose with rptable := t } := by
  have g' := g.attached pose hn hp
  obtain ⟨t, h1, h2⟩ := updateRptable_spec g'
  refine ⟨t, ?_, Graph.congr (m := attached m name parent pose) (.of_links rfl) rfl rfl rfl rfl rfl rfl rfl g', h2⟩
  rw [addNewLink_run pose hn hp]
  simp [h1]

theorem Inv.addNewLink {m : KinModel K} (h : Inv m) (name : String) (parent : Nat)
    (pose : Pose K) (hn : m.linkIds.find name = none) (hp : parent < m.links.length) :
    ∃ t, addNewLink name parent pose m =
        .ok m.links.length { attached m name parent pose with rptable := t } ∧
      Inv { attached m name parent pose with rptable := t } ∧
      RpOK { attached m name parent pose with rptable := t } := by
  obtain ⟨t, h1, h2, h3⟩ := addNewLink_spec h.graph name parent pose hn hp
  have hs := cacheSized_attached h.sized name parent pose
  refine ⟨t, h1, ⟨h2, ⟨hs.size, hs.pred, hs.data⟩, coherent_of_fresh (clear_pred _), ?_, fun _ => h3⟩, h3⟩
  intro d hd
  obtain ⟨lk, inr, a1, a2⟩ := h.com d hd
  obtain ⟨lk', e1, _, _, e2, _⟩ := attached_old (name := name) (pose := pose) hp a1
  exact ⟨lk', inr, e1, e2.trans a2⟩

end Tinyfk
