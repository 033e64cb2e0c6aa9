import Verif.Spec.Chain

/-!
# `get_link_pose` computes the chain

The invariant of a model (`Tree`: shape of the kinematic tree; `CacheSized`: sizes of the
cache; `Coherent`: cached poses are right) and the proof that the two loops of
`get_link_pose_inner` compute the pose of the chain.
-/

set_option linter.unusedSectionVars false

namespace Tinyfk

open Scalar

variable {K : Type} [Scalar K]

/-- The part of the invariant that makes the parent pointers a forest with usable joints. -/
structure Tree (m : KinModel K) : Prop where
  ids : ∀ {l : Nat} {lk : Link K}, m.links[l]? = some lk → lk.id = l
  depth : ∀ {l : Nat}, l < m.links.length → ∃ n, Depth m l n
  pjoint : ∀ {l p : Nat} {lk : Link K}, m.links[l]? = some lk → lk.parent = some p →
    ∃ jp j, lk.parentJoint = some jp ∧ m.jheap[jp]? = some j ∧
      (j.type = .fixed ∨ j.type.Movable ∧ ∃ i, j.id = some i ∧ i < m.angles.length)

/-- Sizes of the cache. -/
structure CacheSized (m : KinModel K) : Prop where
  size : m.cache.size = m.links.length
  pred : m.cache.pred.length = m.links.length
  data : m.cache.data.length = m.links.length

/-- Every cached pose is the pose of its link. -/
def Coherent (m : KinModel K) : Prop :=
  ∀ (l : Nat), m.cache.pred[l]? = some true →
    ∃ T, m.cache.data[l]? = some T ∧ IsPose m l T

/-- `m'` is `m` up to the contents of cache and stack. -/
structure SameRobot (m m' : KinModel K) : Prop where
  eq : ∃ st c, m' = { m with stack := st, cache := c }
  cap : m'.stack.data.length = m.stack.data.length

theorem SameRobot.refl (m : KinModel K) : SameRobot m m := ⟨⟨_, _, rfl⟩, rfl⟩

theorem SameRobot.trans {a b c : KinModel K} (h : SameRobot a b) (h' : SameRobot b c) :
    SameRobot a c := by
  obtain ⟨⟨s, k, rfl⟩, hc⟩ := h
  obtain ⟨⟨s', k', rfl⟩, hc'⟩ := h'
  exact ⟨⟨_, _, rfl⟩, hc'.trans hc⟩

/-! ### Determinism and existence -/

theorem JointMotion.unique {j : Joint K} {θ : K} {A B : Pose K} (h : JointMotion j θ A)
    (h' : JointMotion j θ B) : A = B := by
  cases h <;> cases h' <;> simp_all

theorem EdgeTf.unique {a : List K} {j : Joint K} {A B : Pose K} (h : EdgeTf a j A)
    (h' : EdgeTf a j B) : A = B := by
  cases h with
  | fixed hf =>
    cases h' with
    | fixed => rfl
    | movable _ _ hm => cases hm <;> simp_all
  | movable h1 h2 hm =>
    cases h' with
    | fixed hf => cases hm <;> simp_all
    | movable h1' h2' hm' =>
      simp_all
      rw [hm.unique hm']

theorem IsPose.unique {m : KinModel K} {l : Nat} {A B : Pose K} (h : IsPose m l A)
    (h' : IsPose m l B) : A = B := by
  induction h generalizing B with
  | root hl hp =>
    cases h' with
    | root => rfl
    | child hl' hp' => simp_all
  | child hl hp hj hh he _ ih =>
    cases h' with
    | root hl' hp' => simp_all
    | child hl' hp' hj' hh' he' hB =>
      rw [hl] at hl'; cases hl'
      rw [hp] at hp'; cases hp'
      rw [hj] at hj'; cases hj'
      rw [hh] at hh'; cases hh'
      rw [ih hB, he.unique he']

theorem Depth.unique {m : KinModel K} {l a b : Nat} (h : Depth m l a) (h' : Depth m l b) :
    a = b := by
  induction h generalizing b with
  | root hl hp =>
    cases h' with
    | root => rfl
    | child hl' hp' => simp_all
  | child hl hp _ ih =>
    cases h' with
    | root hl' hp' => simp_all
    | child hl' hp' hd =>
      rw [hl] at hl'; cases hl'
      rw [hp] at hp'; cases hp'
      rw [ih hd]

theorem Depth.lt {m : KinModel K} {l n : Nat} (h : Depth m l n) : l < m.links.length := by
  cases h with
  | root hl _ => exact (List.getElem?_eq_some_iff.mp hl).1
  | child hl _ _ => exact (List.getElem?_eq_some_iff.mp hl).1

theorem IsPose.lt {m : KinModel K} {l : Nat} {T : Pose K} (h : IsPose m l T) :
    l < m.links.length := by
  cases h with
  | root hl _ => exact (List.getElem?_eq_some_iff.mp hl).1
  | child hl _ _ => exact (List.getElem?_eq_some_iff.mp hl).1

/-- What `jointTransform` computes is the edge. -/
theorem jointTransform_spec {m : KinModel K} {j : Joint K}
    (h : j.type = .fixed ∨ j.type.Movable ∧ ∃ i, j.id = some i ∧ i < m.angles.length) :
    ∃ T, jointTransform m j = .ok T ∧ EdgeTf m.angles j T := by
  unfold jointTransform
  rcases h with h | ⟨hm, i, hi, hlt⟩
  · exact ⟨j.origin, by simp [h], .fixed h⟩
  · have hnf : ¬ j.type = .fixed := by
      rcases hm with h | h | h <;> simp [h]
    simp only [hnf, if_false, hi]
    have hget : m.angles[i]? = some m.angles[i] := by simp [hlt]
    simp only [Outcome.idx, hget, Outcome.bind_eq, Outcome.bind_ok, Outcome.pure_eq]
    rcases hm with h | h | h
    · refine ⟨Pose.transform j.origin _, ?_, .movable hi hget (.rot (.inl h))⟩
      simp [Joint.transform, h]
    · refine ⟨Pose.transform j.origin _, ?_, .movable hi hget (.rot (.inr h))⟩
      simp [Joint.transform, h]
    · refine ⟨Pose.transform j.origin _, ?_, .movable hi hget (.slide h)⟩
      simp [Joint.transform, h]

theorem Tree.exists_pose {m : KinModel K} (ht : Tree m) {l : Nat} (hl : l < m.links.length) :
    ∃ T, IsPose m l T := by
  obtain ⟨n, hd⟩ := ht.depth hl
  clear hl
  induction hd with
  | root hl hp => exact ⟨_, .root hl hp⟩
  | child hl hp _ ih =>
    obtain ⟨B, hB⟩ := ih
    obtain ⟨jp, j, hj, hh, hok⟩ := ht.pjoint hl hp
    obtain ⟨T, _, hT⟩ := jointTransform_spec (m := m) hok
    exact ⟨_, .child hl hp hj hh hT hB⟩

/-! ### The two loops -/

/-- One edge as pushed on the stack. -/
def IsEdge (m : KinModel K) (e : LinkIdAndTransform K) (l p : Nat) : Prop :=
  ∃ lk jp j, m.links[l]? = some lk ∧ lk.parent = some p ∧ lk.parentJoint = some jp ∧
    m.jheap[jp]? = some j ∧ EdgeTf m.angles j e.pose ∧ e.id = l

/-- `UpPath m l es h`: the pushed entries `es` lead from link `l` up to link `h`. -/
inductive UpPath (m : KinModel K) (l : Nat) : List (LinkIdAndTransform K) → Nat → Prop
  | nil : UpPath m l [] l
  | snoc {es : List (LinkIdAndTransform K)} {e : LinkIdAndTransform K} {h p : Nat} :
      UpPath m l es h → IsEdge m e h p → UpPath m l (es ++ [e]) p

theorem UpPath.inv_snoc {m : KinModel K} {l h : Nat} {es : List (LinkIdAndTransform K)}
    {e : LinkIdAndTransform K} (hp : UpPath m l (es ++ [e]) h) :
    ∃ h', UpPath m l es h' ∧ IsEdge m e h' h := by
  generalize hx : es ++ [e] = xs at hp
  cases hp with
  | nil => simp at hx
  | snoc h1 h2 =>
    have := List.append_inj' hx rfl
    obtain ⟨rfl, h3⟩ := this
    cases h3
    exact ⟨_, h1, h2⟩

theorem getCache_of_lt {m : KinModel K} (hs : CacheSized m) {l : Nat} (hl : l < m.links.length) :
    (m.cache.getCache l = .ok none ∧ m.cache.pred[l]? = some false) ∨
    ∃ T, m.cache.getCache l = .ok (some T) ∧ m.cache.pred[l]? = some true ∧
      m.cache.data[l]? = some T := by
  have h1 : l < m.cache.pred.length := by rw [hs.pred]; exact hl
  have h2 : l < m.cache.data.length := by rw [hs.data]; exact hl
  have e1 : m.cache.pred[l]? = some m.cache.pred[l] := by simp [h1]
  have e2 : m.cache.data[l]? = some m.cache.data[l] := by simp [h2]
  unfold SizedCache.getCache
  rw [e1]
  cases hb : m.cache.pred[l] with
  | false => left; simp
  | true => right; exact ⟨m.cache.data[l], by simp [e2], by simp, e2⟩

theorem upLoop_spec {m : KinModel K} (ht : Tree m) (hs : CacheSized m) (hc : Coherent m)
    (l : Nat) {n h : Nat} (hd : Depth m h n) (st : SizedStack (LinkIdAndTransform K))
    (hcap : st.cur + n ≤ st.data.length) (hpath : UpPath m l (st.data.take st.cur) h) :
    ∃ st' tf h', upLoop m h st = .ok (st', tf) ∧ st'.data.length = st.data.length ∧
      st'.cur ≤ st'.data.length ∧ UpPath m l (st'.data.take st'.cur) h' ∧ IsPose m h' tf := by
  induction hd generalizing st with
  | root hl hp =>
    rw [upLoop]
    simp only [hl, hp]
    exact ⟨st, m.base, _, rfl, rfl, by omega, hpath, .root hl hp⟩
  | @child h p n lk hl hp hd ih =>
    rw [upLoop]
    have hlt := (List.getElem?_eq_some_iff.mp hl).1
    simp only [hl, hp, ht.ids hl]
    rcases getCache_of_lt hs hlt with ⟨hg, _⟩ | ⟨T, hg, hpt, hdt⟩
    · obtain ⟨jp, j, hj, hh, hok⟩ := ht.pjoint hl hp
      obtain ⟨T, hT, hE⟩ := jointTransform_spec (m := m) hok
      have hcur : st.cur < st.data.length := by omega
      simp only [hg, hj, hh, hT, hcur, dif_pos]
      have := ih ⟨st.data.set st.cur ⟨h, T⟩, st.cur + 1⟩ (by simp; omega) (by
        have htk : (st.data.set st.cur ⟨h, T⟩).take (st.cur + 1) =
            st.data.take st.cur ++ [⟨h, T⟩] := by
          rw [List.take_succ_eq_append_getElem (by simpa using hcur)]
          simp [List.take_set_of_le]
        simp only [htk]
        exact .snoc hpath ⟨lk, jp, j, hl, hp, hj, hh, hE, rfl⟩)
      obtain ⟨st', tf, h', e1, e2, e3, e4, e5⟩ := this
      exact ⟨st', tf, h', e1, by simpa using e2, e3, e4, e5⟩
    · simp only [hg]
      obtain ⟨T', hT', hP⟩ := hc _ hpt
      rw [hdt] at hT'; cases hT'
      exact ⟨st, T, _, rfl, rfl, by omega, hpath, hP⟩

/-- Updating the cache of `m`. -/
def KinModel.withCache (m : KinModel K) (c : SizedCache (Pose K)) : KinModel K :=
  { m with cache := c }

theorem IsPose.congr {m m' : KinModel K} (hl : m'.links = m.links) (hj : m'.jheap = m.jheap)
    (ha : m'.angles = m.angles) (hb : m'.base = m.base) {l : Nat} {T : Pose K}
    (h : IsPose m l T) : IsPose m' l T := by
  induction h with
  | root h1 h2 => rw [← hb]; exact .root (by rw [hl]; exact h1) h2
  | child h1 h2 h3 h4 h5 _ ih =>
    exact .child (by rw [hl]; exact h1) h2 h3 (by rw [hj]; exact h4) (by rw [ha]; exact h5) ih

/-- The cache invariant, stated for a cache `c` of the robot `m`. -/
structure CacheOK (m : KinModel K) (c : SizedCache (Pose K)) : Prop where
  size : c.size = m.links.length
  pred : c.pred.length = m.links.length
  data : c.data.length = m.links.length
  coh : ∀ (l : Nat), c.pred[l]? = some true → ∃ T, c.data[l]? = some T ∧ IsPose m l T

theorem CacheOK.set {m : KinModel K} {c : SizedCache (Pose K)} (h : CacheOK m c) {l : Nat}
    {T : Pose K} (hT : IsPose m l T) :
    ∃ c', c.setCache l T = .ok c' ∧ CacheOK m c' := by
  have hl := hT.lt
  refine ⟨{ c with pred := c.pred.set l true, data := c.data.set l T }, ?_, ?_⟩
  · simp [SizedCache.setCache, h.pred, h.data, hl]
  · refine ⟨h.size, by simpa using h.pred, by simpa using h.data, ?_⟩
    intro k hk
    by_cases hkl : l = k
    · subst hkl
      exact ⟨T, by simp [h.data, hl], hT⟩
    · simp only [List.getElem?_set_ne hkl] at hk ⊢
      exact h.coh k hk

theorem downLoop_spec {m : KinModel K} (l : Nat) (data : List (LinkIdAndTransform K))
    (n : Nat) (hn : n ≤ data.length) {h : Nat} {tf : Pose K} {c : SizedCache (Pose K)}
    (hpath : UpPath m l (data.take n) h) (hp : IsPose m h tf) (hc : CacheOK m c) :
    ∃ T c', downLoop data n tf c = .ok (T, c') ∧ IsPose m l T ∧ CacheOK m c' := by
  induction n generalizing h tf c with
  | zero =>
    simp at hpath
    generalize hx : ([] : List (LinkIdAndTransform K)) = xs at hpath
    cases hpath with
    | nil => exact ⟨tf, c, rfl, hp, hc⟩
    | snoc => simp at hx
  | succ n ih =>
    have hlt : n < data.length := by omega
    rw [List.take_succ_eq_append_getElem hlt] at hpath
    obtain ⟨h', hpath', lk, jp, j, e1, e2, e3, e4, e5, e6⟩ := hpath.inv_snoc
    have hP : IsPose m h' (Pose.transform tf data[n].pose) := .child e1 e2 e3 e4 e5 hp
    obtain ⟨c', hc1, hc2⟩ := hc.set hP
    obtain ⟨T, c'', h1, h2, h3⟩ := ih (by omega) hpath' hP hc2
    refine ⟨T, c'', ?_, h2, h3⟩
    simp only [downLoop, Outcome.idx, hlt, List.getElem?_eq_getElem, Outcome.bind_eq, Outcome.bind_ok,
      e6, hc1]
    exact h1

/-- Every link's depth fits in the traversal stack. -/
def FitsStack (m : KinModel K) : Prop :=
  ∀ (l n : Nat), Depth m l n → n ≤ m.stack.data.length

/-- The invariant under which pose queries are right. -/
structure Ready (m : KinModel K) : Prop where
  tree : Tree m
  sized : CacheSized m
  coh : Coherent m
  fits : FitsStack m

theorem Depth.congr {m m' : KinModel K} (hl : m'.links = m.links) {l n : Nat} (h : Depth m l n) :
    Depth m' l n := by
  induction h with
  | root h1 h2 => exact .root (by rw [hl]; exact h1) h2
  | child h1 h2 _ ih => exact .child (by rw [hl]; exact h1) h2 ih

theorem Tree.congr {m m' : KinModel K} (hl : m'.links = m.links) (hj : m'.jheap = m.jheap)
    (ha : m'.angles.length = m.angles.length) (h : Tree m) : Tree m' := by
  refine ⟨?_, ?_, ?_⟩
  · intro l lk h1; rw [hl] at h1; exact h.ids h1
  · intro l h1; rw [hl] at h1
    obtain ⟨n, hn⟩ := h.depth h1
    exact ⟨n, hn.congr hl⟩
  · intro l p lk h1 h2; rw [hl] at h1
    rw [hj, ha]
    exact h.pjoint h1 h2

theorem FitsStack.congr {m m' : KinModel K} (hl : m'.links = m.links)
    (hs : m'.stack.data.length = m.stack.data.length) (h : FitsStack m) : FitsStack m' := by
  intro l n hd
  rw [hs]
  exact h l n (hd.congr hl.symm)

theorem IsPose.of_same {m m' : KinModel K} (h : SameRobot m m') {l : Nat} {T : Pose K} :
    IsPose m' l T ↔ IsPose m l T := by
  obtain ⟨⟨s, c, rfl⟩, _⟩ := h
  constructor <;> intro h <;> refine IsPose.congr ?_ ?_ ?_ ?_ h <;> rfl

theorem ready_of_same {m m' : KinModel K} (hr : Ready m) (h : SameRobot m m')
    (hc : CacheOK m m'.cache) : Ready m' := by
  have h' := h
  obtain ⟨⟨s, c, rfl⟩, hcap⟩ := h
  exact ⟨Tree.congr (m := m) rfl rfl rfl hr.tree, ⟨hc.size, hc.pred, hc.data⟩,
    fun l hl => by
      obtain ⟨T, h1, h2⟩ := hc.coh l hl
      exact ⟨T, h1, (IsPose.of_same h').mpr h2⟩,
    FitsStack.congr (m := m) rfl hcap hr.fits⟩

/-- `get_link_pose` on a ready model returns the pose of the link, changes at most cache
and stack, and leaves a ready model. -/
theorem getLinkPose_spec {m : KinModel K} (hr : Ready m) {l : Nat} {T : Pose K}
    (hT : IsPose m l T) :
    ∃ m', getLinkPose l m = .ok T m' ∧ SameRobot m m' ∧ Ready m' := by
  have hl := hT.lt
  have hok : CacheOK m m.cache := ⟨hr.sized.size, hr.sized.pred, hr.sized.data, hr.coh⟩
  unfold getLinkPose
  rcases getCache_of_lt hr.sized hl with ⟨hg, _⟩ | ⟨T', hg, hp, hd⟩
  · simp only [hg]
    obtain ⟨n, hdep⟩ := hr.tree.depth hl
    obtain ⟨st, tf, h', e1, e2, e3, e4, e5⟩ := upLoop_spec hr.tree hr.sized hr.coh l hdep
      m.stack.reset (by simpa [SizedStack.reset] using hr.fits _ _ hdep)
      (by simpa [SizedStack.reset] using UpPath.nil)
    obtain ⟨T', c', f1, f2, f3⟩ := downLoop_spec l st.data st.cur e3 e4 e5 hok
    rw [hT.unique f2]
    have hsame : SameRobot m { m with stack := { st with cur := 0 }, cache := c' } :=
      ⟨⟨_, _, rfl⟩, by simpa [SizedStack.reset] using e2⟩
    refine ⟨_, ?_, hsame, ready_of_same hr hsame f3⟩
    simp only [getLinkPoseInner, e1, f1]
  · simp only [hg]
    obtain ⟨T'', h1, h2⟩ := hr.coh l hp
    rw [hd] at h1; cases h1
    rw [hT.unique h2]
    exact ⟨m, rfl, .refl m, hr⟩

end Tinyfk
