import Verif.Spec.Loops
import Verif.Proofs.Hang
import Verif.Proofs.History
import Verif.Proofs.JacQuery

/-!
# Robots whose joints close loops
-/

set_option linter.unusedSectionVars false

namespace Tinyfk

open Scalar

variable {K : Type} [Scalar K]

/-! ### The last joint wins -/

theorem mem_followed {js : List (RawJoint K)} {r : RawJoint K} : r ∈ followed js ↔
    r ∈ js ∧ ∀ r' ∈ js, r'.childLinkName = r.childLinkName → ¬ r.name < r'.name := by
  simp [followed]

theorem initTreeStep_last {links links' : List (Link K)} (hnd : (links.map Link.name).Nodup) {n : Nat}
    {jt : Joint K} (h : initTreeStep links n jt = some links') {l : Nat} {lk' : Link K}
    (hl : links'[l]? = some lk') : ∃ lk, links[l]? = some lk ∧ lk'.name = lk.name ∧
      ((jt.childLinkName = lk.name ∧ lk'.parentJoint = some n) ∨
        (jt.childLinkName ≠ lk.name ∧ lk'.parentJoint = lk.parentJoint)) := by
  unfold initTreeStep at h
  split at h
  · cases h
  split at h
  · cases h
  rename_i c hc
  split at h
  · cases h
  rename_i p hp
  simp only [Option.some.injEq] at h
  obtain ⟨ck, hck, hcn⟩ := (findLink_eq_some hnd _ _).mp hc
  rw [← h] at hl
  simp only [List.getElem?_modify] at hl
  cases hlk : links[l]? with
  | none => simp [hlk] at hl
  | some lk =>
    rw [hlk] at hl
    refine ⟨lk, rfl, ?_⟩
    have hnc : c = l ↔ jt.childLinkName = lk.name := by
      constructor
      · rintro rfl
        rw [hlk] at hck; cases hck
        exact hcn.symm
      · intro e
        exact eq_of_name hnd hck hlk (by rw [hcn, e])
    by_cases h1 : c = l
    · have h1' := hnc.mp h1
      by_cases h2 : p = l <;> simp [h1, h2] at hl <;> subst hl <;> simp [h1']
    · have h1' : jt.childLinkName ≠ lk.name := fun e => h1 (hnc.mpr e)
      by_cases h2 : p = l <;> simp [h1, h2] at hl <;> subst hl <;> simp [h1']

theorem initTree_last {names : List String} (hnd : names.Nodup) (todo : List (Joint K)) :
    ∀ (done : List (Joint K)) (links links' : List (Link K)), TreeState names done links →
    (∀ (l k k' : Nat) (lk : Link K) (j' : Joint K), links[l]? = some lk → lk.parentJoint = some k →
      done[k']? = some j' → j'.childLinkName = lk.name → k' ≤ k) →
    initTree links done.length todo = some links' →
    ∀ (l k k' : Nat) (lk : Link K) (j' : Joint K), links'[l]? = some lk → lk.parentJoint = some k →
      (done ++ todo)[k']? = some j' → j'.childLinkName = lk.name → k' ≤ k := by
  induction todo with
  | nil =>
    intro done links links' _ hP h
    simp only [initTree, Option.some.injEq] at h
    subst h
    simpa using hP
  | cons jt js ih =>
    intro done links links' hs hP h
    simp only [initTree] at h
    split at h
    · cases h
    · rename_i l1 h1
      have hs1 := initTreeStep_spec hnd hs jt h1
      have hnd' : (links.map Link.name).Nodup := by rw [hs.names]; exact hnd
      have := ih (done ++ [jt]) l1 links' hs1 ?_ (by simpa using h)
      · simpa using this
      · intro l k k' lk j' hl hk hk' hc
        obtain ⟨lk0, e1, e2, e3⟩ := initTreeStep_last hnd' h1 hl
        have hlt : k' < done.length + 1 := by
          have := (List.getElem?_eq_some_iff.mp hk').1
          simpa using this
        rcases e3 with ⟨e3, e4⟩ | ⟨e3, e4⟩
        · rw [e4] at hk; cases hk; omega
        · by_cases hd : k' < done.length
          · rw [List.getElem?_append_left hd] at hk'
            exact hP l k k' lk0 j' e1 (e4.symm.trans hk) hk' (by rw [hc, e2])
          · have : k' = done.length := by omega
            subst this
            simp at hk'
            subst hk'
            exact absurd (by rw [hc, e2]) e3

/-- In a parsed model the parent joint of a link is the last one with that child. -/
theorem buildModel_last {ls : List (RawLink K)} {js : List (RawJoint K)} {mi : ModelInterface K}
    (h : buildModel ls js = some mi) {l k k' : Nat} {lk : Link K} {j' : Joint K}
    (h1 : mi.links[l]? = some lk) (h2 : lk.parentJoint = some k) (h3 : mi.joints[k']? = some j')
    (h4 : j'.childLinkName = lk.name) : k' ≤ k := by
  unfold buildModel at h
  split at h
  · cases h
  rename_i links hl
  split at h
  · cases h
  split at h
  · cases h
  rename_i joints hj
  split at h
  · cases h
  rename_i links' ht
  split at h
  · cases h
  rename_i r hr
  simp only [Option.some.injEq] at h
  subst h
  obtain ⟨p1, s1⟩ := insertAll_eq_some _ _ _ .nil hl
  simp only [List.nil_append] at p1
  have s1' : (links.map Link.name).Pairwise (· < ·) := List.pairwise_map.mpr s1
  have hnd : (links.map Link.name).Nodup := s1'.imp (fun h => String.ne_of_lt h)
  refine initTree_last hnd joints [] links links' (treeState_init (toLink_fresh ls p1)) ?_ (by simpa using ht)
    l k k' lk j' h1 h2 (by simpa using h3) h4
  intro l k k' lk j' _ _ h3
  simp at h3

/-- the parent joint of a link is a followed joint of the description -/
theorem Built.followed {ls : List (RawLink K)} {js : List (RawJoint K)} {mi : ModelInterface K}
    (hb : Built ls js mi) (h : buildModel ls js = some mi) {l k : Nat} {lk : Link K} {j : Joint K}
    (h1 : mi.links[l]? = some lk) (h2 : lk.parentJoint = some k) (h3 : mi.joints[k]? = some j)
    (h4 : j.childLinkName = lk.name) : ∃ r ∈ Tinyfk.followed js, j = r.toJoint := by
  obtain ⟨r, hr, rfl⟩ := List.mem_map.mp (hb.jointPerm.mem_iff.mp (List.mem_of_getElem? h3))
  refine ⟨r, mem_followed.mpr ⟨hr, ?_⟩, rfl⟩
  intro r' hr' hc hlt
  obtain ⟨k', hk'⟩ := List.mem_iff_getElem?.mp (hb.jointPerm.mem_iff.mpr (List.mem_map_of_mem hr'))
  have hle := buildModel_last h h1 h2 hk' (hc.trans h4)
  have hne : k' ≠ k := by
    rintro rfl
    rw [h3] at hk'
    have : r.toJoint.name = r'.toJoint.name := by rw [Option.some.inj hk']
    have this : r.name = r'.name := this
    rw [this] at hlt
    exact String.lt_irrefl _ hlt
  have hs := List.pairwise_map.mp hb.jointSorted
  rw [List.pairwise_iff_getElem] at hs
  obtain ⟨l1, e1⟩ := List.getElem?_eq_some_iff.mp h3
  obtain ⟨l2, e2⟩ := List.getElem?_eq_some_iff.mp hk'
  have := hs k' k l2 l1 (by omega)
  rw [e1, e2] at this
  exact String.lt_irrefl _ (String.lt_trans hlt this)

/-! ### The invariant -/

/-- Everything known of the links, joints and tables of a model of the description `ls`, `js`, extended by the
welded links `W`. -/
structure Net (ls : List (RawLink K)) (js : List (RawJoint K)) (W : Weld K → Prop) (m : KinModel K) : Prop where
  ids : ∀ {l : Nat} {lk : Link K}, m.links[l]? = some lk → lk.id = l
  linkNames : ∀ (s : String) (l : Nat),
    m.linkIds.find s = some l ↔ ∃ lk, m.links[l]? = some lk ∧ lk.name = s
  linkIdsLen : m.linkIds.length = m.links.length
  depth : ∀ {l : Nat}, l < m.links.length → ∃ n, Depth m l n
  acc : ∀ l : Nat, l < m.links.length → Acc (Kid m.links) l
  links : ∀ (l : Nat) (lk : Link K), m.links[l]? = some lk →
    (lk.parent = none ∧ (∃ r ∈ ls, r.name = lk.name) ∧ ∀ j ∈ js, j.childLinkName ≠ lk.name) ∨
    ∃ (p : Nat) (pk : Link K) (jp : Nat) (j : Joint K), lk.parent = some p ∧
      m.links[p]? = some pk ∧ lk.parentJoint = some jp ∧ m.jheap[jp]? = some j ∧
      ((∃ r ∈ followed js, IsRaw r j ∧ r.parentLinkName = pk.name ∧ r.childLinkName = lk.name ∧
          (j.type = .fixed ∨ j.type.Movable ∧ ∃ i, j.id = some i ∧ m.joints[i]? = some jp)) ∨
        (j = newFixedJoint j.origin ∧ W ⟨lk.name, pk.name, j.origin⟩))
  kids : ∀ {l c : Nat} {lk : Link K}, m.links[l]? = some lk →
    (c ∈ lk.childLinks ↔ ∃ ck, m.links[c]? = some ck ∧
      ((∃ r ∈ js, r.parentLinkName = lk.name ∧ r.childLinkName = ck.name) ∨ ∃ o, W ⟨ck.name, lk.name, o⟩))
  all : ∀ r ∈ ls, ∃ (l : Nat) (lk : Link K), m.links[l]? = some lk ∧ lk.name = r.name
  names : ∀ j ∈ js, j.childLinkName ∈ ls.map RawLink.name ∧ j.parentLinkName ∈ ls.map RawLink.name
  jointNodup : (js.map RawJoint.name).Nodup
  welded : ∀ w, W w → ∃ (l : Nat) (lk : Link K), m.links[l]? = some lk ∧ lk.name = w.name
  weldFresh : ∀ w, W w → w.name ∉ ls.map RawLink.name
  weldUnique : ∀ w w', W w → W w' → w.name = w'.name → w = w'
  joint : ∀ {i jp : Nat}, m.joints[i]? = some jp → ∃ (j : Joint K) (r : RawJoint K) (c : Nat) (ck : Link K),
    m.jheap[jp]? = some j ∧ r ∈ js ∧ IsRaw r j ∧ j.id = some i ∧ j.type.Movable ∧ j.childLink = some c ∧
    m.links[c]? = some ck ∧ ck.name = r.childLinkName
  jointNames : ∀ (s : String) (i : Nat),
    m.jointIds.find s = some i ↔ ∃ jp j, m.joints[i]? = some jp ∧ m.jheap[jp]? = some j ∧ j.name = s
  jointIdsLen : m.jointIds.length = m.joints.length
  anglesLen : m.angles.length = m.joints.length
  numDof : m.numDof = m.joints.length
  root : ∃ lk, m.links[m.rootLinkId]? = some lk ∧ lk.parent = none

section
variable {ls : List (RawLink K)} {js : List (RawJoint K)} {W : Weld K → Prop} {m : KinModel K}

theorem Net.name_unique (h : Net ls js W m) {a b : Nat} {la lb : Link K} (ha : m.links[a]? = some la)
    (hb : m.links[b]? = some lb) (e : la.name = lb.name) : a = b := by
  have h1 := (h.linkNames la.name a).mpr ⟨la, ha, rfl⟩
  have h2 := (h.linkNames la.name b).mpr ⟨lb, hb, e.symm⟩
  rw [h1] at h2; exact Option.some.inj h2

theorem Net.pjoint (h : Net ls js W m) {l p : Nat} {lk : Link K} (h1 : m.links[l]? = some lk)
    (h2 : lk.parent = some p) : ∃ jp j, lk.parentJoint = some jp ∧ m.jheap[jp]? = some j ∧
      (j.type = .fixed ∨ j.type.Movable ∧ ∃ i, j.id = some i ∧ m.joints[i]? = some jp) := by
  rcases h.links l lk h1 with ⟨a, _⟩ | ⟨p, pk, jp, j, a1, a2, a3, a4, a5⟩
  · rw [a] at h2; cases h2
  · refine ⟨jp, j, a3, a4, ?_⟩
    rcases a5 with ⟨r, _, _, _, _, h⟩ | ⟨hj, _⟩
    · exact h
    · left; rw [hj]; rfl

theorem Net.tree (h : Net ls js W m) : Tree m := by
  refine ⟨h.ids, h.depth, ?_⟩
  intro l p lk h1 h2
  obtain ⟨jp, j, e1, e2, e3⟩ := h.pjoint h1 h2
  refine ⟨jp, j, e1, e2, ?_⟩
  rcases e3 with h' | ⟨h', i, hi, hj⟩
  · exact .inl h'
  · refine .inr ⟨h', i, hi, ?_⟩
    rw [h.anglesLen]
    exact (List.getElem?_eq_some_iff.mp hj).1

theorem Net.loose (h : Net ls js W m) : Loose m := by
  refine ⟨h.ids, ?_, h.linkNames, h.linkIdsLen, ?_⟩
  · intro l lk h1 c hc
    obtain ⟨ck, h2, _⟩ := (h.kids h1).mp hc
    exact (List.getElem?_eq_some_iff.mp h2).1
  · intro jp hjp
    obtain ⟨i, hi⟩ := List.mem_iff_getElem?.mp hjp
    obtain ⟨j, r, c, ck, h1, h2, h3, h4, h5, h6, h7, h8⟩ := h.joint hi
    refine ⟨j, i, c, h1, (h.jointNames _ _).mpr ⟨jp, j, hi, h1, rfl⟩, ?_, h6, (List.getElem?_eq_some_iff.mp h7).1⟩
    rw [h.jointIdsLen]; exact (List.getElem?_eq_some_iff.mp hi).1

theorem Net.edge (g : Net ls js W m) {θ : String → K} (ha : AnglesAre m θ)
    {r : RawJoint K} {j : Joint K} (hr : IsRaw r j) {l p jp : Nat} {lk : Link K}
    (h1 : m.links[l]? = some lk) (h2 : lk.parent = some p) (h3 : lk.parentJoint = some jp)
    (h4 : m.jheap[jp]? = some j) (T : Pose K) : EdgeTf m.angles j T ↔ RawEdge r (θ r.name) T := by
  obtain ⟨i0, c0, rfl⟩ := hr
  obtain ⟨jp', j', e1, e2, e3⟩ := g.pjoint h1 h2
  rw [h3] at e1; cases e1
  rw [h4] at e2; cases e2
  have key : ∀ i, i0 = some i → r.type.Movable → m.angles[i]? = some (θ r.name) := by
    intro i hi hm
    rcases e3 with h | ⟨_, i', a1, a2⟩
    · have h' : r.type = .fixed := h
      rw [h'] at hm
      rcases hm with h | h | h <;> cases h
    · have : i0 = some i' := a1
      rw [hi] at this; cases this
      exact ha r.name i ((g.jointNames r.name i).mpr ⟨jp, _, a2, h4, rfl⟩)
  constructor
  · intro hE
    cases hE with
    | fixed h => exact .fixed h
    | @movable i θ' M hi hθ hM =>
      cases hM with
      | rot h =>
        have := key i hi (by rcases h with h | h; exact .inl h; exact .inr (.inl h))
        rw [this] at hθ; cases hθ
        exact .rot h
      | slide h =>
        have := key i hi (.inr (.inr h))
        rw [this] at hθ; cases hθ
        exact .slide h
  · intro hE
    have hmov : r.type.Movable → ∃ i, i0 = some i := by
      intro hm
      rcases e3 with h | ⟨_, i', a1, _⟩
      · have h' : r.type = .fixed := h
        rw [h'] at hm
        rcases hm with h | h | h <;> cases h
      · exact ⟨i', a1⟩
    cases hE with
    | fixed h => exact .fixed h
    | rot h =>
      have hm : r.type.Movable := by rcases h with h | h; exact .inl h; exact .inr (.inl h)
      obtain ⟨i, hi⟩ := hmov hm
      exact .movable hi (key i hi hm) (.rot h)
    | slide h =>
      have hm : r.type.Movable := .inr (.inr h)
      obtain ⟨i, hi⟩ := hmov hm
      exact .movable hi (key i hi hm) (.slide h)

/-- The chain of poses in the model is the one along the followed joints. -/
theorem Net.worldPose (h : Net ls js W m) {θ : String → K}
    (ha : AnglesAre m θ) {l : Nat} {lk : Link K} {T : Pose K} (hl : m.links[l]? = some lk)
    (hp : IsPose m l T) : WorldPose ls (followed js) W θ m.base lk.name T := by
  induction hp generalizing lk with
  | root h1 h2 =>
    rw [h1] at hl; cases hl
    rcases h.links _ _ h1 with ⟨_, ⟨r, hr, he⟩, hn⟩ | ⟨p, _, _, _, hp, _⟩
    · rw [← he] at hn ⊢
      exact .root hr fun j hj => hn j (mem_followed.mp hj).1
    · rw [h2] at hp; cases hp
  | child h1 h2 h3 h4 h5 _ ih =>
    rw [h1] at hl; cases hl
    rcases h.links _ _ h1 with ⟨hn, _⟩ | ⟨p, pk, jp, j, a1, a2, a3, a4, a5⟩
    · rw [h2] at hn; cases hn
    · rw [h2] at a1; cases a1
      rw [h3] at a3; cases a3
      rw [h4] at a4; cases a4
      have hB := ih a2
      rcases a5 with ⟨r, hr, hraw, e1, e2, _⟩ | ⟨hj, hw⟩
      · rw [← e2]
        rw [← e1] at hB
        exact .joint hr hB ((h.edge ha hraw h1 h2 h3 h4 _).mp h5)
      · rw [(newFixedJoint_edge hj _).mp h5]
        exact .weld (w := ⟨_, _, _⟩) hw hB

theorem Net.eq_of_child (h : Net ls js W m) {a b : RawJoint K} (ha : a ∈ followed js) (hb : b ∈ followed js)
    (e : a.childLinkName = b.childLinkName) : a = b := by
  obtain ⟨a1, a2⟩ := mem_followed.mp ha
  obtain ⟨b1, b2⟩ := mem_followed.mp hb
  refine List.inj_on_of_nodup_map h.jointNodup a1 b1 ?_
  have h1 := String.not_lt.mp (a2 b b1 e.symm)
  have h2 := String.not_lt.mp (b2 a a1 e)
  exact Std.le_antisymm h2 h1

/-- the edge of the model above the child of a followed joint -/
theorem Net.edge_of_joint (h : Net ls js W m) {r : RawJoint K} (hr : r ∈ followed js) :
    ∃ (l : Nat) (lk : Link K) (p : Nat) (pk : Link K) (jp : Nat)
      (j : Joint K), m.links[l]? = some lk ∧ lk.name = r.childLinkName ∧ lk.parent = some p ∧
      m.links[p]? = some pk ∧ pk.name = r.parentLinkName ∧ lk.parentJoint = some jp ∧
      m.jheap[jp]? = some j ∧ IsRaw r j := by
  obtain ⟨rl, hrl, hn⟩ := List.mem_map.mp (h.names r (mem_followed.mp hr).1).1
  obtain ⟨l, lk, h1, h2⟩ := h.all rl hrl
  rcases h.links l lk h1 with ⟨_, _, hno⟩ | ⟨p, pk, jp, j, a1, a2, a3, a4, a5⟩
  · exact absurd (by rw [h2, hn]) (hno r (mem_followed.mp hr).1)
  · rcases a5 with ⟨r', hr', hraw, e1, e2, _⟩ | ⟨_, hw⟩
    · have : r' = r := h.eq_of_child hr' hr (by rw [e2, h2, hn])
      subst this
      exact ⟨l, lk, p, pk, jp, j, h1, e2.symm, a1, a2, e1.symm, a3, a4, hraw⟩
    · exact absurd (by rw [show (⟨lk.name, pk.name, j.origin⟩ : Weld K).name = rl.name from h2]
                       exact List.mem_map_of_mem hrl) (h.weldFresh _ hw)

/-- the edge of the model above a welded link -/
theorem Net.edge_of_weld (h : Net ls js W m)
    {w : Weld K} (hw : W w) : ∃ (l : Nat) (lk : Link K) (p : Nat) (pk : Link K) (jp : Nat)
      (j : Joint K), m.links[l]? = some lk ∧ lk.name = w.name ∧ lk.parent = some p ∧
      m.links[p]? = some pk ∧ pk.name = w.carrier ∧ lk.parentJoint = some jp ∧
      m.jheap[jp]? = some j ∧ j = newFixedJoint w.offset := by
  obtain ⟨l, lk, h1, h2⟩ := h.welded w hw
  have hfresh := h.weldFresh w hw
  rcases h.links l lk h1 with ⟨_, ⟨r, hr, he⟩, _⟩ | ⟨p, pk, jp, j, a1, a2, a3, a4, a5⟩
  · exact absurd (by rw [← h2, ← he]; exact List.mem_map_of_mem hr) hfresh
  · rcases a5 with ⟨r', hr', hraw, e1, e2, _⟩ | ⟨hj, hw'⟩
    · exact absurd (by rw [← h2, ← e2]; exact (h.names r' (mem_followed.mp hr').1).1) hfresh
    · have := h.weldUnique _ _ hw' hw h2
      subst this
      exact ⟨l, lk, p, pk, jp, j, h1, h2, a1, a2, rfl, a3, a4, hj⟩

/-- The converse of `Net.worldPose`. -/
theorem Net.isPose (h : Net ls js W m) {θ : String → K} (ha : AnglesAre m θ) {n : String} {T : Pose K}
    (hw : WorldPose ls (followed js) W θ m.base n T) :
    ∃ (l : Nat) (lk : Link K), m.links[l]? = some lk ∧ lk.name = n ∧ IsPose m l T := by
  induction hw with
  | @root r hr hn =>
    obtain ⟨l, lk, h1, h2⟩ := h.all r hr
    refine ⟨l, lk, h1, h2, ?_⟩
    rcases h.links l lk h1 with ⟨hp, _⟩ | ⟨p, pk, jp, j, a1, a2, a3, a4, a5⟩
    · exact .root h1 hp
    · rcases a5 with ⟨r', hr', hraw, e1, e2, _⟩ | ⟨_, hw⟩
      · exact absurd (e2.trans h2) (hn r' hr')
      · exact absurd (by rw [show (⟨lk.name, pk.name, j.origin⟩ : Weld K).name = r.name from h2]
                         exact List.mem_map_of_mem hr) (h.weldFresh _ hw)
  | @joint r B T hr _ hE ih =>
    obtain ⟨l, lk, p, pk, jp, j, h1, h2, h3, h4, h5, h6, h7, h8⟩ := h.edge_of_joint hr
    obtain ⟨p', pk', e1, e2, e3⟩ := ih
    have := h.name_unique e1 h4 (e2.trans h5.symm)
    subst this
    exact ⟨l, lk, h1, h2, .child h1 h3 h6 h7 ((h.edge ha h8 h1 h3 h6 h7 T).mpr hE) e3⟩
  | @weld w B hw _ ih =>
    obtain ⟨l, lk, p, pk, jp, j, h1, h2, h3, h4, h5, h6, h7, h8⟩ := h.edge_of_weld hw
    obtain ⟨p', pk', e1, e2, e3⟩ := ih
    have := h.name_unique e1 h4 (e2.trans h5.symm)
    subst this
    have hE : EdgeTf m.angles j w.offset := by
      rw [h8]; exact .fixed rfl
    exact ⟨l, lk, h1, h2, .child h1 h3 h6 h7 hE e3⟩

/-- depths in the model are depths along the followed joints -/
theorem Net.linkDepth (h : Net ls js W m) {l d : Nat} {lk : Link K} (hl : m.links[l]? = some lk)
    (hd : Depth m l d) : LinkDepth ls (followed js) W lk.name d := by
  induction hd generalizing lk with
  | root h1 h2 =>
    rw [h1] at hl; cases hl
    rcases h.links _ _ h1 with ⟨_, ⟨r, hr, he⟩, hn⟩ | ⟨p, _, _, _, hp, _⟩
    · rw [← he] at hn ⊢
      exact .root hr fun j hj => hn j (mem_followed.mp hj).1
    · rw [h2] at hp; cases hp
  | child h1 h2 _ ih =>
    rw [h1] at hl; cases hl
    rcases h.links _ _ h1 with ⟨hn, _⟩ | ⟨p, pk, jp, j, a1, a2, a3, a4, a5⟩
    · rw [h2] at hn; cases hn
    · rw [h2] at a1; cases a1
      have hB := ih a2
      rcases a5 with ⟨r, hr, hraw, e1, e2, _⟩ | ⟨hj, hw⟩
      · rw [← e2]
        rw [← e1] at hB
        exact .joint hr hB
      · exact .weld (w := ⟨_, _, _⟩) hw hB

/-! ### Links below a link -/

/-- `x` is `c` or a link below it, along any child -/
inductive BelowKid (links : List (Link K)) (c : Nat) : Nat → Prop
  | refl : BelowKid links c c
  | step {l x : Nat} : BelowKid links c l → Kid links x l → BelowKid links c x

theorem BelowKid.head {links : List (Link K)} {a b x : Nat} (h1 : Kid links b a) (h2 : BelowKid links b x) :
    BelowKid links a x := by
  induction h2 with
  | refl => exact .step .refl h1
  | step _ h ih => exact .step ih h

theorem below_iff {links : List (Link K)} {l : Nat} {lk : Link K} (hl : links[l]? = some lk) (x : Nat) :
    BelowKid links l x ↔ x = l ∨ ∃ c ∈ lk.childLinks, BelowKid links c x := by
  constructor
  · intro h
    induction h with
    | refl => exact .inl rfl
    | @step y x _ h2 ih =>
      rcases ih with rfl | ⟨c, hc, hB⟩
      · obtain ⟨lk', e1, e2⟩ := h2
        rw [hl] at e1; cases e1
        exact .inr ⟨x, e2, .refl⟩
      · exact .inr ⟨c, hc, .step hB h2⟩
  · rintro (rfl | ⟨c, hc, hB⟩)
    · exact .refl
    · exact .head ⟨lk, hl, hc⟩ hB

/-- the walk marks exactly the links below -/
theorem dfs_below (links : List (Link K)) (jid nJ : Nat) (hj : jid < nJ)
    (hids : ∀ (l : Nat) (lk : Link K), links[l]? = some lk → lk.id = l)
    (hkids : ∀ (l : Nat) (lk : Link K), links[l]? = some lk → ∀ c ∈ lk.childLinks, c < links.length)
    {l : Nat} (hl : l < links.length) (ha : Acc (Kid links) l) :
    ∀ (st : List Nat) (t : RpTable), t.Sized links.length nJ →
      ∃ t', t'.Sized links.length nJ ∧ dfs links jid (l :: st) t = dfs links jid st t' ∧
        ∀ x k, t'.has x k ↔ t.has x k ∨ (k = jid ∧ BelowKid links l x) := by
  induction ha with
  | intro l _ ih =>
    intro st t ht
    have hlk := List.getElem?_eq_getElem hl
    obtain ⟨t1, e1, e2, e3⟩ := RpTable.setTrue_spec ht (show (links[l]).id < links.length by
      rw [hids l _ hlk]; exact hl) hj
    rw [hids l _ hlk] at e3
    rw [dfs.eq_def]
    simp only [hlk, e1]
    have key : ∀ (cs : List Nat) (t : RpTable), t.Sized links.length nJ → (∀ c ∈ cs, c ∈ (links[l]).childLinks) →
        ∃ t', t'.Sized links.length nJ ∧ dfs links jid (cs ++ st) t = dfs links jid st t' ∧
          ∀ x k, t'.has x k ↔ t.has x k ∨ (k = jid ∧ ∃ c ∈ cs, BelowKid links c x) := by
      intro cs
      induction cs with
      | nil => intro t ht _; exact ⟨t, ht, rfl, by simp⟩
      | cons c cs ihc =>
        intro t ht hc
        have hcm := hc c (by simp)
        obtain ⟨t2, s2, e2, f2⟩ := ih c ⟨_, hlk, hcm⟩ (hkids l _ hlk c hcm) (cs ++ st) t ht
        obtain ⟨t3, s3, e3, f3⟩ := ihc t2 s2 (fun c h => hc c (by simp [h]))
        refine ⟨t3, s3, by rw [List.cons_append, e2, e3], ?_⟩
        intro x k
        rw [f3, f2]
        simp only [List.mem_cons, exists_eq_or_imp]
        grind
    obtain ⟨t2, s2, g2, f2⟩ := key _ t1 e2 (fun c h => List.mem_reverse.mp h)
    refine ⟨t2, s2, g2, ?_⟩
    intro x k
    rw [f2, e3, below_iff hlk]
    simp only [List.mem_reverse]
    grind

/-- The relevance table marks, for each joint, the links below its child. -/
structure RpNet (m : KinModel K) : Prop where
  sized : m.rptable.Sized m.links.length m.joints.length
  iff : ∀ l i, m.rptable.has l i ↔ ∃ jp j c, m.joints[i]? = some jp ∧ m.jheap[jp]? = some j ∧
    j.childLink = some c ∧ BelowKid m.links c l

theorem Net.rpLoop (h : Net ls js W m) (jps : List Nat) (hjs : ∀ jp ∈ jps, jp ∈ m.joints)
    (t : RpTable) (ht : t.Sized m.links.length m.joints.length) :
    ∃ t', Tinyfk.rpLoop m jps t = .ok t' ∧ t'.Sized m.links.length m.joints.length ∧
      ∀ x i, t'.has x i ↔ t.has x i ∨ ∃ jp ∈ jps, ∃ j c, m.joints[i]? = some jp ∧ m.jheap[jp]? = some j ∧
        j.childLink = some c ∧ BelowKid m.links c x := by
  induction jps generalizing t with
  | nil => exact ⟨t, rfl, ht, by simp⟩
  | cons jp jps ih =>
    obtain ⟨i0, hi0⟩ := List.mem_iff_getElem?.mp (hjs jp (by simp))
    have hlt := (List.getElem?_eq_some_iff.mp hi0).1
    obtain ⟨j, r, c, ck, h1, h2, h3, h4, h5, h6, h7, h8⟩ := h.joint hi0
    have hname : m.jointIds.find j.name = some i0 := (h.jointNames _ _).mpr ⟨jp, j, hi0, h1, rfl⟩
    have hcl := (List.getElem?_eq_some_iff.mp h7).1
    obtain ⟨t1, s1, e1, f1⟩ := dfs_below m.links i0 _ hlt (fun _ _ => h.ids) (fun _ _ => h.loose.kids) hcl
      (h.acc c hcl) [] t ht
    obtain ⟨t2, e2, s2, f2⟩ := ih (fun x hx => hjs x (by simp [hx])) t1 s1
    refine ⟨t2, ?_, s2, ?_⟩
    · have : dfs m.links i0 [] t1 = some (.ok t1) := by rw [dfs]
      simp only [Tinyfk.rpLoop, derefJoint, h1, Outcome.bind_eq, Outcome.bind_ok, hname, h6, e1, this]
      exact e2
    · intro x i
      rw [f2, f1]
      have hiff : i = i0 ↔ m.joints[i]? = some jp := by
        constructor
        · rintro rfl; exact hi0
        · intro hi
          obtain ⟨j', _, _, _, a1, _, _, a2, _⟩ := h.joint hi
          rw [h1] at a1; cases a1
          rw [h4] at a2; cases a2; rfl
      rw [hiff]
      simp only [List.mem_cons, exists_eq_or_imp]
      constructor
      · rintro ((h' | ⟨a, b⟩) | ⟨jp', b1, b2⟩)
        · exact .inl h'
        · exact .inr (.inl ⟨j, c, a, h1, h6, b⟩)
        · exact .inr (.inr ⟨jp', b1, b2⟩)
      · rintro (h' | ⟨j', c', a, b1, b2, b3⟩ | ⟨jp', b1, b2⟩)
        · exact .inl (.inl h')
        · rw [h1] at b1; cases b1
          rw [h6] at b2; cases b2
          exact .inl (.inr ⟨a, b3⟩)
        · exact .inr ⟨jp', b1, b2⟩

theorem Net.updateRptable (h : Net ls js W m) :
    ∃ t, Tinyfk.updateRptable m = .ok () { m with rptable := t } ∧ RpNet { m with rptable := t } := by
  obtain ⟨t, e, s, f⟩ := h.rpLoop m.joints (fun _ h => h)
    (RpTable.mk' m.linkIds.length m.jointIds.length)
    (by rw [h.linkIdsLen, h.jointIdsLen]; exact RpTable.mk'_sized _ _)
  refine ⟨t, by simp [Tinyfk.updateRptable, e], ⟨s, ?_⟩⟩
  intro l i
  rw [show ({ m with rptable := t } : KinModel K).rptable = t from rfl, f]
  simp only [RpTable.mk'_has, false_or]
  constructor
  · rintro ⟨jp, _, j, c, h1, h2, h3, h4⟩
    exact ⟨jp, j, c, h1, h2, h3, h4⟩
  · rintro ⟨jp, j, c, h1, h2, h3, h4⟩
    exact ⟨jp, List.mem_of_getElem? h1, j, c, h1, h2, h3, h4⟩

/-- a joint is relevant for a link iff it lies on some route from the root to it -/
theorem Net.below_iff (h : Net ls js W m) {s : String} {i jp c l : Nat} {j : Joint K} {lk : Link K}
    (hs : m.jointIds.find s = some i) (h1 : m.joints[i]? = some jp) (h2 : m.jheap[jp]? = some j)
    (h3 : j.childLink = some c) (hl : m.links[l]? = some lk) :
    BelowKid m.links c l ↔ JointOnPath js W s lk.name := by
  obtain ⟨j', r, c', ck, a1, a2, a3, a4, a5, a6, a7, a8⟩ := h.joint h1
  rw [h2] at a1; cases a1
  rw [h3] at a6; cases a6
  have hname : r.name = s := by
    obtain ⟨jp', j', b1, b2, b3⟩ := (h.jointNames s i).mp hs
    rw [h1] at b1; cases b1
    rw [h2] at b2; cases b2
    rw [← b3]
    obtain ⟨_, _, rfl⟩ := a3
    rfl
  constructor
  · intro hB
    induction hB generalizing lk with
    | refl =>
      rw [a7] at hl; cases hl
      rw [a8]
      exact .here a2 hname
    | @step l x hB hk ih =>
      obtain ⟨pk, e1, e2⟩ := hk
      have hp := ih e1
      obtain ⟨xk, f1, f2⟩ := (h.kids e1).mp e2
      rw [hl] at f1; cases f1
      rcases f2 with ⟨r', b1, b2, b3⟩ | ⟨o, hw⟩
      · rw [← b3]
        exact .up b1 (b2 ▸ hp)
      · exact .weld (w := ⟨_, _, _⟩) hw hp
  · intro hP
    have key : ∀ n, JointOnPath js W s n → ∀ (l : Nat) (lk : Link K), m.links[l]? = some lk →
        lk.name = n → BelowKid m.links c l := by
      intro n hn
      induction hn with
      | @here r' hr hs' =>
        intro l lk hl hn
        have : r' = r := List.inj_on_of_nodup_map h.jointNodup hr a2 (hs'.trans hname.symm)
        subst this
        have := h.name_unique hl a7 (hn.trans a8.symm)
        subst this
        exact .refl
      | @up r' hr _ ih =>
        intro l lk hl hn
        obtain ⟨rl, hrl, e⟩ := List.mem_map.mp (h.names r' hr).2
        obtain ⟨p, pk, b1, b2⟩ := h.all rl hrl
        refine .step (ih p pk b1 (b2.trans e)) ⟨pk, b1, (h.kids b1).mpr ⟨lk, hl, .inl ⟨r', hr, ?_, hn.symm⟩⟩⟩
        rw [b2, e]
      | @weld w hw _ ih =>
        intro l lk hl hn
        obtain ⟨l', lk', p, pk, jp', j', b1, b2, b3, b4, b5, _⟩ := h.edge_of_weld hw
        refine .step (ih p pk b4 b5) ⟨pk, b4, (h.kids b4).mpr ⟨lk, hl, .inr ⟨w.offset, ?_⟩⟩⟩
        rw [hn, b5]
        exact hw
    exact key _ hP l lk hl rfl

/-! ### Keeping the invariant -/

theorem SameShape.kid {m m' : KinModel K} (h : SameShape m m') : Kid m'.links = Kid m.links := by
  funext c l
  apply propext
  constructor
  · rintro ⟨lk, h1, h2⟩
    obtain ⟨lk0, e1, _, _, _, _, e2⟩ := h.get h1
    exact ⟨lk0, e1, e2 ▸ h2⟩
  · rintro ⟨lk, h1, h2⟩
    obtain ⟨lk0, e1, _, _, _, _, e2⟩ := h.symm.get h1
    exact ⟨lk0, e1, e2 ▸ h2⟩

theorem Net.congr {m' : KinModel K} (h : SameShape m m') (hj : m'.jheap = m.jheap)
    (hjo : m'.joints = m.joints) (hji : m'.jointIds = m.jointIds) (hli : m'.linkIds = m.linkIds)
    (ha : m'.angles.length = m.angles.length) (hn : m'.numDof = m.numDof)
    (hr : m'.rootLinkId = m.rootLinkId) (g : Net ls js W m) : Net ls js W m' := by
  have hlen := h.length
  refine ⟨?_, ?_, ?_, ?_, ?_, ?_, ?_, ?_, g.names, g.jointNodup, ?_, g.weldFresh, g.weldUnique, ?_, ?_, ?_, ?_, ?_, ?_⟩
  · intro l lk hl
    obtain ⟨lk0, e1, _, e2, _⟩ := h.get hl
    rw [e2]; exact g.ids e1
  · intro s l
    rw [hli, g.linkNames]
    constructor
    · rintro ⟨lk, h1, h2⟩
      obtain ⟨lk0, e1, e2, _⟩ := h.symm.get h1
      exact ⟨lk0, e1, e2.symm.trans h2⟩
    · rintro ⟨lk, h1, h2⟩
      obtain ⟨lk0, e1, e2, _⟩ := h.get h1
      exact ⟨lk0, e1, e2.symm.trans h2⟩
  · rw [hli, hlen]; exact g.linkIdsLen
  · intro l hl
    obtain ⟨n, hd⟩ := g.depth (hlen ▸ hl)
    exact ⟨n, h.depth hd⟩
  · intro l hl
    rw [h.kid]; exact g.acc l (hlen ▸ hl)
  · intro l lk' hl
    obtain ⟨lk, e1, e2, e3, e4, e5, e6⟩ := h.get hl
    rw [hj, hjo, e4, e2, e5]
    rcases g.links l lk e1 with h1 | ⟨p, pk, jp, j, a1, a2, a3, a4, a5⟩
    · exact .inl h1
    · obtain ⟨pk', f1, f2, _⟩ := h.symm.get a2
      exact .inr ⟨p, pk', jp, j, a1, f1, a3, a4, f2 ▸ a5⟩
  · intro l c lk' hl
    obtain ⟨lk, e1, e2, e3, e4, e5, e6⟩ := h.get hl
    rw [e6, e2, g.kids e1]
    constructor
    · rintro ⟨ck, b1, b2⟩
      obtain ⟨ck', f1, f2, _⟩ := h.symm.get b1
      exact ⟨ck', f1, f2 ▸ b2⟩
    · rintro ⟨ck, b1, b2⟩
      obtain ⟨ck', f1, f2, _⟩ := h.get b1
      exact ⟨ck', f1, f2 ▸ b2⟩
  · intro r hr
    obtain ⟨l, lk, h1, h2⟩ := g.all r hr
    obtain ⟨lk', f1, f2, _⟩ := h.symm.get h1
    exact ⟨l, lk', f1, f2 ▸ h2⟩
  · intro w hw
    obtain ⟨l, lk, h1, h2⟩ := g.welded w hw
    obtain ⟨lk', f1, f2, _⟩ := h.symm.get h1
    exact ⟨l, lk', f1, f2 ▸ h2⟩
  · intro i jp hi
    rw [hjo] at hi
    rw [hj]
    obtain ⟨j, r, c, ck, a1, a2, a3, a4, a5, a6, a7, a8⟩ := g.joint hi
    obtain ⟨ck', f1, f2, _⟩ := h.symm.get a7
    exact ⟨j, r, c, ck', a1, a2, a3, a4, a5, a6, f1, f2.symm.trans a8⟩
  · intro s i
    rw [hji, hjo, hj]; exact g.jointNames s i
  · rw [hji, hjo]; exact g.jointIdsLen
  · rw [ha, hjo]; exact g.anglesLen
  · rw [hn, hjo]; exact g.numDof
  · obtain ⟨lk, h1, h2⟩ := g.root
    obtain ⟨lk', f1, _, _, f2, _⟩ := h.symm.get h1
    rw [hr]
    exact ⟨lk', f1, f2.symm.trans h2⟩

theorem RpNet.congr {m' : KinModel K} (h : SameShape m m') (hj : m'.jheap = m.jheap)
    (hjo : m'.joints = m.joints) (hr : m'.rptable = m.rptable) (r : RpNet m) : RpNet m' := by
  have hB : ∀ c l, BelowKid m'.links c l ↔ BelowKid m.links c l := by
    intro c l
    constructor
    · intro hb
      induction hb with
      | refl => exact .refl
      | step _ hk ih => exact .step ih (h.kid ▸ hk)
    · intro hb
      induction hb with
      | refl => exact .refl
      | step _ hk ih => exact .step ih (h.kid ▸ hk)
  refine ⟨by rw [hr, hjo, h.length]; exact r.sized, ?_⟩
  intro l i
  rw [hr, hjo, hj, r.iff]
  simp only [hB]

theorem Net.attached (h : Net ls js W m) {name : String} {parent : Nat} {pk0 : Link K} (pose : Pose K)
    (hn : m.linkIds.find name = none) (hpk : m.links[parent]? = some pk0) :
    Net ls js (fun w => W w ∨ w = ⟨name, pk0.name, pose⟩) (Tinyfk.attached m name parent pose) := by
  have hp := (List.getElem?_eq_some_iff.mp hpk).1
  have hl' := h.loose.attached pose hn hp
  have hfresh : ∀ (l : Nat) (lk : Link K), m.links[l]? = some lk → lk.name ≠ name := by
    intro l lk hl he
    have := (h.linkNames name l).mpr ⟨lk, hl, he⟩
    rw [hn] at this; cases this
  have hold : ∀ {l : Nat} {lk : Link K}, m.links[l]? = some lk → ∃ lk',
      (Tinyfk.attached m name parent pose).links[l]? = some lk' ∧ lk'.name = lk.name :=
    fun hl => let ⟨lk', a, b, _⟩ := attached_old hp hl; ⟨lk', a, b⟩
  have hnls : name ∉ ls.map RawLink.name := by
    intro hmem
    obtain ⟨r, hr, e⟩ := List.mem_map.mp hmem
    obtain ⟨l, lk, h1, h2⟩ := h.all r hr
    exact hfresh l lk h1 (h2.trans e)
  have hwn : ∀ w, W w → w.name ≠ name := by
    intro w hw e
    obtain ⟨l, lk, h1, h2⟩ := h.welded w hw
    exact hfresh l lk h1 (h2.trans e)
  have hwc : ∀ w, W w → w.carrier ≠ name := by
    intro w hw e
    obtain ⟨_, _, p, pk, _, _, _, _, _, h4, h5, _⟩ := h.edge_of_weld hw
    exact hfresh p pk h4 (h5.trans e)
  have hjh : ∀ {jp : Nat} {j : Joint K}, m.jheap[jp]? = some j →
      (Tinyfk.attached m name parent pose).jheap[jp]? = some j := fun h => Graph.jheap_attached h
  refine ⟨hl'.ids, hl'.linkNames, hl'.linkIdsLen, ?_, ?_, ?_, ?_, ?_, h.names, h.jointNodup, ?_, ?_, ?_, ?_, ?_,
    h.jointIdsLen, h.anglesLen, h.numDof, ?_⟩
  · intro l hl
    rw [attached_length] at hl
    by_cases e : l = m.links.length
    · subst e
      obtain ⟨n, hd⟩ := h.depth hp
      exact ⟨n + 1, .child (attached_new hp) rfl (hd.attached hp)⟩
    · obtain ⟨n, hd⟩ := h.depth (show l < m.links.length by omega)
      exact ⟨n, hd.attached hp⟩
  · intro l hl
    rw [attached_length] at hl
    by_cases e : l = m.links.length
    · subst e
      constructor
      rintro c ⟨lk, g1, g2⟩
      rw [attached_new hp] at g1
      cases g1
      simp [newLink] at g2
    · exact (acc_attached h.loose hp (by omega)).mpr (h.acc l (by omega))
  · intro l lk' hl
    rcases attached_cases hp hl with ⟨rfl, rfl⟩ | ⟨lk, e1, e2, _, _, e4, e5, _⟩
    · obtain ⟨pk', f1, f2⟩ := hold hpk
      refine .inr ⟨parent, pk', m.jheap.length, newFixedJoint pose, rfl, f1, rfl, ?_, .inr ⟨rfl, .inr ?_⟩⟩
      · show (m.jheap ++ [newFixedJoint pose])[m.jheap.length]? = _
        simp
      · rw [f2]; rfl
    · rw [e4, e2, e5]
      rcases h.links l lk e1 with h1 | ⟨p, pk, jp, j, a1, a2, a3, a4, a5⟩
      · exact .inl h1
      · obtain ⟨pk', f1, f2⟩ := hold a2
        refine .inr ⟨p, pk', jp, j, a1, f1, a3, hjh a4, ?_⟩
        rw [f2]
        rcases a5 with a5 | ⟨b1, b2⟩
        · exact .inl a5
        · exact .inr ⟨b1, .inl b2⟩
  · intro l c lk' hl
    rcases attached_cases hp hl with ⟨rfl, rfl⟩ | ⟨lk, e1, e2, _, _, _, _, e6⟩
    · constructor
      · intro h; cases h
      · rintro ⟨ck, b1, b2⟩
        exfalso
        rcases b2 with ⟨r, hr, c1, c2⟩ | ⟨o, hw | hw⟩
        · apply hnls
          have := (h.names r hr).2
          rw [c1] at this
          exact this
        · exact hwc _ hw rfl
        · have : name = pk0.name := congrArg Weld.carrier hw
          exact hfresh _ _ hpk this.symm
    · rw [e6, e2]
      have hiff : c ∈ (if l = parent then lk.childLinks ++ [m.links.length] else lk.childLinks) ↔
          c ∈ lk.childLinks ∨ (l = parent ∧ c = m.links.length) := by
        split
        · rename_i e; simp [e]
        · rename_i e; simp [e]
      rw [hiff, h.kids e1]
      constructor
      · rintro (⟨ck, b1, b2⟩ | ⟨rfl, rfl⟩)
        · obtain ⟨ck', f1, f2⟩ := hold b1
          refine ⟨ck', f1, ?_⟩
          rw [f2]
          rcases b2 with b2 | ⟨o, b2⟩
          · exact .inl b2
          · exact .inr ⟨o, .inl b2⟩
        · rw [hpk] at e1; cases e1
          exact ⟨_, attached_new hp, .inr ⟨pose, .inr rfl⟩⟩
      · rintro ⟨ck, b1, b2⟩
        rcases attached_cases hp b1 with ⟨rfl, rfl⟩ | ⟨ck0, f1, f2, _⟩
        · right
          rcases b2 with ⟨r, hr, c1, c2⟩ | ⟨o, hw | hw⟩
          · refine absurd ?_ hnls
            have := (h.names r hr).1
            rw [c2] at this
            exact this
          · exact absurd rfl (hwn _ hw)
          · have : lk.name = pk0.name := congrArg Weld.carrier hw
            exact ⟨h.name_unique e1 hpk this, rfl⟩
        · left
          refine ⟨ck0, f1, ?_⟩
          rw [f2] at b2
          rcases b2 with b2 | ⟨o, b2 | b2⟩
          · exact .inl b2
          · exact .inr ⟨o, b2⟩
          · have : ck0.name = name := congrArg Weld.name b2
            exact absurd this (hfresh _ _ f1)
  · intro r hr
    obtain ⟨l, lk, h1, h2⟩ := h.all r hr
    obtain ⟨lk', f1, f2⟩ := hold h1
    exact ⟨l, lk', f1, f2.trans h2⟩
  · rintro w (hw | rfl)
    · obtain ⟨l, lk, h1, h2⟩ := h.welded w hw
      obtain ⟨lk', f1, f2⟩ := hold h1
      exact ⟨l, lk', f1, f2.trans h2⟩
    · exact ⟨_, _, attached_new hp, rfl⟩
  · rintro w (hw | rfl)
    · exact h.weldFresh w hw
    · exact hnls
  · rintro w w' (hw | rfl) (hw' | rfl) e
    · exact h.weldUnique w w' hw hw' e
    · exact absurd e (hwn w hw)
    · exact absurd e.symm (hwn w' hw')
    · rfl
  · intro i jp hi
    obtain ⟨j, r, c, ck, a1, a2, a3, a4, a5, a6, a7, a8⟩ := h.joint hi
    obtain ⟨ck', f1, f2⟩ := hold a7
    exact ⟨j, r, c, ck', hjh a1, a2, a3, a4, a5, a6, f1, f2.trans a8⟩
  · intro s i
    rw [show (Tinyfk.attached m name parent pose).jointIds = m.jointIds from rfl, h.jointNames]
    constructor
    · rintro ⟨jp, j, h1, h2, h3⟩
      exact ⟨jp, j, h1, hjh h2, h3⟩
    · rintro ⟨jp, j, h1, h2, h3⟩
      obtain ⟨j', _, _, _, a1, _⟩ := h.joint h1
      rw [hjh a1] at h2; cases h2
      exact ⟨jp, _, h1, a1, h3⟩
  · obtain ⟨lk, h1, h2⟩ := h.root
    obtain ⟨lk', e1, _, _, _, e2, _⟩ := attached_old (name := name) (pose := pose) hp h1
    exact ⟨lk', e1, e2.trans h2⟩

/-- adding a link under a fresh name -/
theorem Net.addNewLink (h : Net ls js W m) {name : String} {parent : Nat} {pk0 : Link K} (pose : Pose K)
    (hn : m.linkIds.find name = none) (hpk : m.links[parent]? = some pk0) :
    ∃ t, Tinyfk.addNewLink name parent pose m =
        .ok m.links.length { Tinyfk.attached m name parent pose with rptable := t } ∧
      Net ls js (fun w => W w ∨ w = ⟨name, pk0.name, pose⟩) { Tinyfk.attached m name parent pose with rptable := t } ∧
      RpNet { Tinyfk.attached m name parent pose with rptable := t } := by
  have ha := h.attached pose hn hpk
  obtain ⟨t, e, hr⟩ := ha.updateRptable
  refine ⟨t, ?_, Net.congr (m := Tinyfk.attached m name parent pose) (.of_links rfl) rfl rfl rfl rfl rfl rfl rfl ha, hr⟩
  rw [addNewLink_run _ hn (List.getElem?_eq_some_iff.mp hpk).1, Prog.bind, e]
  rfl

end

/-! ### Construction -/

/-- What the members look like before the centre-of-mass links are added. -/
theorem initMembers_net {ls : List (RawLink K)} {js : List (RawJoint K)} {mi : ModelInterface K}
    (hbm : buildModel ls js = some mi) (ht : NoCycle js) (hs : Supported js) :
    ∃ m, initMembers mi = .ok m ∧ Net ls js (fun _ => False) m ∧
      m.links = mi.links.mapIdx (fun i l => { l with id := i }) ∧
      m.angles = List.replicate m.joints.length 0 ∧
      m.stack = SizedStack.mk' ⟨0, Pose.identity⟩ mi.links.length ∧
      m.cache = SizedCache.mk' Pose.identity mi.links.length := by
  have hb := buildModel_spec hbm
  have hs' : ∀ j ∈ mi.joints, j.type = .fixed ∨ j.type.Movable := by
    intro j hj
    obtain ⟨r, hr, rfl⟩ := List.mem_map.mp (hb.jointPerm.mem_iff.mp hj)
    exact hs r hr
  obtain ⟨height, hacyc⟩ := ht
  have hacyc' : ∀ j ∈ mi.joints, height j.parentLinkName < height j.childLinkName := by
    intro j hj
    obtain ⟨r, hr, rfl⟩ := List.mem_map.mp (hb.jointPerm.mem_iff.mp hj)
    exact hacyc r hr
  -- numbering
  have hfind := numberLinks_find 0 mi.links [] hb.linkNodup
  have hlen := numberLinks_length 0 mi.links [] hb.linkNodup (by simp [NameMap.find_nil])
  have hlinks := numberLinks_links 0 mi.links []
  have hnj := numberJoints_ok mi.joints hs' 0 0 [] []
  simp only [Nat.zero_add, List.length_nil] at hfind hlen hlinks
  have hfind' : ∀ s l, (numberLinks 0 mi.links []).2.find s = some l ↔
      ∃ lk, mi.links[l]? = some lk ∧ lk.name = s := by
    intro s l
    rw [hfind]
    simp only [NameMap.find_nil, reduceCtorEq, and_false, or_false]
    constructor
    · rintro ⟨i, lk, h1, h2, rfl⟩; exact ⟨lk, h1, h2⟩
    · rintro ⟨lk, h1, h2⟩; exact ⟨l, lk, h1, h2, rfl⟩
  have hmem : ∀ s, s ∈ mi.links.map Link.name → ∃ l lk, mi.links[l]? = some lk ∧ lk.name = s ∧
      (numberLinks 0 mi.links []).2.find s = some l := by
    intro s hs
    obtain ⟨lk, h1, h2⟩ := List.mem_map.mp hs
    obtain ⟨l, hl⟩ := List.mem_iff_getElem?.mp h1
    exact ⟨l, lk, hl, h2, (hfind' _ _).mpr ⟨lk, hl, h2⟩⟩
  obtain ⟨hp, hset, hplen, hpget⟩ := setChildLinks_ok mi.links.length (numberLinks 0 mi.links []).2
    (movPos 0 mi.joints) (heapOf 0 mi.joints) (by
      intro jp hjp
      obtain ⟨i, hi⟩ := List.mem_iff_getElem?.mp hjp
      obtain ⟨k, j, h1, h2, h3, h4⟩ := movPos_get mi.joints 0 0 hi
      obtain ⟨c, ck, a1, a2, a3⟩ := hmem _ (hb.state.ok j (List.mem_of_getElem? h2)).1
      refine ⟨{ j with id := some (0 + i) }, c, by rw [h1, Nat.zero_add]; exact h4, a3, (List.getElem?_eq_some_iff.mp a1).1⟩)
  obtain ⟨rk, hrk1, hrk2⟩ := hb.root
  have hrootfind : (numberLinks 0 mi.links []).2.find rk.name = some mi.rootLink :=
    (hfind' _ _).mpr ⟨rk, hrk1, rfl⟩
  have hllen : (numberLinks 0 mi.links []).1.length = mi.links.length := by rw [hlinks]; simp
  have hrget : (numberLinks 0 mi.links []).1[mi.rootLink]? = some { rk with id := mi.rootLink } := by
    rw [hlinks]; simp [hrk1]
  have hnl : numberLinks 0 mi.links [] = ((numberLinks 0 mi.links []).1, (numberLinks 0 mi.links []).2) := rfl
  refine ⟨_, by
    unfold initMembers
    rw [hnl]
    simp only [hnj, Outcome.bind_eq, Outcome.bind_ok, hllen, List.nil_append, hset, hrget,
      NameMap.opIndex, hrootfind]
    rfl, ?_⟩
  have hjtlen : (jointTable 0 [] mi.joints).length = (movPos 0 mi.joints).length := by
    rw [jointTable_length mi.joints hb.jointNodup 0 0 [] (by simp [NameMap.find_nil])]; simp
  have hget : ∀ {l : Nat} {lk : Link K}, (numberLinks 0 mi.links []).1[l]? = some lk →
      ∃ lk0, mi.links[l]? = some lk0 ∧ lk = { lk0 with id := l } := by
    intro l lk h
    rw [hlinks] at h
    simp only [List.getElem?_mapIdx, Option.map_eq_some_iff] at h
    obtain ⟨lk0, h1, h2⟩ := h
    exact ⟨lk0, h1, h2.symm⟩
  have hput : ∀ {l : Nat} {lk0 : Link K}, mi.links[l]? = some lk0 →
      (numberLinks 0 mi.links []).1[l]? = some { lk0 with id := l } := by
    intro l lk0 h
    rw [hlinks]; simp [h]
  have hheap : ∀ {k : Nat} {j : Joint K}, mi.joints[k]? = some j →
      (j.type = .fixed ∧ hp[k]? = some j) ∨
      (j.type.Movable ∧ ∃ i c ck, (movPos 0 mi.joints)[i]? = some k ∧ mi.links[c]? = some ck ∧
        ck.name = j.childLinkName ∧ hp[k]? = some { j with id := some i, childLink := some c }) := by
    intro k j hk
    by_cases hm : j.type.Movable
    · right
      obtain ⟨i, h1, h2⟩ := movPos_of_get mi.joints 0 0 hk hm
      obtain ⟨c, ck, a1, a2, a3⟩ := hmem _ (hb.state.ok j (List.mem_of_getElem? hk)).1
      simp only [Nat.zero_add] at h1 h2
      refine ⟨hm, i, c, ck, h1, a1, a2, ?_⟩
      rw [hpget k _ h2, if_pos (List.mem_of_getElem? h1)]
      simp [a3]
    · left
      rcases hs' j (List.mem_of_getElem? hk) with h | h
      · refine ⟨h, ?_⟩
        rw [hpget k _ (heapOf_fixed mi.joints 0 hk hm), if_neg]
        intro hmem'
        obtain ⟨i, hi⟩ := List.mem_iff_getElem?.mp hmem'
        obtain ⟨k', j', e1, e2, e3, _⟩ := movPos_get mi.joints 0 0 hi
        rw [Nat.zero_add] at e1; subst e1
        rw [hk] at e2; cases e2
        exact hm e3
      · exact absurd h hm
  -- depth, by induction on the height of the name
  have hdepth : ∀ (m : KinModel K), m.links = (numberLinks 0 mi.links []).1 →
      ∀ (n l : Nat) (lk0 : Link K), mi.links[l]? = some lk0 → height lk0.name ≤ n →
      ∃ d, Depth m l d := by
    intro m hm n
    have hput : ∀ {l : Nat} {lk0 : Link K}, mi.links[l]? = some lk0 →
        m.links[l]? = some { lk0 with id := l } := by
      intro l lk0 h; rw [hm]; exact hput h
    induction n with
    | zero =>
      intro l lk0 h1 h2
      rcases hb.state.par h1 with ⟨a, _, _⟩ | ⟨p, pk, k, j, a1, a2, a3, a4, a5, a6⟩
      · exact ⟨0, .root (hput h1) a⟩
      · have := hacyc' j (List.mem_of_getElem? a4)
        rw [a5] at this; omega
    | succ n ih =>
      intro l lk0 h1 h2
      rcases hb.state.par h1 with ⟨a, _, _⟩ | ⟨p, pk, k, j, a1, a2, a3, a4, a5, a6⟩
      · exact ⟨0, .root (hput h1) a⟩
      · have := hacyc' j (List.mem_of_getElem? a4)
        rw [a5, a6] at this
        obtain ⟨d, hd⟩ := ih p pk a3 (by omega)
        exact ⟨d + 1, .child (hput h1) a1 hd⟩

  have hacc : ∀ (n l : Nat) (lk0 : Link K), mi.links[l]? = some lk0 →
      (∀ lk ∈ mi.links, height lk.name ≤ height lk0.name + n) → Acc (Kid (numberLinks 0 mi.links []).1) l := by
    intro n
    induction n with
    | zero =>
      intro l lk0 h1 h2
      constructor
      rintro c ⟨lk, g1, g2⟩
      obtain ⟨x, e1, rfl⟩ := hget g1
      rw [h1] at e1; cases e1
      obtain ⟨ck, j, b1, b2, b3, b4⟩ := (hb.state.ch (c := c) h1).mp g2
      have := hacyc' j b2
      have := h2 ck (List.mem_of_getElem? b1)
      rw [b3, b4] at *
      omega
    | succ n ih =>
      intro l lk0 h1 h2
      constructor
      rintro c ⟨lk, g1, g2⟩
      obtain ⟨x, e1, rfl⟩ := hget g1
      rw [h1] at e1; cases e1
      obtain ⟨ck, j, b1, b2, b3, b4⟩ := (hb.state.ch (c := c) h1).mp g2
      refine ih c ck b1 ?_
      intro lk hlk
      have h3 := hacyc' j b2
      have h4 := h2 lk hlk
      rw [b3, b4] at h3
      omega
  have hbound : ∃ H, ∀ lk ∈ mi.links, height lk.name ≤ H := by
    have : ∀ L : List (Link K), ∃ H, ∀ lk ∈ L, height lk.name ≤ H := by
      intro L
      induction L with
      | nil => exact ⟨0, by simp⟩
      | cons a L ih =>
        obtain ⟨H, hH⟩ := ih
        refine ⟨max H (height a.name), ?_⟩
        intro lk hlk
        rcases List.mem_cons.mp hlk with rfl | h
        · omega
        · have := hH lk h; omega
    exact this _
  have hrawmem : ∀ s, s ∈ mi.links.map Link.name ↔ s ∈ ls.map RawLink.name := by
    intro s
    have := (hb.sortedPerm.map RawLink.name).mem_iff (a := s)
    rw [← this, List.map_map]
    exact Iff.rfl
  have hrawj : ∀ j ∈ mi.joints, ∃ r ∈ js, j = r.toJoint := by
    intro j hj
    obtain ⟨r, hr, rfl⟩ := List.mem_map.mp (hb.jointPerm.mem_iff.mp hj)
    exact ⟨r, hr, rfl⟩
  have hjraw : ∀ r ∈ js, r.toJoint ∈ mi.joints := by
    intro r hr
    exact hb.jointPerm.mem_iff.mpr (List.mem_map_of_mem hr)
  refine ⟨?_, hlinks, by show List.replicate _ _ = List.replicate _ _; rw [hjtlen], rfl, rfl⟩
  refine ⟨?_, ?_, ?_, ?_, ?_, ?_, ?_, ?_, ?_, ?_, ?_, ?_, ?_, ?_, ?_, ?_, ?_, ?_, ?_⟩
  · intro l lk h
    obtain ⟨lk0, _, rfl⟩ := hget h
    rfl
  · intro s l
    refine (hfind' s l).trans ?_
    constructor
    · rintro ⟨lk, h1, h2⟩; exact ⟨_, hput h1, h2⟩
    · rintro ⟨lk, h1, h2⟩
      obtain ⟨x, e1, rfl⟩ := hget h1
      exact ⟨x, e1, h2⟩
  · show (numberLinks 0 mi.links []).2.length = _
    rw [hlen]; exact hllen.symm
  · intro l hl
    have hl' : l < mi.links.length := by rw [← hllen]; exact hl
    exact hdepth _ rfl _ l mi.links[l] (by simp [hl']) (Nat.le_refl _)
  · intro l hl
    have hl' : l < mi.links.length := by rw [← hllen]; exact hl
    obtain ⟨H, hH⟩ := hbound
    exact hacc H l mi.links[l] (by simp [hl']) fun lk hlk => by have := hH lk hlk; omega
  · intro l lk h1
    obtain ⟨lk0, e1, rfl⟩ := hget h1
    rcases hb.state.par e1 with ⟨a, _, b⟩ | ⟨p, pk, k, j, a1, a2, a3, a4, a5, a6⟩
    · left
      refine ⟨a, ?_, ?_⟩
      · obtain ⟨r, hr, e⟩ := List.mem_map.mp ((hrawmem lk0.name).mp (List.mem_map_of_mem (List.mem_of_getElem? e1)))
        exact ⟨r, hr, e⟩
      · intro r hr
        exact b _ (hjraw r hr)
    · right
      obtain ⟨r, hr, rfl⟩ := hb.followed hbm e1 a2 a4 a5
      rcases hheap a4 with ⟨b1, b2⟩ | ⟨b1, i, c, ck, b2, b3, b4, b5⟩
      · exact ⟨p, _, k, _, a1, hput a3, a2, b2, .inl ⟨r, hr, ⟨_, _, rfl⟩, a6, a5, .inl b1⟩⟩
      · exact ⟨p, _, k, _, a1, hput a3, a2, b5, .inl ⟨r, hr, ⟨_, _, rfl⟩, a6, a5, .inr ⟨b1, i, rfl, b2⟩⟩⟩
  · intro l c lk h1
    obtain ⟨x, e1, rfl⟩ := hget h1
    refine (hb.state.ch (c := c) e1).trans ?_
    constructor
    · rintro ⟨ck, j, b1, b2, b3, b4⟩
      obtain ⟨r, hr, rfl⟩ := hrawj j b2
      exact ⟨_, hput b1, .inl ⟨r, hr, b3, b4⟩⟩
    · rintro ⟨ck, b1, b2⟩
      obtain ⟨y, f1, rfl⟩ := hget b1
      rcases b2 with ⟨r, hr, c1, c2⟩ | ⟨_, h⟩
      · exact ⟨y, _, f1, hjraw r hr, c1, c2⟩
      · exact h.elim
  · intro r hr
    obtain ⟨lk, h1, h2⟩ := List.mem_map.mp ((hrawmem r.name).mpr (List.mem_map_of_mem hr))
    obtain ⟨l, hl⟩ := List.mem_iff_getElem?.mp h1
    exact ⟨l, _, hput hl, h2⟩
  · intro r hr
    obtain ⟨a, b, _⟩ := hb.state.ok _ (hjraw r hr)
    exact ⟨(hrawmem _).mp a, (hrawmem _).mp b⟩
  · have := hb.jointNodup
    rw [(hb.jointPerm.map Joint.name).nodup_iff, List.map_map] at this
    exact this
  · intro w hw; exact hw.elim
  · intro w hw; exact hw.elim
  · intro w _ hw; exact hw.elim
  · intro i jp h
    obtain ⟨k, j, e1, e2, e3, e4⟩ := movPos_get mi.joints 0 0 h
    rw [Nat.zero_add] at e1; subst e1
    rcases hheap e2 with ⟨b1, b2⟩ | ⟨b1, i', c, ck, b2, b3, b4, b5⟩
    · rw [b1] at e3; simp [JointType.Movable] at e3
    · have hi : i = i' := by
        obtain ⟨_, f1⟩ := List.getElem?_eq_some_iff.mp h
        obtain ⟨_, f2⟩ := List.getElem?_eq_some_iff.mp b2
        have hnd := (movPos_sorted mi.joints 0).1.imp (fun h => Nat.ne_of_lt h)
        exact (List.Nodup.getElem_inj_iff hnd).mp (f1.trans f2.symm)
      subst hi
      obtain ⟨r, hr, rfl⟩ := hrawj j (List.mem_of_getElem? e2)
      exact ⟨_, r, c, _, b5, hr, ⟨_, _, rfl⟩, rfl, b1, rfl, hput b3, b4⟩
  · intro s i
    refine (jointTable_find mi.joints hb.jointNodup 0 0 [] s i).trans ?_
    simp only [NameMap.find_nil, reduceCtorEq, and_false, or_false, Nat.zero_add]
    constructor
    · rintro ⟨n, k, j, h1, h2, h3, rfl⟩
      obtain ⟨k', j', e1, e2, e3, e4⟩ := movPos_get mi.joints 0 0 h1
      rw [Nat.zero_add] at e1; subst e1
      rw [h2] at e2; cases e2
      rcases hheap h2 with ⟨b1, b2⟩ | ⟨b1, i', c, ck, b2, b3, b4, b5⟩
      · exact ⟨k, j, h1, b2, h3⟩
      · exact ⟨k, _, h1, b5, h3⟩
    · rintro ⟨jp, j, h1, h2, h3⟩
      obtain ⟨k', j', e1, e2, e3, e4⟩ := movPos_get mi.joints 0 0 h1
      rw [Nat.zero_add] at e1; subst e1
      refine ⟨i, _, j', h1, e2, ?_, rfl⟩
      rcases hheap e2 with ⟨b1, b2⟩ | ⟨b1, i', c, ck, b2, b3, b4, b5⟩
      · have : hp[jp]? = some j := h2
        rw [b2] at this; cases this; exact h3
      · have : hp[jp]? = some j := h2
        rw [b5] at this; cases this; exact h3
  · exact hjtlen
  · show (List.replicate _ _).length = _
    rw [List.length_replicate]; exact hjtlen
  · exact hjtlen
  · exact ⟨_, hrget, hrk2⟩

end Tinyfk
