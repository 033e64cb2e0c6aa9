import Verif.Proofs.Graph

/-!
# `add_new_link` preserves the invariant
-/

set_option linter.unusedSectionVars false

namespace Tinyfk

open Scalar

variable {K : Type} [Scalar K]

/-! ### Name tables -/

theorem NameMap.find_nil (k : String) : NameMap.find [] k = none := rfl

theorem NameMap.find_cons (k' : String) (v : Nat) (m : NameMap) (k : String) :
    NameMap.find ((k', v) :: m) k = if k = k' then some v else NameMap.find m k := by
  unfold NameMap.find
  rw [List.lookup_cons]
  by_cases h : k = k'
  · simp [h]
  · have : (k == k') = false := by simpa using h
    simp [this, h]

theorem NameMap.find_set (m : NameMap) (k : String) (v : Nat) (k' : String) :
    (m.set k v).find k' = if k' = k then some v else m.find k' := by
  induction m with
  | nil => simp [NameMap.set, NameMap.find_cons, NameMap.find_nil]
  | cons p m ih =>
    obtain ⟨a, b⟩ := p
    simp only [NameMap.set]
    by_cases h : k = a
    · subst h
      simp only [if_true, NameMap.find_cons]
      by_cases h' : k' = k <;> simp [h']
    · simp only [h, if_false, NameMap.find_cons, ih]
      by_cases h' : k' = a
      · subst h'; simp [Ne.symm h]
      · simp [h']

theorem NameMap.length_set (m : NameMap) (k : String) (v : Nat) :
    (m.set k v).length = if (m.find k).isSome then m.length else m.length + 1 := by
  induction m with
  | nil => simp [NameMap.set, NameMap.find_nil]
  | cons p m ih =>
    obtain ⟨a, b⟩ := p
    simp only [NameMap.set, NameMap.find_cons]
    by_cases h : k = a
    · simp [h]
    · simp only [h, if_false, List.length_cons, ih]
      split <;> simp

/-! ### The state after the new link is attached, before the table is rebuilt -/

/-- the new link -/
def newLink (m : KinModel K) (name : String) (parent : Nat) : Link K :=
  ⟨name, m.links.length, none, some parent, some m.jheap.length, [], []⟩

/-- the model with the new link attached, relevance table not yet updated -/
def attached (m : KinModel K) (name : String) (parent : Nat) (pose : Pose K) : KinModel K :=
  { m with
    jheap := m.jheap ++ [newFixedJoint pose]
    linkIds := m.linkIds.set name m.links.length
    links := (m.links ++ [newLink m name parent]).modify parent fun l =>
      { l with childLinks := l.childLinks ++ [m.links.length] }
    cache := m.cache.extend Pose.identity }

theorem addNewLink_run {m : KinModel K} {name : String} {parent : Nat} (pose : Pose K)
    (hn : m.linkIds.find name = none) (hp : parent < m.links.length) :
    addNewLink name parent pose m =
      Prog.bind updateRptable (fun _ => Prog.pure m.links.length) (attached m name parent pose) := by
  simp only [addNewLink, hn, hp, if_true, attached, newLink]

theorem getElem?_attached {m : KinModel K} {name : String} {parent : Nat} {pose : Pose K}
    (hp : parent < m.links.length) {l : Nat} {lk' : Link K} :
    (attached m name parent pose).links[l]? = some lk' ↔
      (l = m.links.length ∧ lk' = newLink m name parent) ∨
      ∃ lk, m.links[l]? = some lk ∧
        lk' = (if l = parent then { lk with childLinks := lk.childLinks ++ [m.links.length] }
          else lk) := by
  simp only [attached, List.getElem?_modify]
  by_cases h1 : l < m.links.length
  · rw [List.getElem?_append_left h1]
    have e1 : m.links[l]? = some m.links[l] := by simp [h1]
    rw [e1]
    by_cases h2 : parent = l
    · subst h2
      simp [Nat.ne_of_lt h1, eq_comm]
    · simp [h2, Ne.symm h2, Nat.ne_of_lt h1, eq_comm]
  · have e1 : m.links[l]? = none := by simp; omega
    have h2 : ¬ parent = l := by omega
    by_cases h3 : l = m.links.length
    · subst h3
      simp [h2, eq_comm]
    · have : (m.links ++ [newLink m name parent])[l]? = none := by simp; omega
      simp [this, h2, h3, e1]

/-- An old link keeps all its members except the list of children. -/
theorem attached_old {m : KinModel K} {name : String} {parent : Nat} {pose : Pose K}
    (hp : parent < m.links.length) {l : Nat} {lk : Link K} (hl : m.links[l]? = some lk) :
    ∃ lk', (attached m name parent pose).links[l]? = some lk' ∧ lk'.name = lk.name ∧
      lk'.id = lk.id ∧ lk'.inertial = lk.inertial ∧ lk'.parent = lk.parent ∧
      lk'.parentJoint = lk.parentJoint := by
  refine ⟨_, (getElem?_attached hp).mpr (.inr ⟨lk, hl, rfl⟩), ?_⟩
  by_cases h : l = parent <;> simp [h]

theorem attached_cases {m : KinModel K} {name : String} {parent : Nat} {pose : Pose K}
    (hp : parent < m.links.length) {l : Nat} {lk' : Link K}
    (hl : (attached m name parent pose).links[l]? = some lk') :
    (l = m.links.length ∧ lk' = newLink m name parent) ∨
      ∃ lk, m.links[l]? = some lk ∧ lk'.name = lk.name ∧
      lk'.id = lk.id ∧ lk'.inertial = lk.inertial ∧ lk'.parent = lk.parent ∧
      lk'.parentJoint = lk.parentJoint ∧
      lk'.childLinks = (if l = parent then lk.childLinks ++ [m.links.length] else lk.childLinks) := by
  rcases (getElem?_attached hp).mp hl with h | ⟨lk, h, rfl⟩
  · exact .inl h
  · refine .inr ⟨lk, h, ?_⟩
    by_cases h : l = parent <;> simp [h]

theorem attached_new {m : KinModel K} {name : String} {parent : Nat} {pose : Pose K}
    (hp : parent < m.links.length) :
    (attached m name parent pose).links[m.links.length]? = some (newLink m name parent) :=
  (getElem?_attached hp).mpr (.inl ⟨rfl, rfl⟩)

theorem attached_length (m : KinModel K) (name : String) (parent : Nat) (pose : Pose K) :
    (attached m name parent pose).links.length = m.links.length + 1 := by simp [attached]

theorem Depth.attached {m : KinModel K} {name : String} {parent : Nat} {pose : Pose K}
    (hp : parent < m.links.length) {l n : Nat} (h : Depth m l n) :
    Depth (attached m name parent pose) l n := by
  induction h with
  | root h1 h2 =>
    obtain ⟨lk', e1, _, _, _, e2, _⟩ := attached_old (name := name) (pose := pose) hp h1
    exact .root e1 (by rw [e2]; exact h2)
  | child h1 h2 _ ih =>
    obtain ⟨lk', e1, _, _, _, e2, _⟩ := attached_old (name := name) (pose := pose) hp h1
    exact .child e1 (by rw [e2]; exact h2) ih

theorem OnPath.attached {m : KinModel K} {name : String} {parent : Nat} {pose : Pose K}
    (hp : parent < m.links.length) {jp l : Nat} (h : OnPath m jp l) :
    OnPath (attached m name parent pose) jp l := by
  induction h with
  | here h1 h2 h3 =>
    obtain ⟨lk', e1, _, _, _, e2, e3⟩ := attached_old (name := name) (pose := pose) hp h1
    exact .here e1 (by rw [e2]; exact h2) (by rw [e3]; exact h3)
  | up h1 h2 _ ih =>
    obtain ⟨lk', e1, _, _, _, e2, _⟩ := attached_old (name := name) (pose := pose) hp h1
    exact .up e1 (by rw [e2]; exact h2) ih

theorem IsPose.attached {m : KinModel K} {name : String} {parent : Nat} {pose : Pose K}
    (hp : parent < m.links.length) {l : Nat} {T : Pose K} (h : IsPose m l T) :
    IsPose (attached m name parent pose) l T := by
  induction h with
  | root h1 h2 =>
    obtain ⟨lk', e1, _, _, _, e2, _⟩ := attached_old (name := name) (pose := pose) hp h1
    have : (Tinyfk.attached m name parent pose).base = m.base := rfl
    rw [← this]
    exact .root e1 (by rw [e2]; exact h2)
  | child h1 h2 h3 h4 h5 _ ih =>
    obtain ⟨lk', e1, _, _, _, e2, e3⟩ := attached_old (name := name) (pose := pose) hp h1
    refine .child e1 (by rw [e2]; exact h2) (by rw [e3]; exact h3) ?_ h5 ih
    have := (List.getElem?_eq_some_iff.mp h4).1
    show (m.jheap ++ _)[_]? = _
    rw [List.getElem?_append_left this]; exact h4

/-- The pose of the new link. -/
theorem IsPose.attached_new {m : KinModel K} {name : String} {parent : Nat} {pose : Pose K}
    (hp : parent < m.links.length) {B : Pose K} (h : IsPose m parent B) :
    IsPose (Tinyfk.attached m name parent pose) m.links.length (Pose.transform B pose) := by
  refine .child (Tinyfk.attached_new hp) (jp := m.jheap.length) (j := newFixedJoint pose)
    rfl rfl ?_ ?_ (h.attached hp)
  · show (m.jheap ++ [newFixedJoint pose])[m.jheap.length]? = _
    simp
  · exact EdgeTf.fixed rfl

theorem Graph.parent_lt {m : KinModel K} (g : Graph m) {l p : Nat} {lk : Link K}
    (h1 : m.links[l]? = some lk) (h2 : lk.parent = some p) : p < m.links.length := by
  obtain ⟨n, hd⟩ := g.depth (List.getElem?_eq_some_iff.mp h1).1
  cases hd with
  | root a b => rw [h1] at a; cases a; rw [h2] at b; cases b
  | child a b hd => rw [h1] at a; cases a; rw [h2] at b; cases b; exact hd.lt

theorem Depth.of_attached {m : KinModel K} {name : String} {parent : Nat} {pose : Pose K}
    (g : Graph m) (hp : parent < m.links.length) {l n : Nat} (hl : l < m.links.length)
    (h : Depth (Tinyfk.attached m name parent pose) l n) : Depth m l n := by
  induction h with
  | root h1 h2 =>
    rcases attached_cases hp h1 with ⟨e, _⟩ | ⟨lk, e1, _, _, _, e2, _⟩
    · omega
    · exact .root e1 (by rw [← e2]; exact h2)
  | child h1 h2 _ ih =>
    rcases attached_cases hp h1 with ⟨e, _⟩ | ⟨lk, e1, _, _, _, e2, _⟩
    · omega
    · have e3 := e2.symm.trans h2
      exact .child e1 e3 (ih (g.parent_lt e1 e3))

theorem OnPath.of_attached {m : KinModel K} {name : String} {parent : Nat} {pose : Pose K}
    (g : Graph m) (hp : parent < m.links.length) {jp l : Nat} (hl : l < m.links.length)
    (h : OnPath (Tinyfk.attached m name parent pose) jp l) : OnPath m jp l := by
  induction h with
  | here h1 h2 h3 =>
    rcases attached_cases hp h1 with ⟨e, _⟩ | ⟨lk, e1, _, _, _, e2, e3, _⟩
    · omega
    · exact .here e1 (e2.symm.trans h2) (e3.symm.trans h3)
  | up h1 h2 _ ih =>
    rcases attached_cases hp h1 with ⟨e, _⟩ | ⟨lk, e1, _, _, _, e2, _⟩
    · omega
    · have e3 := e2.symm.trans h2
      exact .up e1 e3 (ih (g.parent_lt e1 e3))

theorem Graph.jheap_attached {m : KinModel K} {name : String} {parent : Nat} {pose : Pose K}
    {jp : Nat} {j : Joint K} (h : m.jheap[jp]? = some j) :
    (attached m name parent pose).jheap[jp]? = some j := by
  have := (List.getElem?_eq_some_iff.mp h).1
  show (m.jheap ++ _)[_]? = _
  rw [List.getElem?_append_left this]; exact h

theorem Graph.attached {m : KinModel K} (g : Graph m) {name : String} {parent : Nat}
    (pose : Pose K) (hn : m.linkIds.find name = none) (hp : parent < m.links.length) :
    Graph (attached m name parent pose) := by
  have hj : ∀ (l : Nat) (lk : Link K) jp, m.links[l]? = some lk → lk.parentJoint = some jp →
      jp < m.jheap.length := fun _ _ _ h1 h2 => g.pjValid h1 h2
  have hjo : (Tinyfk.attached m name parent pose).joints = m.joints := rfl
  refine ⟨?_, ?_, ?_, ?_, ?_, ?_, ?_, ?_, ?_, ?_, ?_, ?_, ?_, ?_, ?_⟩
  · intro l lk' hl
    rcases attached_cases hp hl with ⟨rfl, rfl⟩ | ⟨lk, e1, _, e2, _⟩
    · rfl
    · rw [e2]; exact g.ids e1
  · intro l hl
    rw [attached_length] at hl
    by_cases h : l = m.links.length
    · subst h
      obtain ⟨n, hd⟩ := g.depth hp
      exact ⟨n + 1, .child (attached_new hp) rfl (hd.attached hp)⟩
    · obtain ⟨n, hd⟩ := g.depth (show l < m.links.length by omega)
      exact ⟨n, hd.attached hp⟩
  · intro l p lk' hl hpar
    rcases attached_cases hp hl with ⟨rfl, rfl⟩ | ⟨lk, e1, _, e2, _, e3, e4, _⟩
    · refine ⟨m.jheap.length, newFixedJoint pose, rfl, ?_, .inl rfl⟩
      show (m.jheap ++ [newFixedJoint pose])[m.jheap.length]? = _
      simp
    · obtain ⟨jp, j, a1, a2, a3⟩ := g.pjoint e1 (e3.symm.trans hpar)
      exact ⟨jp, j, e4.trans a1, Graph.jheap_attached a2, a3⟩
  · intro l jp lk' hl hpar
    have hlen : (Tinyfk.attached m name parent pose).jheap.length = m.jheap.length + 1 := by
      simp [Tinyfk.attached]
    rw [hlen]
    rcases attached_cases hp hl with ⟨rfl, rfl⟩ | ⟨lk, e1, _, e2, _, e3, e4, _⟩
    · cases hpar; omega
    · have := g.pjValid e1 (e4.symm.trans hpar); omega
  · intro l l' jp lk lk' h1 h2 h3 h4
    rcases attached_cases hp h1 with ⟨rfl, rfl⟩ | ⟨k, e1, _, _, _, _, e4, _⟩
    · rcases attached_cases hp h2 with ⟨rfl, rfl⟩ | ⟨k', f1, _, _, _, _, f4, _⟩
      · rfl
      · have := hj _ _ _ f1 (f4.symm.trans h4)
        cases h3; omega
    · rcases attached_cases hp h2 with ⟨rfl, rfl⟩ | ⟨k', f1, _, _, _, _, f4, _⟩
      · have := hj _ _ _ e1 (e4.symm.trans h3)
        cases h4; omega
      · exact g.pjUnique e1 f1 (e4.symm.trans h3) (f4.symm.trans h4)
  · intro l c lk' hl
    rcases attached_cases hp hl with ⟨rfl, rfl⟩ | ⟨lk, e1, _, _, _, _, _, e5⟩
    · constructor
      · intro h; cases h
      · rintro ⟨ck, h1, h2⟩
        exfalso
        rcases attached_cases hp h1 with ⟨rfl, rfl⟩ | ⟨k', f1, _, _, _, f3, _, _⟩
        · simp only [newLink, Option.some.injEq] at h2; omega
        · have := g.parent_lt f1 (f3.symm.trans h2); omega
    · rw [e5]
      have hlt := (List.getElem?_eq_some_iff.mp e1).1
      constructor
      · intro h
        by_cases hlp : l = parent
        · subst hlp
          simp only [if_true, List.mem_append, List.mem_singleton] at h
          rcases h with h | rfl
          · obtain ⟨ck, h1, h2⟩ := (g.children e1).mp h
            obtain ⟨ck', f1, _, _, _, f3, _⟩ := attached_old (name := name) (pose := pose) hp h1
            exact ⟨ck', f1, f3.trans h2⟩
          · exact ⟨_, attached_new hp, rfl⟩
        · rw [if_neg hlp] at h
          obtain ⟨ck, h1, h2⟩ := (g.children e1).mp h
          obtain ⟨ck', f1, _, _, _, f3, _⟩ := attached_old (name := name) (pose := pose) hp h1
          exact ⟨ck', f1, f3.trans h2⟩
      · rintro ⟨ck, h1, h2⟩
        rcases attached_cases hp h1 with ⟨rfl, rfl⟩ | ⟨k', f1, _, _, _, f3, _, _⟩
        · simp only [newLink, Option.some.injEq] at h2
          subst h2; simp
        · have := (g.children e1).mpr ⟨k', f1, f3.symm.trans h2⟩
          split
          · simp [this]
          · exact this
  · obtain ⟨lk, h1, h2⟩ := g.root
    obtain ⟨lk', e1, _, _, _, e2, _⟩ := attached_old (name := name) (pose := pose) hp h1
    exact ⟨lk', e1, e2.trans h2⟩
  · intro l lk' hl hpar
    rcases attached_cases hp hl with ⟨rfl, rfl⟩ | ⟨lk, e1, _, e2, _, e3, e4, _⟩
    · cases hpar
    · exact g.rootUnique e1 (e3.symm.trans hpar)
  · intro s l
    show (m.linkIds.set name m.links.length).find s = some l ↔ _
    rw [NameMap.find_set]
    by_cases hs : s = name
    · subst hs
      simp only [if_true, Option.some.injEq]
      constructor
      · rintro rfl; exact ⟨_, attached_new hp, rfl⟩
      · rintro ⟨lk', h1, h2⟩
        rcases attached_cases hp h1 with ⟨rfl, rfl⟩ | ⟨lk, e1, e2, _⟩
        · rfl
        · have := (g.linkNames s l).mpr ⟨lk, e1, e2.symm.trans h2⟩
          rw [hn] at this; cases this
    · rw [if_neg hs, g.linkNames]
      constructor
      · rintro ⟨lk, h1, h2⟩
        obtain ⟨lk', e1, e2, _⟩ := attached_old (name := name) (pose := pose) hp h1
        exact ⟨lk', e1, e2.trans h2⟩
      · rintro ⟨lk', h1, h2⟩
        rcases attached_cases hp h1 with ⟨rfl, rfl⟩ | ⟨lk, e1, e2, _⟩
        · exact absurd h2.symm hs
        · exact ⟨lk, e1, e2.symm.trans h2⟩
  · show (m.linkIds.set name m.links.length).length = _
    rw [NameMap.length_set, hn, attached_length, g.linkIdsLen]; simp
  · intro i jp h
    obtain ⟨j, c, lk, p, a1, a2, a3, a4, a5, a6, a7⟩ := g.joint h
    obtain ⟨lk', e1, _, _, _, e2, e3⟩ := attached_old (name := name) (pose := pose) hp a5
    exact ⟨j, c, lk', p, Graph.jheap_attached a1, a2, a3, a4, e1, e3.trans a6, e2.trans a7⟩
  · intro s i
    rw [show (Tinyfk.attached m name parent pose).jointIds = m.jointIds from rfl, g.jointNames]
    constructor
    · rintro ⟨jp, j, h1, h2, h3⟩
      exact ⟨jp, j, h1, Graph.jheap_attached h2, h3⟩
    · rintro ⟨jp, j, h1, h2, h3⟩
      obtain ⟨j', _, _, _, a1, _⟩ := g.joint h1
      rw [Graph.jheap_attached a1] at h2; cases h2
      exact ⟨jp, _, h1, a1, h3⟩
  · exact g.jointIdsLen
  · exact g.anglesLen
  · exact g.numDof

end Tinyfk
