import Verif.Proofs.PoseQuery

/-!
# The structural invariant and the relevance table

`Graph m` says that links, joints, name tables and child lists of `m` describe one rooted
tree. Under it the depth-first walks of `update_rptable` terminate and mark exactly the
links below a joint.
-/

set_option linter.unusedSectionVars false

namespace Tinyfk

open Scalar

variable {K : Type} [Scalar K]

/-- Structural invariant of a model. -/
structure Graph (m : KinModel K) : Prop where
  ids : ∀ {l : Nat} {lk : Link K}, m.links[l]? = some lk → lk.id = l
  depth : ∀ {l : Nat}, l < m.links.length → ∃ n, Depth m l n
  pjoint : ∀ {l p : Nat} {lk : Link K}, m.links[l]? = some lk → lk.parent = some p →
    ∃ jp j, lk.parentJoint = some jp ∧ m.jheap[jp]? = some j ∧
      (j.type = .fixed ∨ j.type.Movable ∧ ∃ i, j.id = some i ∧ m.joints[i]? = some jp)
  pjValid : ∀ {l jp : Nat} {lk : Link K}, m.links[l]? = some lk → lk.parentJoint = some jp →
    jp < m.jheap.length
  pjUnique : ∀ {l l' jp : Nat} {lk lk' : Link K}, m.links[l]? = some lk → m.links[l']? = some lk' →
    lk.parentJoint = some jp → lk'.parentJoint = some jp → l = l'
  children : ∀ {l c : Nat} {lk : Link K}, m.links[l]? = some lk →
    (c ∈ lk.childLinks ↔ ∃ ck, m.links[c]? = some ck ∧ ck.parent = some l)
  root : ∃ lk, m.links[m.rootLinkId]? = some lk ∧ lk.parent = none
  rootUnique : ∀ {l : Nat} {lk : Link K}, m.links[l]? = some lk → lk.parent = none →
    l = m.rootLinkId
  linkNames : ∀ (s : String) (l : Nat),
    m.linkIds.find s = some l ↔ ∃ lk, m.links[l]? = some lk ∧ lk.name = s
  linkIdsLen : m.linkIds.length = m.links.length
  joint : ∀ {i jp : Nat}, m.joints[i]? = some jp → ∃ j c lk p, m.jheap[jp]? = some j ∧
    j.id = some i ∧ j.type.Movable ∧ j.childLink = some c ∧ m.links[c]? = some lk ∧
    lk.parentJoint = some jp ∧ lk.parent = some p
  jointNames : ∀ (s : String) (i : Nat),
    m.jointIds.find s = some i ↔ ∃ jp j, m.joints[i]? = some jp ∧ m.jheap[jp]? = some j ∧ j.name = s
  jointIdsLen : m.jointIds.length = m.joints.length
  anglesLen : m.angles.length = m.joints.length
  numDof : m.numDof = m.joints.length

theorem Graph.tree {m : KinModel K} (g : Graph m) : Tree m := by
  refine ⟨g.ids, g.depth, ?_⟩
  intro l p lk h1 h2
  obtain ⟨jp, j, e1, e2, e3⟩ := g.pjoint h1 h2
  refine ⟨jp, j, e1, e2, ?_⟩
  rcases e3 with h | ⟨h, i, hi, hj⟩
  · exact .inl h
  · refine .inr ⟨h, i, hi, ?_⟩
    rw [g.anglesLen]
    exact (List.getElem?_eq_some_iff.mp hj).1

/-- `Anc m a x`: link `a` is `x` or an ancestor of `x`. -/
inductive Anc (m : KinModel K) (a : Nat) : Nat → Prop
  | refl : Anc m a a
  | up {x p : Nat} {lk : Link K} : m.links[x]? = some lk → lk.parent = some p → Anc m a p →
      Anc m a x

theorem Anc.of_child {m : KinModel K} {l c x : Nat} {ck : Link K} (hc : m.links[c]? = some ck)
    (hp : ck.parent = some l) (h : Anc m c x) : Anc m l x := by
  induction h with
  | refl => exact .up hc hp .refl
  | up h1 h2 _ ih => exact .up h1 h2 ih

theorem Graph.anc_iff {m : KinModel K} (g : Graph m) {l : Nat} {lk : Link K}
    (hl : m.links[l]? = some lk) (x : Nat) :
    Anc m l x ↔ x = l ∨ ∃ c ∈ lk.childLinks, Anc m c x := by
  constructor
  · intro h
    induction h with
    | refl => exact .inl rfl
    | @up x p xk h1 h2 _ ih =>
      rcases ih with rfl | ⟨c, hc, hA⟩
      · exact .inr ⟨x, (g.children hl).mpr ⟨xk, h1, h2⟩, .refl⟩
      · exact .inr ⟨c, hc, .up h1 h2 hA⟩
  · rintro (rfl | ⟨c, hc, hA⟩)
    · exact .refl
    · obtain ⟨ck, h1, h2⟩ := (g.children hl).mp hc
      exact hA.of_child h1 h2

/-- A joint is on the path to `x` iff its child link is an ancestor-or-self of `x`. -/
theorem Graph.onPath_iff {m : KinModel K} (g : Graph m) {jp c p : Nat} {lk : Link K}
    (hc : m.links[c]? = some lk) (hj : lk.parentJoint = some jp) (hp : lk.parent = some p)
    (x : Nat) : OnPath m jp x ↔ Anc m c x := by
  constructor
  · intro h
    induction h with
    | here h1 h2 h3 => rw [g.pjUnique h1 hc h3 hj]; exact .refl
    | up h1 h2 _ ih => exact .up h1 h2 ih
  · intro h
    induction h with
    | refl => exact .here hc hp hj
    | up h1 h2 _ ih => exact .up h1 h2 ih

/-! ### The table as a set of pairs -/

/-- the entry is present and true -/
def RpTable.has (t : RpTable) (l i : Nat) : Prop := RpTable.isRelevant t l i = .ok true

/-- `t` has `nL` rows of `nJ` entries -/
structure RpTable.Sized (t : RpTable) (nL nJ : Nat) : Prop where
  len : t.length = nL
  row : ∀ {l : Nat} {r : List Bool}, t[l]? = some r → r.length = nJ

theorem RpTable.Sized.isRelevant {t : RpTable} {nL nJ l i : Nat} (h : t.Sized nL nJ) (hl : l < nL)
    (hi : i < nJ) : ∃ b, RpTable.isRelevant t l i = .ok b ∧ (b = true ↔ t.has l i) := by
  have h1 : l < t.length := by rw [h.len]; exact hl
  have e1 : t[l]? = some t[l] := by simp [h1]
  have h2 : i < t[l].length := by rw [h.row e1]; exact hi
  refine ⟨t[l][i], ?_, ?_⟩
  · simp [RpTable.isRelevant, h1, Outcome.idx, h2]
  · simp [RpTable.has, RpTable.isRelevant, h1, Outcome.idx, h2]

theorem RpTable.mk'_sized (a b : Nat) : (RpTable.mk' a b).Sized a b := by
  refine ⟨by simp [RpTable.mk'], ?_⟩
  intro l r h
  simp only [RpTable.mk', List.getElem?_replicate] at h
  split at h
  · cases h; simp
  · cases h

theorem RpTable.mk'_has (a b l i : Nat) : ¬ (RpTable.mk' a b).has l i := by
  unfold RpTable.has RpTable.isRelevant RpTable.mk'
  simp only [List.getElem?_replicate]
  by_cases h : l < a <;> by_cases h' : i < b <;> simp [h, Outcome.idx, h']

theorem RpTable.setTrue_spec {t : RpTable} {nL nJ l i : Nat} (h : t.Sized nL nJ) (hl : l < nL)
    (hi : i < nJ) : ∃ t', t.setTrue l i = .ok t' ∧ t'.Sized nL nJ ∧
      ∀ x k, t'.has x k ↔ t.has x k ∨ (x = l ∧ k = i) := by
  have h1 : l < t.length := by rw [h.len]; exact hl
  have e1 : t[l]? = some t[l] := by simp [h1]
  have h2 : i < t[l].length := by rw [h.row e1]; exact hi
  refine ⟨t.set l (t[l].set i true), by simp [RpTable.setTrue, h1, h2], ⟨by simpa using h.len, ?_⟩, ?_⟩
  · intro x r hx
    by_cases hxl : l = x
    · subst hxl
      simp [h1] at hx
      rw [← hx]; simpa using h.row e1
    · rw [List.getElem?_set_ne hxl] at hx
      exact h.row hx
  · intro x k
    unfold RpTable.has RpTable.isRelevant
    by_cases hxl : l = x
    · subst hxl
      by_cases hki : i = k
      · subst hki
        simp [h1, Outcome.idx, h2]
      · simp [h1, Outcome.idx, Ne.symm hki, List.getElem?_set_ne hki]
    · simp [List.getElem?_set_ne hxl, Ne.symm hxl]

/-! ### The walk -/

/-- The walk from `l` marks, in column `jid`, exactly the links below `l`, then goes on with
the rest of the stack. -/
def Walks (m : KinModel K) (jid nJ l : Nat) : Prop :=
  ∀ (st : List Nat) (t : RpTable), t.Sized m.links.length nJ →
    ∃ t', dfs m.links jid (l :: st) t = dfs m.links jid st t' ∧ t'.Sized m.links.length nJ ∧
      ∀ x k, t'.has x k ↔ t.has x k ∨ (k = jid ∧ Anc m l x)

theorem walks_list {m : KinModel K} {jid nJ : Nat} (cs : List Nat)
    (h : ∀ c ∈ cs, Walks m jid nJ c) (st : List Nat) (t : RpTable)
    (ht : t.Sized m.links.length nJ) :
    ∃ t', dfs m.links jid (cs ++ st) t = dfs m.links jid st t' ∧ t'.Sized m.links.length nJ ∧
      ∀ x k, t'.has x k ↔ t.has x k ∨ (k = jid ∧ ∃ c ∈ cs, Anc m c x) := by
  induction cs generalizing t with
  | nil => exact ⟨t, rfl, ht, by simp⟩
  | cons c cs ih =>
    obtain ⟨t1, e1, s1, f1⟩ := h c (by simp) (cs ++ st) t ht
    obtain ⟨t2, e2, s2, f2⟩ := ih (fun c hc => h c (by simp [hc])) t1 s1
    refine ⟨t2, by rw [List.cons_append, e1, e2], s2, ?_⟩
    intro x k
    rw [f2, f1]
    simp only [List.mem_cons, exists_eq_or_imp]
    grind

theorem Graph.walks {m : KinModel K} (g : Graph m) {jid nJ : Nat} (hj : jid < nJ) {D : Nat}
    (hD : ∀ l n, Depth m l n → n ≤ D) (k : Nat) {l n : Nat} (hd : Depth m l n) (hk : D < n + k) :
    Walks m jid nJ l := by
  induction k generalizing l n with
  | zero => have := hD l n hd; omega
  | succ k ih =>
    intro st t ht
    have hl : l < m.links.length := hd.lt
    have hlk : m.links[l]? = some m.links[l] := by simp [hl]
    obtain ⟨t1, e1, s1, f1⟩ := RpTable.setTrue_spec (i := jid) ht hl hj
    obtain ⟨t2, e2, s2, f2⟩ := walks_list (m := m) (jid := jid) (nJ := nJ) m.links[l].childLinks.reverse (by
      intro c hc
      simp only [List.mem_reverse] at hc
      obtain ⟨ck, h1, h2⟩ := (g.children hlk).mp hc
      exact ih (.child h1 h2 hd) (by omega)) st t1 s1
    refine ⟨t2, ?_, s2, ?_⟩
    · rw [dfs]
      simp only [hlk, g.ids hlk, e1]
      exact e2
    · intro x k
      rw [f2, f1, g.anc_iff hlk]
      simp only [List.mem_reverse]
      grind

theorem exists_depth_bound (m : KinModel K) : ∃ D, ∀ l n, Depth m l n → n ≤ D := by
  have : ∀ N, ∃ D, ∀ l n, l < N → Depth m l n → n ≤ D := by
    intro N
    induction N with
    | zero => exact ⟨0, by intro l n h; omega⟩
    | succ N ih =>
      obtain ⟨D, hD⟩ := ih
      by_cases h : ∃ n, Depth m N n
      · obtain ⟨n0, hn0⟩ := h
        refine ⟨max D n0, ?_⟩
        intro l n hl hd
        by_cases e : l = N
        · subst e; rw [hd.unique hn0]; omega
        · have := hD l n (by omega) hd; omega
      · refine ⟨D, ?_⟩
        intro l n hl hd
        by_cases e : l = N
        · subst e; exact absurd ⟨n, hd⟩ h
        · exact hD l n (by omega) hd
  obtain ⟨D, hD⟩ := this m.links.length
  exact ⟨D, fun l n hd => hD l n hd.lt hd⟩

theorem Graph.walks_all {m : KinModel K} (g : Graph m) {jid nJ : Nat} (hj : jid < nJ) {l : Nat}
    (hl : l < m.links.length) : Walks m jid nJ l := by
  obtain ⟨D, hD⟩ := exists_depth_bound m
  obtain ⟨n, hd⟩ := g.depth hl
  exact g.walks hj hD (D + 1) hd (by omega)

/-- Relevance table of the right size whose entries are ancestry. -/
structure RpOK (m : KinModel K) : Prop where
  sized : m.rptable.Sized m.links.length m.joints.length
  iff : ∀ l i, m.rptable.has l i ↔ ∃ jp, m.joints[i]? = some jp ∧ OnPath m jp l

theorem rpLoop_spec {m : KinModel K} (g : Graph m) (js : List Nat) (hjs : ∀ jp ∈ js, jp ∈ m.joints)
    (t : RpTable) (ht : t.Sized m.links.length m.joints.length) :
    ∃ t', rpLoop m js t = .ok t' ∧ t'.Sized m.links.length m.joints.length ∧
      ∀ x i, t'.has x i ↔ t.has x i ∨ ∃ jp ∈ js, m.joints[i]? = some jp ∧ OnPath m jp x := by
  induction js generalizing t with
  | nil => exact ⟨t, rfl, ht, by simp⟩
  | cons jp js ih =>
    obtain ⟨i0, hi0⟩ := List.mem_iff_getElem?.mp (hjs jp (by simp))
    have hlt := (List.getElem?_eq_some_iff.mp hi0).1
    obtain ⟨j, c, lk, p, h1, h2, h3, h4, h5, h6, h7⟩ := g.joint hi0
    have hname : m.jointIds.find j.name = some i0 := (g.jointNames _ _).mpr ⟨jp, j, hi0, h1, rfl⟩
    have hcl := (List.getElem?_eq_some_iff.mp h5).1
    obtain ⟨t1, e1, s1, f1⟩ := g.walks_all hlt hcl [] t ht
    obtain ⟨t2, e2, s2, f2⟩ := ih (fun x hx => hjs x (by simp [hx])) t1 s1
    refine ⟨t2, ?_, s2, ?_⟩
    · have : dfs m.links i0 [] t1 = some (.ok t1) := by rw [dfs]
      simp only [rpLoop, derefJoint, h1, Outcome.bind_eq, Outcome.bind_ok, hname, h4, e1, this]
      exact e2
    · intro x i
      rw [f2, f1]
      have hiff : i = i0 ↔ m.joints[i]? = some jp := by
        constructor
        · rintro rfl; exact hi0
        · intro hi
          obtain ⟨j', _, _, _, a1, a2, _⟩ := g.joint hi
          rw [h1] at a1; cases a1
          rw [h2] at a2; cases a2; rfl
      rw [hiff, ← g.onPath_iff h5 h6 h7]
      simp only [List.mem_cons, exists_eq_or_imp]
      grind

theorem OnPath.congr {m m' : KinModel K} (hl : m'.links = m.links) {jp l : Nat}
    (h : OnPath m jp l) : OnPath m' jp l := by
  induction h with
  | here h1 h2 h3 => exact .here (by rw [hl]; exact h1) h2 h3
  | up h1 h2 _ ih => exact .up (by rw [hl]; exact h1) h2 ih

/-- `update_rptable` terminates on a tree and installs the ancestry table. -/
theorem updateRptable_spec {m : KinModel K} (g : Graph m) :
    ∃ t, updateRptable m = .ok () { m with rptable := t } ∧ RpOK { m with rptable := t } := by
  obtain ⟨t, e, s, f⟩ := rpLoop_spec g m.joints (fun _ h => h)
    (RpTable.mk' m.linkIds.length m.jointIds.length)
    (by rw [g.linkIdsLen, g.jointIdsLen]; exact RpTable.mk'_sized _ _)
  refine ⟨t, by simp [updateRptable, e], ⟨s, ?_⟩⟩
  intro l i
  rw [show ({ m with rptable := t } : KinModel K).rptable = t from rfl, f]
  simp only [RpTable.mk'_has, false_or]
  constructor
  · rintro ⟨jp, _, h1, h2⟩
    refine ⟨jp, h1, ?_⟩
    refine OnPath.congr ?_ h2
    rfl
  · rintro ⟨jp, h1, h2⟩
    refine ⟨jp, List.mem_of_getElem? h1, h1, ?_⟩
    refine OnPath.congr ?_ h2
    rfl

end Tinyfk
