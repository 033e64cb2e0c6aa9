import Verif.Model.Urdf
import Mathlib.Data.List.Perm.Subperm
import Mathlib.Data.List.Nodup

/-!
# What the tree-building part of `parseURDF` produces
-/

set_option linter.unusedSectionVars false

namespace Tinyfk

open Scalar

variable {K : Type} [Scalar K]

/-! ### `std::map` insertion -/

theorem insertSorted_perm {α : Type} (key : α → String) (a : α) (l : List α) :
    (insertSorted key a l).Perm (a :: l) := by
  induction l with
  | nil => simp [insertSorted]
  | cons b l ih =>
    simp only [insertSorted]
    split
    · exact .refl _
    · exact (List.Perm.cons b ih).trans (.swap a b l)

theorem insertSorted_sorted {α : Type} (key : α → String) (a : α) (l : List α)
    (hs : l.Pairwise (fun x y => key x < key y)) (hne : ∀ b ∈ l, key b ≠ key a) :
    (insertSorted key a l).Pairwise (fun x y => key x < key y) := by
  induction l with
  | nil => simp [insertSorted]
  | cons b l ih =>
    simp only [insertSorted]
    rw [List.pairwise_cons] at hs
    split
    · rename_i h
      rw [List.pairwise_cons]
      refine ⟨?_, List.pairwise_cons.mpr hs⟩
      intro c hc
      rcases List.mem_cons.mp hc with rfl | hc
      · exact h
      · exact String.lt_trans h (hs.1 c hc)
    · rename_i h
      rw [List.pairwise_cons]
      refine ⟨?_, ih hs.2 (fun c hc => hne c (by simp [hc]))⟩
      intro c hc
      rcases List.mem_cons.mp ((insertSorted_perm key a l).mem_iff.mp hc) with rfl | hc
      · exact Std.lt_of_le_of_ne (String.not_lt.mp h) (hne b (by simp))
      · exact hs.1 c hc

theorem insertAll_eq_some {α : Type} (key : α → String) (acc l : List α) {r : List α}
    (hs : acc.Pairwise (fun x y => key x < key y)) (h : insertAll key acc l = some r) :
    r.Perm (acc ++ l) ∧ r.Pairwise (fun x y => key x < key y) := by
  induction l generalizing acc with
  | nil => simp only [insertAll, Option.some.injEq] at h; subst h; simp [hs]
  | cons a l ih =>
    simp only [insertAll] at h
    split at h
    · cases h
    · rename_i hany
      have hne : ∀ b ∈ acc, key b ≠ key a := by
        intro b hb e
        apply hany
        simp only [List.any_eq_true, beq_iff_eq]
        exact ⟨b, hb, e⟩
      obtain ⟨h1, h2⟩ := ih _ (insertSorted_sorted key a acc hs hne) h
      refine ⟨h1.trans ?_, h2⟩
      have := (insertSorted_perm key a acc).append_right l
      exact this.trans (by simpa using (List.perm_middle (l₁ := acc) (l₂ := l) (a := a)).symm)

theorem insertAll_isSome {α : Type} (key : α → String) (acc l : List α)
    (hs : acc.Pairwise (fun x y => key x < key y)) :
    (insertAll key acc l).isSome ↔ ((acc ++ l).map key).Nodup := by
  induction l generalizing acc with
  | nil =>
    simp only [insertAll, List.append_nil, Option.isSome_some, true_iff]
    rw [List.Nodup, List.pairwise_map]
    exact hs.imp (fun h => String.ne_of_lt h)
  | cons a l ih =>
    simp only [insertAll]
    split
    · rename_i hany
      simp only [List.any_eq_true, beq_iff_eq] at hany
      obtain ⟨b, hb, e⟩ := hany
      simp only [Option.isSome_none, Bool.false_eq_true, false_iff]
      intro hnd
      rw [List.map_append, List.nodup_append] at hnd
      exact hnd.2.2 (key b) (List.mem_map_of_mem hb) (key a) (by simp) e
    · rename_i hany
      have hne : ∀ b ∈ acc, key b ≠ key a := by
        intro b hb e
        apply hany
        simp only [List.any_eq_true, beq_iff_eq]
        exact ⟨b, hb, e⟩
      rw [ih _ (insertSorted_sorted key a acc hs hne)]
      have hp := (insertSorted_perm key a acc).append_right l
      have hp2 : (insertSorted key a acc ++ l).Perm (acc ++ a :: l) :=
        hp.trans (by simpa using (List.perm_middle (l₁ := acc) (l₂ := l) (a := a)).symm)
      exact (hp2.map key).nodup_iff

/-! ### `initTree` -/

theorem findLink_eq_some {links : List (Link K)} (hnd : (links.map Link.name).Nodup) (s : String)
    (c : Nat) : findLink links s = some c ↔ ∃ lk, links[c]? = some lk ∧ lk.name = s := by
  unfold findLink
  constructor
  · intro h
    rw [List.findIdx?_eq_some_iff_getElem] at h
    obtain ⟨h1, h2, _⟩ := h
    exact ⟨links[c], by simp [h1], by simpa using h2⟩
  · rintro ⟨lk, h1, h2⟩
    rw [List.findIdx?_eq_some_iff_getElem]
    obtain ⟨hlt, he⟩ := List.getElem?_eq_some_iff.mp h1
    refine ⟨hlt, by simp [he, h2], ?_⟩
    intro j hj hjc
    simp only [beq_iff_eq] at hjc
    have := List.nodup_iff_injective_getElem.mp hnd
    have h3 := @this ⟨j, by simp; omega⟩ ⟨c, by simpa using hlt⟩ (by simp [hjc, he, h2])
    simp only [Fin.mk.injEq] at h3
    omega

theorem findLink_isSome {links : List (Link K)} (s : String) :
    (findLink links s).isSome ↔ ∃ lk ∈ links, lk.name = s := by
  unfold findLink
  simp [List.findIdx?_isSome]

/-- The state of the links after the joints `done` were processed. -/
structure TreeState (ns : List String) (done : List (Joint K)) (links : List (Link K)) : Prop where
  names : links.map Link.name = ns
  par : ∀ {l : Nat} {lk : Link K}, links[l]? = some lk →
    (lk.parent = none ∧ lk.parentJoint = none ∧ ∀ j ∈ done, j.childLinkName ≠ lk.name) ∨
    ∃ p pk k j, lk.parent = some p ∧ lk.parentJoint = some k ∧ links[p]? = some pk ∧
      done[k]? = some j ∧ j.childLinkName = lk.name ∧ j.parentLinkName = pk.name
  ch : ∀ {l c : Nat} {lk : Link K}, links[l]? = some lk →
    (c ∈ lk.childLinks ↔ ∃ ck j, links[c]? = some ck ∧ j ∈ done ∧ j.parentLinkName = lk.name ∧
      j.childLinkName = ck.name)
  ok : ∀ j ∈ done, j.childLinkName ∈ ns ∧ j.parentLinkName ∈ ns ∧
    j.parentLinkName ≠ "" ∧ j.childLinkName ≠ ""

theorem getElem_names {names : List String} {links : List (Link K)}
    (h : links.map Link.name = names) {l : Nat} {lk : Link K} (hl : links[l]? = some lk) :
    names[l]? = some lk.name := by
  subst h; simp [hl]

theorem eq_of_name {links : List (Link K)} (hnd : (links.map Link.name).Nodup) {a b : Nat}
    {la lb : Link K} (ha : links[a]? = some la) (hb : links[b]? = some lb) (h : la.name = lb.name) :
    a = b := by
  have h1 := (findLink_eq_some hnd la.name a).mpr ⟨la, ha, rfl⟩
  have h2 := (findLink_eq_some hnd la.name b).mpr ⟨lb, hb, h.symm⟩
  rw [h1] at h2; exact Option.some.inj h2

theorem initTreeStep_spec {names : List String} (hnd : names.Nodup) {done : List (Joint K)}
    {links links' : List (Link K)} (hs : TreeState names done links) (jt : Joint K)
    (h : initTreeStep links done.length jt = some links') :
    TreeState names (done ++ [jt]) links' := by
  have hnd' : (links.map Link.name).Nodup := by rw [hs.names]; exact hnd
  unfold initTreeStep at h
  split at h
  · cases h
  rename_i hne
  rw [not_or] at hne
  split at h
  · cases h
  rename_i c hc
  split at h
  · cases h
  rename_i p hp
  simp only [Option.some.injEq] at h
  obtain ⟨ck, hck, hcn⟩ := (findLink_eq_some hnd' _ _).mp hc
  obtain ⟨pk, hpk, hpn⟩ := (findLink_eq_some hnd' _ _).mp hp
  -- reading the result
  have hget : ∀ (l : Nat) (lk' : Link K), links'[l]? = some lk' ↔ ∃ lk, links[l]? = some lk ∧
      lk'.name = lk.name ∧ lk'.id = lk.id ∧ lk'.inertial = lk.inertial ∧
      lk'.parent = (if l = c then some p else lk.parent) ∧
      lk'.parentJoint = (if l = c then some done.length else lk.parentJoint) ∧
      lk'.childLinks = (if l = p then lk.childLinks ++ [c] else lk.childLinks) ∧
      lk'.childJoints = (if l = p then lk.childJoints ++ [done.length] else lk.childJoints) := by
    intro l lk'
    rw [← h]
    simp only [List.getElem?_modify]
    cases hl : links[l]? with
    | none => simp
    | some lk =>
      by_cases h1 : c = l
      · subst h1
        by_cases h2 : p = c
        · subst h2
          cases lk; cases lk'
          simp
          constructor
          · rintro ⟨rfl, rfl, rfl, rfl, rfl, rfl, rfl⟩; simp
          · rintro ⟨rfl, rfl, rfl, rfl, rfl, rfl, rfl⟩; simp
        · have h2' : ¬ c = p := fun e => h2 e.symm
          cases lk; cases lk'
          simp [h2, h2']
          constructor
          · rintro ⟨rfl, rfl, rfl, rfl, rfl, rfl, rfl⟩; simp
          · rintro ⟨rfl, rfl, rfl, rfl, rfl, rfl, rfl⟩; simp
      · have h1' : ¬ l = c := fun e => h1 e.symm
        by_cases h2 : p = l
        · subst h2
          cases lk; cases lk'
          simp [h1, h1']
          constructor
          · rintro ⟨rfl, rfl, rfl, rfl, rfl, rfl, rfl⟩; simp
          · rintro ⟨rfl, rfl, rfl, rfl, rfl, rfl, rfl⟩; simp
        · have h2' : ¬ l = p := fun e => h2 e.symm
          cases lk; cases lk'
          simp [h1, h1', h2, h2']
          constructor
          · rintro ⟨rfl, rfl, rfl, rfl, rfl, rfl, rfl⟩; simp
          · rintro ⟨rfl, rfl, rfl, rfl, rfl, rfl, rfl⟩; simp
  have hold : ∀ (l : Nat) (lk : Link K), links[l]? = some lk → ∃ lk', links'[l]? = some lk' ∧ lk'.name = lk.name := by
    intro l lk hl
    have : ∃ lk', links'[l]? = some lk' := by
      have h1 := (List.getElem?_eq_some_iff.mp hl).1
      have h2 : l < links'.length := by rw [← h]; simpa using h1
      exact ⟨links'[l], by simp [h2]⟩
    obtain ⟨lk', hl'⟩ := this
    obtain ⟨lk2, e1, e2, _⟩ := (hget l lk').mp hl'
    rw [hl] at e1; cases e1
    exact ⟨lk', hl', e2⟩
  refine ⟨?_, ?_, ?_, ?_⟩
  · rw [← hs.names, ← h]
    apply List.ext_getElem?
    intro i
    simp only [List.getElem?_map, List.getElem?_modify]
    cases links[i]? with
    | none => simp
    | some lk => simp; split <;> split <;> rfl
  · intro l lk' hl'
    obtain ⟨lk, hl, e1, e2, e3, e4, e5, e6, e7⟩ := (hget l lk').mp hl'
    by_cases hlc : l = c
    · subst hlc
      rw [hl] at hck; cases hck
      obtain ⟨pk', hpk', hpn'⟩ := hold p pk hpk
      right
      refine ⟨p, pk', done.length, jt, by rw [e4]; simp, by rw [e5]; simp, hpk', by simp, ?_, ?_⟩
      · rw [e1]; exact hcn.symm
      · rw [hpn']; exact hpn.symm
    · rw [if_neg hlc] at e4 e5
      rcases hs.par hl with ⟨a1, a2, a3⟩ | ⟨p', pk', k, j, a1, a2, a3, a4, a5, a6⟩
      · left
        refine ⟨e4.trans a1, e5.trans a2, ?_⟩
        intro j hj
        rcases List.mem_append.mp hj with hj | hj
        · rw [e1]; exact a3 j hj
        · simp only [List.mem_singleton] at hj
          subst hj
          rw [e1]
          intro e
          exact hlc (eq_of_name hnd' hl hck (by rw [hcn]; exact e.symm))
      · right
        obtain ⟨pk'', b1, b2⟩ := hold p' pk' a3
        refine ⟨p', pk'', k, j, e4.trans a1, e5.trans a2, b1, ?_, by rw [e1]; exact a5, by rw [b2]; exact a6⟩
        rw [List.getElem?_append_left (List.getElem?_eq_some_iff.mp a4).1]; exact a4
  · intro l x lk' hl'
    obtain ⟨lk, hl, e1, e2, e3, e4, e5, e6, e7⟩ := (hget l lk').mp hl'
    have hch := hs.ch (c := x) hl
    constructor
    · intro hx
      rw [e6] at hx
      have hcase : x ∈ lk.childLinks ∨ (l = p ∧ x = c) := by
        by_cases hlp : l = p
        · rw [if_pos hlp] at hx
          rcases List.mem_append.mp hx with hx | hx
          · exact .inl hx
          · exact .inr ⟨hlp, by simpa using hx⟩
        · rw [if_neg hlp] at hx; exact .inl hx
      rcases hcase with hx | ⟨rfl, rfl⟩
      · obtain ⟨xk, j, b1, b2, b3, b4⟩ := hch.mp hx
        obtain ⟨xk', c1, c2⟩ := hold x xk b1
        exact ⟨xk', j, c1, by simp [b2], by rw [e1]; exact b3, by rw [c2]; exact b4⟩
      · obtain ⟨xk', c1, c2⟩ := hold x ck hck
        rw [hl] at hpk; cases hpk
        exact ⟨xk', jt, c1, by simp, by rw [e1]; exact hpn.symm, by rw [c2]; exact hcn.symm⟩
    · rintro ⟨xk', j, b1, b2, b3, b4⟩
      obtain ⟨xk, hx, f1, _⟩ := (hget x xk').mp b1
      rw [e6]
      rcases List.mem_append.mp b2 with b2 | b2
      · have := hch.mpr ⟨xk, j, hx, b2, by rw [← e1]; exact b3, by rw [← f1]; exact b4⟩
        split
        · simp [this]
        · exact this
      · simp only [List.mem_singleton] at b2
        subst b2
        have h1 : l = p := eq_of_name hnd' hl hpk (by rw [hpn, b3, e1])
        have h2 : x = c := eq_of_name hnd' hx hck (by rw [hcn, b4, f1])
        rw [if_pos h1, h2]; simp
  · intro j hj
    rcases List.mem_append.mp hj with hj | hj
    · exact hs.ok j hj
    · simp only [List.mem_singleton] at hj
      subst hj
      refine ⟨?_, ?_, hne.1, hne.2⟩
      · rw [← hcn]; exact List.mem_of_getElem? (getElem_names hs.names hck)
      · rw [← hpn]; exact List.mem_of_getElem? (getElem_names hs.names hpk)

theorem initTreeStep_isSome {names : List String} {done : List (Joint K)}
    {links : List (Link K)} (hs : TreeState names done links) (n : Nat) (jt : Joint K) :
    (initTreeStep links n jt).isSome ↔ jt.parentLinkName ≠ "" ∧ jt.childLinkName ≠ "" ∧
      jt.childLinkName ∈ names ∧ jt.parentLinkName ∈ names := by
  have hm : ∀ s, s ∈ names ↔ (findLink links s).isSome := by
    intro s
    rw [findLink_isSome, ← hs.names]; simp
  rw [hm, hm]
  unfold initTreeStep
  split
  · rename_i h; simp; tauto
  · rename_i h
    rw [not_or] at h
    cases findLink links jt.childLinkName with
    | none => simp
    | some c => cases findLink links jt.parentLinkName with
      | none => simp
      | some p => simp [h]

theorem initTree_spec {names : List String} (hnd : names.Nodup) (todo done : List (Joint K))
    {links links' : List (Link K)} (hs : TreeState names done links)
    (h : initTree links done.length todo = some links') :
    TreeState names (done ++ todo) links' := by
  induction todo generalizing done links with
  | nil => simp only [initTree, Option.some.injEq] at h; subst h; simpa using hs
  | cons jt js ih =>
    simp only [initTree] at h
    split at h
    · cases h
    · rename_i l1 h1
      have := ih (done ++ [jt]) (initTreeStep_spec hnd hs jt h1) (by simpa using h)
      simpa using this

theorem initTree_isSome {names : List String} (hnd : names.Nodup) (todo done : List (Joint K))
    {links : List (Link K)} (hs : TreeState names done links) :
    (initTree links done.length todo).isSome ↔ ∀ j ∈ todo, j.parentLinkName ≠ "" ∧
      j.childLinkName ≠ "" ∧ j.childLinkName ∈ names ∧ j.parentLinkName ∈ names := by
  induction todo generalizing done links with
  | nil => simp [initTree]
  | cons jt js ih =>
    simp only [initTree]
    have h0 := initTreeStep_isSome hs done.length jt
    split
    · rename_i h1
      rw [h1] at h0
      simp only [Option.isSome_none, Bool.false_eq_true, false_iff, List.mem_cons, forall_eq_or_imp,
        not_and] at h0 ⊢
      intro a; exact absurd a.2.2.2 (h0 a.1 a.2.1 a.2.2.1)
    · rename_i l1 h1
      rw [h1] at h0
      simp only [Option.isSome_some, true_iff] at h0
      have := ih (done ++ [jt]) (initTreeStep_spec hnd hs jt h1)
      simp only [List.length_append, List.length_cons, List.length_nil, Nat.zero_add] at this
      rw [this]
      simp only [List.mem_cons, forall_eq_or_imp]
      exact ⟨fun h => ⟨h0, h⟩, fun h => h.2⟩

/-- inertials survive tree building -/
theorem initTree_inertial (todo : List (Joint K)) (n : Nat) {links links' : List (Link K)}
    (h : initTree links n todo = some links') :
    links'.map Link.inertial = links.map Link.inertial := by
  induction todo generalizing n links with
  | nil => simp only [initTree, Option.some.injEq] at h; subst h; rfl
  | cons jt js ih =>
    simp only [initTree] at h
    split at h
    · cases h
    · rename_i l1 h1
      rw [ih _ h]
      unfold initTreeStep at h1
      split at h1
      · cases h1
      split at h1
      · cases h1
      split at h1
      · cases h1
      simp only [Option.some.injEq] at h1
      rw [← h1]
      apply List.ext_getElem?
      intro i
      simp only [List.getElem?_map, List.getElem?_modify]
      cases links[i]? with
      | none => simp
      | some lk => simp; split <;> split <;> rfl

/-- `initRoot` finds the link without parent when there is exactly one. -/
theorem initRoot_eq_some {links : List (Link K)} (r : Nat) :
    initRoot links = some r ↔
      (∃ lk, links[r]? = some lk ∧ lk.parent = none) ∧
      ∀ (l : Nat) (lk : Link K), links[l]? = some lk → lk.parent = none → l = r := by
  unfold initRoot
  have hmem : ∀ l, l ∈ (List.range links.length).filter
      (fun i => (links[i]?.bind Link.parent).isNone) ↔
      ∃ lk, links[l]? = some lk ∧ lk.parent = none := by
    intro l
    simp only [List.mem_filter, List.mem_range]
    constructor
    · rintro ⟨h1, h2⟩
      refine ⟨links[l], by simp [h1], ?_⟩
      simpa [h1] using h2
    · rintro ⟨lk, h1, h2⟩
      refine ⟨(List.getElem?_eq_some_iff.mp h1).1, by simp [h1, h2]⟩
  have hnd : ((List.range links.length).filter
      (fun i => (links[i]?.bind Link.parent).isNone)).Nodup := List.nodup_range.filter _
  revert hmem hnd
  generalize (List.range links.length).filter (fun i => (links[i]?.bind Link.parent).isNone) = F
  intro hmem hnd
  constructor
  · intro h
    split at h
    · cases h
      refine ⟨(hmem r).mp (by simp), ?_⟩
      intro l lk h1 h2
      have := (hmem l).mpr ⟨lk, h1, h2⟩
      simpa using this
    · cases h
  · rintro ⟨h1, h2⟩
    have hr := (hmem r).mpr h1
    have hall : ∀ x ∈ F, x = r := by
      intro x hx
      obtain ⟨lk, a, b⟩ := (hmem x).mp hx
      exact h2 x lk a b
    match F, hr, hall, hnd with
    | [x], hr, hall, _ => simp at hr; simp [hr]
    | x :: y :: t, hr, hall, hnd =>
      exfalso
      have hx := hall x (by simp)
      have hy := hall y (by simp)
      rw [hx, hy] at hnd
      simp at hnd

/-- Everything known about a model built by `buildModel`. -/
structure Built (ls : List (RawLink K)) (js : List (RawJoint K)) (mi : ModelInterface K) : Prop where
  state : TreeState (mi.links.map Link.name) mi.joints mi.links
  linkNodup : (mi.links.map Link.name).Nodup
  linkSorted : (mi.links.map Link.name).Pairwise (· < ·)
  jointNodup : (mi.joints.map Joint.name).Nodup
  jointSorted : (mi.joints.map Joint.name).Pairwise (· < ·)
  linkPerm : (mi.links.map fun l => (l.name, l.inertial)).Perm (ls.map fun l => (l.name, l.inertial))
  jointPerm : mi.joints.Perm (js.map RawJoint.toJoint)
  root : ∃ lk, mi.links[mi.rootLink]? = some lk ∧ lk.parent = none
  rootUnique : ∀ (l : Nat) (lk : Link K), mi.links[l]? = some lk → lk.parent = none → l = mi.rootLink

theorem treeState_init {links : List (Link K)} (h : ∀ lk ∈ links, lk.parent = none ∧
    lk.parentJoint = none ∧ lk.childLinks = []) :
    TreeState (links.map Link.name) ([] : List (Joint K)) links := by
  refine ⟨rfl, ?_, ?_, ?_⟩
  · intro l lk hl
    obtain ⟨a, b, _⟩ := h lk (List.mem_of_getElem? hl)
    exact .inl ⟨a, b, by simp⟩
  · intro l c lk hl
    obtain ⟨_, _, a⟩ := h lk (List.mem_of_getElem? hl)
    simp [a]
  · simp

theorem toLink_fresh (ls : List (RawLink K)) {links : List (Link K)}
    (hp : links.Perm (ls.map RawLink.toLink)) : ∀ lk ∈ links, lk.parent = none ∧
    lk.parentJoint = none ∧ lk.childLinks = [] := by
  intro lk hlk
  obtain ⟨r, _, rfl⟩ := List.mem_map.mp (hp.mem_iff.mp hlk)
  exact ⟨rfl, rfl, rfl⟩

theorem buildModel_spec {ls : List (RawLink K)} {js : List (RawJoint K)} {mi : ModelInterface K}
    (h : buildModel ls js = some mi) : Built ls js mi := by
  unfold buildModel at h
  split at h
  · cases h
  rename_i links hl
  split at h
  · cases h
  split at h
  · cases h
  rename_i joints hj
  split at h
  · cases h
  rename_i links' ht
  split at h
  · cases h
  rename_i r hr
  simp only [Option.some.injEq] at h
  subst h
  obtain ⟨p1, s1⟩ := insertAll_eq_some _ _ _ .nil hl
  obtain ⟨p2, s2⟩ := insertAll_eq_some _ _ _ .nil hj
  simp only [List.nil_append] at p1 p2
  have s1' : (links.map Link.name).Pairwise (· < ·) := List.pairwise_map.mpr s1
  have s2' : (joints.map Joint.name).Pairwise (· < ·) := List.pairwise_map.mpr s2
  have hnd : (links.map Link.name).Nodup := s1'.imp (fun h => String.ne_of_lt h)
  have st := initTree_spec hnd joints [] (treeState_init (toLink_fresh ls p1)) (by simpa using ht)
  simp only [List.nil_append] at st
  obtain ⟨r1, r2⟩ := (initRoot_eq_some r).mp hr
  refine ⟨?_, ?_, ?_, s2'.imp (fun h => String.ne_of_lt h), s2', ?_, p2, r1, r2⟩
  · dsimp only; rw [st.names]; exact st
  · dsimp only; rw [st.names]; exact hnd
  · dsimp only; rw [st.names]; exact s1'
  · dsimp only
    have hz : links'.map (fun l => (l.name, l.inertial)) = links.map (fun l => (l.name, l.inertial)) := by
      have e1 := st.names
      have e2 := initTree_inertial joints 0 ht
      apply List.ext_getElem?
      intro i
      have f1 := congrArg (fun l => l[i]?) e1
      have f2 := congrArg (fun l => l[i]?) e2
      simp only [List.getElem?_map] at f1 f2 ⊢
      cases h1 : links'[i]? <;> cases h2 : links[i]? <;> simp_all
    rw [hz]
    have := p1.map (fun l : Link K => (l.name, l.inertial))
    rw [List.map_map] at this
    exact this

/-- Exactly which element lists are accepted. -/
theorem buildModel_isSome (ls : List (RawLink K)) (js : List (RawJoint K)) :
    (buildModel ls js).isSome ↔
      (ls.map RawLink.name).Nodup ∧ (js.map RawJoint.name).Nodup ∧ ls ≠ [] ∧
      (∀ j ∈ js, j.parentLinkName ≠ "" ∧ j.childLinkName ≠ "" ∧
        j.childLinkName ∈ ls.map RawLink.name ∧ j.parentLinkName ∈ ls.map RawLink.name) ∧
      ∃! r, r ∈ ls.map RawLink.name ∧ ∀ j ∈ js, j.childLinkName ≠ r := by
  have hl0 := insertAll_isSome Link.name [] (ls.map RawLink.toLink) .nil
  have hj0 := insertAll_isSome Joint.name [] (js.map RawJoint.toJoint) .nil
  have e1 : (([] ++ ls.map RawLink.toLink).map Link.name) = ls.map RawLink.name := by
    simp [RawLink.toLink, Function.comp_def]
  have e2 : (([] ++ js.map RawJoint.toJoint).map Joint.name) = js.map RawJoint.name := by
    simp [RawJoint.toJoint, Function.comp_def]
  rw [e1] at hl0
  rw [e2] at hj0
  rw [← hl0, ← hj0]
  unfold buildModel
  cases hl : insertAll Link.name [] (ls.map RawLink.toLink) with
  | none => simp
  | some links =>
    obtain ⟨p1, s1⟩ := insertAll_eq_some _ _ _ .nil hl
    simp only [List.nil_append] at p1
    have s1' : (links.map Link.name).Pairwise (· < ·) := List.pairwise_map.mpr s1
    have hnd : (links.map Link.name).Nodup := s1'.imp (fun h => String.ne_of_lt h)
    have hnames : ∀ s, s ∈ links.map Link.name ↔ s ∈ ls.map RawLink.name := by
      intro s
      have := (p1.map Link.name).mem_iff (a := s)
      rw [this]; simp [RawLink.toLink]
    have hemp : links.isEmpty = true ↔ ls = [] := by
      rw [List.isEmpty_iff]
      constructor
      · rintro rfl
        have := p1.length_eq
        simp at this
        exact List.eq_nil_of_length_eq_zero this.symm
      · rintro rfl
        simpa using p1
    simp only [Option.isSome_some, true_and]
    by_cases h0 : links.isEmpty = true
    · simp [h0, hemp.mp h0]
    · have h0' : ls ≠ [] := fun e => h0 (hemp.mpr e)
      rw [if_neg h0]
      simp only [ne_eq, h0', not_false_eq_true, true_and]
      cases hj : insertAll Joint.name [] (js.map RawJoint.toJoint) with
      | none => simp
      | some joints =>
        obtain ⟨p2, s2⟩ := insertAll_eq_some _ _ _ .nil hj
        simp only [List.nil_append] at p2
        simp only [Option.isSome_some, true_and]
        have hjm : ∀ P : Joint K → Prop, (∀ j ∈ joints, P j) ↔ ∀ j ∈ js, P j.toJoint := by
          intro P
          constructor
          · intro h j hj
            exact h _ (p2.mem_iff.mpr (List.mem_map_of_mem hj))
          · intro h j hj
            obtain ⟨r, hr, rfl⟩ := List.mem_map.mp (p2.mem_iff.mp hj)
            exact h r hr
        have st0 := treeState_init (K := K) (toLink_fresh ls p1)
        have ht := initTree_isSome hnd joints [] st0
        rw [hjm] at ht
        simp only [List.length_nil, RawJoint.toJoint] at ht
        simp only [hnames] at ht
        rw [← ht]
        cases hi : initTree links 0 joints with
        | none => simp
        | some links' =>
          simp only [Option.isSome_some, true_and]
          have st := initTree_spec hnd joints [] st0 (by simpa using hi)
          simp only [List.nil_append] at st
          have hnd' : (links'.map Link.name).Nodup := by rw [st.names]; exact hnd
          have hroot : ∀ (l : Nat) (lk : Link K), links'[l]? = some lk →
              (lk.parent = none ↔ ∀ j ∈ js, j.childLinkName ≠ lk.name) := by
            intro l lk hlk
            have hx : (∀ j ∈ joints, j.childLinkName ≠ lk.name) ↔
                ∀ j ∈ js, j.childLinkName ≠ lk.name := hjm (fun j => j.childLinkName ≠ lk.name)
            rw [← hx]
            rcases st.par hlk with ⟨a, _, b⟩ | ⟨p, pk, k, j, a, _, _, b, c, _⟩
            · exact ⟨fun _ => b, fun _ => a⟩
            · simp only [a, reduceCtorEq, ne_eq, false_iff]
              intro h
              exact h j (List.mem_of_getElem? b) c
          have hget : ∀ s, s ∈ ls.map RawLink.name ↔ ∃ (l : Nat) (lk : Link K), links'[l]? = some lk ∧ lk.name = s := by
            intro s
            rw [← hnames, ← st.names]
            constructor
            · intro h
              obtain ⟨lk, h1, h2⟩ := List.mem_map.mp h
              obtain ⟨l, hl⟩ := List.mem_iff_getElem?.mp h1
              exact ⟨l, lk, hl, h2⟩
            · rintro ⟨l, lk, h1, h2⟩
              exact List.mem_map.mpr ⟨lk, List.mem_of_getElem? h1, h2⟩
          constructor
          · intro h
            cases hr : initRoot links' with
            | none => rw [hr] at h; simp at h
            | some r =>
              obtain ⟨⟨rk, a1, a2⟩, a3⟩ := (initRoot_eq_some r).mp hr
              refine ⟨rk.name, ⟨(hget _).mpr ⟨r, rk, a1, rfl⟩, (hroot r rk a1).mp a2⟩, ?_⟩
              rintro s ⟨b1, b2⟩
              obtain ⟨l, lk, c1, c2⟩ := (hget s).mp b1
              have := a3 l lk c1 ((hroot l lk c1).mpr (by rw [c2]; exact b2))
              subst this
              rw [a1] at c1; cases c1; exact c2.symm
          · rintro ⟨s, ⟨b1, b2⟩, b3⟩
            obtain ⟨l, lk, c1, c2⟩ := (hget s).mp b1
            have : initRoot links' = some l := by
              rw [initRoot_eq_some]
              refine ⟨⟨lk, c1, (hroot l lk c1).mpr (by rw [c2]; exact b2)⟩, ?_⟩
              intro l' lk' d1 d2
              have := b3 lk'.name ⟨(hget _).mpr ⟨l', lk', d1, rfl⟩, (hroot l' lk' d1).mp d2⟩
              exact eq_of_name hnd' d1 c1 (by rw [this, c2])
            rw [this]; rfl

end Tinyfk
