import Mathlib.Data.Fintype.Card
import Mathlib.Data.Fintype.EquivFin
import Verif.Spec.Cycle
import Verif.Proofs.ComLinks

/-!
# When construction ends

An invariant of the constructor that does not need the description to be a tree, and the exact
condition under which the walk of `update_rptable` ends.
-/

set_option linter.unusedSectionVars false

namespace Tinyfk

open Scalar

variable {K : Type} [Scalar K]

/-- `c` is a child of link `l` -/
def Kid (links : List (Link K)) (c l : Nat) : Prop := ∃ lk, links[l]? = some lk ∧ c ∈ lk.childLinks

/-- What holds of every state of the constructor, tree or not. -/
structure Loose (m : KinModel K) : Prop where
  ids : ∀ {l : Nat} {lk : Link K}, m.links[l]? = some lk → lk.id = l
  kids : ∀ {l : Nat} {lk : Link K}, m.links[l]? = some lk → ∀ c ∈ lk.childLinks, c < m.links.length
  linkNames : ∀ (s : String) (l : Nat),
    m.linkIds.find s = some l ↔ ∃ lk, m.links[l]? = some lk ∧ lk.name = s
  linkIdsLen : m.linkIds.length = m.links.length
  joint : ∀ jp ∈ m.joints, ∃ j i c, m.jheap[jp]? = some j ∧ m.jointIds.find j.name = some i ∧
    i < m.jointIds.length ∧ j.childLink = some c ∧ c < m.links.length

/-- the child of one of the movable joints has an endless walk below it -/
def Stuck (m : KinModel K) : Prop :=
  ∃ jp ∈ m.joints, ∃ j c, m.jheap[jp]? = some j ∧ j.childLink = some c ∧ ¬ Acc (Kid m.links) c

/-! ### The walk -/

/-- links below which there is no endless walk are worked off -/
theorem dfs_acc (links : List (Link K)) (jid nJ : Nat) (hj : jid < nJ)
    (hids : ∀ (l : Nat) (lk : Link K), links[l]? = some lk → lk.id = l)
    (hkids : ∀ (l : Nat) (lk : Link K), links[l]? = some lk → ∀ c ∈ lk.childLinks, c < links.length)
    {l : Nat} (hl : l < links.length) (ha : Acc (Kid links) l) :
    ∀ (st : List Nat) (t : RpTable), t.Sized links.length nJ →
      ∃ t', t'.Sized links.length nJ ∧ dfs links jid (l :: st) t = dfs links jid st t' := by
  induction ha with
  | intro l _ ih =>
    intro st t ht
    have hlk := List.getElem?_eq_getElem hl
    obtain ⟨t1, e1, e2, _⟩ := RpTable.setTrue_spec ht (show (links[l]).id < links.length by
      rw [hids l _ hlk]; exact hl) hj
    rw [dfs.eq_def]
    simp only [hlk, e1]
    have key : ∀ (cs : List Nat) (t : RpTable), t.Sized links.length nJ → (∀ c ∈ cs, c ∈ (links[l]).childLinks) →
        ∃ t', t'.Sized links.length nJ ∧ dfs links jid (cs ++ st) t = dfs links jid st t' := by
      intro cs
      induction cs with
      | nil => intro t ht _; exact ⟨t, ht, rfl⟩
      | cons c cs ihc =>
        intro t ht hc
        have hcm := hc c (by simp)
        obtain ⟨t2, s2, e2⟩ := ih c ⟨_, hlk, hcm⟩ (hkids l _ hlk c hcm) (cs ++ st) t ht
        obtain ⟨t3, s3, e3⟩ := ihc t2 s2 (fun c h => hc c (by simp [h]))
        exact ⟨t3, s3, by rw [List.cons_append, e2, e3]⟩
    exact key _ t1 e2 (fun c h => List.mem_reverse.mp h)

/-- below the other links the walk never ends -/
theorem dfs_not_acc (links : List (Link K)) (jid nJ : Nat) (hj : jid < nJ)
    (hids : ∀ (l : Nat) (lk : Link K), links[l]? = some lk → lk.id = l)
    (hkids : ∀ (l : Nat) (lk : Link K), links[l]? = some lk → ∀ c ∈ lk.childLinks, c < links.length)
    {l : Nat} (hl : l < links.length) (ha : ¬ Acc (Kid links) l) (t : RpTable)
    (ht : t.Sized links.length nJ) : dfs links jid [l] t = none := by
  cases hr : dfs links jid [l] t with
  | none => rfl
  | some r =>
    exfalso
    refine dfs.partial_correctness links jid
      (fun st t _ => t.Sized links.length nJ → (∀ l ∈ st, l < links.length) →
        (∃ l ∈ st, ¬ Acc (Kid links) l) → False)
      ?_ [l] t r hr ht (by simpa using hl) ⟨l, by simp, ha⟩
    intro f hf st t r h ht hst hin
    cases st with
    | nil => obtain ⟨l, hl, _⟩ := hin; cases hl
    | cons l st =>
      have hl : l < links.length := hst l (by simp)
      have hlk := List.getElem?_eq_getElem hl
      obtain ⟨t', e1, e2, _⟩ := RpTable.setTrue_spec ht (show (links[l]).id < links.length by
        rw [hids l _ hlk]; exact hl) hj
      simp only [hlk, e1] at h
      refine hf _ _ _ h e2 ?_ ?_
      · intro x hx
        rcases List.mem_append.mp hx with hx | hx
        · exact hkids l _ hlk x (List.mem_reverse.mp hx)
        · exact hst x (by simp [hx])
      · obtain ⟨x, hx, hnx⟩ := hin
        rcases List.mem_cons.mp hx with rfl | hx
        · by_contra hno
          apply hnx
          constructor
          rintro c ⟨lk, h1, h2⟩
          rw [hlk] at h1; cases h1
          by_contra hc
          exact hno ⟨c, by simp [h2], hc⟩
        · exact ⟨x, by simp [hx], hnx⟩

theorem rpLoop_loose {m : KinModel K} (hm : Loose m) : ∀ (js : List Nat), (∀ jp ∈ js, jp ∈ m.joints) →
    ∀ t : RpTable, t.Sized m.links.length m.jointIds.length →
    ((∃ jp ∈ js, ∃ j c, m.jheap[jp]? = some j ∧ j.childLink = some c ∧ ¬ Acc (Kid m.links) c) →
      rpLoop m js t = .hang) ∧
    ((¬ ∃ jp ∈ js, ∃ j c, m.jheap[jp]? = some j ∧ j.childLink = some c ∧ ¬ Acc (Kid m.links) c) →
      ∃ t', t'.Sized m.links.length m.jointIds.length ∧ rpLoop m js t = .ok t') := by
  intro js
  induction js with
  | nil => intro _ t ht; exact ⟨by rintro ⟨_, h, _⟩; simp at h, fun _ => ⟨t, ht, rfl⟩⟩
  | cons jp js ih =>
    intro hjs t ht
    obtain ⟨j, i, c, h1, h2, h3, h4, h5⟩ := hm.joint jp (hjs jp (by simp))
    have hd : derefJoint m jp = .ok j := by simp [derefJoint, h1]
    by_cases ha : Acc (Kid m.links) c
    · obtain ⟨t1, s1, e1⟩ := dfs_acc m.links i _ h3 (fun _ _ => hm.ids) (fun _ _ => hm.kids) h5 ha [] t ht
      have e2 : dfs m.links i [] t1 = some (.ok t1) := by rw [dfs.eq_def]
      have hstep : rpLoop m (jp :: js) t = rpLoop m js t1 := by
        simp only [rpLoop, hd, h2, h4, e1, e2, Outcome.bind_eq, Outcome.bind_ok]
      obtain ⟨a, b⟩ := ih (fun x hx => hjs x (by simp [hx])) t1 s1
      rw [hstep]
      constructor
      · rintro ⟨x, hx, j', c', g1, g2, g3⟩
        rcases List.mem_cons.mp hx with rfl | hx
        · rw [h1] at g1; cases g1; rw [h4] at g2; cases g2; exact absurd ha g3
        · exact a ⟨x, hx, j', c', g1, g2, g3⟩
      · intro hno
        exact b fun ⟨x, hx, r⟩ => hno ⟨x, by simp [hx], r⟩
    · have e1 := dfs_not_acc m.links i _ h3 (fun _ _ => hm.ids) (fun _ _ => hm.kids) h5 ha t ht
      refine ⟨fun _ => ?_, fun hno => absurd ⟨jp, by simp, j, c, h1, h4, ha⟩ hno⟩
      simp only [rpLoop, hd, h2, h4, e1, Outcome.bind_eq, Outcome.bind_ok]
      rfl

theorem updateRptable_loose {m : KinModel K} (hm : Loose m) :
    (Stuck m → updateRptable m = .hang) ∧
    (¬ Stuck m → ∃ t, updateRptable m = .ok () { m with rptable := t }) := by
  obtain ⟨a, b⟩ := rpLoop_loose hm m.joints (fun _ h => h) (RpTable.mk' m.linkIds.length m.jointIds.length)
    (by rw [hm.linkIdsLen]; exact RpTable.mk'_sized _ _)
  constructor
  · intro h
    simp only [updateRptable, a h]
  · intro h
    obtain ⟨t, _, e⟩ := b h
    exact ⟨t, by simp only [updateRptable, e]⟩

/-! ### Attaching a link -/

theorem Loose.attached {m : KinModel K} (hm : Loose m) {name : String} {parent : Nat} (pose : Pose K)
    (hn : m.linkIds.find name = none) (hp : parent < m.links.length) : Loose (attached m name parent pose) := by
  have hlen := attached_length m name parent pose
  refine ⟨?_, ?_, ?_, ?_, ?_⟩
  · intro l lk h
    rcases attached_cases hp h with ⟨rfl, rfl⟩ | ⟨lk0, h0, _, e, _⟩
    · rfl
    · rw [e]; exact hm.ids h0
  · intro l lk h c hc
    rw [hlen]
    rcases attached_cases hp h with ⟨rfl, rfl⟩ | ⟨lk0, h0, _, _, _, _, _, e⟩
    · simp [newLink] at hc
    · rw [e] at hc
      split at hc
      · rcases List.mem_append.mp hc with hc | hc
        · have := hm.kids h0 c hc; omega
        · simp at hc; omega
      · have := hm.kids h0 c hc; omega
  · intro s l
    show (m.linkIds.set name m.links.length).find s = some l ↔ _
    rw [NameMap.find_set]
    split
    · rename_i hs
      constructor
      · intro h
        simp only [Option.some.injEq] at h
        subst h
        exact ⟨_, attached_new hp, hs.symm⟩
      · rintro ⟨lk, h1, h2⟩
        rcases attached_cases hp h1 with ⟨rfl, rfl⟩ | ⟨lk0, h0, e, _⟩
        · rfl
        · have := (hm.linkNames name l).mpr ⟨lk0, h0, by rw [← e, h2, hs]⟩
          rw [hn] at this; cases this
    · rename_i hs
      rw [hm.linkNames]
      constructor
      · rintro ⟨lk, h1, h2⟩
        obtain ⟨lk', e1, e2, _⟩ := attached_old (name := name) (pose := pose) hp h1
        exact ⟨lk', e1, by rw [e2, h2]⟩
      · rintro ⟨lk, h1, h2⟩
        rcases attached_cases hp h1 with ⟨rfl, rfl⟩ | ⟨lk0, h0, e, _⟩
        · exact absurd h2.symm hs
        · exact ⟨lk0, h0, by rw [← e, h2]⟩
  · show (m.linkIds.set name m.links.length).length = _
    rw [NameMap.length_set, hlen, hn, hm.linkIdsLen]; rfl
  · intro jp hjp
    obtain ⟨j, i, c, h1, h2, h3, h4, h5⟩ := hm.joint jp hjp
    refine ⟨j, i, c, ?_, h2, h3, h4, by rw [hlen]; omega⟩
    show (m.jheap ++ _)[jp]? = _
    rw [List.getElem?_append_left (List.getElem?_eq_some_iff.mp h1).1]; exact h1

/-- a link without children can be added anywhere -/
theorem acc_attached {m : KinModel K} {name : String} {parent : Nat} {pose : Pose K}
    (hm : Loose m) (hp : parent < m.links.length) {l : Nat} (hl : l < m.links.length) :
    Acc (Kid (attached m name parent pose).links) l ↔ Acc (Kid m.links) l := by
  constructor
  · intro h
    induction h with
    | intro l _ ih =>
      constructor
      rintro c ⟨lk, h1, h2⟩
      refine ih c ?_ (hm.kids h1 c h2)
      refine ⟨_, (getElem?_attached hp).mpr (.inr ⟨lk, h1, rfl⟩), ?_⟩
      split <;> simp [h2]
  · intro h
    induction h with
    | intro l _ ih =>
      constructor
      rintro c ⟨lk, h1, h2⟩
      rcases attached_cases hp h1 with ⟨rfl, rfl⟩ | ⟨lk0, h0, _, _, _, _, _, e⟩
      · omega
      · have hold : c ∈ lk0.childLinks ∨ c = m.links.length := by
          rw [e] at h2
          split at h2
          · simpa using h2
          · exact .inl h2
        rcases hold with hc | rfl
        · exact ih c ⟨lk0, h0, hc⟩ (hm.kids h0 c hc)
        · constructor
          rintro d ⟨lk', g1, g2⟩
          rw [attached_new hp] at g1
          cases g1
          simp [newLink] at g2

theorem stuck_attached {m : KinModel K} {name : String} {parent : Nat} {pose : Pose K} (hm : Loose m)
    (hp : parent < m.links.length) : Stuck (attached m name parent pose) ↔ Stuck m := by
  constructor
  · rintro ⟨jp, hjp, j, c, h1, h2, h3⟩
    obtain ⟨j', i, c', g1, _, _, g4, g5⟩ := hm.joint jp hjp
    have h1' : m.jheap[jp]? = some j := by
      have : (m.jheap ++ [newFixedJoint pose])[jp]? = some j := h1
      rwa [List.getElem?_append_left (List.getElem?_eq_some_iff.mp g1).1] at this
    rw [g1] at h1'; cases h1'
    rw [g4] at h2; cases h2
    exact ⟨jp, hjp, _, _, g1, g4, fun h => h3 ((acc_attached hm hp g5).mpr h)⟩
  · rintro ⟨jp, hjp, j, c, h1, h2, h3⟩
    obtain ⟨j', i, c', g1, _, _, g4, g5⟩ := hm.joint jp hjp
    rw [g1] at h1; cases h1
    rw [g4] at h2; cases h2
    refine ⟨jp, hjp, _, _, ?_, g4, fun h => h3 ((acc_attached hm hp g5).mp h)⟩
    show (m.jheap ++ _)[jp]? = _
    rw [List.getElem?_append_left (List.getElem?_eq_some_iff.mp g1).1]; exact g1

/-! ### Setting the inertial of two links -/

theorem comAttached_cases {m' : KinModel K} {l n k : Nat} {i' : Inertial K} {lk : Link K}
    (h : (comAttached m' l n i').links[k]? = some lk) : ∃ lk', m'.links[k]? = some lk' ∧
      lk.name = lk'.name ∧ lk.id = lk'.id ∧ lk.childLinks = lk'.childLinks ∧
      lk.inertial = if k = l ∨ k = n then some i' else lk'.inertial := by
  simp only [comAttached, List.getElem?_modify, Option.map_eq_map, Option.map_eq_some_iff] at h
  obtain ⟨a, ⟨b, h1, h2⟩, h3⟩ := h
  refine ⟨b, h1, ?_⟩
  subst h2 h3
  by_cases e1 : l = k <;> by_cases e2 : n = k <;> simp [e1, e2, eq_comm (a := k)]

theorem comAttached_of {m' : KinModel K} (l n : Nat) {k : Nat} (i' : Inertial K) {lk' : Link K}
    (h : m'.links[k]? = some lk') : ∃ lk, (comAttached m' l n i').links[k]? = some lk ∧
      lk.name = lk'.name ∧ lk.childLinks = lk'.childLinks ∧
      lk.inertial = if k = l ∨ k = n then some i' else lk'.inertial := by
  have hlt : k < (comAttached m' l n i').links.length := by
    simpa [comAttached] using (List.getElem?_eq_some_iff.mp h).1
  have h1 := List.getElem?_eq_getElem hlt
  obtain ⟨lk'', g1, g2, _, g3, g4⟩ := comAttached_cases h1
  rw [h] at g1; cases g1
  exact ⟨_, h1, g2, g3, g4⟩

theorem Loose.comAttached {m : KinModel K} (hm : Loose m) (l n : Nat) (i' : Inertial K) :
    Loose (comAttached m l n i') := by
  have hlen : (Tinyfk.comAttached m l n i').links.length = m.links.length := by simp [Tinyfk.comAttached]
  refine ⟨?_, ?_, ?_, ?_, ?_⟩
  · intro k lk h
    obtain ⟨lk', h1, _, h2, _⟩ := comAttached_cases h
    rw [h2]; exact hm.ids h1
  · intro k lk h c hc
    obtain ⟨lk', h1, _, _, h2, _⟩ := comAttached_cases h
    rw [hlen]; rw [h2] at hc; exact hm.kids h1 c hc
  · intro s k
    show m.linkIds.find s = some k ↔ _
    rw [hm.linkNames]
    constructor
    · rintro ⟨lk, h1, h2⟩
      obtain ⟨lk', g1, g2, _⟩ := comAttached_of l n i' h1
      exact ⟨lk', g1, by rw [g2, h2]⟩
    · rintro ⟨lk, h1, h2⟩
      obtain ⟨lk', g1, g2, _⟩ := comAttached_cases h1
      exact ⟨lk', g1, by rw [← g2, h2]⟩
  · rw [hlen]; exact hm.linkIdsLen
  · intro jp hjp
    obtain ⟨j, i, c, h1, h2, h3, h4, h5⟩ := hm.joint jp hjp
    exact ⟨j, i, c, h1, h2, h3, h4, by rw [hlen]; exact h5⟩

theorem stuck_comAttached {m : KinModel K} (l n : Nat) (i' : Inertial K) :
    Stuck (comAttached m l n i') ↔ Stuck m := by
  have hk : ∀ c k, Kid (comAttached m l n i').links c k ↔ Kid m.links c k := by
    intro c k
    constructor
    · rintro ⟨lk, h1, h2⟩
      obtain ⟨lk', g1, _, _, g2, _⟩ := comAttached_cases h1
      exact ⟨lk', g1, by rw [← g2]; exact h2⟩
    · rintro ⟨lk, h1, h2⟩
      obtain ⟨lk', g1, _, g2, _⟩ := comAttached_of l n i' h1
      exact ⟨lk', g1, by rw [g2]; exact h2⟩
  have : Kid (comAttached m l n i').links = Kid m.links := by
    funext c k; exact propext (hk c k)
  unfold Stuck
  rw [this]
  rfl

theorem Loose.rptable {m : KinModel K} (hm : Loose m) (t : RpTable) : Loose { m with rptable := t } :=
  ⟨hm.ids, hm.kids, hm.linkNames, hm.linkIdsLen, hm.joint⟩

/-! ### The loop over the links with an inertial -/

/-- The state of the constructor when the links below `k` have been treated. -/
structure LoopState (m0 : KinModel K) (k : Nat) (m : KinModel K) : Prop where
  loose : Loose m
  stuck : Stuck m ↔ Stuck m0
  len : m0.links.length ≤ m.links.length
  rest : ∀ (l : Nat) (lk0 : Link K), k ≤ l → m0.links[l]? = some lk0 →
    ∃ lk : Link K, m.links[l]? = some lk ∧ lk.name = lk0.name ∧ lk.inertial = lk0.inertial
  names : ∀ s : String, (∃ (l : Nat) (lk : Link K), m.links[l]? = some lk ∧ lk.name = s) →
    (∃ (l : Nat) (lk : Link K), m0.links[l]? = some lk ∧ lk.name = s) ∨
    ∃ (b : Nat) (lk : Link K), b < k ∧ m0.links[b]? = some lk ∧ s = lk.name ++ "_com"
  old : ∀ s : String, (∃ (l : Nat) (lk : Link K), m0.links[l]? = some lk ∧ lk.name = s) → ∃ (l : Nat) (lk : Link K), m.links[l]? = some lk ∧ lk.name = s

theorem Loose.loopState {m : KinModel K} (h : Loose m) : LoopState m 0 m :=
  ⟨h, Iff.rfl, Nat.le_refl _, fun _ lk _ h => ⟨lk, h, rfl, rfl⟩, fun _ h => .inl h, fun _ h => h⟩

theorem LoopState.step_none {m0 m : KinModel K} {k : Nat} (h : LoopState m0 k m) (ls : List Nat)
    {lk0 : Link K} (hl : m0.links[k]? = some lk0) (hi : lk0.inertial = none) :
    addComLinks (k :: ls) m = addComLinks ls m ∧ LoopState m0 (k + 1) m := by
  obtain ⟨lk, h1, h2, h3⟩ := h.rest k lk0 (Nat.le_refl _) hl
  refine ⟨addComLinks_none h1 (by rw [h3, hi]), h.loose, h.stuck, h.len, ?_, ?_, h.old⟩
  · intro l lk0 hl
    exact h.rest l lk0 (by omega)
  · intro s hs
    rcases h.names s hs with h | ⟨b, lk, hb, r⟩
    · exact .inl h
    · exact .inr ⟨b, lk, by omega, r⟩

theorem LoopState.step_clash {m0 m : KinModel K} {k : Nat} (h : LoopState m0 k m) (ls : List Nat)
    (hc : Clash m0 k) : ∃ e m', addComLinks (k :: ls) m = .exn (.invalidArgument e) m' := by
  obtain ⟨lk0, inr, l', lk', g1, g2, g3, g4⟩ := hc
  obtain ⟨lk, h1, h2, h3⟩ := h.rest k lk0 (Nat.le_refl _) g1
  obtain ⟨l2, lk2, e1, e2⟩ := h.old _ ⟨l', lk', g3, g4⟩
  have hf := (h.loose.linkNames _ _).mpr ⟨lk2, e1, e2⟩
  exact ⟨_, _, addComLinks_exn' h1 (by rw [h3, g2]) (by rw [h2]; exact addNewLink_dup hf _ _)⟩

theorem LoopState.find_none {m0 m : KinModel K} {k : Nat} (h : LoopState m0 k m) (h0 : Loose m0) {lk0 : Link K} {inr : Inertial K}
    (hl : m0.links[k]? = some lk0) (hi : lk0.inertial = some inr) (hc : ¬ Clash m0 k) :
    m.linkIds.find (lk0.name ++ "_com") = none := by
  cases hf : m.linkIds.find (lk0.name ++ "_com") with
  | none => rfl
  | some l =>
    exfalso
    obtain ⟨lk, e1, e2⟩ := (h.loose.linkNames _ _).mp hf
    rcases h.names _ ⟨l, lk, e1, e2⟩ with ⟨l', lk', e3, e4⟩ | ⟨b, lk', hb, e3, e4⟩
    · exact hc ⟨lk0, inr, l', lk', hl, hi, e3, e4⟩
    · have := append_com_inj e4
      have h1 := (h0.linkNames lk0.name b).mpr ⟨lk', e3, this.symm⟩
      have h2 := (h0.linkNames lk0.name k).mpr ⟨lk0, hl, rfl⟩
      rw [h1] at h2
      simp at h2; omega

theorem LoopState.step_hang {m0 m : KinModel K} {k : Nat} (h : LoopState m0 k m) (h0 : Loose m0) (ls : List Nat)
    {lk0 : Link K} {inr : Inertial K} (hl : m0.links[k]? = some lk0) (hi : lk0.inertial = some inr)
    (hc : ¬ Clash m0 k) (hst : Stuck m0) : addComLinks (k :: ls) m = .hang := by
  obtain ⟨lk, h1, h2, h3⟩ := h.rest k lk0 (Nat.le_refl _) hl
  have hn := h.find_none h0 hl hi hc
  have hk : k < m.links.length := (List.getElem?_eq_some_iff.mp h1).1
  have hidk := h.loose.ids h1
  have hup := (updateRptable_loose (h.loose.attached ⟨inr.origin.position, Rot.one⟩ hn hk)).1
    ((stuck_attached h.loose hk).mpr (h.stuck.mpr hst))
  have ha : addNewLink (lk.name ++ "_com") lk.id ⟨inr.origin.position, Rot.one⟩ m = .hang := by
    rw [h2, hidk, addNewLink_run _ hn hk, Prog.bind, hup]
  simp only [addComLinks, h1, h3, hi, ha]

theorem LoopState.step_ok {m0 m : KinModel K} {k : Nat} (h : LoopState m0 k m) (h0 : Loose m0) (ls : List Nat)
    {lk0 : Link K} {inr : Inertial K} (hl : m0.links[k]? = some lk0) (hi : lk0.inertial = some inr)
    (hc : ¬ Clash m0 k) (hst : ¬ Stuck m0) :
    ∃ m', addComLinks (k :: ls) m = addComLinks ls m' ∧ LoopState m0 (k + 1) m' := by
  obtain ⟨lk, h1, h2, h3⟩ := h.rest k lk0 (Nat.le_refl _) hl
  have hn := h.find_none h0 hl hi hc
  have hk : k < m.links.length := (List.getElem?_eq_some_iff.mp h1).1
  have hidk := h.loose.ids h1
  have hla := h.loose.attached ⟨inr.origin.position, Rot.one⟩ hn hk
  have hsa := stuck_attached (name := lk0.name ++ "_com") (pose := ⟨inr.origin.position, Rot.one⟩) h.loose hk
  obtain ⟨t, hup⟩ := (updateRptable_loose hla).2 (fun hh => hst (h.stuck.mp (hsa.mp hh)))
  have ha : addNewLink (lk.name ++ "_com") lk.id ⟨inr.origin.position, Rot.one⟩ m =
      .ok m.links.length { attached m (lk0.name ++ "_com") k ⟨inr.origin.position, Rot.one⟩ with rptable := t } := by
    rw [h2, hidk, addNewLink_run _ hn hk, Prog.bind, hup]
    rfl
  refine ⟨_, addComLinks_some h1 (by rw [h3, hi]) ha, (hla.rptable t).comAttached _ _ _, ?_, ?_, ?_, ?_, ?_⟩
  · rw [stuck_comAttached]
    exact hsa.trans h.stuck
  · have := attached_length m (lk0.name ++ "_com") k ⟨inr.origin.position, Rot.one⟩
    have hle := h.len
    simp only [comAttached, List.length_modify]
    omega
  · intro l lk1 hkl hl1
    obtain ⟨lk2, g1, g2, g3⟩ := h.rest l lk1 (by omega) hl1
    obtain ⟨lk3, g4, g5, _, g6, _⟩ := attached_old (name := lk0.name ++ "_com")
      (pose := ⟨inr.origin.position, Rot.one⟩) hk g1
    obtain ⟨lk4, g7, g8, _, g9⟩ := comAttached_of
      (m' := { attached m (lk0.name ++ "_com") k ⟨inr.origin.position, Rot.one⟩ with rptable := t })
      k m.links.length inr.reset g4
    have hlm := (List.getElem?_eq_some_iff.mp g1).1
    refine ⟨lk4, g7, by rw [g8, g5, g2], ?_⟩
    rw [g9, if_neg (by omega), g6, g3]
  · rintro s ⟨l, lk1, g1, g2⟩
    obtain ⟨lk2, g3, g4, _⟩ := comAttached_cases g1
    rcases attached_cases (pose := ⟨inr.origin.position, Rot.one⟩) hk g3 with ⟨rfl, rfl⟩ | ⟨lk3, g5, g6, _⟩
    · right
      exact ⟨k, lk0, by omega, hl, by rw [← g2, g4]; rfl⟩
    · rcases h.names s ⟨l, lk3, g5, by rw [← g6, ← g4, g2]⟩ with h | ⟨b, lk, hb, r⟩
      · exact .inl h
      · exact .inr ⟨b, lk, by omega, r⟩
  · intro s hs
    obtain ⟨l, lk1, g1, g2⟩ := h.old s hs
    obtain ⟨lk3, g4, g5, _⟩ := attached_old (name := lk0.name ++ "_com")
      (pose := ⟨inr.origin.position, Rot.one⟩) hk g1
    obtain ⟨lk4, g7, g8, _⟩ := comAttached_of
      (m' := { attached m (lk0.name ++ "_com") k ⟨inr.origin.position, Rot.one⟩ with rptable := t })
      k m.links.length inr.reset g4
    exact ⟨l, lk4, g7, by rw [g8, g5, g2]⟩

/-- without an endless walk the loop ends: normally without a clash, else with an exception -/
theorem addComLinks_free {m0 : KinModel K} (h0 : Loose m0) (hst : ¬ Stuck m0) (n : Nat) :
    ∀ (k : Nat) (m : KinModel K), LoopState m0 k m → k + n = m0.links.length →
    ((∀ b, k ≤ b → ¬ Clash m0 b) → ∃ m', addComLinks (List.range' k n) m = .ok () m') ∧
    ((∃ b, k ≤ b ∧ Clash m0 b) → ∃ e m', addComLinks (List.range' k n) m = .exn (.invalidArgument e) m') := by
  induction n with
  | zero =>
    intro k m h hk
    refine ⟨fun _ => ⟨m, rfl⟩, ?_⟩
    rintro ⟨b, hb, lk0, _, _, _, h1, _⟩
    have := (List.getElem?_eq_some_iff.mp h1).1
    omega
  | succ n ih =>
    intro k m h hk
    rw [List.range'_succ]
    have hk' : k < m0.links.length := by omega
    have hl := List.getElem?_eq_getElem hk'
    by_cases hc : Clash m0 k
    · exact ⟨fun hno => absurd hc (hno k (Nat.le_refl _)), fun _ => h.step_clash _ hc⟩
    · have : ∃ m', addComLinks (k :: List.range' (k + 1) n) m = addComLinks (List.range' (k + 1) n) m' ∧
          LoopState m0 (k + 1) m' := by
        cases hi : (m0.links[k]).inertial with
        | none => exact ⟨m, h.step_none _ hl hi⟩
        | some inr => exact h.step_ok h0 _ hl hi hc hst
      obtain ⟨m', e, h'⟩ := this
      obtain ⟨a, b⟩ := ih (k + 1) m' h' (by omega)
      rw [e]
      refine ⟨fun hno => a fun b hb => hno b (by omega), ?_⟩
      rintro ⟨x, hx, hcx⟩
      refine b ⟨x, ?_, hcx⟩
      rcases Nat.lt_or_ge k x with h | h
      · omega
      · have : x = k := by omega
        subst this; exact absurd hcx hc

/-- with an endless walk the first link with an inertial decides -/
theorem addComLinks_stuck {m0 : KinModel K} (h0 : Loose m0) (hst : Stuck m0) (n : Nat) :
    ∀ (k : Nat) (m : KinModel K), LoopState m0 k m → k + n = m0.links.length →
    ((∀ b, k ≤ b → hasInertial m0 b = false) → addComLinks (List.range' k n) m = .ok () m) ∧
    (∀ b, k ≤ b → hasInertial m0 b = true → (∀ b', k ≤ b' → b' < b → hasInertial m0 b' = false) →
      (Clash m0 b → ∃ e m', addComLinks (List.range' k n) m = .exn (.invalidArgument e) m') ∧
      (¬ Clash m0 b → addComLinks (List.range' k n) m = .hang)) := by
  induction n with
  | zero =>
    intro k m h hk
    refine ⟨fun _ => rfl, ?_⟩
    intro b hb hi
    simp only [hasInertial] at hi
    rw [show m0.links[b]? = none by simp; omega] at hi
    simp at hi
  | succ n ih =>
    intro k m h hk
    rw [List.range'_succ]
    have hk' : k < m0.links.length := by omega
    have hl := List.getElem?_eq_getElem hk'
    have hdef : hasInertial m0 k = (m0.links[k]).inertial.isSome := by simp [hasInertial, hl]
    cases hi : (m0.links[k]).inertial with
    | none =>
      obtain ⟨e, h'⟩ := h.step_none (List.range' (k + 1) n) hl hi
      obtain ⟨a, b⟩ := ih (k + 1) m h' (by omega)
      rw [e]
      refine ⟨fun hno => a fun b hb => hno b (by omega), ?_⟩
      intro x hx hxi hfirst
      rcases Nat.lt_or_ge k x with hlt | hge
      · exact b x hlt hxi fun b' h1 h2 => hfirst b' (by omega) h2
      · have : x = k := by omega
        subst this
        rw [hdef, hi] at hxi; cases hxi
    | some inr =>
      refine ⟨fun hno => ?_, ?_⟩
      · have := hno k (Nat.le_refl _)
        rw [hdef, hi] at this; cases this
      · intro x hx hxi hfirst
        have : x = k := by
          rcases Nat.lt_or_ge k x with hlt | hge
          · have := hfirst k (Nat.le_refl _) hlt
            rw [hdef, hi] at this; cases this
          · omega
        subst this
        exact ⟨fun hc => h.step_clash _ hc, fun hc => h.step_hang h0 _ hl hi hc hst⟩

/-! ### The members before the loop -/

/-- the movable joints of the description, in the state before the loop -/
theorem initMembers_loose {ls : List (RawLink K)} {js : List (RawJoint K)} {mi : ModelInterface K}
    (hb : Built ls js mi) (hs : Supported js) :
    ∃ m, initMembers mi = .ok m ∧ Loose m ∧ m.links = mi.links.mapIdx (fun i l => { l with id := i }) ∧
      (∀ (jp : Nat), jp ∈ m.joints → ∃ j i c ck, mi.joints[jp]? = some j ∧ j.type.Movable ∧
        m.jheap[jp]? = some { j with id := some i, childLink := some c } ∧ mi.links[c]? = some ck ∧
        ck.name = j.childLinkName) ∧
      (∀ (k : Nat) (j : Joint K), mi.joints[k]? = some j → j.type.Movable → k ∈ m.joints) := by
  have hs' : ∀ j ∈ mi.joints, j.type = .fixed ∨ j.type.Movable := by
    intro j hj
    obtain ⟨r, hr, rfl⟩ := List.mem_map.mp (hb.jointPerm.mem_iff.mp hj)
    exact hs r hr
  have hfind := numberLinks_find 0 mi.links [] hb.linkNodup
  have hlen := numberLinks_length 0 mi.links [] hb.linkNodup (by simp [NameMap.find_nil])
  have hlinks := numberLinks_links 0 mi.links []
  have hnj := numberJoints_ok mi.joints hs' 0 0 [] []
  simp only [Nat.zero_add, List.length_nil] at hfind hlen hlinks
  have hfind' : ∀ s l, (numberLinks 0 mi.links []).2.find s = some l ↔
      ∃ lk, mi.links[l]? = some lk ∧ lk.name = s := by
    intro s l
    rw [hfind]
    simp only [NameMap.find_nil, reduceCtorEq, and_false, or_false]
    constructor
    · rintro ⟨i, lk, h1, h2, rfl⟩; exact ⟨lk, h1, h2⟩
    · rintro ⟨lk, h1, h2⟩; exact ⟨l, lk, h1, h2, rfl⟩
  have hmem : ∀ s, s ∈ mi.links.map Link.name → ∃ l lk, mi.links[l]? = some lk ∧ lk.name = s ∧
      (numberLinks 0 mi.links []).2.find s = some l := by
    intro s hs
    obtain ⟨lk, h1, h2⟩ := List.mem_map.mp hs
    obtain ⟨l, hl⟩ := List.mem_iff_getElem?.mp h1
    exact ⟨l, lk, hl, h2, (hfind' _ _).mpr ⟨lk, hl, h2⟩⟩
  obtain ⟨hp, hset, hplen, hpget⟩ := setChildLinks_ok mi.links.length (numberLinks 0 mi.links []).2
    (movPos 0 mi.joints) (heapOf 0 mi.joints) (by
      intro jp hjp
      obtain ⟨i, hi⟩ := List.mem_iff_getElem?.mp hjp
      obtain ⟨k, j, h1, h2, h3, h4⟩ := movPos_get mi.joints 0 0 hi
      obtain ⟨c, ck, a1, a2, a3⟩ := hmem _ (hb.state.ok j (List.mem_of_getElem? h2)).1
      refine ⟨{ j with id := some (0 + i) }, c, by rw [h1, Nat.zero_add]; exact h4, a3, (List.getElem?_eq_some_iff.mp a1).1⟩)
  obtain ⟨rk, hrk1, hrk2⟩ := hb.root
  have hrootfind : (numberLinks 0 mi.links []).2.find rk.name = some mi.rootLink :=
    (hfind' _ _).mpr ⟨rk, hrk1, rfl⟩
  have hllen : (numberLinks 0 mi.links []).1.length = mi.links.length := by rw [hlinks]; simp
  have hrget : (numberLinks 0 mi.links []).1[mi.rootLink]? = some { rk with id := mi.rootLink } := by
    rw [hlinks]; simp [hrk1]
  have hnl : numberLinks 0 mi.links [] = ((numberLinks 0 mi.links []).1, (numberLinks 0 mi.links []).2) := rfl
  have hjtlen : (jointTable 0 [] mi.joints).length = (movPos 0 mi.joints).length := by
    rw [jointTable_length mi.joints hb.jointNodup 0 0 [] (by simp [NameMap.find_nil])]; simp
  have hget : ∀ {l : Nat} {lk : Link K}, (numberLinks 0 mi.links []).1[l]? = some lk →
      ∃ lk0, mi.links[l]? = some lk0 ∧ lk = { lk0 with id := l } := by
    intro l lk h
    rw [hlinks] at h
    simp only [List.getElem?_mapIdx, Option.map_eq_some_iff] at h
    obtain ⟨lk0, h1, h2⟩ := h
    exact ⟨lk0, h1, h2.symm⟩
  have hheap : ∀ (jp : Nat), jp ∈ movPos 0 mi.joints → ∃ j i c ck, mi.joints[jp]? = some j ∧ j.type.Movable ∧
        hp[jp]? = some { j with id := some i, childLink := some c } ∧ mi.links[c]? = some ck ∧
        ck.name = j.childLinkName ∧ (movPos 0 mi.joints)[i]? = some jp := by
    intro jp hjp
    obtain ⟨i, hi⟩ := List.mem_iff_getElem?.mp hjp
    obtain ⟨k, j, h1, h2, h3, h4⟩ := movPos_get mi.joints 0 0 hi
    rw [Nat.zero_add] at h1 h4; subst h1
    obtain ⟨c, ck, a1, a2, a3⟩ := hmem _ (hb.state.ok j (List.mem_of_getElem? h2)).1
    refine ⟨j, i, c, ck, h2, h3, ?_, a1, a2, hi⟩
    rw [hpget _ _ h4, if_pos hjp]
    simp [a3]
  refine ⟨_, by
    unfold initMembers
    rw [hnl]
    simp only [hnj, Outcome.bind_eq, Outcome.bind_ok, hllen, List.nil_append, hset, hrget,
      NameMap.opIndex, hrootfind]
    rfl, ⟨?_, ?_, ?_, ?_, ?_⟩, hlinks, ?_, ?_⟩
  · intro l lk h
    obtain ⟨lk0, _, rfl⟩ := hget h
    rfl
  · intro l lk h c hc
    obtain ⟨lk0, h1, rfl⟩ := hget h
    obtain ⟨ck, _, h2, _⟩ := (hb.state.ch h1).mp hc
    show c < (numberLinks 0 mi.links []).1.length
    rw [hllen]
    exact (List.getElem?_eq_some_iff.mp h2).1
  · intro s l
    show (numberLinks 0 mi.links []).2.find s = some l ↔ ∃ lk, (numberLinks 0 mi.links []).1[l]? = some lk ∧ lk.name = s
    rw [hfind']
    constructor
    · rintro ⟨lk, h1, h2⟩
      exact ⟨{ lk with id := l }, by rw [hlinks]; simp [h1], h2⟩
    · rintro ⟨lk, h1, h2⟩
      obtain ⟨lk0, h3, rfl⟩ := hget h1
      exact ⟨lk0, h3, h2⟩
  · show (numberLinks 0 mi.links []).2.length = (numberLinks 0 mi.links []).1.length
    rw [hllen, hlen]
  · intro jp hjp
    obtain ⟨j, i, c, ck, h1, h2, h3, h4, h5, h6⟩ := hheap jp hjp
    have hi : i < (movPos 0 mi.joints).length := (List.getElem?_eq_some_iff.mp h6).1
    refine ⟨_, i, c, h3, ?_, ?_, rfl, ?_⟩
    · show (jointTable 0 [] mi.joints).find j.name = some i
      rw [jointTable_find mi.joints hb.jointNodup 0 0 []]
      exact .inl ⟨i, jp, j, by rw [Nat.zero_add]; exact h6, h1, rfl, by omega⟩
    · show i < (jointTable 0 [] mi.joints).length
      rw [hjtlen]; exact hi
    · show c < (numberLinks 0 mi.links []).1.length
      rw [hllen]; exact (List.getElem?_eq_some_iff.mp h4).1
  · intro jp hjp
    obtain ⟨j, i, c, ck, h1, h2, h3, h4, h5, _⟩ := hheap jp hjp
    exact ⟨j, i, c, ck, h1, h2, h3, h4, h5⟩
  · intro k j h1 h2
    obtain ⟨i, hi, _⟩ := movPos_of_get mi.joints 0 0 h1 h2
    rw [Nat.zero_add] at hi
    exact List.mem_of_getElem? hi

/-! ### Endless walks are cycles -/

/-- there is no endless walk below a link exactly when no cycle can be reached from it -/
theorem acc_iff_no_cycle (js : List (RawJoint K)) (s : String) :
    Acc (fun b a => JointStep js a b) s ↔ ¬ LeadsToCycle js s := by
  constructor
  · rintro h ⟨c, hsc, hcc⟩
    have hc : Acc (fun b a => JointStep js a b) c := by
      clear hcc
      induction hsc with
      | refl => exact h
      | tail _ hbc ih => exact Acc.inv ih hbc
    clear hsc h
    induction hc with
    | intro c _ ih =>
      obtain ⟨d, h1, h2⟩ := Relation.TransGen.head'_iff.mp hcc
      exact ih d h1 (Relation.TransGen.tail' h2 h1)
  · intro hno
    let T := { x // x ∈ s :: js.map RawJoint.childLinkName }
    let r : T → T → Prop := fun x y =>
      Relation.ReflTransGen (JointStep js) s y.1 ∧ Relation.TransGen (JointStep js) y.1 x.1
    have : Finite T := Finite.of_surjective
      (fun i : Fin (s :: js.map RawJoint.childLinkName).length => (⟨(s :: js.map RawJoint.childLinkName)[i], List.getElem_mem _⟩ : T))
      (by
        rintro ⟨x, hx⟩
        obtain ⟨i, hi, e⟩ := List.mem_iff_getElem.mp hx
        exact ⟨⟨i, hi⟩, Subtype.ext e⟩)
    have : IsTrans T r := ⟨fun x y z h1 h2 => ⟨h2.1, h2.2.trans h1.2⟩⟩
    have : Std.Irrefl r := ⟨fun x h => hno ⟨x.1, h.1, h.2⟩⟩
    have wf : WellFounded r := Finite.wellFounded_of_trans_of_irrefl r
    have key : ∀ x : T, Relation.ReflTransGen (JointStep js) s x.1 → Acc (fun b a => JointStep js a b) x.1 := by
      intro x
      induction x using wf.induction with
      | _ x ih =>
        intro hx
        constructor
        intro y hy
        have hm : y ∈ s :: js.map RawJoint.childLinkName := by
          obtain ⟨j, hj, _, rfl⟩ := hy
          exact List.mem_cons_of_mem _ (List.mem_map_of_mem hj)
        exact ih ⟨y, hm⟩ ⟨hx, .single hy⟩ (hx.tail hy)
    exact key ⟨s, by simp⟩ .refl

/-- the same walk, by numbers and by names -/
theorem acc_kid_iff {ls : List (RawLink K)} {js : List (RawJoint K)} {mi : ModelInterface K} (hb : Built ls js mi)
    {links : List (Link K)} (hl : links = mi.links.mapIdx (fun i l => { l with id := i }))
    {l : Nat} {lk : Link K} (h : mi.links[l]? = some lk) :
    Acc (Kid links) l ↔ Acc (fun b a => JointStep js a b) lk.name := by
  have hkid : ∀ {l c : Nat} {lk : Link K}, mi.links[l]? = some lk →
      (Kid links c l ↔ ∃ ck, mi.links[c]? = some ck ∧ JointStep js lk.name ck.name) := by
    intro l c lk h
    have hin : links[l]? = some { lk with id := l } := by rw [hl]; simp [h]
    constructor
    · rintro ⟨lk', h1, h2⟩
      rw [hin] at h1; cases h1
      obtain ⟨ck, j, a1, a2, a3, a4⟩ := (hb.state.ch h).mp h2
      obtain ⟨r, hr, rfl⟩ := List.mem_map.mp (hb.jointPerm.mem_iff.mp a2)
      exact ⟨ck, a1, r, hr, a3, a4⟩
    · rintro ⟨ck, a1, r, hr, a3, a4⟩
      refine ⟨_, hin, (hb.state.ch h).mpr ⟨ck, r.toJoint, a1, ?_, a3, a4⟩⟩
      exact hb.jointPerm.mem_iff.mpr (List.mem_map_of_mem hr)
  constructor
  · intro ha
    induction ha generalizing lk with
    | intro l _ ih =>
      constructor
      intro y hy
      obtain ⟨r, hr, h1, h2⟩ := hy
      have hy' := (hb.state.ok r.toJoint (hb.jointPerm.mem_iff.mpr (List.mem_map_of_mem hr))).1
      obtain ⟨ck, g1, g2⟩ := List.mem_map.mp hy'
      obtain ⟨c, hc⟩ := List.mem_iff_getElem?.mp g1
      have e : ck.name = y := g2.trans h2
      rw [← e]
      exact ih c ((hkid h).mpr ⟨ck, hc, r, hr, h1, by rw [e, h2]⟩) hc
  · intro ha
    generalize hn : lk.name = s at ha
    induction ha generalizing l lk with
    | intro s _ ih =>
      subst hn
      constructor
      intro c hc
      obtain ⟨ck, h1, h2⟩ := (hkid h).mp hc
      exact ih ck.name h2 h1 rfl

end Tinyfk
