import Verif.Proofs.AddLink
import Verif.Proofs.Build
import Verif.Spec.Desc

/-!
# The constructor on a tree description, before centre-of-mass links are added
-/

set_option linter.unusedSectionVars false

namespace Tinyfk

open Scalar

variable {K : Type} [Scalar K]

/-! ### Numbering links -/

theorem numberLinks_links (k : Nat) (ls : List (Link K)) (ids : NameMap) :
    (numberLinks k ls ids).1 = ls.mapIdx (fun i l => { l with id := k + i }) := by
  induction ls generalizing k ids with
  | nil => rfl
  | cons l ls ih =>
    simp only [numberLinks, ih, List.mapIdx_cons, Nat.add_zero, List.cons.injEq, true_and]
    congr 1; funext i x
    rw [Nat.add_right_comm, Nat.add_assoc]

theorem numberLinks_find (k : Nat) (ls : List (Link K)) (ids : NameMap)
    (hnd : (ls.map Link.name).Nodup) (s : String) (l : Nat) :
    (numberLinks k ls ids).2.find s = some l ↔
      (∃ i lk, ls[i]? = some lk ∧ lk.name = s ∧ l = k + i) ∨
      (s ∉ ls.map Link.name ∧ ids.find s = some l) := by
  induction ls generalizing k ids with
  | nil => simp [numberLinks]
  | cons a ls ih =>
    simp only [List.map_cons, List.nodup_cons] at hnd
    simp only [numberLinks]
    rw [ih _ _ hnd.2, NameMap.find_set]
    constructor
    · rintro (⟨i, lk, h1, h2, h3⟩ | ⟨h1, h2⟩)
      · exact .inl ⟨i + 1, lk, by simpa using h1, h2, by omega⟩
      · by_cases e : s = a.name
        · subst e
          simp only [if_true, Option.some.injEq] at h2
          exact .inl ⟨0, a, by simp, rfl, by omega⟩
        · rw [if_neg e] at h2
          refine .inr ⟨?_, h2⟩
          simp only [List.map_cons, List.mem_cons, not_or]
          exact ⟨e, h1⟩
    · rintro (⟨i, lk, h1, h2, h3⟩ | ⟨h1, h2⟩)
      · cases i with
        | zero =>
          simp at h1; subst h1
          refine .inr ⟨?_, ?_⟩
          · rw [← h2]; exact hnd.1
          · rw [if_pos h2.symm, h3]; simp
        | succ i =>
          exact .inl ⟨i, lk, by simpa using h1, h2, by omega⟩
      · simp only [List.map_cons, List.mem_cons, not_or] at h1
        exact .inr ⟨h1.2, by rw [if_neg h1.1]; exact h2⟩

theorem numberLinks_length (k : Nat) (ls : List (Link K)) (ids : NameMap)
    (hnd : (ls.map Link.name).Nodup) (hf : ∀ lk ∈ ls, ids.find lk.name = none) :
    (numberLinks k ls ids).2.length = ids.length + ls.length := by
  induction ls generalizing k ids with
  | nil => simp [numberLinks]
  | cons a ls ih =>
    simp only [List.map_cons, List.nodup_cons] at hnd
    simp only [numberLinks]
    rw [ih _ _ hnd.2]
    · rw [NameMap.length_set, hf a (by simp)]; simp; omega
    · intro lk hlk
      rw [NameMap.find_set, if_neg, hf lk (by simp [hlk])]
      intro e
      exact hnd.1 (e ▸ List.mem_map_of_mem hlk)

/-! ### Numbering joints -/

/-- positions of the movable joints -/
def movPos (jp : Nat) : List (Joint K) → List Nat
  | [] => []
  | j :: js => if j.type.Movable then jp :: movPos (jp + 1) js else movPos (jp + 1) js

/-- the heap with ids filled in -/
def heapOf (jid : Nat) : List (Joint K) → List (Joint K)
  | [] => []
  | j :: js => if j.type.Movable then { j with id := some jid } :: heapOf (jid + 1) js
      else j :: heapOf jid js

/-- the name table -/
def jointTable (jid : Nat) (ids : NameMap) : List (Joint K) → NameMap
  | [] => ids
  | j :: js => if j.type.Movable then jointTable (jid + 1) (ids.set j.name jid) js
      else jointTable jid ids js

theorem numberJoints_ok (js : List (Joint K)) (hs : ∀ j ∈ js, j.type = .fixed ∨ j.type.Movable)
    (jp jid : Nat) (joints : List Nat) (ids : NameMap) :
    numberJoints jp js jid joints ids =
      .ok (heapOf jid js, joints ++ movPos jp js, jointTable jid ids js) := by
  induction js generalizing jp jid joints ids with
  | nil => simp [numberJoints, heapOf, movPos, jointTable]
  | cons j js ih =>
    have ih := fun jp jid joints ids => ih (fun x hx => hs x (by simp [hx])) jp jid joints ids
    rcases hs j (by simp) with h | h | h | h
    · simp [numberJoints, h, ih, heapOf, movPos, jointTable, JointType.Movable]
    · simp [numberJoints, h, ih, heapOf, movPos, jointTable, JointType.Movable]
    · simp [numberJoints, h, ih, heapOf, movPos, jointTable, JointType.Movable]
    · simp [numberJoints, h, ih, heapOf, movPos, jointTable, JointType.Movable]

/-- an unsupported joint type makes the constructor throw -/
theorem numberJoints_exn (js : List (Joint K)) (hs : ∃ j ∈ js, j.type ≠ .fixed ∧ ¬ j.type.Movable)
    (jp jid : Nat) (joints : List Nat) (ids : NameMap) :
    numberJoints jp js jid joints ids = .exn (.invalidArgument "unsuported joint type is detected") := by
  induction js generalizing jp jid joints ids with
  | nil => simp at hs
  | cons j js ih =>
    by_cases hj : j.type ≠ .fixed ∧ ¬ j.type.Movable
    · obtain ⟨h1, h2⟩ := hj
      cases ht : j.type <;> simp_all [numberJoints, JointType.Movable]
    · obtain ⟨x, hx, h1, h2⟩ := hs
      rcases List.mem_cons.mp hx with rfl | hx
      · exact absurd ⟨h1, h2⟩ hj
      · have ih := fun jp jid joints ids => ih ⟨x, hx, h1, h2⟩ jp jid joints ids
        cases ht : j.type <;> simp_all [numberJoints, JointType.Movable]

theorem movPos_get (js : List (Joint K)) (jp jid : Nat) {i x : Nat} (h : (movPos jp js)[i]? = some x) :
    ∃ k j, x = jp + k ∧ js[k]? = some j ∧ j.type.Movable ∧
      (heapOf jid js)[k]? = some { j with id := some (jid + i) } := by
  induction js generalizing jp jid i with
  | nil => simp [movPos] at h
  | cons a js ih =>
    simp only [movPos] at h
    by_cases ha : a.type.Movable
    · rw [if_pos ha] at h
      cases i with
      | zero =>
        simp at h
        exact ⟨0, a, by omega, by simp, ha, by simp [heapOf, ha]⟩
      | succ i =>
        simp only [List.getElem?_cons_succ] at h
        obtain ⟨k, j, h1, h2, h3, h4⟩ := ih (jp + 1) (jid + 1) h
        refine ⟨k + 1, j, by omega, by simpa using h2, h3, ?_⟩
        simp only [heapOf, if_pos ha, List.getElem?_cons_succ, h4]
        simp; omega
    · rw [if_neg ha] at h
      obtain ⟨k, j, h1, h2, h3, h4⟩ := ih (jp + 1) jid h
      refine ⟨k + 1, j, by omega, by simpa using h2, h3, ?_⟩
      simp only [heapOf, if_neg ha, List.getElem?_cons_succ, h4]

theorem movPos_of_get (js : List (Joint K)) (jp jid : Nat) {k : Nat} {j : Joint K}
    (h : js[k]? = some j) (hm : j.type.Movable) :
    ∃ i, (movPos jp js)[i]? = some (jp + k) ∧
      (heapOf jid js)[k]? = some { j with id := some (jid + i) } := by
  induction js generalizing jp jid k with
  | nil => simp at h
  | cons a js ih =>
    cases k with
    | zero =>
      simp at h; subst h
      exact ⟨0, by simp [movPos, hm], by simp [heapOf, hm]⟩
    | succ k =>
      simp only [List.getElem?_cons_succ] at h
      by_cases ha : a.type.Movable
      · obtain ⟨i, h1, h2⟩ := ih (jp + 1) (jid + 1) h
        refine ⟨i + 1, ?_, ?_⟩
        · simp only [movPos, if_pos ha, List.getElem?_cons_succ, h1]; simp; omega
        · simp only [heapOf, if_pos ha, List.getElem?_cons_succ, h2]; simp; omega
      · obtain ⟨i, h1, h2⟩ := ih (jp + 1) jid h
        refine ⟨i, ?_, ?_⟩
        · simp only [movPos, if_neg ha, h1]; simp; omega
        · simp only [heapOf, if_neg ha, List.getElem?_cons_succ, h2]

theorem heapOf_fixed (js : List (Joint K)) (jid : Nat) {k : Nat} {j : Joint K}
    (h : js[k]? = some j) (hm : ¬ j.type.Movable) : (heapOf jid js)[k]? = some j := by
  induction js generalizing jid k with
  | nil => simp at h
  | cons a js ih =>
    cases k with
    | zero => simp at h; subst h; simp [heapOf, hm]
    | succ k =>
      simp only [List.getElem?_cons_succ] at h
      by_cases ha : a.type.Movable
      · simp only [heapOf, if_pos ha, List.getElem?_cons_succ]; exact ih _ h
      · simp only [heapOf, if_neg ha, List.getElem?_cons_succ]; exact ih _ h

theorem heapOf_length (js : List (Joint K)) (jid : Nat) : (heapOf jid js).length = js.length := by
  induction js generalizing jid with
  | nil => rfl
  | cons a js ih => simp only [heapOf]; split <;> simp [ih]

theorem movPos_sorted (js : List (Joint K)) (jp : Nat) :
    (movPos jp js).Pairwise (· < ·) ∧ ∀ x ∈ movPos jp js, jp ≤ x := by
  induction js generalizing jp with
  | nil => simp [movPos]
  | cons a js ih =>
    obtain ⟨h1, h2⟩ := ih (jp + 1)
    simp only [movPos]
    split
    · rw [List.pairwise_cons]
      refine ⟨⟨fun x hx => by have := h2 x hx; omega, h1⟩, ?_⟩
      intro x hx
      rcases List.mem_cons.mp hx with rfl | hx
      · omega
      · have := h2 x hx; omega
    · exact ⟨h1, fun x hx => by have := h2 x hx; omega⟩

theorem jointTable_find (js : List (Joint K)) (hnd : (js.map Joint.name).Nodup) (jid jp : Nat)
    (ids : NameMap) (s : String) (i : Nat) :
    (jointTable jid ids js).find s = some i ↔
      (∃ n k j, (movPos jp js)[n]? = some (jp + k) ∧ js[k]? = some j ∧ j.name = s ∧ i = jid + n) ∨
      ((∀ j ∈ js, j.type.Movable → j.name ≠ s) ∧ ids.find s = some i) := by
  induction js generalizing jid jp ids with
  | nil => simp [jointTable, movPos]
  | cons a js ih =>
    simp only [List.map_cons, List.nodup_cons] at hnd
    by_cases ha : a.type.Movable
    · simp only [jointTable, movPos, if_pos ha]
      rw [ih hnd.2 (jid + 1) (jp + 1), NameMap.find_set]
      constructor
      · rintro (⟨n, k, j, h1, h2, h3, h4⟩ | ⟨h1, h2⟩)
        · exact .inl ⟨n + 1, k + 1, j, by simp only [List.getElem?_cons_succ, h1]; simp; omega,
            by simpa using h2, h3, by omega⟩
        · by_cases e : s = a.name
          · subst e
            simp only [if_true, Option.some.injEq] at h2
            exact .inl ⟨0, 0, a, by simp, by simp, rfl, by omega⟩
          · rw [if_neg e] at h2
            refine .inr ⟨?_, h2⟩
            intro j hj hm
            rcases List.mem_cons.mp hj with rfl | hj
            · exact fun h => e h.symm
            · exact h1 j hj hm
      · rintro (⟨n, k, j, h1, h2, h3, h4⟩ | ⟨h1, h2⟩)
        · cases n with
          | zero =>
            simp at h1
            subst h1
            simp at h2; subst h2
            refine .inr ⟨?_, by rw [if_pos h3.symm]; simp [h4]⟩
            intro j hj _ e
            exact hnd.1 (by rw [h3, ← e]; exact List.mem_map_of_mem hj)
          | succ n =>
            simp only [List.getElem?_cons_succ] at h1
            have hge := (movPos_sorted js (jp + 1)).2 _ (List.mem_of_getElem? h1)
            cases k with
            | zero => omega
            | succ k =>
              exact .inl ⟨n, k, j, by rw [h1]; simp; omega, by simpa using h2, h3, by omega⟩
        · refine .inr ⟨fun j hj hm => h1 j (by simp [hj]) hm, ?_⟩
          rw [if_neg]
          · exact h2
          · intro e; exact h1 a (by simp) ha e.symm
    · simp only [jointTable, movPos, if_neg ha]
      rw [ih hnd.2 jid (jp + 1)]
      constructor
      · rintro (⟨n, k, j, h1, h2, h3, h4⟩ | ⟨h1, h2⟩)
        · exact .inl ⟨n, k + 1, j, by rw [h1]; simp; omega, by simpa using h2, h3, h4⟩
        · refine .inr ⟨?_, h2⟩
          intro j hj hm
          rcases List.mem_cons.mp hj with rfl | hj
          · exact absurd hm ha
          · exact h1 j hj hm
      · rintro (⟨n, k, j, h1, h2, h3, h4⟩ | ⟨h1, h2⟩)
        · have hge := (movPos_sorted js (jp + 1)).2 _ (List.mem_of_getElem? h1)
          cases k with
          | zero => omega
          | succ k => exact .inl ⟨n, k, j, by rw [h1]; simp; omega, by simpa using h2, h3, h4⟩
        · exact .inr ⟨fun j hj hm => h1 j (by simp [hj]) hm, h2⟩

theorem jointTable_length (js : List (Joint K)) (hnd : (js.map Joint.name).Nodup) (jid jp : Nat)
    (ids : NameMap) (hf : ∀ j ∈ js, ids.find j.name = none) :
    (jointTable jid ids js).length = ids.length + (movPos jp js).length := by
  induction js generalizing jid jp ids with
  | nil => simp [jointTable, movPos]
  | cons a js ih =>
    simp only [List.map_cons, List.nodup_cons] at hnd
    simp only [jointTable, movPos]
    split
    · rw [ih hnd.2 (jid + 1) (jp + 1)]
      · rw [NameMap.length_set, hf a (by simp)]; simp; omega
      · intro j hj
        rw [NameMap.find_set, if_neg, hf j (by simp [hj])]
        intro e; exact hnd.1 (e ▸ List.mem_map_of_mem hj)
    · exact ih hnd.2 jid (jp + 1) ids (fun j hj => hf j (by simp [hj]))

/-! ### Child links -/

theorem setChildLinks_ok (n : Nat) (ids : NameMap) (jps : List Nat) (h : List (Joint K))
    (hok : ∀ jp ∈ jps, ∃ j c, h[jp]? = some j ∧ ids.find j.childLinkName = some c ∧ c < n) :
    ∃ h', setChildLinks n jps h ids = .ok (h', ids) ∧ h'.length = h.length ∧
      ∀ (k : Nat) (j : Joint K), h[k]? = some j → h'[k]? = some
        (if k ∈ jps then { j with childLink := ids.find j.childLinkName } else j) := by
  induction jps generalizing h with
  | nil => exact ⟨h, by simp [setChildLinks], rfl, by simp⟩
  | cons jp jps ih =>
    obtain ⟨j, c, h1, h2, h3⟩ := hok jp (by simp)
    have hlt := (List.getElem?_eq_some_iff.mp h1).1
    obtain ⟨h', e1, e2, e3⟩ := ih (h.set jp { j with childLink := some c }) (by
      intro x hx
      obtain ⟨j', c', a1, a2, a3⟩ := hok x (by simp [hx])
      by_cases e : jp = x
      · subst e
        rw [h1] at a1; cases a1
        exact ⟨{ j with childLink := some c }, c, by simp [hlt], h2, h3⟩
      · exact ⟨j', c', by rw [List.getElem?_set_ne e]; exact a1, a2, a3⟩)
    refine ⟨h', ?_, by simpa using e2, ?_⟩
    · simp only [setChildLinks, h1, NameMap.opIndex, h2, h3, if_true]
      exact e1
    · intro k j' hk
      by_cases e : jp = k
      · subst e
        rw [h1] at hk; cases hk
        rw [e3 jp { j with childLink := some c } (by simp [hlt])]
        simp [h2]
      · rw [e3 k j' (by rw [List.getElem?_set_ne e]; exact hk)]
        have : ¬ k = jp := fun h => e h.symm
        simp [this]

/-! ### The members after construction -/

/-- What `initMembers` yields on a tree with supported joints. -/
structure Initial (mi : ModelInterface K) (m : KinModel K) : Prop where
  graph : Graph m
  links : m.links = mi.links.mapIdx (fun i l => { l with id := i })
  heapLen : m.jheap.length = mi.joints.length
  heap : ∀ {k : Nat} {j : Joint K}, mi.joints[k]? = some j → ∃ i c,
    m.jheap[k]? = some { j with id := i, childLink := c }
  joints : m.joints = movPos 0 mi.joints
  com : m.comDummy = []
  angles : m.angles = List.replicate m.joints.length 0
  base : m.base = Pose.identity
  rp : m.rptable = RpTable.mk' 0 0
  mass : m.totalMass = sumMass m.links 0
  stack : m.stack = SizedStack.mk' ⟨0, Pose.identity⟩ mi.links.length
  cache : m.cache = SizedCache.mk' Pose.identity mi.links.length
  rootId : m.rootLinkId = mi.rootLink

theorem raw_ids {ls : List (RawLink K)} {js : List (RawJoint K)} {mi : ModelInterface K}
    (hb : Built ls js mi) : ∀ j ∈ mi.joints, j.id = none ∧ j.childLink = none := by
  intro j hj
  obtain ⟨r, _, rfl⟩ := List.mem_map.mp (hb.jointPerm.mem_iff.mp hj)
  exact ⟨rfl, rfl⟩

theorem initMembers_spec {ls : List (RawLink K)} {js : List (RawJoint K)} {mi : ModelInterface K}
    (hb : Built ls js mi) (ht : IsTree js) (hs : Supported js) :
    ∃ m, initMembers mi = .ok m ∧ Initial mi m := by
  -- facts at the level of the parsed model
  have hs' : ∀ j ∈ mi.joints, j.type = .fixed ∨ j.type.Movable := by
    intro j hj
    obtain ⟨r, hr, rfl⟩ := List.mem_map.mp (hb.jointPerm.mem_iff.mp hj)
    exact hs r hr
  have hone : (mi.joints.map Joint.childLinkName).Nodup := by
    have := (hb.jointPerm.map Joint.childLinkName).nodup_iff
    rw [this, List.map_map]
    exact ht.oneParent
  obtain ⟨height, hacyc⟩ := ht.acyclic
  have hacyc' : ∀ j ∈ mi.joints, height j.parentLinkName < height j.childLinkName := by
    intro j hj
    obtain ⟨r, hr, rfl⟩ := List.mem_map.mp (hb.jointPerm.mem_iff.mp hj)
    exact hacyc r hr
  have hchildUnique : ∀ {k k' : Nat} {j j' : Joint K}, mi.joints[k]? = some j →
      mi.joints[k']? = some j' → j.childLinkName = j'.childLinkName → k = k' := by
    intro k k' j j' h1 h2 h3
    obtain ⟨l1, e1⟩ := List.getElem?_eq_some_iff.mp h1
    obtain ⟨l2, e2⟩ := List.getElem?_eq_some_iff.mp h2
    have := List.nodup_iff_injective_getElem.mp hone
    have h := @this ⟨k, by simpa using l1⟩ ⟨k', by simpa using l2⟩ (by simp [e1, e2, h3])
    simpa using h
  -- numbering
  have hfind := numberLinks_find 0 mi.links [] hb.linkNodup
  have hlen := numberLinks_length 0 mi.links [] hb.linkNodup (by simp [NameMap.find_nil])
  have hlinks := numberLinks_links 0 mi.links []
  have hnj := numberJoints_ok mi.joints hs' 0 0 [] []
  simp only [Nat.zero_add, List.length_nil] at hfind hlen hlinks
  have hfind' : ∀ s l, (numberLinks 0 mi.links []).2.find s = some l ↔
      ∃ lk, mi.links[l]? = some lk ∧ lk.name = s := by
    intro s l
    rw [hfind]
    simp only [NameMap.find_nil, reduceCtorEq, and_false, or_false]
    constructor
    · rintro ⟨i, lk, h1, h2, rfl⟩; exact ⟨lk, h1, h2⟩
    · rintro ⟨lk, h1, h2⟩; exact ⟨l, lk, h1, h2, rfl⟩
  have hmem : ∀ s, s ∈ mi.links.map Link.name → ∃ l lk, mi.links[l]? = some lk ∧ lk.name = s ∧
      (numberLinks 0 mi.links []).2.find s = some l := by
    intro s hs
    obtain ⟨lk, h1, h2⟩ := List.mem_map.mp hs
    obtain ⟨l, hl⟩ := List.mem_iff_getElem?.mp h1
    exact ⟨l, lk, hl, h2, (hfind' _ _).mpr ⟨lk, hl, h2⟩⟩
  obtain ⟨hp, hset, hplen, hpget⟩ := setChildLinks_ok mi.links.length (numberLinks 0 mi.links []).2
    (movPos 0 mi.joints) (heapOf 0 mi.joints) (by
      intro jp hjp
      obtain ⟨i, hi⟩ := List.mem_iff_getElem?.mp hjp
      obtain ⟨k, j, h1, h2, h3, h4⟩ := movPos_get mi.joints 0 0 hi
      obtain ⟨c, ck, a1, a2, a3⟩ := hmem _ (hb.state.ok j (List.mem_of_getElem? h2)).1
      refine ⟨{ j with id := some (0 + i) }, c, by rw [h1, Nat.zero_add]; exact h4, a3, (List.getElem?_eq_some_iff.mp a1).1⟩)
  obtain ⟨rk, hrk1, hrk2⟩ := hb.root
  have hrootfind : (numberLinks 0 mi.links []).2.find rk.name = some mi.rootLink :=
    (hfind' _ _).mpr ⟨rk, hrk1, rfl⟩
  have hllen : (numberLinks 0 mi.links []).1.length = mi.links.length := by rw [hlinks]; simp
  have hrget : (numberLinks 0 mi.links []).1[mi.rootLink]? = some { rk with id := mi.rootLink } := by
    rw [hlinks]; simp [hrk1]
  have hnl : numberLinks 0 mi.links [] = ((numberLinks 0 mi.links []).1, (numberLinks 0 mi.links []).2) := rfl
  refine ⟨_, by
    unfold initMembers
    rw [hnl]
    simp only [hnj, Outcome.bind_eq, Outcome.bind_ok, hllen, List.nil_append, hset, hrget,
      NameMap.opIndex, hrootfind]
    rfl, ?_⟩
  have hjtlen : (jointTable 0 [] mi.joints).length = (movPos 0 mi.joints).length := by
    rw [jointTable_length mi.joints hb.jointNodup 0 0 [] (by simp [NameMap.find_nil])]; simp
  have hget : ∀ {l : Nat} {lk : Link K}, (numberLinks 0 mi.links []).1[l]? = some lk →
      ∃ lk0, mi.links[l]? = some lk0 ∧ lk = { lk0 with id := l } := by
    intro l lk h
    rw [hlinks] at h
    simp only [List.getElem?_mapIdx, Option.map_eq_some_iff] at h
    obtain ⟨lk0, h1, h2⟩ := h
    exact ⟨lk0, h1, h2.symm⟩
  have hput : ∀ {l : Nat} {lk0 : Link K}, mi.links[l]? = some lk0 →
      (numberLinks 0 mi.links []).1[l]? = some { lk0 with id := l } := by
    intro l lk0 h
    rw [hlinks]; simp [h]
  have hheap : ∀ {k : Nat} {j : Joint K}, mi.joints[k]? = some j →
      (j.type = .fixed ∧ hp[k]? = some j) ∨
      (j.type.Movable ∧ ∃ i c ck, (movPos 0 mi.joints)[i]? = some k ∧ mi.links[c]? = some ck ∧
        ck.name = j.childLinkName ∧ hp[k]? = some { j with id := some i, childLink := some c }) := by
    intro k j hk
    by_cases hm : j.type.Movable
    · right
      obtain ⟨i, h1, h2⟩ := movPos_of_get mi.joints 0 0 hk hm
      obtain ⟨c, ck, a1, a2, a3⟩ := hmem _ (hb.state.ok j (List.mem_of_getElem? hk)).1
      simp only [Nat.zero_add] at h1 h2
      refine ⟨hm, i, c, ck, h1, a1, a2, ?_⟩
      rw [hpget k _ h2, if_pos (List.mem_of_getElem? h1)]
      simp [a3]
    · left
      rcases hs' j (List.mem_of_getElem? hk) with h | h
      · refine ⟨h, ?_⟩
        rw [hpget k _ (heapOf_fixed mi.joints 0 hk hm), if_neg]
        intro hmem'
        obtain ⟨i, hi⟩ := List.mem_iff_getElem?.mp hmem'
        obtain ⟨k', j', e1, e2, e3, _⟩ := movPos_get mi.joints 0 0 hi
        rw [Nat.zero_add] at e1; subst e1
        rw [hk] at e2; cases e2
        exact hm e3
      · exact absurd h hm
  -- depth, by induction on the height of the name
  have hdepth : ∀ (m : KinModel K), m.links = (numberLinks 0 mi.links []).1 →
      ∀ (n l : Nat) (lk0 : Link K), mi.links[l]? = some lk0 → height lk0.name ≤ n →
      ∃ d, Depth m l d := by
    intro m hm n
    have hput : ∀ {l : Nat} {lk0 : Link K}, mi.links[l]? = some lk0 →
        m.links[l]? = some { lk0 with id := l } := by
      intro l lk0 h; rw [hm]; exact hput h
    induction n with
    | zero =>
      intro l lk0 h1 h2
      rcases hb.state.par h1 with ⟨a, _, _⟩ | ⟨p, pk, k, j, a1, a2, a3, a4, a5, a6⟩
      · exact ⟨0, .root (hput h1) a⟩
      · have := hacyc' j (List.mem_of_getElem? a4)
        rw [a5] at this; omega
    | succ n ih =>
      intro l lk0 h1 h2
      rcases hb.state.par h1 with ⟨a, _, _⟩ | ⟨p, pk, k, j, a1, a2, a3, a4, a5, a6⟩
      · exact ⟨0, .root (hput h1) a⟩
      · have := hacyc' j (List.mem_of_getElem? a4)
        rw [a5, a6] at this
        obtain ⟨d, hd⟩ := ih p pk a3 (by omega)
        exact ⟨d + 1, .child (hput h1) a1 hd⟩
  refine ⟨?_, hlinks, by show hp.length = _; rw [hplen, heapOf_length], ?_, rfl, rfl,
    by show List.replicate _ _ = List.replicate _ _; rw [hjtlen], rfl, rfl, rfl, rfl, rfl, rfl⟩
  · refine ⟨?_, ?_, ?_, ?_, ?_, ?_, ?_, ?_, ?_, ?_, ?_, ?_, ?_, ?_, ?_⟩
    · intro l lk h
      obtain ⟨lk0, _, rfl⟩ := hget h
      rfl
    · intro l hl
      have hl' : l < mi.links.length := by rw [← hllen]; exact hl
      exact hdepth _ rfl _ l mi.links[l] (by simp [hl']) (Nat.le_refl _)
    · intro l p lk h1 h2
      obtain ⟨lk0, e1, rfl⟩ := hget h1
      rcases hb.state.par e1 with ⟨a, _, _⟩ | ⟨p, pk, k, j, a1, a2, a3, a4, a5, a6⟩
      · rw [a] at h2; cases h2
      · rcases hheap a4 with ⟨b1, b2⟩ | ⟨b1, i, c, ck, b2, b3, b4, b5⟩
        · exact ⟨k, j, a2, b2, .inl b1⟩
        · exact ⟨k, _, a2, b5, .inr ⟨b1, i, rfl, b2⟩⟩
    · intro l jp lk h1 h2
      obtain ⟨lk0, e1, rfl⟩ := hget h1
      rcases hb.state.par e1 with ⟨_, a, _⟩ | ⟨p, pk, k, j, a1, a2, a3, a4, a5, a6⟩
      · rw [a] at h2; cases h2
      · rw [a2] at h2; cases h2
        show jp < hp.length
        rw [hplen, heapOf_length]
        exact (List.getElem?_eq_some_iff.mp a4).1
    · intro l l' jp lk lk' h1 h2 h3 h4
      obtain ⟨x, e1, rfl⟩ := hget h1
      obtain ⟨y, f1, rfl⟩ := hget h2
      rcases hb.state.par e1 with ⟨_, a, _⟩ | ⟨p, pk, k, j, a1, a2, a3, a4, a5, a6⟩
      · rw [a] at h3; cases h3
      · rcases hb.state.par f1 with ⟨_, a, _⟩ | ⟨p', pk', k', j', b1, b2, b3, b4, b5, b6⟩
        · rw [a] at h4; cases h4
        · rw [a2] at h3; cases h3
          rw [b2] at h4; cases h4
          rw [a4] at b4; cases b4
          exact eq_of_name hb.linkNodup e1 f1 (by rw [← a5, ← b5])
    · intro l c lk h1
      obtain ⟨x, e1, rfl⟩ := hget h1
      refine (hb.state.ch (c := c) e1).trans ?_
      constructor
      · rintro ⟨ck, j, b1, b2, b3, b4⟩
        refine ⟨_, hput b1, ?_⟩
        rcases hb.state.par b1 with ⟨_, _, a⟩ | ⟨p, pk, k, j', a1, a2, a3, a4, a5, a6⟩
        · exact absurd b4 (a j b2)
        · obtain ⟨k2, hk2⟩ := List.mem_iff_getElem?.mp b2
          have := hchildUnique hk2 a4 (by rw [b4, a5])
          subst this
          rw [a4] at hk2; cases hk2
          have := eq_of_name hb.linkNodup a3 e1 (by rw [← a6, b3])
          subst this
          exact a1
      · rintro ⟨ck, b1, b2⟩
        obtain ⟨y, f1, rfl⟩ := hget b1
        rcases hb.state.par f1 with ⟨a, _, _⟩ | ⟨p, pk, k, j', a1, a2, a3, a4, a5, a6⟩
        · rw [a] at b2; cases b2
        · rw [a1] at b2; cases b2
          rw [e1] at a3; cases a3
          exact ⟨y, j', f1, List.mem_of_getElem? a4, a6, a5⟩
    · exact ⟨_, hrget, hrk2⟩
    · intro l lk h1 h2
      obtain ⟨x, e1, rfl⟩ := hget h1
      exact hb.rootUnique l x e1 h2
    · intro s l
      refine (hfind' s l).trans ?_
      constructor
      · rintro ⟨lk, h1, h2⟩; exact ⟨_, hput h1, h2⟩
      · rintro ⟨lk, h1, h2⟩
        obtain ⟨x, e1, rfl⟩ := hget h1
        exact ⟨x, e1, h2⟩
    · show (numberLinks 0 mi.links []).2.length = _
      rw [hlen]; exact hllen.symm
    · intro i jp h
      obtain ⟨k, j, e1, e2, e3, e4⟩ := movPos_get mi.joints 0 0 h
      rw [Nat.zero_add] at e1; subst e1
      rcases hheap e2 with ⟨b1, b2⟩ | ⟨b1, i', c, ck, b2, b3, b4, b5⟩
      · rw [b1] at e3; simp [JointType.Movable] at e3
      · have hi : i = i' := by
          obtain ⟨_, f1⟩ := List.getElem?_eq_some_iff.mp h
          obtain ⟨_, f2⟩ := List.getElem?_eq_some_iff.mp b2
          have hnd := (movPos_sorted mi.joints 0).1.imp (fun h => Nat.ne_of_lt h)
          exact (List.Nodup.getElem_inj_iff hnd).mp (f1.trans f2.symm)
        subst hi
        rcases hb.state.par b3 with ⟨_, _, a⟩ | ⟨p, pk, k', j', a1, a2, a3, a4, a5, a6⟩
        · exact absurd b4.symm (a j (List.mem_of_getElem? e2))
        · have := hchildUnique e2 a4 (by rw [a5, b4])
          subst this
          exact ⟨_, c, _, p, b5, rfl, b1, rfl, hput b3, a2, a1⟩
    · intro s i
      refine (jointTable_find mi.joints hb.jointNodup 0 0 [] s i).trans ?_
      simp only [NameMap.find_nil, reduceCtorEq, and_false, or_false, Nat.zero_add]
      constructor
      · rintro ⟨n, k, j, h1, h2, h3, rfl⟩
        obtain ⟨k', j', e1, e2, e3, e4⟩ := movPos_get mi.joints 0 0 h1
        rw [Nat.zero_add] at e1; subst e1
        rw [h2] at e2; cases e2
        rcases hheap h2 with ⟨b1, b2⟩ | ⟨b1, i', c, ck, b2, b3, b4, b5⟩
        · exact ⟨k, j, h1, b2, h3⟩
        · exact ⟨k, _, h1, b5, h3⟩
      · rintro ⟨jp, j, h1, h2, h3⟩
        obtain ⟨k', j', e1, e2, e3, e4⟩ := movPos_get mi.joints 0 0 h1
        rw [Nat.zero_add] at e1; subst e1
        refine ⟨i, _, j', h1, e2, ?_, rfl⟩
        rcases hheap e2 with ⟨b1, b2⟩ | ⟨b1, i', c, ck, b2, b3, b4, b5⟩
        · have : hp[jp]? = some j := h2
          rw [b2] at this; cases this; exact h3
        · have : hp[jp]? = some j := h2
          rw [b5] at this; cases this; exact h3
    · exact hjtlen
    · show (List.replicate _ _).length = _
      rw [List.length_replicate]; exact hjtlen
    · exact hjtlen
  · intro k j hk
    rcases hheap hk with ⟨b1, b2⟩ | ⟨b1, i', c, ck, b2, b3, b4, b5⟩
    · exact ⟨j.id, j.childLink, b2⟩
    · exact ⟨_, _, b5⟩

end Tinyfk
