import Verif.Proofs.History

/-!
# Name lookups, and pose queries link by link
-/

set_option linter.unusedSectionVars false

namespace Tinyfk

open Scalar

variable {K : Type} [Scalar K] {α β : Type}

theorem mapOutcome_ok_iff (f : α → Outcome β) (l : List α) (bs : List β) :
    mapOutcome f l = .ok bs ↔ List.Forall₂ (fun a b => f a = .ok b) l bs := by
  induction l generalizing bs with
  | nil => cases bs <;> simp [mapOutcome]
  | cons a l ih =>
    simp only [mapOutcome, Outcome.bind_eq]
    cases ha : f a with
    | ok b =>
      simp only [Outcome.bind_ok]
      cases hl : mapOutcome f l with
      | ok cs =>
        simp only [Outcome.bind_ok, Outcome.pure_eq, Outcome.ok.injEq]
        constructor
        · rintro rfl
          exact .cons ha ((ih cs).mp hl)
        · intro h
          cases h with
          | cons h1 h2 =>
            rw [ha] at h1; cases h1
            have := (ih _).mpr h2
            rw [hl] at this; cases this; rfl
      | exn e =>
        simp only [Outcome.bind_exn, reduceCtorEq, false_iff]
        intro h
        cases h with
        | cons h1 h2 => have := (ih _).mpr h2; rw [hl] at this; cases this
      | ub u =>
        simp only [Outcome.bind_ub, reduceCtorEq, false_iff]
        intro h
        cases h with
        | cons h1 h2 => have := (ih _).mpr h2; rw [hl] at this; cases this
      | hang =>
        simp only [Outcome.bind_hang, reduceCtorEq, false_iff]
        intro h
        cases h with
        | cons h1 h2 => have := (ih _).mpr h2; rw [hl] at this; cases this
    | exn e =>
      simp only [Outcome.bind_exn, reduceCtorEq, false_iff]
      intro h; cases h with | cons h1 h2 => rw [ha] at h1; cases h1
    | ub e =>
      simp only [Outcome.bind_ub, reduceCtorEq, false_iff]
      intro h; cases h with | cons h1 h2 => rw [ha] at h1; cases h1
    | hang =>
      simp only [Outcome.bind_hang, reduceCtorEq, false_iff]
      intro h; cases h with | cons h1 h2 => rw [ha] at h1; cases h1

/-- a lookup that throws `e a` on a miss -/
theorem mapOutcome_lookup (f : α → Option β) (e : α → Exn) (g : α → Outcome β)
    (hg : ∀ a b, f a = some b → g a = .ok b) (hg' : ∀ a, f a = none → g a = .exn (e a)) (l : List α) :
    (∃ bs, mapOutcome g l = .ok bs ∧ List.Forall₂ (fun a b => f a = some b) l bs) ∨
    ∃ a ∈ l, f a = none ∧ mapOutcome g l = .exn (e a) := by
  induction l with
  | nil => exact .inl ⟨[], rfl, .nil⟩
  | cons a l ih =>
    simp only [mapOutcome, Outcome.bind_eq]
    cases ha : f a with
    | none => exact .inr ⟨a, by simp, ha, by rw [hg' a ha]; simp⟩
    | some b =>
      rw [hg a b ha]
      rcases ih with ⟨bs, h1, h2⟩ | ⟨a', h1, h2, h3⟩
      · exact .inl ⟨b :: bs, by simp [h1], .cons ha h2⟩
      · exact .inr ⟨a', by simp [h1], h2, by simp [h3]⟩

theorem getLinkIds_cases (names : List String) (m : KinModel K) :
    (∃ ids, getLinkIds names m = .ok ids m ∧
      List.Forall₂ (fun s i => m.linkIds.find s = some i) names ids) ∨
    ∃ s ∈ names, m.linkIds.find s = none ∧
      getLinkIds names m = .exn (.invalidArgument ("no link named " ++ s)) m := by
  unfold getLinkIds Prog.read
  dsimp only
  generalize hg : (fun n => match m.linkIds.find n with
    | some i => Outcome.ok i
    | none => .exn (.invalidArgument ("no link named " ++ n))) = g
  have h1 : ∀ s i, m.linkIds.find s = some i → g s = .ok i := by
    intro s i h; rw [← hg]; simp only [h]
  have h2 : ∀ s, m.linkIds.find s = none → g s = .exn (.invalidArgument ("no link named " ++ s)) := by
    intro s h; rw [← hg]; simp only [h]
  rcases mapOutcome_lookup (fun n => m.linkIds.find n) _ g h1 h2 names with ⟨bs, h1, h2⟩ | ⟨a, h1, h2, h3⟩
  · exact .inl ⟨bs, by simp only [h1], h2⟩
  · exact .inr ⟨a, h1, h2, by simp only [h3]⟩

theorem getJointIds_cases (names : List String) (m : KinModel K) :
    (∃ ids, getJointIds names m = .ok ids m ∧
      List.Forall₂ (fun s i => m.jointIds.find s = some i) names ids) ∨
    ∃ s ∈ names, m.jointIds.find s = none ∧
      getJointIds names m = .exn (.invalidArgument ("no joint named " ++ s)) m := by
  unfold getJointIds Prog.read
  dsimp only
  generalize hg : (fun n => match m.jointIds.find n with
    | some i => Outcome.ok i
    | none => .exn (.invalidArgument ("no joint named " ++ n))) = g
  have h1 : ∀ s i, m.jointIds.find s = some i → g s = .ok i := by
    intro s i h; rw [← hg]; simp only [h]
  have h2 : ∀ s, m.jointIds.find s = none → g s = .exn (.invalidArgument ("no joint named " ++ s)) := by
    intro s h; rw [← hg]; simp only [h]
  rcases mapOutcome_lookup (fun n => m.jointIds.find n) _ g h1 h2 names with ⟨bs, h1, h2⟩ | ⟨a, h1, h2, h3⟩
  · exact .inl ⟨bs, by simp only [h1], h2⟩
  · exact .inr ⟨a, h1, h2, by simp only [h3]⟩

theorem getLinkIds_ok {names : List String} {ids : List Nat} {m m' : KinModel K} :
    getLinkIds names m = .ok ids m' ↔
      m' = m ∧ List.Forall₂ (fun s i => m.linkIds.find s = some i) names ids := by
  rcases getLinkIds_cases names m with ⟨bs, h1, h2⟩ | ⟨a, h1, h2, h3⟩
  · rw [h1]
    constructor
    · intro h; cases h; exact ⟨rfl, h2⟩
    · rintro ⟨rfl, h⟩
      have : ids = bs := by
        clear h1
        induction h2 generalizing ids with
        | nil => cases h; rfl
        | cons a _ ih =>
          cases h with
          | cons b c => rw [a] at b; cases b; rw [ih c]
      rw [this]
  · rw [h3]
    constructor
    · intro h; cases h
    · rintro ⟨_, h⟩
      exfalso
      clear h3
      induction h with
      | nil => cases h1
      | cons b c ih =>
        rcases List.mem_cons.mp h1 with rfl | h1
        · rw [h2] at b; cases b
        · exact ih h1

theorem getJointIds_ok {names : List String} {ids : List Nat} {m m' : KinModel K} :
    getJointIds names m = .ok ids m' ↔
      m' = m ∧ List.Forall₂ (fun s i => m.jointIds.find s = some i) names ids := by
  rcases getJointIds_cases names m with ⟨bs, h1, h2⟩ | ⟨a, h1, h2, h3⟩
  · rw [h1]
    constructor
    · intro h; cases h; exact ⟨rfl, h2⟩
    · rintro ⟨rfl, h⟩
      have : ids = bs := by
        clear h1
        induction h2 generalizing ids with
        | nil => cases h; rfl
        | cons a _ ih =>
          cases h with
          | cons b c => rw [a] at b; cases b; rw [ih c]
      rw [this]
  · rw [h3]
    constructor
    · intro h; cases h
    · rintro ⟨_, h⟩
      exfalso
      clear h3
      induction h with
      | nil => cases h1
      | cons b c ih =>
        rcases List.mem_cons.mp h1 with rfl | h1
        · rw [h2] at b; cases b
        · exact ih h1

theorem getLinkIds_one {s : String} {l : Nat} {m : KinModel K} :
    getLinkIds [s] m = .ok [l] m ↔ m.linkIds.find s = some l := by
  rw [getLinkIds_ok]
  simp

theorem getJointIds_one {s : String} {l : Nat} {m : KinModel K} :
    getJointIds [s] m = .ok [l] m ↔ m.jointIds.find s = some l := by
  rw [getJointIds_ok]
  simp

/-- a pose query on a link that fits the stack succeeds -/
theorem getLinkPose_fits {m : KinModel K} (ht : Tree m) (hs : CacheSized m) (hc : Coherent m)
    {l n : Nat} (hd : Depth m l n) (hn : n ≤ m.stack.data.length) :
    ∃ T m', getLinkPose l m = .ok T m' := by
  have hok : CacheOK m m.cache := ⟨hs.size, hs.pred, hs.data, hc⟩
  unfold getLinkPose
  rcases getCache_of_lt hs hd.lt with ⟨hg, _⟩ | ⟨T', hg, hp, hd⟩
  · simp only [hg]
    obtain ⟨st, tf, h', e1, e2, e3, e4, e5⟩ := upLoop_spec ht hs hc l hd
      m.stack.reset (by simpa [SizedStack.reset] using hn)
      (by simpa [SizedStack.reset] using UpPath.nil)
    obtain ⟨T', c', f1, f2, f3⟩ := downLoop_spec l st.data st.cur e3 e4 e5 hok
    refine ⟨T', { m with stack := { st with cur := 0 }, cache := c' }, ?_⟩
    simp only [getLinkPoseInner, e1, f1]
  · simp only [hg]
    exact ⟨T', m, rfl⟩

/-- on an empty cache, a link deeper than the stack overflows it -/
theorem upLoop_overflow {m : KinModel K} (ht : Tree m) (hs : CacheSized m)
    (he : ∀ l : Nat, m.cache.pred[l]? ≠ some true) {l n : Nat} (hd : Depth m l n)
    (st : SizedStack (LinkIdAndTransform K)) (hcap : st.data.length < st.cur + n) :
    upLoop m l st = .ub (.outOfBounds "SizedStack::push") ∨ st.data.length < st.cur := by
  induction hd generalizing st with
  | root _ _ => right; omega
  | @child l p n lk h1 h2 hd ih =>
    by_cases hlt : st.cur < st.data.length
    · left
      rw [upLoop]
      simp only [h1, h2, ht.ids h1]
      rcases getCache_of_lt hs (List.getElem?_eq_some_iff.mp h1).1 with ⟨hg, _⟩ | ⟨T', _, hp, _⟩
      · obtain ⟨jp, j, hj, hh, hok⟩ := ht.pjoint h1 h2
        obtain ⟨T, hT, hE⟩ := jointTransform_spec (m := m) hok
        simp only [hg, hj, hh, hT, hlt, dif_pos]
        rcases ih ⟨st.data.set st.cur ⟨l, T⟩, st.cur + 1⟩ (by simp; omega) with h | h
        · exact h
        · simp at h; omega
      · exact absurd hp (he _)
    · by_cases hlt' : st.data.length < st.cur
      · exact .inr hlt'
      · left
        rw [upLoop]
        simp only [h1, h2, ht.ids h1]
        rcases getCache_of_lt hs (List.getElem?_eq_some_iff.mp h1).1 with ⟨hg, _⟩ | ⟨T', _, hp, _⟩
        · obtain ⟨jp, j, hj, hh, hok⟩ := ht.pjoint h1 h2
          obtain ⟨T, hT, hE⟩ := jointTransform_spec (m := m) hok
          simp only [hg, hj, hh, hT, hlt, dif_neg, not_false_iff]
        · exact absurd hp (he _)

theorem getLinkPose_overflow {m : KinModel K} (ht : Tree m) (hs : CacheSized m)
    (he : ∀ l : Nat, m.cache.pred[l]? ≠ some true) {l n : Nat} (hd : Depth m l n)
    (hn : m.stack.data.length < n) : getLinkPose l m = .ub (.outOfBounds "SizedStack::push") := by
  unfold getLinkPose
  rcases getCache_of_lt hs hd.lt with ⟨hg, _⟩ | ⟨T', _, hp, _⟩
  · simp only [hg, getLinkPoseInner]
    rcases upLoop_overflow ht hs he hd m.stack.reset (by simpa [SizedStack.reset] using hn) with h | h
    · rw [h]
    · simp [SizedStack.reset] at h
  · exact absurd hp (he _)

end Tinyfk
