import Verif.Spec.Containers

/-!
# Properties: the containers

C53, C54.
-/

namespace Tinyfk

variable {D E : Type}

/-- the cache stands for the partial map -/
structure CacheRel (c : SizedCache D) (p : PMap D) : Prop where
  size : c.size = p.size
  pred : c.pred.length = p.size
  data : c.data.length = p.size
  val : ∀ i, i < p.size → (p.val i = none ∧ c.pred[i]? = some false) ∨
    ∃ d, p.val i = some d ∧ c.pred[i]? = some true ∧ c.data[i]? = some d

theorem CacheRel.clear {c : SizedCache D} {p : PMap D} (h : CacheRel c p) :
    CacheRel c.clear ⟨p.size, fun _ => none⟩ := by
  refine ⟨h.size, by simp [SizedCache.clear, h.size], h.data, ?_⟩
  intro i hi
  left
  have hi' : i < p.size := hi
  simp [SizedCache.clear, h.size, hi']

theorem CacheRel.run {dflt : D} (ops : List (CacheOp D)) {c : SizedCache D} {p : PMap D}
    (h : CacheRel c p) :
    match p.run ops with
    | some outs => c.run dflt ops = .ok outs
    | none => ∃ u, c.run dflt ops = .ub u := by
  induction ops generalizing c p with
  | nil => simp [PMap.run, SizedCache.run]
  | cons op ops ih =>
    cases op with
    | set i d =>
      simp only [PMap.run, SizedCache.run]
      by_cases hi : i < p.size
      · have hrel : CacheRel (⟨c.size, c.data.set i d, c.pred.set i true⟩ : SizedCache D)
            ⟨p.size, fun k => if k = i then some d else p.val k⟩ := by
          refine ⟨h.size, by simp [h.pred], by simp [h.data], ?_⟩
          intro k hk
          have hk' : k < p.size := hk
          by_cases hki : k = i
          · subst hki
            right
            exact ⟨d, by simp, by simp [h.pred, hk'], by simp [h.data, hk']⟩
          · simp only [if_neg hki]
            rw [List.getElem?_set_ne (Ne.symm hki), List.getElem?_set_ne (Ne.symm hki)]
            exact h.val k hk'
        have e : c.setCache i d = .ok ⟨c.size, c.data.set i d, c.pred.set i true⟩ := by
          simp [SizedCache.setCache, h.pred, h.data, hi]
        rw [if_pos hi, e, Outcome.bind_ok]
        exact ih hrel
      · rw [if_neg hi]
        exact ⟨.outOfBounds "SizedCache::set_cache", by simp [SizedCache.setCache, h.pred, h.data, hi]⟩
    | get i =>
      simp only [PMap.run, SizedCache.run]
      by_cases hi : i < p.size
      · rw [if_pos hi]
        have e : c.getCache i = .ok (p.val i) := by
          rcases h.val i hi with ⟨h1, h2⟩ | ⟨d, h1, h2, h3⟩
          · simp [SizedCache.getCache, h1, h2]
          · simp [SizedCache.getCache, h1, h2, h3]
        rw [e, Outcome.bind_ok]
        have := ih h
        cases hr : p.run ops with
        | none =>
          rw [hr] at this
          obtain ⟨u, hu⟩ := this
          exact ⟨u, by rw [hu]; rfl⟩
        | some outs =>
          rw [hr] at this
          simp only at this
          simp only [Option.map_some, this, Outcome.bind_ok]
      · rw [if_neg hi]
        have : c.pred[i]? = none := by rw [List.getElem?_eq_none]; rw [h.pred]; omega
        exact ⟨_, by simp only [SizedCache.getCache, this, Outcome.bind_ub]; rfl⟩
    | extend =>
      simp only [PMap.run, SizedCache.run]
      refine ih (p := ⟨p.size + 1, fun _ => none⟩) ?_
      refine ⟨by simp [SizedCache.extend, SizedCache.clear, h.size],
        by simp [SizedCache.extend, SizedCache.clear, h.size],
        by simp [SizedCache.extend, SizedCache.clear, h.data], ?_⟩
      intro i hi
      left
      have hi' : i < p.size + 1 := hi
      simp [SizedCache.extend, SizedCache.clear, h.size, hi']
    | clear =>
      simp only [PMap.run, SizedCache.run]
      exact ih h.clear

/-- **C53.** On every sequence of operations, a new cache of any size returns what the partial
map returns, as long as all ids are in range; the first id out of range is an out-of-bounds
access. -/
theorem C53_cache_refines_map (dflt : D) (n : Nat) (ops : List (CacheOp D)) :
    match PMap.run ops ⟨n, fun _ => none⟩ with
    | some outs => (SizedCache.mk' dflt n).run dflt ops = .ok outs
    | none => ∃ u, (SizedCache.mk' dflt n).run dflt ops = .ub u := by
  refine CacheRel.run ops ⟨rfl, by simp [SizedCache.mk'], by simp [SizedCache.mk'], ?_⟩
  intro i hi
  have hi' : i < n := hi
  left
  simp [SizedCache.mk', hi']

/-- the stack stands for the list `l`, head = top -/
structure StackRel (n : Nat) (s : SizedStack E) (l : List E) : Prop where
  cap : s.data.length = n
  len : l.length = s.cur
  le : s.cur ≤ n
  data : s.data.take s.cur = l.reverse

theorem StackRel.run {cap : Nat} (ops : List (StackOp E)) {s : SizedStack E} {l : List E}
    (h : StackRel cap s l) :
    match listRun cap ops l with
    | some outs => s.run ops = .ok outs
    | none => ∃ u, s.run ops = .ub u := by
  induction ops generalizing s l with
  | nil => simp [listRun, SizedStack.run]
  | cons op ops ih =>
    cases op with
    | push e =>
      simp only [listRun, SizedStack.run]
      by_cases hlt : l.length < cap
      · rw [if_pos hlt]
        have hc : s.cur < s.data.length := by rw [h.cap, ← h.len]; exact hlt
        have e1 : s.push e = .ok ⟨s.data.set s.cur e, s.cur + 1⟩ := by simp [SizedStack.push, hc]
        rw [e1, Outcome.bind_ok]
        refine ih ⟨by simp [h.cap], by simp [h.len], by rw [h.cap] at hc; exact hc, ?_⟩
        simp only [List.reverse_cons, ← h.data]
        rw [List.take_succ_eq_append_getElem (by simpa using hc), List.take_set_of_le (Nat.le_refl _)]
        simp
      · rw [if_neg hlt]
        have hc : ¬ s.cur < s.data.length := by rw [h.cap, ← h.len]; exact hlt
        exact ⟨_, by simp only [SizedStack.push, if_neg hc, Outcome.bind_ub]; rfl⟩
    | pop =>
      cases l with
      | nil =>
        have : s.cur = 0 := h.len.symm
        simp only [listRun, SizedStack.run]
        exact ⟨.outOfBounds "SizedStack::pop on empty", by simp [SizedStack.pop, this]⟩
      | cons a l =>
        have hc : s.cur = l.length + 1 := h.len.symm
        simp only [listRun, SizedStack.run]
        have e1 : s.pop = .ok { s with cur := l.length } := by simp only [SizedStack.pop, hc]
        rw [e1, Outcome.bind_ok]
        refine ih ⟨h.cap, rfl, by have := h.le; show l.length ≤ cap; omega, ?_⟩
        have hd := h.data
        have := congrArg (List.take l.length) hd
        rw [List.take_take, hc, Nat.min_eq_left (by omega)] at this
        rw [this]
        simp
    | top =>
      cases l with
      | nil =>
        have : s.cur = 0 := h.len.symm
        simp only [listRun, SizedStack.run]
        exact ⟨.outOfBounds "SizedStack::top", by simp [SizedStack.top, this]⟩
      | cons a l =>
        have hc : s.cur = l.length + 1 := h.len.symm
        simp only [listRun, SizedStack.run]
        have hget : s.data[l.length]? = some a := by
          have := congrArg (fun x => x[l.length]?) h.data
          simp only [hc] at this
          rw [List.getElem?_take_of_lt (by omega)] at this
          rw [this]
          simp
        have e1 : s.top = .ok a := by
          simp [SizedStack.top, hc, Outcome.idx, hget]
        rw [e1, Outcome.bind_ok]
        have := ih h
        cases hr : listRun cap ops (a :: l) with
        | none =>
          rw [hr] at this
          obtain ⟨u, hu⟩ := this
          exact ⟨u, by rw [hu]; rfl⟩
        | some outs =>
          rw [hr] at this
          simp only at this
          simp only [Option.map_some, this, Outcome.bind_ok]
    | size =>
      simp only [listRun, SizedStack.run]
      have := ih h
      cases hr : listRun cap ops l with
      | none =>
        rw [hr] at this
        obtain ⟨u, hu⟩ := this
        exact ⟨u, by rw [hu]; rfl⟩
      | some outs =>
        rw [hr] at this
        simp only at this
        simp only [Option.map_some, this, Outcome.bind_ok, SizedStack.size, h.len]
    | empty =>
      simp only [listRun, SizedStack.run]
      have := ih h
      cases hr : listRun cap ops l with
      | none =>
        rw [hr] at this
        obtain ⟨u, hu⟩ := this
        exact ⟨u, by rw [hu]; rfl⟩
      | some outs =>
        rw [hr] at this
        simp only at this
        have he : s.empty = l.isEmpty := by
          have := h.len
          cases l with
          | nil => simp [SizedStack.empty, ← this]
          | cons a l => simp [SizedStack.empty, ← this]
        simp only [Option.map_some, this, Outcome.bind_ok, he]
    | reset =>
      simp only [listRun, SizedStack.run]
      exact ih ⟨h.cap, rfl, Nat.zero_le _, by simp [SizedStack.reset]⟩

/-- **C54.** On every sequence of operations, a new stack of any capacity returns what a list
of bounded length returns; a push on a full stack, and a pop or top on an empty one, is an
out-of-bounds access. -/
theorem C54_stack_refines_list (dflt : E) (n : Nat) (ops : List (StackOp E)) :
    match listRun n ops [] with
    | some outs => (SizedStack.mk' dflt n).run ops = .ok outs
    | none => ∃ u, (SizedStack.mk' dflt n).run ops = .ub u :=
  StackRel.run ops ⟨by simp [SizedStack.mk'], rfl, Nat.zero_le _, by simp [SizedStack.mk']⟩

-- a sequence within bounds and one outside, for each
example : (SizedCache.mk' 0 2).run 0 [.set 1 5, .get 1, .get 0, .extend, .get 1, .set 2 7, .get 2]
    = .ok [some 5, none, none, some 7] :=
  C53_cache_refines_map 0 2 [.set 1 5, .get 1, .get 0, .extend, .get 1, .set 2 7, .get 2]
example : ∃ u, (SizedCache.mk' 0 2).run 0 [.set 2 5] = .ub u :=
  C53_cache_refines_map 0 2 [.set 2 5]
example : (SizedStack.mk' 0 2).run [.push 3, .push 4, .top, .pop, .push 5, .top, .reset, .empty]
    = .ok [.elem 4, .elem 5, .empty true] :=
  C54_stack_refines_list 0 2 [.push 3, .push 4, .top, .pop, .push 5, .top, .reset, .empty]
example : ∃ u, (SizedStack.mk' 0 1).run [.push 3, .push 4] = .ub u :=
  C54_stack_refines_list 0 1 [.push 3, .push 4]

end Tinyfk
