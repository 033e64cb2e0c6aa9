import Verif.Proofs.PyThreads
import Verif.Props.PySolve

/-!
# C90: threads that share a model
-/

set_option linter.unusedSectionVars false

namespace Tinyfk

open Scalar

section
variable {K : Type} [Scalar K] {s0 : PyModel K} {progs : Nat → List (PyCall K)} {tr pre post : List (TEvent K × PyModel K)}
  {w : Pool K} {i : Nat} {c : PyCall K} {r : Except Exn (PyVal K)} {s : PyModel K}

/-- **C90, a call is atomic.** Any number of threads with any programs share a model; in any interleaving, a call that returns or
raises has the result it would have had if it had been run alone at one moment between its begin and its end; and at this
moment it changed the robot as it would have done alone. This is for all methods but `set_q` and `get_q` with a base. -/
theorem C90_atomic (h : Pool.Exec (Pool.start s0 progs) (pre ++ (.ret i c r, s) :: post) w) (hc : c.Single) :
    ∃ a sc mid m1 x m2, pre = a ++ (.call i c, sc) :: mid ∧ (∀ e ∈ mid, ¬e.1.Bounds i) ∧
      (.call i c, sc) :: mid = m1 ++ x :: m2 ∧ Takes c (modelAfter s0 (a ++ m1)).robot r x.2.robot := by
  obtain ⟨w1, w2, h1, h2, _⟩ := h.split
  have hcur : ∃ cs, w1.threads i = ⟨cs, some (c, .done (ofExcept r))⟩ := by
    cases h2 with
    | ret hx => exact ⟨_, hx⟩
    | retExn hx => exact ⟨_, hx⟩
  obtain ⟨cs, hcur⟩ := hcur
  obtain ⟨a, sc, mid, e1, e2, e3, e4⟩ := h1.during i c _ (by rw [hcur])
  rcases e4 hc with ⟨_, h⟩ | ⟨o, ho, h⟩
  · refine ⟨a, sc, mid, [], (.call i c, sc), mid, e1, e3, rfl, ?_⟩
    simp only [List.append_nil, ← e2]
    exact takes_of_done h.symm
  · cases ho
    obtain ⟨m1, x, m2, e5, h⟩ := h r rfl
    exact ⟨a, sc, mid, (.call i c, sc) :: m1, x, m2, e1, e3, by rw [e5]; rfl, h⟩

theorem resultsOf_append (i : Nat) (t1 t2 : List (TEvent K × PyModel K)) : resultsOf i (t1 ++ t2) = resultsOf i t1 ++ resultsOf i t2 := by
  induction t1 with
  | nil => rfl
  | cons x t1 ih =>
    obtain ⟨e, s⟩ := x
    cases e with
    | ret j c r =>
      by_cases h : j = i <;> simp [resultsOf, h, ih]
    | _ => simp [resultsOf, ih]

/-- the program order is kept -/
theorem Pool.Exec.program (h : Pool.Exec (Pool.start s0 progs) tr w) (i : Nat) :
    (resultsOf i tr).map Prod.fst ++ (w.threads i).cur.toList.map Prod.fst ++ (w.threads i).todo = progs i := by
  generalize e : Pool.start s0 progs = w0 at h
  induction h with
  | nil => subst e; simp [resultsOf, Pool.start]
  | @snoc w1 w2 tr ev h hs ih =>
    rw [resultsOf_append]
    cases hs with
    | @call j c' cs hj =>
      by_cases hij : i = j
      · subst hij; rw [hj] at ih; rw [Pool.set_same]; simpa [resultsOf] using ih
      · rw [Pool.set_ne _ _ hij]; simpa [resultsOf] using ih
    | @addHist j c' cs a k' hj =>
      by_cases hij : i = j
      · subst hij; rw [hj] at ih; rw [Pool.set_same]; simpa [resultsOf] using ih
      · rw [Pool.set_ne _ _ hij]; simpa [resultsOf] using ih
    | @setHist j c' cs a k' hj =>
      by_cases hij : i = j
      · subst hij; rw [hj] at ih; rw [Pool.set_same]; simpa [resultsOf] using ih
      · rw [Pool.set_ne _ _ hij]; simpa [resultsOf] using ih
    | @robot j c' cs β p k' b m hj hp =>
      by_cases hij : i = j
      · subst hij; rw [hj] at ih; rw [Pool.set_same]; simpa [resultsOf] using ih
      · rw [Pool.set_ne _ _ hij]; simpa [resultsOf] using ih
    | @raise j c' cs β p k' x m hj hp =>
      by_cases hij : i = j
      · subst hij; rw [hj] at ih; rw [Pool.set_same]; simpa [resultsOf] using ih
      · rw [Pool.set_ne _ _ hij]; simpa [resultsOf] using ih
    | @ret j c' cs v hj =>
      by_cases hij : i = j
      · subst hij; rw [hj] at ih; rw [Pool.set_same]; simpa [resultsOf] using ih
      · rw [Pool.set_ne _ _ hij]; simpa [resultsOf, Ne.symm hij] using ih
    | @retExn j c' cs x hj =>
      by_cases hij : i = j
      · subst hij; rw [hj] at ih; rw [Pool.set_same]; simpa [resultsOf] using ih
      · rw [Pool.set_ne _ _ hij]; simpa [resultsOf, Ne.symm hij] using ih

/-- the calls of thread `i` in a common order -/
def partOf (i : Nat) (L : List (Nat × PyCall K × Except Exn (PyVal K))) : List (PyCall K × Except Exn (PyVal K)) :=
  (L.filter fun x => x.1 == i).map Prod.snd

theorem partOf_snoc_same (i : Nat) (L : List (Nat × PyCall K × Except Exn (PyVal K))) (x : PyCall K × Except Exn (PyVal K)) :
    partOf i (L ++ [(i, x)]) = partOf i L ++ [x] := by simp [partOf]

theorem partOf_snoc_ne {i j : Nat} (h : i ≠ j) (L : List (Nat × PyCall K × Except Exn (PyVal K)))
    (x : PyCall K × Except Exn (PyVal K)) : partOf i (L ++ [(j, x)]) = partOf i L := by simp [partOf, Ne.symm h]

/-- the calls of a thread that have had their effect, but not returned -/
inductive Pend : Option (PyCall K × Steps K (PyVal K)) → List (PyCall K × Except Exn (PyVal K)) → Prop
  | none : Pend none []
  | before {c : PyCall K} {k : Steps K (PyVal K)} : k.AtMostOne → k.eval = c.steps.eval → Pend (some (c, k)) []
  | after {c : PyCall K} {r : Except Exn (PyVal K)} : Pend (some (c, .done (ofExcept r))) [(c, r)]

/-- a thread has run into undefined behaviour -/
def Pool.Stuck (w : Pool K) : Prop := ∃ i c o, (w.threads i).cur = some (c, .done o) ∧ ∀ r, o ≠ ofExcept r

/-- a common order of the calls that have had their effect -/
def Ordered (s0 : PyModel K) (tr : List (TEvent K × PyModel K)) (w : Pool K) : Prop :=
  ∃ L : List (Nat × PyCall K × Except Exn (PyVal K)), Serial s0.robot (L.map Prod.snd) w.model.robot ∧
    ∀ i, ∃ pd, Pend (w.threads i).cur pd ∧ partOf i L = resultsOf i tr ++ pd

theorem Pool.Stuck.step {w1 w2 : Pool K} {e : TEvent K} (h : w1.Stuck) (hs : Pool.Step w1 e w2) : w2.Stuck := by
  obtain ⟨i, c, o, h1, h2⟩ := h
  have key : ∀ {j : Nat} {t : Thread K} {s : PyModel K}, j ≠ i → ({ w1 with model := s }.set j t).Stuck := by
    intro j t s hj
    exact ⟨i, c, o, by rw [Pool.set_ne _ _ (Ne.symm hj)]; exact h1, h2⟩
  cases hs with
  | @call j c' cs hj =>
    exact key (fun h => by subst h; rw [hj] at h1; cases h1)
  | @addHist j c' cs a k' hj => exact key (fun h => by subst h; rw [hj] at h1; cases h1)
  | @setHist j c' cs a k' hj => exact key (fun h => by subst h; rw [hj] at h1; cases h1)
  | @robot j c' cs β p k' b m hj hp => exact key (fun h => by subst h; rw [hj] at h1; cases h1)
  | @raise j c' cs β p k' x m hj hp => exact key (fun h => by subst h; rw [hj] at h1; cases h1)
  | @ret j c' cs v hj => exact key (fun h => by subst h; rw [hj] at h1; cases h1; exact h2 (.ok v) rfl)
  | @retExn j c' cs x hj => exact key (fun h => by subst h; rw [hj] at h1; cases h1; exact h2 (.error x) rfl)

/-- a step of thread `j` that is no effect on the robot -/
theorem Ordered.still {w1 : Pool K} (h : Ordered s0 tr w1) {j : Nat} {t : Thread K} {e : TEvent K} {s1 : PyModel K}
    (hr : s1.robot = w1.model.robot) (hres : ∀ i, resultsOf i [(e, s1)] = [])
    (ht : ∀ pd, Pend (w1.threads j).cur pd → Pend t.cur pd) :
    Ordered s0 (tr ++ [(e, s1)]) ({ w1 with model := s1 }.set j t) := by
  obtain ⟨L, h1, h2⟩ := h
  refine ⟨L, by show Serial _ _ s1.robot; rw [hr]; exact h1, fun i => ?_⟩
  obtain ⟨pd, h3, h4⟩ := h2 i
  rw [resultsOf_append, hres, List.append_nil]
  by_cases hij : i = j
  · subst hij
    exact ⟨pd, by rw [Pool.set_same]; exact ht pd h3, h4⟩
  · exact ⟨pd, by rw [Pool.set_ne _ _ hij]; exact h3, h4⟩

/-- the effect of a call of thread `j` -/
theorem Ordered.effect {w1 : Pool K} (h : Ordered s0 tr w1) {j : Nat} {cs : List (PyCall K)} {c : PyCall K} {k : Steps K (PyVal K)}
    {r : Except Exn (PyVal K)} {s1 : PyModel K} (hj : (w1.threads j).cur = some (c, k)) (hk : ∀ o, k ≠ .done o)
    (ht : k.AtMostOne → k.eval = c.steps.eval → Takes c w1.model.robot r s1.robot) :
    Ordered s0 (tr ++ [(.step j, s1)]) ({ w1 with model := s1 }.set j ⟨cs, some (c, .done (ofExcept r))⟩) := by
  obtain ⟨L, h1, h2⟩ := h
  have hp : k.AtMostOne ∧ k.eval = c.steps.eval ∧ partOf j L = resultsOf j tr := by
    obtain ⟨pd, h3, h4⟩ := h2 j
    rw [hj] at h3
    cases h3 with
    | before h5 h6 => exact ⟨h5, h6, by simpa using h4⟩
    | after => exact absurd rfl (hk _)
  refine ⟨L ++ [(j, c, r)], ?_, fun i => ?_⟩
  · rw [List.map_append]
    exact .snoc h1 (ht hp.1 hp.2.1)
  · rw [resultsOf_append]
    by_cases hij : i = j
    · subst hij
      refine ⟨[(c, r)], by rw [Pool.set_same]; exact .after, ?_⟩
      rw [partOf_snoc_same, hp.2.2]
      simp [resultsOf]
    · obtain ⟨pd, h3, h4⟩ := h2 i
      refine ⟨pd, by rw [Pool.set_ne _ _ hij]; exact h3, ?_⟩
      rw [partOf_snoc_ne hij, h4]
      simp [resultsOf]

/-- a call of thread `j` returns -/
theorem Ordered.ret {w1 : Pool K} (h : Ordered s0 tr w1) {j : Nat} {cs : List (PyCall K)} {c : PyCall K}
    {r : Except Exn (PyVal K)} (hj : (w1.threads j).cur = some (c, .done (ofExcept r))) :
    Ordered s0 (tr ++ [(.ret j c r, w1.model)]) (w1.set j ⟨cs, none⟩) := by
  obtain ⟨L, h1, h2⟩ := h
  obtain ⟨pd, h3, h4⟩ := h2 j
  rw [hj] at h3
  generalize ek : (Steps.done (ofExcept r) : Steps K (PyVal K)) = k at h3
  cases h3 with
  | before h5 h6 =>
    subst ek
    refine ⟨L ++ [(j, c, r)], ?_, fun i => ?_⟩
    · rw [List.map_append]
      exact .snoc h1 (takes_of_done h6.symm)
    · rw [resultsOf_append]
      by_cases hij : i = j
      · subst hij
        refine ⟨[], by rw [Pool.set_same]; exact .none, ?_⟩
        rw [partOf_snoc_same, h4]
        simp [resultsOf]
      · obtain ⟨pd, h3, h4⟩ := h2 i
        refine ⟨pd, by rw [Pool.set_ne _ _ hij]; exact h3, ?_⟩
        rw [partOf_snoc_ne hij, h4]
        simp [resultsOf, Ne.symm hij]
  | after =>
    rename_i r'
    have : r' = r := by
      simp only [Steps.done.injEq] at ek
      cases r <;> cases r' <;> simp only [ofExcept, Outcome.ok.injEq, Outcome.exn.injEq, reduceCtorEq] at ek <;> rw [ek]
    subst this
    refine ⟨L, h1, fun i => ?_⟩
    rw [resultsOf_append]
    by_cases hij : i = j
    · subst hij
      refine ⟨[], by rw [Pool.set_same]; exact .none, ?_⟩
      rw [h4]
      simp [resultsOf]
    · obtain ⟨pd, h3, h4⟩ := h2 i
      refine ⟨pd, by rw [Pool.set_ne _ _ hij]; exact h3, ?_⟩
      rw [h4]
      simp [resultsOf, Ne.symm hij]

theorem Pool.Exec.ordered (h : Pool.Exec (Pool.start s0 progs) tr w) (hs : ∀ i, ∀ c ∈ progs i, c.Single) :
    w.Stuck ∨ Ordered s0 tr w := by
  generalize e : Pool.start s0 progs = w0 at h
  induction h with
  | nil => subst e; exact .inr ⟨[], .nil, fun i => ⟨[], .none, rfl⟩⟩
  | @snoc w1 w2 tr ev h hst ih =>
    rcases ih with hw | ih
    · exact .inl (hw.step hst)
    subst e
    have hprog := h.program
    cases hst with
    | @call j c' cs hj =>
      refine .inr (ih.still rfl (fun _ => rfl) fun pd hp => ?_)
      rw [hj] at hp
      cases hp
      refine .before (PyCall.Single.steps (hs j c' ?_)) rfl
      rw [← hprog j, hj]
      simp
    | @addHist j c' cs a k' hj =>
      refine .inr (ih.still rfl (fun _ => rfl) fun pd hp => ?_)
      rw [hj] at hp
      cases hp with
      | before h1 h2 => cases h1 with | addHist h1 => exact .before h1 h2
    | @setHist j c' cs a k' hj =>
      refine .inr (ih.still rfl (fun _ => rfl) fun pd hp => ?_)
      rw [hj] at hp
      cases hp with
      | before h1 h2 => cases h1 with | setHist h1 => exact .before h1 h2
    | @robot j c' cs β p k' b m hj hp =>
      have hone : ∃ o, k' b = .done o := by
        obtain ⟨L, _, h2⟩ := ih
        obtain ⟨pd, h3, _⟩ := h2 j
        rw [hj] at h3
        cases h3 with
        | before h5 _ => cases h5 with | robot h => exact h b
      obtain ⟨o, ho⟩ := hone
      by_cases hr : ∃ r, o = ofExcept r
      · obtain ⟨r, rfl⟩ := hr
        refine .inr ?_
        rw [ho]
        refine ih.effect (s1 := { w1.model with robot := m }) (k := .robot p k') (by rw [hj]) (fun o h => by cases h) fun h1 h2 => ?_
        apply takes_of_eval
        rw [← h2]
        simp only [Steps.eval, Prog.bind, hp, ho]
        cases r <;> rfl
      · exact .inl ⟨j, c', o, by rw [Pool.set_same, ho], fun r e => hr ⟨r, e⟩⟩
    | @raise j c' cs β p k' x m hj hp =>
      refine .inr (ih.effect (s1 := { w1.model with robot := m }) (r := .error x) (k := .robot p k') (by rw [hj])
        (fun o h => by cases h) fun h1 h2 => ?_)
      apply takes_of_eval
      rw [← h2]
      simp only [Steps.eval, Prog.bind, hp]
    | @ret j c' cs v hj => exact .inr (ih.ret (r := .ok v) (by rw [hj]; rfl))
    | @retExn j c' cs x hj => exact .inr (ih.ret (r := .error x) (by rw [hj]; rfl))

/-- **C90, threads are serialisable.** Any number of threads with any programs share a model; none of them calls `set_q` or
`get_q` with a base. In any interleaving, when no thread is inside a call: there is one order of all the calls made, which keeps
the order of each thread, such that running the calls alone in this order gives the same results and the same robot. -/
theorem C90_serial (h : Pool.Exec (Pool.start s0 progs) tr w) (hs : ∀ i, ∀ c ∈ progs i, c.Single) (hi : w.Idle) :
    ∃ L : List (Nat × PyCall K × Except Exn (PyVal K)), Serial s0.robot (L.map Prod.snd) w.model.robot ∧
      ∀ i, (L.filter fun x => x.1 == i).map Prod.snd = resultsOf i tr ∧
        (resultsOf i tr).map Prod.fst ++ (w.threads i).todo = progs i := by
  rcases h.ordered hs with ⟨i, c, o, h1, _⟩ | ⟨L, h1, h2⟩
  · have := hi i
    rw [h1] at this
    cases this
  · refine ⟨L, h1, fun i => ?_⟩
    obtain ⟨pd, h3, h4⟩ := h2 i
    have hi' := hi i
    have hp := h.program i
    cases hc : (w.threads i).cur with
    | none =>
      rw [hc] at h3 hp
      cases h3
      exact ⟨by rw [← List.append_nil (resultsOf i tr), ← h4]; rfl, by simpa using hp⟩
    | some x => rw [hc] at hi'; cases hi'

end
end Tinyfk
