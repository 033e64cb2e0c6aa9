import Verif.Props.ThreadReach
import Verif.Proofs.Pickle
import Verif.Proofs.PyCopy
import Verif.Proofs.Batch

/-!
# C91: `set_q`, `get_q` with a base, and pickling, in threads
-/

set_option linter.unusedSectionVars false

namespace Tinyfk

open Scalar

section
variable {K : Type} [Scalar K] {s0 s : PyModel K} {w w0 : Pool K} {tr : List (TEvent K × PyModel K)} {ids : List Nat}

/-- a second write to the same joints -/
theorem writeAngles_over {v v' a a' : List K} (h : writeAngles ids v a = .ok a') (hl : v'.length = v.length) :
    writeAngles ids v' a' = writeAngles ids v' a := by
  obtain ⟨h1, h2⟩ := writeAngles_valid h
  have hla := writeAngles_length h
  obtain ⟨b, hb⟩ := writeAngles_ok (ids := ids) (vals := v') (by omega) (a := a) h1
  obtain ⟨b', hb'⟩ := writeAngles_ok (ids := ids) (vals := v') (by omega) (a := a') (by rwa [hla])
  rw [hb, hb']
  congr 1
  have e1 := writeAngles_length hb
  have e2 := writeAngles_length hb'
  refine List.ext_getElem? fun i => ?_
  by_cases hi : i < a.length
  · rw [writeAngles_get hb i hi, writeAngles_get hb' i (by omega)]
    by_cases hm : i ∈ ids
    · obtain ⟨x, hx⟩ := lastWrite_isSome (vals := v') hm (by omega)
      rw [hx]; rfl
    · have hg := writeAngles_get h i hi
      rw [lastWrite_eq_none hm] at hg ⊢
      simp only [Option.getD_none] at hg ⊢
      rwa [List.getElem?_eq_getElem (by omega)] at hg
  · rw [List.getElem?_eq_none (by omega), List.getElem?_eq_none (by omega)]

/-- two threads, each of which makes one call -/
def pair (c0 c1 : PyCall K) : Nat → List (PyCall K)
  | 0 => [c0]
  | 1 => [c1]
  | _ => []

theorem tSetQ_floating {v b : List K} (hv : v.length = ids.length) (hb : b.length = 6) :
    (PyCall.setQ ids (v ++ b) .floating).steps = .setHist ⟨ids, v ++ b, .floating⟩
      (.robot (setJointAngles ids v) fun _ => .robot (setBasePoseVec b) fun _ => .done (.ok .none)) := by
  have h1 : (v ++ b).length - 6 = v.length := by simp [hb]
  simp only [PyCall.steps, tSetQ, h1, List.take_left, List.drop_left]
  simp [hv, hb]

theorem tSetQ_fixed {v : List K} (hv : v.length = ids.length) :
    (PyCall.setQ ids v .fixed).steps = .setHist ⟨ids, v, .fixed⟩
      (.robot (setJointAngles ids v) fun _ => .done (.ok .none)) := by
  simp [PyCall.steps, tSetQ, hv]

theorem setJointAngles_ok {v θ : List K} {m : KinModel K} (h : writeAngles ids v m.angles = .ok θ) :
    setJointAngles ids v m = .ok () { m with angles := θ, cache := m.cache.clear } := by
  simp only [setJointAngles, setJointAnglesNC, clearCache, Prog.bind_apply, Prog.modify, h]

theorem setBasePoseVec_six {b : List K} (hb : b.length = 6) : ∃ p, basePart 0 .floating b = some p ∧
    ∀ m : KinModel K, setBasePoseVec b m = .ok () { m with base := p, cache := m.cache.clear } := by
  match b, hb with
  | [x, y, z, r, p, w], _ => exact ⟨_, rfl, fun _ => rfl⟩

/-- **C91 is false: a torn `set_q`.** Two threads call `set_q` with a floating base, for the same joints. There is an
interleaving in which both calls return, and the joints are then where the call of thread 1, and the base where the call of
thread 0 puts it. -/
theorem C91_torn (hi : ∀ i ∈ ids, i < s.robot.angles.length) {v0 v1 b0 b1 : List K}
    (hv0 : v0.length = ids.length) (hv1 : v1.length = ids.length) (hb0 : b0.length = 6) (hb1 : b1.length = 6) :
    ∃ tr w s0 s1, Pool.Exec (Pool.start s (pair (.setQ ids (v0 ++ b0) .floating) (.setQ ids (v1 ++ b1) .floating))) tr w ∧
      w.Idle ∧ resultsOf 0 tr = [(.setQ ids (v0 ++ b0) .floating, .ok .none)] ∧
      resultsOf 1 tr = [(.setQ ids (v1 ++ b1) .floating, .ok .none)] ∧
      pySetQ ids (v0 ++ b0) .floating s = .ok () s0 ∧ pySetQ ids (v1 ++ b1) .floating s = .ok () s1 ∧
      w.model.robot.angles = s1.robot.angles ∧ w.model.robot.base = s0.robot.base := by
  obtain ⟨θ0, h0⟩ := writeAngles_ok (vals := v0) (by omega) hi
  obtain ⟨θ1, h1⟩ := writeAngles_ok (vals := v1) (by omega) hi
  obtain ⟨p0, hp0, e0⟩ := setBasePoseVec_six hb0
  obtain ⟨p1, hp1, e1⟩ := setBasePoseVec_six hb1
  generalize hc0 : (PyCall.setQ ids (v0 ++ b0) .floating : PyCall K) = c0
  generalize hc1 : (PyCall.setQ ids (v1 ++ b1) .floating : PyCall K) = c1
  have t0 := tSetQ_floating (K := K) hv0 hb0
  have t1 := tSetQ_floating (K := K) hv1 hb1
  rw [hc0] at t0
  rw [hc1] at t1
  have x1 := Pool.Exec.snoc .nil (Pool.Step.call (w := Pool.start s (pair c0 c1)) (i := 0) (c := c0) (cs := []) rfl)
  rw [t0] at x1
  have x2 := x1.snoc (.setHist (i := 0) rfl)
  have x3 := x2.snoc (.robot (i := 0) rfl (setJointAngles_ok h0))
  have x4 := x3.snoc (.call (i := 1) (c := c1) (cs := []) rfl)
  rw [t1] at x4
  have x5 := x4.snoc (.setHist (i := 1) rfl)
  have x6 := x5.snoc (.robot (i := 1) rfl (setJointAngles_ok ((writeAngles_over h0 (by omega)).trans h1)))
  have x7 := x6.snoc (.robot (i := 1) rfl (e1 _))
  have x8 := x7.snoc (.ret (i := 1) rfl)
  have x9 := x8.snoc (.robot (i := 0) rfl (e0 _))
  have x10 := x9.snoc (.ret (i := 0) rfl)
  have k0 := pySetQ_ok (s := s) (ids := ids) (q := v0 ++ b0) (bt := .floating) (θ := θ0)
    (by rw [← hv0, List.take_left]; exact h0) (by simp [hv0, hb0, BaseType.dof])
  have k1 := pySetQ_ok (s := s) (ids := ids) (q := v1 ++ b1) (bt := .floating) (θ := θ1)
    (by rw [← hv1, List.take_left]; exact h1) (by simp [hv1, hb1, BaseType.dof])
  refine ⟨_, _, _, _, x10, ?_, rfl, rfl, k0, k1, rfl, ?_⟩
  · intro i
    match i with
    | 0 => rfl
    | 1 => rfl
    | _ + 2 => rfl
  · show p0 = (basePart ids.length .floating (v0 ++ b0)).getD s.robot.base
    have : basePart ids.length .floating (v0 ++ b0) = some p0 := by
      rw [← hp0, ← hv0]
      simp [basePart]
    rw [this]; rfl

/-- **C91 is false: a torn `get_q`.** While thread 0 is in `set_q` with a floating base, thread 1 calls `get_q`. There is an
interleaving in which `get_q` returns the new joint angles with the old base. -/
theorem C91_get (hi : ∀ i ∈ ids, i < s.robot.angles.length) {v b old : List K} (hv : v.length = ids.length) (hb : b.length = 6)
    (ho : getBasePose s.robot = .ok old s.robot) :
    ∃ tr w s1 new, Pool.Exec (Pool.start s (pair (.setQ ids (v ++ b) .floating) (.getQ ids .floating))) tr w ∧ w.Idle ∧
      resultsOf 1 tr = [(.getQ ids .floating, .ok (.vec (new ++ old)))] ∧
      pySetQ ids (v ++ b) .floating s = .ok () s1 ∧ getJointAngles ids s1.robot = .ok new s1.robot := by
  obtain ⟨θ, h⟩ := writeAngles_ok (vals := v) (by omega) hi
  obtain ⟨p, hp, e⟩ := setBasePoseVec_six hb
  have hm : ∀ (m : KinModel K), m.angles = θ → ∃ new, getJointAngles ids m = .ok new m ∧
      ∀ m' : KinModel K, m'.angles = θ → getJointAngles ids m' = .ok new m' := by
    intro m em
    have hall : ∀ (l : List Nat), (∀ i ∈ l, i < θ.length) → ∃ new, mapOutcome (Outcome.idx "joint_angles_" θ) l = .ok new := by
      intro l hl
      induction l with
      | nil => exact ⟨[], rfl⟩
      | cons x l ih =>
        obtain ⟨n, hn⟩ := ih fun i hi => hl i (List.mem_cons_of_mem _ hi)
        have hx : θ[x]? = some (θ[x]'(hl x (by simp))) := List.getElem?_eq_getElem _
        exact ⟨_, by simp only [mapOutcome, Outcome.idx, hx, hn]; rfl⟩
    obtain ⟨new, hn⟩ := hall ids (by rw [writeAngles_length h]; exact hi)
    refine ⟨new, ?_, fun m' em' => ?_⟩
    · simp only [getJointAngles, Prog.read, em, hn]
    · simp only [getJointAngles, Prog.read, em', hn]
  generalize hc0 : (PyCall.setQ ids (v ++ b) .floating : PyCall K) = c0
  have t0 := tSetQ_floating (K := K) hv hb
  rw [hc0] at t0
  obtain ⟨new, _, hnew⟩ := hm { s.robot with angles := θ } rfl
  have x1 := Pool.Exec.snoc .nil (Pool.Step.call (w := Pool.start s (pair c0 (.getQ ids .floating))) (i := 1)
    (c := .getQ ids .floating) (cs := []) rfl)
  have x2 := x1.snoc (.robot (i := 1) rfl ho)
  have x3 := x2.snoc (.call (i := 0) (c := c0) (cs := []) rfl)
  rw [t0] at x3
  have x4 := x3.snoc (.setHist (i := 0) rfl)
  have x5 := x4.snoc (.robot (i := 0) rfl (setJointAngles_ok h))
  have x6 := x5.snoc (.robot (i := 1) rfl (hnew _ rfl))
  have x7 := x6.snoc (.ret (i := 1) rfl)
  have x8 := x7.snoc (.robot (i := 0) rfl (e _))
  have x9 := x8.snoc (.ret (i := 0) rfl)
  have k0 := pySetQ_ok (s := s) (ids := ids) (q := v ++ b) (bt := .floating) (θ := θ)
    (by rw [← hv, List.take_left]; exact h) (by simp [hv, hb, BaseType.dof])
  refine ⟨_, _, _, new, x9, ?_, rfl, k0, hnew _ rfl⟩
  intro i
  match i with
  | 0 => rfl
  | 1 => rfl
  | _ + 2 => rfl

/-- **C91 is false: the order that pickling keeps.** Two threads call `set_q` (without a base) for the same joints. There is an
interleaving in which both calls return, the joints of the model are then where thread 0 puts them, and the history that is
pickled has the call of thread 1 last. -/
theorem C91_pickle (hi : ∀ i ∈ ids, i < s.robot.angles.length) {v0 v1 : List K}
    (hv0 : v0.length = ids.length) (hv1 : v1.length = ids.length) :
    ∃ tr w s0, Pool.Exec (Pool.start s (pair (.setQ ids v0 .fixed) (.setQ ids v1 .fixed))) tr w ∧
      w.Idle ∧ resultsOf 0 tr = [(.setQ ids v0 .fixed, .ok .none)] ∧ resultsOf 1 tr = [(.setQ ids v1 .fixed, .ok .none)] ∧
      pySetQ ids v0 .fixed s = .ok () s0 ∧ w.model.robot = s0.robot ∧
      pyGetState w.model = ⟨s.xml, s.addHist, s.setHist ++ [⟨ids, v0, .fixed⟩, ⟨ids, v1, .fixed⟩]⟩ := by
  obtain ⟨θ0, h0⟩ := writeAngles_ok (vals := v0) (by omega) hi
  obtain ⟨θ1, h1⟩ := writeAngles_ok (vals := v1) (by omega) hi
  generalize hc0 : (PyCall.setQ ids v0 .fixed : PyCall K) = c0
  generalize hc1 : (PyCall.setQ ids v1 .fixed : PyCall K) = c1
  have t0 := tSetQ_fixed (K := K) hv0
  have t1 := tSetQ_fixed (K := K) hv1
  rw [hc0] at t0
  rw [hc1] at t1
  have x1 := Pool.Exec.snoc .nil (Pool.Step.call (w := Pool.start s (pair c0 c1)) (i := 0) (c := c0) (cs := []) rfl)
  rw [t0] at x1
  have x2 := x1.snoc (.setHist (i := 0) rfl)
  have x3 := x2.snoc (.call (i := 1) (c := c1) (cs := []) rfl)
  rw [t1] at x3
  have x4 := x3.snoc (.setHist (i := 1) rfl)
  have x5 := x4.snoc (.robot (i := 1) rfl (setJointAngles_ok h1))
  have x6 := x5.snoc (.robot (i := 0) rfl (setJointAngles_ok ((writeAngles_over h1 (by omega)).trans h0)))
  have x7 := x6.snoc (.ret (i := 0) rfl)
  have x8 := x7.snoc (.ret (i := 1) rfl)
  have k0 := pySetQ_ok (s := s) (ids := ids) (q := v0) (bt := .fixed) (θ := θ0)
    (by rw [← hv0, List.take_length]; exact h0) (by simp [hv0, BaseType.dof])
  refine ⟨_, _, _, x8, ?_, rfl, rfl, k0, ?_, ?_⟩
  · intro i
    match i with
    | 0 => rfl
    | 1 => rfl
    | _ + 2 => rfl
  · show ({ s.robot with angles := θ0, cache := s.robot.cache.clear.clear } : KinModel K) = _
    simp [KinModel.reset, basePart, SizedCache.clear]
  · show (⟨s.xml, s.addHist, (s.setHist ++ [_]) ++ [_]⟩ : Pickled K) = _
    rw [List.append_assoc]; rfl

/-- the steps of a thread while no other thread makes one -/
theorem Pool.Exec.solo {i : Nat} {c : PyCall K} {a mid : List (TEvent K × PyModel K)} {sc : PyModel K}
    (h : Pool.Exec w0 (a ++ (.call i c, sc) :: mid) w) (hm : ∀ e ∈ mid, e.1 = .step i) :
    ∃ cs k, w.threads i = ⟨cs, some (c, k)⟩ ∧ k.eval w.model.robot = c.steps.eval (modelAfter w0.model a).robot := by
  generalize et : a ++ (.call i c, sc) :: mid = tr at h
  induction h generalizing mid with
  | nil => cases a <;> cases et
  | @snoc w1 w2 tr ev h hs ih =>
    rcases List.eq_nil_or_concat mid with rfl | ⟨mid', x, rfl⟩
    · have := List.append_inj' et rfl
      cases this.1
      have e2 := (List.cons.inj this.2).1
      cases e2
      cases hs with
      | call ht => exact ⟨_, _, Pool.set_same _ _ _, by rw [← h.model]; rfl⟩
    · have e2 : (a ++ (.call i c, sc) :: mid') ++ [x] = tr ++ [(ev, w2.model)] := by rw [← et]; simp
      have h2 := List.append_inj' e2 rfl
      obtain ⟨cs, k, hk, hev⟩ := ih (fun e he => hm e (by simp [he])) h2.1
      have hx := hm x (by simp)
      rw [(List.cons.inj h2.2).1] at hx
      cases hx
      cases hs with
      | addHist ht =>
        rw [hk] at ht; cases ht
        exact ⟨_, _, Pool.set_same _ _ _, hev⟩
      | setHist ht =>
        rw [hk] at ht; cases ht
        exact ⟨_, _, Pool.set_same _ _ _, hev⟩
      | robot ht hp =>
        rw [hk] at ht; cases ht
        refine ⟨_, _, Pool.set_same _ _ _, ?_⟩
        rw [← hev]
        simp only [Steps.eval, Prog.bind, hp]
        rfl
      | raise ht hp =>
        rw [hk] at ht; cases ht
        refine ⟨_, _, Pool.set_same _ _ _, ?_⟩
        rw [← hev]
        simp only [Steps.eval, Prog.bind, hp]
        rfl

/-- **C91, what holds.** Any method (also `set_q` and `get_q` with a base) that returns or raises, and during which no other thread
made a step: its result and what it did to the robot are as if it had been run alone when it was called. -/
theorem C91_exclusive_partial {progs : Nat → List (PyCall K)} {i : Nat} {c : PyCall K} {r : Except Exn (PyVal K)}
    {a mid post : List (TEvent K × PyModel K)} {sc s1 : PyModel K}
    (h : Pool.Exec (Pool.start s progs) (a ++ (.call i c, sc) :: mid ++ (.ret i c r, s1) :: post) w)
    (hm : ∀ e ∈ mid, e.1 = .step i) : Takes c (modelAfter s a).robot r s1.robot := by
  obtain ⟨w1, w2, h1, h2, rfl⟩ := Pool.Exec.split (pre := a ++ (.call i c, sc) :: mid) h
  obtain ⟨cs, k, hk, hev⟩ := h1.solo hm
  refine takes_of_eval (hev.symm.trans ?_)
  cases h2 with
  | ret ht => rw [hk] at ht; cases ht; rfl
  | retExn ht => rw [hk] at ht; cases ht; rfl

/-- the steps of a method can be made one after the other -/
theorem Steps.alone {i : Nat} {c : PyCall K} {cs : List (PyCall K)} {v : PyVal K} (k : Steps K (PyVal K)) {s s1 : PyModel K}
    (hk : k.run s = .ok v s1) (h : Pool.Exec w0 tr w) (ht : w.threads i = ⟨cs, some (c, k)⟩) (hs : w.model = s) :
    ∃ mid w2, Pool.Exec w0 (tr ++ mid ++ [(.ret i c (.ok v), s1)]) w2 ∧ (∀ e ∈ mid, e.1 = .step i) ∧ w2.model = s1 ∧
      w2.threads i = ⟨cs, none⟩ ∧ ∀ j, j ≠ i → w2.threads j = w.threads j := by
  induction k generalizing s tr w with
  | done r =>
    cases r with
    | ok x =>
      cases hk
      subst hs
      refine ⟨[], w.set i ⟨cs, none⟩, ?_, by simp, rfl, Pool.set_same w i _, fun j hj => if_neg hj⟩
      have := h.snoc (.ret ht)
      simpa [Pool.set] using this
    | exn e => cases hk
    | ub u => cases hk
    | hang => cases hk
  | addHist a k ih =>
    subst hs
    obtain ⟨mid, w2, h1, h2, h3, h4, h5⟩ := ih hk (h.snoc (.addHist ht)) (Pool.set_same _ i _) rfl
    refine ⟨(.step i, _) :: mid, w2, by simpa [List.append_assoc] using h1, ?_, h3, h4, fun j hj => (h5 j hj).trans (if_neg hj)⟩
    intro e he
    rcases List.mem_cons.mp he with rfl | he
    · rfl
    · exact h2 e he
  | setHist a k ih =>
    subst hs
    obtain ⟨mid, w2, h1, h2, h3, h4, h5⟩ := ih hk (h.snoc (.setHist ht)) (Pool.set_same _ i _) rfl
    refine ⟨(.step i, _) :: mid, w2, by simpa [List.append_assoc] using h1, ?_, h3, h4, fun j hj => (h5 j hj).trans (if_neg hj)⟩
    intro e he
    rcases List.mem_cons.mp he with rfl | he
    · rfl
    · exact h2 e he
  | robot p k ih =>
    subst hs
    simp only [Steps.run, Prog.bind, onRobot] at hk
    cases hp : p w.model.robot with
    | ok b m =>
      rw [hp] at hk
      obtain ⟨mid, w2, h1, h2, h3, h4, h5⟩ := ih b hk (h.snoc (.robot ht hp)) (Pool.set_same _ i _) rfl
      refine ⟨(.step i, _) :: mid, w2, by simpa [List.append_assoc] using h1, ?_, h3, h4,
        fun j hj => (h5 j hj).trans (if_neg hj)⟩
      intro e he
      rcases List.mem_cons.mp he with rfl | he
      · rfl
      · exact h2 e he
    | exn e m => rw [hp] at hk; cases hk
    | ub u => rw [hp] at hk; cases hk
    | hang => rw [hp] at hk; cases hk

/-- **C90, nothing is lost.** A call that returns when it is made alone also returns, with the same result, in the thread model when
no other thread runs meanwhile. -/
theorem C90_alone {w0 w : Pool K} {tr : List (TEvent K × PyModel K)} {i : Nat} {c : PyCall K} {cs : List (PyCall K)} {v : PyVal K} {s1 : PyModel K}
    (hc : pyEval c w.model = .ok v s1) (h : Pool.Exec w0 tr w) (ht : w.threads i = ⟨c :: cs, none⟩) :
    ∃ mid w2, Pool.Exec w0 ((tr ++ (.call i c, w.model) :: mid) ++ [(.ret i c (.ok v), s1)]) w2 ∧ (∀ e ∈ mid, e.1 = .step i) ∧
      w2.model = s1 ∧ w2.threads i = ⟨cs, none⟩ ∧ ∀ j, j ≠ i → w2.threads j = w.threads j := by
  rw [← PyCall.steps_run] at hc
  obtain ⟨mid, w2, h1, h2, h3, h4, h5⟩ := Steps.alone c.steps hc (h.snoc (.call ht)) (Pool.set_same _ i _) rfl
  refine ⟨mid, w2, ?_, h2, h3, h4, fun j hj => (h5 j hj).trans (if_neg hj)⟩
  simpa [List.append_assoc, Pool.set] using h1

end

namespace Example

/-- C90_serial applies to two threads that set a joint at the same time -/
example : ∃ (tr : List (TEvent ℝ × PyModel ℝ)) (w : Pool ℝ) (L : List (Nat × PyCall ℝ × Except Exn (PyVal ℝ))), L ≠ [] ∧ Serial s0.robot (L.map Prod.snd) w.model.robot ∧
    ∀ i, (L.filter fun x => x.1 == i).map Prod.snd = resultsOf i tr ∧
      (resultsOf i tr).map Prod.fst ++ (w.threads i).todo = pair (.setQ [0] [0] .fixed) (.setQ [0] [1] .fixed) i := by
  obtain ⟨tr, w, sA, hx, hid, hr, _⟩ := C91_pickle (s := s0) (ids := [0]) (v0 := [(0 : ℝ)]) (v1 := [1])
    (by show ∀ i ∈ [0], i < m0.angles.length; rw [m0_angles]; simp) rfl rfl
  obtain ⟨L, h1, h2⟩ := C90_serial hx (by
    intro i c hc
    match i with
    | 0 => cases (List.mem_singleton.mp hc); rfl
    | 1 => cases (List.mem_singleton.mp hc); rfl
    | _ + 2 => simp [pair] at hc) hid
  refine ⟨tr, w, L, ?_, h1, h2⟩
  rintro rfl
  have := (h2 0).1
  rw [hr] at this
  simp at this

end Example

namespace Example

/-- the calls of C91_torn: two threads set the joints and the base -/
noncomputable def cA : PyCall ℝ := .setQ [0] ([0] ++ [0, 0, 0, 0, 0, 0]) .floating
noncomputable def cB : PyCall ℝ := .setQ [0] ([1] ++ [1, 0, 0, 0, 0, 0]) .floating

theorem takes_setQ {m m' : KinModel ℝ} {r : Except Exn (PyVal ℝ)} {ids : List Nat} {q θ : List ℝ} {bt : BaseType}
    (h : Takes (.setQ ids q bt) m r m') (hw : writeAngles ids (q.take ids.length) m.angles = .ok θ)
    (hq : q.length = ids.length + bt.dof) : m' = m.reset θ ((basePart ids.length bt q).getD m.base) := by
  obtain ⟨s', rfl, h'⟩ := h ⟨"", m, [], []⟩ rfl
  clear h
  have h := h'
  have e := pySetQ_ok (s := ⟨"", m, [], []⟩) hw hq
  cases r with
  | ok v =>
    have h : pyEval (.setQ ids q bt) ⟨"", m, [], []⟩ = .ok v s' := h
    simp only [pyEval, Prog.bind, e] at h; cases h; rfl
  | error x =>
    have h : pyEval (.setQ ids q bt) ⟨"", m, [], []⟩ = .exn x s' := h
    simp only [pyEval, Prog.bind, e] at h; cases h

theorem takes_cA {m m' : KinModel ℝ} {r : Except Exn (PyVal ℝ)} (h : Takes cA m r m') (hm : 0 < m.angles.length) :
    m'.angles[0]? = some 0 ∧ m'.base.position.x = 0 ∧ m'.angles.length = m.angles.length := by
  rw [takes_setQ h (θ := m.angles.set 0 0) (by simp [writeAngles, hm]) (by simp [BaseType.dof])]
  simp [KinModel.reset, basePart, hm]

theorem takes_cB {m m' : KinModel ℝ} {r : Except Exn (PyVal ℝ)} (h : Takes cB m r m') (hm : 0 < m.angles.length) :
    m'.angles[0]? = some 1 ∧ m'.base.position.x = 1 ∧ m'.angles.length = m.angles.length := by
  rw [takes_setQ h (θ := m.angles.set 0 1) (by simp [writeAngles, hm]) (by simp [BaseType.dof])]
  simp [KinModel.reset, basePart, hm]

/-- C90_solve_fk applies to a call of `solve_fk` during which another thread sets a joint and the base -/
example : ∃ (tr : List (TEvent ℝ × PyModel ℝ)) (w : Pool ℝ) (v : PyVal ℝ) (sB s : PyModel ℝ), Pool.Exec (Pool.start s0 (pair
    (.solveFk (.nd2 a1) [3, 0] [0, 1] .rpy .planer true false) cB)) (tr ++ [(.ret 0
      (.solveFk (.nd2 a1) [3, 0] [0, 1] .rpy .planer true false) (.ok v), s)]) w ∧
    tr.head? = some (.call 0 (.solveFk (.nd2 a1) [3, 0] [0, 1] .rpy .planer true false), s0) ∧
    (.ret 1 cB (.ok .none), sB) ∈ tr ∧ PyReach ls js m0 [cB] cB.effect sB ∧ Shallow ls js m0 cB.effect ∧
    FkArgs m0 sB (.nd2 a1) [3, 0] [0, 1] .planer := by
  have h0 : 0 < s0.robot.angles.length := by show 0 < m0.angles.length; rw [m0_angles]; simp
  have hB := pySetQ_ok (s := s0) (ids := [0]) (q := [(1 : ℝ)] ++ [1, 0, 0, 0, 0, 0]) (bt := .floating)
    (θ := s0.robot.angles.set 0 1) (by simp [writeAngles, h0]) (by simp [BaseType.dof])
  generalize hsB : (⟨s0.xml, _, s0.addHist, _⟩ : PyModel ℝ) = sB at hB
  have hlen : sB.robot.links.length = 6 := by rw [← hsB]; exact links_length
  have hev : pyEval cB s0 = .ok .none sB := by simp only [cB, pyEval, Prog.bind, hB]; rfl
  have hR : PyReach ls js m0 [cB] cB.effect sB :=
    ⟨isTree, supported, m0_spec, "", by
      have := PyRuns.ok (c := cB) (s := s0) trivial hB .nil
      rw [List.append_nil] at this; exact this⟩
  have hS : Shallow ls js m0 cB.effect := shallow_sets (by simp [PyCall.effect, cB, configCalls, basePart, weldsAfter])
  obtain ⟨mc, hat⟩ := hR.at
  obtain ⟨P, J, s, mc', e, _⟩ := hat.pySolveFk (qs := .nd2 a1) (es := [3, 0]) (ids := [0, 1]) (rt := .rpy)
    (wj := true) (uc := false) hS (a1_args hlen) (.inr rfl) (fun _ => .inl inertial)
  generalize hc : (PyCall.solveFk (.nd2 a1) [3, 0] [0, 1] .rpy .planer true false : PyCall ℝ) = c
  have hev2 : c.steps.run sB = .ok (.mats P J) s := by
    rw [PyCall.steps_run, ← hc]; simp only [pyEval, Prog.bind, e]; rfl
  have x1 := Pool.Exec.snoc .nil (Pool.Step.call (w := Pool.start s0 (pair c cB)) (i := 0) (c := c) (cs := []) rfl)
  obtain ⟨mid, w2, x2, _, hw2, _, ho⟩ := C90_alone hev x1 (i := 1) (cs := []) rfl
  obtain ⟨mid', w3, x3, _⟩ := Steps.alone c.steps hev2 x2 (i := 0) (ho 0 (by simp)) hw2
  exact ⟨_, w3, _, sB, s, x3, rfl, by simp, hR, hS, a1_args hlen⟩

/-- any order of the two calls leaves the joint and the base where the same call puts them -/
theorem serial_same {m m' : KinModel ℝ} {L : List (PyCall ℝ × Except Exn (PyVal ℝ))} (h : Serial m L m')
    (hL : ∀ x ∈ L, x.1 = cA ∨ x.1 = cB) (hm : 0 < m.angles.length) :
    0 < m'.angles.length ∧ (L ≠ [] → ∃ v, m'.angles[0]? = some v ∧ m'.base.position.x = v) := by
  induction h with
  | nil => exact ⟨hm, fun h => absurd rfl h⟩
  | @snoc m1 m2 L c r h ht ih =>
    have h1 := (ih (fun x hx => hL x (by simp [hx]))).1
    rcases hL (c, r) (by simp) with rfl | rfl
    · obtain ⟨a, b, d⟩ := takes_cA ht h1
      exact ⟨by omega, fun _ => ⟨0, a, b⟩⟩
    · obtain ⟨a, b, d⟩ := takes_cB ht h1
      exact ⟨by omega, fun _ => ⟨1, a, b⟩⟩

/-- **C91 is false.** C90_serial does not hold of `set_q` with a base: two threads set a joint and the base, both calls return,
and no order of the calls leaves the robot as it is then. -/
theorem C91_false : ∃ tr w, Pool.Exec (Pool.start s0 (pair cA cB)) tr w ∧ w.Idle ∧
    ¬∃ L : List (Nat × PyCall ℝ × Except Exn (PyVal ℝ)), Serial s0.robot (L.map Prod.snd) w.model.robot ∧
      ∀ i, (L.filter fun x => x.1 == i).map Prod.snd = resultsOf i tr ∧
        (resultsOf i tr).map Prod.fst ++ (w.threads i).todo = pair cA cB i := by
  have h0 : 0 < s0.robot.angles.length := by show 0 < m0.angles.length; rw [m0_angles]; simp
  obtain ⟨tr, w, sA, sB, hx, hid, hr0, hr1, eA, eB, ha, hb⟩ := C91_torn (s := s0) (ids := [0]) (v0 := [(0 : ℝ)]) (v1 := [1])
    (b0 := [0, 0, 0, 0, 0, 0]) (b1 := [1, 0, 0, 0, 0, 0]) (by simpa using h0) rfl rfl rfl rfl
  refine ⟨tr, w, hx, hid, ?_⟩
  rintro ⟨L, hs, hL⟩
  have hpair : ∀ i, ∀ c ∈ pair cA cB i, c = cA ∨ c = cB := by
    intro i c hc
    match i with
    | 0 => exact .inl (by simpa [pair] using hc)
    | 1 => exact .inr (by simpa [pair] using hc)
    | _ + 2 => simp [pair] at hc
  have hall : ∀ x ∈ L.map Prod.snd, x.1 = cA ∨ x.1 = cB := by
    intro x hx
    obtain ⟨⟨i, y⟩, hy, rfl⟩ := List.mem_map.mp hx
    obtain ⟨h1, h2⟩ := hL i
    refine hpair i _ ?_
    rw [← h2, ← h1]
    refine List.mem_append_left _ (List.mem_map.mpr ⟨y, List.mem_map.mpr ⟨(i, y), ?_, rfl⟩, rfl⟩)
    simp [hy]
  have hne : L.map Prod.snd ≠ [] := by
    intro he
    have : L = [] := by simpa using he
    have h1 := (hL 0).1
    rw [this, hr0] at h1
    simp at h1
  obtain ⟨v, hv1, hv2⟩ := (serial_same hs hall h0).2 hne
  have hA := pySetQ_ok (s := s0) (ids := [0]) (q := [(0 : ℝ)] ++ [0, 0, 0, 0, 0, 0]) (bt := .floating)
    (θ := s0.robot.angles.set 0 0) (by simp [writeAngles, h0]) (by simp [BaseType.dof])
  have hB := pySetQ_ok (s := s0) (ids := [0]) (q := [(1 : ℝ)] ++ [1, 0, 0, 0, 0, 0]) (bt := .floating)
    (θ := s0.robot.angles.set 0 1) (by simp [writeAngles, h0]) (by simp [BaseType.dof])
  rw [hA] at eA
  rw [hB] at eB
  cases eA
  cases eB
  have e1 : w.model.robot.angles[0]? = some 1 := by rw [ha]; simp [KinModel.reset, h0]
  have e2 : w.model.robot.base.position.x = 0 := by rw [hb]; simp [KinModel.reset, basePart]
  rw [e1] at hv1
  rw [e2] at hv2
  cases hv1
  norm_num at hv2

/-- the hypotheses of C91_get and C91_pickle hold of the example -/
example : ∃ tr w s1 new, Pool.Exec (Pool.start s0 (pair (.setQ [0] ([1] ++ [1, 0, 0, 0, 0, 0]) .floating) (.getQ [0] .floating))) tr w ∧
    w.Idle ∧ resultsOf 1 tr = [(.getQ [0] .floating, .ok (.vec (new ++
      [s0.robot.base.position.x, s0.robot.base.position.y, s0.robot.base.position.z, s0.robot.base.rotation.getRPY.x,
        s0.robot.base.rotation.getRPY.y, s0.robot.base.rotation.getRPY.z])))] ∧
    pySetQ [0] ([1] ++ [1, 0, 0, 0, 0, 0]) .floating s0 = .ok () s1 ∧ getJointAngles [0] s1.robot = .ok new s1.robot :=
  C91_get (by show ∀ i ∈ [0], i < m0.angles.length; rw [m0_angles]; simp) rfl rfl rfl

theorem replay_two {a b : SetArgs ℝ} {s s1 s2 : PyModel ℝ} (h1 : pySetQ a.ids a.q a.base s = .ok () s1)
    (h2 : pySetQ b.ids b.q b.base s1 = .ok () s2) : pyReplay [] [a, b] s = .ok () s2 := by
  show Prog.bind _ _ _ = _
  simp only [Prog.forEach, Prog.bind, Prog.pure, h1, h2]

/-- ... and a robot restored from the pickle has its joint elsewhere -/
example : ∃ tr w s1, Pool.Exec (Pool.start s0 (pair (.setQ [0] [0] .fixed) (.setQ [0] [1] .fixed))) tr w ∧ w.Idle ∧
    w.model.robot.angles[0]? = some 0 ∧ (pyReplay w.model.addHist w.model.setHist) s0 = .ok () s1 ∧ s1.robot.angles[0]? = some 1 := by
  have h0 : 0 < s0.robot.angles.length := by show 0 < m0.angles.length; rw [m0_angles]; simp
  obtain ⟨tr, w, sA, hx, hid, _, _, eA, hw, hp⟩ := C91_pickle (s := s0) (ids := [0]) (v0 := [(0 : ℝ)]) (v1 := [1])
    (by simpa using h0) rfl rfl
  have hA := pySetQ_ok (s := s0) (ids := [0]) (q := [(0 : ℝ)]) (bt := .fixed)
    (θ := s0.robot.angles.set 0 0) (by simp [writeAngles, h0]) (by simp [BaseType.dof])
  have hA' := hA
  rw [eA] at hA
  cases hA
  have h1 : w.model.addHist = [] := congrArg Pickled.addHist hp
  have h2 : w.model.setHist = [⟨[0], [0], .fixed⟩, ⟨[0], [1], .fixed⟩] := congrArg Pickled.setHist hp
  have hR : ∃ s1, (pyReplay w.model.addHist w.model.setHist) s0 = .ok () s1 ∧ s1.robot.angles[0]? = some 1 := by
    rw [h1, h2]
    have hB := pySetQ_ok (s := ⟨s0.xml, s0.robot.reset (s0.robot.angles.set 0 0) ((basePart [0].length .fixed [(0 : ℝ)]).getD s0.robot.base),
      s0.addHist, s0.setHist ++ [⟨[0], [0], .fixed⟩]⟩) (ids := [0]) (q := [(1 : ℝ)]) (bt := .fixed)
      (θ := s0.robot.angles.set 0 1) (by simp [writeAngles, h0, KinModel.reset]) (by simp [BaseType.dof])
    exact ⟨_, replay_two hA' hB, by simp [KinModel.reset, h0]⟩
  obtain ⟨s1, hs1, ha1⟩ := hR
  exact ⟨tr, w, s1, hx, hid, by rw [hw]; simp [KinModel.reset, h0], hs1, ha1⟩

end Example

end Tinyfk
