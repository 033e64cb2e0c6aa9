import Verif.Spec.PyThreads

/-!
# The steps of a method, run without interruption, are the method
-/

set_option linter.unusedSectionVars false
set_option linter.unusedSimpArgs false

namespace Tinyfk

open Scalar

variable {K : Type} [Scalar K] {α β : Type}

/-- run without interruption -/
def Steps.run : Steps K α → Prog (PyModel K) α
  | .done r => Prog.lift r
  | .addHist a k => fun s => k.run { s with addHist := s.addHist ++ [a] }
  | .setHist a k => fun s => k.run { s with setHist := s.setHist ++ [a] }
  | .robot p k => Prog.bind (onRobot p) fun b => (k b).run

/-- ... on the robot alone -/
def Steps.eval : Steps K α → Prog (KinModel K) α
  | .done r => Prog.lift r
  | .addHist _ k => k.eval
  | .setHist _ k => k.eval
  | .robot p k => Prog.bind p fun b => (k b).eval

theorem Steps.run_eval (t : Steps K α) (s : PyModel K) :
    match t.eval s.robot with
    | .ok a m => ∃ s', t.run s = .ok a s' ∧ s'.robot = m
    | .exn e m => ∃ s', t.run s = .exn e s' ∧ s'.robot = m
    | .ub u => t.run s = .ub u
    | .hang => t.run s = .hang := by
  induction t generalizing s with
  | done r => cases r <;> simp [Steps.eval, Steps.run, Prog.lift, Prog.read]
  | addHist a k ih => exact ih { s with addHist := s.addHist ++ [a] }
  | setHist a k ih => exact ih { s with setHist := s.setHist ++ [a] }
  | robot p k ih =>
    simp only [Steps.eval, Steps.run, Prog.bind, onRobot]
    cases e : p s.robot with
    | ok b m => simp only []; exact ih b { s with robot := m }
    | exn x m => simp
    | ub u => simp
    | hang => simp

@[simp] theorem Steps.local_run {o : Outcome α} {k : α → Steps K β} :
    (Steps.local o k).run = Prog.bind (Prog.lift o) fun a => (k a).run := by
  funext s
  cases o <;> simp [Steps.local, Steps.run, Prog.lift, Prog.read]

theorem tMats_run (sel : Bool) (n : Nat) (PJ : Mat K × Mat K) :
    (tMats sel n PJ).run = (if sel then Prog.bind (Prog.lift (PJ.2.selectCols (planarCols n))) fun J => Prog.pure (.mats PJ.1 J)
      else Prog.pure (.mats PJ.1 PJ.2)) := by
  cases sel <;> simp [tMats, Steps.run] <;> (funext s; simp [Prog.lift, Prog.read])

theorem tPrepare_run (n : Nat) (bt : BaseType) (a : Arr2 K) : (Prog.lift (tPrepare n bt a) : Prog (PyModel K) _) = prepareRows n bt a := by
  funext s
  cases bt <;> simp only [tPrepare, prepareRows, pyAssert, Prog.bind_apply]
  all_goals split <;> simp_all [Prog.lift, Prog.read, Prog.throw]

/-- the steps of each method, run without interruption, are the method -/
theorem PyCall.steps_run (c : PyCall K) : c.steps.run = pyEval c := by
  funext s
  cases c with
  | getQ ids bt =>
    cases bt with
    | fixed => 
      simp only [PyCall.steps, tGetQ, Steps.run, pyEval, pyGetQ, Prog.bind, Prog.bind_apply, Prog.pure_apply, Prog.lift, Prog.read]
      cases onRobot (Tinyfk.getJointAngles ids) s <;> rfl
    | planer =>
      simp only [PyCall.steps, tGetQ, Steps.run, pyEval, pyGetQ, Prog.bind, Prog.bind_apply, Prog.pure_apply]
      cases onRobot getBasePose s with
      | ok v s1 =>
        simp only []
        split
        · simp only [Steps.run, Prog.bind, Prog.bind_apply, Prog.pure_apply, Prog.lift, Prog.read]
          cases onRobot (Tinyfk.getJointAngles ids) s1 <;> rfl
        · simp only [Steps.run, Prog.lift, Prog.read, Prog.throw, Prog.bind_apply]
      | _ => rfl
    | floating =>
      simp only [PyCall.steps, tGetQ, Steps.run, pyEval, pyGetQ, Prog.bind, Prog.bind_apply, Prog.pure_apply, Prog.lift, Prog.read]
      cases onRobot getBasePose s with
      | ok v s1 => 
        simp only []
        cases onRobot (Tinyfk.getJointAngles ids) s1 <;> rfl
      | _ => rfl
  | setQ ids q bt =>
    simp only [PyCall.steps, tSetQ, Steps.run, pyEval, pySetQ, Prog.bind, Prog.bind_apply, Prog.modify]
    generalize ({ s with setHist := s.setHist ++ [⟨ids, q, bt⟩] } : PyModel K) = s1
    cases bt with
    | fixed =>
      simp only [pyAssert]
      by_cases h : (q.length == ids.length) = true
      · simp only [h, if_true, Prog.pure_apply, Steps.run, Prog.bind, Prog.bind_apply, Prog.lift, Prog.read]
        cases onRobot (Tinyfk.setJointAngles ids q) s1 <;> rfl
      · simp only [h, Prog.throw, Steps.run, Prog.lift, Prog.read]
        rfl
    | floating =>
      simp only [pyAssert]
      by_cases h : (q.length == ids.length + 6) = true
      · simp only [h, if_true, Prog.pure_apply, Steps.run, Prog.bind, Prog.bind_apply, Prog.lift, Prog.read]
        cases onRobot (Tinyfk.setJointAngles ids (q.take (q.length - 6))) s1 with
        | ok u s2 =>
          simp only []
          cases onRobot (setBasePoseVec (q.drop (q.length - 6))) s2 <;> rfl
        | _ => rfl
      · simp only [h, Prog.throw, Steps.run, Prog.lift, Prog.read]
        rfl
    | planer =>
      simp only [pyAssert]
      by_cases h : (q.length == ids.length + 3) = true
      · simp only [h, if_true, Prog.pure_apply, Prog.bind_apply]
        generalize q.drop (q.length - 3) = d
        split
        · simp only [Steps.run, Prog.bind, Prog.bind_apply, Prog.lift, Prog.read]
          cases onRobot (Tinyfk.setJointAngles ids (q.take (q.length - 3))) s1 with
          | ok u s2 =>
            simp only []
            cases onRobot (setBasePoseVec _) s2 <;> rfl
          | _ => rfl
        · simp only [Steps.run, Prog.lift, Prog.read, Prog.throw]
      · simp only [h, Prog.throw, Steps.run, Prog.lift, Prog.read]
        rfl
  | solveFk qs e ids rt bt wj uc =>
    simp only [PyCall.steps, Steps.local_run, Steps.run, pyEval, pySolveFk, Prog.bind, Prog.bind_apply, tPrepare_run, tMats_run]
    cases (Prog.lift (fkArg qs) : Prog (PyModel K) _) s with
    | ok a s1 =>
      simp only []
      cases prepareRows ids.length bt a s1 with
      | ok rows s2 =>
        simp only []
        cases onRobot (solveForwardKinematics rows e ids rt (bt != .fixed) wj uc) s2 with
        | ok PJ s3 =>
          obtain ⟨P, J⟩ := PJ
          by_cases hb : bt = .planer
          · simp only [hb, decide_true, if_true, Prog.bind, Prog.bind_apply, Prog.pure_apply]
            cases (Prog.lift (J.selectCols (planarCols ids.length)) : Prog (PyModel K) _) s3 <;> rfl
          · simp [hb]
        | _ => rfl
      | _ => rfl
    | _ => rfl
  | solveComFk qs ids act bt wj =>
    simp only [PyCall.steps, Steps.local_run, Steps.run, pyEval, pySolveComFk, Prog.bind, Prog.bind_apply, tPrepare_run, tMats_run]
    cases (Prog.lift (comArg qs) : Prog (PyModel K) _) s with
    | ok a s1 =>
      simp only []
      cases prepareRows ids.length bt a s1 with
      | ok rows s2 =>
        simp only []
        cases onRobot (solveComForwardKinematics rows ids (act.getD ([], [])).1 (act.getD ([], [])).2 (bt != .fixed) wj) s2 <;> rfl
      | _ => rfl
    | _ => rfl
  | sqdists qs ps ids bt wj uc =>
    simp only [PyCall.steps, Steps.local_run, pyEval, pySqdists, Prog.bind, Prog.bind_apply]
    have tail : ∀ (rows : List (List K)) (s1 : PyModel K),
        (if ps = [] then Steps.done (.exn (.valueError "not enough values to unpack"))
          else .robot (computeInterLinkSquaredDists rows (ps.map Prod.fst) (ps.map Prod.snd) ids (bt != .fixed) wj uc)
            (tMats (decide (bt = .planer ∧ wj = true)) ids.length) : Steps K (PyVal K)).run s1 =
        Prog.bind (if ps = [] then Prog.throw (.valueError "not enough values to unpack")
          else do
            let (V, J) ← onRobot (computeInterLinkSquaredDists rows (ps.map Prod.fst) (ps.map Prod.snd) ids (bt != .fixed) wj uc)
            if bt = .planer ∧ wj then do
              let J ← Prog.lift (J.selectCols (planarCols ids.length))
              pure (V, J)
            else pure (V, J)) (fun PJ => Prog.pure (.mats PJ.1 PJ.2)) s1 := by
      intro rows s1
      by_cases hp : ps = []
      · simp [hp, Steps.run, Prog.lift, Prog.read, Prog.throw]
      · simp only [hp, if_false, Steps.run, Prog.bind, Prog.bind_apply, tMats_run]
        cases onRobot (computeInterLinkSquaredDists rows (ps.map Prod.fst) (ps.map Prod.snd) ids (bt != .fixed) wj uc) s1 with
        | ok PJ s3 =>
          obtain ⟨P, J⟩ := PJ
          by_cases hb : bt = .planer ∧ wj = true
          · simp only [hb, decide_true, if_true, Prog.bind, Prog.bind_apply, Prog.pure_apply, and_self]
            cases (Prog.lift (J.selectCols (planarCols ids.length)) : Prog (PyModel K) _) s3 <;> rfl
          · simp [hb]
        | _ => rfl
    simp only [tail]
    by_cases hb : bt = .planer
    · subst hb
      simp only [if_true, Prog.bind_apply]
      cases (Prog.lift (modifyInput ids.length qs) : Prog (PyModel K) _) s <;> rfl
    · simp only [hb, if_false, Prog.bind_apply, Prog.pure_apply, Prog.lift, Prog.read, false_and]
      rfl
  | inertia q ids =>
    simp only [PyCall.steps, Steps.run, pyEval, pyInertia, Prog.bind]
    cases onRobot (computeTotalInertiaMatrix q ids) s <;> rfl
  | getJointNames =>
    simp only [PyCall.steps, Steps.run, pyEval, pyGetJointNames, Prog.bind]
    cases onRobot Tinyfk.getJointNames s <;> rfl
  | getJointIds ns =>
    simp only [PyCall.steps, Steps.run, pyEval, pyGetJointIds, Prog.bind]
    cases onRobot (Tinyfk.getJointIds ns) s <;> rfl
  | getLinkIds ns =>
    simp only [PyCall.steps, Steps.run, pyEval, pyGetLinkIds, Prog.bind]
    cases onRobot (Tinyfk.getLinkIds ns) s <;> rfl
  | getJointLimits ids =>
    simp only [PyCall.steps, Steps.run, pyEval, pyGetJointLimits, Prog.bind, Prog.bind_apply]
    cases onRobot (getJointPositionLimits ids) s <;> rfl
  | addNewLink a =>
    simp only [PyCall.steps, Steps.run, pyEval, pyAddNewLink, Prog.bind, Prog.bind_apply, Prog.modify]
    cases onRobot (wAddNewLink a.name a.parent a.position (a.rpy.getD Vec3.zero)) { s with addHist := s.addHist ++ [a] } <;> rfl
  | clearCache =>
    simp only [PyCall.steps, Steps.run, pyEval, pyClearCache, Prog.bind]
    cases onRobot Tinyfk.clearCache s <;> rfl
  | totalMass => rfl
  | rootLinkName =>
    simp only [PyCall.steps, Steps.run, pyEval, pyRootLinkName, Prog.bind]
    cases onRobot getRootLinkName s <;> rfl

/-- at most one call of the extension, and then the end -/
inductive Steps.AtMostOne : Steps K α → Prop
  | done (r : Outcome α) : (Steps.done r : Steps K α).AtMostOne
  | addHist {a : AddArgs K} {k : Steps K α} : k.AtMostOne → (Steps.addHist a k).AtMostOne
  | setHist {a : SetArgs K} {k : Steps K α} : k.AtMostOne → (Steps.setHist a k).AtMostOne
  | robot {γ : Type} {p : Prog (KinModel K) γ} {k : γ → Steps K α} : (∀ b, ∃ r, k b = .done r) → (Steps.robot p k).AtMostOne

theorem Steps.AtMostOne.local {o : Outcome α} {k : α → Steps K β} (h : ∀ a, (k a).AtMostOne) : (Steps.local o k).AtMostOne := by
  cases o <;> first | exact h _ | exact .done _

theorem tMats_done (sel : Bool) (n : Nat) (PJ : Mat K × Mat K) : ∃ r, tMats sel n PJ = .done r := by
  cases sel with
  | false => exact ⟨_, rfl⟩
  | true =>
    simp only [tMats, if_true, Steps.local]
    split <;> exact ⟨_, rfl⟩

theorem PyCall.Single.steps {c : PyCall K} (h : c.Single) : c.steps.AtMostOne := by
  cases c with
  | getQ ids bt => cases h; exact .robot fun _ => ⟨_, rfl⟩
  | setQ ids q bt =>
    cases h
    refine .setHist ?_
    simp only []
    split
    · exact .robot fun _ => ⟨_, rfl⟩
    · exact .done _
  | solveFk => exact .local fun _ => .local fun _ => .robot fun _ => tMats_done _ _ _
  | solveComFk => exact .local fun _ => .local fun _ => .robot fun _ => tMats_done _ _ _
  | sqdists =>
    refine .local fun _ => ?_
    split
    · exact .done _
    · exact .robot fun _ => tMats_done _ _ _
  | addNewLink a => exact .addHist (.robot fun _ => ⟨_, rfl⟩)
  | _ => exact .robot fun _ => ⟨_, rfl⟩

/-- a result as an outcome -/
def ofExcept : Except Exn α → Outcome α
  | .ok a => .ok a
  | .error e => .exn e

theorem takes_of_eval {c : PyCall K} {m m' : KinModel K} {r : Except Exn (PyVal K)}
    (h : c.steps.eval m = match r with
      | .ok v => .ok v m'
      | .error e => .exn e m') : Takes c m r m' := by
  intro s hs
  have := c.steps.run_eval s
  rw [hs, h, c.steps_run] at this
  cases r with
  | ok v => obtain ⟨s', h1, h2⟩ := this; exact ⟨s', h2, h1⟩
  | error e => obtain ⟨s', h1, h2⟩ := this; exact ⟨s', h2, h1⟩

theorem takes_of_done {c : PyCall K} {m : KinModel K} {r : Except Exn (PyVal K)}
    (h : c.steps.eval = (Steps.done (ofExcept r) : Steps K (PyVal K)).eval) : Takes c m r m := by
  refine takes_of_eval ?_
  rw [h]
  cases r <;> rfl

variable {s0 : PyModel K} {progs : Nat → List (PyCall K)} {tr : List (TEvent K × PyModel K)} {w w1 w2 : Pool K}

theorem modelAfter_snoc (s : PyModel K) (tr : List (TEvent K × PyModel K)) (e : TEvent K) (s1 : PyModel K) :
    modelAfter s (tr ++ [(e, s1)]) = s1 := by simp [modelAfter]

theorem Pool.Exec.model (h : Pool.Exec w tr w1) : w1.model = modelAfter w.model tr := by
  cases h with
  | nil => rfl
  | snoc _ _ => rw [modelAfter_snoc]

theorem Pool.set_same (w : Pool K) (i : Nat) (t : Thread K) : (w.set i t).threads i = t := by simp [Pool.set]
theorem Pool.set_ne (w : Pool K) {i j : Nat} (t : Thread K) (h : j ≠ i) : (w.set i t).threads j = w.threads j := by
  simp [Pool.set, h]

/-- what is known of a call that a thread is in -/
def During (s0 : PyModel K) (tr : List (TEvent K × PyModel K)) (i : Nat) (c : PyCall K) (k : Steps K (PyVal K)) : Prop :=
  ∃ a0 sc mid, tr = a0 ++ (.call i c, sc) :: mid ∧ sc = modelAfter s0 a0 ∧ (∀ e ∈ mid, ¬e.1.Bounds i) ∧
    (c.Single → (k.AtMostOne ∧ k.eval = c.steps.eval) ∨ ∃ o, k = .done o ∧ ∀ r, o = ofExcept r → ∃ m1 x m2, mid = m1 ++ x :: m2 ∧
      Takes c (modelAfter s0 (a0 ++ (.call i c, sc) :: m1)).robot r x.2.robot)

theorem During.other {i : Nat} {c : PyCall K} {k : Steps K (PyVal K)} (h : During s0 tr i c k) {e : TEvent K} (s1 : PyModel K)
    (he : ¬e.Bounds i) : During s0 (tr ++ [(e, s1)]) i c k := by
  obtain ⟨a0, sc, mid, h1, h2, h3, h4⟩ := h
  refine ⟨a0, sc, mid ++ [(e, s1)], by rw [h1]; simp, h2, ?_, fun hs => ?_⟩
  · intro x m
    rcases List.mem_append.1 m with m | m
    · exact h3 x m
    · simp only [List.mem_singleton] at m
      subst m
      exact he
  · rcases h4 hs with h4 | ⟨o, e1, h4⟩
    · exact .inl h4
    · refine .inr ⟨o, e1, fun r hr => ?_⟩
      obtain ⟨m1, x, m2, e2, h5⟩ := h4 r hr
      exact ⟨m1, x, m2 ++ [(e, s1)], by rw [e2]; simp, h5⟩

/-- a step that leaves the robot alone -/
theorem During.hist {i : Nat} {c : PyCall K} {k k' : Steps K (PyVal K)} (h : During s0 tr i c k) (s1 : PyModel K)
    (h1 : k.AtMostOne → k'.AtMostOne) (h2 : k'.eval = k.eval) (h3 : ∀ o, k ≠ .done o) : During s0 (tr ++ [(.step i, s1)]) i c k' := by
  obtain ⟨a0, sc, mid, e1, e2, e3, e4⟩ := h.other s1 (e := .step i) id
  refine ⟨a0, sc, mid, e1, e2, e3, fun hs => ?_⟩
  rcases e4 hs with h | ⟨o, h, _⟩
  · exact .inl ⟨h1 h.1, h2.trans h.2⟩
  · exact absurd h (h3 o)

/-- the call of the extension -/
theorem During.robot {i : Nat} {c : PyCall K} {k k' : Steps K (PyVal K)} (h : During s0 tr i c k) (s1 : PyModel K)
    (h1 : k.AtMostOne → ∃ o, k' = .done o ∧ ∀ r, o = ofExcept r → k.eval (modelAfter s0 tr).robot = match r with
      | .ok v => .ok v s1.robot
      | .error e => .exn e s1.robot) (h3 : ∀ o, k ≠ .done o) : During s0 (tr ++ [(.step i, s1)]) i c k' := by
  obtain ⟨a0, sc, mid, rfl, e2, e3, e4⟩ := h
  refine ⟨a0, sc, mid ++ [(.step i, s1)], by simp, e2, ?_, fun hs => ?_⟩
  · intro x m
    rcases List.mem_append.1 m with m | m
    · exact e3 x m
    · simp only [List.mem_singleton] at m
      subst m
      exact id
  · rcases e4 hs with h | ⟨o, h, _⟩
    · obtain ⟨o, ho, h1⟩ := h1 h.1
      refine .inr ⟨o, ho, fun r hr => ⟨mid, (.step i, s1), [], rfl, ?_⟩⟩
      apply takes_of_eval
      rw [← h.2]
      exact h1 r hr
    · exact absurd h (h3 o)

theorem Pool.Exec.during (h : Pool.Exec (Pool.start s0 progs) tr w) (i : Nat) (c : PyCall K) (k : Steps K (PyVal K))
    (hc : (w.threads i).cur = some (c, k)) : During s0 tr i c k := by
  generalize e : Pool.start s0 progs = w0 at h
  induction h generalizing i c k with
  | nil => subst e; cases hc
  | @snoc w1 w2 tr ev h hs ih =>
    subst e
    have hm : w1.model = modelAfter s0 tr := h.model
    cases hs with
    | @call j c' cs hj =>
      by_cases hij : i = j
      · subst hij
        rw [Pool.set_same] at hc
        cases hc
        exact ⟨tr, _, [], rfl, hm, by simp, fun hs => .inl ⟨hs.steps, rfl⟩⟩
      · rw [Pool.set_ne _ _ hij] at hc
        exact (ih i c k hc).other _ (fun h => hij h.symm)
    | @addHist j c' cs a k' hj =>
      by_cases hij : i = j
      · subst hij
        rw [Pool.set_same] at hc
        cases hc
        exact (ih i c (.addHist a k) (by rw [hj])).hist _ (fun h => by cases h; assumption) rfl (fun o h => by cases h)
      · rw [Pool.set_ne _ _ hij] at hc
        exact (ih i c k hc).other _ id
    | @setHist j c' cs a k' hj =>
      by_cases hij : i = j
      · subst hij
        rw [Pool.set_same] at hc
        cases hc
        exact (ih i c (.setHist a k) (by rw [hj])).hist _ (fun h => by cases h; assumption) rfl (fun o h => by cases h)
      · rw [Pool.set_ne _ _ hij] at hc
        exact (ih i c k hc).other _ id
    | @robot j c' cs β p k' b m hj hp =>
      by_cases hij : i = j
      · subst hij
        rw [Pool.set_same] at hc
        cases hc
        refine (ih i c (.robot p k') (by rw [hj])).robot _ (fun h => ?_) (fun o h => by cases h)
        cases h with
        | robot h =>
          obtain ⟨o, ho⟩ := h b
          refine ⟨o, ho, fun r hr => ?_⟩
          simp only [Steps.eval, Prog.bind, ← hm, hp, ho, hr]
          cases r <;> rfl
      · rw [Pool.set_ne _ _ hij] at hc
        exact (ih i c k hc).other _ id
    | @raise j c' cs β p k' x m hj hp =>
      by_cases hij : i = j
      · subst hij
        rw [Pool.set_same] at hc
        cases hc
        refine (ih i c (.robot p k') (by rw [hj])).robot _ (fun h => ⟨_, rfl, fun r hr => ?_⟩) (fun o h => by cases h)
        simp only [Steps.eval, Prog.bind, ← hm, hp]
        cases r <;> cases hr
        rfl
      · rw [Pool.set_ne _ _ hij] at hc
        exact (ih i c k hc).other _ id
    | @ret j c' cs v hj =>
      by_cases hij : i = j
      · subst hij
        rw [Pool.set_same] at hc
        cases hc
      · rw [Pool.set_ne _ _ hij] at hc
        exact (ih i c k hc).other _ (fun h => hij h.symm)
    | @retExn j c' cs x hj =>
      by_cases hij : i = j
      · subst hij
        rw [Pool.set_same] at hc
        cases hc
      · rw [Pool.set_ne _ _ hij] at hc
        exact (ih i c k hc).other _ (fun h => hij h.symm)

/-- the parts of an execution -/
theorem Pool.Exec.split {w0 : Pool K} {pre post : List (TEvent K × PyModel K)} {e : TEvent K} {s : PyModel K}
    (h : Pool.Exec w0 (pre ++ (e, s) :: post) w) : ∃ w1 w2, Pool.Exec w0 pre w1 ∧ Pool.Step w1 e w2 ∧ s = w2.model := by
  generalize et : pre ++ (e, s) :: post = tr at h
  induction h generalizing post with
  | nil => cases pre <;> cases et
  | @snoc w1 w2 tr ev h hs ih =>
    rcases List.eq_nil_or_concat post with rfl | ⟨post', x, rfl⟩
    · have := List.append_inj' et rfl
      cases this.1
      have e2 := (List.cons.inj this.2).1
      cases e2
      exact ⟨_, _, h, hs, rfl⟩
    · have e2 : (pre ++ (e, s) :: post') ++ [x] = tr ++ [(ev, w2.model)] := by rw [← et]; simp
      have := List.append_inj' e2 rfl
      exact ih this.1

/-- the part of an execution up to an event -/
theorem Pool.Exec.prefix {w0 : Pool K} {pre post : List (TEvent K × PyModel K)}
    (h : Pool.Exec w0 (pre ++ post) w) : ∃ w1, Pool.Exec w0 pre w1 := by
  cases post with
  | nil => simp only [List.append_nil] at h; exact ⟨w, h⟩
  | cons x post =>
    obtain ⟨w1, _, h, _⟩ := Pool.Exec.split (e := x.1) (s := x.2) h
    exact ⟨w1, h⟩

end Tinyfk
