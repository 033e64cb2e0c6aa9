import Verif.Spec.Pickle
import Verif.Proofs.PyReach

/-!
# Pickling: replaying the two histories in turn
-/

set_option linter.unusedSectionVars false

namespace Tinyfk

open Scalar

variable {K : Type} [Scalar K]

/-- the robot with other joint angles and base -/
def KinModel.posed (m : KinModel K) (θ : List K) (p : Pose K) : KinModel K := { m with angles := θ, base := p }

theorem SizedCache.clear_clear {D : Type} (c : SizedCache D) : c.clear.clear = c.clear := rfl

theorem updateRptable_posed (m : KinModel K) (θ : List K) (p : Pose K) : updateRptable (m.posed θ p) =
    match updateRptable m with
    | .ok _ m' => .ok () (m'.posed θ p)
    | .exn e m' => .exn e (m'.posed θ p)
    | .ub u => .ub u
    | .hang => .hang := by
  unfold updateRptable
  rw [rpLoop_congr (m := m) (m' := m.posed θ p) rfl rfl rfl]
  have e1 : (m.posed θ p).joints = m.joints := rfl
  have e2 : (m.posed θ p).linkIds = m.linkIds := rfl
  have e3 : (m.posed θ p).jointIds = m.jointIds := rfl
  rw [e1, e2, e3]
  cases rpLoop m m.joints (RpTable.mk' m.linkIds.length m.jointIds.length) <;> rfl

theorem updateRptable_keeps {m m' : KinModel K} (h : updateRptable m = .ok () m') :
    m'.angles = m.angles ∧ m'.base = m.base ∧ m'.cache = m.cache := by
  unfold updateRptable at h
  split at h <;> cases h
  exact ⟨rfl, rfl, rfl⟩

/-- adding a link does not look at angles and base -/
theorem addNewLink_posed {m m' : KinModel K} {name : String} {parent l : Nat} {o : Pose K}
    (h : addNewLink name parent o m = .ok l m') (θ : List K) (p : Pose K) :
    addNewLink name parent o (m.posed θ p) = .ok l (m'.posed θ p) ∧ m'.angles = m.angles ∧ m'.base = m.base ∧
      m'.cache.clear = m'.cache := by
  cases hn : m.linkIds.find name with
  | some x => rw [addNewLink_dup hn] at h; cases h
  | none =>
    by_cases hp : parent < m.links.length
    · rw [addNewLink_run o hn hp] at h
      rw [addNewLink_run (m := m.posed θ p) o hn hp]
      have hA : attached (m.posed θ p) name parent o = (attached m name parent o).posed θ p := rfl
      rw [hA]
      simp only [Prog.bind] at h ⊢
      rw [updateRptable_posed]
      cases hu : updateRptable (attached m name parent o) with
      | ok a m1 =>
        rw [hu] at h
        simp only [Prog.pure, Res.ok.injEq] at h
        obtain ⟨h1, rfl⟩ := h
        obtain ⟨e1, e2, e3⟩ := updateRptable_keeps hu
        refine ⟨by rw [← h1]; rfl, e1, e2, ?_⟩
        rw [e3]; rfl
      | exn e m1 => rw [hu] at h; cases h
      | ub u => rw [hu] at h; cases h
      | hang => rw [hu] at h; cases h
    · simp only [addNewLink, hn, hp, if_false] at h
      cases h

/-- the robot after `set_q` -/
def KinModel.reset (m : KinModel K) (θ : List K) (p : Pose K) : KinModel K :=
  { m with angles := θ, base := p, cache := m.cache.clear }

/-- what a successful `set_q` does -/
theorem pySetQ_eq {s s' : PyModel K} {ids : List Nat} {q : List K} {bt : BaseType} (h : pySetQ ids q bt s = .ok () s') :
    ∃ θ, writeAngles ids (q.take ids.length) s.robot.angles = .ok θ ∧ q.length = ids.length + bt.dof ∧
      s' = ⟨s.xml, s.robot.reset θ ((basePart ids.length bt q).getD s.robot.base), s.addHist, s.setHist ++ [⟨ids, q, bt⟩]⟩ := by
  cases bt with
  | fixed =>
    simp only [pySetQ, Prog.bind_apply, Prog.modify, pyAssert] at h
    by_cases hq : q.length = ids.length
    · simp only [hq, beq_self_eq_true, if_true, Prog.pure_apply, onRobot, setJointAngles, setJointAnglesNC, clearCache,
        Prog.bind_apply, Prog.modify] at h
      have htk : q.take ids.length = q := by rw [← hq]; exact List.take_length
      cases hw : writeAngles ids q s.robot.angles with
      | ok a =>
        rw [hw] at h
        cases h
        exact ⟨a, by rw [htk]; exact hw, by simpa [BaseType.dof] using hq, by simp [basePart, KinModel.reset]⟩
      | exn x => rw [hw] at h; cases h
      | ub u => rw [hw] at h; cases h
      | hang => rw [hw] at h; cases h
    · simp [hq, Prog.throw] at h
  | planer =>
    simp only [pySetQ, Prog.bind_apply, Prog.modify, pyAssert] at h
    by_cases hq : q.length = ids.length + 3
    · obtain ⟨x, y, w, hd⟩ := drop_three hq
      have h3 : q.length - 3 = ids.length := by omega
      simp only [hq, beq_self_eq_true, if_true, Prog.pure_apply, Nat.add_sub_cancel, hd, Prog.bind_apply, onRobot, setJointAngles, setJointAnglesNC, clearCache,
        Prog.modify] at h
      cases hw : writeAngles ids (q.take ids.length) s.robot.angles with
      | ok a =>
        rw [hw] at h
        simp only [setBasePoseVec, setBasePose, Prog.bind_apply, Prog.modify, clearCache] at h
        cases h
        exact ⟨a, rfl, by simpa [BaseType.dof] using hq, by simp [basePart, hd, poseOfXyzrpy, KinModel.reset, SizedCache.clear_clear]⟩
      | exn x => rw [hw] at h; cases h
      | ub u => rw [hw] at h; cases h
      | hang => rw [hw] at h; cases h
    · simp [hq, Prog.throw] at h
  | floating =>
    simp only [pySetQ, Prog.bind_apply, Prog.modify, pyAssert] at h
    by_cases hq : q.length = ids.length + 6
    · obtain ⟨x, y, z, r, p, w, hd⟩ := drop_six hq
      have h3 : q.length - 6 = ids.length := by omega
      simp only [hq, beq_self_eq_true, if_true, Prog.pure_apply, Nat.add_sub_cancel, hd, Prog.bind_apply, onRobot, setJointAngles, setJointAnglesNC, clearCache,
        Prog.modify] at h
      cases hw : writeAngles ids (q.take ids.length) s.robot.angles with
      | ok a =>
        rw [hw] at h
        simp only [setBasePoseVec, setBasePose, Prog.bind_apply, Prog.modify, clearCache] at h
        cases h
        exact ⟨a, rfl, by simpa [BaseType.dof] using hq, by simp [basePart, hd, poseOfXyzrpy, KinModel.reset, SizedCache.clear_clear]⟩
      | exn x => rw [hw] at h; cases h
      | ub u => rw [hw] at h; cases h
      | hang => rw [hw] at h; cases h
    · simp [hq, Prog.throw] at h

/-- `set_q` succeeds on any model when it can write the angles -/
theorem pySetQ_ok {s : PyModel K} {ids : List Nat} {q : List K} {bt : BaseType} {θ : List K}
    (hw : writeAngles ids (q.take ids.length) s.robot.angles = .ok θ) (hq : q.length = ids.length + bt.dof) :
    pySetQ ids q bt s = .ok () ⟨s.xml, s.robot.reset θ ((basePart ids.length bt q).getD s.robot.base),
      s.addHist, s.setHist ++ [⟨ids, q, bt⟩]⟩ := by
  cases bt with
  | fixed =>
    simp only [BaseType.dof, Nat.add_zero] at hq
    have htk : q.take ids.length = q := by rw [← hq]; exact List.take_length
    rw [htk] at hw
    simp only [pySetQ, Prog.bind_apply, Prog.modify, pyAssert, hq, beq_self_eq_true, if_true, Prog.pure_apply, onRobot,
      setJointAngles, setJointAnglesNC, clearCache, hw]
    simp [basePart, KinModel.reset]
  | planer =>
    simp only [BaseType.dof] at hq
    obtain ⟨x, y, w, hd⟩ := drop_three hq
    simp only [pySetQ, Prog.bind_apply, Prog.modify, pyAssert, hq, beq_self_eq_true, if_true, Prog.pure_apply, Nat.add_sub_cancel,
      hd, onRobot, setJointAngles, setJointAnglesNC, clearCache, hw, setBasePoseVec, setBasePose]
    simp [basePart, hd, poseOfXyzrpy, KinModel.reset, SizedCache.clear_clear]
  | floating =>
    simp only [BaseType.dof] at hq
    obtain ⟨x, y, z, r, p, w, hd⟩ := drop_six hq
    simp only [pySetQ, Prog.bind_apply, Prog.modify, pyAssert, hq, beq_self_eq_true, if_true, Prog.pure_apply, Nat.add_sub_cancel,
      hd, onRobot, setJointAngles, setJointAnglesNC, clearCache, hw, setBasePoseVec, setBasePose]
    simp [basePart, hd, poseOfXyzrpy, KinModel.reset, SizedCache.clear_clear]

/-- what a successful `add_new_link` does, on this and on a re-posed robot -/
theorem pyAddNewLink_eq {s s' : PyModel K} {a : AddArgs K} (h : pyAddNewLink a s = .ok () s') :
    s'.xml = s.xml ∧ s'.addHist = s.addHist ++ [a] ∧ s'.setHist = s.setHist ∧ s'.robot.angles = s.robot.angles ∧
    s'.robot.base = s.robot.base ∧ s'.robot.cache.clear = s'.robot.cache ∧
    ∀ x A H θ p, pyAddNewLink a ⟨x, s.robot.posed θ p, A, H⟩ = .ok () ⟨x, s'.robot.posed θ p, A ++ [a], H⟩ := by
  simp only [pyAddNewLink, Prog.bind_apply, Prog.modify, onRobot, wAddNewLink, addNewLinkRPY] at h ⊢
  generalize (⟨a.position, Rot.fromRPY (a.rpy.getD Vec3.zero).x (a.rpy.getD Vec3.zero).y (a.rpy.getD Vec3.zero).z⟩ : Pose K) = o at h ⊢
  cases ha : addNewLink a.name a.parent o s.robot with
  | ok l m' =>
    rw [ha] at h
    simp only [Prog.pure_apply] at h
    cases h
    have hp := fun θ p => addNewLink_posed ha θ p
    obtain ⟨_, e1, e2, e3⟩ := hp [] Pose.identity
    refine ⟨rfl, rfl, rfl, e1, e2, e3, ?_⟩
    intro x A H θ p
    rw [(hp θ p).1]
    rfl
  | exn x m' => rw [ha] at h; cases h
  | ub u => rw [ha] at h; cases h
  | hang => rw [ha] at h; cases h

/-- what is true of a model and its histories as long as everything is recorded -/
structure Replayed (m0 : KinModel K) (s : PyModel K) : Prop where
  cache : s.robot.cache.clear = s.robot.cache
  adds : ∀ x A H, Prog.forEach s.addHist (fun a _ => pyAddNewLink a) () ⟨x, m0, A, H⟩ =
    .ok () ⟨x, s.robot.posed m0.angles m0.base, A ++ s.addHist, H⟩
  sets : ∀ x (m : KinModel K) A H, m.cache.clear = m.cache → m.angles = m0.angles → m.base = m0.base →
    Prog.forEach s.setHist (fun a _ => pySetQ a.ids a.q a.base) () ⟨x, m, A, H⟩ =
      .ok () ⟨x, m.posed s.robot.angles s.robot.base, A, H ++ s.setHist⟩

theorem forEach_append {σ ι β : Type} (xs ys : List ι) (body : ι → β → Prog σ β) (b : β) (s : σ) :
    Prog.forEach (xs ++ ys) body b s = Prog.bind (Prog.forEach xs body b) (Prog.forEach ys body) s := by
  induction xs generalizing b s with
  | nil => rfl
  | cons x xs ih =>
    simp only [List.cons_append, Prog.forEach, Prog.bind]
    cases body x b s with
    | ok b' s' => simp only [ih, Prog.bind]
    | exn e s' => rfl
    | ub u => rfl
    | hang => rfl

theorem Replayed.init {m0 : KinModel K} (x : String) (hc : m0.cache.clear = m0.cache) : Replayed m0 ⟨x, m0, [], []⟩ where
  cache := hc
  adds x A H := by simp [Prog.forEach, Prog.pure, KinModel.posed]
  sets x m A H _ h1 h2 := by
    simp only [Prog.forEach, Prog.pure, KinModel.posed, List.append_nil, ← h1, ← h2]

/-- a program that leaves the model as it is -/
def Still {α : Type} (p : Prog (PyModel K) α) : Prop :=
  ∀ s, match p s with
    | .ok _ s' => s' = s
    | .exn _ s' => s' = s
    | .ub _ => True
    | .hang => True

theorem Still.read {α : Type} (f : KinModel K → Outcome α) : Still (onRobot (Prog.read f) : Prog (PyModel K) α) := by
  intro s
  simp only [onRobot, Prog.read]
  cases f s.robot <;> trivial

theorem Still.pure {α : Type} (a : α) : Still (Pure.pure a : Prog (PyModel K) α) := fun _ => rfl

theorem Still.throw {α : Type} (e : Exn) : Still (Prog.throw e : Prog (PyModel K) α) := fun _ => rfl

theorem Still.bind {α β : Type} {p : Prog (PyModel K) α} {f : α → Prog (PyModel K) β} (hp : Still p) (hf : ∀ a, Still (f a)) :
    Still (p >>= f) := by
  intro s
  have h := hp s
  rw [Prog.bind_apply]
  cases e : p s with
  | ok a s' =>
    rw [e] at h
    simp only at h ⊢
    subst h
    exact hf a s'
  | exn x s' => rw [e] at h; exact h
  | ub u => trivial
  | hang => trivial

theorem PyCall.IsRead.eq {c : PyCall K} (hc : c.IsRead) {s s1 : PyModel K} (hk : s.robot.cache.clear = s.robot.cache)
    (h : c.run s = .ok () s1 ∨ ∃ e, c.run s = .exn e s1) : s1 = s := by
  have key : Still c.run → s1 = s := by
    intro hs
    have := hs s
    rcases h with h | ⟨e, h⟩ <;> (rw [h] at this; exact this)
  cases c with
  | getQ ids bt =>
    refine key (.bind ?_ fun _ => .pure _)
    unfold pyGetQ
    have hjp : ∀ v, Still (onRobot (Tinyfk.getJointAngles ids) >>= fun a => (Pure.pure (a ++ v) : Prog (PyModel K) (List K))) :=
      fun _ => .bind (.read _) fun _ => .pure _
    cases bt with
    | fixed => exact .bind (.pure _) hjp
    | planer =>
      refine .bind (.read _) fun v => ?_
      split
      · exact .bind (.pure _) hjp
      · exact .bind (.throw _) hjp
    | floating => exact .bind (.read _) hjp
  | getJointNames => exact key (.bind (.read _) fun _ => .pure _)
  | getJointIds ns => exact key (.bind (.read _) fun _ => .pure _)
  | getLinkIds ns => exact key (.bind (.read _) fun _ => .pure _)
  | getJointLimits ids => exact key (.bind (.bind (.read _) fun _ => .pure _) fun _ => .pure _)
  | totalMass => exact key (.bind (fun _ => rfl) fun _ => .pure _)
  | rootLinkName => exact key (.bind (.read _) fun _ => .pure _)
  | clearCache =>
    simp only [PyCall.run, pyClearCache, onRobot, Tinyfk.clearCache, Prog.modify, hk] at h
    rcases h with h | ⟨e, h⟩
    · cases h; rfl
    · cases h
  | _ => exact hc.elim

theorem Replayed.step {m0 : KinModel K} {s s1 : PyModel K} (hr : Replayed m0 s) {c : PyCall K} (hc : c.IsRecorded)
    (h : c.run s = .ok () s1) : Replayed m0 s1 ∧ s1.xml = s.xml := by
  cases c with
  | addNewLink a =>
    obtain ⟨e1, e2, e3, e4, e5, e6, e7⟩ := pyAddNewLink_eq h
    refine ⟨⟨e6, ?_, ?_⟩, e1⟩
    · intro x A H
      rw [e2, forEach_append]
      simp only [Prog.bind, hr.adds, Prog.forEach, e7, Prog.pure, List.append_assoc]
    · intro x m A H k1 k2 k3
      rw [e3, e4, e5]
      exact hr.sets x m A H k1 k2 k3
  | setQ ids q bt =>
    obtain ⟨θ, w, hq, rfl⟩ := pySetQ_eq h
    refine ⟨⟨rfl, ?_, ?_⟩, rfl⟩
    · intro x A H
      have e : (s.robot.reset θ ((basePart ids.length bt q).getD s.robot.base)).posed m0.angles m0.base =
          s.robot.posed m0.angles m0.base := by
        simp only [KinModel.reset, KinModel.posed, hr.cache]
      simp only [e]
      exact hr.adds x A H
    · intro x m A H k1 k2 k3
      simp only
      rw [forEach_append]
      simp only [Prog.bind, hr.sets x m A H k1 k2 k3, Prog.forEach, Prog.pure]
      have := pySetQ_ok (s := ⟨x, m.posed s.robot.angles s.robot.base, A, H ++ s.setHist⟩) (θ := θ) w hq
      rw [this]
      simp only [KinModel.posed, KinModel.reset, k1, List.append_assoc]
  | _ => exact hc.elim

theorem Replayed.run {m0 : KinModel K} {s s1 : PyModel K} {h : List (PyCall K)} (hr : Replayed m0 s) (hh : Recorded s h s1) :
    Replayed m0 s1 ∧ s1.xml = s.xml := by
  induction hh with
  | nil => exact ⟨hr, rfl⟩
  | read h1 h2 _ ih =>
    have e := h1.eq hr.cache h2
    subst e
    exact ih hr
  | call h1 h2 _ ih =>
    obtain ⟨h3, h4⟩ := hr.step h1 h2
    obtain ⟨h5, h6⟩ := ih h3
    exact ⟨h5, h6.trans h4⟩

theorem construct_cache {o : Option (ModelInterface K)} {m0 : KinModel K} (h : construct o = .ok m0) :
    m0.cache.clear = m0.cache := by
  unfold construct at h
  split at h
  · cases h
  · split at h
    · simp only [Prog.bind] at h
      split at h
      · simp only [setBasePose, Prog.bind_apply, Prog.modify, clearCache, Res.toOutcome] at h
        cases h
        rfl
      all_goals cases h
    all_goals cases h

theorem pyInit_eq {parse : String → Option (ModelInterface K)} {xml : String} {s0 : PyModel K} (h : pyInit parse xml = .ok s0) :
    ∃ m0, constructXml parse xml = .ok m0 ∧ s0 = ⟨xml, m0, [], []⟩ ∧ m0.cache.clear = m0.cache := by
  unfold pyInit at h
  cases hc : constructXml parse xml with
  | ok m0 =>
    rw [hc] at h
    cases h
    refine ⟨m0, rfl, rfl, ?_⟩
    unfold constructXml at hc
    split at hc
    · cases hc
    · exact construct_cache hc
  | exn e => rw [hc] at h; cases h
  | ub u => rw [hc] at h; cases h
  | hang => rw [hc] at h; cases h

theorem pyInit_replays {parse : String → Option (ModelInterface K)} {xml : String} {s0 s : PyModel K} {h : List (PyCall K)}
    (hi : pyInit parse xml = .ok s0) (hr : Recorded s0 h s) :
    ∃ m0, constructXml parse xml = .ok m0 ∧ s0 = ⟨xml, m0, [], []⟩ ∧ Replayed m0 s ∧ s.xml = xml := by
  obtain ⟨m0, h1, rfl, h2⟩ := pyInit_eq hi
  obtain ⟨h3, h4⟩ := (Replayed.init xml h2).run hr
  exact ⟨m0, h1, rfl, h3, h4⟩

/-- the solvers do not touch what is pickled -/
def KeepsHist {α : Type} (p : Prog (PyModel K) α) : Prop :=
  ∀ s, match p s with
    | .ok _ s' => pyGetState s' = pyGetState s
    | .exn _ s' => pyGetState s' = pyGetState s
    | .ub _ => True
    | .hang => True

theorem KeepsHist.robot {α : Type} (p : Prog (KinModel K) α) : KeepsHist (onRobot p : Prog (PyModel K) α) := by
  intro s
  simp only [onRobot]
  cases p s.robot <;> trivial

theorem KeepsHist.pure {α : Type} (a : α) : KeepsHist (Pure.pure a : Prog (PyModel K) α) := fun _ => rfl

theorem KeepsHist.throw {α : Type} (e : Exn) : KeepsHist (Prog.throw e : Prog (PyModel K) α) := fun _ => rfl

theorem KeepsHist.lift {α : Type} (o : Outcome α) : KeepsHist (Prog.lift o : Prog (PyModel K) α) := by
  intro s
  simp only [Prog.lift]
  cases o <;> trivial

theorem KeepsHist.assert (b : Bool) (m : String) : KeepsHist (pyAssert b m : Prog (PyModel K) Unit) := by
  unfold pyAssert
  split
  · exact .pure _
  · exact .throw _

theorem KeepsHist.bind {α β : Type} {p : Prog (PyModel K) α} {f : α → Prog (PyModel K) β} (hp : KeepsHist p) (hf : ∀ a, KeepsHist (f a)) :
    KeepsHist (p >>= f) := by
  intro s
  have h := hp s
  rw [Prog.bind_apply]
  cases e : p s with
  | ok a s' =>
    rw [e] at h
    simp only at h ⊢
    have h2 := hf a s'
    cases e2 : f a s' with
    | ok b s2 => rw [e2] at h2; exact h2.trans h
    | exn x s2 => rw [e2] at h2; exact h2.trans h
    | ub u => trivial
    | hang => trivial
  | exn x s' => rw [e] at h; exact h
  | ub u => trivial
  | hang => trivial

theorem KeepsHist.prepareRows (n : Nat) (bt : BaseType) (a : Arr2 K) : KeepsHist (prepareRows n bt a) := by
  cases bt with
  | fixed => exact .bind (.assert _ _) fun _ => .pure _
  | planer => exact .bind (.assert _ _) fun _ => .lift _
  | floating => exact .bind (.assert _ _) fun _ => .pure _

theorem PyCall.IsSolver.keeps {c : PyCall K} (hc : c.IsSolver) : KeepsHist c.run := by
  cases c with
  | solveFk qs es ids rt bt wj uc =>
    refine .bind ?_ fun _ => .pure _
    unfold pySolveFk
    refine .bind (.lift _) fun _ => .bind (.prepareRows _ _ _) fun _ => .bind (.robot _) fun _ => ?_
    split
    split
    · exact .bind (.lift _) fun _ => .pure _
    · exact .pure _
  | solveComFk qs ids a bt wj =>
    exact .bind (.bind (.lift _) fun _ => .bind (.prepareRows _ _ _) fun _ => .robot _) fun _ => .pure _
  | inertia q ids => exact .bind (.robot _) fun _ => .pure _
  | sqdists qs ps ids bt wj uc =>
    refine .bind ?_ fun _ => .pure _
    unfold pySqdists
    have hjp : ∀ rows, KeepsHist (if ps = [] then Prog.throw (Exn.valueError "not enough values to unpack")
      else onRobot (computeInterLinkSquaredDists rows (List.map Prod.fst ps) (List.map Prod.snd ps) ids
                (bt != BaseType.fixed) wj uc) >>= fun x =>
        if bt = BaseType.planer ∧ wj = true then (Prog.lift (x.2.selectCols (planarCols ids.length)) >>= fun J => Pure.pure (x.1, J))
        else (Pure.pure (x.1, x.2) : Prog (PyModel K) (Mat K × Mat K))) := by
      intro rows
      split
      · exact .throw _
      · refine .bind (.robot _) fun _ => ?_
        split
        · exact .bind (.lift _) fun _ => .pure _
        · exact .pure _
    dsimp only
    split
    · exact .bind (.lift _) hjp
    · exact .bind (.pure _) hjp
  | _ => exact hc.elim

end Tinyfk
