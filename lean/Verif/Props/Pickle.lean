import Verif.Proofs.Pickle
import Verif.Props.PySolve

/-!
# C44-C47: pickling

These hold for every parser, every text and every tree or non-tree robot.
-/

set_option linter.unusedSectionVars false

namespace Tinyfk

open Scalar

section
variable {K : Type} [Scalar K] {parse : String → Option (ModelInterface K)} {xml : String} {s0 s s1 : PyModel K}
  {h : List (PyCall K)}

theorem Recorded.append {h' : List (PyCall K)} (h1 : Recorded s0 h s) (h2 : Recorded s h' s1) : Recorded s0 (h ++ h') s1 := by
  induction h1 with
  | nil => exact h2
  | read a b _ ih => exact .read a b (ih h2)
  | call a b _ ih => exact .call a b (ih h2)

/-- **C44.** A model built by the constructor and changed by successful `add_new_link` and `set_q` calls, in
any order and with any reads in between: unpickling its pickle gives a model with the same robot, that is
with the same links and ids, joints and ids, joint angles, base pose and masses. -/
theorem C44_pickle (hi : pyInit parse xml = .ok s0) (hr : Recorded s0 h s) :
    ∃ s', pyPickle parse s = .ok s' ∧ s'.robot = s.robot ∧ s'.xml = xml := by
  obtain ⟨m0, h1, rfl, h2, h3⟩ := pyInit_replays hi hr
  refine ⟨⟨s.xml, s.robot, [], []⟩, ?_, rfl, h3⟩
  simp only [pyPickle, pySetState, pyGetState, pyReplay, h3, h1]
  simp only [Prog.bind_apply, Outcome.bind_eq, Outcome.bind, h2.adds]
  rw [h2.sets _ _ _ _ (show (s.robot.posed m0.angles m0.base).cache.clear = _ from h2.cache) rfl rfl]
  rfl

section

theorem forEach_xml {ι : Type} {xs : List ι} {body : ι → Unit → Prog (PyModel K) Unit} {s s' : PyModel K}
    (hb : ∀ a s s', body a () s = .ok () s' → s'.xml = s.xml) (e : Prog.forEach xs body () s = .ok () s') : s'.xml = s.xml := by
  induction xs generalizing s with
  | nil => cases e; rfl
  | cons x xs ih =>
    simp only [Prog.forEach, Prog.bind] at e
    cases hx : body x () s with
    | ok u s2 => rw [hx] at e; exact (ih e).trans (hb x s s2 hx)
    | exn x s' => rw [hx] at e; cases e
    | ub u => rw [hx] at e; cases e
    | hang => rw [hx] at e; cases e

/-- the parts of an unpickling -/
theorem pySetState_parts {p : Pickled K} (e : pySetState parse p = .ok s1) :
    ∃ m0 s2, constructXml parse p.xml = .ok m0 ∧
      pyReplay p.addHist p.setHist ⟨p.xml, m0, p.addHist, p.setHist⟩ = .ok () s2 ∧ s2.xml = p.xml ∧
      s1 = ⟨s2.xml, s2.robot, [], []⟩ := by
  unfold pySetState at e
  cases hc : constructXml parse p.xml with
  | ok m0 =>
    rw [hc] at e
    simp only [Outcome.bind_eq, Outcome.bind_ok] at e
    cases hr : pyReplay p.addHist p.setHist ⟨p.xml, m0, p.addHist, p.setHist⟩ with
    | ok u s2 =>
      rw [hr] at e
      cases e
      refine ⟨m0, s2, rfl, hr, ?_, rfl⟩
      simp only [pyReplay, Prog.bind_apply] at hr
      cases ha : Prog.forEach p.addHist (fun a _ => pyAddNewLink a) () (⟨p.xml, m0, p.addHist, p.setHist⟩ : PyModel K) with
      | ok u s3 =>
        rw [ha] at hr
        have e1 := forEach_xml (fun a s s' e => (pyAddNewLink_eq e).1) ha
        have e2 := forEach_xml (fun a s s' e => by obtain ⟨θ, _, _, rfl⟩ := pySetQ_eq e; rfl) hr
        exact e2.trans e1
      | exn x s' => rw [ha] at hr; cases hr
      | ub u => rw [ha] at hr; cases hr
      | hang => rw [ha] at hr; cases hr
    | exn x s' => rw [hr] at e; cases e
    | ub u => rw [hr] at e; cases e
    | hang => rw [hr] at e; cases e
  | exn x => rw [hc] at e; cases e
  | ub u => rw [hc] at e; cases e
  | hang => rw [hc] at e; cases e

end

/-- **C45, what happens.** Unpickling forgets both histories: the pickle of an unpickled model gives a model
fresh from the constructor. -/
theorem C45_second_pickle (h1 : pyPickle parse s = .ok s1) : pyPickle parse s1 = pyInit parse s.xml := by
  obtain ⟨m0, s2, e1, _, e3, rfl⟩ := pySetState_parts h1
  simp only [pyPickle, pySetState, pyGetState, pyReplay, e3, Prog.forEach, pyInit]
  cases hc : constructXml parse s.xml <;> rfl

/-- **C45, the part that holds.** A model that is as the constructor made it survives any number of
pickles. -/
theorem C45_pickle_partial (hi : pyInit parse xml = .ok s0) : pyPickle parse s0 = .ok s0 := by
  obtain ⟨m0, h1, rfl, _⟩ := pyInit_eq hi
  simp only [pyPickle, pySetState, pyGetState, pyReplay, Prog.forEach, h1]
  rfl

/-- **C46, `add_new_link`.** Adding a link whose name is taken raises, and from then on unpickling the model
raises. -/
theorem C46_failed_add (hi : pyInit parse xml = .ok s0) (hr : Recorded s0 h s) {a : AddArgs K} {l : Nat}
    (ha : getLinkIds [a.name] s.robot = .ok [l] s.robot) :
    ∃ e s1, pyAddNewLink a s = .exn e s1 ∧ s1.robot = s.robot ∧ ∃ e', pyPickle parse s1 = .exn e' := by
  obtain ⟨m0, h1, rfl, h2, h3⟩ := pyInit_replays hi hr
  rw [getLinkIds_one] at ha
  have hrun : ∀ (t : PyModel K), t.robot.linkIds = s.robot.linkIds → pyAddNewLink a t =
      .exn (.invalidArgument ("link name : " ++ a.name ++ " already exists")) { t with addHist := t.addHist ++ [a] } := by
    intro t ht
    rw [← ht] at ha
    simp only [pyAddNewLink, Prog.bind_apply, Prog.modify, onRobot, wAddNewLink, addNewLinkRPY]
    rw [addNewLink_dup ha]
  refine ⟨_, _, hrun s rfl, rfl, .invalidArgument ("link name : " ++ a.name ++ " already exists"), ?_⟩
  simp only [pyPickle, pySetState, pyGetState, pyReplay, h3, h1, Outcome.bind_eq, Outcome.bind_ok]
  simp only [Prog.bind_apply, forEach_append, Prog.bind, h2.adds, Prog.forEach]
  rw [hrun ⟨xml, s.robot.posed m0.angles m0.base, _, _⟩ rfl]
  rfl

/-- **C46, `set_q`.** A configuration of the wrong length raises, and from then on unpickling the model
raises. -/
theorem C46_failed_set (hi : pyInit parse xml = .ok s0) (hr : Recorded s0 h s) {ids : List Nat} {q : List K} {bt : BaseType}
    (hq : q.length ≠ ids.length + bt.dof) :
    ∃ e s1, pySetQ ids q bt s = .exn e s1 ∧ s1.robot = s.robot ∧ ∃ e', pyPickle parse s1 = .exn e' := by
  obtain ⟨m0, h1, rfl, h2, h3⟩ := pyInit_replays hi hr
  have hrun : ∀ (t : PyModel K), pySetQ ids q bt t =
      .exn (.assertionError "set_q") { t with setHist := t.setHist ++ [⟨ids, q, bt⟩] } := by
    intro t
    cases bt <;> simp only [BaseType.dof, Nat.add_zero] at hq <;>
      simp [pySetQ, Prog.bind_apply, Prog.modify, pyAssert, hq, Prog.throw]
  refine ⟨_, _, hrun s, rfl, .assertionError "set_q", ?_⟩
  simp only [pyPickle, pySetState, pyGetState, pyReplay, h3, h1, Outcome.bind_eq, Outcome.bind_ok]
  simp only [Prog.bind_apply, h2.adds, forEach_append, Prog.bind]
  rw [h2.sets _ _ _ _ (show (s.robot.posed m0.angles m0.base).cache.clear = _ from h2.cache) rfl rfl]
  simp only [Prog.forEach, Prog.bind, hrun]
  rfl

/-- **C46, the part that holds.** A read that raises (an unknown name, an id out of range) leaves a model that
can be pickled, and the pickle keeps it. -/
theorem C46_failed_read_partial (hi : pyInit parse xml = .ok s0) (hr : Recorded s0 h s) {c : PyCall K} (hc : c.IsRead) {e : Exn}
    (he : c.run s = .exn e s1) : ∃ s', pyPickle parse s1 = .ok s' ∧ s'.robot = s1.robot := by
  obtain ⟨s', h1, h2, _⟩ := C44_pickle hi (hr.append (.read hc (.inr ⟨e, he⟩) .nil))
  exact ⟨s', h1, h2⟩

/-- **C47, what happens.** What a solver (`solve_fk`, `solve_com_fk`, `compute_inter_link_sqdists`,
`compute_total_inertia_matrix`) leaves in the model is not pickled: unpickling gives the robot as it was before the
call. -/
theorem C47_solver_not_pickled (hi : pyInit parse xml = .ok s0) (hr : Recorded s0 h s) {c : PyCall K} (hc : c.IsSolver)
    (e : c.run s = .ok () s1 ∨ ∃ x, c.run s = .exn x s1) : ∃ s', pyPickle parse s1 = .ok s' ∧ s'.robot = s.robot := by
  have hk := hc.keeps s
  have : pyGetState s1 = pyGetState s := by
    rcases e with e | ⟨x, e⟩ <;> (rw [e] at hk; exact hk)
  obtain ⟨s', h1, h2, _⟩ := C44_pickle hi hr
  refine ⟨s', ?_, h2⟩
  unfold pyPickle
  rw [this]
  exact h1

/-- **C47, the part that holds.** When the solver was given the configuration the model already had, the pickle
has the angles and base pose the solver left. -/
theorem C47_unchanged_partial (hi : pyInit parse xml = .ok s0) (hr : Recorded s0 h s) {c : PyCall K} (hc : c.IsSolver)
    (e : c.run s = .ok () s1) (ha : s1.robot.angles = s.robot.angles) (hb : s1.robot.base = s.robot.base) :
    ∃ s', pyPickle parse s1 = .ok s' ∧ s'.robot.angles = s1.robot.angles ∧ s'.robot.base = s1.robot.base := by
  obtain ⟨s', h1, h2⟩ := C47_solver_not_pickled hi hr hc (.inl e)
  exact ⟨s', h1, by rw [h2, ha], by rw [h2, hb]⟩

end

namespace Example

/-! ### The hypotheses are met, and C45 and C47 are false -/

/-- a parser that knows one text -/
noncomputable def parse1 : String → Option (ModelInterface ℝ) := fun _ => buildModel ls js

theorem init1 : pyInit parse1 "<robot/>" = .ok ⟨"<robot/>", m0, [], []⟩ := by
  simp only [pyInit, constructXml, parse1, m0_spec]
  rfl

theorem m0_angles : m0.angles = [0, 0] := by
  rw [constructed.angles, joints_length]; rfl

theorem no_gripper : m0.linkIds.find "gripper" = none := by
  cases hf : m0.linkIds.find "gripper" with
  | none => rfl
  | some l =>
    rw [linkIds] at hf
    rcases l with _ | _ | _ | _ | _ | _ | _ <;> simp at hf

/-- the model after a recorded `set_q` of joint 0 to 2 -/
theorem recorded1 : ∃ s, Recorded ⟨"<robot/>", m0, [], []⟩ [.getLinkIds ["gripper"], .setQ [0] [2] .fixed] s ∧
    s.robot.angles = [2, 0] ∧ s.xml = "<robot/>" ∧ s.robot.linkIds = m0.linkIds := by
  refine ⟨⟨"<robot/>", m0.reset [2, 0] m0.base, [], [⟨[0], [2], .fixed⟩]⟩, .read trivial (s1 := ⟨"<robot/>", m0, [], []⟩)
    (.inr ⟨.invalidArgument ("no link named " ++ "gripper"), ?_⟩) (.call trivial ?_ .nil), rfl, rfl, rfl⟩
  · have hg := no_gripper
    simp only [PyCall.run, Prog.bind, pyGetLinkIds, onRobot, getLinkIds, Prog.read, mapOutcome, hg, Outcome.bind_eq, Outcome.bind]
  · simp only [PyCall.run]
    rw [pySetQ_ok (θ := [2, 0]) (by simp [m0_angles, writeAngles]) rfl]
    rfl

noncomputable def r1 : PyModel ℝ := recorded1.choose
theorem r1_recorded : Recorded ⟨"<robot/>", m0, [], []⟩ [.getLinkIds ["gripper"], .setQ [0] [2] .fixed] r1 := recorded1.choose_spec.1
theorem r1_angles : r1.robot.angles = [2, 0] := recorded1.choose_spec.2.1
theorem r1_xml : r1.xml = "<robot/>" := recorded1.choose_spec.2.2.1
theorem r1_linkIds : r1.robot.linkIds = m0.linkIds := recorded1.choose_spec.2.2.2

example := C44_pickle init1 r1_recorded

/-- a link to add -/
noncomputable def grip : AddArgs ℝ := ⟨"gripper", 2, ⟨1, 2, 3⟩, some ⟨0, 0, 1⟩⟩

/-- C44 also with a recorded `add_new_link` -/
example : ∃ s s', Recorded ⟨"<robot/>", m0, [], []⟩ [.addNewLink grip] s ∧ s.robot.links.length = 7 ∧
    pyPickle parse1 s = .ok s' ∧ s'.robot = s.robot := by
  have h0 : PyReach ls js m0 [] [] ⟨"<robot/>", m0, [], []⟩ := ⟨isTree, supported, m0_spec, _, .nil⟩
  obtain ⟨mc, hat⟩ := h0.at
  have hg : m0.linkIds.find "gripper" = none := by
    cases hf : m0.linkIds.find "gripper" with
    | none => rfl
    | some l =>
      rw [linkIds] at hf
      rcases l with _ | _ | _ | _ | _ | _ | _ <;> simp at hf
  obtain ⟨mc', m', e, hat'⟩ := hat.addLink (name := "gripper") (parent := 2)
    (o := ⟨⟨1, 2, 3⟩, Rot.fromRPY 0 0 1⟩) hg (by show 2 < m0.links.length; rw [links_length]; omega)
  have hr : Recorded ⟨"<robot/>", m0, [], []⟩ [.addNewLink grip] ⟨"<robot/>", m', [grip], []⟩ := by
    refine .call trivial ?_ .nil
    simp only [PyCall.run, pyAddNewLink, Prog.bind_apply, Prog.modify, onRobot, wAddNewLink, addNewLinkRPY, grip,
      Option.getD_some, e, Prog.pure_apply]
    rfl
  obtain ⟨s', h1, h2, _⟩ := C44_pickle init1 hr
  refine ⟨_, s', hr, ?_, h1, h2⟩
  show m'.links.length = 7
  rw [hat'.nlinks]
  simp [linksAfter, names0, linkNames]

/-- **C45 is false of the code.** The pickle of `r1` has joint 0 at 2; the pickle of that pickle has it at 0. -/
theorem C45_false : ∃ s1 s2, pyPickle parse1 r1 = .ok s1 ∧ s1.robot.angles = [2, 0] ∧ pyPickle parse1 s1 = .ok s2 ∧
    s2.robot.angles = [0, 0] := by
  obtain ⟨s1, h1, h2, h3⟩ := C44_pickle init1 r1_recorded
  refine ⟨s1, ⟨"<robot/>", m0, [], []⟩, h1, by rw [h2, r1_angles], ?_, m0_angles⟩
  rw [C45_second_pickle h1, r1_xml, init1]

example := C45_pickle_partial init1

/-- a link that exists -/
noncomputable def dup : AddArgs ℝ := ⟨"hand", 0, ⟨1, 2, 3⟩, none⟩

example := C46_failed_add init1 r1_recorded (a := dup) (l := 2) (by
  rw [getLinkIds_one, r1_linkIds, linkIds]; rfl)

example := C46_failed_read_partial init1 .nil (c := .getLinkIds ["gripper"]) trivial
  (e := .invalidArgument ("no link named " ++ "gripper")) (s1 := ⟨"<robot/>", m0, [], []⟩) (by
    simp only [PyCall.run, Prog.bind, pyGetLinkIds, onRobot, getLinkIds, Prog.read, mapOutcome, no_gripper, Outcome.bind_eq,
      Outcome.bind])

example := C46_failed_set init1 r1_recorded (ids := [0, 1]) (q := [1, 2]) (bt := .planer) (by decide)

/-- **C47 is false of the code.** After a `solve_fk` that leaves joint 0 at 2 the pickle has it at 0. -/
theorem C47_false : ∃ P J s1 s', pySolveFk (.nd1 [2, 0]) [3] [0, 1] .ignore .fixed false false ⟨"<robot/>", m0, [], []⟩ =
      .ok (P, J) s1 ∧ s1.robot.angles[0]? = some 2 ∧ pyPickle parse1 s1 = .ok s' ∧ s'.robot.angles[0]? = some 0 := by
  have h0 : PyReach ls js m0 [] [] ⟨"<robot/>", m0, [], []⟩ := ⟨isTree, supported, m0_spec, _, .nil⟩
  obtain ⟨mc, hat⟩ := h0.at
  obtain ⟨P, J, s1, mc', e, hat', _⟩ := hat.pySolveFk (qs := .nd1 [2, 0]) (es := [3]) (ids := [0, 1]) (rt := .ignore)
    (bt := .fixed) (wj := false) (uc := false) (shallow_sets rfl)
    ⟨by simp, by simp [QArg.rows], by simp [QArg.rows, BaseType.dof], by rw [joints_length]; simp, by rw [links_length]; simp⟩
    (.inr rfl) (by simp)
  obtain ⟨s', h1, h2⟩ := C47_solver_not_pickled init1 .nil
    (c := .solveFk (.nd1 [2, 0]) [3] [0, 1] .ignore .fixed false false) trivial (s1 := s1) (.inl (by
    simp only [PyCall.run, Prog.bind, e, Prog.pure]))
  refine ⟨P, J, s1, s', e, ?_, h1, by rw [h2]; show m0.angles[0]? = _; rw [m0_angles]; rfl⟩
  have := hat'.reach.angles_get 0 (by rw [joints_length]; omega)
  obtain ⟨⟨st, c, hst⟩, _⟩ := hat'.same
  rw [show s1.robot.angles = mc'.angles by rw [hst], this]
  simp [batchCalls, configCalls, angleAfter, QArg.rows, lastWrite, basePart]

/-- a solver call that applies the configuration the model already has -/
example : ∃ P J s1 s', pySolveFk (.nd1 [0, 0]) [3] [0, 1] .ignore .fixed false false ⟨"<robot/>", m0, [], []⟩ = .ok (P, J) s1 ∧
    pyPickle parse1 s1 = .ok s' ∧ s'.robot.angles = s1.robot.angles := by
  have h0 : PyReach ls js m0 [] [] ⟨"<robot/>", m0, [], []⟩ := ⟨isTree, supported, m0_spec, _, .nil⟩
  obtain ⟨mc, hat⟩ := h0.at
  obtain ⟨P, J, s1, mc', e, hat', _⟩ := hat.pySolveFk (qs := .nd1 [0, 0]) (es := [3]) (ids := [0, 1]) (rt := .ignore)
    (bt := .fixed) (wj := false) (uc := false) (shallow_sets rfl)
    ⟨by simp, by simp [QArg.rows], by simp [QArg.rows, BaseType.dof], by rw [joints_length]; simp, by rw [links_length]; simp⟩
    (.inr rfl) (by simp)
  obtain ⟨⟨st, c, hst⟩, _⟩ := hat'.same
  have hl : mc'.angles.length = 2 := by rw [hat'.reach.anglesLen, joints_length]
  have hang : s1.robot.angles = m0.angles := by
    rw [show s1.robot.angles = mc'.angles by rw [hst], m0_angles]
    have g0 := hat'.reach.angles_get 0 (by rw [joints_length]; omega)
    have g1 := hat'.reach.angles_get 1 (by rw [joints_length]; omega)
    simp [batchCalls, configCalls, angleAfter, QArg.rows, lastWrite, basePart] at g0 g1
    refine List.ext_getElem (by simpa using hl) ?_
    intro i h1 h2
    simp only [List.length_cons, List.length_nil] at h2
    rcases i with _ | _ | i
    · simpa [List.getElem?_eq_getElem h1] using g0
    · simpa [List.getElem?_eq_getElem h1] using g1
    · omega
  have hbase : s1.robot.base = m0.base := by
    rw [show s1.robot.base = mc'.base by rw [hst], hat'.reach.abs.base, constructed.base]
    simp [batchCalls, configCalls, baseAfter, QArg.rows, basePart]
  obtain ⟨s', h1, h2, _⟩ := C47_unchanged_partial init1 .nil (c := .solveFk (.nd1 [0, 0]) [3] [0, 1] .ignore .fixed false false) trivial
    (s1 := s1) (by simp only [PyCall.run, Prog.bind, e, Prog.pure]) hang hbase
  exact ⟨P, J, s1, s', e, h1, h2⟩

end Example
end Tinyfk
