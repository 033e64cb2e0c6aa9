import Verif.Model.PyNoAssert
import Verif.Props.CacheWitness
import Verif.Proofs.Pickle

/-!
# C130: assertions switched off
-/

namespace Tinyfk

open Scalar

variable {K : Type} [Scalar K] {ids es : List Nat} {q : List K} {bt : BaseType} {s s' : PyModel K} {qs : QArg K} {a a' : Arr2 K}
  {rt : RotType} {wj uc : Bool} {act : Option (List Nat × List K)}

omit [Scalar K] in
theorem pyAssert_false {c : Bool} (h : ¬ c = true) (msg : String) (s : PyModel K) : pyAssert c msg s = .exn (.assertionError msg) s := by
  rw [pyAssert, if_neg h]; rfl

omit [Scalar K] in
theorem pyAssert_true {c : Bool} (h : c = true) (msg : String) (s : PyModel K) : pyAssert c msg s = .ok () s := by
  rw [pyAssert, if_pos h]; rfl

/-- the checks only check -/
theorem prepareRows_eq (h : ∀ msg, prepareRows ids.length bt a s ≠ .exn (.assertionError msg) s) :
    prepareRowsNoAssert ids.length bt a s = prepareRows ids.length bt a s := by
  cases bt with
  | planer =>
    by_cases hc : a.cols = ids.length + 3
    · simp only [prepareRowsNoAssert, prepareRows, Prog.bind_apply, pyAssert_true (beq_iff_eq.mpr hc)]
      rw [if_neg (by omega)]
    · exact absurd (by simp only [prepareRows, Prog.bind_apply, pyAssert_false (c := a.cols == ids.length + 3) (by simpa using hc)]) (h "n_dof")
  | floating =>
    by_cases hc : a.cols = ids.length + 6
    · simp only [prepareRowsNoAssert, prepareRows, Prog.bind_apply, pyAssert_true (beq_iff_eq.mpr hc)]
    · exact absurd (by simp only [prepareRows, Prog.bind_apply, pyAssert_false (c := a.cols == ids.length + 6) (by simpa using hc)]) (h "n_dof")
  | fixed =>
    by_cases hc : a.cols = ids.length
    · simp only [prepareRowsNoAssert, prepareRows, Prog.bind_apply, pyAssert_true (beq_iff_eq.mpr hc)]
    · exact absurd (by simp only [prepareRows, Prog.bind_apply, pyAssert_false (c := a.cols == ids.length) (by simpa using hc)]) (h "n_dof")

/-- **C130, solve_fk.** A call that no assertion stops has the same outcome without assertions. -/
theorem C130_solve_fk (h : ∀ msg s', pySolveFk qs es ids rt bt wj uc s ≠ .exn (.assertionError msg) s') :
    pySolveFkNoAssert qs es ids rt bt wj uc s = pySolveFk qs es ids rt bt wj uc s := by
  simp only [pySolveFkNoAssert, pySolveFk, Prog.bind_apply] at h ⊢
  cases hl : (Prog.lift (fkArg qs) : Prog (PyModel K) (Arr2 K)) s with
  | ok a s1 =>
    simp only [hl] at h
    simp only
    rw [prepareRows_eq]
    intro msg e
    simp only [e] at h
    exact h msg _ rfl
  | _ => rfl

/-- **C130, solve_com_fk.** -/
theorem C130_solve_com_fk (h : ∀ msg s', pySolveComFk qs ids act bt wj s ≠ .exn (.assertionError msg) s') :
    pySolveComFkNoAssert qs ids act bt wj s = pySolveComFk qs ids act bt wj s := by
  simp only [pySolveComFkNoAssert, pySolveComFk, Prog.bind_apply] at h ⊢
  cases hl : (Prog.lift (comArg qs) : Prog (PyModel K) (Arr2 K)) s with
  | ok a s1 =>
    simp only [hl] at h
    simp only
    rw [prepareRows_eq]
    intro msg e
    simp only [e] at h
    exact h msg _ rfl
  | _ => rfl

/-- **C130, set_q.** -/
theorem C130_set_q (h : ∀ msg s', pySetQ ids q bt s ≠ .exn (.assertionError msg) s') :
    pySetQNoAssert ids q bt s = pySetQ ids q bt s := by
  cases bt with
  | planer =>
    by_cases hc : q.length = ids.length + 3
    · simp only [pySetQNoAssert, pySetQ, Prog.bind_apply, Prog.modify, pyAssert_true (beq_iff_eq.mpr hc)]
      rfl
    · exact absurd (by simp only [pySetQ, Prog.bind_apply, Prog.modify, pyAssert_false (c := q.length == ids.length + 3) (by simpa using hc)]) (h "set_q" { s with setHist := s.setHist ++ [⟨ids, q, .planer⟩] })
  | floating =>
    by_cases hc : q.length = ids.length + 6
    · simp only [pySetQNoAssert, pySetQ, Prog.bind_apply, Prog.modify, pyAssert_true (beq_iff_eq.mpr hc)]
    · exact absurd (by simp only [pySetQ, Prog.bind_apply, Prog.modify, pyAssert_false (c := q.length == ids.length + 6) (by simpa using hc)]) (h "set_q" { s with setHist := s.setHist ++ [⟨ids, q, .floating⟩] })
  | fixed =>
    by_cases hc : q.length = ids.length
    · simp only [pySetQNoAssert, pySetQ, Prog.bind_apply, Prog.modify, pyAssert_true (beq_iff_eq.mpr hc)]
    · exact absurd (by simp only [pySetQ, Prog.bind_apply, Prog.modify, pyAssert_false (c := q.length == ids.length) (by simpa using hc)]) (h "set_q" { s with setHist := s.setHist ++ [⟨ids, q, .fixed⟩] })

theorem modifyRow_length {n : Nat} {row r : List K} (h : modifyRow n row = .ok r) : n + 3 ≤ row.length ∧ r.length = row.length + 3 := by
  unfold modifyRow at h
  split at h
  · cases h
  · rename_i w hw
    have := (List.getElem?_eq_some_iff.mp hw).1
    cases h
    refine ⟨by omega, ?_⟩
    simp
    omega

theorem solveForwardKinematics_mismatch {rows : List (List K)} {c : Nat} (hne : rows ≠ []) (hl : ∀ r ∈ rows, r.length = c) (hc : c ≠ ids.length + 6)
    (m : KinModel K) : ∃ e, solveForwardKinematics rows es ids rt true wj uc m = .exn e m := by
  cases rows with
  | nil => exact absurd rfl hne
  | cons r rows =>
    have := hl r (by simp)
    refine ⟨.invalidArgument "dof mismatch!! Probably you forget base's (x, y, theta)", ?_⟩
    simp only [solveForwardKinematics, if_true]
    rw [if_pos (by omega)]
    rfl

theorem mapOutcome_modify {n : Nat} {rows rows' : List (List K)} (h : modifyInput n rows = .ok rows') :
    List.Forall₂ (fun r r' => modifyRow n r = .ok r') rows rows' := (mapOutcome_ok_iff _ _ _).mp h

/-- **C130, moving base.** Without assertions `solve_fk` with a moving base still rejects configurations of the wrong length. -/
theorem C130_moving (hb : bt ≠ .fixed) (ha : fkArg qs = .ok a) (hne : a.rows ≠ []) (hc : a.cols ≠ ids.length + bt.dof) :
    ∃ e, pySolveFkNoAssert qs es ids rt bt wj uc s = .exn e s := by
  simp only [pySolveFkNoAssert, Prog.bind_apply, Prog.lift, Prog.read, ha]
  cases bt with
  | fixed => exact absurd rfl hb
  | floating =>
    obtain ⟨e, he⟩ := solveForwardKinematics_mismatch (es := es) (rt := rt) (wj := wj) (uc := uc) hne a.wf hc s.robot
    refine ⟨e, ?_⟩
    simp only [prepareRowsNoAssert, Prog.pure_apply, onRobot, show (BaseType.floating != BaseType.fixed) = true from rfl, he]
  | planer =>
    simp only [BaseType.dof] at hc
    by_cases hlt : a.cols < ids.length + 3
    · refine ⟨.indexError "_modify_input_with_3dof_base", ?_⟩
      simp only [prepareRowsNoAssert, if_pos hlt, Prog.throw]
    · obtain ⟨rows', hm⟩ := mapOutcome_total (modifyRow ids.length) a.rows fun r hr => by
        have := a.wf r hr
        rw [modifyRow, List.getElem?_eq_getElem (by omega)]
        exact ⟨_, rfl⟩
      have hF := mapOutcome_modify hm
      have hl : ∀ r ∈ rows', r.length = a.cols + 3 := by
        rw [List.forall₂_iff_get] at hF
        intro r hr
        obtain ⟨i, hi, rfl⟩ := List.getElem_of_mem hr
        have := (modifyRow_length (hF.2 i (by rw [hF.1]; exact hi) hi)).2
        simp only [List.get_eq_getElem] at this
        rw [this, a.wf _ (List.getElem_mem _)]
      obtain ⟨e, he⟩ := solveForwardKinematics_mismatch (es := es) (ids := ids) (rt := rt) (wj := wj) (uc := uc) (rows := rows')
        (by rintro rfl; exact hne (List.forall₂_nil_right_iff.mp hF)) hl (by omega) s.robot
      refine ⟨e, ?_⟩
      simp only [prepareRowsNoAssert, if_neg hlt, modifyInput, hm, Prog.lift, Prog.read, onRobot,
        show (BaseType.planer != BaseType.fixed) = true from rfl, he]

/-- **C130, planar base, too few numbers.** Without assertions `solve_fk` and `solve_com_fk` with a planar base still reject arrays that are too
narrow, also when they have no rows. -/
theorem C130_planar_short (hc : a.cols < ids.length + 3) :
    (∃ e, pySolveFkNoAssert (.nd2 a) es ids rt .planer wj uc s = .exn e s) ∧
    ∃ e, pySolveComFkNoAssert (.nd2 a) ids act .planer wj s = .exn e s := by
  refine ⟨⟨.indexError "_modify_input_with_3dof_base", ?_⟩, ⟨.indexError "_modify_input_with_3dof_base", ?_⟩⟩
  · simp only [pySolveFkNoAssert, Prog.bind_apply, Prog.lift, Prog.read, fkArg, prepareRowsNoAssert, if_pos hc, Prog.throw]
  · simp only [pySolveComFkNoAssert, Prog.bind_apply, Prog.lift, Prog.read, comArg, prepareRowsNoAssert, if_pos hc, Prog.throw]

theorem applyConfig_take (m : KinModel K) : applyConfig ids false uc (q.take ids.length) m = applyConfig ids false uc q m := by
  simp only [applyConfig, setJointAnglesNC, Prog.bind_apply, writeAngles_take, Bool.false_eq_true, if_false]

theorem fkLoop_take {rows : List (List K)} {i : Nat} {P J : Mat K} (m : KinModel K) :
    fkLoop es ids rt false wj uc (rows.map (List.take ids.length)) i P J m = fkLoop es ids rt false wj uc rows i P J m := by
  induction rows generalizing i P J m with
  | nil => rfl
  | cons q rows ih =>
    simp only [List.map_cons, fkLoop]
    have hb : ∀ {α : Type} {x x' : Prog (KinModel K) α} {f g : α → Prog (KinModel K) (Mat K × Mat K)} (m), x m = x' m → (∀ a m, f a m = g a m) →
        (x >>= f) m = (x' >>= g) m := by
      intro α x x' f g m h1 h2
      simp only [Prog.bind_apply, h1]
      cases x' m <;> simp [h2]
    exact hb m (applyConfig_take m) fun _ m => hb m rfl fun _ m => by
      cases wj
      · exact hb m rfl fun _ m => ih m
      · exact hb m rfl fun _ m => ih m

/-- **C130, too many numbers.** Without assertions `solve_fk` with a fixed base ignores what a configuration has too many. -/
theorem C130_long (h1 : a'.cols = ids.length) (h2 : a'.rows = a.rows.map (List.take ids.length)) :
    pySolveFkNoAssert (.nd2 a) es ids rt .fixed wj uc s = pySolveFk (.nd2 a') es ids rt .fixed wj uc s := by
  simp only [pySolveFkNoAssert, pySolveFk, Prog.bind_apply, Prog.lift, Prog.read, fkArg, prepareRowsNoAssert, prepareRows,
    pyAssert_true (beq_iff_eq.mpr h1), h2, Prog.pure_apply, onRobot, solveForwardKinematics, List.length_map, bne_self_eq_false, Bool.false_eq_true,
    if_false, fkLoop_take]

omit [Scalar K] in
theorem writeAngles_short {ids : List Nat} {q a : List K} (h : q.length < ids.length) : ∃ u, writeAngles ids q a = .ub u := by
  induction ids generalizing q a with
  | nil => simp at h
  | cons i ids ih =>
    cases q with
    | nil => exact ⟨_, rfl⟩
    | cons v q =>
      simp only [writeAngles]
      split
      · exact ih (by simpa using h)
      · exact ⟨_, rfl⟩

/-- **C130, too few numbers.** Without assertions configurations with too few numbers are read past their end. -/
theorem C130_short (hc : a.cols < ids.length) (hne : a.rows ≠ []) :
    (∃ u, pySolveFkNoAssert (.nd2 a) es ids rt .fixed wj uc s = .ub u) ∧
    (∃ u, pySolveComFkNoAssert (.nd2 a) ids act .fixed wj s = .ub u) ∧
    ∃ u, pySolveComFkNoAssert (.nd2 a) ids act .floating wj s = .ub u := by
  have hw := a.wf
  cases hr : a.rows with
  | nil => exact absurd hr hne
  | cons q rows =>
    rw [hr] at hw
    obtain ⟨u, hu⟩ := writeAngles_short (ids := ids) (q := q) (a := s.robot.angles) (by rw [hw q (by simp)]; exact hc)
    refine ⟨⟨u, ?_⟩, ⟨u, ?_⟩, ⟨u, ?_⟩⟩
    · simp [pySolveFkNoAssert, Prog.bind_apply, Prog.lift, Prog.read, fkArg, prepareRowsNoAssert, hr, onRobot, solveForwardKinematics, fkLoop,
        applyConfig, setJointAnglesNC, hu]
    · simp [pySolveComFkNoAssert, Prog.bind_apply, Prog.lift, Prog.read, comArg, prepareRowsNoAssert, hr, onRobot, solveComForwardKinematics,
        comFkLoop, setJointAnglesNC, hu]
    · simp [pySolveComFkNoAssert, Prog.bind_apply, Prog.lift, Prog.read, comArg, prepareRowsNoAssert, hr, onRobot, solveComForwardKinematics,
        comFkLoop, setJointAnglesNC, hu]

theorem Prog.bind_congr {S α β : Type} {x x' : Prog S α} {f g : α → Prog S β} {m : S} (h1 : x m = x' m) (h2 : ∀ a m, f a m = g a m) :
    (x >>= f) m = (x' >>= g) m := by
  simp only [Prog.bind_apply, h1]
  cases x' m <;> simp [h2]

theorem comFkLoop_congr {f : List K → List K} {act : List Nat} {fs : List K} {wb : Bool} {d : Nat} {rows : List (List K)} {i : Nat} {C J : Mat K}
    (m : KinModel K) (h1 : ∀ r ∈ rows, ∀ m : KinModel K, setJointAnglesNC ids (f r) m = setJointAnglesNC ids r m)
    (h2 : wb = true → ∀ r ∈ rows, ∀ m : KinModel K, setBaseFromTail (f r) m = setBaseFromTail r m) :
    comFkLoop ids act fs wb wj d (rows.map f) i C J m = comFkLoop ids act fs wb wj d rows i C J m := by
  induction rows generalizing i C J m with
  | nil => rfl
  | cons q rows ih =>
    simp only [List.map_cons, comFkLoop]
    have hi := fun i C J m => ih (i := i) (C := C) (J := J) m (fun r hr => h1 r (by simp [hr])) fun hw r hr => h2 hw r (by simp [hr])
    refine Prog.bind_congr (h1 q (by simp) m) fun _ m => ?_
    cases wb with
    | false => exact Prog.bind_congr rfl fun _ m => hi _ _ _ m
    | true => exact Prog.bind_congr (h2 rfl q (by simp) m) fun _ m => Prog.bind_congr rfl fun _ m => hi _ _ _ m

/-- **C130, too many numbers, solve_com_fk.** Without assertions `solve_com_fk` with a fixed base ignores what a configuration has too many. -/
theorem C130_com_long (h1 : a'.cols = ids.length) (h2 : a'.rows = a.rows.map (List.take ids.length)) :
    pySolveComFkNoAssert (.nd2 a) ids act .fixed wj s = pySolveComFk (.nd2 a') ids act .fixed wj s := by
  simp only [pySolveComFkNoAssert, pySolveComFk, Prog.bind_apply, Prog.lift, Prog.read, comArg, prepareRowsNoAssert, prepareRows,
    pyAssert_true (beq_iff_eq.mpr h1), h2, Prog.pure_apply, onRobot, solveComForwardKinematics, List.length_map]
  rw [comFkLoop_congr]
  · intro r _ m; simp only [setJointAnglesNC, writeAngles_take]
  · intro h; cases h

/-- **C130, wrong length, solve_com_fk.** Without assertions `solve_com_fk` with a floating base takes the joint values from the front and the
base from the back of a configuration of any length that has as many numbers as there are joints, and at least six: numbers in between are
ignored, numbers that are both are used twice. -/
theorem C130_com_floating (hn : ids.length ≤ a.cols) (h6 : 6 ≤ a.cols) (h1 : a'.cols = ids.length + 6)
    (h2 : a'.rows = a.rows.map fun r => r.take ids.length ++ r.drop (r.length - 6)) :
    pySolveComFkNoAssert (.nd2 a) ids act .floating wj s = pySolveComFk (.nd2 a') ids act .floating wj s := by
  simp only [pySolveComFkNoAssert, pySolveComFk, Prog.bind_apply, Prog.lift, Prog.read, comArg, prepareRowsNoAssert, prepareRows,
    pyAssert_true (beq_iff_eq.mpr h1), h2, Prog.pure_apply, onRobot, solveComForwardKinematics, List.length_map]
  rw [comFkLoop_congr]
  · intro r hr m
    have hl := a.wf r hr
    have ht : (r.take ids.length ++ r.drop (r.length - 6)).take ids.length = r.take ids.length := by
      rw [List.take_append_of_le_length (by rw [List.length_take]; omega), List.take_take, min_self]
    rw [setJointAnglesNC, setJointAnglesNC, ← writeAngles_take, ht, writeAngles_take]
  · intro _ r hr m
    have hl := a.wf r hr
    have hd : (r.take ids.length ++ r.drop (r.length - 6)).length = ids.length + 6 := by
      simp only [List.length_append, List.length_take, List.length_drop]; omega
    have ht : (r.take ids.length ++ r.drop (r.length - 6)).drop ids.length = r.drop (r.length - 6) := by
      rw [List.drop_append_of_le_length (by rw [List.length_take]; omega), List.drop_take, Nat.sub_self, List.take_zero, List.nil_append]
    simp only [setBaseFromTail, hd, Nat.add_sub_cancel, ht]
    rw [if_neg (by omega), if_neg (by omega)]

theorem comFkLoop_congr₂ {f g : List K → List K} {act : List Nat} {fs : List K} {wb : Bool} {d : Nat} {rows : List (List K)} {i : Nat} {C J : Mat K}
    (m : KinModel K) (h1 : ∀ r ∈ rows, ∀ m : KinModel K, setJointAnglesNC ids (f r) m = setJointAnglesNC ids (g r) m)
    (h2 : ∀ r ∈ rows, ∀ m : KinModel K, setBaseFromTail (f r) m = setBaseFromTail (g r) m) :
    comFkLoop ids act fs wb wj d (rows.map f) i C J m = comFkLoop ids act fs wb wj d (rows.map g) i C J m := by
  induction rows generalizing i C J m with
  | nil => rfl
  | cons q rows ih =>
    simp only [List.map_cons, comFkLoop]
    have hi := fun i C J m => ih (i := i) (C := C) (J := J) m (fun r hr => h1 r (by simp [hr])) fun r hr => h2 r (by simp [hr])
    refine Prog.bind_congr (h1 q (by simp) m) fun _ m => ?_
    cases wb with
    | false => exact Prog.bind_congr rfl fun _ m => hi _ _ _ m
    | true => exact Prog.bind_congr (h2 q (by simp) m) fun _ m => Prog.bind_congr rfl fun _ m => hi _ _ _ m

omit [Scalar K] in
theorem split_row {n c : Nat} {r : List K} (hl : r.length = c) (hc : n + 3 < c) :
    ∃ p x y w e rest, r = p ++ x :: y :: w :: e :: rest ∧ p.length = n := by
  have h : (r.drop n).length = c - n := by rw [List.length_drop, hl]
  match hd : r.drop n, h with
  | x :: y :: w :: e :: rest, _ => exact ⟨r.take n, x, y, w, e, rest, by rw [← hd, List.take_append_drop], by rw [List.length_take]; omega⟩
  | [], h | [_], h | [_, _], h | [_, _, _], h => simp at h; omega

theorem setBaseFromTail_append (p : List K) (x y z r t w : K) : setBaseFromTail (p ++ [x, y, z, r, t, w]) = setBasePose (poseOfXyzrpy x y z r t w) := by
  rw [setBaseFromTail, if_neg (by simp)]
  simp

theorem mapOutcome_map {α β : Type} {f : α → Outcome β} {g : α → β} {l : List α} (h : ∀ a ∈ l, f a = .ok (g a)) : mapOutcome f l = .ok (l.map g) := by
  rw [mapOutcome_ok_iff, List.forall₂_map_right_iff, List.forall₂_same]
  exact h

/-- the base a row with surplus numbers gives to `solve_com_fk` with a planar base and no assertions: with one number too many the second
number of the base is taken for the first one; with more the base is at the origin -/
def misreadRow (n : Nat) (r : List K) : List K :=
  r.take n ++ [if r.length = n + 4 then r.getD (n + 1) 0 else 0, 0, r.getD (n + 2) 0]

/-- what `_modify_input_with_3dof_base` makes of rows with surplus numbers acts like the misread rows -/
theorem misread_rows {rows : List (List K)} {c : Nat} (hl : ∀ r ∈ rows, r.length = c) (hn : ids.length + 3 < c) :
    ∃ f g : List K → List K, modifyInput ids.length rows = .ok (rows.map f) ∧
      modifyInput ids.length (rows.map (misreadRow ids.length)) = .ok (rows.map g) ∧
      (∀ r ∈ rows, ∀ m : KinModel K, setJointAnglesNC ids (f r) m = setJointAnglesNC ids (g r) m) ∧
      ∀ r ∈ rows, ∀ m : KinModel K, setBaseFromTail (f r) m = setBaseFromTail (g r) m := by
  refine ⟨fun r => r.take (ids.length + 2) ++ List.replicate (r.length - ids.length) 0 ++ [r.getD (ids.length + 2) 0],
    fun r => r.take ids.length ++
      [if r.length = ids.length + 4 then r.getD (ids.length + 1) 0 else 0, 0, 0, 0, 0, r.getD (ids.length + 2) 0], ?_, ?_, ?_, ?_⟩
  · refine mapOutcome_map fun r hr => ?_
    obtain ⟨p, x, y, w, e, rest, rfl, hp⟩ := split_row (hl r hr) hn
    simp [modifyRow, ← hp]
  · rw [modifyInput, mapOutcome_ok_iff, List.forall₂_map_left_iff, List.forall₂_map_right_iff, List.forall₂_same]
    intro r hr
    obtain ⟨p, x, y, w, e, rest, rfl, hp⟩ := split_row (hl r hr) hn
    simp [misreadRow, modifyRow, ← hp, List.take_append]
  · intro r hr m
    have hl := hl r hr
    simp only [setJointAnglesNC]
    rw [← writeAngles_take, ← writeAngles_take ids (r.take ids.length ++ _), List.append_assoc,
      List.take_append_of_le_length (by rw [List.length_take]; omega),
      List.take_append_of_le_length (by rw [List.length_take]; omega), List.take_take, List.take_take, min_eq_left (by omega), min_self]
  · intro r hr m
    obtain ⟨p, x, y, w, e, rest, rfl, hp⟩ := split_row (hl r hr) hn
    beta_reduce
    rw [setBaseFromTail_append]
    cases rest with
    | nil =>
      have : (p ++ x :: y :: w :: e :: ([] : List K)).take (ids.length + 2) ++ List.replicate ((p ++ x :: y :: w :: e :: ([] : List K)).length - ids.length) 0 ++
          [(p ++ x :: y :: w :: e :: ([] : List K)).getD (ids.length + 2) 0] = (p ++ [x]) ++ [y, 0, 0, 0, 0, w] := by
        simp [← hp, List.take_append]
      rw [this, setBaseFromTail_append]
      simp [← hp]
    | cons e' rest =>
      have : (p ++ x :: y :: w :: e :: e' :: rest).take (ids.length + 2) ++ List.replicate ((p ++ x :: y :: w :: e :: e' :: rest).length - ids.length) 0 ++
          [(p ++ x :: y :: w :: e :: e' :: rest).getD (ids.length + 2) 0] = (p ++ [x, y] ++ List.replicate rest.length 0) ++ [0, 0, 0, 0, 0, w] := by
        simp [← hp, List.take_append, List.replicate_add]
      rw [this, setBaseFromTail_append]
      simp [← hp]

/-- **C130, too many numbers, planar base.** Without assertions `solve_com_fk` with a planar base puts the base somewhere else. -/
theorem C130_com_planar (hn : ids.length + 3 < a.cols) (h1 : a'.cols = ids.length + 3) (h2 : a'.rows = a.rows.map (misreadRow ids.length)) :
    pySolveComFkNoAssert (.nd2 a) ids act .planer wj s = pySolveComFk (.nd2 a') ids act .planer wj s := by
  obtain ⟨f, g, e1, e2, e3, e4⟩ := misread_rows a.wf hn
  simp only [pySolveComFkNoAssert, pySolveComFk, Prog.bind_apply, Prog.lift, Prog.read, comArg, prepareRowsNoAssert, prepareRows,
    pyAssert_true (beq_iff_eq.mpr h1), if_neg (show ¬ a.cols < ids.length + 3 by omega), e1, e2,
    onRobot, solveComForwardKinematics, List.length_map, h2]
  rw [comFkLoop_congr₂ _ e3 e4]

/-- joint values from the front, base from the back -/
theorem frontBack_rows {rows : List (List K)} (hn : ∀ r ∈ rows, ids.length ≤ r.length) (h6 : ∀ r ∈ rows, 6 ≤ r.length) :
    (∀ r ∈ rows, ∀ m : KinModel K, setJointAnglesNC ids (r.take ids.length ++ r.drop (r.length - 6)) m = setJointAnglesNC ids r m) ∧
    ∀ r ∈ rows, ∀ m : KinModel K, setBaseFromTail (r.take ids.length ++ r.drop (r.length - 6)) m = setBaseFromTail r m := by
  refine ⟨fun r hr m => ?_, fun r hr m => ?_⟩
  · have := hn r hr
    have ht : (r.take ids.length ++ r.drop (r.length - 6)).take ids.length = r.take ids.length := by
      rw [List.take_append_of_le_length (by rw [List.length_take]; omega), List.take_take, min_self]
    rw [setJointAnglesNC, setJointAnglesNC, ← writeAngles_take, ht, writeAngles_take]
  · have := hn r hr
    have := h6 r hr
    have hd : (r.take ids.length ++ r.drop (r.length - 6)).length = ids.length + 6 := by
      simp only [List.length_append, List.length_take, List.length_drop]; omega
    have ht : (r.take ids.length ++ r.drop (r.length - 6)).drop ids.length = r.drop (r.length - 6) := by
      rw [List.drop_append_of_le_length (by rw [List.length_take]; omega), List.drop_take, Nat.sub_self, List.take_zero, List.nil_append]
    simp only [setBaseFromTail, hd, Nat.add_sub_cancel, ht]
    rw [if_neg (by omega), if_neg (by omega)]

/-- **C130, set_q, too few numbers.** Without assertions `set_q` reads past the end of what it is given. -/
theorem C130_set_q_short (hc : q.length < ids.length + bt.dof) (hd : bt.dof ≤ q.length) : ∃ u, pySetQNoAssert ids q bt s = .ub u := by
  cases bt with
  | fixed =>
    obtain ⟨u, hu⟩ := writeAngles_short (ids := ids) (q := q) (a := s.robot.angles) (by simpa [BaseType.dof] using hc)
    exact ⟨u, by simp [pySetQNoAssert, Prog.bind_apply, Prog.modify, onRobot, setJointAngles, setJointAnglesNC, hu]⟩
  | floating =>
    simp only [BaseType.dof] at hc hd
    obtain ⟨u, hu⟩ := writeAngles_short (ids := ids) (q := q.take (q.length - 6)) (a := s.robot.angles) (by rw [List.length_take]; omega)
    exact ⟨u, by simp [pySetQNoAssert, Prog.bind_apply, Prog.modify, onRobot, setJointAngles, setJointAnglesNC, hu]⟩
  | planer =>
    simp only [BaseType.dof] at hc hd
    obtain ⟨u, hu⟩ := writeAngles_short (ids := ids) (q := q.take (q.length - 3)) (a := s.robot.angles) (by rw [List.length_take]; omega)
    have hl : (q.drop (q.length - 3)).length = 3 := by rw [List.length_drop]; omega
    refine ⟨u, ?_⟩
    match hq : q.drop (q.length - 3), hl with
    | [x, y, w], _ =>
      simp [pySetQNoAssert, Prog.bind_apply, Prog.modify, onRobot, setJointAngles, setJointAnglesNC, hu, hq]

/-- **C130, set_q, too many numbers.** Without assertions `set_q` moves the robot to the joint values at the front and the base at the back. -/
theorem C130_set_q_long (hc : ids.length + bt.dof ≤ q.length)
    (hs : pySetQ ids (q.take ids.length ++ q.drop (q.length - bt.dof)) bt s = .ok () s') :
    pySetQNoAssert ids q bt s = .ok () { s' with setHist := s.setHist ++ [⟨ids, q, bt⟩] } := by
  have hlen : (q.take ids.length ++ q.drop (q.length - bt.dof)).length = ids.length + bt.dof := by
    simp only [List.length_append, List.length_take, List.length_drop]; omega
  have hdrop : (q.take ids.length ++ q.drop (q.length - bt.dof)).drop ids.length = q.drop (q.length - bt.dof) := by
    rw [List.drop_append_of_le_length (by rw [List.length_take]; omega), List.drop_take, Nat.sub_self, List.take_zero, List.nil_append]
  have htake : (q.take ids.length ++ q.drop (q.length - bt.dof)).take ids.length = q.take ids.length := by
    rw [List.take_append_of_le_length (by rw [List.length_take]; omega), List.take_take, min_self]
  have hw : ∀ n, ids.length ≤ n → ∀ a, writeAngles ids (q.take ids.length) a = writeAngles ids (q.take n) a := by
    intro n hn a
    rw [← writeAngles_take ids (q.take n), List.take_take, min_eq_left hn]
  rw [← C130_set_q (by rw [hs]; intro _ _ h; cases h)] at hs
  cases bt with
  | fixed =>
    simp only [BaseType.dof, Nat.sub_zero, List.drop_length, List.append_nil] at hs
    simp only [pySetQNoAssert, Prog.bind_apply, Prog.modify, onRobot, setJointAngles, setJointAnglesNC, writeAngles_take] at hs ⊢
    cases hwr : writeAngles ids q s.robot.angles with
    | ok v => simp only [hwr, clearCache, Prog.modify] at hs ⊢; cases hs; rfl
    | _ => simp only [hwr] at hs; cases hs
  | floating =>
    simp only [BaseType.dof] at hs hlen hdrop htake hc
    simp only [pySetQNoAssert, Prog.bind_apply, Prog.modify, onRobot, setJointAngles, setJointAnglesNC, hlen, Nat.add_sub_cancel, hdrop, htake,
      hw (q.length - 6) (by omega)] at hs ⊢
    have hl : (q.drop (q.length - 6)).length = 6 := by rw [List.length_drop]; omega
    match hq : q.drop (q.length - 6), hl with
    | [x, y, z, r, p, w], _ =>
      cases hwr : writeAngles ids (q.take (q.length - 6)) s.robot.angles with
      | ok v =>
        simp only [hwr, clearCache, Prog.modify, hq, setBasePoseVec, setBasePose, Prog.bind_apply] at hs ⊢
        cases hs; rfl
      | _ => simp only [hwr] at hs; cases hs
  | planer =>
    simp only [BaseType.dof] at hs hlen hdrop htake hc
    have hl : (q.drop (q.length - 3)).length = 3 := by rw [List.length_drop]; omega
    match hq : q.drop (q.length - 3), hl with
    | [x, y, w], _ =>
      rw [hq] at hs hlen hdrop htake
      simp only [pySetQNoAssert, Prog.bind_apply, Prog.modify, onRobot, setJointAngles, setJointAnglesNC, hlen, Nat.add_sub_cancel, hdrop, htake,
        hw (q.length - 3) (by omega), hq] at hs ⊢
      cases hwr : writeAngles ids (q.take (q.length - 3)) s.robot.angles with
      | ok v =>
        simp only [hwr, clearCache, Prog.modify, setBasePoseVec, setBasePose, Prog.bind_apply] at hs ⊢
        cases hs; rfl
      | _ => simp only [hwr] at hs; cases hs

namespace Example

/-- a configuration of joint `slide` with a number too many -/
noncomputable def tooLong : Arr2 ℝ := ⟨2, [[1, 5]], by simp⟩

theorem run_a : ∃ P J s1, pySolveFk (qa 1) [3] [0] .ignore .fixed false false s0 = .ok (P, J) s1 := by
  obtain ⟨mc, h0⟩ := s0_reach.at
  obtain ⟨P1, J1, s1, mc', e1, _⟩ := h0.pySolveFk_coh (rt := .ignore) (wj := false) (uc := false) s0_shallow
    (fkArgs_a 1) (.inr ⟨rfl, .inr (.inl rfl)⟩) (by simp)
  exact ⟨P1, J1, s1, e1⟩

/-- **Witness.** With assertions a configuration that is too long is rejected; without, it is answered. -/
theorem C130_answers : (∃ msg, pySolveFk (.nd2 tooLong) [3] [0] .ignore .fixed false false s0 = .exn (.assertionError msg) s0) ∧
    ∃ P J s1, pySolveFkNoAssert (.nd2 tooLong) [3] [0] .ignore .fixed false false s0 = .ok (P, J) s1 := by
  refine ⟨⟨"n_dof", ?_⟩, ?_⟩
  · simp only [pySolveFk, Prog.bind_apply, Prog.lift, Prog.read, fkArg, prepareRows]
    rw [pyAssert_false (by simp [tooLong])]
  · rw [C130_long (a' := ⟨1, [[1]], by simp⟩) rfl rfl]
    exact run_a

-- a call no assertion stops
example : pySolveFkNoAssert (qa 1) [3] [0] .ignore .fixed false false s0 = pySolveFk (qa 1) [3] [0] .ignore .fixed false false s0 :=
  C130_solve_fk (by obtain ⟨P, J, s1, e⟩ := run_a; rw [e]; nofun)
example : pySolveComFkNoAssert (.nd2 a1) [0, 1] (some ([3], [2])) .planer true s1 = pySolveComFk (.nd2 a1) [0, 1] (some ([3], [2])) .planer true s1 :=
  C130_solve_com_fk (by
    obtain ⟨_, _, _, e, _⟩ := C05_com_partial (act := some ([3], [2])) (wj := true) s1_reach s1_shallow (comArgs_planar s1_links)
      (.inl ⟨by simp, rfl⟩) (fun _ _ => .inl inertial)
    rw [e]; nofun)
-- a moving base: a number is missing
example := C130_moving (bt := .planer) (ids := [0]) (es := [3]) (rt := .rpy) (wj := true) (uc := false) (s := s0) (qs := .nd2 tooLong) (by simp) rfl
  (by simp [tooLong]) (by simp [tooLong, BaseType.dof])
-- no configurations, for an array that is too narrow
example := C130_planar_short (a := ⟨3, [], by simp⟩) (ids := [0]) (es := [3]) (rt := .rpy) (wj := true) (uc := false) (s := s0) (act := none) (by simp)
-- the configuration is too short for two joints
example := C130_short (ids := [0, 1]) (a := ⟨1, [[1]], by simp⟩) (es := [3]) (rt := .rpy) (wj := true) (uc := false) (act := none) (s := s0)
  (by simp) (by simp)
example := C130_set_q_short (ids := [0, 1]) (q := [(1 : ℝ), 2, 3, 4]) (bt := .planer) (s := s0) (by simp [BaseType.dof]) (by simp [BaseType.dof])
-- six numbers for one joint and a floating base: the first of them is used twice
example : pySolveComFkNoAssert (.nd2 ⟨6, [[1, 2, 3, 4, 5, 6]], by simp⟩) [0] none .floating false s0 =
    pySolveComFk (.nd2 ⟨7, [[1, 1, 2, 3, 4, 5, 6]], by simp⟩) [0] none .floating false s0 :=
  C130_com_floating (by simp) (by simp) (by simp) (by simp)
example : pySolveComFkNoAssert (.nd2 tooLong) [0] none .fixed false s0 = pySolveComFk (qa 1) [0] none .fixed false s0 :=
  C130_com_long rfl rfl
-- a planar base with one number too many: the base is at (3, 0)
example : pySolveComFkNoAssert (.nd2 ⟨5, [[1, 2, 3, 4, 5]], by simp⟩) [0] none .planer false s0 =
    pySolveComFk (.nd2 ⟨4, [[1, 3, 0, 4]], by simp⟩) [0] none .planer false s0 :=
  C130_com_planar (by simp) (by simp) (by simp [misreadRow])
-- `set_q`, also with a number too many
example : ∃ s', pySetQ [0] [1] .fixed s0 = .ok () s' ∧ pySetQNoAssert [0] [1] .fixed s0 = .ok () s' ∧
    pySetQNoAssert [0] [1, 5] .fixed s0 = .ok () { s' with setHist := s0.setHist ++ [⟨[0], [1, 5], .fixed⟩] } := by
  have hlen : s0.robot.angles.length = 2 := by
    show m0.angles.length = 2
    obtain ⟨mc, hat⟩ := s0_reach.at
    obtain ⟨⟨st, c, hst⟩, _⟩ := hat.same
    have : m0.angles = mc.angles := (congrArg KinModel.angles hst : _)
    rw [this, hat.reach.anglesLen, joints_length]
  obtain ⟨θ, hθ⟩ : ∃ θ, writeAngles [0] ([1] : List ℝ) s0.robot.angles = .ok θ :=
    writeAngles_ok (by simp) (by rw [hlen]; simp)
  have e := pySetQ_ok (s := s0) (ids := [0]) (q := [1]) (bt := .fixed) (by simpa using hθ) (by simp [BaseType.dof])
  exact ⟨_, e, (C130_set_q (by rw [e]; nofun)).trans e, C130_set_q_long (by simp [BaseType.dof]) e⟩

end Example
end Tinyfk
