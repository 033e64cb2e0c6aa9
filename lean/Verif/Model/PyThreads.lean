import Verif.Spec.PyApi

/-!
# Python threads that share a model

The methods of `python/tinyfk/__init__.py` again, as sequences of steps between which another Python thread may run. A call
of a function of the extension module is one step: `src/wrapper.cpp` never releases the interpreter lock (there is no
`gil_scoped_release` and no `call_guard` in it), so no other thread runs Python code or calls the extension meanwhile.
`list.append` is one step as well. Everything else a method does is done on its own local values, and the arguments are
not shared between threads. (For shared arguments see `Model/PyHeap`.)
-/

namespace Tinyfk

open Scalar

/-- A method call from the first step to the last. `done` ends it, with a value or an exception. -/
inductive Steps (K α : Type) : Type 1 where
  | done (r : Outcome α)
  /-- `self._add_new_link_history.append(a)` -/
  | addHist (a : AddArgs K) (k : Steps K α)
  /-- `self._set_joint_angles_history.append(a)` -/
  | setHist (a : SetArgs K) (k : Steps K α)
  /-- a call of a method of `self._robot` -/
  | robot {β : Type} (p : Prog (KinModel K) β) (k : β → Steps K α)

/-- the values the methods return -/
inductive PyVal (K : Type) where
  | none
  | vec (v : List K)
  | mats (P J : Mat K)
  | mat3 (M : M3 K)
  | names (l : List String)
  | ids (l : List Nat)
  | limits (l : List (Option (Bound K) × Option (Bound K)))
  | num (x : K)
  | str (s : String)

variable {K : Type} [Scalar K]

/-- __init__.py:62-75 `get_q`: with a base two calls of the extension -/
def tGetQ (ids : List Nat) : BaseType → Steps K (PyVal K)
  | .fixed => .robot (getJointAngles ids) fun a => .done (.ok (.vec (a ++ [])))
  | .planer => .robot getBasePose fun v =>
    match v with
    | [x, y, _, _, _, w] => .robot (getJointAngles ids) fun a => .done (.ok (.vec (a ++ [x, y, w])))
    | _ => .done (.exn (.indexError "get_base_pose"))
  | .floating => .robot getBasePose fun v => .robot (getJointAngles ids) fun a => .done (.ok (.vec (a ++ v)))

/-- __init__.py:77-96 `set_q`: the call is recorded first; with a base two calls of the extension -/
def tSetQ (ids : List Nat) (q : List K) (bt : BaseType) : Steps K (PyVal K) :=
  .setHist ⟨ids, q, bt⟩ <|
  match bt with
  | .planer =>
    if q.length == ids.length + 3 then
      match q.drop (q.length - 3) with
      | [x, y, w] => .robot (setJointAngles ids (q.take (q.length - 3))) fun _ =>
          .robot (setBasePoseVec [x, y, 0, 0, 0, w]) fun _ => .done (.ok .none)
      | _ => .done (.exn (.indexError "base_xytheta"))
    else .done (.exn (.assertionError "set_q"))
  | .floating =>
    if q.length == ids.length + 6 then
      .robot (setJointAngles ids (q.take (q.length - 6))) fun _ =>
        .robot (setBasePoseVec (q.drop (q.length - 6))) fun _ => .done (.ok .none)
    else .done (.exn (.assertionError "set_q"))
  | .fixed =>
    if q.length == ids.length then .robot (setJointAngles ids q) fun _ => .done (.ok .none)
    else .done (.exn (.assertionError "set_q"))

/-- __init__.py:134-142 (and 179-187) the checks and the conversion of the rows -/
def tPrepare (nJoint : Nat) (bt : BaseType) (a : Arr2 K) : Outcome (List (List K)) :=
  match bt with
  | .planer => if a.cols == nJoint + 3 then modifyInput nJoint a.rows else .exn (.assertionError "n_dof")
  | .floating => if a.cols == nJoint + 6 then .ok a.rows else .exn (.assertionError "n_dof")
  | .fixed => if a.cols == nJoint then .ok a.rows else .exn (.assertionError "n_dof")

/-- go on with the value of a local computation -/
def Steps.local {α β : Type} (o : Outcome α) (k : α → Steps K β) : Steps K β :=
  match o with
  | .ok a => k a
  | .exn e => .done (.exn e)
  | .ub u => .done (.ub u)
  | .hang => .done .hang

/-- the values of a solver: the columns for a planar base are selected after the call of the extension -/
def tMats (sel : Bool) (nJoint : Nat) (PJ : Mat K × Mat K) : Steps K (PyVal K) :=
  if sel then .local (PJ.2.selectCols (planarCols nJoint)) fun J => .done (.ok (.mats PJ.1 J))
  else .done (.ok (.mats PJ.1 PJ.2))

/-- the methods; each line is the method of the same name in `Model/Py` -/
def PyCall.steps : PyCall K → Steps K (PyVal K)
  | .getQ ids bt => tGetQ ids bt
  | .setQ ids q bt => tSetQ ids q bt
  | .solveFk qs e ids rt bt wj uc => .local (fkArg qs) fun a => .local (tPrepare ids.length bt a) fun rows =>
      .robot (solveForwardKinematics rows e ids rt (bt != .fixed) wj uc) (tMats (bt = .planer) ids.length)
  | .solveComFk qs ids act bt wj => .local (comArg qs) fun a => .local (tPrepare ids.length bt a) fun rows =>
      .robot (solveComForwardKinematics rows ids (act.getD ([], [])).1 (act.getD ([], [])).2 (bt != .fixed) wj)
        (tMats false ids.length)
  | .inertia q ids => .robot (computeTotalInertiaMatrix q ids) fun M => .done (.ok (.mat3 M))
  | .getJointNames => .robot Tinyfk.getJointNames fun l => .done (.ok (.names l))
  | .getJointIds ns => .robot (Tinyfk.getJointIds ns) fun l => .done (.ok (.ids l))
  | .getLinkIds ns => .robot (Tinyfk.getLinkIds ns) fun l => .done (.ok (.ids l))
  | .getJointLimits ids => .robot (getJointPositionLimits ids) fun l => .done (.ok (.limits (l.map pyLimit)))
  | .addNewLink a => .addHist a <| .robot (wAddNewLink a.name a.parent a.position (a.rpy.getD Vec3.zero)) fun _ =>
      .done (.ok .none)
  | .sqdists qs ps ids bt wj uc =>
    .local (if bt = .planer then modifyInput ids.length qs else .ok qs) fun rows =>
      if ps = [] then .done (.exn (.valueError "not enough values to unpack"))
      else .robot (computeInterLinkSquaredDists rows (ps.map Prod.fst) (ps.map Prod.snd) ids (bt != .fixed) wj uc)
        (tMats (bt = .planer ∧ wj) ids.length)
  | .clearCache => .robot Tinyfk.clearCache fun _ => .done (.ok .none)
  | .totalMass => .robot (Prog.read fun m => .ok m.totalMass) fun x => .done (.ok (.num x))
  | .rootLinkName => .robot getRootLinkName fun s => .done (.ok (.str s))

/-- A thread: the calls it still has to make, and the call it is in. -/
structure Thread (K : Type) : Type 1 where
  todo : List (PyCall K)
  cur : Option (PyCall K × Steps K (PyVal K))

/-- All threads and the model they share. -/
structure Pool (K : Type) : Type 1 where
  model : PyModel K
  threads : Nat → Thread K

/-- what can be seen of a step of thread `i` -/
inductive TEvent (K : Type) where
  /-- the thread calls a method -/
  | call (i : Nat) (c : PyCall K)
  /-- it makes a step inside the method -/
  | step (i : Nat)
  /-- the method returns a value or raises -/
  | ret (i : Nat) (c : PyCall K) (r : Except Exn (PyVal K))

/-- set the state of thread `i` -/
def Pool.set (w : Pool K) (i : Nat) (t : Thread K) : Pool K :=
  { w with threads := fun j => if j = i then t else w.threads j }

/-- One step of some thread. There is no step for undefined behaviour and for a call that never ends. -/
inductive Pool.Step : Pool K → TEvent K → Pool K → Prop
  | call {w : Pool K} {i : Nat} {c : PyCall K} {cs : List (PyCall K)} : w.threads i = ⟨c :: cs, none⟩ →
      Pool.Step w (.call i c) (w.set i ⟨cs, some (c, c.steps)⟩)
  | addHist {w : Pool K} {i : Nat} {c : PyCall K} {cs : List (PyCall K)} {a : AddArgs K} {k : Steps K (PyVal K)} :
      w.threads i = ⟨cs, some (c, .addHist a k)⟩ →
      Pool.Step w (.step i) ({ w with model := { w.model with addHist := w.model.addHist ++ [a] } }.set i ⟨cs, some (c, k)⟩)
  | setHist {w : Pool K} {i : Nat} {c : PyCall K} {cs : List (PyCall K)} {a : SetArgs K} {k : Steps K (PyVal K)} :
      w.threads i = ⟨cs, some (c, .setHist a k)⟩ →
      Pool.Step w (.step i) ({ w with model := { w.model with setHist := w.model.setHist ++ [a] } }.set i ⟨cs, some (c, k)⟩)
  | robot {w : Pool K} {i : Nat} {c : PyCall K} {cs : List (PyCall K)} {β : Type} {p : Prog (KinModel K) β}
      {k : β → Steps K (PyVal K)} {b : β} {m : KinModel K} : w.threads i = ⟨cs, some (c, .robot p k)⟩ →
      p w.model.robot = .ok b m →
      Pool.Step w (.step i) ({ w with model := { w.model with robot := m } }.set i ⟨cs, some (c, k b)⟩)
  | raise {w : Pool K} {i : Nat} {c : PyCall K} {cs : List (PyCall K)} {β : Type} {p : Prog (KinModel K) β}
      {k : β → Steps K (PyVal K)} {e : Exn} {m : KinModel K} : w.threads i = ⟨cs, some (c, .robot p k)⟩ →
      p w.model.robot = .exn e m →
      Pool.Step w (.step i) ({ w with model := { w.model with robot := m } }.set i ⟨cs, some (c, .done (.exn e))⟩)
  | ret {w : Pool K} {i : Nat} {c : PyCall K} {cs : List (PyCall K)} {v : PyVal K} :
      w.threads i = ⟨cs, some (c, .done (.ok v))⟩ → Pool.Step w (.ret i c (.ok v)) (w.set i ⟨cs, none⟩)
  | retExn {w : Pool K} {i : Nat} {c : PyCall K} {cs : List (PyCall K)} {e : Exn} :
      w.threads i = ⟨cs, some (c, .done (.exn e))⟩ → Pool.Step w (.ret i c (.error e)) (w.set i ⟨cs, none⟩)

end Tinyfk
