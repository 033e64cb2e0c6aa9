import Verif.Model.Py

/-!
# The Python class with assertions switched off

`python -O` (or `PYTHONOPTIMIZE`) removes all `assert` statements. Models `set_q`, `solve_fk` and `solve_com_fk` of
`python/tinyfk/__init__.py` without them; the other methods of the class have no assertions (`__init__` and `get_q` are left out).
-/

namespace Tinyfk

open Scalar

variable {K : Type} [Scalar K]

/-- __init__.py:77-96 `set_q` without lines 84, 90 and 95 -/
def pySetQNoAssert (ids : List Nat) (q : List K) (bt : BaseType) : Prog (PyModel K) Unit := do
  Prog.modify fun s => { s with setHist := s.setHist ++ [⟨ids, q, bt⟩] }
  match bt with
  | .planer => do
    let a := q.take (q.length - 3)
    match q.drop (q.length - 3) with
    | [x, y, w] => do
      onRobot (setJointAngles ids a)
      onRobot (setBasePoseVec [x, y, 0, 0, 0, w])
    | _ => Prog.throw (.indexError "base_xytheta")
  | .floating => do
    onRobot (setJointAngles ids (q.take (q.length - 6)))
    onRobot (setBasePoseVec (q.drop (q.length - 6)))
  | .fixed => onRobot (setJointAngles ids q)

/-- __init__.py:134-142 (and 179-187) the conversion of the rows without the checks of lines 135, 138 and 140. An array that is too
narrow makes numpy raise in `_modify_input_with_3dof_base`, also when it has no rows. -/
def prepareRowsNoAssert (nJoint : Nat) (bt : BaseType) (a : Arr2 K) : Prog (PyModel K) (List (List K)) :=
  match bt with
  | .planer =>
    if a.cols < nJoint + 3 then Prog.throw (.indexError "_modify_input_with_3dof_base")
    else Prog.lift (modifyInput nJoint a.rows)
  | .floating => pure a.rows
  | .fixed => pure a.rows

/-- __init__.py:105-159 `solve_fk` without assertions -/
def pySolveFkNoAssert (qs : QArg K) (elinks ids : List Nat) (rt : RotType) (bt : BaseType)
    (withJac useCache : Bool) : Prog (PyModel K) (Mat K × Mat K) := do
  let a ← Prog.lift (fkArg qs)
  let rows ← prepareRowsNoAssert ids.length bt a
  let (P, J) ← onRobot
    (solveForwardKinematics rows elinks ids rt (bt != .fixed) withJac useCache)
  if bt = .planer then do
    let J ← Prog.lift (J.selectCols (planarCols ids.length))
    pure (P, J)
  else pure (P, J)

/-- __init__.py:161-196 `solve_com_fk` without assertions -/
def pySolveComFkNoAssert (qs : QArg K) (ids : List Nat) (action : Option (List Nat × List K))
    (bt : BaseType) (withJac : Bool) : Prog (PyModel K) (Mat K × Mat K) := do
  let a ← Prog.lift (comArg qs)
  let rows ← prepareRowsNoAssert ids.length bt a
  let act := action.getD ([], [])
  onRobot (solveComForwardKinematics rows ids act.1 act.2 (bt != .fixed) withJac)

end Tinyfk
