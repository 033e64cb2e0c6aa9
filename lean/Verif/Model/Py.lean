import Verif.Model.Wrapper

/-!
# The Python class

Models `python/tinyfk/__init__.py`. Numpy arrays are lists of numbers; ids are `Nat`
(pybind11 rejects negative numbers for `size_t`). `urdf::parseURDF` is the parameter
`parse`.
-/

namespace Tinyfk

open Scalar

/-- __init__.py:29-32 `BaseType` -/
inductive BaseType where
  | fixed | planer | floating
  deriving DecidableEq, Repr

/-- __init__.py:226 arguments of one `add_new_link` call -/
structure AddArgs (K : Type) where
  name : String
  parent : Nat
  position : Vec3 K
  rpy : Option (Vec3 K)

/-- __init__.py:80 arguments of one `set_q` call -/
structure SetArgs (K : Type) where
  ids : List Nat
  q : List K
  base : BaseType

/-- __init__.py:42-56 an instance of `KinematicModel` -/
structure PyModel (K : Type) where
  xml : String
  robot : KinModel K
  addHist : List (AddArgs K)
  setHist : List (SetArgs K)

/-- a two-dimensional numpy array -/
structure Arr2 (K : Type) where
  cols : Nat
  rows : List (List K)
  wf : ∀ r ∈ rows, r.length = cols

/-- the `qs` argument: a 1-d or 2-d ndarray, a list of numbers, or a (non-empty) list of
equally long sequences -/
inductive QArg (K : Type) where
  | nd1 (q : List K)
  | nd2 (a : Arr2 K)
  | list1 (q : List K)
  | list2 (a : Arr2 K) (h : a.rows ≠ [])

variable {K : Type} [Scalar K]

/-- `np.expand_dims(q, axis=0)` -/
def Arr2.ofRow (q : List K) : Arr2 K := ⟨q.length, [q], by simp⟩

/-- a method of `self._robot` -/
def onRobot {α : Type} (p : Prog (KinModel K) α) : Prog (PyModel K) α := fun s =>
  match p s.robot with
  | .ok a r => .ok a { s with robot := r }
  | .exn e r => .exn e { s with robot := r }
  | .ub u => .ub u
  | .hang => .hang

/-- Python `assert` -/
def pyAssert (c : Bool) (msg : String) : Prog (PyModel K) Unit :=
  if c then pure () else Prog.throw (.assertionError msg)

/-- __init__.py:47-56 `__init__(xml_text=...)` -/
def pyInit (parse : String → Option (ModelInterface K)) (xml : String) : Outcome (PyModel K) := do
  let r ← constructXml parse xml
  pure ⟨xml, r, [], []⟩

/-- __init__.py:62-75 `get_q` -/
def pyGetQ (ids : List Nat) (bt : BaseType) : Prog (PyModel K) (List K) := do
  let baseVec ← match bt with
    | .fixed => pure []
    | .planer => do
      let v ← onRobot getBasePose
      match v with
      | [x, y, _, _, _, w] => pure [x, y, w]
      | _ => Prog.throw (.indexError "get_base_pose")
    | .floating => onRobot getBasePose
  let a ← onRobot (getJointAngles ids)
  pure (a ++ baseVec)

/-- __init__.py:77-96 `set_q` -/
def pySetQ (ids : List Nat) (q : List K) (bt : BaseType) : Prog (PyModel K) Unit := do
  Prog.modify fun s => { s with setHist := s.setHist ++ [⟨ids, q, bt⟩] }
  match bt with
  | .planer => do
    pyAssert (q.length == ids.length + 3) "set_q"
    let a := q.take (q.length - 3)
    match q.drop (q.length - 3) with
    | [x, y, w] => do
      onRobot (setJointAngles ids a)
      onRobot (setBasePoseVec [x, y, 0, 0, 0, w])
    | _ => Prog.throw (.indexError "base_xytheta")
  | .floating => do
    pyAssert (q.length == ids.length + 6) "set_q"
    onRobot (setJointAngles ids (q.take (q.length - 6)))
    onRobot (setBasePoseVec (q.drop (q.length - 6)))
  | .fixed => do
    pyAssert (q.length == ids.length) "set_q"
    onRobot (setJointAngles ids q)

/-- __init__.py:98-103 `_modify_input_with_3dof_base` on one row: the first `nJoint + 2`
numbers, zeros, and number `nJoint + 2` at the end. A row that is too short makes numpy
raise. -/
def modifyRow (nJoint : Nat) (row : List K) : Outcome (List K) :=
  match row[nJoint + 2]? with
  | none => .exn (.indexError "_modify_input_with_3dof_base")
  | some w => .ok (row.take (nJoint + 2) ++ List.replicate (row.length - nJoint) 0 ++ [w])

/-- __init__.py:98-103 `_modify_input_with_3dof_base` -/
def modifyInput (nJoint : Nat) (rows : List (List K)) : Outcome (List (List K)) :=
  mapOutcome (modifyRow nJoint) rows

/-- __init__.py:155-157 the column selection for a planar base -/
def planarCols (nJoint : Nat) : List Nat := List.range nJoint ++ [nJoint, nJoint + 1, nJoint + 5]

/-- __init__.py:134-142 (and 179-187) the checks and the conversion of the rows -/
def prepareRows (nJoint : Nat) (bt : BaseType) (a : Arr2 K) : Prog (PyModel K) (List (List K)) :=
  match bt with
  | .planer => do
    pyAssert (a.cols == nJoint + 3) "n_dof"
    Prog.lift (modifyInput nJoint a.rows)
  | .floating => do
    pyAssert (a.cols == nJoint + 6) "n_dof"
    pure a.rows
  | .fixed => do
    pyAssert (a.cols == nJoint) "n_dof"
    pure a.rows

/-- __init__.py:121-127 normalisation of `qs` in `solve_fk`: a 1-d ndarray is expanded, a
list of numbers is not and the unpacking of the shape raises -/
def fkArg : QArg K → Outcome (Arr2 K)
  | .nd1 q => .ok (Arr2.ofRow q)
  | .nd2 a => .ok a
  | .list1 _ => .exn (.valueError "not enough values to unpack")
  | .list2 a _ => .ok a

/-- __init__.py:171-176 normalisation of `qs` in `solve_com_fk`: a list of numbers is
expanded, a 1-d ndarray is not -/
def comArg : QArg K → Outcome (Arr2 K)
  | .nd1 _ => .exn (.valueError "not enough values to unpack")
  | .nd2 a => .ok a
  | .list1 q => .ok (Arr2.ofRow q)
  | .list2 a _ => .ok a

/-- __init__.py:105-159 `solve_fk` (an `int` for `elink_ids` is the one-element list) -/
def pySolveFk (qs : QArg K) (elinks ids : List Nat) (rt : RotType) (bt : BaseType)
    (withJac useCache : Bool) : Prog (PyModel K) (Mat K × Mat K) := do
  let a ← Prog.lift (fkArg qs)
  let rows ← prepareRows ids.length bt a
  let (P, J) ← onRobot
    (solveForwardKinematics rows elinks ids rt (bt != .fixed) withJac useCache)
  if bt = .planer then do
    let J ← Prog.lift (J.selectCols (planarCols ids.length))
    pure (P, J)
  else pure (P, J)

/-- __init__.py:161-196 `solve_com_fk`; `action = none` is `action_link_ids=None` -/
def pySolveComFk (qs : QArg K) (ids : List Nat) (action : Option (List Nat × List K))
    (bt : BaseType) (withJac : Bool) : Prog (PyModel K) (Mat K × Mat K) := do
  let a ← Prog.lift (comArg qs)
  let rows ← prepareRows ids.length bt a
  let act := action.getD ([], [])
  onRobot (solveComForwardKinematics rows ids act.1 act.2 (bt != .fixed) withJac)

/-- __init__.py:198-199 `compute_total_inertia_matrix` -/
def pyInertia (q : List K) (ids : List Nat) : Prog (PyModel K) (M3 K) :=
  onRobot (computeTotalInertiaMatrix q ids)

/-- __init__.py:201-202 `get_joint_names` -/
def pyGetJointNames : Prog (PyModel K) (List String) := onRobot getJointNames
/-- __init__.py:204-205 `get_joint_ids` -/
def pyGetJointIds (names : List String) : Prog (PyModel K) (List Nat) := onRobot (getJointIds names)
/-- __init__.py:207-208 `get_link_ids` -/
def pyGetLinkIds (names : List String) : Prog (PyModel K) (List Nat) := onRobot (getLinkIds names)

/-- __init__.py:212-221 one entry of `get_joint_limits`. A description cannot contain an
infinite limit in the model (`Bound.fin` holds every parsed number). -/
def pyLimit : Bound K × Bound K → Option (Bound K) × Option (Bound K)
  | (.negInf, .posInf) => (none, none)
  | (l, u) => (some l, some u)

/-- __init__.py:210-221 `get_joint_limits` -/
def pyGetJointLimits (ids : List Nat) :
    Prog (PyModel K) (List (Option (Bound K) × Option (Bound K))) := do
  let r ← onRobot (getJointPositionLimits ids)
  pure (r.map pyLimit)

/-- __init__.py:223-231 `add_new_link` -/
def pyAddNewLink (a : AddArgs K) : Prog (PyModel K) Unit := do
  Prog.modify fun s => { s with addHist := s.addHist ++ [a] }
  onRobot (wAddNewLink a.name a.parent a.position (a.rpy.getD Vec3.zero))

/-- __init__.py:233-266 `compute_inter_link_sqdists`; for a planar base the rows must form
a 2-d array. Simplified: with a planar base, `qs = []` as a Python list raises in numpy (1-d index error);
here it is a 0-row array, which is what the code sees if a caller passes `np.zeros((0, n))`. -/
def pySqdists (qs : List (List K)) (pairs : List (Nat × Nat)) (ids : List Nat) (bt : BaseType)
    (withJac useCache : Bool) : Prog (PyModel K) (Mat K × Mat K) := do
  let rows ← if bt = .planer then Prog.lift (modifyInput ids.length qs) else pure qs
  if pairs = [] then Prog.throw (.valueError "not enough values to unpack")
  else do
    let (V, J) ← onRobot (computeInterLinkSquaredDists rows (pairs.map Prod.fst)
      (pairs.map Prod.snd) ids (bt != .fixed) withJac useCache)
    if bt = .planer ∧ withJac then do
      let J ← Prog.lift (J.selectCols (planarCols ids.length))
      pure (V, J)
    else pure (V, J)

/-- __init__.py:268-269 `clear_cache` -/
def pyClearCache : Prog (PyModel K) Unit := onRobot clearCache

/-- __init__.py:271-273 `total_mass` -/
def pyTotalMass : Prog (PyModel K) K := Prog.read fun s => .ok s.robot.totalMass

/-- __init__.py:58-60 `root_link_name` -/
def pyRootLinkName : Prog (PyModel K) String := onRobot getRootLinkName

/-- what `__getstate__` (275-278) keeps -/
structure Pickled (K : Type) where
  xml : String
  addHist : List (AddArgs K)
  setHist : List (SetArgs K)

/-- __init__.py:275-278 `__getstate__` -/
def pyGetState (s : PyModel K) : Pickled K := ⟨s.xml, s.addHist, s.setHist⟩

/-- __init__.py:284-288 replay of the two histories -/
def pyReplay (adds : List (AddArgs K)) (sets : List (SetArgs K)) : Prog (PyModel K) Unit := do
  Prog.forEach adds (fun a _ => pyAddNewLink a) ()
  Prog.forEach sets (fun a _ => pySetQ a.ids a.q a.base) ()

/-- __init__.py:280-290 `__setstate__`: rebuild, replay, clear both histories -/
def pySetState (parse : String → Option (ModelInterface K)) (p : Pickled K) :
    Outcome (PyModel K) := do
  let r ← constructXml parse p.xml
  let s ← (pyReplay p.addHist p.setHist ⟨p.xml, r, p.addHist, p.setHist⟩).toOutcome
  pure { s with addHist := [], setHist := [] }

/-- `pickle.loads(pickle.dumps(model))` -/
def pyPickle (parse : String → Option (ModelInterface K)) (s : PyModel K) : Outcome (PyModel K) :=
  pySetState parse (pyGetState s)

end Tinyfk
