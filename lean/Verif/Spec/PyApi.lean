import Verif.Spec.Api
import Verif.Model.Py

/-!
# Specification: histories of Python calls

What the Python methods leave behind in the robot, told through the plain setters of the C++
class: setting joint angles, setting the base pose, adding a link. Solvers apply their
configurations one after the other; a call that raises has no effect.
-/

namespace Tinyfk

open Scalar

variable {K : Type} [Scalar K]

/-- number of base coordinates in a configuration -/
def BaseType.dof : BaseType → Nat
  | .fixed => 0
  | .planer => 3
  | .floating => 6

/-- The base pose in a configuration vector with `n` joint values: for a planar base
`(x, y, yaw)`, for a floating base `(x, y, z, roll, pitch, yaw)`. -/
def basePart (n : Nat) (bt : BaseType) (q : List K) : Option (Pose K) :=
  match bt, q.drop n with
  | .planer, [x, y, w] => some ⟨⟨x, y, 0⟩, Rot.fromRPY 0 0 w⟩
  | .floating, [x, y, z, r, p, w] => some ⟨⟨x, y, z⟩, Rot.fromRPY r p w⟩
  | _, _ => none

/-- The pose of the base in a configuration vector with `n` joint values. -/
def configBase (n : Nat) (bt : BaseType) (q : List K) : Pose K := (basePart n bt q).getD Pose.identity

/-- Applying the configuration `q`: its first numbers go to the joints `ids`, the others to
the base. -/
def configCalls (ids : List Nat) (bt : BaseType) (q : List K) : List (Call K) :=
  .setJointAngles ids (q.take ids.length) ::
    match basePart ids.length bt q with
    | some p => [.setBasePose p]
    | none => []

/-- Applying a batch, one configuration after the other. -/
def batchCalls (ids : List Nat) (bt : BaseType) (qs : List (List K)) : List (Call K) :=
  qs.flatMap (configCalls ids bt)

/-- the configurations in a `qs` argument -/
def QArg.rows : QArg K → List (List K)
  | .nd1 q => [q]
  | .list1 q => [q]
  | .nd2 a => a.rows
  | .list2 a _ => a.rows

/-- The methods of the Python class. -/
inductive PyCall (K : Type) where
  | getQ (ids : List Nat) (bt : BaseType)
  | setQ (ids : List Nat) (q : List K) (bt : BaseType)
  | solveFk (qs : QArg K) (elinks ids : List Nat) (rt : RotType) (bt : BaseType) (withJac useCache : Bool)
  | solveComFk (qs : QArg K) (ids : List Nat) (action : Option (List Nat × List K)) (bt : BaseType)
      (withJac : Bool)
  | inertia (q : List K) (ids : List Nat)
  | getJointNames
  | getJointIds (names : List String)
  | getLinkIds (names : List String)
  | getJointLimits (ids : List Nat)
  | addNewLink (a : AddArgs K)
  | sqdists (qs : List (List K)) (pairs : List (Nat × Nat)) (ids : List Nat) (bt : BaseType)
      (withJac useCache : Bool)
  | clearCache
  | totalMass
  | rootLinkName

/-- run a call and drop its result -/
def PyCall.run : PyCall K → Prog (PyModel K) Unit
  | .getQ ids bt => Prog.bind (pyGetQ ids bt) fun _ => Prog.pure ()
  | .setQ ids q bt => pySetQ ids q bt
  | .solveFk qs e ids rt bt wj uc => Prog.bind (pySolveFk qs e ids rt bt wj uc) fun _ => Prog.pure ()
  | .solveComFk qs ids a bt wj => Prog.bind (pySolveComFk qs ids a bt wj) fun _ => Prog.pure ()
  | .inertia q ids => Prog.bind (pyInertia q ids) fun _ => Prog.pure ()
  | .getJointNames => Prog.bind pyGetJointNames fun _ => Prog.pure ()
  | .getJointIds ns => Prog.bind (pyGetJointIds ns) fun _ => Prog.pure ()
  | .getLinkIds ns => Prog.bind (pyGetLinkIds ns) fun _ => Prog.pure ()
  | .getJointLimits ids => Prog.bind (pyGetJointLimits ids) fun _ => Prog.pure ()
  | .addNewLink a => pyAddNewLink a
  | .sqdists qs ps ids bt wj uc => Prog.bind (pySqdists qs ps ids bt wj uc) fun _ => Prog.pure ()
  | .clearCache => pyClearCache
  | .totalMass => Prog.bind pyTotalMass fun _ => Prog.pure ()
  | .rootLinkName => Prog.bind pyRootLinkName fun _ => Prog.pure ()

/-- What a call that returns does to the robot, as calls of the C++ class. -/
def PyCall.effect : PyCall K → List (Call K)
  | .setQ ids q bt => configCalls ids bt q
  | .solveFk qs _ ids _ bt _ _ => batchCalls ids bt qs.rows
  | .solveComFk qs ids _ bt _ => batchCalls ids bt qs.rows
  | .inertia q ids => [.setJointAngles ids (q.take ids.length)]
  | .addNewLink a => [.addNewLink a.name a.parent
      ⟨a.position, Rot.fromRPY (a.rpy.getD Vec3.zero).x (a.rpy.getD Vec3.zero).y (a.rpy.getD Vec3.zero).z⟩]
  | .sqdists qs _ ids bt _ _ => batchCalls ids bt qs
  | _ => []

/-- The configurations have the documented length. (The other calls check this themselves.) -/
def PyCall.Shaped : PyCall K → Prop
  | .sqdists qs _ ids bt _ _ => ∀ q ∈ qs, q.length = ids.length + bt.dof
  | _ => True

/-- `PyRuns s h cs s'`: the Python calls `h`, some of which may raise, take `s` to `s'`; `cs` is
their effect on the robot. -/
inductive PyRuns : PyModel K → List (PyCall K) → List (Call K) → PyModel K → Prop
  | nil {s : PyModel K} : PyRuns s [] [] s
  | ok {s s1 s2 : PyModel K} {c : PyCall K} {h : List (PyCall K)} {cs : List (Call K)} :
      c.Shaped → c.run s = .ok () s1 → PyRuns s1 h cs s2 → PyRuns s (c :: h) (c.effect ++ cs) s2
  | exn {s s1 s2 : PyModel K} {c : PyCall K} {h : List (PyCall K)} {cs : List (Call K)} {e : Exn} :
      c.Shaped → c.run s = .exn e s1 → PyRuns s1 h cs s2 → PyRuns s (c :: h) cs s2

/-- `s` is reached from the description `(ls, js)`, which is a tree with supported joints,
constructed with robot `m0`, by Python calls with effect `cs`. -/
structure PyReach (ls : List (RawLink K)) (js : List (RawJoint K)) (m0 : KinModel K)
    (h : List (PyCall K)) (cs : List (Call K)) (s : PyModel K) : Prop where
  tree : IsTree js
  supported : Supported js
  built : construct (buildModel ls js) = .ok m0
  runs : ∃ xml, PyRuns ⟨xml, m0, [], []⟩ h cs s

end Tinyfk
