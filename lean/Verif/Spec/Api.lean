import Verif.Spec.Desc
import Verif.Model.Wrapper

/-!
# Specification: histories of calls of the C++ class

What a history of successful and failed calls should leave behind, told from the calls
alone: the last base pose set, the last value written to each joint, the links added.
-/

namespace Tinyfk

open Scalar

variable {K : Type} [Scalar K]

/-- The public calls of `KinematicModel` (tinyfk.hpp:76-155) that keep cache coherence in
the hands of the library. (`set_joint_angle` and `_set_joint_angles` write angles without
dropping the cache; they are treated apart.) -/
inductive Call (K : Type) where
  | setJointAngles (ids : List Nat) (vals : List K)
  | setBasePose (p : Pose K)
  | setInitAngles
  | clearCache
  | addNewLink (name : String) (parent : Nat) (pose : Pose K)
  | getLinkPose (l : Nat)
  | getJacobian (l : Nat) (ids : List Nat) (rt : RotType) (withBase : Bool)
  | getCom
  | getComJacobian (ids : List Nat) (withBase : Bool)
  | getTotalInertia
  | getJointIds (names : List String)
  | getLinkIds (names : List String)
  | getJointAngles (ids : List Nat)
  | getJointPositionLimits (ids : List Nat)

/-- run a call and drop its result -/
def Call.run : Call K → Prog (KinModel K) Unit
  | .setJointAngles ids vals => Tinyfk.setJointAngles ids vals
  | .setBasePose p => Tinyfk.setBasePose p
  | .setInitAngles => Tinyfk.setInitAngles
  | .clearCache => Tinyfk.clearCache
  | .addNewLink n p o => Prog.bind (Tinyfk.addNewLink n p o) fun _ => Prog.pure ()
  | .getLinkPose l => Prog.bind (Tinyfk.getLinkPose l) fun _ => Prog.pure ()
  | .getJacobian l ids rt b => Prog.bind (Tinyfk.getJacobian l ids rt b) fun _ => Prog.pure ()
  | .getCom => Prog.bind Tinyfk.getCom fun _ => Prog.pure ()
  | .getComJacobian ids b => Prog.bind (Tinyfk.getComJacobian ids b) fun _ => Prog.pure ()
  | .getTotalInertia => Prog.bind Tinyfk.getTotalInertia fun _ => Prog.pure ()
  | .getJointIds ns => Prog.bind (Tinyfk.getJointIds ns) fun _ => Prog.pure ()
  | .getLinkIds ns => Prog.bind (Tinyfk.getLinkIds ns) fun _ => Prog.pure ()
  | .getJointAngles ids => Prog.bind (Tinyfk.getJointAngles ids) fun _ => Prog.pure ()
  | .getJointPositionLimits ids => Prog.bind (Tinyfk.getJointPositionLimits ids) fun _ => Prog.pure ()

/-- The arguments are ids of a model with `nj` joints and `nl` links, and there is an angle for
each joint id. -/
def Call.Valid (nj nl : Nat) : Call K → Prop
  | .setJointAngles ids vals => (∀ i ∈ ids, i < nj) ∧ ids.length ≤ vals.length
  | .addNewLink _ p _ => p < nl
  | .getLinkPose l => l < nl
  | .getJacobian l ids _ _ => l < nl ∧ ∀ i ∈ ids, i < nj
  | .getComJacobian ids _ => ∀ i ∈ ids, i < nj
  | .getJointAngles ids => ∀ i ∈ ids, i < nj
  | .getJointPositionLimits ids => ∀ i ∈ ids, i < nj
  | _ => True

/-- `Runs m cs m'`: the calls `cs`, some of which may throw, take `m` to `m'`. -/
inductive Runs : KinModel K → List (Call K) → KinModel K → Prop
  | nil {m : KinModel K} : Runs m [] m
  | ok {m m1 m2 : KinModel K} {c : Call K} {cs : List (Call K)} :
      c.run m = .ok () m1 → Runs m1 cs m2 → Runs m (c :: cs) m2
  | exn {m m1 m2 : KinModel K} {c : Call K} {cs : List (Call K)} {e : Exn} :
      c.run m = .exn e m1 → Runs m1 cs m2 → Runs m (c :: cs) m2

/-- the value of the last pair with key `i` -/
def lastWrite (ws : List (Nat × K)) (i : Nat) : Option K :=
  ((ws.filter fun w => w.1 == i).getLast?).map Prod.snd

/-- The value joint `i` should have after the calls `cs`, started from `v`. -/
def angleAfter (i : Nat) : K → List (Call K) → K
  | v, [] => v
  | v, .setJointAngles ids vals :: cs => angleAfter i ((lastWrite (ids.zip vals) i).getD v) cs
  | _, .setInitAngles :: cs => angleAfter i 0 cs
  | v, _ :: cs => angleAfter i v cs

/-- The base pose after the calls `cs`, started from `b`. -/
def baseAfter : Pose K → List (Call K) → Pose K
  | b, [] => b
  | _, .setBasePose p :: cs => baseAfter p cs
  | b, _ :: cs => baseAfter b cs

/-- The names of all links after the calls `cs`, started from `ns`: an `add_new_link` with a
fresh name appends it. -/
def linksAfter : List String → List (Call K) → List String
  | ns, [] => ns
  | ns, .addNewLink n _ _ :: cs => linksAfter (if n ∈ ns then ns else ns ++ [n]) cs
  | ns, _ :: cs => linksAfter ns cs

/-- The links welded on by the calls `cs`, started with link names `ns`. -/
def weldsAfter : List String → List (Call K) → List (Weld K)
  | _, [] => []
  | ns, .addNewLink n p o :: cs =>
    if n ∈ ns then weldsAfter ns cs
    else (match ns[p]? with
      | some carrier => [⟨n, carrier, o⟩]
      | none => []) ++ weldsAfter (ns ++ [n]) cs
  | ns, _ :: cs => weldsAfter ns cs

/-- `m` is reached from the description `(ls, js)`, which is a tree with supported joints,
constructed as `m0`, by the calls `cs` (some of which may have thrown). -/
structure Reach (ls : List (RawLink K)) (js : List (RawJoint K)) (m0 : KinModel K)
    (cs : List (Call K)) (m : KinModel K) : Prop where
  tree : IsTree js
  supported : Supported js
  built : construct (buildModel ls js) = .ok m0
  runs : Runs m0 cs m

/-- the names of the links right after construction, by id -/
def names0 (m0 : KinModel K) : List String := m0.links.map Link.name

/-- all links that do not come from the description: centre-of-mass links, and those added
by the calls -/
def AllWelds (ls : List (RawLink K)) (m0 : KinModel K) (cs : List (Call K)) (w : Weld K) : Prop :=
  ComWeld ls w ∨ w ∈ weldsAfter (names0 m0) cs

/-- `θ` gives each joint, by name, the value left by the calls (joints start at 0). -/
def AnglesAfter (m0 : KinModel K) (cs : List (Call K)) (θ : String → K) : Prop :=
  ∀ s i, getJointIds [s] m0 = .ok [i] m0 → θ s = angleAfter i 0 cs

end Tinyfk
