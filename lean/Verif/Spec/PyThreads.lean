import Verif.Model.PyThreads
import Verif.Spec.Pickle

/-!
# Specification: Python threads that share a model
-/

namespace Tinyfk

open Scalar

variable {K : Type} [Scalar K]

/-- a method run from start to end without other threads, with its value -/
def pyEval : PyCall K → Prog (PyModel K) (PyVal K)
  | .getQ ids bt => Prog.bind (pyGetQ ids bt) fun v => Prog.pure (.vec v)
  | .setQ ids q bt => Prog.bind (pySetQ ids q bt) fun _ => Prog.pure .none
  | .solveFk qs e ids rt bt wj uc => Prog.bind (pySolveFk qs e ids rt bt wj uc) fun PJ => Prog.pure (.mats PJ.1 PJ.2)
  | .solveComFk qs ids a bt wj => Prog.bind (pySolveComFk qs ids a bt wj) fun PJ => Prog.pure (.mats PJ.1 PJ.2)
  | .inertia q ids => Prog.bind (pyInertia q ids) fun M => Prog.pure (.mat3 M)
  | .getJointNames => Prog.bind pyGetJointNames fun l => Prog.pure (.names l)
  | .getJointIds ns => Prog.bind (pyGetJointIds ns) fun l => Prog.pure (.ids l)
  | .getLinkIds ns => Prog.bind (pyGetLinkIds ns) fun l => Prog.pure (.ids l)
  | .getJointLimits ids => Prog.bind (pyGetJointLimits ids) fun l => Prog.pure (.limits l)
  | .addNewLink a => Prog.bind (pyAddNewLink a) fun _ => Prog.pure .none
  | .sqdists qs ps ids bt wj uc => Prog.bind (pySqdists qs ps ids bt wj uc) fun PJ => Prog.pure (.mats PJ.1 PJ.2)
  | .clearCache => Prog.bind pyClearCache fun _ => Prog.pure .none
  | .totalMass => Prog.bind pyTotalMass fun x => Prog.pure (.num x)
  | .rootLinkName => Prog.bind pyRootLinkName fun s => Prog.pure (.str s)

/-- `Takes c m r m'`: the method `c`, run alone on a model with robot `m`, returns or raises `r` and leaves the robot `m'`. -/
def Takes (c : PyCall K) (m : KinModel K) (r : Except Exn (PyVal K)) (m' : KinModel K) : Prop :=
  ∀ s : PyModel K, s.robot = m → ∃ s' : PyModel K, s'.robot = m' ∧
    match r with
    | .ok v => pyEval c s = .ok v s'
    | .error e => pyEval c s = .exn e s'

/-- Calls one after the other, with their results, on the robot. -/
inductive Serial : KinModel K → List (PyCall K × Except Exn (PyVal K)) → KinModel K → Prop
  | nil {m : KinModel K} : Serial m [] m
  | snoc {m m1 m2 : KinModel K} {L : List (PyCall K × Except Exn (PyVal K))} {c : PyCall K} {r : Except Exn (PyVal K)} :
      Serial m L m1 → Takes c m1 r m2 → Serial m (L ++ [(c, r)]) m2

/-- methods other than `set_q` and `get_q` with a base -/
def PyCall.Single : PyCall K → Prop
  | .setQ _ _ bt => bt = .fixed
  | .getQ _ bt => bt = .fixed
  | _ => True

/-- Threads with programs, none of which has begun, and a model that no call has changed yet. -/
def Pool.start (s : PyModel K) (progs : Nat → List (PyCall K)) : Pool K := ⟨s, fun i => ⟨progs i, none⟩⟩

/-- Any interleaving of the threads. The trace has the events and the model after each of them. -/
inductive Pool.Exec : Pool K → List (TEvent K × PyModel K) → Pool K → Prop
  | nil {w : Pool K} : Pool.Exec w [] w
  | snoc {w w1 w2 : Pool K} {tr : List (TEvent K × PyModel K)} {e : TEvent K} :
      Pool.Exec w tr w1 → Pool.Step w1 e w2 → Pool.Exec w (tr ++ [(e, w2.model)]) w2

/-- the model after the events of a trace -/
def modelAfter (s : PyModel K) (tr : List (TEvent K × PyModel K)) : PyModel K := (tr.map Prod.snd).getLast?.getD s

/-- thread `i` calls a method or returns from it -/
def TEvent.Bounds (i : Nat) : TEvent K → Prop
  | .call j _ => j = i
  | .ret j _ _ => j = i
  | .step _ => False

/-- the results of the calls of thread `i`, in the order of its program -/
def resultsOf (i : Nat) : List (TEvent K × PyModel K) → List (PyCall K × Except Exn (PyVal K))
  | [] => []
  | (.ret j c r, _) :: tr => if j = i then (c, r) :: resultsOf i tr else resultsOf i tr
  | (_, _) :: tr => resultsOf i tr

/-- no thread is inside a call -/
def Pool.Idle (w : Pool K) : Prop := ∀ i, (w.threads i).cur.isNone

end Tinyfk
