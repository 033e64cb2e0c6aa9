import Verif.Spec.PyApi

/-!
# Specification: histories that pickling is meant to keep
-/

namespace Tinyfk

open Scalar

variable {K : Type} [Scalar K]

/-- methods that only read the model or clear its cache -/
def PyCall.IsRead : PyCall K → Prop
  | .getQ .. | .getJointNames | .getJointIds _ | .getLinkIds _ | .getJointLimits _ | .clearCache | .totalMass
  | .rootLinkName => True
  | _ => False

/-- methods that are recorded for pickling -/
def PyCall.IsRecorded : PyCall K → Prop
  | .setQ .. | .addNewLink _ => True
  | _ => False

/-- the solvers, which apply configurations without recording them -/
def PyCall.IsSolver : PyCall K → Prop
  | .solveFk .. | .solveComFk .. | .inertia .. | .sqdists .. => True
  | _ => False

/-- `Recorded s h s'`: the calls `h` take `s` to `s'`; they are successful `add_new_link` and `set_q` calls
and reads, successful or not. -/
inductive Recorded : PyModel K → List (PyCall K) → PyModel K → Prop
  | nil {s : PyModel K} : Recorded s [] s
  | read {s s1 s2 : PyModel K} {c : PyCall K} {h : List (PyCall K)} : c.IsRead →
      (c.run s = .ok () s1 ∨ ∃ e, c.run s = .exn e s1) → Recorded s1 h s2 → Recorded s (c :: h) s2
  | call {s s1 s2 : PyModel K} {c : PyCall K} {h : List (PyCall K)} : c.IsRecorded → c.run s = .ok () s1 →
      Recorded s1 h s2 → Recorded s (c :: h) s2

end Tinyfk
