import Verif.Spec.PyApi

/-!
# Specification: arguments within bounds

For each Python method, the arguments for which the C++ code underneath stays inside its
arrays, on a robot with `names` as link names and `nj` movable joints. Arguments that a method
rejects with an exception before it touches anything are within bounds.
-/

namespace Tinyfk

variable {K : Type}

/-- `solve_fk` accepts this `qs` as configurations of length `n` -/
def QArg.FkShaped (n : Nat) : QArg K → Prop
  | .nd1 q => q.length = n
  | .nd2 a => a.cols = n
  | .list1 _ => False
  | .list2 a _ => a.cols = n

/-- `solve_com_fk` accepts this `qs` as configurations of length `n` -/
def QArg.ComShaped (n : Nat) : QArg K → Prop
  | .nd1 _ => False
  | .nd2 a => a.cols = n
  | .list1 q => q.length = n
  | .list2 a _ => a.cols = n

/-- all ids of a list are below `n` -/
def Below (n : Nat) (ids : List Nat) : Prop := ∀ i ∈ ids, i < n

/-- Arguments within bounds. -/
def PyCall.InBounds (nj : Nat) (names : List String) : PyCall K → Prop
  | .getQ ids _ => Below nj ids
  | .setQ ids q bt => q.length = ids.length + bt.dof → Below nj ids
  | .solveFk qs es ids _ bt _ _ => qs.FkShaped (ids.length + bt.dof) →
      (qs.rows = [] → bt = .fixed) ∧ (qs.rows ≠ [] → Below nj ids ∧ Below names.length es)
  | .solveComFk qs ids act bt _ => qs.ComShaped (ids.length + bt.dof) → qs.rows ≠ [] →
      Below nj ids ∧ ∀ al fs, act = some (al, fs) → Below names.length al ∧ al.length ≤ fs.length
  | .inertia q ids => Below nj ids ∧ ids.length ≤ q.length
  | .getJointLimits ids => Below nj ids
  | .addNewLink a => a.name ∉ names → a.parent < names.length
  | .sqdists qs ps ids bt _ _ => ps ≠ [] → qs ≠ [] →
      (bt = .planer → ∀ q ∈ qs, ids.length + 3 ≤ q.length) →
      Below nj ids ∧ (∀ p ∈ ps, p.1 < names.length ∧ p.2 < names.length) ∧
      ∀ q ∈ qs, ids.length ≤ q.length ∧ (bt = .floating → 6 ≤ q.length)
  | _ => True

/-- the call computes Jacobians -/
def PyCall.UsesJacobian : PyCall K → Prop
  | .solveFk _ _ _ _ _ wj _ => wj = true
  | .solveComFk _ _ _ _ wj => wj = true
  | .sqdists _ _ _ _ wj _ => wj = true
  | _ => False

/-- the call reads joint limits -/
def PyCall.UsesLimits : PyCall K → Prop
  | .getJointLimits _ => True
  | _ => False

end Tinyfk
