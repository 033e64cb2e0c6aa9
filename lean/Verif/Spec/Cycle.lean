import Mathlib.Logic.Relation
import Verif.Spec.Desc

/-!
# Specification: cycles of links

The parser does not reject a cycle of links beside the root. These definitions say where the
cycles of a description are, by the names in the joint elements only.
-/

namespace Tinyfk

variable {K : Type}

/-- some joint has the parent `a` and the child `b` -/
def JointStep (js : List (RawJoint K)) (a b : String) : Prop :=
  ∃ j ∈ js, j.parentLinkName = a ∧ j.childLinkName = b

/-- going from parents to children one can get from link `s` to a link `c`, and from `c` back to `c` -/
def LeadsToCycle (js : List (RawJoint K)) (s : String) : Prop :=
  ∃ c, Relation.ReflTransGen (JointStep js) s c ∧ Relation.TransGen (JointStep js) c c

/-- the child link of a movable joint leads to a cycle -/
def MovableIntoCycle (js : List (RawJoint K)) : Prop :=
  ∃ j ∈ js, j.type.Movable ∧ LeadsToCycle js j.childLinkName

/-- the link has an inertial, and its centre-of-mass link would get a name that is taken -/
def ComNameTaken (ls : List (RawLink K)) (r : RawLink K) : Prop :=
  r.name ++ "_com" ∈ ls.map RawLink.name

/-- `r` has an inertial and comes first among those that have one, in the order of the names -/
def FirstInertial (ls : List (RawLink K)) (r : RawLink K) : Prop :=
  r ∈ ls ∧ r.inertial.isSome ∧ ∀ r' ∈ ls, r'.inertial.isSome → ¬ r'.name < r.name

end Tinyfk
