import Mathlib.Data.List.Forall2
import Verif.Model.Py

/-!
# Joint lists that name a joint more than once

The words used in C36, C63 and C85.
-/

namespace Tinyfk

/-- position `c` of a joint list is the last one that names its joint -/
def LastListing (ids : List Nat) (c : Nat) : Prop := ∀ c', c < c' → ids[c']? ≠ ids[c]?

/-- Two configurations that say the same once a joint is listed more than once: they are equally long, they agree
on everything after the joints (the base), and for each joint they agree in its last entry. -/
structure SameConfig {K : Type} (ids : List Nat) (q q' : List K) : Prop where
  length : q.length = q'.length
  base : q.drop ids.length = q'.drop ids.length
  last : ∀ c < ids.length, LastListing ids c → q[c]? = q'[c]?

/-- batches of such configurations, given in the same way -/
inductive SameBatch {K : Type} (ids : List Nat) : QArg K → QArg K → Prop
  | nd1 {q q'} : SameConfig ids q q' → SameBatch ids (.nd1 q) (.nd1 q')
  | nd2 {a a' : Arr2 K} : a.cols = a'.cols → List.Forall₂ (SameConfig ids) a.rows a'.rows →
      SameBatch ids (.nd2 a) (.nd2 a')
  | list1 {q q'} : SameConfig ids q q' → SameBatch ids (.list1 q) (.list1 q')
  | list2 {a a' : Arr2 K} {h h'} : a.cols = a'.cols → List.Forall₂ (SameConfig ids) a.rows a'.rows →
      SameBatch ids (.list2 a h) (.list2 a' h')

end Tinyfk
