import Verif.Spec.Api

/-!
# Specification: robots whose joints close loops

A description may have several joints with the same child link. The library accepts it. Of the joints leading
to one link only one is followed.
-/

namespace Tinyfk

open Scalar

variable {K : Type} [Scalar K]

/-- Of the joints with the same child, the one with the greatest name. -/
def followed (js : List (RawJoint K)) : List (RawJoint K) :=
  js.filter fun r => decide (∀ r' ∈ js, r'.childLinkName = r.childLinkName → ¬ r.name < r'.name)

/-- The joints do not go round in a circle: every link can be given a height so that joints go upwards. -/
def NoCycle (js : List (RawJoint K)) : Prop :=
  ∃ height : String → Nat, ∀ j ∈ js, height j.parentLinkName < height j.childLinkName

/-- `m` is reached from the description `(ls, js)`, in which a link may be the child of several joints,
constructed as `m0`, by the calls `cs` (some of which may have thrown). -/
structure LoopReach (ls : List (RawLink K)) (js : List (RawJoint K)) (m0 : KinModel K)
    (cs : List (Call K)) (m : KinModel K) : Prop where
  noCycle : NoCycle js
  supported : Supported js
  built : construct (buildModel ls js) = .ok m0
  runs : Runs m0 cs m

end Tinyfk
