import Verif.Spec.Inertia

/-!
# Specification: physically possible inertia tensors
-/

namespace Tinyfk

open Matrix

/-- The second moments of mass that go with an inertia tensor: `tr(A)/2 · 1 - A`. -/
noncomputable def secondMoments (A : Matrix (Fin 3) (Fin 3) ℝ) : Matrix (Fin 3) (Fin 3) ℝ := (A.trace / 2) • 1 - A

/-- A matrix is the inertia of some distribution of non-negative mass when its second moments are positive semidefinite. -/
def Physical (A : Matrix (Fin 3) (Fin 3) ℝ) : Prop := (secondMoments A).PosSemidef

end Tinyfk
