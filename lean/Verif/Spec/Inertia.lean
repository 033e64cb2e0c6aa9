import Verif.Spec.Com
import Verif.Spec.Rotation
import Mathlib.Analysis.Convex.Hull
import Mathlib.LinearAlgebra.Matrix.PosDef
import Mathlib.Algebra.Order.Star.Real

/-!
# Specification: inertia of a set of bodies over ℝ

Textbook formulas: the inertia tensor turned into the world frame, and Steiner's term.
-/

namespace Tinyfk

open Matrix

/-- the inertia tensor of an `<inertial>` element -/
def Inertial.tensor (i : Inertial ℝ) : Matrix (Fin 3) (Fin 3) ℝ :=
  !![i.ixx, i.ixy, i.ixz; i.ixy, i.iyy, i.iyz; i.ixz, i.iyz, i.izz]

/-- inertia of a point mass `m` displaced by `d`: `m (|d|² 1 - d dᵀ)` -/
def steiner (m : ℝ) (d : Fin 3 → ℝ) : Matrix (Fin 3) (Fin 3) ℝ :=
  m • ((d ⬝ᵥ d) • (1 : Matrix (Fin 3) (Fin 3) ℝ) - vecMulVec d d)

/-- inertia of one body about the point `c`: the tensor, given in a frame with rotation `R` and
origin `p`, plus the parallel-axis term -/
def bodyInertia (R : Matrix (Fin 3) (Fin 3) ℝ) (p c : Vec3 ℝ) (i : Inertial ℝ) : Matrix (Fin 3) (Fin 3) ℝ :=
  R * i.tensor * Rᵀ + steiner i.mass (p.toV - c.toV)

/-- Inertia of the bodies about `c`, as URDF says: tensors are given in the frame of the
`<inertial>` origin, whose rotation counts. -/
noncomputable def inertiaAbout (bs : List (Inertial ℝ × Pose ℝ)) (c : Vec3 ℝ) : Matrix (Fin 3) (Fin 3) ℝ :=
  (bs.map fun x => bodyInertia (Pose.transform x.2 x.1.origin).rotation.matrix
    (Pose.transform x.2 x.1.origin).position c x.1).sum

/-- The same with the rotation of the `<inertial>` origin left out. -/
noncomputable def inertiaUnrotated (bs : List (Inertial ℝ × Pose ℝ)) (c : Vec3 ℝ) : Matrix (Fin 3) (Fin 3) ℝ :=
  (bs.map fun x => bodyInertia x.2.rotation.matrix (Pose.transform x.2 x.1.origin).position c x.1).sum

/-- total mass of the bodies -/
def massOf (bs : List (Inertial ℝ × Pose ℝ)) : ℝ := (bs.map fun x => x.1.mass).sum

end Tinyfk
