import Verif.Spec.PyApi

/-!
# Specification: the results of the Python solvers
-/

namespace Tinyfk

open Scalar

variable {K : Type} [Scalar K]

/-- Row `r` of `P` holds the position of `T`, followed by its roll, pitch, yaw or its quaternion. -/
def PoseRow (rt : RotType) (P : Mat K) (r : Nat) (T : Pose K) : Prop :=
  P.f r 0 = T.position.x ∧ P.f r 1 = T.position.y ∧ P.f r 2 = T.position.z ∧
  match rt with
  | .ignore => True
  | .rpy => P.f r 3 = T.rotation.getRPY.x ∧ P.f r 4 = T.rotation.getRPY.y ∧ P.f r 5 = T.rotation.getRPY.z
  | .xyzw => P.f r 3 = T.rotation.x ∧ P.f r 4 = T.rotation.y ∧ P.f r 5 = T.rotation.z ∧
      P.f r 6 = T.rotation.w

/-- number of columns of a pose row -/
def RotType.width : RotType → Nat
  | .ignore => 3
  | .rpy => 6
  | .xyzw => 7

/-- The column of the full Jacobian (`n` joints, then x, y, z, roll, pitch, yaw of the base) shown
in column `c` of the result: a planar base shows x, y and yaw only. -/
def fullCol (n : Nat) (bt : BaseType) (c : Nat) : Nat :=
  match bt with
  | .planer => if c = n + 2 then n + 5 else c
  | _ => c

/-- Rows `r0, r0 + 1, ...` of `J` are the Jacobian `B`. -/
def JacBlock (n : Nat) (bt : BaseType) (rt : RotType) (J : Mat K) (r0 : Nat) (B : Mat K) : Prop :=
  B.rows = rt.width ∧ (∀ c < n + bt.dof, fullCol n bt c < B.cols) ∧
  ∀ r < rt.width, ∀ c < n + bt.dof, J.f (r0 + r) c = B.f r (fullCol n bt c)

/-- Valid arguments of `solve_fk`: a non-empty batch of configurations of the documented length
(not a flat list of numbers), and ids of joints and links of the robot. -/
structure FkArgs (m0 : KinModel K) (s : PyModel K) (qs : QArg K) (elinks ids : List Nat)
    (bt : BaseType) : Prop where
  notFlat : ∀ q, qs ≠ .list1 q
  nonempty : qs.rows ≠ []
  shape : ∀ q ∈ qs.rows, q.length = ids.length + bt.dof
  joints : ∀ i ∈ ids, i < m0.joints.length
  links : ∀ l ∈ elinks, l < s.robot.links.length

/-- What `solve_fk` should return: one row of `P` and one block of `J` for each configuration and
link, which are pose and Jacobian of that link in a robot with the past `cs` to which this
configuration alone has been applied; `J` is zero if it was not asked for. -/
structure FkResult (ls : List (RawLink K)) (js : List (RawJoint K)) (m0 : KinModel K)
    (cs : List (Call K)) (rows : List (List K)) (elinks ids : List Nat) (rt : RotType) (bt : BaseType)
    (withJac : Bool) (P J : Mat K) : Prop where
  pRows : P.rows = rows.length * elinks.length
  pCols : P.cols = rt.width
  jRows : J.rows = rows.length * elinks.length * rt.width
  jCols : J.cols = ids.length + bt.dof
  pose : ∀ (k j l : Nat) q mk, rows[k]? = some q → elinks[j]? = some l →
    Reach ls js m0 (cs ++ configCalls ids bt q) mk →
    ∃ T mk', getLinkPose l mk = .ok T mk' ∧ PoseRow rt P (k * elinks.length + j) T
  jac : withJac = true → ∀ (k j l : Nat) q mk, rows[k]? = some q → elinks[j]? = some l →
    Reach ls js m0 (cs ++ configCalls ids bt q) mk →
    ∃ B mk', getJacobian l ids rt (bt != .fixed) mk = .ok B mk' ∧
      JacBlock ids.length bt rt J ((k * elinks.length + j) * rt.width) B
  noJac : withJac = false → ∀ r < J.rows, ∀ c < J.cols, J.f r c = 0

/-- equal as matrices -/
structure Mat.Same (A B : Mat K) : Prop where
  rows : A.rows = B.rows
  cols : A.cols = B.cols
  entry : ∀ r < A.rows, ∀ c < A.cols, A.f r c = B.f r c

/-- a planar configuration of `n` joints as a floating one -/
def planarToFloat (n : Nat) (q : List K) : List K := q.take (n + 2) ++ [0, 0, 0] ++ q.drop (n + 2)

/-- the model with other cache contents -/
def PyModel.withCache (s : PyModel K) (c : SizedCache (Pose K)) : PyModel K :=
  { s with robot := { s.robot with cache := c } }

/-- a cache for `n` links, with any contents -/
structure SizedCache.Fits (c : SizedCache (Pose K)) (n : Nat) : Prop where
  size : c.size = n
  pred : c.pred.length = n
  data : c.data.length = n

end Tinyfk
