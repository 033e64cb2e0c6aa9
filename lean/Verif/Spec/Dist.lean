import Verif.Spec.Solver

/-!
# Specification: squared distances between links
-/

namespace Tinyfk

open Scalar

variable {K : Type} [Scalar K]

/-- squared euclidean distance -/
def sqDist (a b : Vec3 K) : K :=
  (a.x - b.x) * (a.x - b.x) + (a.y - b.y) * (a.y - b.y) + (a.z - b.z) * (a.z - b.z)

/-- chain rule: what moving the two points with velocities `(B1 r c)` and `(B2 r c)`, `r = 0, 1, 2`,
does to their squared distance -/
def sqDistGrad (B1 B2 : Mat K) (a b : Vec3 K) (c : Nat) : K :=
  two * (B1.f 0 c - B2.f 0 c) * (a.x - b.x) + two * (B1.f 1 c - B2.f 1 c) * (a.y - b.y) +
    two * (B1.f 2 c - B2.f 2 c) * (a.z - b.z)

/-- Valid arguments of `compute_inter_link_sqdists`: configurations of the documented length, at
least one pair of links, ids of joints and links of the robot. -/
structure DistArgs (m0 : KinModel K) (s : PyModel K) (qs : List (List K)) (pairs : List (Nat × Nat))
    (ids : List Nat) (bt : BaseType) : Prop where
  nonempty : pairs ≠ []
  shape : ∀ q ∈ qs, q.length = ids.length + bt.dof
  joints : ∀ i ∈ ids, i < m0.joints.length
  links : ∀ p ∈ pairs, p.1 < s.robot.links.length ∧ p.2 < s.robot.links.length

/-- What `compute_inter_link_sqdists` should return: one entry for each configuration and pair,
which is the squared distance of the two links in a robot with the past `cs` to which this
configuration alone has been applied, and the row of its gradient. -/
structure DistResult (ls : List (RawLink K)) (js : List (RawJoint K)) (m0 : KinModel K)
    (cs : List (Call K)) (rows : List (List K)) (pairs : List (Nat × Nat)) (ids : List Nat)
    (bt : BaseType) (withJac : Bool) (V J : Mat K) : Prop where
  vRows : V.rows = rows.length * pairs.length
  vCols : V.cols = 1
  jRows : withJac = true → J.rows = rows.length * pairs.length
  jCols : withJac = true → J.cols = ids.length + bt.dof
  dist : ∀ (k j l1 l2 : Nat) q mk, rows[k]? = some q → pairs[j]? = some (l1, l2) →
    Reach ls js m0 (cs ++ configCalls ids bt q) mk →
    ∃ T1 mk1 T2 mk2, getLinkPose l1 mk = .ok T1 mk1 ∧ getLinkPose l2 mk = .ok T2 mk2 ∧
      V.f (k * pairs.length + j) 0 = sqDist T1.position T2.position
  grad : withJac = true → ∀ (k j l1 l2 : Nat) q mk, rows[k]? = some q → pairs[j]? = some (l1, l2) →
    Reach ls js m0 (cs ++ configCalls ids bt q) mk →
    ∃ T1 mk1 T2 mk2 B1 mk3 B2 mk4, getLinkPose l1 mk = .ok T1 mk1 ∧ getLinkPose l2 mk = .ok T2 mk2 ∧
      getJacobian l1 ids .ignore (bt != .fixed) mk = .ok B1 mk3 ∧
      getJacobian l2 ids .ignore (bt != .fixed) mk = .ok B2 mk4 ∧
      ∀ c < ids.length + bt.dof,
        J.f (k * pairs.length + j) c = sqDistGrad B1 B2 T1.position T2.position (fullCol ids.length bt c)

end Tinyfk
