import Verif.Spec.Solver
import Mathlib.Data.List.Forall2

/-!
# Specification: the results of `solve_com_fk`
-/

namespace Tinyfk

open Scalar

variable {K : Type} [Scalar K]

/-- x, y or z -/
def Vec3.coord (v : Vec3 K) : Nat → K
  | 0 => v.x
  | 1 => v.y
  | _ => v.z

/-- Balance of a robot of mass `M` and extra vertical forces: from the value `x` for the robot alone
and the pairs `(force, value at its point of attack)`, the mean weighted by 1 and `force / M`. -/
def actionMean (M : K) (acts : List (K × K)) (x : K) : K :=
  if acts = [] then x
  else acts.foldl (fun y a => y + a.1 / M * a.2) x / acts.foldl (fun s a => s + a.1 / M) 1

/-- Valid arguments of `solve_com_fk`: a non-empty batch of configurations of the documented length
(not a 1-d array), ids of joints and links of the robot, a force for each action link. -/
structure ComArgs (m0 : KinModel K) (s : PyModel K) (qs : QArg K) (ids al : List Nat) (fs : List K)
    (bt : BaseType) : Prop where
  notFlat : ∀ q, qs ≠ .nd1 q
  nonempty : qs.rows ≠ []
  shape : ∀ q ∈ qs.rows, q.length = ids.length + bt.dof
  joints : ∀ i ∈ ids, i < m0.joints.length
  links : ∀ l ∈ al, l < s.robot.links.length
  forces : fs.length = al.length

/-- What `solve_com_fk` should return: one row of `C` and one block of three rows of `J` for each
configuration, which are centre of mass and its Jacobian, combined with the action links `al` and
forces `fs`, in a robot with the past `cs` to which this configuration alone has been applied.
The Jacobian has all six base columns for a planar base too (see C38). -/
structure ComResult (ls : List (RawLink K)) (js : List (RawJoint K)) (m0 : KinModel K)
    (cs : List (Call K)) (rows : List (List K)) (ids al : List Nat) (fs : List K) (bt : BaseType)
    (withJac : Bool) (C J : Mat K) : Prop where
  cRows : C.rows = rows.length
  cCols : C.cols = 3
  jRows : J.rows = 3 * rows.length
  jCols : J.cols = ids.length + if bt = .fixed then 0 else 6
  com : ∀ (k : Nat) q mk, rows[k]? = some q → Reach ls js m0 (cs ++ configCalls ids bt q) mk →
    ∃ v mk' Ts, getCom mk = .ok v mk' ∧
      List.Forall₂ (fun l T => ∃ m', getLinkPose l mk = .ok T m') al Ts ∧
      ∀ r < 3, C.f k r = actionMean mk.totalMass (fs.zip (Ts.map fun T => T.position.coord r)) (v.coord r)
  jac : withJac = true → ∀ (k : Nat) q mk, rows[k]? = some q →
    Reach ls js m0 (cs ++ configCalls ids bt q) mk →
    ∃ B mk' Bs, getComJacobian ids (bt != .fixed) mk = .ok B mk' ∧ B.rows = 3 ∧ B.cols = J.cols ∧
      List.Forall₂ (fun l B => ∃ m', getJacobian l ids .ignore (bt != .fixed) mk = .ok B m') al Bs ∧
      ∀ r < 3, ∀ c < J.cols, J.f (3 * k + r) c =
        actionMean mk.totalMass (fs.zip (Bs.map fun B => B.f r c)) (B.f r c)
  noJac : withJac = false → ∀ r < J.rows, ∀ c < J.cols, J.f r c = 0

/-- The bodies of the robot at joint angles `θ` and base pose `b`: for each link with an `<inertial>`
element, in the order of the link names, that element and the pose of the link. -/
def Bodies (ls : List (RawLink K)) (js : List (RawJoint K)) (welds : Weld K → Prop) (θ : String → K)
    (b : Pose K) (bs : List (Inertial K × Pose K)) : Prop :=
  ∃ sorted : List (RawLink K), sorted.Perm ls ∧ (sorted.map RawLink.name).Pairwise (· < ·) ∧
    List.Forall₂ (fun r x => r.inertial = some x.1 ∧ WorldPose ls js welds θ b r.name x.2)
      (sorted.filter fun r => r.inertial.isSome) bs

/-- the world position of the origin of the `<inertial>` element -/
def bodyCentre (x : Inertial K × Pose K) : Vec3 K :=
  (Pose.transform x.2 ⟨x.1.origin.position, Rot.one⟩).position

/-- the mass-weighted mean of the centres -/
def comOf (bs : List (Inertial K × Pose K)) : Vec3 K :=
  let M := bs.foldl (fun s x => s + x.1.mass) 0
  ⟨bs.foldl (fun s x => s + x.1.mass * (bodyCentre x).x) 0 / M,
   bs.foldl (fun s x => s + x.1.mass * (bodyCentre x).y) 0 / M,
   bs.foldl (fun s x => s + x.1.mass * (bodyCentre x).z) 0 / M⟩

end Tinyfk
