import Verif.Model.Kin
import Verif.Model.Mat

/-!
# Jacobians, centre of mass, inertia

Models the rest of `src/kinematics.cpp`.
-/

namespace Tinyfk

open Scalar

/-- tinyfk.hpp:53 `enum class RotationType` -/
inductive RotType where
  | ignore | rpy | xyzw
  deriving DecidableEq, Repr

/-- kinematics.cpp:109-110, wrapper.cpp:66-67 number of rows of a pose -/
def RotType.dim (r : RotType) : Nat :=
  3 + (if r = .rpy then 3 else 0) + (if r = .xyzw then 4 else 0)

variable {K : Type} [Scalar K]

/-- kinematics.cpp:14-23 `rpy_derivative` -/
def rpyDerivative (rpy axis : Vec3 K) : Vec3 K :=
  let a2 := -rpy.y
  let a3 := -rpy.z
  ⟨cos a3 / cos a2 * axis.x - sin a3 / cos a2 * axis.y,
   sin a3 * axis.x + cos a3 * axis.y,
   -(cos a3) * sin a2 / cos a2 * axis.x + sin a3 * sin a2 / cos a2 * axis.y + axis.z⟩

/-- kinematics.cpp:25-35 `q_derivative` -/
def qDerivative (q : Rot K) (omega : Vec3 K) : Rot K :=
  let dx := half * (0 * q.x + omega.z * q.y - omega.y * q.z + omega.x * q.w)
  let dy := half * (-omega.z * q.x + 0 * q.y + omega.x * q.z + omega.y * q.w)
  let dz := half * (omega.y * q.x - omega.x * q.y + 0 * q.z + omega.z * q.w)
  let dw := half * (-omega.x * q.x - omega.y * q.y - omega.z * q.z + 0 * q.w)
  ⟨dx, dy, dz, -dw⟩

/-- kinematics.cpp:139-178 the statements that fill column `i` for a relevant joint -/
def jacJointWrite (rt : RotType) (tfE : Pose K) (erpy : Vec3 K) (einv : Rot K) (j : Joint K)
    (tfC : Pose K) (i : Nat) (J : Mat K) : Outcome (Mat K) := do
  let worldAxis := tfC.rotation.rotate j.axis
  let dpos := if j.type = .prismatic then worldAxis
    else Vec3.cross worldAxis (Vec3.sub tfE.position tfC.position)
  let J ← J.setCol 0 i [dpos.x, dpos.y, dpos.z]
  if j.type = .prismatic then pure J
  else match rt with
    | .ignore => pure J
    | .rpy =>
      let d := rpyDerivative erpy worldAxis
      J.setCol 3 i [d.x, d.y, d.z]
    | .xyzw =>
      let d := qDerivative einv worldAxis
      J.setCol 3 i [d.x, d.y, d.z, d.w]

/-- kinematics.cpp:131-180 body of the joint loop for entry `i` of `joint_ids` -/
def jacJoint (elink : Nat) (rt : RotType) (tfE : Pose K) (erpy : Vec3 K) (einv : Rot K)
    (jid i : Nat) (J : Mat K) : Prog (KinModel K) (Mat K) := do
  let rel ← Prog.read fun m => RpTable.isRelevant m.rptable elink jid
  if rel then do
    let j ← Prog.read fun m => do
      let jp ← Outcome.idx "joints_" m.joints jid
      derefJoint m jp
    let clinkId ← Prog.read fun m => match j.childLink with
      | none => Outcome.ub (.nullDeref "child link")
      | some c => match m.links[c]? with
        | none => .ub (.nullDeref "child link")
        | some l => .ok l.id
    let tfC ← getLinkPose clinkId
    Prog.lift (jacJointWrite rt tfE erpy einv j tfC i J)
  else pure J

/-- kinematics.cpp:131-180 the joint loop, for the entries of `joint_ids` from number `i` -/
def jacJointLoop (elink : Nat) (rt : RotType) (tfE : Pose K) (erpy : Vec3 K) (einv : Rot K) :
    List Nat → Nat → Mat K → Prog (KinModel K) (Mat K)
  | [], _, J => pure J
  | jid :: ids, i, J => do
    let J' ← jacJoint elink rt tfE erpy einv jid i J
    jacJointLoop elink rt tfE erpy einv ids (i + 1) J'

/-- kinematics.cpp:206 `rpy_tweaked[rpy_idx] += eps` -/
def tweak (rpy : Vec3 K) : Nat → Vec3 K
  | 0 => { rpy with x := rpy.x + epsFD }
  | 1 => { rpy with y := rpy.y + epsFD }
  | _ => { rpy with z := rpy.z + epsFD }

/-- kinematics.cpp:203-231 body of the loop over the base rotation columns -/
def jacBaseRot (rt : RotType) (nJoint : Nat) (tfE : Pose K) (erpy : Vec3 K) (tfB tfBE : Pose K)
    (rpyB : Vec3 K) (k : Nat) (J : Mat K) : Outcome (Mat K) := do
  let col := nJoint + 3 + k
  let t := tweak rpyB k
  let tfB' : Pose K := { tfB with rotation := Rot.fromRPY t.x t.y t.z }
  let out := Pose.transform tfB' tfBE
  let d := Vec3.sub out.position tfE.position
  let J ← J.setCol 0 col [d.x / epsFD, d.y / epsFD, d.z / epsFD]
  match rt with
  | .ignore => pure J
  | .rpy =>
    let r := Vec3.sub out.rotation.getRPY erpy
    J.setCol 3 col [r.x / epsFD, r.y / epsFD, r.z / epsFD]
  | .xyzw =>
    J.setCol 3 col [(out.rotation.x - tfE.rotation.x) / epsFD,
      (out.rotation.y - tfE.rotation.y) / epsFD, (out.rotation.z - tfE.rotation.z) / epsFD,
      (out.rotation.w - tfE.rotation.w) / epsFD]

/-- kinematics.cpp:191-233 the base columns -/
def jacBase (rt : RotType) (nJoint : Nat) (tfE : Pose K) (erpy : Vec3 K) (tfB : Pose K)
    (J : Mat K) : Outcome (Mat K) := do
  let tfBE := Pose.transform tfB.inverse tfE
  let rpyB := tfB.rotation.getRPY
  let J ← J.set 0 (nJoint + 0) 1
  let J ← J.set 1 (nJoint + 1) 1
  let J ← J.set 2 (nJoint + 2) 1
  let J ← jacBaseRot rt nJoint tfE erpy tfB tfBE rpyB 0 J
  let J ← jacBaseRot rt nJoint tfE erpy tfB tfBE rpyB 1 J
  jacBaseRot rt nJoint tfE erpy tfB tfBE rpyB 2 J

/-- kinematics.cpp:105-235 `get_jacobian` -/
def getJacobian (elink : Nat) (ids : List Nat) (rt : RotType) (withBase : Bool) :
    Prog (KinModel K) (Mat K) := do
  let tfE ← getLinkPose elink
  let erpy := if rt = .rpy then tfE.rotation.getRPY else Vec3.zero
  let einv := if rt = .xyzw then tfE.rotation.inverse else Rot.one
  let J ← jacJointLoop elink rt tfE erpy einv ids 0
    (Mat.zero rt.dim (ids.length + if withBase then 6 else 0))
  if withBase then do
    let root ← Prog.read fun m => Outcome.ok m.rootLinkId
    let tfB ← getLinkPose root
    Prog.lift (jacBase rt ids.length tfE erpy tfB J)
  else pure J

/-- `link->inertial` and `link->id` of a COM dummy link (kinematics.cpp:242-243) -/
def comLinkData (l : Nat) : Prog (KinModel K) (Inertial K × Nat) := Prog.read fun m =>
  match m.links[l]? with
  | none => .ub (.nullDeref "com link")
  | some lk => match lk.inertial with
    | none => .ub (.nullDeref "inertial")
    | some i => .ok (i, lk.id)

/-- kinematics.cpp:241-247 the loop of `get_com`: weighted sum and total mass -/
def comLoop : List Nat → Vec3 K → K → Prog (KinModel K) (Vec3 K × K)
  | [], acc, mt => pure (acc, mt)
  | l :: ls, acc, mt => do
    let (inr, lid) ← comLinkData l
    let tf ← getLinkPose lid
    comLoop ls
      ⟨acc.x + inr.mass * tf.position.x, acc.y + inr.mass * tf.position.y,
       acc.z + inr.mass * tf.position.z⟩ (mt + inr.mass)

/-- kinematics.cpp:237-253 `get_com` -/
def getCom : Prog (KinModel K) (Vec3 K) := do
  let dummies ← Prog.read fun m => Outcome.ok m.comDummy
  let (s, mt) ← comLoop dummies Vec3.zero 0
  pure ⟨s.x / mt, s.y / mt, s.z / mt⟩

/-- kinematics.cpp:262-267 the loop of `get_com_jacobian` -/
def comJacLoop (ids : List Nat) (withBase : Bool) :
    List Nat → Mat K → K → Prog (KinModel K) (Mat K × K)
  | [], acc, mt => pure (acc, mt)
  | l :: ls, acc, mt => do
    let (inr, lid) ← comLinkData l
    let jac ← getJacobian lid ids .ignore withBase
    let acc' ← Prog.lift (acc.addScaled inr.mass jac)
    comJacLoop ids withBase ls acc' (mt + inr.mass)

/-- kinematics.cpp:255-270 `get_com_jacobian` -/
def getComJacobian (ids : List Nat) (withBase : Bool) : Prog (KinModel K) (Mat K) := do
  let dummies ← Prog.read fun m => Outcome.ok m.comDummy
  let (acc, mt) ← comJacLoop ids withBase dummies
    (Mat.zero 3 (ids.length + if withBase then 6 else 0)) 0
  Prog.lift (acc.divScalar mt)

/-- `Eigen::Matrix3d` -/
abbrev M3 (K : Type) := Fin 3 → Fin 3 → K

namespace M3
/-- the comma initialiser, row by row -/
def ofRows (a b c d e f g h i : K) : M3 K := fun r s =>
  match r, s with
  | 0, 0 => a | 0, 1 => b | 0, 2 => c
  | 1, 0 => d | 1, 1 => e | 1, 2 => f
  | 2, 0 => g | 2, 1 => h | 2, 2 => i
/-- matrix product; Eigen may sum in another order, which only matters for rounding -/
def mul (A B : M3 K) : M3 K := fun i j => A i 0 * B 0 j + A i 1 * B 1 j + A i 2 * B 2 j
/-- transpose -/
def tr (A : M3 K) : M3 K := fun i j => A j i
/-- sum -/
def add (A B : M3 K) : M3 K := fun i j => A i j + B i j
/-- `Eigen::Matrix3d::Zero()` -/
def zero : M3 K := fun _ _ => 0
end M3

/-- kinematics.cpp:287 the link inertia matrix -/
def Inertial.mat (i : Inertial K) : M3 K :=
  M3.ofRows i.ixx i.ixy i.ixz i.ixy i.iyy i.iyz i.ixz i.iyz i.izz

/-- kinematics.cpp:296-308 rotation matrix of a quaternion -/
def Rot.mat (r : Rot K) : M3 K :=
  let xy2 := two * (r.x * r.y)
  let xz2 := two * (r.x * r.z)
  let xw2 := two * (r.x * r.w)
  let yz2 := two * (r.y * r.z)
  let yw2 := two * (r.y * r.w)
  let zw2 := two * (r.z * r.w)
  let xx2 := two * (r.x * r.x)
  let yy2 := two * (r.y * r.y)
  let zz2 := two * (r.z * r.z)
  M3.ofRows (1 - yy2 - zz2) (xy2 - zw2) (xz2 + yw2)
    (xy2 + zw2) (1 - xx2 - zz2) (yz2 - xw2)
    (xz2 - yw2) (yz2 + xw2) (1 - xx2 - yy2)

/-- kinematics.cpp:310-312 `mass * (|v|² I - v vᵀ)` -/
def transTerm (mass : K) (v : Vec3 K) : M3 K :=
  let n := sqrt (v.x * v.x + v.y * v.y + v.z * v.z)
  let nn := n * n
  M3.ofRows
    (mass * (nn * 1 - v.x * v.x)) (mass * (nn * 0 - v.x * v.y)) (mass * (nn * 0 - v.x * v.z))
    (mass * (nn * 0 - v.y * v.x)) (mass * (nn * 1 - v.y * v.y)) (mass * (nn * 0 - v.y * v.z))
    (mass * (nn * 0 - v.z * v.x)) (mass * (nn * 0 - v.z * v.y)) (mass * (nn * 1 - v.z * v.z))

/-- kinematics.cpp:276-315 the loop of `get_total_inertia_matrix` -/
def inertiaLoop (com : Vec3 K) : List Nat → M3 K → Prog (KinModel K) (M3 K)
  | [], acc => pure acc
  | l :: ls, acc => do
    let d ← Prog.read fun m => match m.links[l]? with
      | none => Outcome.ub (.nullDeref "com link")
      | some lk => .ok (lk.inertial, lk.id)
    match d with
    | (none, _) => inertiaLoop com ls acc
    | (some inr, lid) => do
      let tf ← getLinkPose lid
      let v := Vec3.sub tf.position com
      let R := tf.rotation.mat
      inertiaLoop com ls
        (M3.add acc (M3.add (M3.mul (M3.mul R inr.mat) (M3.tr R)) (transTerm inr.mass v)))

/-- kinematics.cpp:272-317 `get_total_inertia_matrix` -/
def getTotalInertia : Prog (KinModel K) (M3 K) := do
  let com ← getCom
  let dummies ← Prog.read fun m => Outcome.ok m.comDummy
  inertiaLoop com dummies M3.zero

end Tinyfk
