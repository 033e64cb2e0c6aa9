import Verif.Model.Jacobian

/-!
# The pybind11 wrapper class

Models `src/wrapper.cpp`: the C++ functions exposed to Python.
-/

namespace Tinyfk

open Scalar

variable {K : Type} [Scalar K]

/-- wrapper.cpp:25-35 the pose read through an iterator to 6 numbers -/
def poseOfXyzrpy (x y z r p w : K) : Pose K := ⟨⟨x, y, z⟩, Rot.fromRPY r p w⟩

/-- wrapper.cpp:87-88 `set_base_pose(std::prev(q.end(), 6))`; undefined when `q` is shorter
than 6 -/
def setBaseFromTail (q : List K) : Prog (KinModel K) Unit :=
  if q.length < 6 then Prog.lift (.ub (.outOfBounds "std::prev(end, 6)"))
  else match q.drop (q.length - 6) with
    | [x, y, z, r, p, w] => setBasePose (poseOfXyzrpy x y z r p w)
    | _ => Prog.lift (.ub (.outOfBounds "std::prev(end, 6)"))

/-- wrapper.cpp:37-42 `set_base_pose(vector)` -/
def setBasePoseVec (v : List K) : Prog (KinModel K) Unit :=
  match v with
  | [x, y, z, r, p, w] => setBasePose (poseOfXyzrpy x y z r p w)
  | _ => Prog.throw (.invalidArgument "argument must have size 6")

/-- wrapper.cpp:44-54 `get_base_pose` -/
def getBasePose : Prog (KinModel K) (List K) := Prog.read fun m =>
  let rpy := m.base.rotation.getRPY
  .ok [m.base.position.x, m.base.position.y, m.base.position.z, rpy.x, rpy.y, rpy.z]

/-- wrapper.cpp:56-58 `get_root_link_name` -/
def getRootLinkName : Prog (KinModel K) String := Prog.read fun m =>
  match m.links[m.rootLinkId]? with
  | some l => .ok l.name
  | none => .ub (.outOfBounds "links_")

/-- wrapper.cpp:98-112 the column of `P` for one link -/
def poseColumn (rt : RotType) (tf : Pose K) : List K :=
  [tf.position.x, tf.position.y, tf.position.z] ++
  match rt with
  | .ignore => []
  | .rpy => let r := tf.rotation.getRPY; [r.x, r.y, r.z]
  | .xyzw => [tf.rotation.x, tf.rotation.y, tf.rotation.z, tf.rotation.w]

/-- wrapper.cpp:94-113 the loop over links filling `P`, from link number `j` -/
def fkPoseLoop (rt : RotType) (head0 : Nat) : List Nat → Nat → Mat K → Prog (KinModel K) (Mat K)
  | [], _, P => pure P
  | l :: ls, j, P => do
    let tf ← getLinkPose l
    let P' ← Prog.lift (P.setCol 0 (head0 + j) (poseColumn rt tf))
    fkPoseLoop rt head0 ls (j + 1) P'

/-- wrapper.cpp:115-120 the loop over links filling `J`, from link number `j` -/
def fkJacLoop (rt : RotType) (ids : List Nat) (withBase : Bool) (head0 : Nat) :
    List Nat → Nat → Mat K → Prog (KinModel K) (Mat K)
  | [], _, J => pure J
  | l :: ls, j, J => do
    let B ← getJacobian l ids rt withBase
    let J' ← Prog.lift (J.setBlock (head0 + j * rt.dim) 0 B)
    fkJacLoop rt ids withBase head0 ls (j + 1) J'

/-- wrapper.cpp:85-92 (and 206-213) applying one configuration -/
def applyConfig (ids : List Nat) (withBase useCache : Bool) (q : List K) :
    Prog (KinModel K) Unit := do
  setJointAnglesNC ids q
  if withBase then setBaseFromTail q else pure ()
  if useCache then pure () else clearCache

/-- wrapper.cpp:84-122 the loop over configurations, from number `i` -/
def fkLoop (elinks ids : List Nat) (rt : RotType) (withBase withJac useCache : Bool) :
    List (List K) → Nat → Mat K → Mat K → Prog (KinModel K) (Mat K × Mat K)
  | [], _, P, J => pure (P, J)
  | q :: qs, i, P, J => do
    applyConfig ids withBase useCache q
    let P' ← fkPoseLoop rt (i * elinks.length) elinks 0 P
    let J' ← if withJac then
        fkJacLoop rt ids withBase (i * (elinks.length * rt.dim)) elinks 0 J
      else pure J
    fkLoop elinks ids rt withBase withJac useCache qs (i + 1) P' J'

/-- wrapper.cpp:60-124 `solve_forward_kinematics`. At line 74 `qs[0]` of an empty batch is
undefined; `qs[0].size() - 6` is `size_t` arithmetic, so a row shorter than 6 never
matches. -/
def solveForwardKinematics (qs : List (List K)) (elinks ids : List Nat) (rt : RotType)
    (withBase withJac useCache : Bool) : Prog (KinModel K) (Mat K × Mat K) := do
  if withBase then
    match qs with
    | [] => Prog.lift (.ub (.outOfBounds "joint_angles_sequence[0]"))
    | q0 :: _ =>
      if q0.length < 6 ∨ ids.length ≠ q0.length - 6 then
        Prog.throw (.invalidArgument "dof mismatch!! Probably you forget base's (x, y, theta)")
      else pure ()
  else pure ()
  let nDof := if withBase then ids.length + 6 else ids.length
  let P0 : Mat K := Mat.zero rt.dim (qs.length * elinks.length)
  let J0 : Mat K := Mat.zero (qs.length * elinks.length * rt.dim) nDof
  let (P, J) ← fkLoop elinks ids rt withBase withJac useCache qs 0 P0 J0
  pure (P.transpose, J)

/-- wrapper.cpp:156-169 the loop over action links, from number `j` -/
def actionLoop (ids : List Nat) (withBase withJac : Bool) (forces : List K) (i nDof : Nat) :
    List Nat → Nat → K → Mat K → Mat K → Prog (KinModel K) (K × Mat K × Mat K)
  | [], _, s, C, J => pure (s, C, J)
  | l :: ls, j, s, C, J => do
    let fj ← Prog.lift (Outcome.idx "forces" forces j)
    let mt ← Prog.read fun m => Outcome.ok m.totalMass
    let force := fj / mt
    let tf ← getLinkPose l
    let C ← Prog.lift (do
      let c0 ← C.get 0 i
      let C ← C.set 0 i (c0 + force * tf.position.x)
      let c1 ← C.get 1 i
      let C ← C.set 1 i (c1 + force * tf.position.y)
      let c2 ← C.get 2 i
      C.set 2 i (c2 + force * tf.position.z))
    let J ← if withJac then do
        let jac ← getJacobian l ids .ignore withBase
        Prog.lift (J.addBlock (3 * i) 0 3 nDof force jac)
      else pure J
    actionLoop ids withBase withJac forces i nDof ls (j + 1) (s + force) C J

/-- wrapper.cpp:145-176 the results for configuration number `i` -/
def comRow (ids actionLinks : List Nat) (forces : List K) (withBase withJac : Bool) (nDof i : Nat)
    (C J : Mat K) : Prog (KinModel K) (Mat K × Mat K) := do
  let com ← getCom
  let C ← Prog.lift (C.setCol 0 i [com.x, com.y, com.z])
  let J ← if withJac then do
      let B ← getComJacobian ids withBase
      Prog.lift (J.setBlock (3 * i) 0 B)
    else pure J
  if actionLinks.length > 0 then do
    let (s, C, J) ← actionLoop ids withBase withJac forces i nDof actionLinks 0 1 C J
    let C ← Prog.lift (C.mapBlock 0 i 3 1 (· / s))
    let J ← if withJac then Prog.lift (J.mapBlock (3 * i) 0 3 nDof (· / s)) else pure J
    pure (C, J)
  else pure (C, J)

/-- wrapper.cpp:137-177 the loop over configurations, from number `i` -/
def comFkLoop (ids actionLinks : List Nat) (forces : List K) (withBase withJac : Bool) (nDof : Nat) :
    List (List K) → Nat → Mat K → Mat K → Prog (KinModel K) (Mat K × Mat K)
  | [], _, C, J => pure (C, J)
  | q :: qs, i, C, J => do
    setJointAnglesNC ids q
    if withBase then setBaseFromTail q else pure ()
    let CJ ← comRow ids actionLinks forces withBase withJac nDof i C J
    comFkLoop ids actionLinks forces withBase withJac nDof qs (i + 1) CJ.1 CJ.2

/-- wrapper.cpp:126-179 `solve_com_forward_kinematics` -/
def solveComForwardKinematics (qs : List (List K)) (ids actionLinks : List Nat) (forces : List K)
    (withBase withJac : Bool) : Prog (KinModel K) (Mat K × Mat K) := do
  let nDof := ids.length + if withBase then 6 else 0
  let (C, J) ← comFkLoop ids actionLinks forces withBase withJac nDof qs 0
    (Mat.zero 3 qs.length) (Mat.zero (3 * qs.length) nDof)
  pure (C.transpose, J)

/-- wrapper.cpp:181-187 `compute_total_inertia_matrix` -/
def computeTotalInertiaMatrix (q : List K) (ids : List Nat) : Prog (KinModel K) (M3 K) := do
  setJointAnglesNC ids q
  getTotalInertia

/-- wrapper.cpp:231 one entry of `2 * (jac1 - jac2)ᵀ * diff` -/
def distGradEntry (jac1 jac2 : Mat K) (d : Vec3 K) (c : Nat) : K :=
  two * (jac1.f 0 c - jac2.f 0 c) * d.x + two * (jac1.f 1 c - jac2.f 1 c) * d.y +
    two * (jac1.f 2 c - jac2.f 2 c) * d.z

/-- wrapper.cpp:215-234 the loop over link pairs, from pair `j`. `link_ids2[j]` is read
with the size of `link_ids1`. -/
def distLoop (ids : List Nat) (withBase withGrads : Bool) (nJoint head0 : Nat)
    (links2 : List Nat) : List Nat → Nat → Mat K → Mat K → Prog (KinModel K) (Mat K × Mat K)
  | [], _, D, G => pure (D, G)
  | l1 :: ls, j, D, G => do
    let tf1 ← getLinkPose l1
    let l2 ← Prog.lift (Outcome.idx "link_ids2" links2 j)
    let tf2 ← getLinkPose l2
    let d := Vec3.sub tf1.position tf2.position
    let D ← Prog.lift (D.set (head0 + j) 0 (d.x * d.x + d.y * d.y + d.z * d.z))
    let G ← if withGrads then do
        let jac1 ← getJacobian l1 ids .ignore withBase
        let jac2 ← getJacobian l2 ids .ignore withBase
        Prog.lift (G.setBlock (head0 + j) 0 ⟨1, nJoint, fun _ c => distGradEntry jac1 jac2 d c⟩)
      else pure G
    distLoop ids withBase withGrads nJoint head0 links2 ls (j + 1) D G

/-- wrapper.cpp:205-235 the loop over configurations, from number `i` -/
def distFkLoop (ids links1 links2 : List Nat) (withBase withGrads useCache : Bool) (nJoint : Nat) :
    List (List K) → Nat → Mat K → Mat K → Prog (KinModel K) (Mat K × Mat K)
  | [], _, D, G => pure (D, G)
  | q :: qs, i, D, G => do
    applyConfig ids withBase useCache q
    let DG ← distLoop ids withBase withGrads nJoint (i * links1.length) links2 links1 0 D G
    distFkLoop ids links1 links2 withBase withGrads useCache nJoint qs (i + 1) DG.1 DG.2

/-- wrapper.cpp:189-237 `compute_inter_link_squared_dists`; the vector of distances is a
one-column matrix -/
def computeInterLinkSquaredDists (qs : List (List K)) (links1 links2 ids : List Nat)
    (withBase withGrads useCache : Bool) : Prog (KinModel K) (Mat K × Mat K) :=
  let nJoint := ids.length + if withBase then 6 else 0
  distFkLoop ids links1 links2 withBase withGrads useCache nJoint qs 0
    (Mat.zero (links1.length * qs.length) 1)
    (if withGrads then Mat.zero (links1.length * qs.length) nJoint else Mat.zero 1 1)

/-- wrapper.cpp:239-243 `add_new_link` (the new link pointer is dropped) -/
def wAddNewLink (name : String) (parent : Nat) (pos rpy : Vec3 K) : Prog (KinModel K) Unit := do
  let _ ← addNewLinkRPY name parent pos rpy
  pure ()

end Tinyfk
