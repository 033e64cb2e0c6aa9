import Verif.Model.DataStructure
import Verif.Model.Urdf

/-!
# `KinematicModel`: state, construction, forward kinematics

Models `include/tinyfk.hpp`, `src/tinyfk.cpp` and `get_link_pose` of
`src/kinematics.cpp`. `int`/`size_t` ids are `Nat` (no model has 2^31 links).
-/

namespace Tinyfk

open Scalar

/-- tinyfk.hpp:48-51 `LinkIdAndTransform` -/
structure LinkIdAndTransform (K : Type) where
  id : Nat
  pose : Pose K

/-- tinyfk.hpp:31-46 `RelevancePredicateTable` -/
abbrev RpTable := List (List Bool)

/-- tinyfk.hpp:34-42 constructor -/
def RpTable.mk' (nLink nJoint : Nat) : RpTable :=
  List.replicate nLink (List.replicate nJoint false)

/-- tinyfk.hpp:43-45 `isRelevant` -/
def RpTable.isRelevant (t : RpTable) (link joint : Nat) : Outcome Bool :=
  match t[link]? with
  | none => .ub (.outOfBounds "rptable row")
  | some row => Outcome.idx "rptable column" row joint

/-- tinyfk.cpp:276 `table_[link][joint] = true` -/
def RpTable.setTrue (t : RpTable) (link joint : Nat) : Outcome RpTable :=
  match t[link]? with
  | none => .ub (.outOfBounds "rptable row")
  | some row =>
    if joint < row.length then .ok (t.set link (row.set joint true))
    else .ub (.outOfBounds "rptable column")

/-- `std::unordered_map<std::string, int>` as an association list -/
abbrev NameMap := List (String × Nat)

/-- `find` -/
def NameMap.find (m : NameMap) (k : String) : Option Nat := List.lookup k m

/-- `m[k] = v` -/
def NameMap.set : NameMap → String → Nat → NameMap
  | [], k, v => [(k, v)]
  | (k', v') :: m, k, v => if k = k' then (k', v) :: m else (k', v') :: NameMap.set m k v

/-- rvalue `m[k]`: a missing key is inserted with value 0 -/
def NameMap.opIndex (m : NameMap) (k : String) : Nat × NameMap :=
  match m.find k with
  | some v => (v, m)
  | none => (0, m.set k 0)

/-- tinyfk.hpp:55-75 the members of `KinematicModel`. `jheap` holds the joint objects
that `links`, `joints` point to: the URDF joints in `std::map` order followed by the fixed
joints made by `add_new_link`. `comDummy` and `joints` are vectors of pointers. -/
structure KinModel (K : Type) where
  rootLinkId : Nat
  links : List (Link K)
  linkIds : NameMap
  comDummy : List Nat
  jheap : List (Joint K)
  joints : List Nat
  jointIds : NameMap
  angles : List K
  base : Pose K
  rptable : RpTable
  numDof : Nat
  totalMass : K
  stack : SizedStack (LinkIdAndTransform K)
  cache : SizedCache (Pose K)

variable {K : Type} [Scalar K]

/-! ## Forward kinematics -/

/-- kinematics.cpp:68-82 `tf_plink_to_hlink` for a link whose parent joint is `j` -/
def jointTransform (m : KinModel K) (j : Joint K) : Outcome (Pose K) :=
  if j.type = .fixed then .ok j.origin
  else
    match j.id with
    | none => .ub (.uninit "joint id")
    | some i => do
      let angle ← Outcome.idx "joint_angles_" m.angles i
      let tf ← j.transform angle
      pure (Pose.transform j.origin tf)

/-- kinematics.cpp:53-88 the upward loop: from link `h` push edges until the root or a
cached link is met; the result is the stack and the pose to start from. Each iteration
either ends or pushes, and a push on a full stack is undefined behaviour. -/
def upLoop (m : KinModel K) (h : Nat) (st : SizedStack (LinkIdAndTransform K)) :
    Outcome (SizedStack (LinkIdAndTransform K) × Pose K) :=
  match m.links[h]? with
  | none => .ub (.outOfBounds "links_")
  | some hl =>
    match hl.parent with
    | none => .ok (st, m.base)
    | some p =>
      match m.cache.getCache hl.id with
      | .ok (some tf) => .ok (st, tf)
      | .ok none =>
        match hl.parentJoint with
        | none => .ub (.nullDeref "parent_joint")
        | some jp =>
          match m.jheap[jp]? with
          | none => .ub (.nullDeref "joint")
          | some j =>
            match jointTransform m j with
            | .ok tf =>
              if hlt : st.cur < st.data.length then
                upLoop m p ⟨st.data.set st.cur ⟨hl.id, tf⟩, st.cur + 1⟩
              else .ub (.outOfBounds "SizedStack::push")
            | .exn e => .exn e
            | .ub u => .ub u
            | .hang => .hang
      | .exn e => .exn e
      | .ub u => .ub u
      | .hang => .hang
termination_by st.data.length - st.cur
decreasing_by simp; omega

/-- kinematics.cpp:90-101 the downward loop over the first `n` stack entries (top first):
compose and cache. -/
def downLoop (data : List (LinkIdAndTransform K)) :
    Nat → Pose K → SizedCache (Pose K) → Outcome (Pose K × SizedCache (Pose K))
  | 0, tf, c => .ok (tf, c)
  | n + 1, tf, c => do
    let e ← Outcome.idx "SizedStack::top" data n
    let tf' := Pose.transform tf e.pose
    let c' ← c.setCache e.id tf'
    downLoop data n tf' c'

/-- kinematics.cpp:47-103 `get_link_pose_inner`. The function is `const`; stack and cache
are `mutable` members. -/
def getLinkPoseInner (l : Nat) : Prog (KinModel K) (Pose K) := fun m =>
  match upLoop m l m.stack.reset with
  | .ok (st, tf0) =>
    match downLoop st.data st.cur tf0 m.cache with
    | .ok (tf, c) => .ok tf { m with stack := { st with cur := 0 }, cache := c }
    | .exn e => .exn e m
    | .ub u => .ub u
    | .hang => .hang
  | .exn e => .exn e m
  | .ub u => .ub u
  | .hang => .hang

/-- kinematics.cpp:37-45 `get_link_pose` -/
def getLinkPose (l : Nat) : Prog (KinModel K) (Pose K) := fun m =>
  match m.cache.getCache l with
  | .ok (some tf) => .ok tf m
  | .ok none => getLinkPoseInner l m
  | .exn e => .exn e m
  | .ub u => .ub u
  | .hang => .hang

/-! ## Setters and getters -/

/-- tinyfk.cpp:132 `clear_cache` -/
def clearCache : Prog (KinModel K) Unit := Prog.modify fun m => { m with cache := m.cache.clear }

/-- tinyfk.cpp:122-128 the loop of `_set_joint_angles`: `joint_angles_[ids[i]] = vals[i]`;
reading past the end of `vals` or writing outside `joint_angles_` is undefined. -/
def writeAngles : List Nat → List K → List K → Outcome (List K)
  | [], _, a => .ok a
  | _ :: _, [], _ => .ub (.outOfBounds "joint_angles argument")
  | i :: ids, v :: vals, a =>
    if i < a.length then writeAngles ids vals (a.set i v)
    else .ub (.outOfBounds "joint_angles_")

/-- tinyfk.cpp:122-128 `_set_joint_angles` (does not clear the cache) -/
def setJointAnglesNC (ids : List Nat) (vals : List K) : Prog (KinModel K) Unit := fun m =>
  match writeAngles ids vals m.angles with
  | .ok a => .ok () { m with angles := a }
  | .exn e => .exn e m
  | .ub u => .ub u
  | .hang => .hang

/-- tinyfk.cpp:116-120 `set_joint_angles` -/
def setJointAngles (ids : List Nat) (vals : List K) : Prog (KinModel K) Unit := do
  setJointAnglesNC ids vals
  clearCache

/-- tinyfk.hpp:146-148 `set_joint_angle` (does not clear the cache) -/
def setJointAngle (id : Nat) (v : K) : Prog (KinModel K) Unit := fun m =>
  if id < m.angles.length then .ok () { m with angles := m.angles.set id v }
  else .ub (.outOfBounds "joint_angles_")

/-- tinyfk.hpp:90-93, tinyfk.cpp:130 `set_base_pose` -/
def setBasePose (p : Pose K) : Prog (KinModel K) Unit := do
  Prog.modify fun m => { m with base := p }
  clearCache

/-- tinyfk.cpp:134-138 `set_init_angles` -/
def setInitAngles : Prog (KinModel K) Unit := Prog.modify fun m =>
  { m with angles := List.replicate m.numDof 0, cache := m.cache.clear }

/-- evaluate `f` on each element, in order, stopping at the first failure -/
def mapOutcome {α β : Type} (f : α → Outcome β) : List α → Outcome (List β)
  | [] => .ok []
  | a :: l => do
    let b ← f a
    let bs ← mapOutcome f l
    pure (b :: bs)

/-- tinyfk.cpp:140-148 `get_joint_angles` -/
def getJointAngles (ids : List Nat) : Prog (KinModel K) (List K) := Prog.read fun m =>
  mapOutcome (Outcome.idx "joint_angles_" m.angles) ids

/-- tinyfk.cpp:150-162 `get_joint_ids` -/
def getJointIds (names : List String) : Prog (KinModel K) (List Nat) := Prog.read fun m =>
  mapOutcome (fun n => match m.jointIds.find n with
    | some i => .ok i
    | none => .exn (.invalidArgument ("no joint named " ++ n))) names

/-- tinyfk.cpp:203-215 `get_link_ids` -/
def getLinkIds (names : List String) : Prog (KinModel K) (List Nat) := Prog.read fun m =>
  mapOutcome (fun n => match m.linkIds.find n with
    | some i => .ok i
    | none => .exn (.invalidArgument ("no link named " ++ n))) names

/-- dereference a joint pointer -/
def derefJoint (m : KinModel K) (j : Nat) : Outcome (Joint K) :=
  match m.jheap[j]? with
  | some j => .ok j
  | none => .ub (.nullDeref "joint")

/-- tinyfk.hpp:114-120 `get_joint_names` -/
def getJointNames : Prog (KinModel K) (List String) := Prog.read fun m =>
  mapOutcome (fun j => do let j ← derefJoint m j; pure j.name) m.joints

/-- tinyfk.hpp:124-130 `get_link_names` -/
def getLinkNames : Prog (KinModel K) (List String) := Prog.read fun m =>
  .ok (m.links.map Link.name)

/-- A limit value: infinities come from `std::numeric_limits` (tinyfk.cpp:171-172). -/
inductive Bound (K : Type) where
  | negInf
  | fin (v : K)
  | posInf
  deriving DecidableEq, Repr

/-- tinyfk.cpp:168-176 the body of the loop of `get_joint_position_limits` -/
def positionLimit (m : KinModel K) (i : Nat) : Outcome (Bound K × Bound K) := do
  let jp ← Outcome.idx "joints_" m.joints i
  let j ← derefJoint m jp
  if j.type = .continuous then pure (.negInf, .posInf)
  else match j.limits with
    | some l => pure (.fin l.lower, .fin l.upper)
    | none => .ub (.nullDeref "limits")

/-- tinyfk.cpp:164-179 `get_joint_position_limits` -/
def getJointPositionLimits (ids : List Nat) : Prog (KinModel K) (List (Bound K × Bound K)) :=
  Prog.read fun m => mapOutcome (positionLimit m) ids

/-- `joints_[id]->limits`, dereferenced -/
def derefLimits (m : KinModel K) (i : Nat) : Outcome (JointLimits K) := do
  let jp ← Outcome.idx "joints_" m.joints i
  let j ← derefJoint m jp
  match j.limits with
    | some l => pure l
    | none => .ub (.nullDeref "limits")

/-- tinyfk.cpp:181-190 `get_joint_velocity_limits` -/
def getJointVelocityLimits (ids : List Nat) : Prog (KinModel K) (List K) :=
  Prog.read fun m => mapOutcome (fun i => do
    let l ← derefLimits m i
    pure l.velocity) ids

/-- tinyfk.cpp:192-201 `get_joint_effort_limits` -/
def getJointEffortLimits (ids : List Nat) : Prog (KinModel K) (List K) :=
  Prog.read fun m => mapOutcome (fun i => do
    let l ← derefLimits m i
    pure l.effort) ids

/-! ## Adding links -/

/-- tinyfk.cpp:273-280 the depth-first walk of `update_rptable` from the links on the
stack (head = top). `none` means the loop never ends. -/
def dfs (links : List (Link K)) (jid : Nat) (st : List Nat) (t : RpTable) :
    Option (Outcome RpTable) :=
  match st with
  | [] => some (.ok t)
  | l :: st =>
    match links[l]? with
    | none => some (.ub (.nullDeref "link"))
    | some lk =>
      match RpTable.setTrue t lk.id jid with
      | .ok t' => dfs links jid (lk.childLinks.reverse ++ st) t'
      | .exn e => some (.exn e)
      | .ub u => some (.ub u)
      | .hang => some .hang
partial_fixpoint

/-- tinyfk.cpp:268-281 the loop over the movable joints -/
def rpLoop (m : KinModel K) : List Nat → RpTable → Outcome RpTable
  | [], t => .ok t
  | jp :: js, t => do
    let j ← derefJoint m jp
    let jid ← (match m.jointIds.find j.name with
      | some i => Outcome.ok i
      | none => .exn (.outOfRange "unordered_map::at"))
    let c ← (match j.childLink with
      | some c => Outcome.ok c
      | none => .ub (.nullDeref "child link"))
    let t' ← (match dfs m.links jid [c] t with
      | some r => r
      | none => .hang)
    rpLoop m js t'

/-- tinyfk.cpp:260-283 `update_rptable` -/
def updateRptable : Prog (KinModel K) Unit := fun m =>
  match rpLoop m m.joints (RpTable.mk' m.linkIds.length m.jointIds.length) with
  | .ok t => .ok () { m with rptable := t }
  | .exn e => .exn e m
  | .ub u => .ub u
  | .hang => .hang

/-- tinyfk.cpp:238-241 the fixed joint made by `add_new_link`; `Joint()` clears the other
members (joint.h:181-197), `id` stays uninitialised and the names are empty -/
def newFixedJoint (pose : Pose K) : Joint K :=
  ⟨"", .fixed, Vec3.zero, pose, "", "", none, none, none⟩

/-- tinyfk.cpp:229-258 `add_new_link(name, parent_id, pose)`; the result is the new link's
pointer -/
def addNewLink (name : String) (parent : Nat) (pose : Pose K) : Prog (KinModel K) Nat := fun m =>
  match m.linkIds.find name with
  | some _ => .exn (.invalidArgument ("link name : " ++ name ++ " already exists")) m
  | none =>
    let jp := m.jheap.length
    let lid := m.links.length
    if parent < m.links.length then
      let newLink : Link K := ⟨name, lid, none, some parent, some jp, [], []⟩
      let m' : KinModel K :=
        { m with
          jheap := m.jheap ++ [newFixedJoint pose]
          linkIds := m.linkIds.set name lid
          links := (m.links ++ [newLink]).modify parent fun l =>
            { l with childLinks := l.childLinks ++ [lid] }
          cache := m.cache.extend Pose.identity }
      Prog.bind updateRptable (fun _ => Prog.pure lid) m'
    else .ub (.outOfBounds "links_[parent_id]")

/-- tinyfk.cpp:217-227 the overload taking position and rpy -/
def addNewLinkRPY (name : String) (parent : Nat) (pos rpy : Vec3 K) : Prog (KinModel K) Nat :=
  addNewLink name parent ⟨pos, Rot.fromRPY rpy.x rpy.y rpy.z⟩

/-! ## Construction -/

/-- tinyfk.cpp:27-34 numbering of links: ids and the name table -/
def numberLinks (k : Nat) : List (Link K) → NameMap → List (Link K) × NameMap
  | [], ids => ([], ids)
  | l :: ls, ids =>
    let (ls', ids') := numberLinks (k + 1) ls (ids.set l.name k)
    ({ l with id := k } :: ls', ids')

/-- tinyfk.cpp:38-43 -/
def sumMass : List (Link K) → K → K
  | [], acc => acc
  | l :: ls, acc =>
    match l.inertial with
    | some i => sumMass ls (acc + i.mass)
    | none => sumMass ls acc

/-- tinyfk.cpp:48-64 numbering of joints; `jp` is the position in the heap. Returns the
heap with ids, the vector of movable joints and the name table. -/
def numberJoints (jp : Nat) : List (Joint K) → Nat → List Nat → NameMap →
    Outcome (List (Joint K) × List Nat × NameMap)
  | [], _, joints, ids => .ok ([], joints, ids)
  | j :: js, jid, joints, ids =>
    match j.type with
    | .revolute | .continuous | .prismatic => do
      let (h, joints', ids') ← numberJoints (jp + 1) js (jid + 1) (joints ++ [jp]) (ids.set j.name jid)
      pure ({ j with id := some jid } :: h, joints', ids')
    | .fixed => do
      let (h, joints', ids') ← numberJoints (jp + 1) js jid joints ids
      pure (j :: h, joints', ids')
    | _ => .exn (.invalidArgument "unsuported joint type is detected")

/-- tinyfk.cpp:67-72 `setChildLink` for the movable joints -/
def setChildLinks (nLinks : Nat) : List Nat → List (Joint K) → NameMap →
    Outcome (List (Joint K) × NameMap)
  | [], h, ids => .ok (h, ids)
  | jp :: js, h, ids =>
    match h[jp]? with
    | none => .ub (.nullDeref "joint")
    | some j =>
      let (c, ids') := ids.opIndex j.childLinkName
      if c < nLinks then
        setChildLinks nLinks js (h.set jp { j with childLink := some c }) ids'
      else .ub (.outOfBounds "links[clink_id]")

/-- tinyfk.cpp:93-109 the loop adding the COM dummy links, over the numbers of the links
present in the description -/
def addComLinks : List Nat → Prog (KinModel K) Unit
  | [] => Prog.pure ()
  | l :: ls => fun m =>
    match m.links[l]? with
    | none => .ub (.outOfBounds "links")
    | some lk =>
      match lk.inertial with
      | none => addComLinks ls m
      | some inr =>
        match addNewLink (lk.name ++ "_com") lk.id ⟨inr.origin.position, Rot.one⟩ m with
        | .ok n m' =>
          -- `new_link->inertial = link->inertial` aliases; the origin is reset in both
          let i' : Inertial K := { inr with origin := Pose.identity }
          let m'' : KinModel K :=
            { m' with
              links := (m'.links.modify l fun x => { x with inertial := some i' }).modify n
                fun x => { x with inertial := some i' }
              comDummy := m'.comDummy ++ [n] }
          addComLinks ls m''
        | .exn e m' => .exn e m'
        | .ub u => .ub u
        | .hang => .hang

/-- forget the state of an object whose constructor finished or failed -/
def Res.toOutcome {σ α : Type} : Res σ α → Outcome σ
  | .ok _ s => .ok s
  | .exn e _ => .exn e
  | .ub u => .ub u
  | .hang => .hang

/-- tinyfk.cpp:23-86 the members before COM links are added -/
def initMembers (mi : ModelInterface K) : Outcome (KinModel K) := do
  let (links, linkIds) := numberLinks 0 mi.links []
  let (jheap, joints, jointIds) ← numberJoints 0 mi.joints 0 [] []
  let (jheap, linkIds) ← setChildLinks links.length joints jheap linkIds
  let root ← (match links[mi.rootLink]? with
    | some l => Outcome.ok l
    | none => .ub (.nullDeref "root_link_"))
  let (rootId, linkIds) := linkIds.opIndex root.name
  pure
    { rootLinkId := rootId
      links := links
      linkIds := linkIds
      comDummy := []
      jheap := jheap
      joints := joints
      jointIds := jointIds
      angles := List.replicate jointIds.length 0
      base := Pose.identity
      rptable := RpTable.mk' 0 0
      numDof := jointIds.length
      totalMass := sumMass links 0
      stack := SizedStack.mk' ⟨0, Pose.identity⟩ links.length
      cache := SizedCache.mk' Pose.identity links.length }

/-- tinyfk.cpp:16-114 the constructor after `parseURDF`; a null result of the parser is
dereferenced at line 27 -/
def construct : Option (ModelInterface K) → Outcome (KinModel K)
  | none => .ub (.nullDeref "robot_urdf_interface")
  | some mi =>
    match initMembers mi with
    | .ok m0 =>
      Res.toOutcome (Prog.bind (addComLinks (List.range m0.links.length))
        (fun _ => setBasePose Pose.identity) m0)
    | .exn e => .exn e
    | .ub u => .ub u
    | .hang => .hang

/-- tinyfk.cpp:16-22 the constructor from XML text; `parse` stands for `urdf::parseURDF` -/
def constructXml (parse : String → Option (ModelInterface K)) (xml : String) :
    Outcome (KinModel K) :=
  if xml = "" then .exn (.runtimeError "xml string is empty") else construct (parse xml)

end Tinyfk
