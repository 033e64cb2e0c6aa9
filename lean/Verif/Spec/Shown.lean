import Verif.Spec.PyApi
import Verif.Spec.Solver
import Verif.Spec.Com
import Verif.Spec.Dist

/-!
# Specification: which configuration the cache shows

Some calls write joint angles and keep the cache: `set_joint_angle` and `_set_joint_angles` of the C++ class, and in Python
`solve_fk` and `compute_inter_link_sqdists` with `use_cache=True`, `solve_com_fk` with a fixed base and
`compute_total_inertia_matrix`. What a query answers after such calls is told here from the order of four kinds of events:
angles are written, the cache is cleared, a pose of a link is asked for, the poses of all masses are asked for.

For each joint there is the value it has now, and possibly a value that is held: the one it had when, for the first time since
the cache was last cleared, a pose was asked for that depends on it. A query answers as if each joint had the held value, or
the present one if none is held.
-/

namespace Tinyfk

open Scalar

variable {K : Type} [Scalar K]

/-- what matters in a history -/
inductive Event (K : Type) where
  /-- these values are written to these joints -/
  | write (ids : List Nat) (vals : List K)
  /-- all joints are set to 0 -/
  | zero
  /-- the cache is cleared -/
  | clear
  /-- the pose of a link is asked for -/
  | ask (l : Nat)
  /-- the poses of all masses are asked for -/
  | askMasses

/-- one joint: its value now, and the value held by the cache -/
structure Seen (K : Type) where
  now : K
  held : Option K

/-- the value with which the joint shows in queries -/
def Seen.value (s : Seen K) : K := s.held.getD s.now

open Classical in
/-- One event, for joint `i` that is on the path to the links `on` and, if `mass`, to some mass. -/
noncomputable def Seen.step (i : Nat) (on : Nat → Prop) (mass : Prop) (s : Seen K) : Event K → Seen K
  | .write ids vals => { s with now := (lastWrite (ids.zip vals) i).getD s.now }
  | .zero => { s with now := 0 }
  | .clear => { s with held := none }
  | .ask l => if on l then { s with held := some s.value } else s
  | .askMasses => if mass then { s with held := some s.value } else s

/-- a joint after some events; it starts at 0 with an empty cache -/
noncomputable def seenAfter (i : Nat) (on : Nat → Prop) (mass : Prop) (evs : List (Event K)) : Seen K :=
  evs.foldl (Seen.step i on mass) ⟨0, none⟩

/-- `θ` gives each joint, by name, the value with which it shows in queries after the events `evs`, on the robot described by
`ls`, `js` to which the calls `cs` may have added links. -/
def ShownAngles (ls : List (RawLink K)) (js : List (RawJoint K)) (m0 : KinModel K) (cs : List (Call K)) (evs : List (Event K))
    (θ : String → K) : Prop :=
  ∀ s i, getJointIds [s] m0 = .ok [i] m0 → θ s = (seenAfter i
    (fun l => ∃ n, (linksAfter (names0 m0) cs)[l]? = some n ∧ JointOnPath js (AllWelds ls m0 cs) s n)
    (∃ w, ComWeld ls w ∧ JointOnPath js (AllWelds ls m0 cs) s w.name) evs).value

/-! ### Histories of the C++ class -/

/-- a call of the C++ class: one of `Call`, or `_set_joint_angles` (`set_joint_angle` is its case with one joint, see
`setJointAngle_eq`) -/
inductive SCall (K : Type) where
  | call (c : Call K)
  | write (ids : List Nat) (vals : List K)

/-- run a call and drop its result -/
def SCall.run : SCall K → Prog (KinModel K) Unit
  | .call c => c.run
  | .write ids vals => Tinyfk.setJointAnglesNC ids vals

/-- the calls of `Call` with the same effect on angles, base pose and links -/
def SCall.effect : SCall K → List (Call K)
  | .write ids vals => [.setJointAngles ids vals]
  | .call (.setJointAngles ids vals) => [.setJointAngles ids vals]
  | .call (.setBasePose b) => [.setBasePose b]
  | .call .setInitAngles => [.setInitAngles]
  | .call (.addNewLink n p o) => [.addNewLink n p o]
  | .call _ => []

/-- the events of a call, made when the links are called `ns` -/
def SCall.events (ns : List String) : SCall K → List (Event K)
  | .write ids vals => [.write ids vals]
  | .call (.setJointAngles ids vals) => [.write ids vals, .clear]
  | .call (.setBasePose _) => [.clear]
  | .call .setInitAngles => [.zero, .clear]
  | .call .clearCache => [.clear]
  | .call (.addNewLink n _ _) => if n ∈ ns then [] else [.clear]
  | .call (.getLinkPose l) => [.ask l]
  | .call (.getJacobian l _ _ _) => [.ask l]
  | .call .getCom => [.askMasses]
  | .call (.getComJacobian _ _) => [.askMasses]
  | .call .getTotalInertia => [.askMasses]
  | .call (.getJointIds _) => []
  | .call (.getLinkIds _) => []
  | .call (.getJointAngles _) => []
  | .call (.getJointPositionLimits _) => []

/-- the events of a history -/
def eventsOf : List String → List (SCall K) → List (Event K)
  | _, [] => []
  | ns, c :: cs => c.events ns ++ eventsOf (linksAfter ns c.effect) cs

/-- the calls `cs`, some of which may throw, take `m` to `m'` -/
inductive SRuns : KinModel K → List (SCall K) → KinModel K → Prop
  | nil {m : KinModel K} : SRuns m [] m
  | ok {m m1 m2 : KinModel K} {c : SCall K} {cs : List (SCall K)} :
      c.run m = .ok () m1 → SRuns m1 cs m2 → SRuns m (c :: cs) m2
  | exn {m m1 m2 : KinModel K} {c : SCall K} {cs : List (SCall K)} {e : Exn} :
      c.run m = .exn e m1 → SRuns m1 cs m2 → SRuns m (c :: cs) m2

/-- `m` is reached from the description `(ls, js)`, which is a tree with supported joints,
constructed as `m0`, by the calls `cs` (some of which may have thrown). -/
structure SReach (ls : List (RawLink K)) (js : List (RawJoint K)) (m0 : KinModel K)
    (cs : List (SCall K)) (m : KinModel K) : Prop where
  tree : IsTree js
  supported : Supported js
  built : construct (buildModel ls js) = .ok m0
  runs : SRuns m0 cs m

/-- what a call answers -/
def Res.answer {σ α : Type} : Res σ α → Outcome α
  | .ok v _ => .ok v
  | .exn e _ => .exn e
  | .ub u => .ub u
  | .hang => .hang

/-- `m` answers every query as `mk` does -/
structure AnswersAs (m mk : KinModel K) : Prop where
  pose : ∀ l, (getLinkPose l m).answer = (getLinkPose l mk).answer
  jacobian : ∀ l ids rt b, (getJacobian l ids rt b m).answer = (getJacobian l ids rt b mk).answer
  com : (getCom m).answer = (getCom mk).answer
  comJacobian : ∀ ids b, (getComJacobian ids b m).answer = (getComJacobian ids b mk).answer
  inertia : (getTotalInertia m).answer = (getTotalInertia mk).answer

/-! ### Histories of Python calls -/

/-- The events of applying the configuration `q`: its first numbers are written to the joints; the cache is cleared, unless the
base is fixed and `keep`. -/
def configEvents (ids : List Nat) (bt : BaseType) (keep : Bool) (q : List K) : List (Event K) :=
  .write ids (q.take ids.length) :: if bt = .fixed ∧ keep = true then [] else [.clear]

/-- the events of a batch of configurations, with the same queries `asks` for each -/
def batchEvents (ids : List Nat) (bt : BaseType) (keep : Bool) (asks : List (Event K)) (qs : List (List K)) : List (Event K) :=
  qs.flatMap fun q => configEvents ids bt keep q ++ asks

/-- the links asked for by `compute_inter_link_sqdists` -/
def pairAsks (ps : List (Nat × Nat)) : List (Event K) := ps.flatMap fun p => [.ask p.1, .ask p.2]

/-- the queries of `solve_com_fk` for one configuration -/
def comAsks (act : Option (List Nat × List K)) : List (Event K) := .askMasses :: (act.getD ([], [])).1.map .ask

/-- the events of a Python call that returns -/
def PyCall.events : PyCall K → List (Event K)
  | .setQ ids q _ => [.write ids (q.take ids.length), .clear]
  | .solveFk qs es ids _ bt _ uc => batchEvents ids bt uc (es.map .ask) qs.rows
  | .solveComFk qs ids act bt _ => batchEvents ids bt true (comAsks act) qs.rows
  | .inertia q ids => [.write ids (q.take ids.length), .askMasses]
  | .addNewLink _ => [.clear]
  | .sqdists qs ps ids bt _ uc => batchEvents ids bt uc (pairAsks ps) qs
  | .clearCache => [.clear]
  | _ => []

/-- `PyShows s h cs evs s'`: the Python calls `h`, some of which may raise, take `s` to `s'`; `cs` is their effect on the robot
and `evs` their events. -/
inductive PyShows : PyModel K → List (PyCall K) → List (Call K) → List (Event K) → PyModel K → Prop
  | nil {s : PyModel K} : PyShows s [] [] [] s
  | ok {s s1 s2 : PyModel K} {c : PyCall K} {h : List (PyCall K)} {cs : List (Call K)} {evs : List (Event K)} :
      c.Shaped → c.run s = .ok () s1 → PyShows s1 h cs evs s2 → PyShows s (c :: h) (c.effect ++ cs) (c.events ++ evs) s2
  | exn {s s1 s2 : PyModel K} {c : PyCall K} {h : List (PyCall K)} {cs : List (Call K)} {evs : List (Event K)} {e : Exn} :
      c.Shaped → c.run s = .exn e s1 → PyShows s1 h cs evs s2 → PyShows s (c :: h) cs evs s2

/-- `s` is reached from the description `(ls, js)`, which is a tree with supported joints, constructed with robot `m0`, by
Python calls with effect `cs` and events `evs`. -/
structure PySReach (ls : List (RawLink K)) (js : List (RawJoint K)) (m0 : KinModel K)
    (h : List (PyCall K)) (cs : List (Call K)) (evs : List (Event K)) (s : PyModel K) : Prop where
  tree : IsTree js
  supported : Supported js
  built : construct (buildModel ls js) = .ok m0
  runs : ∃ xml, PyShows ⟨xml, m0, [], []⟩ h cs evs s

/-- `mk` is a robot with the past `cs` on which all joints were then set, with `set_joint_angles`, to the values with which
they show in queries after the events `evs`. -/
def ShownRobot (ls : List (RawLink K)) (js : List (RawJoint K)) (m0 : KinModel K) (cs : List (Call K)) (evs : List (Event K))
    (mk : KinModel K) : Prop :=
  ∃ (θ : String → K) (a : List K), ShownAngles ls js m0 cs evs θ ∧
    Reach ls js m0 (cs ++ [.setJointAngles (List.range m0.joints.length) a]) mk ∧
    AnglesAfter m0 (cs ++ [.setJointAngles (List.range m0.joints.length) a]) θ

/-- The events up to the query for row `k`, configuration `q`, of a batch with fixed base that keeps the cache. -/
def rowEvents (evs : List (Event K)) (ids : List Nat) (asks : List (Event K)) (rows : List (List K)) (k : Nat) (q : List K) :
    List (Event K) :=
  evs ++ (batchEvents ids .fixed true asks (rows.take k) ++ configEvents ids .fixed true q)

/-- What `solve_fk` with a fixed base and `use_cache=True` returns after the calls `cs` with the events `evs`: as `FkResult`,
but the row of a configuration is that of the robot which shows when it is asked for. -/
structure FkShown (ls : List (RawLink K)) (js : List (RawJoint K)) (m0 : KinModel K) (cs : List (Call K)) (evs : List (Event K))
    (rows : List (List K)) (elinks ids : List Nat) (rt : RotType) (withJac : Bool) (P J : Mat K) : Prop where
  pRows : P.rows = rows.length * elinks.length
  pCols : P.cols = rt.width
  jRows : J.rows = rows.length * elinks.length * rt.width
  jCols : J.cols = ids.length
  pose : ∀ (k j l : Nat) q mk, rows[k]? = some q → elinks[j]? = some l →
    ShownRobot ls js m0 cs (rowEvents evs ids (elinks.map .ask) rows k q) mk →
    ∃ T mk', getLinkPose l mk = .ok T mk' ∧ PoseRow rt P (k * elinks.length + j) T
  jac : withJac = true → ∀ (k j l : Nat) q mk, rows[k]? = some q → elinks[j]? = some l →
    ShownRobot ls js m0 cs (rowEvents evs ids (elinks.map .ask) rows k q) mk →
    ∃ B mk', getJacobian l ids rt false mk = .ok B mk' ∧
      JacBlock ids.length .fixed rt J ((k * elinks.length + j) * rt.width) B
  noJac : withJac = false → ∀ r < J.rows, ∀ c < J.cols, J.f r c = 0

/-- The same for `solve_com_fk` with a fixed base, with action links `al` and forces `fs`. -/
structure ComShown (ls : List (RawLink K)) (js : List (RawJoint K)) (m0 : KinModel K) (cs : List (Call K)) (evs : List (Event K))
    (rows : List (List K)) (ids al : List Nat) (fs : List K) (withJac : Bool) (C J : Mat K) : Prop where
  cRows : C.rows = rows.length
  cCols : C.cols = 3
  jRows : J.rows = 3 * rows.length
  jCols : J.cols = ids.length
  com : ∀ (k : Nat) q mk, rows[k]? = some q →
    ShownRobot ls js m0 cs (rowEvents evs ids (.askMasses :: al.map .ask) rows k q) mk →
    ∃ v mk' Ts, getCom mk = .ok v mk' ∧
      List.Forall₂ (fun l T => ∃ m', getLinkPose l mk = .ok T m') al Ts ∧
      ∀ r < 3, C.f k r = actionMean mk.totalMass (fs.zip (Ts.map fun T => T.position.coord r)) (v.coord r)
  jac : withJac = true → ∀ (k : Nat) q mk, rows[k]? = some q →
    ShownRobot ls js m0 cs (rowEvents evs ids (.askMasses :: al.map .ask) rows k q) mk →
    ∃ B mk' Bs, getComJacobian ids false mk = .ok B mk' ∧ B.rows = 3 ∧ B.cols = J.cols ∧
      List.Forall₂ (fun l B => ∃ m', getJacobian l ids .ignore false mk = .ok B m') al Bs ∧
      ∀ r < 3, ∀ c < J.cols, J.f (3 * k + r) c =
        actionMean mk.totalMass (fs.zip (Bs.map fun B => B.f r c)) (B.f r c)
  noJac : withJac = false → ∀ r < J.rows, ∀ c < J.cols, J.f r c = 0

/-- The same for `compute_inter_link_sqdists` with a fixed base and `use_cache=True`. -/
structure DistShown (ls : List (RawLink K)) (js : List (RawJoint K)) (m0 : KinModel K) (cs : List (Call K)) (evs : List (Event K))
    (rows : List (List K)) (pairs : List (Nat × Nat)) (ids : List Nat) (withJac : Bool) (V J : Mat K) : Prop where
  vRows : V.rows = rows.length * pairs.length
  vCols : V.cols = 1
  jRows : withJac = true → J.rows = rows.length * pairs.length
  jCols : withJac = true → J.cols = ids.length
  dist : ∀ (k j l1 l2 : Nat) q mk, rows[k]? = some q → pairs[j]? = some (l1, l2) →
    ShownRobot ls js m0 cs (rowEvents evs ids (pairAsks pairs) rows k q) mk →
    ∃ T1 mk1 T2 mk2, getLinkPose l1 mk = .ok T1 mk1 ∧ getLinkPose l2 mk = .ok T2 mk2 ∧
      V.f (k * pairs.length + j) 0 = sqDist T1.position T2.position
  grad : withJac = true → ∀ (k j l1 l2 : Nat) q mk, rows[k]? = some q → pairs[j]? = some (l1, l2) →
    ShownRobot ls js m0 cs (rowEvents evs ids (pairAsks pairs) rows k q) mk →
    ∃ T1 mk1 T2 mk2 B1 mk3 B2 mk4, getLinkPose l1 mk = .ok T1 mk1 ∧ getLinkPose l2 mk = .ok T2 mk2 ∧
      getJacobian l1 ids .ignore false mk = .ok B1 mk3 ∧ getJacobian l2 ids .ignore false mk = .ok B2 mk4 ∧
      ∀ c < ids.length, J.f (k * pairs.length + j) c = sqDistGrad B1 B2 T1.position T2.position c

end Tinyfk
