import Verif.Proofs.Safe
import Mathlib.Tactic.Ring

/-!
# Defined behaviour of the solvers
-/

namespace Tinyfk

set_option linter.unusedSectionVars false

open Scalar

variable {K : Type} [Scalar K] {α β : Type} {B : Bounds}

/-- `o` is a matrix of the size of `M` -/
def SizeOf (M : Mat K) (o : Outcome (Mat K)) : Prop := ∃ M', o = .ok M' ∧ M'.rows = M.rows ∧ M'.cols = M.cols

theorem SizeOf.bind {M : Mat K} {o : Outcome (Mat K)} {f : Mat K → Outcome (Mat K)} (h : SizeOf M o)
    (h' : ∀ M', M'.rows = M.rows → M'.cols = M.cols → SizeOf M' (f M')) : SizeOf M (o >>= f) := by
  obtain ⟨M', rfl, h1, h2⟩ := h
  obtain ⟨M'', e, h3, h4⟩ := h' M' h1 h2
  exact ⟨M'', e, h3.trans h1, h4.trans h2⟩

theorem SizeOf.set {M : Mat K} {i j : Nat} {v : K} (h1 : i < M.rows) (h2 : j < M.cols) : SizeOf M (M.set i j v) :=
  by
  unfold Mat.set; rw [if_pos ⟨h1, h2⟩]; exact ⟨_, rfl, rfl, rfl⟩

theorem SizeOf.setCol {M : Mat K} {i j : Nat} {vs : List K} (h1 : i + vs.length ≤ M.rows) (h2 : j < M.cols) :
    SizeOf M (M.setCol i j vs) := by
  induction vs generalizing M i with
  | nil => exact ⟨M, rfl, rfl, rfl⟩
  | cons v vs ih =>
    simp only [List.length_cons] at h1
    refine SizeOf.bind (SizeOf.set (by omega) h2) fun M' e1 e2 => ih (by omega) (by omega)

theorem SizeOf.setBlock {M B : Mat K} {i j : Nat} (h1 : i + B.rows ≤ M.rows) (h2 : j + B.cols ≤ M.cols) :
    SizeOf M (M.setBlock i j B) := ⟨_, Mat.setBlock_ok M i j B h1 h2, rfl, rfl⟩

theorem SizeOf.mapBlock {M : Mat K} {i j r c : Nat} {g : K → K} (h1 : i + r ≤ M.rows) (h2 : j + c ≤ M.cols) :
    SizeOf M (M.mapBlock i j r c g) := by
  unfold Mat.mapBlock; rw [if_pos ⟨h1, h2⟩]; exact ⟨_, rfl, rfl, rfl⟩

theorem SizeOf.addBlock {M B : Mat K} {i j r c : Nat} {s : K} (h1 : i + r ≤ M.rows) (h2 : j + c ≤ M.cols)
    (h3 : B.rows = r) (h4 : B.cols = c) : SizeOf M (M.addBlock i j r c s B) := by
  unfold Mat.addBlock; rw [if_pos ⟨h1, h2, h3, h4⟩]; exact ⟨_, rfl, rfl, rfl⟩

/-- a matrix of size `r × c` -/
def Dim (r c : Nat) (M : Mat K) : Prop := M.rows = r ∧ M.cols = c

theorem Tot.size {M : Mat K} {o : Outcome (Mat K)} {r c : Nat} (hM : Dim r c M) (h : SizeOf M o) :
    Tot B (Prog.lift o : Prog (KinModel K) (Mat K)) (Dim r c) := by
  obtain ⟨M', e, h1, h2⟩ := h
  exact Tot.lift ⟨M', e, h1.trans hM.1, h2.trans hM.2⟩

/-! ### Jacobians -/

theorem SizeOf.jacJointWrite {rt : RotType} {tfE : Pose K} {erpy : Vec3 K} {einv : Rot K} {j : Joint K}
    {tfC : Pose K} {i : Nat} {J : Mat K} (h1 : J.rows = rt.dim) (h2 : i < J.cols) :
    SizeOf J (jacJointWrite rt tfE erpy einv j tfC i J) := by
  unfold Tinyfk.jacJointWrite
  have := rt.dim_ge
  refine SizeOf.bind (SizeOf.setCol (by simp; omega) h2) fun J' e1 e2 => ?_
  split
  · exact ⟨J', rfl, rfl, rfl⟩
  · cases rt with
    | ignore => exact ⟨J', rfl, rfl, rfl⟩
    | rpy => exact SizeOf.setCol (by simp [e1, h1, RotType.dim]) (by omega)
    | xyzw => exact SizeOf.setCol (by simp [e1, h1, RotType.dim]) (by omega)

theorem Tot.jacJoint {elink : Nat} {rt : RotType} {tfE : Pose K} {erpy : Vec3 K} {einv : Rot K} {jid i c : Nat}
    {J : Mat K} (ht : B.T) (hl : elink < B.nl) (hj : jid < B.nj) (hJ : Dim rt.dim c J) (hi : i < c) :
    Tot B (jacJoint elink rt tfE erpy einv jid i J) (Dim rt.dim c) := by
  unfold Tinyfk.jacJoint
  refine Tot.bind (Q := fun _ => True) (Tot.read fun m hm => ?_) fun rel _ => Tot.ite (fun _ => ?_) fun _ => Tot.pure hJ
  · obtain ⟨b, hb⟩ := hm.table ht elink hl jid hj
    exact ⟨b, hb, trivial⟩
  refine Tot.bind (Q := fun j => ∃ c, j.childLink = some c ∧ c < B.nl) (Tot.read fun m hm => ?_) fun j hj => ?_
  · obtain ⟨jp, j, c, h1, h2, h3, h4, _⟩ := hm.joint jid hj
    exact ⟨j, by simp [Outcome.idx, h1, derefJoint, h2], c, h3, h4⟩
  obtain ⟨cl, hc1, hc2⟩ := hj
  refine Tot.bind (Q := fun l => l < B.nl) (Tot.read fun m hm => ?_) fun l hl => ?_
  · have hlt : cl < m.links.length := by rw [hm.links]; exact hc2
    simp only [hc1, List.getElem?_eq_getElem hlt]
    exact ⟨_, rfl, by rw [hm.tree.ids (List.getElem?_eq_getElem hlt)]; exact hc2⟩
  exact Tot.bind (Tot.getLinkPose hl) fun tfC _ => Tot.size hJ (SizeOf.jacJointWrite hJ.1 (by rw [hJ.2]; exact hi))

theorem Tot.jacJointLoop {elink : Nat} {rt : RotType} {tfE : Pose K} {erpy : Vec3 K} {einv : Rot K} {ids : List Nat}
    {i c : Nat} {J : Mat K} (ht : B.T) (hl : elink < B.nl) (hj : Below B.nj ids) (hJ : Dim rt.dim c J)
    (hi : i + ids.length ≤ c) : Tot B (jacJointLoop elink rt tfE erpy einv ids i J) (Dim rt.dim c) := by
  induction ids generalizing i J with
  | nil => exact Tot.pure hJ
  | cons a l ih =>
    simp only [List.length_cons] at hi
    exact Tot.bind (Tot.jacJoint ht hl (hj a (by simp)) hJ (by omega)) fun J' hJ' =>
      ih (fun i h => hj i (by simp [h])) hJ' (by omega)

theorem SizeOf.jacBaseRot {rt : RotType} {n : Nat} {tfE : Pose K} {erpy : Vec3 K} {tfB tfBE : Pose K} {rpyB : Vec3 K}
    {k : Nat} {J : Mat K} (h1 : J.rows = rt.dim) (h2 : n + 3 + k < J.cols) :
    SizeOf J (jacBaseRot rt n tfE erpy tfB tfBE rpyB k J) := by
  unfold Tinyfk.jacBaseRot
  have := rt.dim_ge
  refine SizeOf.bind (SizeOf.setCol (by simp; omega) h2) fun J' e1 e2 => ?_
  cases rt with
  | ignore => exact ⟨J', rfl, rfl, rfl⟩
  | rpy => exact SizeOf.setCol (by simp [e1, h1, RotType.dim]) (by omega)
  | xyzw => exact SizeOf.setCol (by simp [e1, h1, RotType.dim]) (by omega)

theorem SizeOf.jacBase {rt : RotType} {n : Nat} {tfE : Pose K} {erpy : Vec3 K} {tfB : Pose K} {J : Mat K}
    (h1 : J.rows = rt.dim) (h2 : J.cols = n + 6) : SizeOf J (jacBase rt n tfE erpy tfB J) := by
  have := rt.dim_ge
  unfold Tinyfk.jacBase
  refine SizeOf.bind (SizeOf.set (by omega) (by omega)) fun J1 a1 b1 => ?_
  refine SizeOf.bind (SizeOf.set (by omega) (by omega)) fun J2 a2 b2 => ?_
  refine SizeOf.bind (SizeOf.set (by omega) (by omega)) fun J3 a3 b3 => ?_
  refine SizeOf.bind (SizeOf.jacBaseRot (by omega) (by omega)) fun J4 a4 b4 => ?_
  refine SizeOf.bind (SizeOf.jacBaseRot (by omega) (by omega)) fun J5 a5 b5 => ?_
  exact SizeOf.jacBaseRot (by omega) (by omega)

/-- number of columns -/
def nCols (ids : List Nat) (wb : Bool) : Nat := ids.length + if wb then 6 else 0

theorem Tot.getJacobian {l : Nat} {ids : List Nat} {rt : RotType} {wb : Bool} (ht : B.T) (hl : l < B.nl)
    (hj : Below B.nj ids) :
    Tot B (getJacobian l ids rt wb : Prog (KinModel K) (Mat K)) (Dim rt.dim (nCols ids wb)) := by
  unfold Tinyfk.getJacobian
  refine Tot.bind (Tot.getLinkPose hl) fun tfE _ => ?_
  refine Tot.bind (Tot.jacJointLoop ht hl hj (c := nCols ids wb) ⟨rfl, rfl⟩ (by simp [nCols])) fun J hJ => ?_
  refine Tot.ite (fun hw => ?_) fun _ => Tot.pure hJ
  refine Tot.bind (Q := fun r => r < B.nl) (Tot.read fun m hm => ⟨_, rfl, hm.root⟩) fun r hr => ?_
  exact Tot.bind (Tot.getLinkPose hr) fun tfB _ => Tot.size hJ (SizeOf.jacBase hJ.1 (by rw [hJ.2]; simp [nCols, hw]))

/-! ### Centre of mass, inertia -/


theorem Tot.comLinkData {l : Nat} (hl : B.M l) :
    Tot B (comLinkData l : Prog (KinModel K) (Inertial K × Nat)) (fun x => x.2 < B.nl) := by
  refine Tot.read fun m hm => ?_
  obtain ⟨lk, inr, h1, h2⟩ := hm.mass l hl
  simp only [h1, h2]
  refine ⟨_, rfl, ?_⟩
  rw [hm.tree.ids h1, ← hm.links]
  exact (List.getElem?_eq_some_iff.mp h1).1

theorem Tot.comLoop {ds : List Nat} (hd : ∀ d ∈ ds, B.M d) (acc : Vec3 K) (mt : K) :
    Tot B (comLoop ds acc mt) (fun _ => True) := by
  induction ds generalizing acc mt with
  | nil => exact Tot.pure trivial
  | cons a l ih =>
    exact Tot.bind (Tot.comLinkData (hd a (by simp))) fun x hx => Tot.bind (Tot.getLinkPose hx) fun _ _ =>
      ih (fun d h => hd d (by simp [h])) _ _

theorem Tot.dummies : Tot B (Prog.read fun m : KinModel K => Outcome.ok m.comDummy) (fun ds => ∀ d ∈ ds, B.M d) :=
  Tot.read fun _ hm => ⟨_, rfl, hm.com⟩

theorem Tot.getCom : Tot B (getCom : Prog (KinModel K) (Vec3 K)) (fun _ => True) :=
  Tot.bind Tot.dummies fun _ hd => Tot.bind (Tot.comLoop hd _ _) fun _ _ => Tot.pure trivial

theorem Tot.comJacLoop {ids ds : List Nat} {wb : Bool} (ht : B.T) (hj : Below B.nj ids) (hd : ∀ d ∈ ds, B.M d)
    {acc : Mat K} (ha : Dim 3 (nCols ids wb) acc) (mt : K) :
    Tot B (comJacLoop ids wb ds acc mt) (fun x => Dim 3 (nCols ids wb) x.1) := by
  induction ds generalizing acc mt with
  | nil => exact Tot.pure ha
  | cons a l ih =>
    refine Tot.bind (Tot.comLinkData (hd a (by simp))) fun x hx => ?_
    refine Tot.bind (Tot.getJacobian ht hx hj) fun J hJ => ?_
    refine Tot.bind (Tot.size ha (SizeOf.addBlock (by omega) (by omega) (hJ.1.trans ha.1.symm) (hJ.2.trans ha.2.symm)))
      fun acc' ha' => ?_
    exact ih (fun d h => hd d (by simp [h])) ha' _

theorem Tot.getComJacobian {ids : List Nat} {wb : Bool} (ht : B.T) (hj : Below B.nj ids) :
    Tot B (getComJacobian ids wb : Prog (KinModel K) (Mat K)) (Dim 3 (nCols ids wb)) := by
  refine Tot.bind Tot.dummies fun _ hd => Tot.bind (Tot.comJacLoop ht hj hd ⟨rfl, rfl⟩ _) fun x hx => ?_
  exact Tot.size hx (SizeOf.mapBlock (by omega) (by omega))

theorem Tot.inertiaLoop {ds : List Nat} (com : Vec3 K) (hd : ∀ d ∈ ds, B.M d) (acc : M3 K) :
    Tot B (inertiaLoop com ds acc) (fun _ => True) := by
  induction ds generalizing acc with
  | nil => exact Tot.pure trivial
  | cons a l ih =>
    unfold Tinyfk.inertiaLoop
    refine Tot.bind (Q := fun x => x.2 < B.nl) (Tot.read fun m hm => ?_) fun x hx => ?_
    · obtain ⟨lk, inr, h1, h2⟩ := hm.mass a (hd a (by simp))
      simp only [h1]
      refine ⟨_, rfl, ?_⟩
      rw [hm.tree.ids h1, ← hm.links]
      exact (List.getElem?_eq_some_iff.mp h1).1
    · obtain ⟨i, lid⟩ := x
      cases i with
      | none => exact ih (fun d h => hd d (by simp [h])) _
      | some inr => exact Tot.bind (Tot.getLinkPose hx) fun _ _ => ih (fun d h => hd d (by simp [h])) _

theorem Tot.getTotalInertia : Tot B (getTotalInertia : Prog (KinModel K) (M3 K)) (fun _ => True) :=
  Tot.bind Tot.getCom fun _ _ => Tot.bind Tot.dummies fun _ hd => Tot.inertiaLoop _ hd _

/-! ### `solve_forward_kinematics` -/

theorem poseColumn_len (rt : RotType) (T : Pose K) : (poseColumn rt T).length = rt.dim := by
  cases rt <;> simp [poseColumn, RotType.dim]

theorem Tot.fkPoseLoop {rt : RotType} {head0 : Nat} {es : List Nat} {j n : Nat} {P : Mat K} (he : Below B.nl es)
    (hP : Dim rt.dim n P) (hn : head0 + j + es.length ≤ n) :
    Tot B (fkPoseLoop rt head0 es j P) (Dim rt.dim n) := by
  induction es generalizing j P with
  | nil => exact Tot.pure hP
  | cons l es ih =>
    simp only [List.length_cons] at hn
    refine Tot.bind (Tot.getLinkPose (he l (by simp))) fun T _ => ?_
    refine Tot.bind (Tot.size hP (SizeOf.setCol (by rw [poseColumn_len, hP.1]; omega) (by rw [hP.2]; omega)))
      fun P' hP' => ih (fun i h => he i (by simp [h])) hP' (by omega)

theorem Bad.fkPoseLoop {rt : RotType} {head0 : Nat} {es : List Nat} {j : Nat} {P : Mat K} (he : ¬ Below B.nl es) :
    Bad B (fkPoseLoop rt head0 es j P) := by
  induction es generalizing j P with
  | nil => exact absurd (fun i h => by cases h) he
  | cons l es ih =>
    by_cases hl : l < B.nl
    · refine Bad.right (Mild.getLinkPose l) fun T => Bad.right (Mild.lift (OkUb.setCol _ _ _ _)) fun P' => ih fun h => he ?_
      intro i hi
      rcases List.mem_cons.mp hi with rfl | hi
      · exact hl
      · exact h i hi
    · exact Bad.left (Bad.getLinkPose hl)

theorem Tot.fkJacLoop {rt : RotType} {ids : List Nat} {wb : Bool} {head0 : Nat} {es : List Nat} {j r : Nat} {J : Mat K}
    (ht : B.T) (hi : Below B.nj ids) (he : Below B.nl es) (hJ : Dim r (nCols ids wb) J)
    (hn : head0 + (j + es.length) * rt.dim ≤ r) :
    Tot B (fkJacLoop rt ids wb head0 es j J) (Dim r (nCols ids wb)) := by
  induction es generalizing j J with
  | nil => exact Tot.pure hJ
  | cons l es ih =>
    simp only [List.length_cons] at hn
    refine Tot.bind (Tot.getJacobian ht (he l (by simp)) hi) fun A hA => ?_
    have e : (j + (es.length + 1)) * rt.dim = j * rt.dim + rt.dim + es.length * rt.dim := by ring
    refine Tot.bind (Tot.size hJ (SizeOf.setBlock (by rw [hA.1, hJ.1]; omega) (by rw [hA.2, hJ.2]; omega)))
      fun J' hJ' => ih (fun i h => he i (by simp [h])) hJ' (by
        have : (j + 1 + es.length) * rt.dim = j * rt.dim + rt.dim + es.length * rt.dim := by ring
        omega)

theorem Tot.fkLoop {es ids : List Nat} {rt : RotType} {wb wj uc : Bool} {qs : List (List K)} {i n : Nat} {P J : Mat K}
    (ht : wj = true → B.T) (he : Below B.nl es) (hq : ∀ q ∈ qs, RowOk B.nj ids wb q) (hin : i + qs.length ≤ n)
    (hP : Dim rt.dim (n * es.length) P) (hJ : Dim (n * es.length * rt.dim) (nCols ids wb) J) :
    Tot B (fkLoop es ids rt wb wj uc qs i P J)
      (fun x => Dim rt.dim (n * es.length) x.1 ∧ Dim (n * es.length * rt.dim) (nCols ids wb) x.2) := by
  induction qs generalizing i P J with
  | nil => exact Tot.pure ⟨hP, hJ⟩
  | cons q qs ih =>
    simp only [List.length_cons] at hin
    have hle : (i + 1) * es.length ≤ n * es.length := Nat.mul_le_mul_right _ (by omega)
    have hle' : (i + 1) * es.length * rt.dim ≤ n * es.length * rt.dim := Nat.mul_le_mul_right _ hle
    have ea : (i + 1) * es.length = i * es.length + es.length := by ring
    have eb : (i + 1) * es.length * rt.dim = i * (es.length * rt.dim) + es.length * rt.dim := by ring
    have hq0 := hq q (by simp)
    unfold Tinyfk.fkLoop
    refine Tot.bind (Tot.applyConfig hq0) fun _ _ => ?_
    refine Tot.bind (Tot.fkPoseLoop he hP (by omega)) fun P' hP' => ?_
    cases wj with
    | false => exact ih (fun q h => hq q (by simp [h])) (by omega) hP' hJ
    | true =>
      exact Tot.bind (Tot.fkJacLoop (ht rfl) hq0.1 he hJ (by rw [Nat.zero_add]; omega)) fun J' hJ' =>
        ih (fun q h => hq q (by simp [h])) (by omega) hP' hJ'

theorem Bad.fkLoop {es ids : List Nat} {rt : RotType} {wb wj uc : Bool} {q : List K} {qs : List (List K)} {i : Nat}
    {P J : Mat K} (hb : ¬ (RowOk B.nj ids wb q ∧ Below B.nl es)) :
    Bad B (fkLoop es ids rt wb wj uc (q :: qs) i P J) := by
  unfold Tinyfk.fkLoop
  by_cases h1 : RowOk B.nj ids wb q
  · refine Bad.right (Mild.applyConfig _ _ _ _) fun _ => Bad.left (Bad.fkPoseLoop fun h => hb ⟨h1, h⟩)
  · exact Bad.left (Bad.applyConfig h1)

/-- rows as the Python layer hands them over -/
def Rows (ids : List Nat) (wb : Bool) (qs : List (List K)) : Prop := ∀ q ∈ qs, q.length = nCols ids wb

theorem Rows.ok {ids : List Nat} {wb : Bool} {qs : List (List K)} (h : Rows ids wb qs) (hi : Below B.nj ids) :
    ∀ q ∈ qs, RowOk B.nj ids wb q := by
  intro q hq
  have := h q hq
  unfold nCols at this
  refine ⟨hi, by omega, fun hw => ?_⟩
  rw [hw] at this; simp at this; omega

theorem Tot.solveFk {qs : List (List K)} {es ids : List Nat} {rt : RotType} {wb wj uc : Bool}
    (ht : wj = true → B.T) (hr : Rows ids wb qs) (h0 : qs = [] → wb = false)
    (h1 : qs ≠ [] → Below B.nj ids ∧ Below B.nl es) :
    Tot B (solveForwardKinematics qs es ids rt wb wj uc) (fun x => x.2.cols = nCols ids wb) := by
  have key : Tot B (do
      let (P, J) ← Tinyfk.fkLoop es ids rt wb wj uc qs 0 (Mat.zero rt.dim (qs.length * es.length))
        (Mat.zero (qs.length * es.length * rt.dim) (if wb then ids.length + 6 else ids.length))
      Pure.pure (P.transpose, J)) (fun x => x.2.cols = nCols ids wb) := by
    have hd : (if wb then ids.length + 6 else ids.length) = nCols ids wb := by unfold nCols; split <;> rfl
    rw [hd]
    refine Tot.bind (Q := fun x => x.2.cols = nCols ids wb) ?_ fun x hx => Tot.pure hx
    cases qs with
    | nil => exact Tot.pure rfl
    | cons q qs =>
      obtain ⟨a, b⟩ := h1 (by simp)
      exact (Tot.fkLoop ht b (hr.ok a) (by simp) ⟨rfl, rfl⟩ ⟨rfl, rfl⟩).mono fun x hx => hx.2.2
  unfold solveForwardKinematics
  cases wb with
  | false => exact key
  | true =>
    cases qs with
    | nil => exact absurd (h0 rfl) (by simp)
    | cons q qs =>
      have : q.length = ids.length + 6 := by have := hr q (by simp); simpa [nCols] using this
      have hc : ¬ (q.length < 6 ∨ ids.length ≠ q.length - 6) := by omega
      simp only [if_true, hc, if_false]
      exact key

theorem Bad.solveFk {qs : List (List K)} {es ids : List Nat} {rt : RotType} {wb wj uc : Bool} (hr : Rows ids wb qs)
    (hb : ¬ ((qs = [] → wb = false) ∧ (qs ≠ [] → Below B.nj ids ∧ Below B.nl es))) :
    Bad B (solveForwardKinematics qs es ids rt wb wj uc) := by
  unfold solveForwardKinematics
  cases qs with
  | nil =>
    cases wb with
    | false => exact absurd ⟨fun _ => rfl, fun h => absurd rfl h⟩ hb
    | true => exact Bad.left Bad.lift
  | cons q qs =>
    have key : Bad B (do
      let (P, J) ← Tinyfk.fkLoop es ids rt wb wj uc (q :: qs) 0 (Mat.zero rt.dim ((q :: qs).length * es.length))
        (Mat.zero ((q :: qs).length * es.length * rt.dim) (if wb then ids.length + 6 else ids.length))
      Pure.pure (P.transpose, J)) := by
      refine Bad.left (Bad.fkLoop fun h => hb ⟨fun h => by simp at h, fun _ => ⟨h.1.1, h.2⟩⟩)
    cases wb with
    | false => exact key
    | true =>
      have : q.length = ids.length + 6 := by have := hr q (by simp); simpa [nCols] using this
      have hc : ¬ (q.length < 6 ∨ ids.length ≠ q.length - 6) := by omega
      simp only [if_true, hc, if_false]
      exact key

end Tinyfk
