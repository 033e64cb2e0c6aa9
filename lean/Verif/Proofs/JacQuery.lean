import Verif.Proofs.Query

/-!
# The value of `get_jacobian`

A closed form for every entry of the matrix, in terms of the poses of the links.
-/

set_option linter.unusedSectionVars false

namespace Tinyfk

open Scalar

variable {K : Type} [Scalar K]

/-- Entry in row `r` of the column of joint `j` (child link pose `tfC`) for end link pose
`tfE`. -/
def jointCol (rt : RotType) (tfE tfC : Pose K) (j : Joint K) (r : Nat) : K :=
  let a := tfC.rotation.rotate j.axis
  let d := if j.type = .prismatic then a else Vec3.cross a (Vec3.sub tfE.position tfC.position)
  match r with
  | 0 => d.x
  | 1 => d.y
  | 2 => d.z
  | r + 3 =>
    if j.type = .prismatic then 0
    else match rt with
      | .ignore => 0
      | .rpy =>
        let w := rpyDerivative tfE.rotation.getRPY a
        [w.x, w.y, w.z].getD r 0
      | .xyzw =>
        let w := qDerivative tfE.rotation.inverse a
        [w.x, w.y, w.z, w.w].getD r 0

/-- Entry in row `r` of base rotation column `k`. -/
def baseRotCol (rt : RotType) (tfE tfB : Pose K) (k r : Nat) : K :=
  let t := tweak tfB.rotation.getRPY k
  let out := Pose.transform { tfB with rotation := Rot.fromRPY t.x t.y t.z }
    (Pose.transform tfB.inverse tfE)
  let d := Vec3.sub out.position tfE.position
  match r with
  | 0 => d.x / epsFD
  | 1 => d.y / epsFD
  | 2 => d.z / epsFD
  | r + 3 => match rt with
    | .ignore => 0
    | .rpy =>
      let e := Vec3.sub out.rotation.getRPY tfE.rotation.getRPY
      [e.x / epsFD, e.y / epsFD, e.z / epsFD].getD r 0
    | .xyzw =>
      [(out.rotation.x - tfE.rotation.x) / epsFD, (out.rotation.y - tfE.rotation.y) / epsFD,
       (out.rotation.z - tfE.rotation.z) / epsFD, (out.rotation.w - tfE.rotation.w) / epsFD].getD r 0

/-- Entry `(r, c)` of the base part, `c` counted from the first base column. -/
def baseCol (rt : RotType) (tfE tfB : Pose K) (c r : Nat) : K :=
  if c < 3 then (if r = c then 1 else 0) else baseRotCol rt tfE tfB (c - 3) r

/-- What a list entry `jid` contributes: the column as a function of the row. `none` when
the joint is not relevant. -/
def IsJointCol (m : KinModel K) (rt : RotType) (elink : Nat) (tfE : Pose K) (jid : Nat)
    (col : Nat → K) : Prop :=
  (RpTable.isRelevant m.rptable elink jid = .ok false ∧ col = fun _ => 0) ∨
  ∃ jp j c tfC, RpTable.isRelevant m.rptable elink jid = .ok true ∧ m.joints[jid]? = some jp ∧
    m.jheap[jp]? = some j ∧ j.childLink = some c ∧ (∃ lk, m.links[c]? = some lk ∧ lk.id = c) ∧
    IsPose m c tfC ∧ col = jointCol rt tfE tfC j

/-- Closed form of the matrix returned by `get_jacobian`. -/
def jacMat (rt : RotType) (cols : List (Nat → K)) (tfE : Pose K) (tfB : Option (Pose K)) : Mat K :=
  let n := cols.length
  ⟨rt.dim, n + (if tfB.isSome then 6 else 0), fun r c =>
    if r < rt.dim then
      if c < n then (cols.getD c (fun _ => 0)) r
      else if c < n + 6 then
        match tfB with
        | some B => baseCol rt tfE B (c - n) r
        | none => 0
      else 0
    else 0⟩

theorem RotType.dim_ge (rt : RotType) : 3 ≤ rt.dim := by cases rt <;> decide

theorem jacJointWrite_spec (rt : RotType) (tfE tfC : Pose K) (j : Joint K) (i : Nat) (J : Mat K)
    (hr : J.rows = rt.dim) (hc : i < J.cols) (hz : ∀ r, J.f r i = 0) :
    jacJointWrite rt tfE (if rt = .rpy then tfE.rotation.getRPY else Vec3.zero)
      (if rt = .xyzw then tfE.rotation.inverse else Rot.one) j tfC i J =
    .ok { J with f := fun r c =>
      if c = i then (if r < rt.dim then jointCol rt tfE tfC j r else 0) else J.f r c } := by
  unfold jacJointWrite
  have h3 := rt.dim_ge
  dsimp only
  rw [Mat.setCol_spec _ _ _ _ (by simp; omega) (by exact hc)]
  simp only [Outcome.bind_eq, Outcome.bind_ok]
  by_cases hp : j.type = .prismatic
  · simp only [hp, if_true, Outcome.pure_eq]
    congr 1
    simp only [Mat.mk.injEq, true_and]
    funext r c
    by_cases hci : c = i
    · subst hci
      rcases r with _ | _ | _ | r
      · simp [jointCol, hp]; omega
      · simp [jointCol, hp]; omega
      · simp [jointCol, hp]; omega
      · simp [jointCol, hp, hz]
    · simp [hci]
  · simp only [hp, if_false]
    cases rt with
    | ignore =>
      simp only [Outcome.pure_eq]
      congr 1
      simp only [Mat.mk.injEq, true_and]
      funext r c
      by_cases hci : c = i
      · subst hci
        rcases r with _ | _ | _ | r
        · simp [jointCol, hp, RotType.dim]
        · simp [jointCol, hp, RotType.dim]
        · simp [jointCol, hp, RotType.dim]
        · simp [jointCol, hp, hz, RotType.dim]
      · simp [hci]
    | rpy =>
      simp only [if_true]
      rw [Mat.setCol_spec _ _ _ _ (by simp [hr, RotType.dim]) (by exact hc)]
      congr 1
      simp only [Mat.mk.injEq, true_and]
      funext r c
      by_cases hci : c = i
      · subst hci
        rcases r with _ | _ | _ | _ | _ | _ | r <;> simp [jointCol, hp, hz, RotType.dim]
      · simp [hci]
    | xyzw =>
      simp only [if_true]
      rw [Mat.setCol_spec _ _ _ _ (by simp [hr, RotType.dim]) (by exact hc)]
      congr 1
      simp only [Mat.mk.injEq, true_and]
      funext r c
      by_cases hci : c = i
      · subst hci
        rcases r with _ | _ | _ | _ | _ | _ | _ | r <;> simp [jointCol, hp, hz, RotType.dim]
      · simp [hci]

/-- columns `< i` filled with `cols`, the rest zero -/
def partialJac (rt : RotType) (nc : Nat) (cols : List (Nat → K)) : Mat K :=
  ⟨rt.dim, nc, fun r c => if r < rt.dim ∧ c < cols.length then (cols.getD c (fun _ => 0)) r else 0⟩

theorem jacJoint_spec {m : KinModel K} {rt : RotType} {elink : Nat} {tfE : Pose K} {jid : Nat}
    {col : Nat → K} (h : IsJointCol m rt elink tfE jid col) (nc : Nat) (done : List (Nat → K))
    (hn : done.length < nc) :
    Query m (jacJoint elink rt tfE (if rt = .rpy then tfE.rotation.getRPY else Vec3.zero)
      (if rt = .xyzw then tfE.rotation.inverse else Rot.one) jid done.length (partialJac rt nc done))
      (partialJac rt nc (done ++ [col])) := by
  unfold jacJoint
  rcases h with ⟨hrel, hcol⟩ | ⟨jp, j, c, tfC, hrel, hj, hh, hch, ⟨lk, hlk, hid⟩, hP, hcol⟩
  · refine Query.bind (v := false) (Query.read ?_) ?_
    · rintro m1 ⟨⟨s, c, rfl⟩, _⟩; exact hrel
    · simp only [Bool.false_eq_true, if_false]
      have : partialJac rt nc done = partialJac rt nc (done ++ [col]) := by
        unfold partialJac
        simp only [Mat.mk.injEq, true_and]
        funext r c
        by_cases hc : c < done.length
        · have h2 : c < (done ++ [col]).length := by simp; omega
          by_cases hr : r < rt.dim
          · rw [if_pos ⟨hr, hc⟩, if_pos ⟨hr, h2⟩]
            rw [List.getD_append_left' _ _ _ hc]
          · rw [if_neg (by omega), if_neg (by omega)]
        · rw [if_neg (by omega)]
          by_cases h2 : r < rt.dim ∧ c < (done ++ [col]).length
          · rw [if_pos h2]
            have hc2 : c = done.length := by simp at h2; omega
            subst hc2
            simp [hcol]
          · rw [if_neg h2]
      rw [← this]
      exact Query.pure m _
  · refine Query.bind (v := true) (Query.read ?_) ?_
    · rintro m1 ⟨⟨s, c, rfl⟩, _⟩; exact hrel
    · simp only [if_true]
      refine Query.bind (v := j) (Query.read ?_) ?_
      · rintro m1 ⟨⟨s, c, rfl⟩, _⟩
        simp [Outcome.idx, hj, derefJoint, hh]
      refine Query.bind (v := c) (Query.read ?_) ?_
      · rintro m1 ⟨⟨s, c, rfl⟩, _⟩
        simp [hch, hlk, hid]
      refine Query.bind (Query.getLinkPose hP) (Query.lift ?_)
      rw [jacJointWrite_spec]
      · congr 1
        simp only [partialJac, Mat.mk.injEq, true_and]
        funext r c'
        by_cases hc : c' = done.length
        · subst hc
          simp [hcol]
        · by_cases hc1 : c' < done.length
          · rw [if_neg hc]
            by_cases hr : r < rt.dim
            · rw [if_pos ⟨hr, hc1⟩, if_pos ⟨hr, by simp; omega⟩]
              rw [List.getD_append_left' _ _ _ hc1]
            · rw [if_neg (by omega), if_neg (by omega)]
          · rw [if_neg hc, if_neg (by omega), if_neg (by simp; omega)]
      · rfl
      · exact hn
      · intro r; simp [partialJac]

theorem jacJointLoop_spec {m : KinModel K} {rt : RotType} {elink : Nat} {tfE : Pose K}
    {ids : List Nat} {cols : List (Nat → K)}
    (h : List.Forall₂ (IsJointCol m rt elink tfE) ids cols) (nc : Nat) (done : List (Nat → K))
    (hn : done.length + ids.length ≤ nc) :
    Query m (jacJointLoop elink rt tfE (if rt = .rpy then tfE.rotation.getRPY else Vec3.zero)
      (if rt = .xyzw then tfE.rotation.inverse else Rot.one) ids done.length (partialJac rt nc done))
      (partialJac rt nc (done ++ cols)) := by
  induction h generalizing done with
  | nil => simp only [jacJointLoop, List.append_nil]; exact Query.pure m _
  | @cons a b l₁ l₂ hd _ ih =>
    simp only [jacJointLoop]
    simp only [List.length_cons] at hn
    refine Query.bind (jacJoint_spec hd nc done (by omega)) ?_
    have := ih (done ++ [b]) (by simp; omega)
    simpa using this

theorem jacBaseRot_spec (rt : RotType) (n : Nat) (tfE tfB : Pose K) (k : Nat) (J : Mat K)
    (hr : J.rows = rt.dim) (hc : n + 3 + k < J.cols) (hz : ∀ r, J.f r (n + 3 + k) = 0) :
    jacBaseRot rt n tfE (if rt = .rpy then tfE.rotation.getRPY else Vec3.zero) tfB
      (Pose.transform tfB.inverse tfE) tfB.rotation.getRPY k J =
    .ok { J with f := fun r c =>
      if c = n + 3 + k then (if r < rt.dim then baseRotCol rt tfE tfB k r else 0) else J.f r c } := by
  unfold jacBaseRot
  have h3 := rt.dim_ge
  dsimp only
  rw [Mat.setCol_spec _ _ _ _ (by simp; omega) (by exact hc)]
  simp only [Outcome.bind_eq, Outcome.bind_ok]
  cases rt with
  | ignore =>
    simp only [Outcome.pure_eq]
    congr 1
    simp only [Mat.mk.injEq, true_and]
    funext r c
    by_cases hci : c = n + 3 + k
    · subst hci
      rcases r with _ | _ | _ | r <;> simp [baseRotCol, hz, RotType.dim]
    · simp [hci]
  | rpy =>
    simp only [if_true]
    rw [Mat.setCol_spec _ _ _ _ (by simp [hr, RotType.dim]) (by exact hc)]
    congr 1
    simp only [Mat.mk.injEq, true_and]
    funext r c
    by_cases hci : c = n + 3 + k
    · subst hci
      rcases r with _ | _ | _ | _ | _ | _ | r <;> simp [baseRotCol, hz, RotType.dim]
    · simp [hci]
  | xyzw =>
    dsimp only
    rw [Mat.setCol_spec _ _ _ _ (by simp [hr, RotType.dim]) (by exact hc)]
    congr 1
    simp only [Mat.mk.injEq, true_and]
    funext r c
    by_cases hci : c = n + 3 + k
    · subst hci
      rcases r with _ | _ | _ | _ | _ | _ | _ | r <;> simp [baseRotCol, hz, RotType.dim]
    · simp [hci]

theorem jacBase_spec (rt : RotType) (cols : List (Nat → K)) (tfE tfB : Pose K) :
    jacBase rt cols.length tfE (if rt = .rpy then tfE.rotation.getRPY else Vec3.zero) tfB
      (partialJac rt (cols.length + 6) cols) = .ok (jacMat rt cols tfE (some tfB)) := by
  unfold jacBase
  have h3 := rt.dim_ge
  dsimp only
  rw [Mat.set_ok _ _ _ _ (by simp [partialJac]; omega) (by simp [partialJac])]
  simp only [Outcome.bind_eq, Outcome.bind_ok]
  rw [Mat.set_ok _ _ _ _ (by simp [partialJac]; omega) (by simp [partialJac])]
  simp only [Outcome.bind_ok]
  rw [Mat.set_ok _ _ _ _ (by simp [partialJac]; omega) (by simp [partialJac])]
  simp only [Outcome.bind_ok, partialJac, Nat.add_zero]
  rw [jacBaseRot_spec rt _ _ _ _ _ rfl (by simp) (by
    intro r; simp only; rw [if_neg (by omega), if_neg (by omega), if_neg (by omega), if_neg (by omega)])]
  simp only [Outcome.bind_ok]
  rw [jacBaseRot_spec rt _ _ _ _ _ rfl (by simp) (by
    intro r; simp only
    rw [if_neg (by omega), if_neg (by omega), if_neg (by omega), if_neg (by omega), if_neg (by omega)])]
  simp only [Outcome.bind_ok]
  rw [jacBaseRot_spec rt _ _ _ _ _ rfl (by simp) (by
    intro r; simp only
    rw [if_neg (by omega), if_neg (by omega), if_neg (by omega), if_neg (by omega), if_neg (by omega),
      if_neg (by omega)])]
  congr 1
  simp only [jacMat, Option.isSome_some, if_true, Mat.mk.injEq, true_and]
  funext r c
  by_cases hc : c < cols.length
  · by_cases hr : r < rt.dim
    · rw [if_neg (by omega), if_neg (by omega), if_neg (by omega), if_neg (by omega), if_neg (by omega),
        if_neg (by omega), if_pos ⟨hr, hc⟩, if_pos hr, if_pos hc]
    · rw [if_neg (by omega), if_neg (by omega), if_neg (by omega), if_neg (by omega), if_neg (by omega),
        if_neg (by omega), if_neg (by omega), if_neg hr]
  · obtain ⟨d, rfl⟩ : ∃ d, c = cols.length + d := ⟨c - cols.length, by omega⟩
    have hd : cols.length + d - cols.length = d := by omega
    by_cases hr : r < rt.dim
    · simp only [hr, if_true, hc, if_false, and_false, hd]
      rcases d with _ | _ | _ | _ | _ | _ | d
      · rw [if_neg (by omega), if_neg (by omega), if_neg (by omega), if_neg (by omega),
          if_neg (by omega)]
        rcases r with _ | _ | _ | r <;> simp [baseCol]
      · rcases r with _ | _ | _ | r <;> simp [baseCol]
      · rcases r with _ | _ | _ | r <;> simp [baseCol]
      · simp [baseCol]
      · simp [baseCol]
      · simp [baseCol]
      · rw [if_neg (by omega), if_neg (by omega), if_neg (by omega), if_neg (by omega), if_neg (by omega),
          if_neg (by omega), if_neg (by omega)]
    · simp only [hr, if_false, false_and]
      by_cases h0 : d < 3
      · rw [if_neg (by omega), if_neg (by omega), if_neg (by omega), if_neg (by omega), if_neg (by omega),
          if_neg (by omega)]
      · rw [if_neg (show ¬(r = 2 ∧ _) by omega), if_neg (show ¬(r = 1 ∧ _) by omega),
          if_neg (show ¬(r = 0 ∧ _) by omega)]
        simp

/-- The value of `get_jacobian` on a ready model. -/
theorem Query.getJacobian {m : KinModel K} {rt : RotType} {elink : Nat} {tfE : Pose K}
    {ids : List Nat} {cols : List (Nat → K)} (hE : IsPose m elink tfE)
    (h : List.Forall₂ (IsJointCol m rt elink tfE) ids cols) {tfB : Pose K} (withBase : Bool)
    (hB : withBase = true → IsPose m m.rootLinkId tfB) :
    Query m (getJacobian elink ids rt withBase)
      (jacMat rt cols tfE (if withBase then some tfB else none)) := by
  unfold Tinyfk.getJacobian
  have hlen := h.length_eq
  refine Query.bind (Query.getLinkPose hE) ?_
  have h0 : (Mat.zero rt.dim (ids.length + if withBase = true then 6 else 0) : Mat K) =
      partialJac rt (ids.length + if withBase = true then 6 else 0) [] := by
    simp [Mat.zero, partialJac]
  rw [h0]
  refine Query.bind (jacJointLoop_spec h _ [] (by simp)) ?_
  cases withBase with
  | false =>
    simp only [Bool.false_eq_true, if_false, List.nil_append, Nat.add_zero]
    have : partialJac rt ids.length cols = jacMat rt cols tfE none := by
      simp only [partialJac, jacMat, hlen, Option.isSome_none, Bool.false_eq_true, if_false,
        Nat.add_zero, Mat.mk.injEq, true_and]
      funext r c
      by_cases hr : r < rt.dim <;> by_cases hc : c < cols.length <;> simp [hr, hc]
    rw [this]
    exact Query.pure m _
  | true =>
    simp only [if_true, List.nil_append]
    refine Query.bind (v := m.rootLinkId) (Query.read ?_) ?_
    · rintro m1 ⟨⟨s, c, rfl⟩, _⟩; rfl
    refine Query.bind (Query.getLinkPose (hB rfl)) (Query.lift ?_)
    rw [hlen]
    exact jacBase_spec rt cols tfE tfB

end Tinyfk
