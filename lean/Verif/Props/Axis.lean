import Verif.Proofs.Axis
import Verif.Props.EndToEnd

/-!
# C78: turning axes that are not unit vectors
-/

namespace Tinyfk

open Scalar Matrix

section

variable {ls : List (RawLink ℝ)} {js : List (RawJoint ℝ)} {m0 m m' : KinModel ℝ} {cs : List (Call ℝ)}

/-- half of the stretched angle -/
theorem stretched_half {k : Vec3 ℝ} (hk : k.len2 ≠ 0) (a : ℝ) :
    Real.cos (stretchedAngle (Real.sqrt k.len2) a / 2) = Real.cos (a / 2) / Real.sqrt (slowness k a) ∧
    Real.sin (stretchedAngle (Real.sqrt k.len2) a / 2) =
      Real.sqrt k.len2 * Real.sin (a / 2) / Real.sqrt (slowness k a) := by
  have hN := slowness_pos hk a
  have hr : Real.sqrt k.len2 ^ 2 = k.len2 := Real.sq_sqrt k.len2_nonneg
  have hn : ‖(⟨Real.cos (a / 2), Real.sqrt k.len2 * Real.sin (a / 2)⟩ : ℂ)‖ = Real.sqrt (slowness k a) := by
    rw [Complex.norm_def, Complex.normSq_mk]
    congr 1
    simp only [slowness]
    linear_combination Real.sin (a / 2) ^ 2 * hr
  have hz : (⟨Real.cos (a / 2), Real.sqrt k.len2 * Real.sin (a / 2)⟩ : ℂ) ≠ 0 := by
    intro h0
    rw [h0, norm_zero] at hn
    exact (Real.sqrt_pos.mpr hN).ne hn
  have e : stretchedAngle (Real.sqrt k.len2) a / 2 = Complex.arg ⟨Real.cos (a / 2), Real.sqrt k.len2 * Real.sin (a / 2)⟩ := by
    simp only [stretchedAngle]; ring
  rw [e, Complex.cos_arg hz, Complex.sin_arg, hn]
  exact ⟨rfl, rfl⟩

/-- the quaternion of a turn about any axis has the matrix of a turn about the unit axis by the stretched angle -/
theorem Rot.matrix_axis_any {k : Vec3 ℝ} (hk : k.len2 ≠ 0) (a : ℝ) :
    (Rot.axisQ k a).matrix = rodrigues (k.times (1 / Real.sqrt k.len2)) (stretchedAngle (Real.sqrt k.len2) a) := by
  have hN := slowness_pos hk a
  have hl : 0 < k.len2 := lt_of_le_of_ne k.len2_nonneg (Ne.symm hk)
  obtain ⟨hc, hs⟩ := stretched_half hk a
  have hsin : Real.sin (stretchedAngle (Real.sqrt k.len2) a) =
      Real.sqrt k.len2 * (2 * Real.sin (a / 2) * Real.cos (a / 2) / slowness k a) := by
    rw [Rot.sin_half, hc, hs]
    have hq := Real.mul_self_sqrt hN.le
    have hq0 := (Real.sqrt_pos.mpr hN).ne'
    have hN0 := hN.ne'
    field_simp
    rw [Real.sq_sqrt hN.le]
    ring
  have hcos : 1 - Real.cos (stretchedAngle (Real.sqrt k.len2) a) =
      k.len2 * (2 * Real.sin (a / 2) ^ 2 / slowness k a) := by
    have h1 := Real.sin_sq_add_cos_sq (stretchedAngle (Real.sqrt k.len2) a / 2)
    rw [Rot.cos_half]
    have h2 : 1 - (Real.cos (stretchedAngle (Real.sqrt k.len2) a / 2) ^ 2 -
        Real.sin (stretchedAngle (Real.sqrt k.len2) a / 2) ^ 2) =
        2 * Real.sin (stretchedAngle (Real.sqrt k.len2) a / 2) ^ 2 := by linarith
    rw [h2, hs, div_pow, mul_pow, Real.sq_sqrt k.len2_nonneg, Real.sq_sqrt hN.le]
    ring
  have hcross : crossMat (k.times (1 / Real.sqrt k.len2)) = (1 / Real.sqrt k.len2) • crossMat k := by
    ext i j; fin_cases i <;> fin_cases j <;> simp [crossMat, Vec3.times]
  have hr0 := (Real.sqrt_pos.mpr hl).ne'
  rw [rodrigues, hsin, hcos, hcross]
  have e1 : (Real.sqrt k.len2 * (2 * Real.sin (a / 2) * Real.cos (a / 2) / slowness k a)) • (1 / Real.sqrt k.len2) • crossMat k =
      (2 * Real.sin (a / 2) * Real.cos (a / 2) / slowness k a) • crossMat k := by
    rw [smul_smul]; congr 1; field_simp
  have e2 : (k.len2 * (2 * Real.sin (a / 2) ^ 2 / slowness k a)) •
      (((1 / Real.sqrt k.len2) • crossMat k) * ((1 / Real.sqrt k.len2) • crossMat k)) =
      (2 * Real.sin (a / 2) ^ 2 / slowness k a) • (crossMat k * crossMat k) := by
    rw [Matrix.smul_mul, Matrix.mul_smul, smul_smul, smul_smul]
    congr 1
    have := Real.mul_self_sqrt k.len2_nonneg
    field_simp
    rw [Real.sq_sqrt k.len2_nonneg]
    ring
  rw [e1, e2]
  have hrot := Rot.axisQ_rotate hk a
  clear e1 e2 hsin hcos
  generalize 2 * Real.sin (a / 2) * Real.cos (a / 2) / slowness k a = α at hrot ⊢
  generalize 2 * Real.sin (a / 2) ^ 2 / slowness k a = β at hrot ⊢
  ext i j
  fin_cases i <;> fin_cases j <;>
    simp [Rot.matrix, hrot, Vec3.toV, Vec3.add, Vec3.times, Vec3.cross, crossMat] <;> (left; ring)

theorem RawJoint.withUnitAxis_name (j : RawJoint ℝ) : j.withUnitAxis.name = j.name ∧
    j.withUnitAxis.parentLinkName = j.parentLinkName ∧ j.withUnitAxis.childLinkName = j.childLinkName := by
  unfold RawJoint.withUnitAxis
  split <;> exact ⟨rfl, rfl, rfl⟩

theorem RawEdge.hom_any {j : RawJoint ℝ} (hj : (j.type = .revolute ∨ j.type = .continuous) → j.axis.len2 ≠ 0)
    {θ φ : ℝ} (hφ : φ = if j.type = .revolute ∨ j.type = .continuous then
      stretchedAngle (Real.sqrt j.axis.len2) θ else θ) {T : Pose ℝ}
    (h : RawEdge j θ T) : HomEdge j.withUnitAxis φ T.hom := by
  by_cases ht : j.type = .revolute ∨ j.type = .continuous
  · have e : j.withUnitAxis = { j with axis := j.axis.times (1 / Real.sqrt j.axis.len2) } := by
      simp only [RawJoint.withUnitAxis, if_pos ht]
    rw [if_pos ht] at hφ
    subst hφ
    rw [e]
    cases h with
    | fixed h => rcases ht with ht | ht <;> rw [h] at ht <;> cases ht
    | slide h => rcases ht with ht | ht <;> rw [h] at ht <;> cases ht
    | rot _ =>
      rw [Pose.hom_transform]
      have : (Pose.hom ⟨Vec3.zero, ⟨j.axis.x * Scalar.sin (θ * half), j.axis.y * Scalar.sin (θ * half),
          j.axis.z * Scalar.sin (θ * half), Scalar.cos (θ * half)⟩⟩) =
          homog (rodrigues (j.axis.times (1 / Real.sqrt j.axis.len2)) (stretchedAngle (Real.sqrt j.axis.len2) θ)) 0 := by
        have := Rot.matrix_axis_any (hj ht) θ
        simp only [Rot.axisQ] at this
        simp only [Pose.hom, real_half, real_sin, real_cos]
        rw [show θ * (1 / 2) = θ / 2 by ring, this]
        congr 1
        ext i; fin_cases i <;> rfl
      rw [this]
      exact HomEdge.rot (j := { j with axis := j.axis.times (1 / Real.sqrt j.axis.len2) }) ht
  · have e : j.withUnitAxis = j := by simp only [RawJoint.withUnitAxis, if_neg ht]
    rw [if_neg ht] at hφ
    subst hφ
    rw [e]
    exact h.hom fun h => absurd h ht

theorem WorldPose.homPose_any (hu : AxesNonzero js) {welds : Weld ℝ → Prop} {θ φ : String → ℝ}
    (hφ : StretchedAngles js θ φ) {b T : Pose ℝ} {n : String} (h : WorldPose ls js welds θ b n T) :
    HomPose ls (js.map RawJoint.withUnitAxis) welds φ b.hom n T.hom := by
  induction h with
  | root h1 h2 =>
    refine .root h1 fun j hj => ?_
    obtain ⟨j', hj', rfl⟩ := List.mem_map.mp hj
    rw [j'.withUnitAxis_name.2.2]
    exact h2 j' hj'
  | @joint j _ _ hj _ he ih =>
    obtain ⟨n1, n2, n3⟩ := j.withUnitAxis_name
    rw [Pose.hom_transform, ← n3]
    rw [← n2] at ih
    refine .joint (List.mem_map.mpr ⟨j, hj, rfl⟩) ih ?_
    rw [n1]
    exact he.hom_any (hu _ hj).2 (hφ j hj)
  | weld h1 _ ih => rw [Pose.hom_transform]; exact .weld h1 ih

theorem HomPose.worldPose_any (hu : AxesNonzero js) {welds : Weld ℝ → Prop} {θ φ : String → ℝ}
    (hφ : StretchedAngles js θ φ) {b : Pose ℝ} {n : String} {H : Matrix (Fin 4) (Fin 4) ℝ}
    (h : HomPose ls (js.map RawJoint.withUnitAxis) welds φ b.hom n H) :
    ∃ T, WorldPose ls js welds θ b n T ∧ H = T.hom := by
  induction h with
  | root h1 h2 =>
    refine ⟨b, .root h1 fun j hj => ?_, rfl⟩
    have := h2 _ (List.mem_map.mpr ⟨j, hj, rfl⟩)
    rwa [j.withUnitAxis_name.2.2] at this
  | weld h1 _ ih =>
    obtain ⟨T, hT, rfl⟩ := ih
    exact ⟨_, .weld h1 hT, (Pose.hom_transform _ _).symm⟩
  | @joint j P E hj _ he ih =>
    obtain ⟨T, hT, rfl⟩ := ih
    obtain ⟨j, hj', rfl⟩ := List.mem_map.mp hj
    obtain ⟨n1, n2, n3⟩ := j.withUnitAxis_name
    rw [n2] at hT
    rw [n3]
    rw [n1] at he
    have htype : j.withUnitAxis.type = j.type := by unfold RawJoint.withUnitAxis; split <;> rfl
    obtain ⟨S, hS⟩ : ∃ S, RawEdge j (θ j.name) S := by
      cases he with
      | fixed h => exact ⟨_, .fixed (by rwa [htype] at h)⟩
      | rot h => exact ⟨_, .rot (by rwa [htype] at h)⟩
      | slide h => exact ⟨_, .slide (by rwa [htype] at h)⟩
    exact ⟨_, .joint hj' hT hS, by
      rw [Pose.hom_transform, he.unique (hS.hom_any (hu _ hj').2 (hφ j hj'))]⟩

/-- **C78 (motion).** A turning joint whose axis has length `r` turns its links, at joint angle `θ`, about
the direction of the axis by the angle `φ` with `tan (φ / 2) = r tan (θ / 2)`: `get_link_pose` is the
textbook forward kinematics of the robot with unit axes at the angles `φ`. -/
theorem C78_stretched_motion (h : Reach ls js m0 cs m) (hf : Shallow ls js m0 cs) (hu : AxesNonzero js)
    {θ φ : String → ℝ} (hθ : AnglesAfter m0 cs θ) (hφ : StretchedAngles js θ φ) {n : String} {l : Nat}
    (hn : getLinkIds [n] m = .ok [l] m) :
    ∃ T m', getLinkPose l m = .ok T m' ∧
      ∀ H, HomPose ls (js.map RawJoint.withUnitAxis) (AllWelds ls m0 cs) φ (baseAfter Pose.identity cs).hom n H ↔
        H = T.hom := by
  obtain ⟨T, m', e, hT⟩ := h.pose_ok hf hθ hn
  refine ⟨T, m', e, fun H => ⟨fun hH => ?_, ?_⟩⟩
  · obtain ⟨T', hT', rfl⟩ := hH.worldPose_any hu hφ
    rw [(hT T').mp hT']
  · rintro rfl
    exact WorldPose.homPose_any hu hφ ((hT T).mpr rfl)

/-- for the joints of a robot there are such angles -/
theorem stretchedAngles_exist (h : Reach ls js m0 cs m) (θ : String → ℝ) : ∃ φ, StretchedAngles js θ φ := by
  have hn := h.abs.desc.jointNodup
  refine ⟨fun s => match js.find? (fun j => j.name = s) with
    | some j => if j.type = .revolute ∨ j.type = .continuous then stretchedAngle (Real.sqrt j.axis.len2) (θ s) else θ s
    | none => 0, fun j hj => ?_⟩
  cases hf : js.find? (fun j' => j'.name = j.name) with
  | none =>
    have := List.find?_eq_none.mp hf j hj
    simp at this
  | some j' =>
    have h1 := List.find?_some hf
    have h2 := List.mem_of_find?_eq_some hf
    simp only [decide_eq_true_eq] at h1
    obtain rfl := List.inj_on_of_nodup_map hn h2 hj h1
    simp only [hf]

/-- with a unit axis the angle is the joint angle, up to full turns -/
theorem stretchedAngle_one (a : ℝ) : Real.cos (stretchedAngle 1 a) = Real.cos a ∧ Real.sin (stretchedAngle 1 a) = Real.sin a := by
  have hk : (⟨1, 0, 0⟩ : Vec3 ℝ).len2 = 1 := by simp [Vec3.len2]
  have h := stretched_half (k := ⟨1, 0, 0⟩) (by rw [hk]; norm_num) a
  have hs : slowness ⟨1, 0, 0⟩ a = 1 := by
    simp only [slowness, hk, one_mul]; linarith [Real.sin_sq_add_cos_sq (a / 2)]
  rw [hk, hs] at h
  simp only [Real.sqrt_one, one_mul, div_one] at h
  constructor
  · rw [Rot.cos_half, h.1, h.2, ← Rot.cos_half]
  · rw [Rot.sin_half, h.1, h.2, ← Rot.sin_half]

/-- how much slower the joint moves than its column says -/
noncomputable def RawJoint.slow (j : RawJoint ℝ) (θ : ℝ) : ℝ := if j.type = .prismatic then 1 else slowness j.axis θ

/-- **C78 (Jacobian).** For axes of any non-zero length, the first three rows of a column of the Jacobian,
divided by `cos² (θ / 2) + r² sin² (θ / 2)`, are the derivatives of the position of the link. -/
theorem C78_position_column (h : Reach ls js m0 cs m) (hf : Shallow ls js m0 cs) (hu : AxesNonzero js) (hc : UnitCalls cs)
    (hne : (∃ r ∈ ls, r.inertial.isSome) ∨ weldsAfter (names0 m0) cs ≠ []) {l : Nat} (hl : l < m.links.length)
    {ids : List Nat} (hids : ∀ i ∈ ids, i < m.joints.length) (rt : RotType) (wb : Bool) :
    ∃ J m', getJacobian l ids rt wb m = .ok J m' ∧ ∀ k i, ids[k]? = some i →
      ∃ j θ T, j ∈ js ∧ getJointIds [j.name] m = .ok [i] m ∧ getJointAngles [i] m = .ok [θ] m ∧ PoseCurve m l i T ∧
        HasDerivAt (fun v => (T v).position.x) (J.f 0 k / j.slow θ) θ ∧
        HasDerivAt (fun v => (T v).position.y) (J.f 1 k / j.slow θ) θ ∧
        HasDerivAt (fun v => (T v).position.z) (J.f 2 k / j.slow θ) θ := by
  obtain ⟨E, cols, hE, hcols, m', e, _⟩ := h.jacobian hf hne hl hids rt wb
  refine ⟨_, m', e, ?_⟩
  intro k i hk
  have hi := hids i (List.mem_of_getElem? hk)
  have hg := h.abs.inv.graph
  have hum := h.nonzeroModel hu hc
  have hil : i < m.angles.length := by rw [hg.anglesLen]; exact hi
  have hkl : k < cols.length := by rw [← hcols.length_eq]; exact (List.getElem?_eq_some_iff.mp hk).1
  have hkc : cols[k]? = some cols[k] := by simp [hkl]
  have hcol : IsJointCol m rt l E i cols[k] := by
    obtain ⟨hk1, hk2⟩ := List.getElem?_eq_some_iff.mp hk
    rw [← hk2]
    exact (List.forall₂_iff_get.mp hcols).2 k hk1 hkl
  have hθ : m.angles[i]? = some m.angles[i] := by simp [hil]
  have hjp : m.joints[i]? = some m.joints[i] := by simp [hi]
  obtain ⟨r, j, hr, hj, hraw⟩ := h.abs.desc.joints i _ hjp
  have hname : getJointIds [r.name] m = .ok [i] m := by
    rw [getJointIds_one, hg.jointNames]
    obtain ⟨_, _, rfl⟩ := hraw
    exact ⟨_, _, hjp, hj, rfl⟩
  have hslow : j.slow m.angles[i] = r.slow m.angles[i] := by
    obtain ⟨_, _, rfl⟩ := hraw
    rfl
  have hv : ∀ q, q < rt.dim → (jacMat rt cols E (if wb then some m.base else none)).f q k = cols[k] q := by
    intro q hq
    simp only [jacMat, hq, hkl, if_true, List.getD_eq_getElem?_getD, hkc, Option.getD_some]
  have h3 := rt.dim_ge
  rw [hv 0 (by omega), hv 1 (by omega), hv 2 (by omega)]
  have hrp := h.rpOK hne
  obtain ⟨b, hb, hiff⟩ := hrp.sized.isRelevant hl hi
  rw [hrp.iff] at hiff
  rcases hcol with ⟨h1, h2⟩ | ⟨jp, j', c, C, h1, h2, h3', h4, _, h6, h7⟩
  · rw [hb] at h1; cases h1
    have hoff : ¬ OnPath m m.joints[i] l := fun ho => by
      have := hiff.mpr ⟨_, hjp, ho⟩
      cases this
    refine ⟨r, m.angles[i], fun _ => E, hr, hname, getJointAngles_one hθ,
      h.poseCurve hf hi fun v => hg.pose_turned hjp v hE hoff, ?_⟩
    rw [h2]
    simp only [zero_div]
    exact ⟨hasDerivAt_const _ _, hasDerivAt_const _ _, hasDerivAt_const _ _⟩
  · rw [hb] at h1; cases h1
    obtain ⟨jp', e1, hon⟩ := hiff.mp rfl
    rw [h2] at e1; cases e1
    rw [hjp] at h2; cases h2
    rw [hj] at h3'; cases h3'
    obtain ⟨T, hT⟩ := hg.drifts_on hum hjp hon hE hθ hj h4 h6
    refine ⟨r, m.angles[i], T, hr, hname, getJointAngles_one hθ, h.poseCurve hf hi hT.pose, ?_⟩
    obtain ⟨d1, d2, d3⟩ := hT.pos
    rw [h7, ← hslow]
    refine ⟨d1.congr_deriv ?_, d2.congr_deriv ?_, d3.congr_deriv ?_⟩
    · simp only [Vec3.times]; rw [one_div, inv_mul_eq_div]; rfl
    · simp only [Vec3.times]; rw [one_div, inv_mul_eq_div]; rfl
    · simp only [Vec3.times]; rw [one_div, inv_mul_eq_div]; rfl

end

namespace LongAxis

open Example

/-- the revolute joint of the example with an axis of length 2 -/
noncomputable def turn2 : RawJoint ℝ := { turn with axis := ⟨0, 0, 2⟩ }

/-- the `<joint>` elements -/
noncomputable def js2 : List (RawJoint ℝ) := [turn2, slide, weld]

theorem isTree2 : IsTree js2 := by
  refine ⟨by simp [js2, turn2, turn, slide, weld], ?_⟩
  refine ⟨fun s => if s = "base" then 0 else if s = "arm" then 1 else if s = "hand" then 2 else 3, ?_⟩
  simp [js2, turn2, turn, slide, weld]

theorem supported2 : Supported js2 := by
  intro j hj
  simp only [js2, List.mem_cons, List.not_mem_nil, or_false] at hj
  rcases hj with rfl | rfl | rfl
  · right; left; rfl
  · right; right; right; rfl
  · left; rfl

theorem accepted2 : (buildModel ls js2).isSome := by
  rw [buildModel_isSome]
  refine ⟨by simp [ls], by simp [js2, turn2, turn, slide, weld], by simp [ls], ?_, "base", ?_, ?_⟩
  · simp [ls, js2, turn2, turn, slide, weld]
  · simp [ls, js2, turn2, turn, slide, weld]
  · simp [ls, js2, turn2, turn, slide, weld]

theorem constructs2 : ∃ m0, construct (buildModel ls js2) = .ok m0 :=
  construct_exists accepted2 isTree2 supported2 noClash

/-- the constructed robot -/
noncomputable def m2 : KinModel ℝ := constructs2.choose

theorem m2_spec : construct (buildModel ls js2) = .ok m2 := constructs2.choose_spec

theorem axes2 : AxesNonzero js2 := by
  intro j hj
  simp only [js2, List.mem_cons, List.not_mem_nil, or_false] at hj
  rcases hj with rfl | rfl | rfl <;> simp [turn2, turn, slide, weld, Vec3.len2, Rot.norm2, Rot.one]

theorem reach2 : Reach ls js2 m2 [] m2 := ⟨isTree2, supported2, m2_spec, .nil⟩

/-- the pose of the tip when the revolute joint is at `v` -/
theorem tip_world {welds : Weld ℝ → Prop} {θ : String → ℝ} {v : ℝ} (h1 : θ "turn" = v) (h2 : θ "slide" = 0) :
    ∃ T, WorldPose ls js2 welds θ Pose.identity "tip" T ∧ T.position.x = ((Rot.axisQ ⟨0, 0, 2⟩ v).rotate ⟨0, 3, 2⟩).x := by
  have p0 : WorldPose ls js2 welds θ Pose.identity "base" Pose.identity :=
    .root (l := ⟨"base", none⟩) (by simp [ls]) (by simp [js2, turn2, turn, slide, weld])
  have p1 := WorldPose.joint (j := turn2) (by simp [js2]) p0 (.rot (.inl rfl))
  have p2 := WorldPose.joint (j := slide) (by simp [js2]) p1 (.slide rfl)
  have p3 := WorldPose.joint (j := weld) (by simp [js2]) p2 (.fixed rfl)
  refine ⟨_, p3, ?_⟩
  rw [show turn2.name = "turn" from rfl, h1, show slide.name = "slide" from rfl, h2]
  have e : (⟨turn2.axis.x * Scalar.sin (v * half), turn2.axis.y * Scalar.sin (v * half),
      turn2.axis.z * Scalar.sin (v * half), Scalar.cos (v * half)⟩ : Rot ℝ) = Rot.axisQ ⟨0, 0, 2⟩ v := by
    simp only [turn2, Rot.axisQ, real_half, real_sin, real_cos]
    rw [show v * (1 / 2) = v / 2 by ring]
  rw [e]
  have hv : (⟨0, 3, 2⟩ : Vec3 ℝ) = Vec3.add ⟨0, 3, 0⟩ ⟨0, 0, 2⟩ := by simp [Vec3.add]
  rw [hv, Rot.rotate_add]
  simp [turn2, turn, slide, weld, Pose.transform, Vec3.add, Vec3.zero, Pose.identity]

theorem slow_pi : slowness ⟨0, 0, 2⟩ Real.pi = 4 := by
  simp [slowness, Vec3.len2]; norm_num

theorem tip_velocity : HasDerivAt (fun v => ((Rot.axisQ ⟨0, 0, 2⟩ v).rotate ⟨0, 3, 2⟩).x) (3 / 2) Real.pi := by
  have hk : (⟨0, 0, 2⟩ : Vec3 ℝ).len2 ≠ 0 := by simp [Vec3.len2]
  refine (axisQ_velocity hk Real.pi ⟨0, 3, 2⟩).1.congr_deriv ?_
  rw [Rot.axisQ_rotate hk, slow_pi]
  simp [Vec3.times, Vec3.cross, Vec3.add]
  norm_num

/-- **Witness for C78.** The example robot with the axis `0 0 2` of its revolute joint at angle `π`: the
column says the tip moves with velocity 6 along x; the tip moves with velocity 3/2. -/
theorem C78_witness : ∃ (l i : Nat) (m1 : KinModel ℝ) (J : Mat ℝ) (m' : KinModel ℝ) (T : ℝ → Pose ℝ),
    getLinkIds ["tip"] m2 = .ok [l] m2 ∧ getJointIds ["turn"] m2 = .ok [i] m2 ∧
    setJointAngles [i] [Real.pi] m2 = .ok () m1 ∧ getJacobian l [i] .ignore false m1 = .ok J m' ∧ J.f 0 0 = 6 ∧
    PoseCurve m1 l i T ∧ HasDerivAt (fun v => (T v).position.x) (3 / 2) Real.pi := by
  have hg := reach2.abs.inv.graph
  obtain ⟨l, lk, hl, hlk⟩ := reach2.abs.desc.all ⟨"tip", some tipInertial⟩ (by simp [ls])
  have hlid : getLinkIds ["tip"] m2 = .ok [l] m2 := getLinkIds_one.mpr ((hg.linkNames "tip" l).mpr ⟨lk, hl, hlk⟩)
  obtain ⟨i, jp, j, hi, hjp, hraw⟩ := reach2.abs.desc.movable turn2 (by simp [js2]) (by simp [turn2, turn, JointType.Movable])
  have hjn : j.name = "turn" := by obtain ⟨_, _, rfl⟩ := hraw; rfl
  have hjid : getJointIds ["turn"] m2 = .ok [i] m2 := getJointIds_one.mpr ((hg.jointNames "turn" i).mpr ⟨jp, j, hi, hjp, hjn⟩)
  have hil : i < m2.angles.length := by rw [hg.anglesLen]; exact (List.getElem?_eq_some_iff.mp hi).1
  have e1 := turned_set hil Real.pi
  have r1 : Reach ls js2 m2 ([] ++ [.setJointAngles [i] [Real.pi]]) (turned m2 i Real.pi) := reach2.snoc e1
  have hf1 : Shallow ls js2 m2 ([] ++ [.setJointAngles [i] [Real.pi]]) := C08_no_added_link r1 rfl
  have hc1 : UnitCalls ([] ++ [Call.setJointAngles [i] [Real.pi]]) := by
    intro c hc; simp only [List.nil_append, List.mem_singleton] at hc; subst hc; trivial
  obtain ⟨J, m', e2, hcol⟩ := C78_position_column r1 hf1 axes2 hc1 (.inl inertial) (l := l)
    (List.getElem?_eq_some_iff.mp hl).1 (ids := [i])
    (by intro i' hi'; simp only [List.mem_singleton] at hi'; subst hi'; exact (List.getElem?_eq_some_iff.mp hi).1) .ignore false
  obtain ⟨j', θ, T, hj', hid', hθ, hT, hx, _, _⟩ := hcol 0 i rfl
  have hpi : θ = Real.pi := by
    have h1 := getJointAngles_one (m := turned m2 i Real.pi) (i := i) (θ := Real.pi) (by simp [turned, hil])
    rw [h1] at hθ
    simpa using hθ.symm
  subst hpi
  have hnm : j'.name = "turn" := by
    rw [getJointIds_one] at hid' hjid
    obtain ⟨_, _, a1, a2, a3⟩ := (hg.jointNames _ _).mp hid'
    rw [hi] at a1; cases a1
    rw [hjp] at a2; cases a2
    rw [← a3, hjn]
  have hjt : j' = turn2 := by
    simp only [js2, List.mem_cons, List.not_mem_nil, or_false] at hj'
    rcases hj' with rfl | rfl | rfl
    · rfl
    · simp [slide] at hnm
    · simp [weld] at hnm
  subst hjt
  have hcurve : ∀ v, (T v).position.x = ((Rot.axisQ ⟨0, 0, 2⟩ v).rotate ⟨0, 3, 2⟩).x := by
    intro v
    obtain ⟨mv, mv', ev, ev'⟩ := hT v
    have rv : Reach ls js2 m2 (([] ++ [.setJointAngles [i] [Real.pi]]) ++ [.setJointAngles [i] [v]]) mv := r1.snoc ev
    have hfv : Shallow ls js2 m2 (([] ++ [.setJointAngles [i] [Real.pi]]) ++ [.setJointAngles [i] [v]]) :=
      C08_no_added_link rv rfl
    have hang : AnglesAfter m2 (([] ++ [.setJointAngles [i] [Real.pi]]) ++ [.setJointAngles [i] [v]])
        (fun s => if s = "turn" then v else 0) := by
      intro s i' hs
      by_cases h : s = "turn"
      · subst h
        rw [hjid] at hs
        simp only [Res.ok.injEq, List.cons.injEq, and_true] at hs
        subst hs
        simp [angleAfter, lastWrite]
      · have hne : i' ≠ i := by
          rintro rfl
          rw [getJointIds_one] at hs
          obtain ⟨_, _, a1, a2, a3⟩ := (hg.jointNames _ _).mp hs
          rw [hi] at a1; cases a1
          rw [hjp] at a2; cases a2
          exact h (by rw [← a3, hjn])
        simp [h, angleAfter, lastWrite, Ne.symm hne]
    have hlv : getLinkIds ["tip"] mv = .ok [l] mv := by
      rw [getLinkIds_one] at hlid ⊢
      have : mv = turned (turned m2 i Real.pi) i v := by
        have := turned_set (m := turned m2 i Real.pi) (i := i) (by simp [turned, hil]) v
        rw [this] at ev; cases ev; rfl
      rw [this]; exact hlid
    obtain ⟨T1, m3, e3, hw⟩ := rv.pose_ok hfv hang hlv
    rw [e3] at ev'
    cases ev'
    obtain ⟨T2, hT2, hpos⟩ := tip_world (welds := AllWelds ls m2 (([] ++ [.setJointAngles [i] [Real.pi]]) ++ [.setJointAngles [i] [v]]))
      (θ := fun s => if s = "turn" then v else 0) (v := v) (by simp) (by simp)
    rw [← (hw T2).mp hT2, hpos]
  have hder : HasDerivAt (fun v => (T v).position.x) (3 / 2) Real.pi := by
    rw [show (fun v => (T v).position.x) = _ from funext hcurve]
    exact tip_velocity
  have hs : turn2.slow Real.pi = 4 := by
    have : turn2.slow Real.pi = slowness ⟨0, 0, 2⟩ Real.pi := by simp [RawJoint.slow, turn2, turn]
    rw [this, slow_pi]
  refine ⟨l, i, _, J, m', T, hlid, hjid, e1, e2, ?_, hT, hder⟩
  have := hx.unique hder
  rw [hs] at this
  linarith

-- the hypotheses of C78 are met by this robot
example := C78_position_column reach2 (C08_no_added_link reach2 rfl) axes2 (by intro c hc; cases hc) (.inl inertial) (l := 0)
  (by have := (reach2.abs.desc.all ⟨"tip", some tipInertial⟩ (by simp [ls])); obtain ⟨l, _, h, _⟩ := this
      have := (List.getElem?_eq_some_iff.mp h).1; omega) (ids := []) (by simp) .ignore false
example (θ : String → ℝ) (hθ : AnglesAfter m2 [] θ) : ∃ φ l T m', StretchedAngles js2 θ φ ∧ getLinkPose l m2 = .ok T m' ∧
    ∀ H, HomPose ls (js2.map RawJoint.withUnitAxis) (AllWelds ls m2 []) φ (baseAfter Pose.identity []).hom "tip" H ↔
      H = T.hom := by
  obtain ⟨φ, hφ⟩ := stretchedAngles_exist reach2 θ
  obtain ⟨l, lk, hl, hlk⟩ := reach2.abs.desc.all ⟨"tip", some tipInertial⟩ (by simp [ls])
  obtain ⟨T, m', e, h⟩ := C78_stretched_motion reach2 (C08_no_added_link reach2 rfl) axes2 hθ hφ
    (getLinkIds_one.mpr ((reach2.abs.inv.graph.linkNames "tip" l).mpr ⟨lk, hl, hlk⟩))
  exact ⟨φ, l, T, m', hφ, e, h⟩

end LongAxis

end Tinyfk
