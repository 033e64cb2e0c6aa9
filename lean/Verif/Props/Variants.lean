import Verif.Props.BaseMotion
import Verif.Props.EndToEnd
import Verif.Spec.Variants

/-!
# C114, C115, C116: related descriptions

A part of a robot behaves as it does in the whole (C114); reversing joint axes or shifting the zero positions of joints
only changes the joint values (C115); the unit of length does not matter (C116).
-/

namespace Tinyfk

open Scalar

/-! ### C114 -/

section
variable {K : Type} [Scalar K] {ls ls' : List (RawLink K)} {js js' : List (RawJoint K)} {m0 m m0' m' : KinModel K} {cs cs' : List (Call K)}

/-- `get_link_pose`, for every arithmetic -/
theorem Reach.pose_any (h : Reach ls js m0 cs m) (hf : Shallow ls js m0 cs) {θ : String → K} (hθ : AnglesAfter m0 cs θ)
    {n : String} {l : Nat} (hn : getLinkIds [n] m = .ok [l] m) : ∃ T m', getLinkPose l m = .ok T m' ∧
      ∀ T', WorldPose ls js (AllWelds ls m0 cs) θ (baseAfter Pose.identity cs) n T' ↔ T' = T := by
  obtain ⟨T, hT, hcase⟩ := C01_link_pose h hθ hn
  rcases hcase with ⟨m2, e3⟩ | ⟨_, d, hd, hlt⟩
  · exact ⟨T, m2, e3, hT⟩
  · have := hf n d hd; omega

/-- the pose of a link of the part, carried to the whole -/
theorem PartOf.pose {r : String} (hp : PartOf ls' js' ls js r) {W W' : Weld K → Prop} (hw : ∀ w, W' w → W w) {θ : String → K} {base B : Pose K}
    (hB : WorldPose ls js W θ base r B) {n : String} {T : Pose K} (h : WorldPose ls' js' W' θ B n T) : WorldPose ls js W θ base n T := by
  induction h with
  | root h1 h2 => rw [hp.root _ h1 h2]; exact hB
  | joint hj _ he ih => exact .joint (hp.joints _ hj) ih he
  | weld h1 _ ih => exact .weld (hw _ h1) ih

theorem PartOf.welds {r : String} (hp : PartOf ls' js' ls js r)
    (hw : ∀ w ∈ weldsAfter (names0 m0') cs', w ∈ weldsAfter (names0 m0) cs) (w : Weld K) (h : AllWelds ls' m0' cs' w) : AllWelds ls m0 cs w := by
  rcases h with h | h
  · obtain ⟨hl, hi⟩ := h
    exact .inl (.mk (hp.links _ hl) hi)
  · exact .inr (hw _ h)

/-- **C114.** A part of a robot behaves as it does in the whole: take some links and joints of a robot, so that only the link `r`
loses the joint that carries it. With the same joint values, and the base of the part at the pose that `get_link_pose` returns for `r`
in the whole, `get_link_pose` returns the same for every link of the part, bit for bit. -/
theorem C114_part (h : Reach ls js m0 cs m) (hf : Shallow ls js m0 cs) (h' : Reach ls' js' m0' cs' m') (hf' : Shallow ls' js' m0' cs')
    {r : String} (hp : PartOf ls' js' ls js r) (hw : ∀ w ∈ weldsAfter (names0 m0') cs', w ∈ weldsAfter (names0 m0) cs)
    {θ : String → K} (hθ : AnglesAfter m0 cs θ) (hθ' : AnglesAfter m0' cs' θ) {lr : Nat} (hr : getLinkIds [r] m = .ok [lr] m)
    {B : Pose K} {m2 : KinModel K} (eB : getLinkPose lr m = .ok B m2) (hb : baseAfter Pose.identity cs' = B)
    {n : String} {l l' : Nat} (hn : getLinkIds [n] m = .ok [l] m) (hn' : getLinkIds [n] m' = .ok [l'] m') :
    ∃ T m3 m3', getLinkPose l m = .ok T m3 ∧ getLinkPose l' m' = .ok T m3' := by
  obtain ⟨T, m3, e, hT⟩ := h.pose_any hf hθ hn
  obtain ⟨T', m3', e', hT'⟩ := h'.pose_any hf' hθ' hn'
  obtain ⟨B', m4, e4, hB⟩ := h.pose_any hf hθ hr
  rw [eB] at e4
  cases e4
  have h1 := (hT' _).mpr rfl
  rw [hb] at h1
  obtain rfl := (hT _).mp (hp.pose (hp.welds hw) ((hB _).mpr rfl) h1)
  exact ⟨_, m3, m3', e, e'⟩

end

/-! ### C115 -/

section
variable {ls : List (RawLink ℝ)} {js : List (RawJoint ℝ)} {m0 m m0' m' : KinModel ℝ} {cs cs' : List (Call ℝ)}

@[simp] theorem RawJoint.flipAxis_name (flip : String → Bool) (j : RawJoint ℝ) : (j.flipAxis flip).name = j.name := by
  unfold RawJoint.flipAxis; split <;> rfl
@[simp] theorem RawJoint.flipAxis_child (flip : String → Bool) (j : RawJoint ℝ) : (j.flipAxis flip).childLinkName = j.childLinkName := by
  unfold RawJoint.flipAxis; split <;> rfl
@[simp] theorem RawJoint.flipAxis_parent (flip : String → Bool) (j : RawJoint ℝ) : (j.flipAxis flip).parentLinkName = j.parentLinkName := by
  unfold RawJoint.flipAxis; split <;> rfl

theorem RawEdge.flip (flip : String → Bool) {j : RawJoint ℝ} {θ : String → ℝ} {T : Pose ℝ} (h : RawEdge j (θ j.name) T) :
    RawEdge (j.flipAxis flip) (flipValue flip θ j.name) T := by
  by_cases hf : flip j.name = true
  swap
  · simpa [RawJoint.flipAxis, flipValue, hf] using h
  have e1 : j.flipAxis flip = { j with axis := ⟨-j.axis.x, -j.axis.y, -j.axis.z⟩ } := by simp [RawJoint.flipAxis, hf]
  have e2 : flipValue flip θ j.name = -θ j.name := by simp [flipValue, hf]
  rw [e1, e2]
  cases h with
  | fixed ht => exact .fixed (j := { j with axis := ⟨-j.axis.x, -j.axis.y, -j.axis.z⟩ }) ht
  | rot ht =>
    have := RawEdge.rot (j := { j with axis := ⟨-j.axis.x, -j.axis.y, -j.axis.z⟩ }) (θ := -θ j.name) ht
    convert this using 3
    simp [Real.sin_neg, Real.cos_neg, neg_mul]
  | slide ht =>
    have := RawEdge.slide (j := { j with axis := ⟨-j.axis.x, -j.axis.y, -j.axis.z⟩ }) (θ := -θ j.name) ht
    convert this using 3
    simp

theorem WorldPose.flip (flip : String → Bool) {W : Weld ℝ → Prop} {θ : String → ℝ} {base T : Pose ℝ} {n : String}
    (h : WorldPose ls js W θ base n T) : WorldPose ls (js.map (RawJoint.flipAxis flip)) W (flipValue flip θ) base n T := by
  induction h with
  | root h1 h2 =>
    refine .root h1 fun j hj => ?_
    obtain ⟨j0, hj0, rfl⟩ := List.mem_map.mp hj
    simpa using h2 j0 hj0
  | @joint j B T hj _ he ih =>
    have := WorldPose.joint (j := j.flipAxis flip) (T := T) (List.mem_map_of_mem (f := RawJoint.flipAxis flip) hj) (by simpa using ih)
      (by simpa using he.flip flip)
    simpa using this
  | weld h1 _ ih => exact .weld h1 ih

theorem Bodies.flip (flip : String → Bool) {W : Weld ℝ → Prop} {θ : String → ℝ} {base : Pose ℝ} {bs : List (Inertial ℝ × Pose ℝ)}
    (h : Bodies ls js W θ base bs) : Bodies ls (js.map (RawJoint.flipAxis flip)) W (flipValue flip θ) base bs := by
  obtain ⟨sorted, hp, hs, hF⟩ := h
  exact ⟨sorted, hp, hs, hF.imp fun r x h => ⟨h.1, h.2.flip flip⟩⟩

theorem setOne_sets (i : Nat) (v : ℝ) : ∀ c ∈ [Call.setJointAngles (K := ℝ) [i] [v]], c.IsSet := by
  intro c hc; simp only [List.mem_singleton] at hc; subst hc; trivial

/-- the values after one more write -/
theorem Reach.angles_update (h : Reach ls js m0 cs m) {θ : String → ℝ} (hθ : AnglesAfter m0 cs θ) {s : String} {i : Nat}
    (hs : getJointIds [s] m = .ok [i] m) (v : ℝ) : AnglesAfter m0 (cs ++ [.setJointAngles [i] [v]]) (Function.update θ s v) := by
  intro s' k hk
  rw [getJointIds_one] at hs hk
  rw [h.abs.jointIds] at hs
  rw [angleAfter_append]
  by_cases hss' : s' = s
  · subst hss'
    rw [hs] at hk
    cases hk
    simp [angleAfter, lastWrite]
  · rw [Function.update_of_ne hss', hθ s' k (getJointIds_one.mpr hk)]
    have hki : i ≠ k := by
      rintro rfl
      obtain ⟨jp, j, e1, e2, e3⟩ := (h.abs.inv.graph.jointNames s i).mp (by rw [h.abs.jointIds]; exact hs)
      obtain ⟨jp', j', e1', e2', e3'⟩ := (h.abs.inv.graph.jointNames s' i).mp (by rw [h.abs.jointIds]; exact hk)
      rw [e1] at e1'; cases e1'
      rw [e2] at e2'; cases e2'
      exact hss' (e3'.symm.trans e3)
    simp [angleAfter, lastWrite, hki]

/-- the curve of a link, in terms of the description -/
theorem Reach.curve_world (h : Reach ls js m0 cs m) (hf : Shallow ls js m0 cs) {θ : String → ℝ} (hθ : AnglesAfter m0 cs θ)
    {s n : String} {i l : Nat} (hs : getJointIds [s] m = .ok [i] m) (hn : getLinkIds [n] m = .ok [l] m) {T : ℝ → Pose ℝ}
    (hT : PoseCurve m l i T) (v : ℝ) (T' : Pose ℝ) :
    WorldPose ls js (AllWelds ls m0 cs) (Function.update θ s v) (baseAfter Pose.identity cs) n T' ↔ T' = T v := by
  obtain ⟨m1, m2, e1, e2⟩ := hT v
  have h1 : Reach ls js m0 (cs ++ [.setJointAngles [i] [v]]) m1 := h.snoc e1
  have hss := setOne_sets i v
  have hn1 : getLinkIds [n] m1 = .ok [l] m1 := by
    obtain ⟨_, _, _, rfl⟩ := h1.sets_eq h hss
    rw [getLinkIds_one] at hn ⊢; exact hn
  have hang := h.angles_update hθ hs v
  obtain ⟨T2, m4, e4, hT2⟩ := h1.pose_ok (hf.sets hss) hang hn1
  rw [e2] at e4
  cases e4
  rw [← hT2, allWelds_sets hss, baseAfter_append]
  rfl

theorem getJointAngles_world (h : Reach ls js m0 cs m) {θ : String → ℝ} (hθ : AnglesAfter m0 cs θ) {s : String} {i : Nat}
    (hs : getJointIds [s] m = .ok [i] m) {x : ℝ} (hx : getJointAngles [i] m = .ok [x] m) : x = θ s := by
  have hi := h.joint_lt hs
  have hget := h.angles_get i (by rw [← h.abs.joints]; exact hi)
  rw [getJointAngles_one hget] at hx
  rw [hθ s i (getJointIds_one.mpr (by rw [← h.abs.jointIds]; exact getJointIds_one.mp hs))]
  cases hx
  rfl

theorem getJointIds_get {names : List String} {ids : List Nat} (h : getJointIds names m = .ok ids m) {k : Nat} {s : String}
    (hk : names[k]? = some s) : ∃ i, ids[k]? = some i ∧ getJointIds [s] m = .ok [i] m := by
  have hF := (getJointIds_ok.mp h).2
  obtain ⟨hlt, hs⟩ := List.getElem?_eq_some_iff.mp hk
  have hlt' : k < ids.length := by rw [← hF.length_eq]; exact hlt
  refine ⟨ids[k], List.getElem?_eq_getElem hlt', getJointIds_one.mpr ?_⟩
  have := List.forall₂_iff_get.mp hF
  have := this.2 k hlt hlt'
  simpa [hs] using this

theorem getJointIds_lt (hr : Reach ls js m0 cs m) {names : List String} {ids : List Nat} (h : getJointIds names m = .ok ids m) :
    ∀ i ∈ ids, i < m.joints.length := by
  intro i hi
  have hF := (getJointIds_ok.mp h).2
  clear h
  induction hF with
  | nil => cases hi
  | cons a _ ih =>
    rcases List.mem_cons.mp hi with rfl | hi
    · exact hr.joint_lt (getJointIds_one.mpr a)
    · exact ih hi

/-- derivative of a curve with another parameter -/
theorem Vec3.HasDeriv.affine {f : ℝ → Vec3 ℝ} {f' : Vec3 ℝ} {a b t : ℝ} (h : Vec3.HasDeriv f f' (a * t + b)) :
    Vec3.HasDeriv (fun v => f (a * v + b)) (f'.scale a) t := by
  have ha : HasDerivAt (fun v : ℝ => a * v + b) a t := by simpa using ((hasDerivAt_id t).const_mul a).add_const b
  obtain ⟨h1, h2, h3⟩ := h
  refine ⟨?_, ?_, ?_⟩
  · have := h1.comp t ha; rwa [mul_comm] at this
  · have := h2.comp t ha; rwa [mul_comm] at this
  · have := h3.comp t ha; rwa [mul_comm] at this

theorem Vec3.HasDeriv.scale {f : ℝ → Vec3 ℝ} {f' : Vec3 ℝ} {t : ℝ} (h : Vec3.HasDeriv f f' t) (c : ℝ) :
    Vec3.HasDeriv (fun v => (f v).scale c) (f'.scale c) t :=
  ⟨h.1.const_mul c, h.2.1.const_mul c, h.2.2.const_mul c⟩

/-- a quaternion with all components multiplied -/
def Rot.times (a : ℝ) (q : Rot ℝ) : Rot ℝ := ⟨a * q.x, a * q.y, a * q.z, a * q.w⟩

theorem Rot.HasDeriv.affine {f : ℝ → Rot ℝ} {f' : Rot ℝ} {a b t : ℝ} (h : Rot.HasDeriv f f' (a * t + b)) :
    Rot.HasDeriv (fun v => f (a * v + b)) (f'.times a) t := by
  have ha : HasDerivAt (fun v : ℝ => a * v + b) a t := by simpa using ((hasDerivAt_id t).const_mul a).add_const b
  obtain ⟨h1, h2, h3, h4⟩ := h
  refine ⟨?_, ?_, ?_, ?_⟩
  · have := h1.comp t ha; rwa [mul_comm] at this
  · have := h2.comp t ha; rwa [mul_comm] at this
  · have := h3.comp t ha; rwa [mul_comm] at this
  · have := h4.comp t ha; rwa [mul_comm] at this

/-! Shifted zeros -/

theorem RawEdge.iff_motion {j : RawJoint ℝ} {v : ℝ} {T : Pose ℝ} (hs : j.type = .fixed ∨ j.type.Movable) :
    RawEdge j v T ↔ T = Pose.transform j.origin (j.motion v) := by
  constructor
  · intro h
    cases h with
    | fixed ht => simp [RawJoint.motion, ht]
    | rot ht => rcases ht with ht | ht <;> simp [RawJoint.motion, ht, div_eq_mul_inv]
    | slide ht => simp [RawJoint.motion, ht]
  · rintro rfl
    rcases hs with ht | ht | ht | ht
    · have := RawEdge.fixed (θ := v) ht
      simpa [RawJoint.motion, ht] using this
    · have := RawEdge.rot (θ := v) (.inl ht)
      simpa [RawJoint.motion, ht, div_eq_mul_inv] using this
    · have := RawEdge.rot (θ := v) (.inr ht)
      simpa [RawJoint.motion, ht, div_eq_mul_inv] using this
    · have := RawEdge.slide (θ := v) ht
      simpa [RawJoint.motion, ht, div_eq_mul_inv] using this

theorem turn_add {a : Vec3 ℝ} (h : a.IsUnit) (v w : ℝ) :
    Pose.transform ⟨Vec3.zero, ⟨a.x * Real.sin (v / 2), a.y * Real.sin (v / 2), a.z * Real.sin (v / 2), Real.cos (v / 2)⟩⟩
      ⟨Vec3.zero, ⟨a.x * Real.sin (w / 2), a.y * Real.sin (w / 2), a.z * Real.sin (w / 2), Real.cos (w / 2)⟩⟩ =
    ⟨Vec3.zero, ⟨a.x * Real.sin ((v + w) / 2), a.y * Real.sin ((v + w) / 2), a.z * Real.sin ((v + w) / 2), Real.cos ((v + w) / 2)⟩⟩ := by
  unfold Vec3.IsUnit at h
  have e : (v + w) / 2 = v / 2 + w / 2 := by ring
  simp only [Pose.transform, e, Real.sin_add, Real.cos_add, Rot.mul, Pose.mk.injEq, Rot.mk.injEq]
  refine ⟨by simp [Vec3.add, Vec3.zero], by ring, by ring, by ring, ?_⟩
  linear_combination (-(Real.sin (v / 2) * Real.sin (w / 2))) * h

theorem RawJoint.motion_add {j : RawJoint ℝ} (hu : (j.type = .revolute ∨ j.type = .continuous) → j.axis.IsUnit) (a b : ℝ) :
    Pose.transform (j.motion a) (j.motion b) = j.motion (a + b) := by
  cases ht : j.type <;> simp only [RawJoint.motion, ht]
  case revolute => exact turn_add (hu (.inl ht)) a b
  case continuous => exact turn_add (hu (.inr ht)) a b
  case prismatic => simp only [Pose.transform, Rot.rotate_one, Rot.one_mul, Vec3.add, mul_add, add_comm]
  all_goals simp

theorem RawEdge.shift (δ : String → ℝ) {j : RawJoint ℝ} (hs : j.type = .fixed ∨ j.type.Movable) (hu : (j.type = .revolute ∨ j.type = .continuous) → j.axis.IsUnit)
    {θ : String → ℝ} {T : Pose ℝ} (h : RawEdge j (θ j.name) T) : RawEdge (j.shiftZero δ) (θ j.name - δ j.name) T := by
  rw [RawEdge.iff_motion hs] at h
  rw [RawEdge.iff_motion (j := j.shiftZero δ) hs, h]
  show _ = Pose.transform (Pose.transform j.origin (j.motion (δ j.name))) (j.motion (θ j.name - δ j.name))
  rw [Pose.transform_assoc, RawJoint.motion_add hu, add_sub_cancel]

theorem WorldPose.shift (δ : String → ℝ) (hs : Supported js) (hu : UnitDesc js) {W : Weld ℝ → Prop} {θ : String → ℝ} {base T : Pose ℝ} {n : String}
    (h : WorldPose ls js W θ base n T) : WorldPose ls (js.map (RawJoint.shiftZero δ)) W (fun s => θ s - δ s) base n T := by
  induction h with
  | root h1 h2 =>
    refine .root h1 fun j hj => ?_
    obtain ⟨j0, hj0, rfl⟩ := List.mem_map.mp hj
    exact h2 j0 hj0
  | @joint j B T hj _ he ih =>
    exact WorldPose.joint (j := j.shiftZero δ) (List.mem_map_of_mem (f := RawJoint.shiftZero δ) hj) ih (he.shift δ (hs j hj) (hu j hj).2)
  | weld h1 _ ih => exact .weld h1 ih

theorem Bodies.shift (δ : String → ℝ) (hs : Supported js) (hu : UnitDesc js) {W : Weld ℝ → Prop} {θ : String → ℝ} {base : Pose ℝ}
    {bs : List (Inertial ℝ × Pose ℝ)}
    (h : Bodies ls js W θ base bs) : Bodies ls (js.map (RawJoint.shiftZero δ)) W (fun s => θ s - δ s) base bs := by
  obtain ⟨sorted, hp, hss, hF⟩ := h
  exact ⟨sorted, hp, hss, hF.imp fun r x h => ⟨h.1, h.2.shift δ hs hu⟩⟩

/-! Units of length -/

theorem Vec3.scale_rotate (q : Rot ℝ) (c : ℝ) (v : Vec3 ℝ) : q.rotate (v.scale c) = (q.rotate v).scale c := by
  have key : ∀ w : Vec3 ℝ, (w.scale c).toV = c • w.toV := by
    intro w; ext i; fin_cases i <;> simp [Vec3.toV, Vec3.scale]
  have h : (q.rotate (v.scale c)).toV = ((q.rotate v).scale c).toV := by
    rw [key, Rot.rotate_matrix, Rot.rotate_matrix, key, Matrix.mulVec_smul]
  exact Vec3.ext (congrFun h 0) (congrFun h 1) (congrFun h 2)

theorem Pose.transform_scale (c : ℝ) (A B : Pose ℝ) : Pose.transform (A.scale c) (B.scale c) = (Pose.transform A B).scale c := by
  simp only [Pose.transform, Pose.scale, Vec3.scale_rotate, Vec3.add]
  simp only [Vec3.scale, mul_add]

theorem RawEdge.scale (c : ℝ) {j : RawJoint ℝ} {θ θ' : ℝ} (hθ : θ' = if j.type = .prismatic then c * θ else θ) {T : Pose ℝ}
    (h : RawEdge j θ T) : RawEdge (j.scale c) θ' (T.scale c) := by
  cases h with
  | fixed ht => exact .fixed (j := j.scale c) ht
  | rot ht =>
    have : θ' = θ := by rw [hθ, if_neg]; rcases ht with ht | ht <;> rw [ht] <;> decide
    subst this
    rw [← Pose.transform_scale]
    have := RawEdge.rot (j := j.scale c) (θ := θ') ht
    convert this using 2
    · rfl
    · simp [Pose.scale, Vec3.scale, Vec3.zero, RawJoint.scale]
  | slide ht =>
    rw [if_pos ht] at hθ
    subst hθ
    rw [← Pose.transform_scale]
    have := RawEdge.slide (j := j.scale c) (θ := c * θ) ht
    convert this using 2
    · rfl
    · simp only [Pose.scale, Vec3.scale, RawJoint.scale, Pose.mk.injEq, Vec3.mk.injEq, and_true]
      refine ⟨?_, ?_, ?_⟩ <;> ring

theorem WorldPose.scale (c : ℝ) {W W' : Weld ℝ → Prop} (hW : ∀ w, W w → W' (w.scale c)) {θ θ' : String → ℝ}
    (hθ : ∀ j ∈ js, θ' j.name = if j.type = .prismatic then c * θ j.name else θ j.name) {base T : Pose ℝ} {n : String}
    (h : WorldPose ls js W θ base n T) :
    WorldPose (ls.map (RawLink.scale c)) (js.map (RawJoint.scale c)) W' θ' (base.scale c) n (T.scale c) := by
  induction h with
  | @root l h1 h2 =>
    refine WorldPose.root (l := l.scale c) (List.mem_map_of_mem h1) fun j hj => ?_
    obtain ⟨j0, hj0, rfl⟩ := List.mem_map.mp hj
    exact h2 j0 hj0
  | @joint j B T hj _ he ih =>
    rw [← Pose.transform_scale]
    exact WorldPose.joint (j := j.scale c) (List.mem_map_of_mem hj) ih (he.scale c (hθ j hj))
  | @weld w B h1 _ ih =>
    rw [← Pose.transform_scale]
    exact WorldPose.weld (w := w.scale c) (hW w h1) ih

theorem sorted_scale (c : ℝ) (sorted : List (RawLink ℝ)) : (sorted.map (RawLink.scale c)).filter (fun r => r.inertial.isSome) =
    (sorted.filter fun r => r.inertial.isSome).map (RawLink.scale c) := by
  rw [List.filter_map]
  congr 2
  funext r
  simp [RawLink.scale]

/-- a body in another unit of length -/
def scaleBody (c : ℝ) (x : Inertial ℝ × Pose ℝ) : Inertial ℝ × Pose ℝ := ({ x.1 with origin := x.1.origin.scale c }, x.2.scale c)

theorem Bodies.scale (c : ℝ) {W W' : Weld ℝ → Prop} (hW : ∀ w, W w → W' (w.scale c)) {θ θ' : String → ℝ}
    (hθ : ∀ j ∈ js, θ' j.name = if j.type = .prismatic then c * θ j.name else θ j.name) {base : Pose ℝ} {bs : List (Inertial ℝ × Pose ℝ)}
    (h : Bodies ls js W θ base bs) :
    Bodies (ls.map (RawLink.scale c)) (js.map (RawJoint.scale c)) W' θ' (base.scale c) (bs.map (scaleBody c)) := by
  obtain ⟨sorted, hp, hs, hF⟩ := h
  refine ⟨sorted.map (RawLink.scale c), hp.map _, ?_, ?_⟩
  · rw [List.map_map]; exact hs
  · rw [sorted_scale, List.forall₂_map_left_iff, List.forall₂_map_right_iff]
    refine hF.imp fun r x h => ⟨?_, h.2.scale c hW hθ⟩
    simp [RawLink.scale, scaleBody, h.1]

theorem bodyCentre_scale (c : ℝ) (x : Inertial ℝ × Pose ℝ) : bodyCentre (scaleBody c x) = (bodyCentre x).scale c := by
  have : (⟨(x.1.origin.scale c).position, Rot.one⟩ : Pose ℝ) = (⟨x.1.origin.position, Rot.one⟩ : Pose ℝ).scale c := rfl
  show (Pose.transform (x.2.scale c) ⟨(x.1.origin.scale c).position, Rot.one⟩).position = _
  rw [this, Pose.transform_scale]
  rfl

theorem comOf_scale (c : ℝ) (bs : List (Inertial ℝ × Pose ℝ)) : comOf (bs.map (scaleBody c)) = (comOf bs).scale c := by
  have key : ∀ (f g : Inertial ℝ × Pose ℝ → ℝ) (k : ℝ), (∀ x, g (scaleBody c x) = k * f x) → ∀ (l : List (Inertial ℝ × Pose ℝ)) (a : ℝ),
      (l.map (scaleBody c)).foldl (fun s x => s + g x) (k * a) = k * l.foldl (fun s x => s + f x) a := by
    intro f g k hk l
    induction l with
    | nil => intro a; rfl
    | cons x l ih => intro a; simp only [List.map_cons, List.foldl_cons, hk, ← mul_add, ih]
  have kM := key (fun x => x.1.mass) (fun x => x.1.mass) 1 (fun x => (one_mul _).symm) bs 0
  have kx := key (fun x => x.1.mass * (bodyCentre x).x) (fun x => x.1.mass * (bodyCentre x).x) c
    (fun x => by rw [bodyCentre_scale]; simp only [Vec3.scale, scaleBody]; ring) bs 0
  have ky := key (fun x => x.1.mass * (bodyCentre x).y) (fun x => x.1.mass * (bodyCentre x).y) c
    (fun x => by rw [bodyCentre_scale]; simp only [Vec3.scale, scaleBody]; ring) bs 0
  have kz := key (fun x => x.1.mass * (bodyCentre x).z) (fun x => x.1.mass * (bodyCentre x).z) c
    (fun x => by rw [bodyCentre_scale]; simp only [Vec3.scale, scaleBody]; ring) bs 0
  rw [mul_zero] at kM kx ky kz
  rw [one_mul] at kM
  show (⟨_ / _, _ / _, _ / _⟩ : Vec3 ℝ) = ⟨c * (_ / _), c * (_ / _), c * (_ / _)⟩
  erw [kM, kx, ky, kz]
  rw [mul_div_assoc, mul_div_assoc, mul_div_assoc]

/-! ### The theorems -/

/-- the links added to one robot were added to the other -/
def SameWelds (m0 m0' : KinModel ℝ) (cs cs' : List (Call ℝ)) : Prop := ∀ w, w ∈ weldsAfter (names0 m0) cs ↔ w ∈ weldsAfter (names0 m0') cs'

theorem SameWelds.all {m0 m0' : KinModel ℝ} {cs cs' : List (Call ℝ)} (h : SameWelds m0 m0' cs cs') :
    AllWelds ls m0 cs = AllWelds ls m0' cs' := by
  funext w
  exact propext (or_congr Iff.rfl (h w))

/-- equal poses and centre of mass from equal worlds -/
theorem same_answers {js' : List (RawJoint ℝ)} (h : Reach ls js m0 cs m) (hf : Shallow ls js m0 cs) (h' : Reach ls js' m0' cs' m')
    (hf' : Shallow ls js' m0' cs') {θ θ' : String → ℝ} (hθ : AnglesAfter m0 cs θ) (hθ' : AnglesAfter m0' cs' θ')
    (hw : SameWelds m0 m0' cs cs') (hb : baseAfter Pose.identity cs' = baseAfter Pose.identity cs)
    (hP : ∀ {W : Weld ℝ → Prop} {b T : Pose ℝ} {n : String}, WorldPose ls js W θ b n T → WorldPose ls js' W θ' b n T)
    (hB : ∀ {W : Weld ℝ → Prop} {b : Pose ℝ} {bs : List (Inertial ℝ × Pose ℝ)}, Bodies ls js W θ b bs → Bodies ls js' W θ' b bs) :
    (∀ n l l', getLinkIds [n] m = .ok [l] m → getLinkIds [n] m' = .ok [l'] m' →
      ∃ T a a', getLinkPose l m = .ok T a ∧ getLinkPose l' m' = .ok T a') ∧
    ∃ C a a', getCom m = .ok C a ∧ getCom m' = .ok C a' := by
  constructor
  · intro n l l' hn hn'
    obtain ⟨T, a, e, hT⟩ := h.pose_ok hf hθ hn
    obtain ⟨T', a', e', hT'⟩ := h'.pose_ok hf' hθ' hn'
    have := hP ((hT T).mpr rfl)
    rw [← hb, hw.all] at this
    obtain rfl := (hT' _).mp this
    exact ⟨_, a, a', e, e'⟩
  · obtain ⟨bs, hbs, a, e⟩ := C30_com h hf hθ
    obtain ⟨bs', hbs', a', e'⟩ := C30_com h' hf' hθ'
    have := hB ((hbs bs).mpr rfl)
    rw [← hb, hw.all] at this
    obtain rfl := (hbs' _).mp this
    exact ⟨_, a, a', e, e'⟩

/-- **C115, reversed axes.** Reverse the `<axis>` of some joints and negate their values: `get_link_pose` and `get_com`
return the same as before. -/
theorem C115_reversed (flip : String → Bool) (h : Reach ls js m0 cs m) (hf : Shallow ls js m0 cs)
    (h' : Reach ls (js.map (RawJoint.flipAxis flip)) m0' cs' m') (hf' : Shallow ls (js.map (RawJoint.flipAxis flip)) m0' cs')
    {θ : String → ℝ} (hθ : AnglesAfter m0 cs θ) (hθ' : AnglesAfter m0' cs' (flipValue flip θ)) (hw : SameWelds m0 m0' cs cs')
    (hb : baseAfter Pose.identity cs' = baseAfter Pose.identity cs) :
    (∀ n l l', getLinkIds [n] m = .ok [l] m → getLinkIds [n] m' = .ok [l'] m' →
      ∃ T a a', getLinkPose l m = .ok T a ∧ getLinkPose l' m' = .ok T a') ∧
    ∃ C a a', getCom m = .ok C a ∧ getCom m' = .ok C a' :=
  same_answers h hf h' hf' hθ hθ' hw hb (fun h => h.flip flip) (fun h => h.flip flip)

/-- **C115, shifted zeros.** Move the zero positions of the joints to where their values were `δ`, and subtract `δ` from the
values: `get_link_pose` and `get_com` return the same as before. -/
theorem C115_shifted (δ : String → ℝ) (h : Reach ls js m0 cs m) (hf : Shallow ls js m0 cs) (hu : UnitDesc js)
    (h' : Reach ls (js.map (RawJoint.shiftZero δ)) m0' cs' m') (hf' : Shallow ls (js.map (RawJoint.shiftZero δ)) m0' cs')
    {θ : String → ℝ} (hθ : AnglesAfter m0 cs θ) (hθ' : AnglesAfter m0' cs' (fun s => θ s - δ s)) (hw : SameWelds m0 m0' cs cs')
    (hb : baseAfter Pose.identity cs' = baseAfter Pose.identity cs) :
    (∀ n l l', getLinkIds [n] m = .ok [l] m → getLinkIds [n] m' = .ok [l'] m' →
      ∃ T a a', getLinkPose l m = .ok T a ∧ getLinkPose l' m' = .ok T a') ∧
    ∃ C a a', getCom m = .ok C a ∧ getCom m' = .ok C a' :=
  same_answers h hf h' hf' hθ hθ' hw hb (fun h1 => h1.shift δ h.supported hu) (fun h1 => h1.shift δ h.supported hu)

/-- the curve of the centre of mass, in terms of the description -/
theorem Reach.comCurve_world (h : Reach ls js m0 cs m) (hf : Shallow ls js m0 cs) {θ : String → ℝ} (hθ : AnglesAfter m0 cs θ)
    {s : String} {i : Nat} (hs : getJointIds [s] m = .ok [i] m) {c : ℝ → Vec3 ℝ} (hT : ComCurve m i c) (v : ℝ) :
    ∃ bs, c v = comOf bs ∧ ∀ bs', Bodies ls js (AllWelds ls m0 cs) (Function.update θ s v) (baseAfter Pose.identity cs) bs' ↔ bs' = bs := by
  obtain ⟨m1, m2, e1, e2⟩ := hT v
  have h1 : Reach ls js m0 (cs ++ [.setJointAngles [i] [v]]) m1 := h.snoc e1
  have hss := setOne_sets i v
  obtain ⟨bs, hbs, m4, e4⟩ := C30_com h1 (hf.sets hss) (h.angles_update hθ hs v)
  rw [e2] at e4
  injection e4 with e4 _
  refine ⟨bs, e4, fun bs' => ?_⟩
  rw [← hbs bs', allWelds_sets hss, baseAfter_append]
  rfl

theorem rows3 {J J' : Mat ℝ} {k : Nat} {a : ℝ} (h : (⟨J'.f 0 k, J'.f 1 k, J'.f 2 k⟩ : Vec3 ℝ) = (Vec3.mk (J.f 0 k) (J.f 1 k) (J.f 2 k)).scale a) :
    ∀ r < 3, J'.f r k = a * J.f r k := by
  injection h with h0 h1 h2
  intro r hr
  match r, hr with
  | 0, _ => exact h0
  | 1, _ => exact h1
  | 2, _ => exact h2

theorem rows7 {J J' : Mat ℝ} {k : Nat} {a : ℝ} (h : (⟨J'.f 3 k, J'.f 4 k, J'.f 5 k, J'.f 6 k⟩ : Rot ℝ) = Rot.times a ⟨J.f 3 k, J.f 4 k, J.f 5 k, J.f 6 k⟩) :
    ∀ r, 3 ≤ r → r < 7 → J'.f r k = a * J.f r k := by
  injection h with h0 h1 h2 h3
  intro r hr hr'
  match r, hr, hr' with
  | 3, _, _ => exact h0
  | 4, _, _ => exact h1
  | 5, _, _ => exact h2
  | 6, _, _ => exact h3

/-- Jacobian columns of two robots whose links describe related curves -/
theorem related_jacobian {ls' : List (RawLink ℝ)} {js' : List (RawJoint ℝ)} (h : Reach ls js m0 cs m) (hf : Shallow ls js m0 cs) (hu : UnitDesc js) (hc : UnitCalls cs)
    (hne : (∃ r ∈ ls, r.inertial.isSome) ∨ weldsAfter (names0 m0) cs ≠ [])
    (h' : Reach ls' js' m0' cs' m') (hf' : Shallow ls' js' m0' cs') (hu' : UnitDesc js') (hc' : UnitCalls cs')
    (hne' : (∃ r ∈ ls', r.inertial.isSome) ∨ weldsAfter (names0 m0') cs' ≠ [])
    {θ θ' : String → ℝ} (hθ : AnglesAfter m0 cs θ) (hθ' : AnglesAfter m0' cs' θ') {names : List String} {ids ids' : List Nat}
    (σ : String → String) (hids : getJointIds names m = .ok ids m) (hids' : getJointIds (names.map σ) m' = .ok ids' m')
    {n n' : String} {l l' : Nat} (hn : getLinkIds [n] m = .ok [l] m) (hn' : getLinkIds [n'] m' = .ok [l'] m') (rt : RotType) (wb : Bool)
    (c : ℝ) (a b : String → ℝ) (hab : ∀ s ∈ names, θ s = a s * θ' (σ s) + b s)
    (hP : ∀ s ∈ names, ∀ v T, WorldPose ls js (AllWelds ls m0 cs) (Function.update θ s (a s * v + b s)) (baseAfter Pose.identity cs) n T →
      WorldPose ls' js' (AllWelds ls' m0' cs') (Function.update θ' (σ s) v) (baseAfter Pose.identity cs') n' (T.scale c)) :
    ∃ J J' x x', getJacobian l ids rt wb m = .ok J x ∧ getJacobian l' ids' rt wb m' = .ok J' x' ∧ ∀ k s, names[k]? = some s →
      (⟨J'.f 0 k, J'.f 1 k, J'.f 2 k⟩ : Vec3 ℝ) = (Vec3.mk (J.f 0 k) (J.f 1 k) (J.f 2 k)).scale (c * a s) ∧
      (rt = .xyzw → (⟨J'.f 3 k, J'.f 4 k, J'.f 5 k, J'.f 6 k⟩ : Rot ℝ) = Rot.times (a s) ⟨J.f 3 k, J.f 4 k, J.f 5 k, J.f 6 k⟩) := by
  obtain ⟨J, x, e, hJ⟩ := h.jacobian_curves hf hu hc hne (h.link_lt hn) (getJointIds_lt h hids) rt wb
  obtain ⟨J', x', e', hJ'⟩ := h'.jacobian_curves hf' hu' hc' hne' (h'.link_lt hn') (getJointIds_lt h' hids') rt wb
  refine ⟨J, J', x, x', e, e', fun k s hk => ?_⟩
  obtain ⟨i, hi, hsi⟩ := getJointIds_get hids hk
  obtain ⟨i', hi', hsi'⟩ := getJointIds_get hids' (s := σ s) (by rw [List.getElem?_map, hk]; rfl)
  have hmem := List.mem_of_getElem? hk
  obtain ⟨t, T, a1, a2, a3, a4⟩ := hJ k i hi
  obtain ⟨t', T', b1, b2, b3, b4⟩ := hJ' k i' hi'
  obtain rfl := getJointAngles_world h hθ hsi a1
  obtain rfl := getJointAngles_world h' hθ' hsi' b1
  have key : ∀ v, T' v = (T (a s * v + b s)).scale c := fun v =>
    ((h'.curve_world hf' hθ' hsi' hn' b2 v _).mp (hP s hmem v _ ((h.curve_world hf hθ hsi hn a2 _ _).mpr rfl))).symm
  rw [hab s hmem] at a3 a4
  constructor
  · have := (a3.affine).scale c
    have e2 : (fun v => (T' v).position) = fun v => (T (a s * v + b s)).position.scale c := by
      funext v; rw [key]; rfl
    rw [e2] at b3
    rw [b3.unique this]
    simp [Vec3.scale, mul_assoc]
  · intro hrt
    have := (a4 hrt).affine
    have e2 : (fun v => (T' v).rotation) = fun v => (T (a s * v + b s)).rotation := by
      funext v; rw [key]; rfl
    have b5 := b4 hrt
    rw [e2] at b5
    exact b5.unique this

/-- columns of the Jacobian of the centre of mass of two robots whose bodies describe related curves -/
theorem related_com_jacobian {ls' : List (RawLink ℝ)} {js' : List (RawJoint ℝ)} (h : Reach ls js m0 cs m) (hf : Shallow ls js m0 cs) (hu : UnitDesc js) (hc : UnitCalls cs)
    (h' : Reach ls' js' m0' cs' m') (hf' : Shallow ls' js' m0' cs') (hu' : UnitDesc js') (hc' : UnitCalls cs')
    {θ θ' : String → ℝ} (hθ : AnglesAfter m0 cs θ) (hθ' : AnglesAfter m0' cs' θ') {names : List String} {ids ids' : List Nat}
    (σ : String → String) (hids : getJointIds names m = .ok ids m) (hids' : getJointIds (names.map σ) m' = .ok ids' m') (wb : Bool)
    (c : ℝ) (a b : String → ℝ) (hab : ∀ s ∈ names, θ s = a s * θ' (σ s) + b s)
    (hP : ∀ s ∈ names, ∀ v bs, Bodies ls js (AllWelds ls m0 cs) (Function.update θ s (a s * v + b s)) (baseAfter Pose.identity cs) bs →
      ∃ bs', Bodies ls' js' (AllWelds ls' m0' cs') (Function.update θ' (σ s) v) (baseAfter Pose.identity cs') bs' ∧ comOf bs' = (comOf bs).scale c) :
    ∃ J J' x x', getComJacobian ids wb m = .ok J x ∧ getComJacobian ids' wb m' = .ok J' x' ∧ ∀ k s, names[k]? = some s →
      (⟨J'.f 0 k, J'.f 1 k, J'.f 2 k⟩ : Vec3 ℝ) = (Vec3.mk (J.f 0 k) (J.f 1 k) (J.f 2 k)).scale (c * a s) := by
  obtain ⟨J, x, e, _, hJ⟩ := C31_com_jacobian h hf hu hc (getJointIds_lt h hids) wb
  obtain ⟨J', x', e', _, hJ'⟩ := C31_com_jacobian h' hf' hu' hc' (getJointIds_lt h' hids') wb
  refine ⟨J, J', x, x', e, e', fun k s hk => ?_⟩
  obtain ⟨i, hi, hsi⟩ := getJointIds_get hids hk
  obtain ⟨i', hi', hsi'⟩ := getJointIds_get hids' (s := σ s) (by rw [List.getElem?_map, hk]; rfl)
  have hmem := List.mem_of_getElem? hk
  obtain ⟨t, T, a1, a2, a3⟩ := hJ k i hi
  obtain ⟨t', T', b1, b2, b3⟩ := hJ' k i' hi'
  obtain rfl := getJointAngles_world h hθ hsi a1
  obtain rfl := getJointAngles_world h' hθ' hsi' b1
  have key : ∀ v, T' v = (T (a s * v + b s)).scale c := by
    intro v
    obtain ⟨bs, e1, hbs⟩ := h.comCurve_world hf hθ hsi a2 (a s * v + b s)
    obtain ⟨bs', e1', hbs'⟩ := h'.comCurve_world hf' hθ' hsi' b2 v
    obtain ⟨bs2, h2, e2⟩ := hP s hmem v bs ((hbs bs).mpr rfl)
    obtain rfl := (hbs' _).mp h2
    rw [e1, e1', e2]
  have a4 : Vec3.HasDeriv T ⟨J.f 0 k, J.f 1 k, J.f 2 k⟩ (θ s) := a3
  have b4 : Vec3.HasDeriv T' ⟨J'.f 0 k, J'.f 1 k, J'.f 2 k⟩ (θ' (σ s)) := b3
  rw [hab s hmem] at a4
  have := (a4.affine).scale c
  have e2 : T' = fun v => (T (a s * v + b s)).scale c := funext key
  rw [e2] at b4
  rw [b4.unique this]
  simp [Vec3.scale, mul_assoc]

theorem Vec3.scale_one (v : Vec3 ℝ) : v.scale 1 = v := by simp [Vec3.scale]
theorem Pose.scale_one (T : Pose ℝ) : T.scale 1 = T := by simp [Pose.scale, Vec3.scale_one]
theorem UnitDesc.flip (flip : String → Bool) (hu : UnitDesc js) : UnitDesc (js.map (RawJoint.flipAxis flip)) := by
  intro j hj
  obtain ⟨j0, hj0, rfl⟩ := List.mem_map.mp hj
  unfold RawJoint.flipAxis
  split
  · refine ⟨(hu j0 hj0).1, fun ht => ?_⟩
    have := (hu j0 hj0).2 ht
    simpa [Vec3.IsUnit] using this
  · exact hu j0 hj0

theorem UnitDesc.scale (c : ℝ) (hu : UnitDesc js) : UnitDesc (js.map (RawJoint.scale c)) := by
  intro j hj
  obtain ⟨j0, hj0, rfl⟩ := List.mem_map.mp hj
  exact hu j0 hj0

theorem UnitDesc.shift (δ : String → ℝ) (hu : UnitDesc js) : UnitDesc (js.map (RawJoint.shiftZero δ)) := by
  intro j hj
  obtain ⟨j0, hj0, rfl⟩ := List.mem_map.mp hj
  refine ⟨?_, (hu j0 hj0).2⟩
  refine unit_transform (hu j0 hj0).1 ?_
  unfold RawJoint.motion
  have key : (j0.type = .revolute ∨ j0.type = .continuous) → (⟨j0.axis.x * Real.sin (δ j0.name / 2), j0.axis.y * Real.sin (δ j0.name / 2),
      j0.axis.z * Real.sin (δ j0.name / 2), Real.cos (δ j0.name / 2)⟩ : Rot ℝ).norm2 = 1 := by
    intro ht
    have h1 := (hu j0 hj0).2 ht
    have h2 := Real.sin_sq_add_cos_sq (δ j0.name / 2)
    simp only [Vec3.IsUnit] at h1
    simp only [Rot.norm2]
    linear_combination (Real.sin (δ j0.name / 2)) ^ 2 * h1 + h2
  cases ht : j0.type <;> simp only <;> first | exact key (.inl ht) | exact key (.inr ht) | simp [Rot.norm2, Rot.one, Pose.identity]

theorem flipValue_update (flip : String → Bool) (θ : String → ℝ) (s : String) (v : ℝ) :
    flipValue flip (Function.update θ s ((if flip s then -1 else 1) * v + 0)) = Function.update (flipValue flip θ) s v := by
  funext t
  by_cases h : t = s
  · subst h
    by_cases hf : flip t = true <;> simp [flipValue, hf]
  · simp [flipValue, Function.update_of_ne h]

/-- **C115, reversed axes: Jacobian of a link.** The columns of the reversed joints change sign, the others stay. -/
theorem C115_reversed_jacobian (flip : String → Bool) (h : Reach ls js m0 cs m) (hf : Shallow ls js m0 cs) (hu : UnitDesc js) (hc : UnitCalls cs)
    (hne : (∃ r ∈ ls, r.inertial.isSome) ∨ weldsAfter (names0 m0) cs ≠ [])
    (h' : Reach ls (js.map (RawJoint.flipAxis flip)) m0' cs' m') (hf' : Shallow ls (js.map (RawJoint.flipAxis flip)) m0' cs') (hc' : UnitCalls cs')
    {θ : String → ℝ} (hθ : AnglesAfter m0 cs θ) (hθ' : AnglesAfter m0' cs' (flipValue flip θ)) (hw : SameWelds m0 m0' cs cs')
    (hb : baseAfter Pose.identity cs' = baseAfter Pose.identity cs) {names : List String} {ids ids' : List Nat}
    (hids : getJointIds names m = .ok ids m) (hids' : getJointIds names m' = .ok ids' m')
    {n : String} {l l' : Nat} (hn : getLinkIds [n] m = .ok [l] m) (hn' : getLinkIds [n] m' = .ok [l'] m') (rt : RotType) (wb : Bool) :
    ∃ J J' x x', getJacobian l ids rt wb m = .ok J x ∧ getJacobian l' ids' rt wb m' = .ok J' x' ∧ ∀ k s, names[k]? = some s →
      (∀ r < 3, J'.f r k = (if flip s then -1 else 1) * J.f r k) ∧
      (rt = .xyzw → ∀ r, 3 ≤ r → r < 7 → J'.f r k = (if flip s then -1 else 1) * J.f r k) := by
  have hne' : (∃ r ∈ ls, r.inertial.isSome) ∨ weldsAfter (names0 m0') cs' ≠ [] := by
    refine hne.imp_right fun hn => ?_
    obtain ⟨w, hw1⟩ := List.exists_mem_of_ne_nil _ hn
    exact List.ne_nil_of_mem ((hw w).mp hw1)
  obtain ⟨J, J', x, x', e, e', hJ⟩ := related_jacobian h hf hu hc hne h' hf' (hu.flip flip) hc' hne' hθ hθ' id hids (by rwa [List.map_id]) hn hn' rt wb 1
    (fun s => if flip s then -1 else 1) (fun _ => 0) (by intro s _; by_cases hf : flip s = true <;> simp [flipValue, hf])
    (by
      intro s _ v T hT
      have := hT.flip flip
      rw [Pose.scale_one, id, ← flipValue_update, hb, ← hw.all]
      exact this)
  refine ⟨J, J', x, x', e, e', fun k s hk => ?_⟩
  obtain ⟨h1, h2⟩ := hJ k s hk
  rw [one_mul] at h1
  exact ⟨rows3 h1, fun hrt => rows7 (h2 hrt)⟩

/-- **C115, reversed axes: Jacobian of the centre of mass.** The columns of the reversed joints change sign, the others stay. -/
theorem C115_reversed_com_jacobian (flip : String → Bool) (h : Reach ls js m0 cs m) (hf : Shallow ls js m0 cs) (hu : UnitDesc js) (hc : UnitCalls cs)
    (h' : Reach ls (js.map (RawJoint.flipAxis flip)) m0' cs' m') (hf' : Shallow ls (js.map (RawJoint.flipAxis flip)) m0' cs') (hc' : UnitCalls cs')
    {θ : String → ℝ} (hθ : AnglesAfter m0 cs θ) (hθ' : AnglesAfter m0' cs' (flipValue flip θ)) (hw : SameWelds m0 m0' cs cs')
    (hb : baseAfter Pose.identity cs' = baseAfter Pose.identity cs) {names : List String} {ids ids' : List Nat}
    (hids : getJointIds names m = .ok ids m) (hids' : getJointIds names m' = .ok ids' m') (wb : Bool) :
    ∃ J J' x x', getComJacobian ids wb m = .ok J x ∧ getComJacobian ids' wb m' = .ok J' x' ∧ ∀ k s, names[k]? = some s →
      ∀ r < 3, J'.f r k = (if flip s then -1 else 1) * J.f r k := by
  obtain ⟨J, J', x, x', e, e', hJ⟩ := related_com_jacobian h hf hu hc h' hf' (hu.flip flip) hc' hθ hθ' id hids (by rwa [List.map_id]) wb 1
    (fun s => if flip s then -1 else 1) (fun _ => 0) (by intro s _; by_cases hf : flip s = true <;> simp [flipValue, hf])
    (by
      intro s _ v bs hT
      have := hT.flip flip
      refine ⟨bs, ?_, (Vec3.scale_one _).symm⟩
      rw [id, ← flipValue_update, hb, ← hw.all]
      exact this)
  refine ⟨J, J', x, x', e, e', fun k s hk => ?_⟩
  have h1 := hJ k s hk
  rw [one_mul] at h1
  exact rows3 h1

theorem shift_update (δ θ : String → ℝ) (s : String) (v : ℝ) :
    (fun t => Function.update θ s (1 * v + δ s) t - δ t) = Function.update (fun t => θ t - δ t) s v := by
  funext t
  by_cases h : t = s
  · subst h; simp
  · simp [Function.update_of_ne h]

/-- **C115, shifted zeros: Jacobians.** `get_jacobian` and `get_com_jacobian` return the same joint columns as before. -/
theorem C115_shifted_jacobian (δ : String → ℝ) (h : Reach ls js m0 cs m) (hf : Shallow ls js m0 cs) (hu : UnitDesc js) (hc : UnitCalls cs)
    (hne : (∃ r ∈ ls, r.inertial.isSome) ∨ weldsAfter (names0 m0) cs ≠ [])
    (h' : Reach ls (js.map (RawJoint.shiftZero δ)) m0' cs' m') (hf' : Shallow ls (js.map (RawJoint.shiftZero δ)) m0' cs') (hc' : UnitCalls cs')
    {θ : String → ℝ} (hθ : AnglesAfter m0 cs θ) (hθ' : AnglesAfter m0' cs' (fun s => θ s - δ s)) (hw : SameWelds m0 m0' cs cs')
    (hb : baseAfter Pose.identity cs' = baseAfter Pose.identity cs) {names : List String} {ids ids' : List Nat}
    (hids : getJointIds names m = .ok ids m) (hids' : getJointIds names m' = .ok ids' m')
    {n : String} {l l' : Nat} (hn : getLinkIds [n] m = .ok [l] m) (hn' : getLinkIds [n] m' = .ok [l'] m') (rt : RotType) (wb : Bool) :
    (∃ J J' x x', getJacobian l ids rt wb m = .ok J x ∧ getJacobian l' ids' rt wb m' = .ok J' x' ∧ ∀ k < names.length,
      (∀ r < 3, J'.f r k = J.f r k) ∧ (rt = .xyzw → ∀ r, 3 ≤ r → r < 7 → J'.f r k = J.f r k)) ∧
    ∃ J J' x x', getComJacobian ids wb m = .ok J x ∧ getComJacobian ids' wb m' = .ok J' x' ∧ ∀ k < names.length,
      ∀ r < 3, J'.f r k = J.f r k := by
  have hne' : (∃ r ∈ ls, r.inertial.isSome) ∨ weldsAfter (names0 m0') cs' ≠ [] := by
    refine hne.imp_right fun hn => ?_
    obtain ⟨w, hw1⟩ := List.exists_mem_of_ne_nil _ hn
    exact List.ne_nil_of_mem ((hw w).mp hw1)
  constructor
  · obtain ⟨J, J', x, x', e, e', hJ⟩ := related_jacobian h hf hu hc hne h' hf' (hu.shift δ) hc' hne' hθ hθ' id hids (by rwa [List.map_id]) hn hn' rt wb 1
      (fun s => 1) δ (by intro s _; simp)
      (by
        intro s _ v T hT
        have := hT.shift δ h.supported hu
        rw [Pose.scale_one, id, ← shift_update, hb, ← hw.all]
        exact this)
    refine ⟨J, J', x, x', e, e', fun k hk => ?_⟩
    obtain ⟨h1, h2⟩ := hJ k _ (List.getElem?_eq_getElem hk)
    rw [one_mul] at h1
    exact ⟨fun r hr => by rw [rows3 h1 r hr, one_mul], fun hrt r hr hr' => by rw [rows7 (h2 hrt) r hr hr', one_mul]⟩
  · obtain ⟨J, J', x, x', e, e', hJ⟩ := related_com_jacobian h hf hu hc h' hf' (hu.shift δ) hc' hθ hθ' id hids (by rwa [List.map_id]) wb 1
      (fun s => 1) δ (by intro s _; simp)
      (by
        intro s _ v bs hT
        have := hT.shift δ h.supported hu
        refine ⟨bs, ?_, (Vec3.scale_one _).symm⟩
        rw [id, ← shift_update, hb, ← hw.all]
        exact this)
    refine ⟨J, J', x, x', e, e', fun k hk => ?_⟩
    have h1 := hJ k _ (List.getElem?_eq_getElem hk)
    rw [one_mul] at h1
    exact fun r hr => by rw [rows3 h1 r hr, one_mul]

/-! ### C116 -/

/-- the values in another unit of length: those of prismatic joints are lengths -/
def ScaledValues (c : ℝ) (js : List (RawJoint ℝ)) (θ θ' : String → ℝ) : Prop :=
  ∀ j ∈ js, θ' j.name = if j.type = .prismatic then c * θ j.name else θ j.name

theorem scaled_welds (c : ℝ) (hw : ∀ w ∈ weldsAfter (names0 m0) cs, w.scale c ∈ weldsAfter (names0 m0') cs') (w : Weld ℝ)
    (h : AllWelds ls m0 cs w) : AllWelds (ls.map (RawLink.scale c)) m0' cs' (w.scale c) := by
  rcases h with @⟨l, i, hl, hi⟩ | h
  · left
    have := ComWeld.mk (l := l.scale c) (i := { i with origin := i.origin.scale c }) (List.mem_map_of_mem (f := RawLink.scale c) hl)
      (by simp [RawLink.scale, hi])
    exact this
  · exact .inr (hw w h)

/-- **C116, poses and centre of mass.** Describe a robot in another unit of length: multiply every `<origin xyz>`, the values of the
prismatic joints, the position of the base and the offsets of added links by `c`. Then the positions that `get_link_pose` and
`get_com` return are multiplied by `c`, and the rotations stay. -/
theorem C116_scaled (c : ℝ) (h : Reach ls js m0 cs m) (hf : Shallow ls js m0 cs)
    (h' : Reach (ls.map (RawLink.scale c)) (js.map (RawJoint.scale c)) m0' cs' m')
    (hf' : Shallow (ls.map (RawLink.scale c)) (js.map (RawJoint.scale c)) m0' cs')
    {θ θ' : String → ℝ} (hθ : AnglesAfter m0 cs θ) (hθ' : AnglesAfter m0' cs' θ') (hs : ScaledValues c js θ θ')
    (hw : ∀ w ∈ weldsAfter (names0 m0) cs, w.scale c ∈ weldsAfter (names0 m0') cs')
    (hb : baseAfter Pose.identity cs' = (baseAfter Pose.identity cs).scale c) :
    (∀ n l l', getLinkIds [n] m = .ok [l] m → getLinkIds [n] m' = .ok [l'] m' →
      ∃ T a a', getLinkPose l m = .ok T a ∧ getLinkPose l' m' = .ok (T.scale c) a') ∧
    ∃ C a a', getCom m = .ok C a ∧ getCom m' = .ok (C.scale c) a' := by
  constructor
  · intro n l l' hn hn'
    obtain ⟨T, a, e, hT⟩ := h.pose_ok hf hθ hn
    obtain ⟨T', a', e', hT'⟩ := h'.pose_ok hf' hθ' hn'
    have := ((hT T).mpr rfl).scale c (scaled_welds c hw) hs
    rw [← hb] at this
    obtain rfl := (hT' _).mp this
    exact ⟨_, a, a', e, e'⟩
  · obtain ⟨bs, hbs, a, e⟩ := C30_com h hf hθ
    obtain ⟨bs', hbs', a', e'⟩ := C30_com h' hf' hθ'
    have := ((hbs bs).mpr rfl).scale c (scaled_welds c hw) hs
    rw [← hb] at this
    obtain rfl := (hbs' _).mp this
    rw [comOf_scale] at e'
    exact ⟨_, a, a', e, e'⟩

open Classical in
/-- how the parameter of a joint changes with the unit of length -/
noncomputable def unitRatio (c : ℝ) (js : List (RawJoint ℝ)) (s : String) : ℝ :=
  if ∃ j ∈ js, j.name = s ∧ j.type = .prismatic then c⁻¹ else 1

theorem unitRatio_eq (c : ℝ) (hnd : (js.map RawJoint.name).Nodup) {j : RawJoint ℝ} (hj : j ∈ js) :
    unitRatio c js j.name = if j.type = .prismatic then c⁻¹ else 1 := by
  unfold unitRatio
  by_cases ht : j.type = .prismatic
  · rw [if_pos ⟨j, hj, rfl, ht⟩, if_pos ht]
  · rw [if_neg ht, if_neg]
    rintro ⟨j', hj', hn, ht'⟩
    rw [List.inj_on_of_nodup_map hnd hj' hj hn] at ht'
    exact ht ht'

theorem ScaledValues.update {c : ℝ} (hc : c ≠ 0) (hnd : (js.map RawJoint.name).Nodup) {θ θ' : String → ℝ} (h : ScaledValues c js θ θ') (s : String) (v : ℝ) :
    ScaledValues c js (Function.update θ s (unitRatio c js s * v + 0)) (Function.update θ' s v) := by
  intro j hj
  by_cases hs : j.name = s
  · subst hs
    rw [unitRatio_eq c hnd hj]
    by_cases ht : j.type = .prismatic
    · simp only [Function.update_self, if_pos ht]; field_simp; ring
    · simp [ht]
  · rw [Function.update_of_ne hs, Function.update_of_ne hs]
    exact h j hj

theorem Reach.joint_named (h : Reach ls js m0 cs m) {names : List String} {ids : List Nat} (hids : getJointIds names m = .ok ids m) {s : String}
    (hs : s ∈ names) : ∃ j ∈ js, j.name = s := by
  obtain ⟨k, hk⟩ := List.mem_iff_getElem?.mp hs
  obtain ⟨i, _, hi⟩ := getJointIds_get hids hk
  obtain ⟨jp, j, e1, e2, e3⟩ := (h.abs.inv.graph.jointNames s i).mp (getJointIds_one.mp hi)
  obtain ⟨r, j', hr, e2', i', c', rfl⟩ := h.abs.desc.joints i jp e1
  rw [e2] at e2'
  cases e2'
  exact ⟨r, hr, e3⟩

theorem ScaledValues.ratio {c : ℝ} (hc : c ≠ 0) (hnd : (js.map RawJoint.name).Nodup) {θ θ' : String → ℝ} (h : ScaledValues c js θ θ') {s : String}
    (hs : ∃ j ∈ js, j.name = s) : θ s = unitRatio c js s * θ' s + 0 := by
  obtain ⟨j, hj, rfl⟩ := hs
  rw [unitRatio_eq c hnd hj, h j hj]
  by_cases ht : j.type = .prismatic
  · simp only [if_pos ht]; field_simp; ring
  · simp [ht]

/-- **C116, Jacobians.** In the other unit of length the position rows of the columns of turning joints are multiplied by `c` and
those of prismatic joints stay; quaternion rows stay, or are divided by `c`; likewise for the Jacobian of the centre of mass. -/
theorem C116_scaled_jacobian {c : ℝ} (hc0 : c ≠ 0) (h : Reach ls js m0 cs m) (hf : Shallow ls js m0 cs) (hu : UnitDesc js) (hc : UnitCalls cs)
    (hne : (∃ r ∈ ls, r.inertial.isSome) ∨ weldsAfter (names0 m0) cs ≠ [])
    (h' : Reach (ls.map (RawLink.scale c)) (js.map (RawJoint.scale c)) m0' cs' m')
    (hf' : Shallow (ls.map (RawLink.scale c)) (js.map (RawJoint.scale c)) m0' cs') (hc' : UnitCalls cs')
    {θ θ' : String → ℝ} (hθ : AnglesAfter m0 cs θ) (hθ' : AnglesAfter m0' cs' θ') (hs : ScaledValues c js θ θ')
    (hw : ∀ w ∈ weldsAfter (names0 m0) cs, w.scale c ∈ weldsAfter (names0 m0') cs')
    (hb : baseAfter Pose.identity cs' = (baseAfter Pose.identity cs).scale c) {names : List String} {ids ids' : List Nat}
    (hids : getJointIds names m = .ok ids m) (hids' : getJointIds names m' = .ok ids' m')
    {n : String} {l l' : Nat} (hn : getLinkIds [n] m = .ok [l] m) (hn' : getLinkIds [n] m' = .ok [l'] m') (rt : RotType) (wb : Bool) :
    (∃ J J' x x', getJacobian l ids rt wb m = .ok J x ∧ getJacobian l' ids' rt wb m' = .ok J' x' ∧
      ∀ k, ∀ j ∈ js, names[k]? = some j.name →
        (∀ r < 3, J'.f r k = (if j.type = .prismatic then 1 else c) * J.f r k) ∧
        (rt = .xyzw → ∀ r, 3 ≤ r → r < 7 → J'.f r k = (if j.type = .prismatic then c⁻¹ else 1) * J.f r k)) ∧
    ∃ J J' x x', getComJacobian ids wb m = .ok J x ∧ getComJacobian ids' wb m' = .ok J' x' ∧
      ∀ k, ∀ j ∈ js, names[k]? = some j.name → ∀ r < 3, J'.f r k = (if j.type = .prismatic then 1 else c) * J.f r k := by
  have hnd := h.abs.desc.jointNodup
  have hne' : (∃ r ∈ ls.map (RawLink.scale c), r.inertial.isSome) ∨ weldsAfter (names0 m0') cs' ≠ [] := by
    rcases hne with ⟨r, hr, hi⟩ | hn
    · exact .inl ⟨r.scale c, List.mem_map_of_mem hr, by simpa [RawLink.scale] using hi⟩
    · obtain ⟨w, hw1⟩ := List.exists_mem_of_ne_nil _ hn
      exact .inr (List.ne_nil_of_mem (hw w hw1))
  have hr : ∀ j ∈ js, c * unitRatio c js j.name = if j.type = .prismatic then 1 else c := by
    intro j hj
    rw [unitRatio_eq c hnd hj]
    by_cases ht : j.type = .prismatic
    · simp only [if_pos ht]; field_simp
    · simp [ht]
  constructor
  · obtain ⟨J, J', x, x', e, e', hJ⟩ := related_jacobian h hf hu hc hne h' hf' (hu.scale c) hc' hne' hθ hθ' id hids (by rwa [List.map_id]) hn hn' rt wb c
      (unitRatio c js) (fun _ => 0) (fun s hm => hs.ratio hc0 hnd (h.joint_named hids hm))
      (fun s _ v T hT => by
        have := hT.scale c (scaled_welds c hw) (hs.update hc0 hnd s v)
        rwa [← hb] at this)
    refine ⟨J, J', x, x', e, e', fun k j hj hk => ?_⟩
    obtain ⟨h1, h2⟩ := hJ k _ hk
    rw [hr j hj] at h1
    rw [unitRatio_eq c hnd hj] at h2
    exact ⟨rows3 h1, fun hrt => rows7 (h2 hrt)⟩
  · obtain ⟨J, J', x, x', e, e', hJ⟩ := related_com_jacobian h hf hu hc h' hf' (hu.scale c) hc' hθ hθ' id hids (by rwa [List.map_id]) wb c
      (unitRatio c js) (fun _ => 0) (fun s hm => hs.ratio hc0 hnd (h.joint_named hids hm))
      (fun s _ v T hT => by
        have := hT.scale c (scaled_welds c hw) (hs.update hc0 hnd s v)
        rw [← hb] at this
        exact ⟨_, this, comOf_scale c T⟩)
    refine ⟨J, J', x, x', e, e', fun k j hj hk => ?_⟩
    have h1 := hJ k _ hk
    rw [hr j hj] at h1
    exact rows3 h1

end

/-! ### The hypotheses are met by the example robot -/

namespace Example

/-- set both joints of the example robot and its base -/
noncomputable def pose2 (a b : ℝ) (p : Vec3 ℝ) : List (Call ℝ) := [.setJointAngles [0, 1] [a, b], .setBasePose ⟨p, Rot.fromRPY 1 2 3⟩]

theorem jointIds_two {ls' : List (RawLink ℝ)} {js' : List (RawJoint ℝ)} {m : KinModel ℝ} (hc : Constructed ls' js' m) {a b : String} (hab : a < b)
    (e : ((js'.filter fun j => decide j.type.Movable).map RawJoint.name) = [b, a]) (s : String) (i : Nat) :
    m.jointIds.find s = some i ↔ (s = a ∧ i = 0) ∨ (s = b ∧ i = 1) := by
  obtain ⟨names, hs, hp, h⟩ := hc.jointOrder
  have h1 : names = [a, b] := by
    rw [e] at hp
    refine List.Perm.eq_of_pairwise (le := fun a b => a < b) ?_ hs ?_ (hp.trans (List.Perm.swap _ _ _))
    · intro a b _ _ h1 h2
      exact absurd (String.lt_trans h1 h2) (String.lt_irrefl _)
    · simpa using hab
  rw [hc.inv.graph.jointNames s i, ← h, h1]
  match i with
  | 0 => simp [eq_comm]
  | 1 => simp [eq_comm]
  | i + 2 => simp

theorem jointIds_any {ls' : List (RawLink ℝ)} {js' : List (RawJoint ℝ)} {m : KinModel ℝ} (hc : Constructed ls' js' m)
    (e : ((js'.filter fun j => decide j.type.Movable).map RawJoint.name) = ["turn", "slide"]) (s : String) (i : Nat) :
    m.jointIds.find s = some i ↔ (s = "slide" ∧ i = 0) ∨ (s = "turn" ∧ i = 1) := jointIds_two hc (by decide) e s i

/-- the values that `pose2` leaves -/
noncomputable def value2 (a b : ℝ) : String → ℝ := fun s => if s = "slide" then a else if s = "turn" then b else 0

/-- links with the names of those of the example robot -/
def ls2 (i1 i2 : Option (Inertial ℝ)) : List (RawLink ℝ) := [⟨"base", none⟩, ⟨"arm", i1⟩, ⟨"hand", none⟩, ⟨"tip", i2⟩]
/-- joints with the names and types of those of the example robot -/
noncomputable def js2 (a1 a2 a3 : Vec3 ℝ) (o1 o2 o3 : Pose ℝ) : List (RawJoint ℝ) :=
  [{ turn with axis := a1, origin := o1 }, { slide with axis := a2, origin := o2 }, { weld with axis := a3, origin := o3 }]

theorem find_name {ls' : List (RawLink ℝ)} {js' : List (RawJoint ℝ)} {m0 m : KinModel ℝ} {cs : List (Call ℝ)} (h : Reach ls' js' m0 cs m)
    {n : String} (hn : n ∈ ls'.map RawLink.name) : ∃ l, getLinkIds [n] m = .ok [l] m := by
  obtain ⟨r, hr, rfl⟩ := List.mem_map.mp hn
  obtain ⟨l, lk, e, en⟩ := h.abs.desc.all r hr
  exact ⟨l, getLinkIds_one.mpr ((h.abs.inv.graph.linkNames _ _).mpr ⟨lk, e, en⟩)⟩

/-- such a robot can be posed -/
theorem posed (i1 i2 : Option (Inertial ℝ)) (a1 a2 a3 : Vec3 ℝ) (o1 o2 o3 : Pose ℝ) (a b : ℝ) (p : Vec3 ℝ) :
    ∃ m0 m, Reach (ls2 i1 i2) (js2 a1 a2 a3 o1 o2 o3) m0 (pose2 a b p) m ∧ Shallow (ls2 i1 i2) (js2 a1 a2 a3 o1 o2 o3) m0 (pose2 a b p) ∧
      AnglesAfter m0 (pose2 a b p) (value2 a b) ∧
      getJointIds ["turn", "slide"] m = .ok [1, 0] m ∧ (∃ l, getLinkIds ["tip"] m = .ok [l] m) ∧ (∃ l, getLinkIds ["hand"] m = .ok [l] m) ∧
      weldsAfter (names0 m0) (pose2 a b p) = [] := by
  have tree : IsTree (js2 a1 a2 a3 o1 o2 o3) := by
    refine ⟨by simp [js2, turn, slide, weld], ?_⟩
    refine ⟨fun s => if s = "base" then 0 else if s = "arm" then 1 else if s = "hand" then 2 else 3, ?_⟩
    simp [js2, turn, slide, weld]
  have supp : Supported (js2 a1 a2 a3 o1 o2 o3) := by
    intro j hj
    simp only [js2, List.mem_cons, List.not_mem_nil, or_false] at hj
    rcases hj with rfl | rfl | rfl
    · right; left; rfl
    · right; right; right; rfl
    · left; rfl
  have acc : (buildModel (ls2 i1 i2) (js2 a1 a2 a3 o1 o2 o3)).isSome := by
    rw [buildModel_isSome]
    refine ⟨by simp [ls2], by simp [js2, turn, slide, weld], by simp [ls2], ?_, "base", ?_, ?_⟩
    · simp [ls2, js2, turn, slide, weld]
    · simp [ls2, js2, turn, slide, weld]
    · simp [ls2, js2, turn, slide, weld]
  have clash : NoComClash (ls2 i1 i2) := by
    intro r hr
    simp only [ls2, List.mem_cons, List.not_mem_nil, or_false] at hr
    rcases hr with rfl | rfl | rfl | rfl <;> simp [ls2]
  obtain ⟨m0, built⟩ := construct_exists acc tree supp clash
  have hc := constructed_of_ok tree supp built
  have ids := jointIds_any hc (by simp [js2, turn, slide, weld, JointType.Movable])
  have h0 : Reach (ls2 i1 i2) (js2 a1 a2 a3 o1 o2 o3) m0 [] m0 := ⟨tree, supp, built, .nil⟩
  have hlen : ∀ s i, (s = "slide" ∧ i = 0) ∨ (s = "turn" ∧ i = 1) → i < m0.joints.length := fun s i h =>
    h0.joint_lt (getJointIds_one.mpr ((ids s i).mpr h))
  obtain ⟨m1, e1⟩ : ∃ m1, setJointAngles [0, 1] [a, b] m0 = .ok () m1 := by
    have l0 := hlen "slide" 0 (by simp)
    have l1 := hlen "turn" 1 (by simp)
    rw [← h0.abs.inv.graph.anglesLen] at l0 l1
    exact ⟨_, by simp [setJointAngles, setJointAnglesNC, writeAngles, l0, l1, Bind.bind, Prog.bind, Tinyfk.clearCache]; rfl⟩
  obtain ⟨m2, e2⟩ : ∃ m2, setBasePose ⟨p, Rot.fromRPY 1 2 3⟩ m1 = .ok () m2 := ⟨_, rfl⟩
  have h2 : Reach (ls2 i1 i2) (js2 a1 a2 a3 o1 o2 o3) m0 (pose2 a b p) m2 :=
    (h0.snoc (c := .setJointAngles [0, 1] [a, b]) e1).snoc (c := .setBasePose ⟨p, Rot.fromRPY 1 2 3⟩) e2
  have hw : weldsAfter (names0 m0) (pose2 a b p) = [] := rfl
  refine ⟨m0, m2, h2, C08_no_added_link h2 hw, ?_, ?_, find_name h2 (by simp [ls2]), find_name h2 (by simp [ls2]), hw⟩
  · intro s i h
    rw [getJointIds_one, ids] at h
    rcases h with ⟨rfl, rfl⟩ | ⟨rfl, rfl⟩ <;> simp [value2, pose2, angleAfter, lastWrite]
  · rw [getJointIds_ok]
    refine ⟨rfl, ?_⟩
    rw [h2.abs.jointIds]
    simp [ids]

theorem ls_eq : ls = ls2 (some armInertial) (some tipInertial) := rfl
theorem js_eq : js = js2 ⟨0, 0, 1⟩ ⟨1, 0, 0⟩ ⟨1, 0, 0⟩ ⟨⟨0, 0, 1⟩, Rot.one⟩ ⟨⟨0, 0, 2⟩, Rot.one⟩ ⟨⟨0, 3, 0⟩, Rot.one⟩ := rfl

theorem inertial2 : (∃ r ∈ ls, r.inertial.isSome) := ⟨⟨"arm", some armInertial⟩, by simp [ls], rfl⟩

theorem unitCalls2 (a b : ℝ) (p : Vec3 ℝ) : UnitCalls (pose2 a b p) := by
  simp [UnitCalls, pose2, Rot.norm2_fromRPY]

/-- reverse the axis of "turn" only -/
def flip1 (s : String) : Bool := s == "turn"
/-- shift both zeros -/
noncomputable def shift1 (s : String) : ℝ := if s = "turn" then 1/3 else 1/4

/-- the part of the example robot that "arm" carries -/
noncomputable def partLs : List (RawLink ℝ) := [⟨"arm", some armInertial⟩, ⟨"hand", none⟩, ⟨"tip", some tipInertial⟩]
noncomputable def partJs : List (RawJoint ℝ) := [slide, weld]

theorem partOf : PartOf partLs partJs ls js "arm" := by
  refine ⟨?_, ?_, ?_⟩
  · simp [partLs, ls]
  · simp [partJs, js]
  · simp [partLs, partJs, slide, weld]

theorem part_built : ∃ m0, Reach partLs partJs m0 [] m0 ∧ ∀ s i, m0.jointIds.find s = some i ↔ s = "slide" ∧ i = 0 := by
  have tree : IsTree partJs := by
    refine ⟨by simp [partJs, slide, weld], ?_⟩
    refine ⟨fun s => if s = "arm" then 1 else if s = "hand" then 2 else 3, ?_⟩
    simp [partJs, slide, weld]
  have supp : Supported partJs := fun j hj => supported j (partOf.joints j hj)
  have acc : (buildModel partLs partJs).isSome := by
    rw [buildModel_isSome]
    refine ⟨by simp [partLs], by simp [partJs, slide, weld], by simp [partLs], ?_, "arm", ?_, ?_⟩
    · simp [partLs, partJs, slide, weld]
    · simp [partLs, partJs, slide, weld]
    · simp [partLs, partJs, slide, weld]
  have clash : NoComClash partLs := by
    intro r hr
    simp only [partLs, List.mem_cons, List.not_mem_nil, or_false] at hr
    rcases hr with rfl | rfl | rfl <;> simp [partLs]
  obtain ⟨m0, built⟩ := construct_exists acc tree supp clash
  refine ⟨m0, ⟨tree, supp, built, .nil⟩, fun s i => ?_⟩
  have hc := constructed_of_ok tree supp built
  obtain ⟨names, hs, hp, h⟩ := hc.jointOrder
  have e : ((partJs.filter fun j => decide j.type.Movable).map RawJoint.name) = ["slide"] := by
    simp [partJs, slide, weld, JointType.Movable]
  rw [e] at hp
  obtain rfl := List.perm_singleton.mp hp
  rw [hc.inv.graph.jointNames s i, ← h]
  match i with
  | 0 => simp [eq_comm]
  | i + 1 => simp

example : ∃ m0 m m0' m' l l' T a a',
    Reach ls js m0 (pose2 2 (1/2) ⟨1, 2, 3⟩) m ∧ (∃ cs', Reach partLs partJs m0' cs' m') ∧ getLinkIds ["tip"] m = .ok [l] m ∧
    getLinkIds ["tip"] m' = .ok [l'] m' ∧ getLinkPose l m = .ok T a ∧ getLinkPose l' m' = .ok T a' := by
  obtain ⟨m0, m, h, hf, hθ, hj, ⟨l, hl⟩, _, hw⟩ := posed (some armInertial) (some tipInertial) ⟨0, 0, 1⟩ ⟨1, 0, 0⟩ ⟨1, 0, 0⟩ ⟨⟨0, 0, 1⟩, Rot.one⟩
    ⟨⟨0, 0, 2⟩, Rot.one⟩ ⟨⟨0, 3, 0⟩, Rot.one⟩ 2 (1/2) ⟨1, 2, 3⟩
  change Reach ls js m0 _ m at h
  change Shallow ls js m0 _ at hf
  obtain ⟨m0', h0', ids⟩ := part_built
  obtain ⟨lr, hr⟩ := find_name h (n := "arm") (by simp [ls])
  obtain ⟨B, x, eB, _⟩ := h.pose_ok hf hθ hr
  obtain ⟨m1, e1⟩ : ∃ m1, setJointAngles [0] [2] m0' = .ok () m1 := by
    have l0 := h0'.joint_lt (getJointIds_one.mpr ((ids "slide" 0).mpr ⟨rfl, rfl⟩))
    rw [← h0'.abs.inv.graph.anglesLen] at l0
    exact ⟨_, by simp [setJointAngles, setJointAnglesNC, writeAngles, l0, Bind.bind, Prog.bind, Tinyfk.clearCache]; rfl⟩
  obtain ⟨m2, e2⟩ : ∃ m2, setBasePose B m1 = .ok () m2 := ⟨_, rfl⟩
  have h2 := (h0'.snoc (c := .setJointAngles [0] [2]) e1).snoc (c := .setBasePose B) e2
  obtain ⟨l', hl'⟩ := find_name h2 (n := "tip") (by simp [partLs])
  obtain ⟨T, a, a', e, e'⟩ := C114_part h hf h2 (C08_no_added_link h2 rfl) partOf (by intro w hw; simp [weldsAfter] at hw) hθ (by
    intro s i hs
    rw [getJointIds_one, ids] at hs
    obtain ⟨rfl, rfl⟩ := hs
    simp [value2, angleAfter, lastWrite]) hr eB rfl hl hl'
  exact ⟨m0, m, m0', m2, l, l', T, a, a', h, ⟨_, h2⟩, hl, hl', e, e'⟩

example : ∃ m0 m m0' m' a a' C C',
    Reach ls js m0 (pose2 2 (1/2) ⟨1, 2, 3⟩) m ∧ Reach ls (js.map (RawJoint.flipAxis flip1)) m0' (pose2 2 (-(1/2)) ⟨1, 2, 3⟩) m' ∧
    getCom m = .ok C a ∧ getCom m' = .ok C' a' ∧ C = C' := by
  obtain ⟨m0, m, h, hf, hθ, hj, ⟨l, hl⟩, _, hw⟩ := posed (some armInertial) (some tipInertial) ⟨0, 0, 1⟩ ⟨1, 0, 0⟩ ⟨1, 0, 0⟩ ⟨⟨0, 0, 1⟩, Rot.one⟩
    ⟨⟨0, 0, 2⟩, Rot.one⟩ ⟨⟨0, 3, 0⟩, Rot.one⟩ 2 (1/2) ⟨1, 2, 3⟩
  obtain ⟨m0', m', h', hf', hθ', hj', ⟨l', hl'⟩, _, hw'⟩ := posed (some armInertial) (some tipInertial) ⟨-0, -0, -1⟩ ⟨1, 0, 0⟩ ⟨1, 0, 0⟩ ⟨⟨0, 0, 1⟩, Rot.one⟩
    ⟨⟨0, 0, 2⟩, Rot.one⟩ ⟨⟨0, 3, 0⟩, Rot.one⟩ 2 (-(1/2)) ⟨1, 2, 3⟩
  have ej : js2 ⟨-0, -0, -1⟩ ⟨1, 0, 0⟩ ⟨1, 0, 0⟩ ⟨⟨0, 0, 1⟩, Rot.one⟩ ⟨⟨0, 0, 2⟩, Rot.one⟩ ⟨⟨0, 3, 0⟩, Rot.one⟩ = js.map (RawJoint.flipAxis flip1) := by
    simp [js, js2, turn, slide, weld, RawJoint.flipAxis, flip1]
  rw [ej] at h' hf'
  have ev : value2 2 (-(1/2)) = flipValue flip1 (value2 2 (1/2)) := by
    funext s
    by_cases e1 : s = "turn"
    · subst e1; simp [value2, flipValue, flip1]
    · simp [value2, flipValue, flip1, e1]
  rw [ev] at hθ'
  have hsw : SameWelds m0 m0' (pose2 2 (1/2) ⟨1, 2, 3⟩) (pose2 2 (-(1/2)) ⟨1, 2, 3⟩) := by intro w; rw [hw, hw']
  obtain ⟨_, C, a, a', e, e'⟩ := C115_reversed flip1 h hf h' hf' hθ hθ' hsw rfl
  have := C115_reversed_jacobian flip1 h hf unitDesc (unitCalls2 _ _ _) (.inl inertial2) h' hf' (unitCalls2 _ _ _) hθ hθ' hsw rfl hj hj' hl hl' .xyzw true
  have := C115_reversed_com_jacobian flip1 h hf unitDesc (unitCalls2 _ _ _) h' hf' (unitCalls2 _ _ _) hθ hθ' hsw rfl hj hj' true
  exact ⟨m0, m, m0', m', a, a', C, C, h, h', e, e', rfl⟩

example : ∃ m0 m m0' m' a a' C C',
    Reach ls js m0 (pose2 2 (1/2) ⟨1, 2, 3⟩) m ∧ Reach ls (js.map (RawJoint.shiftZero shift1)) m0' (pose2 (2 - 1/4) (1/2 - 1/3) ⟨1, 2, 3⟩) m' ∧
    getCom m = .ok C a ∧ getCom m' = .ok C' a' ∧ C = C' := by
  obtain ⟨m0, m, h, hf, hθ, hj, ⟨l, hl⟩, _, hw⟩ := posed (some armInertial) (some tipInertial) ⟨0, 0, 1⟩ ⟨1, 0, 0⟩ ⟨1, 0, 0⟩ ⟨⟨0, 0, 1⟩, Rot.one⟩
    ⟨⟨0, 0, 2⟩, Rot.one⟩ ⟨⟨0, 3, 0⟩, Rot.one⟩ 2 (1/2) ⟨1, 2, 3⟩
  obtain ⟨m0', m', h', hf', hθ', hj', ⟨l', hl'⟩, _, hw'⟩ := posed (some armInertial) (some tipInertial) ⟨0, 0, 1⟩ ⟨1, 0, 0⟩ ⟨1, 0, 0⟩
    (turn.shiftZero shift1).origin (slide.shiftZero shift1).origin (weld.shiftZero shift1).origin (2 - 1/4) (1/2 - 1/3) ⟨1, 2, 3⟩
  have ej : js2 ⟨0, 0, 1⟩ ⟨1, 0, 0⟩ ⟨1, 0, 0⟩ (turn.shiftZero shift1).origin (slide.shiftZero shift1).origin (weld.shiftZero shift1).origin =
    js.map (RawJoint.shiftZero shift1) := rfl
  rw [ej] at h' hf'
  have hθ2 : AnglesAfter m0' (pose2 (2 - 1/4) (1/2 - 1/3) ⟨1, 2, 3⟩) (fun s => value2 2 (1/2) s - shift1 s) := by
    intro s i hs
    rw [← hθ' s i hs]
    obtain ⟨j, hj, hm⟩ := h'.joint_named (m := m') (names := [s]) (ids := [i]) (by
      rw [getJointIds_one] at hs ⊢; rw [h'.abs.jointIds]; exact hs) (List.mem_singleton.mpr rfl)
    rw [getJointIds_one] at hs
    have hjo := jointIds_any (constructed_of_ok h'.tree h'.supported h'.built) (by simp [js, turn, slide, weld, RawJoint.shiftZero, JointType.Movable]) s i
    rcases hjo.mp hs with ⟨rfl, rfl⟩ | ⟨rfl, rfl⟩ <;> simp [value2, shift1]
  have hsw : SameWelds m0 m0' (pose2 2 (1/2) ⟨1, 2, 3⟩) (pose2 (2 - 1/4) (1/2 - 1/3) ⟨1, 2, 3⟩) := by intro w; rw [hw, hw']
  obtain ⟨_, C, a, a', e, e'⟩ := C115_shifted shift1 h hf unitDesc h' hf' hθ hθ2 hsw rfl
  have := C115_shifted_jacobian shift1 h hf unitDesc (unitCalls2 _ _ _) (.inl inertial2) h' hf' (unitCalls2 _ _ _) hθ hθ2 hsw rfl hj hj' hl hl' .xyzw true
  exact ⟨m0, m, m0', m', a, a', C, C, h, h', e, e', rfl⟩

-- millimetres instead of metres
example : ∃ m0 m m0' m' a a' C C',
    Reach ls js m0 (pose2 2 (1/2) ⟨1, 2, 3⟩) m ∧
    Reach (ls.map (RawLink.scale 1000)) (js.map (RawJoint.scale 1000)) m0' (pose2 (1000 * 2) (1/2) (Vec3.scale 1000 ⟨1, 2, 3⟩)) m' ∧
    getCom m = .ok C a ∧ getCom m' = .ok C' a' ∧ C' = C.scale 1000 := by
  obtain ⟨m0, m, h, hf, hθ, hj, ⟨l, hl⟩, _, hw⟩ := posed (some armInertial) (some tipInertial) ⟨0, 0, 1⟩ ⟨1, 0, 0⟩ ⟨1, 0, 0⟩ ⟨⟨0, 0, 1⟩, Rot.one⟩
    ⟨⟨0, 0, 2⟩, Rot.one⟩ ⟨⟨0, 3, 0⟩, Rot.one⟩ 2 (1/2) ⟨1, 2, 3⟩
  obtain ⟨m0', m', h', hf', hθ', hj', ⟨l', hl'⟩, _, hw'⟩ := posed (some { armInertial with origin := armInertial.origin.scale 1000 })
    (some { tipInertial with origin := tipInertial.origin.scale 1000 }) ⟨0, 0, 1⟩ ⟨1, 0, 0⟩ ⟨1, 0, 0⟩ (Pose.scale 1000 ⟨⟨0, 0, 1⟩, Rot.one⟩)
    (Pose.scale 1000 ⟨⟨0, 0, 2⟩, Rot.one⟩) (Pose.scale 1000 ⟨⟨0, 3, 0⟩, Rot.one⟩) (1000 * 2) (1/2) (Vec3.scale 1000 ⟨1, 2, 3⟩)
  change Reach (ls.map (RawLink.scale 1000)) (js.map (RawJoint.scale 1000)) m0' _ m' at h'
  change Shallow (ls.map (RawLink.scale 1000)) (js.map (RawJoint.scale 1000)) m0' _ at hf'
  have hs : ScaledValues 1000 js (value2 2 (1/2)) (value2 (1000 * 2) (1/2)) := by
    intro j hj
    simp only [js, List.mem_cons, List.not_mem_nil, or_false] at hj
    rcases hj with rfl | rfl | rfl <;> simp [value2, turn, slide, weld]
  have hw2 : ∀ w ∈ weldsAfter (names0 m0) (pose2 2 (1/2) ⟨1, 2, 3⟩), w.scale 1000 ∈ weldsAfter (names0 m0') (pose2 (1000 * 2) (1/2) (Vec3.scale 1000 ⟨1, 2, 3⟩)) := by
    rw [hw]; simp
  obtain ⟨_, C, a, a', e, e'⟩ := C116_scaled 1000 h hf h' hf' hθ hθ' hs hw2 rfl
  have := C116_scaled_jacobian (c := 1000) (by norm_num) h hf unitDesc (unitCalls2 _ _ _) (.inl inertial2) h' hf' (unitCalls2 _ _ _) hθ hθ' hs hw2 rfl hj hj' hl hl' .xyzw true
  exact ⟨m0, m, m0', m', a, a', C, _, h, h', e, e', rfl⟩

end Example

end Tinyfk
