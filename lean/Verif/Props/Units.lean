import Verif.Props.Variants
import Verif.Props.Inertia

/-!
# Properties: units of length and mass

C124.
-/

namespace Tinyfk

open Scalar Matrix

section
variable {ls : List (RawLink ℝ)} {js : List (RawJoint ℝ)} {m0 m m0' m' : KinModel ℝ} {cs cs' : List (Call ℝ)}

/-- the pose of a link does not depend on the `<inertial>` elements -/
theorem WorldPose.relink {ls' : List (RawLink ℝ)} {W : Weld ℝ → Prop} {θ : String → ℝ} {base T : Pose ℝ} {n : String}
    (hl : ∀ l ∈ ls, ∃ l' ∈ ls', l'.name = l.name) (h : WorldPose ls js W θ base n T) : WorldPose ls' js W θ base n T := by
  induction h with
  | @root l h1 h2 =>
    obtain ⟨l', h3, h4⟩ := hl l h1
    rw [← h4] at h2 ⊢
    exact .root h3 h2
  | joint hj _ he ih => exact .joint hj ih he
  | weld hw _ ih => exact .weld hw ih

theorem WorldPose.units (c μ : ℝ) {W W' : Weld ℝ → Prop} (hW : ∀ w, W w → W' (w.scale c)) {θ θ' : String → ℝ}
    (hθ : ScaledValues c js θ θ') {base T : Pose ℝ} {n : String} (h : WorldPose ls js W θ base n T) :
    WorldPose (ls.map (RawLink.inUnits c μ)) (js.map (RawJoint.scale c)) W' θ' (base.scale c) n (T.scale c) := by
  refine (h.scale c hW hθ).relink fun l hl => ?_
  obtain ⟨l0, h0, rfl⟩ := List.mem_map.mp hl
  exact ⟨l0.inUnits c μ, List.mem_map_of_mem h0, rfl⟩

/-- a body in other units -/
def unitBody (c μ : ℝ) (x : Inertial ℝ × Pose ℝ) : Inertial ℝ × Pose ℝ := (x.1.inUnits c μ, x.2.scale c)

theorem Bodies.units (c μ : ℝ) {W W' : Weld ℝ → Prop} (hW : ∀ w, W w → W' (w.scale c)) {θ θ' : String → ℝ}
    (hθ : ScaledValues c js θ θ') {base : Pose ℝ} {bs : List (Inertial ℝ × Pose ℝ)} (h : Bodies ls js W θ base bs) :
    Bodies (ls.map (RawLink.inUnits c μ)) (js.map (RawJoint.scale c)) W' θ' (base.scale c) (bs.map (unitBody c μ)) := by
  obtain ⟨sorted, hp, hs, hF⟩ := h
  refine ⟨sorted.map (RawLink.inUnits c μ), hp.map _, ?_, ?_⟩
  · rw [List.map_map]; exact hs
  · have e : (sorted.map (RawLink.inUnits c μ)).filter (fun r => r.inertial.isSome) =
        (sorted.filter fun r => r.inertial.isSome).map (RawLink.inUnits c μ) := by
      rw [List.filter_map]
      congr 2
      funext r
      simp [RawLink.inUnits]
    rw [e, List.forall₂_map_left_iff, List.forall₂_map_right_iff]
    refine hF.imp fun r x h => ⟨?_, h.2.units c μ hW hθ⟩
    simp [RawLink.inUnits, unitBody, h.1]

theorem unit_welds (c μ : ℝ) (hw : ∀ w ∈ weldsAfter (names0 m0) cs, w.scale c ∈ weldsAfter (names0 m0') cs') (w : Weld ℝ)
    (h : AllWelds ls m0 cs w) : AllWelds (ls.map (RawLink.inUnits c μ)) m0' cs' (w.scale c) := by
  rcases h with @⟨l, i, hl, hi⟩ | h
  · left
    have := ComWeld.mk (l := l.inUnits c μ) (i := i.inUnits c μ) (List.mem_map_of_mem (f := RawLink.inUnits c μ) hl)
      (by simp [RawLink.inUnits, hi])
    exact this
  · exact .inr (hw w h)

theorem bodyCentre_units (c μ : ℝ) (x : Inertial ℝ × Pose ℝ) : bodyCentre (unitBody c μ x) = (bodyCentre x).scale c :=
  bodyCentre_scale c x

theorem comOf_units (c : ℝ) {μ : ℝ} (hμ : μ ≠ 0) (bs : List (Inertial ℝ × Pose ℝ)) :
    comOf (bs.map (unitBody c μ)) = (comOf bs).scale c := by
  have key : ∀ (f g : Inertial ℝ × Pose ℝ → ℝ) (k : ℝ), (∀ x, g (unitBody c μ x) = k * f x) → ∀ (l : List (Inertial ℝ × Pose ℝ)) (a : ℝ),
      (l.map (unitBody c μ)).foldl (fun s x => s + g x) (k * a) = k * l.foldl (fun s x => s + f x) a := by
    intro f g k hk l
    induction l with
    | nil => intro a; rfl
    | cons x l ih => intro a; simp only [List.map_cons, List.foldl_cons, hk, ← mul_add, ih]
  have kM := key (fun x => x.1.mass) (fun x => x.1.mass) μ (fun x => rfl) bs 0
  have kx := key (fun x => x.1.mass * (bodyCentre x).x) (fun x => x.1.mass * (bodyCentre x).x) (μ * c)
    (fun x => by rw [bodyCentre_units]; simp only [Vec3.scale, unitBody, Inertial.inUnits]; ring) bs 0
  have ky := key (fun x => x.1.mass * (bodyCentre x).y) (fun x => x.1.mass * (bodyCentre x).y) (μ * c)
    (fun x => by rw [bodyCentre_units]; simp only [Vec3.scale, unitBody, Inertial.inUnits]; ring) bs 0
  have kz := key (fun x => x.1.mass * (bodyCentre x).z) (fun x => x.1.mass * (bodyCentre x).z) (μ * c)
    (fun x => by rw [bodyCentre_units]; simp only [Vec3.scale, unitBody, Inertial.inUnits]; ring) bs 0
  rw [mul_zero] at kM kx ky kz
  show (⟨_ / _, _ / _, _ / _⟩ : Vec3 ℝ) = ⟨c * (_ / _), c * (_ / _), c * (_ / _)⟩
  erw [kM, kx, ky, kz]
  have e : ∀ a b : ℝ, μ * c * a / (μ * b) = c * (a / b) := by
    intro a b
    rw [mul_assoc, mul_div_mul_left _ _ hμ, mul_div_assoc]
  rw [e, e, e]

theorem bodyInertia_units (c μ : ℝ) (R : Matrix (Fin 3) (Fin 3) ℝ) (p o : Vec3 ℝ) (i : Inertial ℝ) :
    bodyInertia R (p.scale c) (o.scale c) (i.inUnits c μ) = (μ * c ^ 2) • bodyInertia R p o i := by
  have h1 : (i.inUnits c μ).tensor = (μ * c ^ 2) • i.tensor := by
    ext r s
    fin_cases r <;> fin_cases s <;> simp [Inertial.tensor, Inertial.inUnits]
  have h2 : (p.scale c).toV - (o.scale c).toV = c • (p.toV - o.toV) := by
    funext r
    fin_cases r <;> simp [Vec3.toV, Vec3.scale] <;> ring
  have h3 : steiner (μ * i.mass) (c • (p.toV - o.toV)) = (μ * c ^ 2) • steiner i.mass (p.toV - o.toV) := by
    generalize p.toV - o.toV = d
    ext r s
    simp only [steiner, Matrix.smul_apply, Matrix.sub_apply, smul_eq_mul, vecMulVec_apply, Pi.smul_apply, smul_dotProduct, dotProduct_smul]
    ring
  unfold bodyInertia
  rw [h1, h2]
  show _ + steiner (μ * i.mass) _ = _
  rw [h3, Matrix.mul_smul, Matrix.smul_mul, smul_add]

theorem inertiaUnrotated_units (c μ : ℝ) (bs : List (Inertial ℝ × Pose ℝ)) (o : Vec3 ℝ) :
    inertiaUnrotated (bs.map (unitBody c μ)) (o.scale c) = (μ * c ^ 2) • inertiaUnrotated bs o := by
  unfold inertiaUnrotated
  rw [List.map_map, List.smul_sum, List.map_map]
  congr 2
  funext x
  show bodyInertia (x.2.scale c).rotation.matrix (Pose.transform (x.2.scale c) (x.1.origin.scale c)).position (o.scale c) (x.1.inUnits c μ) = _
  rw [Pose.transform_scale]
  exact bodyInertia_units c μ _ _ _ _

/-- **C124.** Describe a robot in other units of length and mass: multiply every `<origin xyz>`, the values of the prismatic joints, the
position of the base and the offsets of added links by `c`, every `<mass>` by `μ` and every `<inertia>` by `μ c²`. Then positions of
links and the centre of mass are multiplied by `c`, rotations stay, `total_mass` is multiplied by `μ` and the total inertia by `μ c²`. -/
theorem C124_units (c : ℝ) {μ : ℝ} (hμ : μ ≠ 0) (h : Reach ls js m0 cs m) (hf : Shallow ls js m0 cs) (hu : UnitDesc js) (hc : UnitCalls cs)
    (h' : Reach (ls.map (RawLink.inUnits c μ)) (js.map (RawJoint.scale c)) m0' cs' m')
    (hf' : Shallow (ls.map (RawLink.inUnits c μ)) (js.map (RawJoint.scale c)) m0' cs') (hc' : UnitCalls cs')
    {θ θ' : String → ℝ} (hθ : AnglesAfter m0 cs θ) (hθ' : AnglesAfter m0' cs' θ') (hs : ScaledValues c js θ θ')
    (hw : ∀ w ∈ weldsAfter (names0 m0) cs, w.scale c ∈ weldsAfter (names0 m0') cs')
    (hb : baseAfter Pose.identity cs' = (baseAfter Pose.identity cs).scale c) :
    (∀ n l l', getLinkIds [n] m = .ok [l] m → getLinkIds [n] m' = .ok [l'] m' →
      ∃ T a a', getLinkPose l m = .ok T a ∧ getLinkPose l' m' = .ok (T.scale c) a') ∧
    (∃ C a a', getCom m = .ok C a ∧ getCom m' = .ok (C.scale c) a') ∧
    m'.totalMass = μ * m.totalMass ∧
    ∃ I I' a a', getTotalInertia m = .ok I a ∧ getTotalInertia m' = .ok I' a' ∧ ∀ r s, I' r s = μ * c ^ 2 * I r s := by
  refine ⟨?_, ?_, ?_, ?_⟩
  · intro n l l' hn hn'
    obtain ⟨T, a, e, hT⟩ := h.pose_ok hf hθ hn
    obtain ⟨T', a', e', hT'⟩ := h'.pose_ok hf' hθ' hn'
    have := ((hT T).mpr rfl).units c μ (unit_welds c μ hw) hs
    rw [← hb] at this
    obtain rfl := (hT' _).mp this
    exact ⟨_, a, a', e, e'⟩
  · obtain ⟨bs, hbs, a, e⟩ := C30_com h hf hθ
    obtain ⟨bs', hbs', a', e'⟩ := C30_com h' hf' hθ'
    have := ((hbs bs).mpr rfl).units c μ (unit_welds c μ hw) hs
    rw [← hb] at this
    obtain rfl := (hbs' _).mp this
    rw [comOf_units c hμ] at e'
    exact ⟨_, a, a', e, e'⟩
  · rw [C35_total_mass_real h, C35_total_mass_real h', ← List.sum_map_mul_left]
    congr 1
    clear h h' hf hf'
    induction ls with
    | nil => rfl
    | cons l ls ih =>
      cases hi : l.inertial <;> simp [RawLink.inUnits, hi, Inertial.inUnits] at ih ⊢
      · exact ih
      · exact ih
  · obtain ⟨bs, hbs, I, a, e, hI⟩ := C34_unrotated h hf hθ hu hc
    obtain ⟨bs', hbs', I', a', e', hI'⟩ := C34_unrotated h' hf' hθ' (hu.scale c) hc'
    have := ((hbs bs).mpr rfl).units c μ (unit_welds c μ hw) hs
    rw [← hb] at this
    obtain rfl := (hbs' _).mp this
    refine ⟨I, I', a, a', e, e', fun r s => ?_⟩
    rw [comOf_units c hμ, inertiaUnrotated_units, ← hI] at hI'
    exact congrFun (congrFun hI' r) s

/-- **C124, Jacobians.** In other units the position rows of turning joints are multiplied by `c`, those of prismatic joints stay; the same
for the Jacobian of the centre of mass. The unit of mass has no influence. -/
theorem C124_units_jacobian {c μ : ℝ} (hc0 : c ≠ 0) (hμ : μ ≠ 0) (h : Reach ls js m0 cs m) (hf : Shallow ls js m0 cs) (hu : UnitDesc js)
    (hc : UnitCalls cs) (hne : (∃ r ∈ ls, r.inertial.isSome) ∨ weldsAfter (names0 m0) cs ≠ [])
    (h' : Reach (ls.map (RawLink.inUnits c μ)) (js.map (RawJoint.scale c)) m0' cs' m')
    (hf' : Shallow (ls.map (RawLink.inUnits c μ)) (js.map (RawJoint.scale c)) m0' cs') (hc' : UnitCalls cs')
    {θ θ' : String → ℝ} (hθ : AnglesAfter m0 cs θ) (hθ' : AnglesAfter m0' cs' θ') (hs : ScaledValues c js θ θ')
    (hw : ∀ w ∈ weldsAfter (names0 m0) cs, w.scale c ∈ weldsAfter (names0 m0') cs')
    (hb : baseAfter Pose.identity cs' = (baseAfter Pose.identity cs).scale c) {names : List String} {ids ids' : List Nat}
    (hids : getJointIds names m = .ok ids m) (hids' : getJointIds names m' = .ok ids' m')
    {n : String} {l l' : Nat} (hn : getLinkIds [n] m = .ok [l] m) (hn' : getLinkIds [n] m' = .ok [l'] m') (rt : RotType) (wb : Bool) :
    (∃ J J' x x', getJacobian l ids rt wb m = .ok J x ∧ getJacobian l' ids' rt wb m' = .ok J' x' ∧
      ∀ k, ∀ j ∈ js, names[k]? = some j.name →
        (∀ r < 3, J'.f r k = (if j.type = .prismatic then 1 else c) * J.f r k) ∧
        (rt = .xyzw → ∀ r, 3 ≤ r → r < 7 → J'.f r k = (if j.type = .prismatic then c⁻¹ else 1) * J.f r k)) ∧
    ∃ J J' x x', getComJacobian ids wb m = .ok J x ∧ getComJacobian ids' wb m' = .ok J' x' ∧
      ∀ k, ∀ j ∈ js, names[k]? = some j.name → ∀ r < 3, J'.f r k = (if j.type = .prismatic then 1 else c) * J.f r k := by
  have hnd := h.abs.desc.jointNodup
  have hne' : (∃ r ∈ ls.map (RawLink.inUnits c μ), r.inertial.isSome) ∨ weldsAfter (names0 m0') cs' ≠ [] := by
    rcases hne with ⟨r, hr, hi⟩ | hn
    · exact .inl ⟨r.inUnits c μ, List.mem_map_of_mem hr, by simpa [RawLink.inUnits] using hi⟩
    · obtain ⟨w, hw1⟩ := List.exists_mem_of_ne_nil _ hn
      exact .inr (List.ne_nil_of_mem (hw w hw1))
  have hr : ∀ j ∈ js, c * unitRatio c js j.name = if j.type = .prismatic then 1 else c := by
    intro j hj
    rw [unitRatio_eq c hnd hj]
    by_cases ht : j.type = .prismatic
    · simp only [if_pos ht]; field_simp
    · simp [ht]
  constructor
  · obtain ⟨J, J', x, x', e, e', hJ⟩ := related_jacobian h hf hu hc hne h' hf' (hu.scale c) hc' hne' hθ hθ' id hids (by rwa [List.map_id]) hn hn' rt wb c
      (unitRatio c js) (fun _ => 0) (fun s hm => hs.ratio hc0 hnd (h.joint_named hids hm))
      (fun s _ v T hT => by
        have := hT.units c μ (unit_welds c μ hw) (hs.update hc0 hnd s v)
        rwa [← hb] at this)
    refine ⟨J, J', x, x', e, e', fun k j hj hk => ?_⟩
    obtain ⟨h1, h2⟩ := hJ k _ hk
    rw [hr j hj] at h1
    rw [unitRatio_eq c hnd hj] at h2
    exact ⟨rows3 h1, fun hrt => rows7 (h2 hrt)⟩
  · obtain ⟨J, J', x, x', e, e', hJ⟩ := related_com_jacobian h hf hu hc h' hf' (hu.scale c) hc' hθ hθ' id hids (by rwa [List.map_id]) wb c
      (unitRatio c js) (fun _ => 0) (fun s hm => hs.ratio hc0 hnd (h.joint_named hids hm))
      (fun s _ v T hT => by
        have := hT.units c μ (unit_welds c μ hw) (hs.update hc0 hnd s v)
        rw [← hb] at this
        exact ⟨_, this, comOf_units c hμ T⟩)
    refine ⟨J, J', x, x', e, e', fun k j hj hk => ?_⟩
    have h1 := hJ k _ hk
    rw [hr j hj] at h1
    exact rows3 h1

end

namespace Example

/-! ### The hypotheses are met: the example robot in millimetres and grams -/

example : ∃ m0 m m0' m' I I' a a',
    Reach ls js m0 (pose2 2 (1/2) ⟨1, 2, 3⟩) m ∧
    Reach (ls.map (RawLink.inUnits 1000 1000)) (js.map (RawJoint.scale 1000)) m0' (pose2 (1000 * 2) (1/2) (Vec3.scale 1000 ⟨1, 2, 3⟩)) m' ∧
    getTotalInertia m = .ok I a ∧ getTotalInertia m' = .ok I' a' ∧ ∀ r s, I' r s = 1000 * 1000 ^ 2 * I r s := by
  obtain ⟨m0, m, h, hf, hθ, hj, ⟨l, hl⟩, _, hw⟩ := posed (some armInertial) (some tipInertial) ⟨0, 0, 1⟩ ⟨1, 0, 0⟩ ⟨1, 0, 0⟩ ⟨⟨0, 0, 1⟩, Rot.one⟩
    ⟨⟨0, 0, 2⟩, Rot.one⟩ ⟨⟨0, 3, 0⟩, Rot.one⟩ 2 (1/2) ⟨1, 2, 3⟩
  obtain ⟨m0', m', h', hf', hθ', hj', ⟨l', hl'⟩, _, hw'⟩ := posed (some (armInertial.inUnits 1000 1000))
    (some (tipInertial.inUnits 1000 1000)) ⟨0, 0, 1⟩ ⟨1, 0, 0⟩ ⟨1, 0, 0⟩ (Pose.scale 1000 ⟨⟨0, 0, 1⟩, Rot.one⟩)
    (Pose.scale 1000 ⟨⟨0, 0, 2⟩, Rot.one⟩) (Pose.scale 1000 ⟨⟨0, 3, 0⟩, Rot.one⟩) (1000 * 2) (1/2) (Vec3.scale 1000 ⟨1, 2, 3⟩)
  change Reach (ls.map (RawLink.inUnits 1000 1000)) (js.map (RawJoint.scale 1000)) m0' _ m' at h'
  change Shallow (ls.map (RawLink.inUnits 1000 1000)) (js.map (RawJoint.scale 1000)) m0' _ at hf'
  have hs : ScaledValues 1000 js (value2 2 (1/2)) (value2 (1000 * 2) (1/2)) := by
    intro j hj
    simp only [js, List.mem_cons, List.not_mem_nil, or_false] at hj
    rcases hj with rfl | rfl | rfl <;> simp [value2, turn, slide, weld]
  have hw2 : ∀ w ∈ weldsAfter (names0 m0) (pose2 2 (1/2) ⟨1, 2, 3⟩), w.scale 1000 ∈ weldsAfter (names0 m0') (pose2 (1000 * 2) (1/2) (Vec3.scale 1000 ⟨1, 2, 3⟩)) := by
    rw [hw]; simp
  obtain ⟨_, _, _, I, I', a, a', e, e', hI⟩ := C124_units 1000 (μ := 1000) (by norm_num) h hf unitDesc (unitCalls2 _ _ _) h' hf' (unitCalls2 _ _ _) hθ hθ' hs hw2 rfl
  have := C124_units_jacobian (c := 1000) (μ := 1000) (by norm_num) (by norm_num) h hf unitDesc (unitCalls2 _ _ _) (.inl inertial2) h' hf' (unitCalls2 _ _ _) hθ hθ' hs hw2 rfl hj hj' hl hl' .xyzw true
  exact ⟨m0, m, m0', m', I, I', a, a', h, h', e, e', hI⟩

end Example

end Tinyfk
