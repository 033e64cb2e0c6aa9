import Mathlib.Analysis.Calculus.Deriv.Pi
import Mathlib.Analysis.Calculus.Deriv.Prod
import Mathlib.Analysis.Calculus.FDeriv.Pi
import Mathlib.Analysis.SpecialFunctions.Trigonometric.Deriv
import Verif.Props.BaseAngles

/-!
# Poses as differentiable functions of a whole configuration
-/

namespace Tinyfk

open Scalar

/-- A function of finitely many numbers that is differentiable changes along a curve by the sum of its partial
derivatives times the velocities. -/
theorem hasDerivAt_of_partials {n : Nat} {F : (Fin n → ℝ) → ℝ} {γ : ℝ → Fin n → ℝ} {γ' p : Fin n → ℝ} {t : ℝ}
    (hF : DifferentiableAt ℝ F (γ t)) (hp : ∀ c, HasDerivAt (fun v => F (Function.update (γ t) c v)) (p c) (γ t c))
    (hγ : ∀ c, HasDerivAt (fun t => γ t c) (γ' c) t) : HasDerivAt (fun t => F (γ t)) (∑ c, p c * γ' c) t := by
  have h1 := hF.hasFDerivAt.comp_hasDerivAt t (hasDerivAt_pi.2 hγ)
  refine h1.congr_deriv ?_
  have h2 : ∀ c, fderiv ℝ F (γ t) (Pi.single c 1) = p c := by
    intro c
    have h3 : HasFDerivAt F (fderiv ℝ F (γ t)) (Function.update (γ t) c (γ t c)) := by
      rw [Function.update_eq_self]; exact hF.hasFDerivAt
    exact (h3.comp_hasDerivAt (γ t c) (hasDerivAt_update (γ t) c (γ t c))).unique (hp c)
  have h4 : γ' = ∑ c, γ' c • (Pi.single c (1 : ℝ) : Fin n → ℝ) := by
    ext c
    simp [Finset.sum_apply, Pi.single_apply]
  conv_lhs => rw [h4]
  rw [map_sum]
  refine Finset.sum_congr rfl fun c _ => ?_
  rw [map_smul, h2, smul_eq_mul, mul_comm]

section
variable {W : Type} [NormedAddCommGroup W] [NormedSpace ℝ W] {m : KinModel ℝ}

/-- all coordinates of the vector are differentiable -/
structure Vec3.Smooth (f : W → Vec3 ℝ) : Prop where
  x : Differentiable ℝ fun w => (f w).x
  y : Differentiable ℝ fun w => (f w).y
  z : Differentiable ℝ fun w => (f w).z

/-- all coordinates of the quaternion are differentiable -/
structure Rot.Smooth (f : W → Rot ℝ) : Prop where
  x : Differentiable ℝ fun w => (f w).x
  y : Differentiable ℝ fun w => (f w).y
  z : Differentiable ℝ fun w => (f w).z
  w : Differentiable ℝ fun w => (f w).w

/-- a pose that is a differentiable function, with unit quaternions -/
structure Pose.Smooth (f : W → Pose ℝ) : Prop where
  pos : Vec3.Smooth fun w => (f w).position
  rot : Rot.Smooth fun w => (f w).rotation
  unit : ∀ w, (f w).rotation.norm2 = 1

theorem Pose.smooth_const {p : Pose ℝ} (h : p.rotation.norm2 = 1) : Pose.Smooth fun _ : W => p where
  pos := ⟨differentiable_const _, differentiable_const _, differentiable_const _⟩
  rot := ⟨differentiable_const _, differentiable_const _, differentiable_const _, differentiable_const _⟩
  unit _ := h

theorem Pose.Smooth.transform {f g : W → Pose ℝ} (hf : Pose.Smooth f) (hg : Pose.Smooth g) :
    Pose.Smooth fun w => Pose.transform (f w) (g w) := by
  have px := hf.pos.x
  have py := hf.pos.y
  have pz := hf.pos.z
  have rx := hf.rot.x
  have ry := hf.rot.y
  have rz := hf.rot.z
  have rw' := hf.rot.w
  have qx := hg.pos.x
  have qy := hg.pos.y
  have qz := hg.pos.z
  have sx := hg.rot.x
  have sy := hg.rot.y
  have sz := hg.rot.z
  have sw := hg.rot.w
  refine ⟨?_, ?_, ?_⟩
  · simp only [Pose.transform, fun w => Rot.rotate_unit _ (g w).position (hf.unit w), Vec3.add]
    constructor <;> simp only <;> fun_prop
  · simp only [Pose.transform, Rot.mul]
    constructor <;> simp only <;> fun_prop
  · intro w
    rw [Pose.transform, Rot.norm2_mul, hf.unit, hg.unit, one_mul]

theorem Rot.smooth_fromRPY {r p y : W → ℝ} (hr : Differentiable ℝ r) (hp : Differentiable ℝ p) (hy : Differentiable ℝ y) :
    Rot.Smooth fun w => Rot.fromRPY (r w) (p w) (y w) := by
  simp only [Rot.fromRPY_raw]
  constructor <;> simp only <;> fun_prop

theorem smooth_motion {j : Joint ℝ} (hj : (j.type = .revolute ∨ j.type = .continuous) → j.axis.IsUnit) {θ : ℝ} {M : Pose ℝ}
    (h : JointMotion j θ M) {α : W → ℝ} (hα : Differentiable ℝ α) :
    ∃ N : W → Pose ℝ, Pose.Smooth N ∧ ∀ w, JointMotion j (α w) (N w) := by
  cases h with
  | rot ht =>
    refine ⟨_, ?_, fun w => jointMotion_rot ht (α w)⟩
    refine ⟨⟨differentiable_const _, differentiable_const _, differentiable_const _⟩, ?_, fun w => Rot.axisQ_unit (hj ht) _⟩
    simp only [Rot.axisQ]
    constructor <;> simp only <;> fun_prop
  | slide ht =>
    refine ⟨_, ?_, fun w => JointMotion.slide ht⟩
    refine ⟨?_, ⟨differentiable_const _, differentiable_const _, differentiable_const _, differentiable_const _⟩,
      fun w => Rot.norm2_one⟩
    constructor <;> simp only <;> fun_prop

/-- The pose of a link, when the joint angles and the base pose are differentiable functions. -/
theorem IsPose.smooth (hu : UnitModel m) {α : Nat → W → ℝ} (hα : ∀ i, Differentiable ℝ (α i)) {b : W → Pose ℝ}
    (hb : Pose.Smooth b) {l : Nat} {E : Pose ℝ} (h : IsPose m l E) :
    ∃ T : W → Pose ℝ, Pose.Smooth T ∧ ∀ w (m' : KinModel ℝ), m'.links = m.links → m'.jheap = m.jheap → m'.base = b w →
      (∀ i < m.angles.length, m'.angles[i]? = some (α i w)) → IsPose m' l (T w) := by
  induction h with
  | root e1 e2 =>
    refine ⟨b, hb, ?_⟩
    intro w m' h1 h2 h3 _
    rw [← h3]
    exact .root (by rw [h1]; exact e1) e2
  | child e1 e2 e3 e4 e5 _ ih =>
    obtain ⟨B, hB, hT⟩ := ih
    obtain ⟨ho, hax⟩ := hu.edges e1 e2 e3 e4
    cases e5 with
    | fixed hty =>
      refine ⟨_, hB.transform (Pose.smooth_const ho), ?_⟩
      intro w m' h1 h2 h3 h4
      exact .child (by rw [h1]; exact e1) e2 e3 (by rw [h2]; exact e4) (.fixed hty) (hT w m' h1 h2 h3 h4)
    | movable hid hang hM =>
      obtain ⟨N, hN, hNM⟩ := smooth_motion hax hM (hα _)
      refine ⟨_, hB.transform ((Pose.smooth_const ho).transform hN), ?_⟩
      intro w m' h1 h2 h3 h4
      exact .child (by rw [h1]; exact e1) e2 e3 (by rw [h2]; exact e4)
        (.movable hid (h4 _ (List.getElem?_eq_some_iff.mp hang).1) (hNM w)) (hT w m' h1 h2 h3 h4)

end

section
variable {ls : List (RawLink ℝ)} {js : List (RawJoint ℝ)} {m0 mc : KinModel ℝ} {cs : List (Call ℝ)} {ids : List Nat} {bt : BaseType}

theorem exists_lastListing {i : Nat} : i ∈ ids → ∃ c, ∃ h : c < ids.length, ids[c] = i ∧ LastListing ids c := by
  induction ids with
  | nil => simp
  | cons a ids ih =>
    intro h
    by_cases hm : i ∈ ids
    · obtain ⟨c, hc, e, hl⟩ := ih hm
      refine ⟨c + 1, by simpa using hc, by simpa using e, ?_⟩
      intro c' h' e'
      obtain ⟨d, rfl⟩ : ∃ d, c' = d + 1 := ⟨c' - 1, by omega⟩
      exact hl d (by omega) (by simpa using e')
    · obtain rfl : i = a := by simpa [hm] using h
      refine ⟨0, by simp, rfl, ?_⟩
      intro c' h' e'
      obtain ⟨d, rfl⟩ : ∃ d, c' = d + 1 := ⟨c' - 1, by omega⟩
      exact hm (List.mem_of_getElem? (by simpa using e'))

/-- The pose of a link as a differentiable function of a whole configuration: joint entries, then base entries. -/
theorem Reach.smooth (hc : Reach ls js m0 cs mc) (hu : UnitDesc js) (huc : UnitCalls cs) {l : Nat} (hl : l < mc.links.length) :
    ∃ T : (Fin (ids.length + bt.dof) → ℝ) → Pose ℝ, Pose.Smooth T ∧
      ∀ w mk, Reach ls js m0 (cs ++ configCalls ids bt (List.ofFn w)) mk → IsPose mk l (T w) := by
  obtain ⟨E, hE⟩ := hc.abs.inv.exists_pose hl
  have hα : ∀ i, ∃ α : (Fin (ids.length + bt.dof) → ℝ) → ℝ, Differentiable ℝ α ∧
      ∀ w, angleAfter i 0 (cs ++ configCalls ids bt (List.ofFn w)) = α w := by
    intro i
    by_cases hi : i ∈ ids
    · obtain ⟨c, hcl, e, hn⟩ := exists_lastListing hi
      refine ⟨fun w => w ⟨c, by omega⟩, by fun_prop, ?_⟩
      intro w
      rw [angleAfter_append, angleAfter_config, lastWrite_last hn (i := i) (v := w ⟨c, by omega⟩) (by simp [hcl, e]) (by
        rw [List.getElem?_take_of_lt hcl, List.getElem?_ofFn, dif_pos (by omega)])]
      rfl
    · refine ⟨fun _ => angleAfter i 0 cs, by fun_prop, ?_⟩
      intro w
      rw [angleAfter_append, angleAfter_config, lastWrite_eq_none hi]
      rfl
  choose α hα1 hα2 using hα
  have hb : ∃ b : (Fin (ids.length + bt.dof) → ℝ) → Pose ℝ, Pose.Smooth b ∧
      ∀ w, baseAfter Pose.identity (cs ++ configCalls ids bt (List.ofFn w)) = b w := by
    have hu0 : (baseAfter Pose.identity cs).rotation.norm2 = 1 := huc.base (b := Pose.identity) Rot.norm2_one
    simp only [baseAfter_append, baseAfter_config]
    have hd : ∀ w : Fin (ids.length + bt.dof) → ℝ, (List.ofFn w).drop ids.length = List.ofFn fun d : Fin bt.dof => w (d.natAdd ids.length) := by
      intro w
      apply List.ext_getElem
      · simp
      · intro i h1 h2
        simp
    cases bt with
    | fixed => exact ⟨fun _ => baseAfter Pose.identity cs, Pose.smooth_const hu0, fun w => rfl⟩
    | planer =>
      refine ⟨fun w => ⟨⟨w ((0 : Fin 3).natAdd ids.length), w ((1 : Fin 3).natAdd ids.length), 0⟩,
        Rot.fromRPY 0 0 (w ((2 : Fin 3).natAdd ids.length))⟩, ⟨⟨?_, ?_, ?_⟩, ?_, ?_⟩, ?_⟩
      · simp only; fun_prop
      · simp only; fun_prop
      · simp only; fun_prop
      · exact Rot.smooth_fromRPY (by fun_prop) (by fun_prop) (by fun_prop)
      · intro w; exact Rot.norm2_fromRPY _ _ _
      · intro w
        simp only [basePart, hd]
        simp [BaseType.dof, List.ofFn_succ]
    | floating =>
      refine ⟨fun w => ⟨⟨w ((0 : Fin 6).natAdd ids.length), w ((1 : Fin 6).natAdd ids.length), w ((2 : Fin 6).natAdd ids.length)⟩,
        Rot.fromRPY (w ((3 : Fin 6).natAdd ids.length)) (w ((4 : Fin 6).natAdd ids.length)) (w ((5 : Fin 6).natAdd ids.length))⟩,
        ⟨⟨?_, ?_, ?_⟩, ?_, ?_⟩, ?_⟩
      · simp only; fun_prop
      · simp only; fun_prop
      · simp only; fun_prop
      · exact Rot.smooth_fromRPY (by fun_prop) (by fun_prop) (by fun_prop)
      · intro w; exact Rot.norm2_fromRPY _ _ _
      · intro w
        simp only [basePart, hd]
        simp [BaseType.dof, List.ofFn_succ]
  obtain ⟨b, hb1, hb2⟩ := hb
  obtain ⟨T, hT, hTp⟩ := hE.smooth (hc.unitModel hu huc) hα1 hb1
  refine ⟨T, hT, ?_⟩
  intro w mk hmk
  obtain ⟨θ, p, c1, e1⟩ := hmk.sets_eq hc (configCalls_isSet ids bt _)
  refine hTp w mk (by rw [e1]) (by rw [e1]) (by rw [hmk.abs.base, hb2]) ?_
  intro i hi
  rw [hmk.angles_get i (by rw [← hc.anglesLen]; exact hi), hα2]

end

section
variable {W : Type} [NormedAddCommGroup W] [NormedSpace ℝ W]

theorem differentiableAt_arg {A B : W → ℝ} {w : W} (hA : DifferentiableAt ℝ A w) (hB : DifferentiableAt ℝ B w)
    (hs : (⟨A w, B w⟩ : ℂ) ∈ Complex.slitPlane) : DifferentiableAt ℝ (fun v => Complex.arg ⟨A v, B v⟩) w := by
  have h1 : DifferentiableAt ℝ (fun v => ((A v : ℂ) + (B v : ℂ) * Complex.I)) w :=
    (Complex.ofRealCLM.differentiableAt.comp w hA).add ((Complex.ofRealCLM.differentiableAt.comp w hB).mul_const _)
  have e0 : ∀ v, (A v : ℂ) + (B v : ℂ) * Complex.I = ⟨A v, B v⟩ := fun v => (Complex.mk_eq_add_mul_I _ _).symm
  simp only [e0] at h1
  have h2 : DifferentiableAt ℝ Complex.log (⟨A w, B w⟩ : ℂ) := (Complex.differentiableAt_log hs).restrictScalars ℝ
  have h3 := Complex.imCLM.differentiableAt.comp w (h2.comp w h1)
  have e : (fun v => Complex.arg ⟨A v, B v⟩) = Complex.imCLM ∘ Complex.log ∘ fun v => ⟨A v, B v⟩ := by
    ext v
    simp [Complex.log_im]
  rw [e]
  exact h3

/-- the reported rows are differentiable away from the singularity and the jumps of roll-pitch-yaw -/
theorem Pose.Smooth.row {T : W → Pose ℝ} (hT : Pose.Smooth T) (rt : RotType) {r : Nat} {w : W}
    (hreg : rt = .rpy → 3 ≤ r → |(T w).rotation.sarg| < 99999 / 100000 ∧ (T w).rotation.OffCut) :
    DifferentiableAt ℝ (fun v => (T v).row rt r) w := by
  match r with
  | 0 => exact hT.pos.x w
  | 1 => exact hT.pos.y w
  | 2 => exact hT.pos.z w
  | r + 3 =>
    cases rt with
    | ignore => exact differentiableAt_const _
    | xyzw =>
      match r with
      | 0 => exact hT.rot.x w
      | 1 => exact hT.rot.y w
      | 2 => exact hT.rot.z w
      | 3 => exact hT.rot.w w
      | _ + 4 => exact differentiableAt_const _
    | rpy =>
      obtain ⟨hb, hc1, hc2⟩ := hreg rfl (by omega)
      have dx := hT.rot.x
      have dy := hT.rot.y
      have dz := hT.rot.z
      have dw := hT.rot.w
      have hs : Differentiable ℝ fun v => (T v).rotation.sarg := by
        simp only [Rot.sarg, real_two]; fun_prop
      have hnear : ∀ᶠ v in nhds w, |(T v).rotation.sarg| < 99999 / 100000 :=
        ((hs w).continuousAt.abs).eventually_lt continuousAt_const hb
      have e1 := hnear.mono fun v hv => congrArg Vec3.x (Rot.getRPY_of_band hv)
      have e2 := hnear.mono fun v hv => congrArg Vec3.y (Rot.getRPY_of_band hv)
      have e3 := hnear.mono fun v hv => congrArg Vec3.z (Rot.getRPY_of_band hv)
      have hR := Rot.getRPY_of_band hb
      rw [hR] at hc1 hc2
      simp only at hc1 hc2
      have hut := hT.unit w
      have hlt : (T w).rotation.sarg ^ 2 < 1 := by
        rw [sq_lt_one_iff_abs_lt_one]; exact lt_trans hb (by norm_num)
      have hsx : (T w).rotation.sarg = -2 * ((T w).rotation.x * (T w).rotation.z - (T w).rotation.w * (T w).rotation.y) := by
        simp [Rot.sarg]
      simp only [Rot.norm2] at hut
      match r with
      | 0 =>
        show DifferentiableAt ℝ (fun v => (T v).rotation.getRPY.x) w
        have hA : DifferentiableAt ℝ (fun v => (T v).rotation.w * (T v).rotation.w - (T v).rotation.x * (T v).rotation.x - (T v).rotation.y * (T v).rotation.y + (T v).rotation.z * (T v).rotation.z) w := by fun_prop
        have hB : DifferentiableAt ℝ (fun v => 2 * ((T v).rotation.y * (T v).rotation.z + (T v).rotation.w * (T v).rotation.x)) w := by fun_prop
        refine (differentiableAt_arg hA hB (Rot.slit_of ?_ hc1)).congr_of_eventuallyEq e1
        · have : (1 : ℝ) - (T w).rotation.sarg ^ 2 > 0 := by linarith
          refine lt_of_lt_of_eq this ?_
          rw [hsx]
          linear_combination -(1 + (T w).rotation.w * (T w).rotation.w + (T w).rotation.x * (T w).rotation.x + (T w).rotation.y * (T w).rotation.y + (T w).rotation.z * (T w).rotation.z) * hut
      | 1 =>
        show DifferentiableAt ℝ (fun v => (T v).rotation.getRPY.y) w
        have key := (Real.differentiableAt_arcsin.mpr ⟨by rintro h; rw [h] at hlt; norm_num at hlt,
          by rintro h; rw [h] at hlt; norm_num at hlt⟩ : DifferentiableAt ℝ Real.arcsin (T w).rotation.sarg)
        have key := DifferentiableAt.comp (f := fun v => (T v).rotation.sarg) w key (hs w)
        exact key.congr_of_eventuallyEq e2
      | 2 =>
        show DifferentiableAt ℝ (fun v => (T v).rotation.getRPY.z) w
        have hA : DifferentiableAt ℝ (fun v => (T v).rotation.w * (T v).rotation.w + (T v).rotation.x * (T v).rotation.x - (T v).rotation.y * (T v).rotation.y - (T v).rotation.z * (T v).rotation.z) w := by fun_prop
        have hB : DifferentiableAt ℝ (fun v => 2 * ((T v).rotation.x * (T v).rotation.y + (T v).rotation.w * (T v).rotation.z)) w := by fun_prop
        refine (differentiableAt_arg hA hB (Rot.slit_of ?_ hc2)).congr_of_eventuallyEq e3
        · have : (1 : ℝ) - (T w).rotation.sarg ^ 2 > 0 := by linarith
          refine lt_of_lt_of_eq this ?_
          rw [hsx]
          linear_combination -(1 + (T w).rotation.w * (T w).rotation.w + (T w).rotation.x * (T w).rotation.x + (T w).rotation.y * (T w).rotation.y + (T w).rotation.z * (T w).rotation.z) * hut
      | _ + 3 => exact differentiableAt_const _

end
end Tinyfk
