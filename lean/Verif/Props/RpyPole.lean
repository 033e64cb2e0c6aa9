import Verif.Proofs.RpyPole
import Verif.Props.BasePose

/-!
# C75: roll, pitch and yaw near the singularity

Within the cut-off `|sin pitch| ≥ 0.99999` the code returns roll 0 and pitch ±π/2. These theorems say how
far the rotation of the three returned angles is from the rotation asked about, for every rotation.
-/

namespace Tinyfk

open Matrix

/-- `Near r p w R ε`: every entry of the matrix with roll `r`, pitch `p` and yaw `w` is within `ε` of `R` -/
def RpyNear (r p w : ℝ) (R : Matrix (Fin 3) (Fin 3) ℝ) (ε : ℝ) : Prop :=
  ∀ i j, |(rotZ w * rotY p * rotX r) i j - R i j| ≤ ε

/-- **C75, the base pose.** After `set_base_pose` of any six numbers, `get_base_pose` returns the same
position, and angles whose rotation is within 0.009 of the one that was set. -/
theorem C75_base_pose (m : KinModel ℝ) (x y z r p w : ℝ) :
    ∃ m1 r' p' w', setBasePoseVec [x, y, z, r, p, w] m = .ok () m1 ∧
      getBasePose m1 = .ok [x, y, z, r', p', w'] m1 ∧
      RpyNear r' p' w' (rotZ w * rotY p * rotX r) (9 / 1000) := by
  refine ⟨_, (Rot.fromRPY r p w).getRPY.x, (Rot.fromRPY r p w).getRPY.y, (Rot.fromRPY r p w).getRPY.z, rfl, rfl, ?_⟩
  intro i j
  rw [← Rot.matrix_fromRPY r p w]
  exact Rot.getRPY_close (Rot.norm2_fromRPY r p w) i j

/-- **C75, the base pose at the singularity.** If the pitch is exactly ±π/2, the error is only that of
the decimal constant for π/2 in the source. -/
theorem C75_base_pose_pole (m : KinModel ℝ) (x y z r w : ℝ) {p : ℝ} (hp : p = Real.pi / 2 ∨ p = -(Real.pi / 2)) :
    ∃ m1 r' p' w', setBasePoseVec [x, y, z, r, p, w] m = .ok () m1 ∧
      getBasePose m1 = .ok [x, y, z, r', p', w'] m1 ∧
      RpyNear r' p' w' (rotZ w * rotY p * rotX r) (1 / 10 ^ 19) := by
  refine ⟨_, (Rot.fromRPY r p w).getRPY.x, (Rot.fromRPY r p w).getRPY.y, (Rot.fromRPY r p w).getRPY.z, rfl, rfl, ?_⟩
  intro i j
  rw [← Rot.matrix_fromRPY r p w]
  refine Rot.getRPY_pole (Rot.norm2_fromRPY r p w) ?_ i j
  rw [(Rot.fromRPY_entries r p w).2.2.2.2]
  rcases hp with h | h <;> simp [h]

/-- **Exactness fails near the singularity.** A pitch strictly inside the cut-off comes back as the
constant: what `get_base_pose` returns is not what was set, and describes another rotation. -/
theorem C75_not_exact (m : KinModel ℝ) {p : ℝ} (h1 : 99999 / 100000 ≤ Real.sin p) (h2 : Real.sin p < 1 - 1 / 10 ^ 40) :
    ∃ m1 r' p' w', setBasePoseVec [0, 0, 0, 0, p, 0] m = .ok () m1 ∧
      getBasePose m1 = .ok [0, 0, 0, r', p', w'] m1 ∧
      rotZ w' * rotY p' * rotX r' ≠ rotZ 0 * rotY p * rotX 0 := by
  refine ⟨_, (Rot.fromRPY 0 p 0).getRPY.x, (Rot.fromRPY 0 p 0).getRPY.y, (Rot.fromRPY 0 p 0).getRPY.z, rfl, rfl, ?_⟩
  have hs : (Rot.fromRPY 0 p 0).sarg = Real.sin p := (Rot.fromRPY_entries 0 p 0).2.2.2.2
  have hg : (Rot.fromRPY 0 p 0).getRPY.x = 0 ∧ (Rot.fromRPY 0 p 0).getRPY.y = pi2 := by
    have h3 : ¬ Real.sin p ≤ -(99999 / 100000) := by linarith
    simp [Rot.getRPY, hs, h1, h3]
  rw [hg.1, hg.2]
  intro he
  have h := congrFun (congrFun he 2) 0
  have e : ∀ r p w : ℝ, (rotZ w * rotY p * rotX r) 2 0 = -Real.sin p := by
    intro r p w
    rw [← Rot.matrix_fromRPY, Rot.matrix_unit (Rot.norm2_fromRPY r p w)]
    have := (Rot.fromRPY_entries r p w).2.2.2.2
    simp [Rot.sarg] at this ⊢
    linarith
  rw [e, e] at h
  have := Rot.pi2_near.1
  linarith

/-- such a pitch: 1.5685 -/
example : ∃ p : ℝ, 99999 / 100000 ≤ Real.sin p ∧ Real.sin p < 1 - 1 / 10 ^ 40 := by
  refine ⟨Real.arcsin (999995 / 1000000), ?_, ?_⟩ <;> rw [Real.sin_arcsin (by norm_num) (by norm_num)] <;> norm_num

section
variable {ls : List (RawLink ℝ)} {js : List (RawJoint ℝ)} {m0 : KinModel ℝ} {cs : List (Call ℝ)}

/-- **C75, rows.** `solve_fk(..., rot_type=RPY, use_cache=False)`: whatever the rotation of a link in a
configuration, the rotation of the three angles in its row is within 0.009 of it. -/
theorem C75_rpy_rows {h : List (PyCall ℝ)} {s : PyModel ℝ} {qs : QArg ℝ} {es ids : List Nat} {bt : BaseType} {wj : Bool}
    (hr : PyReach ls js m0 h cs s) (hf : Shallow ls js m0 cs) (hu : UnitDesc js) (ha : FkArgs m0 s qs es ids bt)
    (hne : wj = true → (∃ r ∈ ls, r.inertial.isSome) ∨ weldsAfter (names0 m0) cs ≠ []) :
    ∃ P J s', pySolveFk qs es ids .rpy bt wj false s = .ok (P, J) s' ∧ P.cols = 6 ∧
      ∀ (k j l : Nat) (q : List ℝ) (n : String) (θ : String → ℝ),
        qs.rows[k]? = some q → es[j]? = some l → getLinkIds [n] s.robot = .ok [l] s.robot →
        AnglesAfter m0 (cs ++ configCalls ids bt q) θ →
        ∃ T, (∀ T', WorldPose ls js (AllWelds ls m0 cs) θ
            (baseAfter Pose.identity (cs ++ configCalls ids bt q)) n T' ↔ T' = T) ∧
          RpyNear (P.f (k * es.length + j) 3) (P.f (k * es.length + j) 4) (P.f (k * es.length + j) 5)
            T.rotation.matrix (9 / 1000) := by
  obtain ⟨mc, hat⟩ := hr.at
  obtain ⟨P, J, s', mc', e, _, hres⟩ := hat.pySolveFk (rt := .rpy) (wj := wj) (uc := false) hf ha (.inr rfl) hne
  refine ⟨P, J, s', e, hres.pCols, ?_⟩
  intro k j l q n θ hq hl hn hθ
  obtain ⟨T, hT, hP⟩ := hres.world hat ha.shape ha.joints _ _ l q n θ hq hl hn hθ
  refine ⟨T, hT, ?_⟩
  have hu' := WorldPose.unit hu (fun w hw => hr.unitCalls.allWelds hw)
    ((hr.unitCalls.append (configCalls_unit ids bt q)).base (b := Pose.identity) Rot.norm2_one) ((hT _).mpr rfl)
  obtain ⟨_, _, _, h3, h4, h5⟩ := hP
  rw [h3, h4, h5]
  exact Rot.getRPY_close hu'

end

namespace Example

-- the tip of the example robot, after a history, in two configurations with a planar base
example := C75_rpy_rows (wj := true) s1_reach s1_shallow unitDesc (a1_args s1_links) (fun _ => .inl inertial)

end Example

end Tinyfk
