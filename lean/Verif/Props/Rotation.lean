import Verif.Proofs.Rotation
import Verif.Props.PySolve
import Mathlib.LinearAlgebra.CrossProduct

/-!
# Properties: rotations and rigid motions over ℝ

C20, C21, C22, C23, C24.
-/

namespace Tinyfk

open Matrix

section
variable {ls : List (RawLink ℝ)} {js : List (RawJoint ℝ)} {m0 m m' : KinModel ℝ} {cs : List (Call ℝ)}

/-- the angles left by a history -/
theorem exists_angles (m0 : KinModel ℝ) (cs : List (Call ℝ)) : ∃ θ, AnglesAfter m0 cs θ := by
  refine ⟨fun s => match m0.jointIds.find s with | some i => angleAfter i 0 cs | none => 0, ?_⟩
  intro s i h
  rw [getJointIds_one] at h
  simp only [h]

/-- the pose `get_link_pose` returns -/
theorem Reach.pose_ok (h : Reach ls js m0 cs m) (hf : Shallow ls js m0 cs) {θ : String → ℝ} (hθ : AnglesAfter m0 cs θ)
    {n : String} {l : Nat} (hn : getLinkIds [n] m = .ok [l] m) : ∃ T m', getLinkPose l m = .ok T m' ∧
      ∀ T', WorldPose ls js (AllWelds ls m0 cs) θ (baseAfter Pose.identity cs) n T' ↔ T' = T := by
  obtain ⟨T, hT, hcase⟩ := C01_link_pose h hθ hn
  rcases hcase with ⟨m2, e3⟩ | ⟨_, d, hd, hlt⟩
  · exact ⟨T, m2, e3, hT⟩
  · have := hf n d hd; omega

/-! ### C20 -/

/-- **C20.** The quaternion the library makes from roll, pitch, yaw has unit norm and turns every vector by
`Rz(yaw) Ry(pitch) Rx(roll)`; in particular after `set_base_pose([x, y, z, r, p, w])`, which succeeds,
the root link has this rotation and the position `(x, y, z)`. -/
theorem C20_rpy (h : Reach ls js m0 cs m) (hf : Shallow ls js m0 cs) {n : String} {l : Nat}
    (hn : getLinkIds [n] m = .ok [l] m)
    (hroot : ∃ r ∈ ls, r.name = n ∧ ∀ j ∈ js, j.childLinkName ≠ n) (x y z r p w : ℝ) :
    (Rot.fromRPY r p w).norm2 = 1 ∧
    (∀ v : Vec3 ℝ, ((Rot.fromRPY r p w).rotate v).toV = (rotZ w * rotY p * rotX r) *ᵥ v.toV) ∧
    ∃ m1 T m2, setBasePoseVec [x, y, z, r, p, w] m = .ok () m1 ∧ getLinkPose l m1 = .ok T m2 ∧
      T.position = ⟨x, y, z⟩ ∧ T.rotation.matrix = rotZ w * rotY p * rotX r := by
  refine ⟨Rot.norm2_fromRPY r p w, fun v => by rw [Rot.rotate_matrix, Rot.matrix_fromRPY], ?_⟩
  obtain ⟨r0, hr0, rfl, hr1⟩ := hroot
  obtain ⟨m1, e1⟩ : ∃ m1, Tinyfk.setBasePose (poseOfXyzrpy x y z r p w) m = .ok () m1 := ⟨_, rfl⟩
  have h1 : Reach ls js m0 (cs ++ [.setBasePose (poseOfXyzrpy x y z r p w)]) m1 := h.snoc e1
  have hs : ∀ c ∈ [Call.setBasePose (poseOfXyzrpy x y z r p w)], c.IsSet := by
    intro c hc; simp only [List.mem_singleton] at hc; subst hc; trivial
  have hn1 : getLinkIds [r0.name] m1 = .ok [l] m1 := by
    obtain ⟨_, _, _, rfl⟩ := h1.sets_eq h hs
    rw [getLinkIds_one] at hn ⊢; exact hn
  obtain ⟨θ, hθ⟩ := exists_angles m0 (cs ++ [.setBasePose (poseOfXyzrpy x y z r p w)])
  obtain ⟨T, m2, e3, hT⟩ := h1.pose_ok (hf.sets hs) hθ hn1
  have hTb := (hT _).mp (.root hr0 hr1)
  refine ⟨m1, T, m2, e1, e3, ?_⟩
  rw [← hTb, baseAfter_append]
  exact ⟨rfl, Rot.matrix_fromRPY r p w⟩

/-! ### C21 -/

/-- the rotations in the calls are unit quaternions -/
def UnitCalls (cs : List (Call ℝ)) : Prop := ∀ c ∈ cs, match c with
  | .setBasePose p => p.rotation.norm2 = 1
  | .addNewLink _ _ p => p.rotation.norm2 = 1
  | _ => True

theorem basePart_unit {n : Nat} {bt : BaseType} {q : List ℝ} {p : Pose ℝ} (h : basePart n bt q = some p) :
    p.rotation.norm2 = 1 := by
  unfold basePart at h
  split at h <;> cases h <;> exact Rot.norm2_fromRPY _ _ _

theorem configCalls_unit (ids : List Nat) (bt : BaseType) (q : List ℝ) : UnitCalls (configCalls ids bt q) := by
  intro c hc
  unfold configCalls at hc
  simp only [List.mem_cons] at hc
  rcases hc with rfl | hc
  · trivial
  · split at hc
    · next p hp =>
      simp only [List.mem_singleton] at hc
      subst hc
      exact basePart_unit hp
    · simp at hc

theorem batchCalls_unit (ids : List Nat) (bt : BaseType) (qs : List (List ℝ)) : UnitCalls (batchCalls ids bt qs) := by
  intro c hc
  obtain ⟨q, _, hq⟩ := List.mem_flatMap.mp hc
  exact configCalls_unit ids bt q c hq

theorem UnitCalls.append {a b : List (Call ℝ)} (ha : UnitCalls a) (hb : UnitCalls b) : UnitCalls (a ++ b) := by
  intro c hc
  rcases List.mem_append.mp hc with h | h
  · exact ha c h
  · exact hb c h

/-- all rotations that Python calls put in are unit quaternions -/
theorem PyCall.effect_unit (c : PyCall ℝ) : UnitCalls c.effect := by
  have nil : UnitCalls ([] : List (Call ℝ)) := fun c hc => by simp at hc
  cases c <;> simp only [PyCall.effect]
  case setQ => exact configCalls_unit _ _ _
  case solveFk => exact batchCalls_unit _ _ _
  case solveComFk => exact batchCalls_unit _ _ _
  case sqdists => exact batchCalls_unit _ _ _
  case inertia => intro c hc; simp only [List.mem_singleton] at hc; subst hc; trivial
  case addNewLink => intro c hc; simp only [List.mem_singleton] at hc; subst hc; exact Rot.norm2_fromRPY _ _ _
  all_goals exact nil

theorem PyReach.unitCalls {h : List (PyCall ℝ)} {s : PyModel ℝ} (hr : PyReach ls js m0 h cs s) : UnitCalls cs := by
  obtain ⟨xml, hr'⟩ := hr.runs
  clear hr
  generalize (⟨xml, m0, [], []⟩ : PyModel ℝ) = s0 at hr'
  induction hr' with
  | nil => intro c hc; simp at hc
  | @ok _ _ _ c _ _ _ _ _ ih => exact c.effect_unit.append ih
  | exn _ _ _ ih => exact ih

theorem UnitCalls.base {b : Pose ℝ} (hb : b.rotation.norm2 = 1) (hc : UnitCalls cs) : (baseAfter b cs).rotation.norm2 = 1 := by
  induction cs generalizing b with
  | nil => exact hb
  | cons c cs ih =>
    have hcs : UnitCalls cs := fun x hx => hc x (by simp [hx])
    have h1 := hc c (by simp)
    cases c
    case setBasePose p => exact ih h1 hcs
    all_goals exact ih hb hcs

theorem UnitCalls.welds {ns : List String} (hc : UnitCalls cs) {w : Weld ℝ} (hw : w ∈ weldsAfter ns cs) :
    w.offset.rotation.norm2 = 1 := by
  induction cs generalizing ns with
  | nil => simp [weldsAfter] at hw
  | cons c cs ih =>
    have hcs : UnitCalls cs := fun x hx => hc x (by simp [hx])
    have h1 := hc c (by simp)
    cases c
    case addNewLink n p o =>
      simp only [weldsAfter] at hw
      split at hw
      · exact ih hcs hw
      · rcases List.mem_append.mp hw with h2 | h2
        · split at h2
          · simp only [List.mem_singleton] at h2; subst h2; exact h1
          · simp at h2
        · exact ih hcs h2
    all_goals exact ih hcs hw

theorem UnitCalls.allWelds (hc : UnitCalls cs) {w : Weld ℝ} (hw : AllWelds ls m0 cs w) : w.offset.rotation.norm2 = 1 := by
  rcases hw with h | h
  · cases h; exact Rot.norm2_one
  · exact hc.welds h

theorem RawEdge.unit {j : RawJoint ℝ} (hj : j.origin.rotation.norm2 = 1 ∧
    ((j.type = .revolute ∨ j.type = .continuous) → j.axis.IsUnit)) {θ : ℝ} {T : Pose ℝ} (h : RawEdge j θ T) :
    T.rotation.norm2 = 1 := by
  cases h with
  | fixed => exact hj.1
  | rot ht =>
    have := Rot.norm2_axis (hj.2 ht) θ
    simp only [real_half, real_sin, real_cos, Pose.transform]
    rw [Rot.norm2_mul, hj.1, this, one_mul]
  | slide =>
    simp only [Pose.transform, Rot.mul_one]
    exact hj.1

/-- poses of a description with unit rotations are unit -/
theorem WorldPose.unit (hu : UnitDesc js) {welds : Weld ℝ → Prop} (hw : ∀ w, welds w → w.offset.rotation.norm2 = 1)
    {θ : String → ℝ} {b T : Pose ℝ} (hb : b.rotation.norm2 = 1) {n : String} (h : WorldPose ls js welds θ b n T) :
    T.rotation.norm2 = 1 := by
  induction h with
  | root => exact hb
  | joint hj _ he ih => rw [Pose.transform, Rot.norm2_mul, ih, he.unit (hu _ hj), one_mul]
  | weld h1 _ ih => rw [Pose.transform, Rot.norm2_mul, ih, hw _ h1, one_mul]

/-- **C21.** All link poses are proper rigid motions: for a description whose rotations and turning axes
are unit, after any history of calls with unit rotations, the rotation `get_link_pose` returns is a unit
quaternion and its matrix is a proper rotation. -/
theorem C21_rotation (h : Reach ls js m0 cs m) (hu : UnitDesc js) (hc : UnitCalls cs) {n : String} {l : Nat}
    (hn : getLinkIds [n] m = .ok [l] m) {T : Pose ℝ} (e : getLinkPose l m = .ok T m') :
    T.rotation.norm2 = 1 ∧ T.rotation.matrix ∈ Matrix.specialOrthogonalGroup (Fin 3) ℝ := by
  obtain ⟨θ, hθ⟩ := exists_angles m0 cs
  obtain ⟨T', hT, hcase⟩ := C01_link_pose h hθ hn
  rcases hcase with ⟨m2, e3⟩ | ⟨⟨u, e3⟩, _⟩
  · rw [e] at e3; cases e3
    have := WorldPose.unit hu (fun w hw => hc.allWelds hw) (hc.base (b := Pose.identity) Rot.norm2_one) ((hT _).mpr rfl)
    exact ⟨this, Rot.matrix_mem this⟩
  · rw [e] at e3; cases e3

/-- **C21, from Python.** After any history of Python calls the quaternions that
`solve_fk(..., rot_type=XYZW, use_cache=False)` returns have unit norm. -/
theorem C21_solve_fk {h : List (PyCall ℝ)} {s : PyModel ℝ} {qs : QArg ℝ} {es ids : List Nat} {bt : BaseType} {wj : Bool}
    (hr : PyReach ls js m0 h cs s) (hf : Shallow ls js m0 cs) (hu : UnitDesc js) (ha : FkArgs m0 s qs es ids bt)
    (hne : wj = true → (∃ r ∈ ls, r.inertial.isSome) ∨ weldsAfter (names0 m0) cs ≠ []) :
    ∃ P J s', pySolveFk qs es ids .xyzw bt wj false s = .ok (P, J) s' ∧ P.rows = qs.rows.length * es.length ∧ P.cols = 7 ∧
      ∀ r < P.rows, P.f r 3 ^ 2 + P.f r 4 ^ 2 + P.f r 5 ^ 2 + P.f r 6 ^ 2 = 1 := by
  obtain ⟨mc, hat⟩ := hr.at
  obtain ⟨P, J, s', mc', e, _, hres⟩ := hat.pySolveFk (rt := .xyzw) (wj := wj) (uc := false) hf ha (.inr rfl) hne
  refine ⟨P, J, s', e, hres.pRows, hres.pCols, ?_⟩
  intro r hr'
  rw [hres.pRows] at hr'
  have hpos : 0 < es.length := by
    rcases Nat.eq_zero_or_pos es.length with h0 | h0
    · rw [h0, Nat.mul_zero] at hr'; omega
    · exact h0
  have hk : r / es.length < qs.rows.length := (Nat.div_lt_iff_lt_mul hpos).mpr hr'
  have hj : r % es.length < es.length := Nat.mod_lt _ hpos
  obtain ⟨q, hq⟩ : ∃ q, qs.rows[r / es.length]? = some q := ⟨_, List.getElem?_eq_getElem hk⟩
  obtain ⟨l, hl⟩ : ∃ l, es[r % es.length]? = some l := ⟨_, List.getElem?_eq_getElem hj⟩
  have hll := ha.links l (List.mem_of_getElem? hl)
  obtain ⟨lk, hlk⟩ : ∃ lk, s.robot.links[l]? = some lk := ⟨_, List.getElem?_eq_getElem hll⟩
  have hn : getLinkIds [lk.name] s.robot = .ok [l] s.robot := by
    obtain ⟨⟨st, c, hst⟩, _⟩ := hat.same
    rw [getLinkIds_one]
    rw [hst] at hlk ⊢
    exact (hat.reach.abs.inv.graph.linkNames _ _).mpr ⟨lk, hlk, rfl⟩
  obtain ⟨θ, hθ⟩ := exists_angles m0 (cs ++ configCalls ids bt q)
  obtain ⟨T, hT, hP⟩ := hres.world hat ha.shape ha.joints _ _ l q lk.name θ hq hl hn hθ
  have hu' := WorldPose.unit hu (fun w hw => hr.unitCalls.allWelds hw)
    ((hr.unitCalls.append (configCalls_unit ids bt q)).base (b := Pose.identity) Rot.norm2_one) ((hT _).mpr rfl)
  rw [Nat.mul_comm, Nat.div_add_mod] at hP
  obtain ⟨_, _, _, h3, h4, h5, h6⟩ := hP
  rw [h3, h4, h5, h6, ← hu', Rot.norm2]
  ring

/-- a quaternion and a non-zero multiple of it rotate alike -/
theorem Rot.rotate_scale {q : Rot ℝ} (h : q.norm2 ≠ 0) {c : ℝ} (hc : c ≠ 0) (v : Vec3 ℝ) :
    (⟨q.x / c, q.y / c, q.z / c, q.w / c⟩ : Rot ℝ).rotate v = q.rotate v := by
  have hn : (⟨q.x / c, q.y / c, q.z / c, q.w / c⟩ : Rot ℝ).norm2 = q.norm2 / c ^ 2 := by
    simp only [Rot.norm2]; field_simp
  have h0 : 0 ≤ q.norm2 := by
    simp only [Rot.norm2]; nlinarith [mul_self_nonneg q.w, mul_self_nonneg q.x, mul_self_nonneg q.y, mul_self_nonneg q.z]
  have hpos : 0 < q.norm2 := lt_of_le_of_ne h0 (Ne.symm h)
  have hpos' : 0 < q.norm2 / c ^ 2 := div_pos hpos (by positivity)
  simp only [Rot.rotate, Rot.getInverse, hn, real_lt, hpos, hpos', if_true, Rot.mul]
  generalize q.norm2 = n at *
  ext <;> (simp only; field_simp)

/-- **C21, single rotations.** For every quaternion that is not zero, rotating vectors keeps inner
products (so lengths and angles) and cross products (so handedness), its matrix is a proper rotation, and
the product of two quaternions rotates by one after the other. -/
theorem C21_quaternion {q : Rot ℝ} (h : q.norm2 ≠ 0) :
    q.matrix ∈ Matrix.specialOrthogonalGroup (Fin 3) ℝ ∧
    (∀ u v : Vec3 ℝ, (q.rotate u).toV ⬝ᵥ (q.rotate v).toV = u.toV ⬝ᵥ v.toV ∧
      (q.rotate u).toV ⨯₃ (q.rotate v).toV = (q.rotate (Vec3.cross u v)).toV ∧
      (Vec3.cross u v).toV = u.toV ⨯₃ v.toV) ∧
    ∀ (r : Rot ℝ) (v : Vec3 ℝ), (Rot.mul r q).rotate v = r.rotate (q.rotate v) := by
  have h0 : 0 ≤ q.norm2 := by
    simp only [Rot.norm2]; nlinarith [mul_self_nonneg q.w, mul_self_nonneg q.x, mul_self_nonneg q.y, mul_self_nonneg q.z]
  have hs : Real.sqrt q.norm2 ≠ 0 := Real.sqrt_ne_zero'.mpr (lt_of_le_of_ne h0 (Ne.symm h))
  have hsq : Real.sqrt q.norm2 ^ 2 = q.norm2 := Real.sq_sqrt h0
  have hrot := Rot.rotate_scale h hs
  have hu : (⟨q.x / Real.sqrt q.norm2, q.y / Real.sqrt q.norm2, q.z / Real.sqrt q.norm2, q.w / Real.sqrt q.norm2⟩ :
      Rot ℝ).norm2 = 1 := by
    have : (⟨q.x / Real.sqrt q.norm2, q.y / Real.sqrt q.norm2, q.z / Real.sqrt q.norm2, q.w / Real.sqrt q.norm2⟩ :
      Rot ℝ).norm2 = q.norm2 / Real.sqrt q.norm2 ^ 2 := by
      generalize Real.sqrt q.norm2 = c at *
      simp only [Rot.norm2]; field_simp
    rw [this, hsq, div_self h]
  generalize (⟨q.x / Real.sqrt q.norm2, q.y / Real.sqrt q.norm2, q.z / Real.sqrt q.norm2, q.w / Real.sqrt q.norm2⟩ :
    Rot ℝ) = p at *
  have hm : p.matrix = q.matrix := by
    ext i j
    fin_cases i <;> fin_cases j <;> simp [Rot.matrix, hrot]
  refine ⟨hm ▸ Rot.matrix_mem hu, fun u v => ⟨?_, ?_, ?_⟩, fun r v => Rot.rotate_mul r q v⟩
  · rw [Rot.rotate_matrix, Rot.rotate_matrix, ← hm, Matrix.dotProduct_mulVec, Matrix.vecMul_mulVec,
      mul_eq_one_comm.mp (Rot.matrix_orthogonal hu), Matrix.vecMul_one]
  · rw [← hrot, ← hrot, ← hrot, Rot.rotate_unit p u hu, Rot.rotate_unit p v hu, Rot.rotate_unit p _ hu]
    simp only [Rot.norm2] at hu
    have key : ∀ a b c : ℝ, a = (p.w * p.w + p.x * p.x + p.y * p.y + p.z * p.z) * b → b = c → a = c := by
      intro a b c h1 h2; rw [h1, hu, one_mul, h2]
    rw [cross_apply]
    ext i
    fin_cases i <;> simp only [Vec3.toV, Vec3.cross, Fin.zero_eta, Fin.mk_one, Fin.reduceFinMk, Matrix.cons_val_zero,
      Matrix.cons_val_one, Matrix.cons_val] <;> refine key _ _ _ ?_ rfl <;> ring
  · rw [cross_apply]; ext i; fin_cases i <;> simp [Vec3.toV, Vec3.cross]

/-! ### C22 -/

/-- **C22.** Poses with nonzero rotation form a group under `transform`: composition is associative,
the identity pose is neutral, `inverse` is the inverse on both sides, and composing rotates and
translates vectors one after the other. -/
theorem C22_group (a b c : Pose ℝ) :
    Pose.transform (Pose.transform a b) c = Pose.transform a (Pose.transform b c) ∧
    Pose.transform a Pose.identity = a ∧ Pose.transform Pose.identity a = a ∧
    (a.rotation.norm2 ≠ 0 → Pose.transform a a.inverse = Pose.identity ∧ Pose.transform a.inverse a = Pose.identity) ∧
    (Pose.transform a b).hom = a.hom * b.hom :=
  ⟨Pose.transform_assoc a b c, Pose.transform_identity a, Pose.identity_transform a,
    fun h => ⟨Pose.transform_inverse h, Pose.inverse_transform h⟩, Pose.hom_transform a b⟩

/-! ### C23 -/

theorem RawEdge.hom {j : RawJoint ℝ} (hj : (j.type = .revolute ∨ j.type = .continuous) → j.axis.IsUnit) {θ : ℝ} {T : Pose ℝ}
    (h : RawEdge j θ T) : HomEdge j θ T.hom := by
  cases h with
  | fixed h => exact .fixed h
  | rot ht =>
    rw [Pose.hom_transform]
    have : (Pose.hom ⟨Vec3.zero, ⟨j.axis.x * Scalar.sin (θ * half), j.axis.y * Scalar.sin (θ * half),
        j.axis.z * Scalar.sin (θ * half), Scalar.cos (θ * half)⟩⟩) = homog (rodrigues j.axis θ) 0 := by
      have := Rot.matrix_axis (hj ht) θ
      simp only [Pose.hom, real_half, real_sin, real_cos, this]
      congr 1
      ext i; fin_cases i <;> rfl
    rw [this]
    exact .rot ht
  | slide ht =>
    rw [Pose.hom_transform]
    have : (Pose.hom ⟨⟨j.axis.x * θ, j.axis.y * θ, j.axis.z * θ⟩, Rot.one⟩) = homog 1 (θ • j.axis.toV) := by
      simp only [Pose.hom, Rot.matrix_one]
      congr 1
      ext i; fin_cases i <;> simp [Vec3.toV, mul_comm]
    rw [this]
    exact .slide ht

theorem HomEdge.unique {j : RawJoint ℝ} {θ : ℝ} {A B : Matrix (Fin 4) (Fin 4) ℝ} (h : HomEdge j θ A) (h' : HomEdge j θ B) :
    A = B := by
  cases h <;> cases h' <;> first | rfl | simp_all

theorem WorldPose.homPose (hu : UnitDesc js) {welds : Weld ℝ → Prop} {θ : String → ℝ} {b T : Pose ℝ} {n : String}
    (h : WorldPose ls js welds θ b n T) : HomPose ls js welds θ b.hom n T.hom := by
  induction h with
  | root h1 h2 => exact .root h1 h2
  | joint hj _ he ih => rw [Pose.hom_transform]; exact .joint hj ih (he.hom (hu _ hj).2)
  | weld h1 _ ih => rw [Pose.hom_transform]; exact .weld h1 ih

/-- every matrix of textbook kinematics comes from a pose -/
theorem HomPose.worldPose (hu : UnitDesc js) {welds : Weld ℝ → Prop} {θ : String → ℝ} {b : Pose ℝ} {n : String}
    {H : Matrix (Fin 4) (Fin 4) ℝ} (h : HomPose ls js welds θ b.hom n H) :
    ∃ T, WorldPose ls js welds θ b n T ∧ H = T.hom := by
  induction h with
  | root h1 h2 => exact ⟨b, .root h1 h2, rfl⟩
  | weld h1 _ ih =>
    obtain ⟨T, hT, rfl⟩ := ih
    exact ⟨_, .weld h1 hT, (Pose.hom_transform _ _).symm⟩
  | @joint j P E hj _ he ih =>
    obtain ⟨T, hT, rfl⟩ := ih
    obtain ⟨S, hS⟩ : ∃ S, RawEdge j (θ j.name) S := by
      cases he with
      | fixed h => exact ⟨_, .fixed h⟩
      | rot h => exact ⟨_, .rot h⟩
      | slide h => exact ⟨_, .slide h⟩
    exact ⟨_, .joint hj hT hS, by rw [Pose.hom_transform, he.unique (hS.hom (hu _ hj).2)]⟩

/-- **C23.** `get_link_pose` is textbook forward kinematics: after any history the homogeneous matrix of
the returned pose is the product of the base matrix and, along the chain, of origin matrices times
Rodrigues rotations about the axis (turning joints) or translations along it (sliding joints); this
product is defined and unique. -/
theorem C23_homogeneous (h : Reach ls js m0 cs m) (hf : Shallow ls js m0 cs) (hu : UnitDesc js) {θ : String → ℝ}
    (hθ : AnglesAfter m0 cs θ) {n : String} {l : Nat} (hn : getLinkIds [n] m = .ok [l] m) :
    ∃ T m', getLinkPose l m = .ok T m' ∧
      ∀ H, HomPose ls js (AllWelds ls m0 cs) θ (baseAfter Pose.identity cs).hom n H ↔ H = T.hom := by
  obtain ⟨T, m', e, hT⟩ := h.pose_ok hf hθ hn
  refine ⟨T, m', e, fun H => ⟨fun hH => ?_, ?_⟩⟩
  · obtain ⟨T', hT', rfl⟩ := hH.worldPose hu
    rw [(hT T').mp hT']
  · rintro rfl
    exact WorldPose.homPose hu ((hT T).mpr rfl)

/-! ### C24 -/

theorem WorldPose.move {welds : Weld ℝ → Prop} {θ : String → ℝ} (g : Pose ℝ) {b T : Pose ℝ} {n : String}
    (h : WorldPose ls js welds θ b n T) : WorldPose ls js welds θ (Pose.transform g b) n (Pose.transform g T) := by
  induction h with
  | root h1 h2 => exact .root h1 h2
  | joint hj _ he ih => rw [← Pose.transform_assoc]; exact .joint hj ih he
  | weld h1 _ ih => rw [← Pose.transform_assoc]; exact .weld h1 ih

/-- **C24.** Moving the base by a rigid motion `g` moves every link by `g`, whatever the history and
the joint angles: if link `l` has pose `T` when the base is at `b`, it has pose `g T` when the base is at
`g b`. -/
theorem C24_base_motion (h : Reach ls js m0 cs m) (hf : Shallow ls js m0 cs) (g b : Pose ℝ) {n : String} {l : Nat}
    (hn : getLinkIds [n] m = .ok [l] m) :
    ∃ m1 T m2 m3 m4, setBasePose b m = .ok () m1 ∧ getLinkPose l m1 = .ok T m2 ∧
      setBasePose (Pose.transform g b) m = .ok () m3 ∧ getLinkPose l m3 = .ok (Pose.transform g T) m4 := by
  have key : ∀ p : Pose ℝ, ∃ m1 T m2, setBasePose p m = .ok () m1 ∧ getLinkPose l m1 = .ok T m2 ∧
      ∀ θ, AnglesAfter m0 cs θ → ∀ T', WorldPose ls js (AllWelds ls m0 cs) θ p n T' ↔ T' = T := by
    intro p
    obtain ⟨m1, e1⟩ : ∃ m1, Tinyfk.setBasePose p m = .ok () m1 := ⟨_, rfl⟩
    have h1 : Reach ls js m0 (cs ++ [.setBasePose p]) m1 := h.snoc e1
    have hs : ∀ c ∈ [Call.setBasePose p], c.IsSet := by
      intro c hc; simp only [List.mem_singleton] at hc; subst hc; trivial
    have hn1 : getLinkIds [n] m1 = .ok [l] m1 := by
      obtain ⟨_, _, _, rfl⟩ := h1.sets_eq h hs
      rw [getLinkIds_one] at hn ⊢; exact hn
    have hang : ∀ θ, AnglesAfter m0 cs θ → AnglesAfter m0 (cs ++ [.setBasePose p]) θ := by
      intro θ hθ s i hs
      rw [hθ s i hs, angleAfter_append]; rfl
    obtain ⟨θ0, hθ0⟩ := exists_angles m0 cs
    obtain ⟨T, m2, e2, _⟩ := h1.pose_ok (hf.sets hs) (hang θ0 hθ0) hn1
    refine ⟨m1, T, m2, e1, e2, ?_⟩
    intro θ hθ T'
    obtain ⟨T2, m3, e3, hT⟩ := h1.pose_ok (hf.sets hs) (hang θ hθ) hn1
    rw [e2] at e3; cases e3
    rw [← hT, allWelds_sets hs, baseAfter_append]
    rfl
  obtain ⟨m1, T, m2, e1, e2, hT⟩ := key b
  obtain ⟨m3, T', m4, e3, e4, hT'⟩ := key (Pose.transform g b)
  obtain ⟨θ, hθ⟩ := exists_angles m0 cs
  have := (hT' θ hθ _).mp (((hT θ hθ T).mpr rfl).move g)
  exact ⟨m1, T, m2, m3, m4, e1, e2, e3, by rw [e4, this]⟩

end

namespace Example

theorem unitDesc : UnitDesc js := by
  intro j hj
  simp only [js, List.mem_cons, List.not_mem_nil, or_false] at hj
  rcases hj with rfl | rfl | rfl <;> simp [turn, slide, weld, Vec3.IsUnit]

theorem unitCalls_hist : UnitCalls hist := by
  intro c hc
  simp only [hist, List.mem_cons, List.not_mem_nil, or_false] at hc
  rcases hc with rfl | rfl | rfl | rfl | rfl | rfl <;> simp [Pose.identity]

theorem base_id : getLinkIds ["base"] m1 = .ok [1] m1 := by
  rw [getLinkIds_one, m1_reach.abs.inv.graph.linkNames]
  have := congrArg (fun l => l[1]?) names_m1
  simpa [List.getElem?_map] using this

-- the hypotheses of C20, C21, C23, C24 are met by the link "tool" after a history
example := C20_rpy m1_reach shallow base_id ⟨⟨"base", none⟩, by simp [ls], rfl, by simp [js, turn, slide, weld]⟩
  1 2 3 (1/2) (1/3) 4
example := C21_quaternion (q := ⟨1, 2, 3, 4⟩) (by norm_num [Rot.norm2])
example := @C21_rotation _ _ _ _ m1 _ m1_reach unitDesc unitCalls_hist _ _ tool_id
example := C21_solve_fk (wj := true) s1_reach s1_shallow unitDesc (a1_args s1_links) (fun _ => .inl inertial)
example := C23_homogeneous m1_reach shallow unitDesc angles_m1 tool_id
example := C24_base_motion m1_reach shallow ⟨⟨0, 0, 1⟩, Rot.fromRPY 1 2 3⟩ ⟨⟨1, 0, 0⟩, Rot.fromRPY 3 2 1⟩ tool_id

end Example
end Tinyfk
