import Verif.Spec.Inertia
import Verif.Props.Com
import Verif.Props.Rotation
import Verif.Props.CacheWitness
import Mathlib.Analysis.Convex.Combination

/-!
# Properties: centre of mass and inertia over ℝ

C30 (hull), C32, C33, C34, C06 (witness).
-/

namespace Tinyfk

open Matrix

section
variable {ls : List (RawLink ℝ)} {js : List (RawJoint ℝ)} {m0 m m' : KinModel ℝ} {cs : List (Call ℝ)}

theorem foldl_add_sum {α : Type} (f : α → ℝ) (l : List α) (a : ℝ) :
    l.foldl (fun s x => s + f x) a = a + (l.map f).sum := by
  induction l generalizing a with
  | nil => simp
  | cons x l ih => simp only [List.foldl_cons, ih, List.map_cons, List.sum_cons]; ring

theorem comOf_eq (bs : List (Inertial ℝ × Pose ℝ)) : comOf bs =
    ⟨(bs.map fun x => x.1.mass * (bodyCentre x).x).sum / massOf bs, (bs.map fun x => x.1.mass * (bodyCentre x).y).sum / massOf bs,
      (bs.map fun x => x.1.mass * (bodyCentre x).z).sum / massOf bs⟩ := by
  simp only [comOf, foldl_add_sum, massOf, zero_add]

theorem massOf_pos {bs : List (Inertial ℝ × Pose ℝ)} (hp : ∀ x ∈ bs, 0 < x.1.mass) (hne : bs ≠ []) : 0 < massOf bs := by
  apply List.sum_pos
  · intro y hy
    obtain ⟨x, hx, rfl⟩ := List.mem_map.mp hy
    exact hp x hx
  · simpa using hne

/-- the mean as one vector -/
theorem comOf_toV (bs : List (Inertial ℝ × Pose ℝ)) : (comOf bs).toV =
    (massOf bs)⁻¹ • (bs.map fun x => x.1.mass • (bodyCentre x).toV).sum := by
  have key : ∀ i, ((bs.map fun x => x.1.mass • (bodyCentre x).toV).sum) i =
      (bs.map fun x => x.1.mass * (bodyCentre x).toV i).sum := by
    intro i
    induction bs with
    | nil => simp
    | cons x bs ih => simp [ih]
  rw [comOf_eq]
  ext i
  rw [Pi.smul_apply, key]
  fin_cases i <;> simp [Vec3.toV, div_eq_inv_mul]

/-- with positive masses the mean is in the convex hull of the centres -/
theorem comOf_hull {bs : List (Inertial ℝ × Pose ℝ)} (hp : ∀ x ∈ bs, 0 < x.1.mass) (hne : bs ≠ []) :
    (comOf bs).toV ∈ convexHull ℝ {v | ∃ x ∈ bs, v = (bodyCentre x).toV} := by
  rw [comOf_toV]
  induction bs with
  | nil => exact absurd rfl hne
  | cons x bs ih =>
    by_cases hb : bs = []
    · subst hb
      have hm : x.1.mass ≠ 0 := (hp x (by simp)).ne'
      have : (massOf [x])⁻¹ • (List.map (fun x => x.1.mass • (bodyCentre x).toV) [x]).sum = (bodyCentre x).toV := by
        simp [massOf, smul_smul, inv_mul_cancel₀ hm]
      rw [this]
      exact subset_convexHull ℝ _ ⟨x, by simp, rfl⟩
    · have h1 := ih (fun y hy => hp y (by simp [hy])) hb
      have hM : 0 < massOf bs := massOf_pos (fun y hy => hp y (by simp [hy])) hb
      have hm : 0 < x.1.mass := hp x (by simp)
      have h2 := convexHull_mono (𝕜 := ℝ) (s := {v | ∃ y ∈ bs, v = (bodyCentre y).toV})
        (t := {v | ∃ y ∈ x :: bs, v = (bodyCentre y).toV}) (fun v ⟨y, hy, e⟩ => ⟨y, by simp [hy], e⟩) h1
      have h3 : (bodyCentre x).toV ∈ convexHull ℝ {v | ∃ y ∈ x :: bs, v = (bodyCentre y).toV} :=
        subset_convexHull ℝ _ ⟨x, by simp, rfl⟩
      have hsum : massOf (x :: bs) = x.1.mass + massOf bs := by simp [massOf]
      have := (convex_convexHull ℝ {v | ∃ y ∈ x :: bs, v = (bodyCentre y).toV}) h3 h2
        (a := x.1.mass / (x.1.mass + massOf bs)) (b := massOf bs / (x.1.mass + massOf bs)) (by positivity) (by positivity)
        (by field_simp)
      convert this using 1
      rw [hsum, List.map_cons, List.sum_cons, smul_add, smul_smul, smul_smul]
      congr 1
      · rw [div_eq_inv_mul]
      · congr 1; field_simp

/-- **C30, convexity.** With positive masses and at least one body, the centre of mass lies in the
convex hull of the centres of the bodies. -/
theorem C30_com_hull (h : Reach ls js m0 cs m) (hf : Shallow ls js m0 cs) {θ : String → ℝ} (hθ : AnglesAfter m0 cs θ)
    (hp : ∀ r ∈ ls, ∀ i, r.inertial = some i → 0 < i.mass) (hne : ∃ r ∈ ls, r.inertial.isSome) :
    ∃ bs c m', Bodies ls js (AllWelds ls m0 cs) θ (baseAfter Pose.identity cs) bs ∧ getCom m = .ok c m' ∧
      c.toV ∈ convexHull ℝ {v | ∃ x ∈ bs, v = (bodyCentre x).toV} := by
  obtain ⟨bs, hb, m', e⟩ := C30_com h hf hθ
  have hbs := (hb bs).mpr rfl
  refine ⟨bs, _, m', hbs, e, comOf_hull ?_ ?_⟩
  · obtain ⟨sorted, hperm, _, hF⟩ := hbs
    rw [List.forall₂_iff_get] at hF
    intro x hx
    obtain ⟨k, hk, rfl⟩ := List.getElem_of_mem hx
    have := hF.2 k (by rw [hF.1]; exact hk) hk
    simp only [List.get_eq_getElem] at this
    exact hp _ (hperm.mem_iff.mp (List.mem_filter.mp (List.getElem_mem _)).1) _ this.1
  · rintro rfl
    obtain ⟨sorted, hperm, _, hF⟩ := hbs
    obtain ⟨r, hr, hri⟩ := hne
    have : r ∈ sorted.filter fun r => r.inertial.isSome := List.mem_filter.mpr ⟨hperm.mem_iff.mpr hr, by simpa using hri⟩
    rw [List.forall₂_nil_right_iff] at hF
    rw [hF] at this
    simp at this

theorem Bodies.mem {welds : Weld ℝ → Prop} {θ : String → ℝ} {b : Pose ℝ} {bs : List (Inertial ℝ × Pose ℝ)}
    (hb : Bodies ls js welds θ b bs) {x : Inertial ℝ × Pose ℝ} (hx : x ∈ bs) :
    ∃ r ∈ ls, r.inertial = some x.1 ∧ WorldPose ls js welds θ b r.name x.2 := by
  obtain ⟨sorted, hperm, _, hF⟩ := hb
  rw [List.forall₂_iff_get] at hF
  obtain ⟨k, hk, rfl⟩ := List.getElem_of_mem hx
  have := hF.2 k (by rw [hF.1]; exact hk) hk
  simp only [List.get_eq_getElem] at this
  exact ⟨_, hperm.mem_iff.mp (List.mem_filter.mp (List.getElem_mem _)).1, this⟩

/-- the masses of the bodies add up to the mass of the description -/
theorem Bodies.massOf {welds : Weld ℝ → Prop} {θ : String → ℝ} {b : Pose ℝ} {bs : List (Inertial ℝ × Pose ℝ)}
    (hb : Bodies ls js welds θ b bs) : massOf bs = ((ls.filterMap RawLink.inertial).map Inertial.mass).sum := by
  obtain ⟨sorted, hp, _, hF⟩ := hb
  rw [← ((hp.filterMap RawLink.inertial).map Inertial.mass).sum_eq]
  clear hp
  have key : ∀ (l : List (RawLink ℝ)) (bs : List (Inertial ℝ × Pose ℝ)),
      List.Forall₂ (fun r x => r.inertial = some x.1 ∧ WorldPose ls js welds θ b r.name x.2)
      (l.filter fun r => r.inertial.isSome) bs → Tinyfk.massOf bs = ((l.filterMap RawLink.inertial).map Inertial.mass).sum := by
    intro l
    induction l with
    | nil => intro bs h; simp only [List.filter_nil, List.forall₂_nil_left_iff] at h; subst h; simp [Tinyfk.massOf]
    | cons r l ih =>
      intro bs h
      cases hr : r.inertial with
      | none =>
        simp only [List.filter_cons, hr, Option.isSome_none, Bool.false_eq_true, if_false] at h
        rw [List.filterMap_cons, hr]; exact ih _ h
      | some i =>
        simp only [List.filter_cons, hr, Option.isSome_some, if_true] at h
        rw [List.filterMap_cons, hr]
        cases h with
        | cons h1 h2 =>
          have := ih _ h2
          simp only [Tinyfk.massOf, List.map_cons, List.sum_cons] at this ⊢
          rw [this]
          rw [hr] at h1
          rw [Option.some.inj h1.1]
  exact key _ _ hF

/-- moving the base moves the bodies -/
theorem Bodies.move {welds : Weld ℝ → Prop} {θ : String → ℝ} (g : Pose ℝ) {b : Pose ℝ} {bs : List (Inertial ℝ × Pose ℝ)}
    (hb : Bodies ls js welds θ b bs) :
    Bodies ls js welds θ (Pose.transform g b) (bs.map fun x => (x.1, Pose.transform g x.2)) := by
  obtain ⟨sorted, hp, hs, hF⟩ := hb
  refine ⟨sorted, hp, hs, ?_⟩
  rw [List.forall₂_map_right_iff]
  exact hF.imp fun r x h => ⟨h.1, h.2.move g⟩

/-! ### From the code's matrices to Mathlib's -/

theorem of_mul (A B : M3 ℝ) : Matrix.of (M3.mul A B) = Matrix.of A * Matrix.of B := by
  ext i j
  simp [M3.mul, Matrix.mul_apply, Fin.sum_univ_three]

theorem of_mat {q : Rot ℝ} (h : q.norm2 = 1) : Matrix.of q.mat = q.matrix := by
  rw [Rot.matrix_unit h]
  have h' : q.w * q.w + q.x * q.x + q.y * q.y + q.z * q.z = 1 := by rw [← h]; simp [Rot.norm2]
  ext i j
  fin_cases i <;> fin_cases j <;> simp [Rot.mat, M3.ofRows] <;> first | (linear_combination -h') | (linear_combination h') | ring

theorem of_tensor (i : Inertial ℝ) : Matrix.of i.mat = i.tensor := by
  ext a b
  fin_cases a <;> fin_cases b <;> rfl

theorem of_transTerm (m : ℝ) (v : Vec3 ℝ) : Matrix.of (transTerm m v) = steiner m v.toV := by
  have hs : Real.sqrt (v.x * v.x + v.y * v.y + v.z * v.z) * Real.sqrt (v.x * v.x + v.y * v.y + v.z * v.z) =
      v.x * v.x + v.y * v.y + v.z * v.z := Real.mul_self_sqrt (by nlinarith [mul_self_nonneg v.x, mul_self_nonneg v.y, mul_self_nonneg v.z])
  ext a b
  fin_cases a <;> fin_cases b <;>
    simp [transTerm, M3.ofRows, steiner, Vec3.toV, Matrix.vecMulVec, dotProduct, Fin.sum_univ_three, hs]

theorem of_foldl (c : Vec3 ℝ) (xs : List (Inertial ℝ × Pose ℝ)) (acc : M3 ℝ) :
    Matrix.of (xs.foldl (inertiaStep c) acc) = Matrix.of acc + (xs.map fun x =>
      Matrix.of x.2.rotation.mat * x.1.tensor * (Matrix.of x.2.rotation.mat)ᵀ + steiner x.1.mass (x.2.position.toV - c.toV)).sum := by
  induction xs generalizing acc with
  | nil => simp
  | cons x xs ih =>
    rw [List.foldl_cons, ih, List.map_cons, List.sum_cons, ← add_assoc]
    congr 1
    have e1 : (Vec3.sub x.2.position c).toV = x.2.position.toV - c.toV := by
      ext i; fin_cases i <;> simp [Vec3.toV, Vec3.sub]
    rw [← e1, ← of_transTerm, ← of_tensor, ← of_mul]
    show _ = _ + (Matrix.of _ * Matrix.of (M3.tr _) + _)
    rw [← of_mul]
    rfl

theorem sum_isSymm (l : List (Matrix (Fin 3) (Fin 3) ℝ)) (h : ∀ A ∈ l, A.IsSymm) : l.sum.IsSymm := by
  induction l with
  | nil => simp [Matrix.IsSymm]
  | cons A l ih => rw [List.sum_cons]; exact (h A (by simp)).add (ih fun B hB => h B (by simp [hB]))

theorem sum_posSemidef (l : List (Matrix (Fin 3) (Fin 3) ℝ)) (h : ∀ A ∈ l, A.PosSemidef) : l.sum.PosSemidef := by
  induction l with
  | nil => exact Matrix.PosSemidef.zero
  | cons A l ih => rw [List.sum_cons]; exact (h A (by simp)).add (ih fun B hB => h B (by simp [hB]))

theorem tensor_symm (i : Inertial ℝ) : i.tensor.IsSymm := by
  ext a b
  fin_cases a <;> fin_cases b <;> rfl

theorem steiner_symm (m : ℝ) (d : Fin 3 → ℝ) : (steiner m d).IsSymm := by
  ext a b
  simp only [steiner, Matrix.transpose_apply, Matrix.smul_apply, Matrix.sub_apply, Matrix.one_apply, Matrix.vecMulVec_apply, mul_comm, eq_comm]

theorem conj_symm {A R : Matrix (Fin 3) (Fin 3) ℝ} (h : A.IsSymm) : (R * A * Rᵀ).IsSymm := by
  rw [Matrix.IsSymm, Matrix.transpose_mul, Matrix.transpose_mul, Matrix.transpose_transpose, h.eq, Matrix.mul_assoc]

theorem steiner_posSemidef {m : ℝ} (hm : 0 ≤ m) (d : Fin 3 → ℝ) : (steiner m d).PosSemidef := by
  refine Matrix.PosSemidef.smul ?_ hm
  refine Matrix.PosSemidef.of_dotProduct_mulVec_nonneg ?_ ?_
  · have := steiner_symm 1 d
    rw [steiner, one_smul] at this
    rw [Matrix.IsHermitian, Matrix.conjTranspose_eq_transpose_of_trivial]
    exact this
  · intro x
    simp only [star_trivial, Matrix.mulVec, dotProduct, Fin.sum_univ_three, Matrix.sub_apply, Matrix.smul_apply,
      Matrix.one_apply, Matrix.vecMulVec_apply, smul_eq_mul]
    simp
    nlinarith [sq_nonneg (d 0 * x 1 - d 1 * x 0), sq_nonneg (d 0 * x 2 - d 2 * x 0), sq_nonneg (d 1 * x 2 - d 2 * x 1)]

theorem conj_posSemidef {A R : Matrix (Fin 3) (Fin 3) ℝ} (h : A.PosSemidef) : (R * A * Rᵀ).PosSemidef := by
  have := h.mul_mul_conjTranspose_same R
  rwa [Matrix.conjTranspose_eq_transpose_of_trivial] at this

theorem steiner_conj {R : Matrix (Fin 3) (Fin 3) ℝ} (h : R * Rᵀ = 1) (m : ℝ) (d : Fin 3 → ℝ) :
    steiner m (R *ᵥ d) = R * steiner m d * Rᵀ := by
  have h2 : Rᵀ * R = 1 := mul_eq_one_comm.mp h
  have hd : (R *ᵥ d) ⬝ᵥ (R *ᵥ d) = d ⬝ᵥ d := by
    rw [Matrix.dotProduct_mulVec, Matrix.vecMul_mulVec, h2, Matrix.vecMul_one]
  rw [steiner, steiner, hd, Matrix.mul_smul, Matrix.smul_mul, Matrix.mul_sub, Matrix.sub_mul, Matrix.mul_smul, Matrix.smul_mul,
    Matrix.mul_one, h, Matrix.mul_vecMulVec, Matrix.vecMulVec_mul, Matrix.vecMul_transpose]

theorem bodyCentre_move (g : Pose ℝ) (x : Inertial ℝ × Pose ℝ) :
    (bodyCentre (x.1, Pose.transform g x.2)).toV = g.rotation.matrix *ᵥ (bodyCentre x).toV + g.position.toV := by
  rw [← Rot.rotate_matrix]
  ext i
  simp only [bodyCentre, Pose.transform, Rot.rotate_mul, Rot.rotate_add]
  fin_cases i <;> simp [Vec3.toV, Vec3.add] <;> ring

theorem massOf_map (g : Pose ℝ) (bs : List (Inertial ℝ × Pose ℝ)) :
    massOf (bs.map fun x => (x.1, Pose.transform g x.2)) = massOf bs := by
  simp only [massOf, List.map_map]; rfl

/-- the centre of mass moves with the bodies -/
theorem comOf_move (g : Pose ℝ) {bs : List (Inertial ℝ × Pose ℝ)} (hM : massOf bs ≠ 0) :
    (comOf (bs.map fun x => (x.1, Pose.transform g x.2))).toV = g.rotation.matrix *ᵥ (comOf bs).toV + g.position.toV := by
  rw [comOf_toV, comOf_toV, massOf_map]
  have key : ((bs.map fun x => (x.1, Pose.transform g x.2)).map fun x => x.1.mass • (bodyCentre x).toV).sum =
      g.rotation.matrix *ᵥ (bs.map fun x => x.1.mass • (bodyCentre x).toV).sum + massOf bs • g.position.toV := by
    clear hM
    induction bs with
    | nil => simp [massOf]
    | cons x bs ih =>
      simp only [List.map_cons, List.sum_cons, ih, bodyCentre_move, massOf, Matrix.mulVec_add, Matrix.mulVec_smul, smul_add, add_smul]
      abel
  rw [key, smul_add, smul_smul, inv_mul_cancel₀ hM, one_smul, Matrix.mulVec_smul]

theorem inertiaUnrotated_move {g : Pose ℝ} (hg : g.rotation.norm2 = 1) {bs : List (Inertial ℝ × Pose ℝ)} (hM : massOf bs ≠ 0) :
    inertiaUnrotated (bs.map fun x => (x.1, Pose.transform g x.2)) (comOf (bs.map fun x => (x.1, Pose.transform g x.2))) =
      g.rotation.matrix * inertiaUnrotated bs (comOf bs) * g.rotation.matrixᵀ := by
  have hc := comOf_move g hM
  generalize comOf (bs.map fun x => (x.1, Pose.transform g x.2)) = c' at hc
  generalize comOf bs = c at hc
  clear hM
  induction bs with
  | nil => simp [inertiaUnrotated]
  | cons x bs ih =>
    simp only [inertiaUnrotated] at ih
    simp only [inertiaUnrotated, List.map_cons, List.sum_cons, ih, Matrix.mul_add, Matrix.add_mul]
    congr 1
    have e1 : (Pose.transform (Pose.transform g x.2) x.1.origin).position.toV - c'.toV =
        g.rotation.matrix *ᵥ ((Pose.transform x.2 x.1.origin).position.toV - c.toV) := by
      rw [hc, Matrix.mulVec_sub]
      have := bodyCentre_move g x
      simp only [bodyCentre] at this
      have e2 : ∀ T : Pose ℝ, (Pose.transform T x.1.origin).position = (Pose.transform T ⟨x.1.origin.position, Rot.one⟩).position :=
        fun T => rfl
      rw [e2, e2, this]; abel
    rw [bodyInertia, e1, steiner_conj (Rot.matrix_orthogonal hg), bodyInertia, Matrix.mul_add, Matrix.add_mul]
    congr 1
    have e3 : (Pose.transform g x.2).rotation.matrix = g.rotation.matrix * x.2.rotation.matrix := Rot.matrix_mul _ _
    simp only [e3, Matrix.transpose_mul, Matrix.mul_assoc]

/-- what `get_total_inertia_matrix` computes -/
theorem Reach.inertia (h : Reach ls js m0 cs m) (hf : Shallow ls js m0 cs) {θ : String → ℝ} (hθ : AnglesAfter m0 cs θ)
    (hu : UnitDesc js) (hc : UnitCalls cs) :
    ∃ bs, (∀ bs', Bodies ls js (AllWelds ls m0 cs) θ (baseAfter Pose.identity cs) bs' ↔ bs' = bs) ∧
      ∃ I m', getTotalInertia m = .ok I m' ∧ Matrix.of I = inertiaUnrotated bs (comOf bs) := by
  obtain ⟨bs, hb, hp⟩ := h.bodies hθ
  obtain ⟨m', e, _⟩ := (Query.getTotalInertia hp).run (h.ready hf)
  refine ⟨bs, hb, _, m', e, ?_⟩
  rw [of_foldl, comVal_bodies, inertiaUnrotated, List.map_map]
  have hz : Matrix.of (M3.zero : M3 ℝ) = 0 := rfl
  rw [hz, zero_add]
  congr 1
  apply List.map_congr_left
  intro x hx
  obtain ⟨r, _, hr⟩ := ((hb bs).mpr rfl).mem hx
  have hn : x.2.rotation.norm2 = 1 := hr.2.unit hu (fun w hw => hc.allWelds hw) (hc.base Rot.norm2_one)
  have hn' : (Rot.mul x.2.rotation Rot.one).norm2 = 1 := by rw [Rot.mul_one]; exact hn
  show Matrix.of (Rot.mul x.2.rotation Rot.one).mat * x.1.reset.tensor * (Matrix.of (Rot.mul x.2.rotation Rot.one).mat)ᵀ + _ = _
  rw [Rot.mul_one, of_mat hn]
  rfl

/-- the centre of mass, the inertia and its symmetry, without conditions on the rotations -/
theorem Reach.inertia_symm (h : Reach ls js m0 cs m) (hf : Shallow ls js m0 cs) :
    ∃ I m', getTotalInertia m = .ok I m' ∧ (Matrix.of I).IsSymm := by
  obtain ⟨θ, hθ⟩ := exists_angles m0 cs
  obtain ⟨bs, hb, hp⟩ := h.bodies hθ
  obtain ⟨m', e, _⟩ := (Query.getTotalInertia hp).run (h.ready hf)
  refine ⟨_, m', e, ?_⟩
  rw [of_foldl]
  refine Matrix.IsSymm.add ?_ (sum_isSymm _ ?_)
  · rfl
  · intro A hA
    obtain ⟨x, _, rfl⟩ := List.mem_map.mp hA
    exact (conj_symm (tensor_symm _)).add (steiner_symm _ _)

/-- **C33, symmetry.** After any history `get_total_inertia_matrix` returns a symmetric matrix. -/
theorem C33_symmetric (h : Reach ls js m0 cs m) (hf : Shallow ls js m0 cs) :
    ∃ I m', getTotalInertia m = .ok I m' ∧ ∀ r s, I r s = I s r := by
  obtain ⟨I, m', e, hs⟩ := h.inertia_symm hf
  exact ⟨I, m', e, fun r s => congrFun (congrFun hs s) r⟩

/-- **C33, positivity.** If the inertia tensors of the links are positive semidefinite and the masses
are not negative, the total inertia is positive semidefinite. -/
theorem C33_posSemidef (h : Reach ls js m0 cs m) (hf : Shallow ls js m0 cs) (hu : UnitDesc js) (hc : UnitCalls cs)
    (hp : ∀ r ∈ ls, ∀ i, r.inertial = some i → 0 ≤ i.mass ∧ i.tensor.PosSemidef) :
    ∃ I m', getTotalInertia m = .ok I m' ∧ (Matrix.of I).PosSemidef := by
  obtain ⟨θ, hθ⟩ := exists_angles m0 cs
  obtain ⟨bs, hb, I, m', e, hI⟩ := h.inertia hf hθ hu hc
  refine ⟨I, m', e, hI ▸ sum_posSemidef _ ?_⟩
  intro A hA
  obtain ⟨x, hx, rfl⟩ := List.mem_map.mp hA
  obtain ⟨r, hr, hr1, _⟩ := ((hb bs).mpr rfl).mem hx
  exact (conj_posSemidef (hp r hr _ hr1).2).add (steiner_posSemidef (hp r hr _ hr1).1 _)

/-- setting the base pose and asking for the inertia -/
theorem Reach.inertia_base (h : Reach ls js m0 cs m) (hf : Shallow ls js m0 cs) (hu : UnitDesc js) (hc : UnitCalls cs)
    {θ : String → ℝ} (hθ : AnglesAfter m0 cs θ) {b : Pose ℝ} (hb : b.rotation.norm2 = 1) :
    ∃ m1 bs I m2, setBasePose b m = .ok () m1 ∧ (∀ bs', Bodies ls js (AllWelds ls m0 cs) θ b bs' ↔ bs' = bs) ∧
      getTotalInertia m1 = .ok I m2 ∧ Matrix.of I = inertiaUnrotated bs (comOf bs) := by
  obtain ⟨m1, e1⟩ : ∃ m1, Tinyfk.setBasePose b m = .ok () m1 := ⟨_, rfl⟩
  have h1 : Reach ls js m0 (cs ++ [.setBasePose b]) m1 := h.snoc e1
  have hs : ∀ c ∈ [Call.setBasePose b], c.IsSet := by
    intro c hc; simp only [List.mem_singleton] at hc; subst hc; trivial
  have hang : AnglesAfter m0 (cs ++ [.setBasePose b]) θ := by
    intro s i hs
    rw [hθ s i hs, angleAfter_append]; rfl
  have hc' : UnitCalls (cs ++ [.setBasePose b]) := hc.append (by
    intro c hc; simp only [List.mem_singleton] at hc; subst hc; exact hb)
  obtain ⟨bs, hbs, I, m2, e2, hI⟩ := h1.inertia (hf.sets hs) hang hu hc'
  rw [allWelds_sets hs, baseAfter_append] at hbs
  exact ⟨m1, bs, I, m2, e1, hbs, e2, hI⟩

/-- **C33, base motion.** Moving the base from `b` to `g b` conjugates the inertia by the rotation of
`g`; the translation of `g` has no effect. -/
theorem C33_base_motion (h : Reach ls js m0 cs m) (hf : Shallow ls js m0 cs) (hu : UnitDesc js) (hc : UnitCalls cs)
    (hM : m.totalMass ≠ 0) {g b : Pose ℝ} (hg : g.rotation.norm2 = 1) (hb : b.rotation.norm2 = 1) :
    ∃ m1 I m2 m3 I' m4, setBasePose b m = .ok () m1 ∧ getTotalInertia m1 = .ok I m2 ∧
      setBasePose (Pose.transform g b) m = .ok () m3 ∧ getTotalInertia m3 = .ok I' m4 ∧
      Matrix.of I' = g.rotation.matrix * Matrix.of I * g.rotation.matrixᵀ := by
  obtain ⟨θ, hθ⟩ := exists_angles m0 cs
  obtain ⟨m1, bs, I, m2, e1, hbs, e2, hI⟩ := h.inertia_base hf hu hc hθ hb
  have hgb : (Pose.transform g b).rotation.norm2 = 1 := by
    show (Rot.mul g.rotation b.rotation).norm2 = 1
    rw [Rot.norm2_mul, hg, hb, mul_one]
  obtain ⟨m3, bs', I', m4, e3, hbs', e4, hI'⟩ := h.inertia_base hf hu hc hθ hgb
  have hB := (hbs bs).mpr rfl
  have : bs.map (fun x => (x.1, Pose.transform g x.2)) = bs' := (hbs' _).mp (hB.move g)
  refine ⟨m1, I, m2, m3, I', m4, e1, e2, e3, e4, ?_⟩
  rw [hI, hI', ← this]
  exact inertiaUnrotated_move hg (by rw [hB.massOf, ← C35_total_mass_real h]; exact hM)

/-- **C33, translation.** The inertia does not depend on the base position. -/
theorem C33_base_translation (h : Reach ls js m0 cs m) (hf : Shallow ls js m0 cs) (hu : UnitDesc js) (hc : UnitCalls cs)
    (hM : m.totalMass ≠ 0) {R : Rot ℝ} (hR : R.norm2 = 1) (p p' : Vec3 ℝ) :
    ∃ m1 I m2 m3 m4, setBasePose ⟨p, R⟩ m = .ok () m1 ∧ getTotalInertia m1 = .ok I m2 ∧
      setBasePose ⟨p', R⟩ m = .ok () m3 ∧ getTotalInertia m3 = .ok I m4 := by
  obtain ⟨m1, I, m2, m3, I', m4, e1, e2, e3, e4, hI⟩ := C33_base_motion h hf hu hc hM
    (g := ⟨⟨p'.x - p.x, p'.y - p.y, p'.z - p.z⟩, Rot.one⟩) (b := ⟨p, R⟩) Rot.norm2_one hR
  have : Pose.transform ⟨⟨p'.x - p.x, p'.y - p.y, p'.z - p.z⟩, Rot.one⟩ ⟨p, R⟩ = ⟨p', R⟩ := by
    simp only [Pose.transform, Rot.rotate_one, Rot.one_mul, Vec3.add, Pose.mk.injEq, and_true]
    cases p'; simp
  rw [this] at e3
  simp only [Rot.matrix_one, Matrix.transpose_one, one_mul, mul_one] at hI
  have hI' : I' = I := hI
  exact ⟨m1, I, m2, m3, m4, e1, e2, e3, hI' ▸ e4⟩

/-- **C34 (partial).** If no `<inertial>` origin is rotated, `get_total_inertia_matrix` returns the sum
over the bodies of tensor turned to the world plus parallel-axis term, about the centre of mass.
Missing: rotated `<inertial>` origins, for which it is false (`C34_unrotated`, `C34_witness`). -/
theorem C34_inertia_partial (h : Reach ls js m0 cs m) (hf : Shallow ls js m0 cs) {θ : String → ℝ} (hθ : AnglesAfter m0 cs θ)
    (hu : UnitDesc js) (hc : UnitCalls cs) (hi : ∀ r ∈ ls, ∀ i, r.inertial = some i → i.origin.rotation = Rot.one) :
    ∃ bs, (∀ bs', Bodies ls js (AllWelds ls m0 cs) θ (baseAfter Pose.identity cs) bs' ↔ bs' = bs) ∧
      ∃ I m', getTotalInertia m = .ok I m' ∧ Matrix.of I = inertiaAbout bs (comOf bs) := by
  obtain ⟨bs, hb, I, m', e, hI⟩ := h.inertia hf hθ hu hc
  refine ⟨bs, hb, I, m', e, hI.trans ?_⟩
  rw [inertiaUnrotated, inertiaAbout]
  congr 1
  apply List.map_congr_left
  intro x hx
  obtain ⟨r, hr, hr1, _⟩ := ((hb bs).mpr rfl).mem hx
  have : (Pose.transform x.2 x.1.origin).rotation = x.2.rotation := by
    show Rot.mul x.2.rotation x.1.origin.rotation = _
    rw [hi r hr _ hr1, Rot.mul_one]
  rw [this]

/-- **C34 is false in general.** `get_total_inertia_matrix` always returns the sum with the rotations
of the `<inertial>` origins left out. -/
theorem C34_unrotated (h : Reach ls js m0 cs m) (hf : Shallow ls js m0 cs) {θ : String → ℝ} (hθ : AnglesAfter m0 cs θ)
    (hu : UnitDesc js) (hc : UnitCalls cs) :
    ∃ bs, (∀ bs', Bodies ls js (AllWelds ls m0 cs) θ (baseAfter Pose.identity cs) bs' ↔ bs' = bs) ∧
      ∃ I m', getTotalInertia m = .ok I m' ∧ Matrix.of I = inertiaUnrotated bs (comOf bs) := h.inertia hf hθ hu hc

/-! ### Action forces -/

theorem actionMean_eq {M : ℝ} (hM : M ≠ 0) (acts : List (ℝ × ℝ)) (hd : M + (acts.map fun a => a.1).sum ≠ 0) (x : ℝ) :
    actionMean M acts x = (M * x + (acts.map fun a => a.1 * a.2).sum) / (M + (acts.map fun a => a.1).sum) := by
  have e1 : (acts.map fun a => a.1 / M * a.2).sum = (acts.map fun a => a.1 * a.2).sum / M := by
    clear hd
    induction acts with
    | nil => simp
    | cons a l ih => simp only [List.map_cons, List.sum_cons, ih]; field_simp
  have e2 : (acts.map fun a => a.1 / M).sum = (acts.map fun a => a.1).sum / M := by
    clear hd e1
    induction acts with
    | nil => simp
    | cons a l ih => simp only [List.map_cons, List.sum_cons, ih]; field_simp
  rw [actionMean]
  split
  · next h => subst h; simp; field_simp
  · rw [foldl_add_sum, foldl_add_sum, e1, e2]
    have : (1 : ℝ) + (acts.map fun a => a.1).sum / M ≠ 0 := by
      intro h0
      apply hd
      field_simp at h0
      linarith
    field_simp

/-- **C32.** `solve_com_fk` with action links and forces: row `k` is `(M c + Σ f p) / (M + Σ f)`, with `M`
the total mass, `c` the centre of mass and `p` the positions of the action links in configuration `k`.
(With a planar or floating base, or for a single configuration right after `clear_cache`; see C05.) -/
theorem C32_action_forces {h : List (PyCall ℝ)} {s s' : PyModel ℝ} {qs : QArg ℝ} {ids al : List Nat} {fs : List ℝ}
    {bt : BaseType} {wj : Bool} (hr : PyReach ls js m0 h cs s) (hf : Shallow ls js m0 cs)
    (ha : ComArgs m0 s qs ids al fs bt)
    (hc : (bt ≠ .fixed ∧ s' = s) ∨ (pyClearCache s = .ok () s' ∧ qs.rows.length = 1))
    (hne : (∃ r ∈ ls, r.inertial.isSome) ∨ weldsAfter (names0 m0) cs ≠ [])
    (hM : s.robot.totalMass ≠ 0) (hd : s.robot.totalMass + fs.sum ≠ 0) :
    ∃ C J s'', pySolveComFk qs ids (some (al, fs)) bt wj s' = .ok (C, J) s'' ∧ C.rows = qs.rows.length ∧ C.cols = 3 ∧
      ∀ (k : Nat) (q : List ℝ) (θ : String → ℝ), qs.rows[k]? = some q →
        AnglesAfter m0 (cs ++ configCalls ids bt q) θ →
        ∃ bs Ts, (∀ bs', Bodies ls js (AllWelds ls m0 cs) θ
            (baseAfter Pose.identity (cs ++ configCalls ids bt q)) bs' ↔ bs' = bs) ∧
          List.Forall₂ (fun l T => ∃ n, getLinkIds [n] s.robot = .ok [l] s.robot ∧
            WorldPose ls js (AllWelds ls m0 cs) θ
              (baseAfter Pose.identity (cs ++ configCalls ids bt q)) n T) al Ts ∧
          ∀ r < 3, C.f k r = (s.robot.totalMass * (comOf bs).coord r +
            ((fs.zip Ts).map fun a => a.1 * a.2.position.coord r).sum) / (s.robot.totalMass + fs.sum) := by
  obtain ⟨C, J, s'', e, h1, h2, h3⟩ := C05_com_partial (act := some (al, fs)) (wj := wj) hr hf ha hc (fun _ _ => hne)
  refine ⟨C, J, s'', e, h1, h2, ?_⟩
  intro k q θ hk hθ
  obtain ⟨bs, Ts, hb, hT, hC⟩ := h3 k q θ hk hθ
  refine ⟨bs, Ts, hb, hT, ?_⟩
  intro r hr3
  have hlen : fs.length = Ts.length := ha.forces.trans hT.length_eq
  have ef : ((fs.zip (Ts.map fun T => T.position.coord r)).map fun a => a.1) = fs := by
    rw [show (fun a : ℝ × ℝ => a.1) = Prod.fst from rfl, List.map_fst_zip]
    simp [hlen]
  rw [hC r hr3]
  show actionMean _ (fs.zip _) _ = _
  rw [actionMean_eq hM _ (by rw [ef]; exact hd), ef, List.zip_map_right, List.map_map]
  rfl

end
namespace Example

theorem mass_m1 : m1.totalMass ≠ 0 := by
  rw [C35_total_mass_real m1_reach]
  simp [ls, armInertial, tipInertial]; norm_num

theorem positive : ∀ r ∈ ls, ∀ i, r.inertial = some i → 0 < i.mass := by
  intro r hr i hi
  simp only [ls, List.mem_cons, List.not_mem_nil, or_false] at hr
  rcases hr with rfl | rfl | rfl | rfl <;> simp at hi <;> subst hi <;> simp [armInertial, tipInertial]

theorem unrotated : ∀ r ∈ ls, ∀ i, r.inertial = some i → i.origin.rotation = Rot.one := by
  intro r hr i hi
  simp only [ls, List.mem_cons, List.not_mem_nil, or_false] at hr
  rcases hr with rfl | rfl | rfl | rfl <;> simp at hi <;> subst hi <;> simp [armInertial, tipInertial]

theorem tensors : ∀ r ∈ ls, ∀ i, r.inertial = some i → 0 ≤ i.mass ∧ i.tensor.PosSemidef := by
  intro r hr i hi
  refine ⟨(positive r hr i hi).le, ?_⟩
  have key : ∀ a b c : ℝ, 0 ≤ a → 0 ≤ b → 0 ≤ c → (!![a, 0, 0; 0, b, 0; 0, 0, c]).PosSemidef := by
    intro a b c ha hb hc
    have : !![a, 0, 0; 0, b, 0; 0, 0, c] = Matrix.diagonal ![a, b, c] := by
      ext i j; fin_cases i <;> fin_cases j <;> rfl
    rw [this]
    apply Matrix.PosSemidef.diagonal
    intro i; fin_cases i <;> simpa
  simp only [ls, List.mem_cons, List.not_mem_nil, or_false] at hr
  rcases hr with rfl | rfl | rfl | rfl <;> simp at hi <;> subst hi <;> apply key <;> norm_num [armInertial, tipInertial]

-- after the history of `m1`
example := C30_com_hull m1_reach shallow angles_m1 positive inertial
example := C33_symmetric m1_reach shallow
example := C33_posSemidef m1_reach shallow unitDesc unitCalls_hist tensors
example := C33_base_motion m1_reach shallow unitDesc unitCalls_hist mass_m1 (g := ⟨⟨1, 2, 3⟩, Rot.fromRPY 1 2 3⟩)
  (b := ⟨⟨4, 5, 6⟩, Rot.fromRPY 3 2 1⟩) (Rot.norm2_fromRPY _ _ _) (Rot.norm2_fromRPY _ _ _)
example := C33_base_translation m1_reach shallow unitDesc unitCalls_hist mass_m1 (Rot.norm2_fromRPY 1 2 3) ⟨1, 2, 3⟩ ⟨3, 2, 1⟩
example := C34_inertia_partial m1_reach shallow angles_m1 unitDesc unitCalls_hist unrotated
theorem mass_s1 : s1.robot.totalMass = 3 := by
  obtain ⟨mc, hat⟩ := s1_reach.at
  obtain ⟨⟨st, c, hst⟩, _⟩ := hat.same
  rw [hst]
  show mc.totalMass = 3
  rw [C35_total_mass_real hat.reach]
  simp [ls, armInertial, tipInertial]; norm_num

example := C32_action_forces (al := [3]) (fs := [2]) (wj := true) s1_reach s1_shallow (comArgs_planar s1_links)
  (.inl ⟨by simp, rfl⟩) (.inl inertial) (by rw [mass_s1]; norm_num) (by rw [mass_s1]; norm_num)

/-- the entry yy of the inertia of the example robot -/
theorem inertia_a (a : ℝ) : inertiaUnrotated [(armInertial, (⟨⟨0, 0, 1⟩, Rot.one⟩ : Pose ℝ)), (tipInertial, ⟨⟨a, 3, 3⟩, Rot.one⟩)]
    ⟨(a + 1) / 3, 1, 2⟩ 1 1 = 9 / 2 + 2 / 3 * (a + 1) ^ 2 := by
  simp [inertiaUnrotated, bodyInertia, Rot.matrix_one, Inertial.tensor, steiner, armInertial, tipInertial, Pose.transform,
    Vec3.add, Vec3.toV, dotProduct, Fin.sum_univ_three, Matrix.vecMulVec]
  ring

/-- **Witness against C06.** After `clear_cache`, an object computes the inertia for displacement 0 and
then for displacement 1. Both answers have 31/6 as entry yy; for displacement 1 it is 43/6. -/
theorem C06_witness : ∃ (sc : PyModel ℝ) (I : M3 ℝ) (s1 s2 : PyModel ℝ),
    pyClearCache s0 = .ok () sc ∧ pyInertia [0] [0] sc = .ok I s1 ∧ pyInertia [1] [0] s1 = .ok I s2 ∧ I 1 1 = 31 / 6 ∧
    ∀ bs, Bodies ls js (AllWelds ls m0 []) (θa 1) Pose.identity bs → inertiaAbout bs (comOf bs) 1 1 = 43 / 6 := by
  obtain ⟨sc, mc, ec, h0, hfr, hrc⟩ := sc_exists
  have hi : ∀ i ∈ [0], i < m0.joints.length := by rw [joints_length]; simp
  have key : ∀ a, ∃ I s', pyInertia [a] [0] sc = .ok I s' ∧ I 1 1 = 9 / 2 + 2 / 3 * (a + 1) ^ 2 ∧
      ∀ bs, Bodies ls js (AllWelds ls m0 []) (θa a) Pose.identity bs → Matrix.of I = inertiaAbout bs (comOf bs) := by
    intro a
    obtain ⟨I, s', e, mk, hmk, mk', ek⟩ := C06_inertia_partial (q := [a]) s0_reach s0_shallow hi rfl ec
    have hset : ∀ c ∈ [Call.setJointAngles [0] [a]], c.IsSet := by
      intro c hc; simp only [List.mem_singleton] at hc; subst hc; trivial
    have hu : UnitCalls ([] ++ [Call.setJointAngles [0] [a]]) := by
      intro c hc; simp at hc; subst hc; trivial
    have hang : AnglesAfter m0 ([] ++ [Call.setJointAngles [0] [a]]) (θa a) := by
      have := angles_a a
      simpa [configCalls, basePart, List.take] using this
    obtain ⟨bs, hb, I', m', e', hI⟩ := C34_unrotated hmk (s0_shallow.sets hset) hang unitDesc hu
    obtain ⟨bs2, hb2, I2, m2, e2, hI2⟩ := C34_inertia_partial hmk (s0_shallow.sets hset) hang unitDesc hu unrotated
    rw [ek] at e' e2
    cases e'; cases e2
    rw [allWelds_sets hset] at hb hb2
    refine ⟨I, s', e, ?_, ?_⟩
    · have := (hb _).mp (bodies_a a)
      rw [← this, com_a] at hI
      rw [← inertia_a, ← hI]; rfl
    · intro bs3 h3
      rw [(hb2 bs3).mp h3]; exact hI2
  obtain ⟨I, s1, e1, hI, _⟩ := key 0
  obtain ⟨s2, e2⟩ := C06_stale (q2 := [1]) (ids2 := [0]) hrc e1 hi rfl
  obtain ⟨I', _, _, hI', hb⟩ := key 1
  refine ⟨sc, I, s1, s2, ec, e1, e2, by rw [hI]; norm_num, ?_⟩
  intro bs h
  rw [← hb bs h]
  show I' 1 1 = _
  rw [hI']; norm_num

/-! ### A rotated `<inertial>` origin -/

/-- a link whose `<inertial>` has `rpy="π 0 0"` and a product of inertia -/
noncomputable def boxInertial : Inertial ℝ := ⟨⟨Vec3.zero, Rot.fromRPY Real.pi 0 0⟩, 1, 2, 1, 0, 2, 0, 2⟩

theorem box_rotation : boxInertial.origin.rotation = ⟨1, 0, 0, 0⟩ := by
  rw [boxInertial]
  show Rot.fromRPY Real.pi 0 0 = _
  rw [Rot.fromRPY_raw]; simp

/-- the `<link>` elements of a robot that is one such link -/
noncomputable def box : List (RawLink ℝ) := [⟨"box", some boxInertial⟩]

theorem box_constructs : ∃ m0, construct (buildModel box []) = .ok m0 := by
  refine construct_exists ?_ ⟨by simp, fun _ => 0, by simp⟩ (by intro j hj; simp at hj) ?_
  · rw [buildModel_isSome]
    exact ⟨by simp [box], by simp, by simp [box], by simp, "box", by simp [box], by simp [box]⟩
  · intro r hr
    simp only [box, List.mem_cons, List.not_mem_nil, or_false] at hr
    subst hr; simp [box]

theorem box_pose {welds : Weld ℝ → Prop} {θ : String → ℝ} : WorldPose box [] welds θ Pose.identity "box" Pose.identity :=
  WorldPose.root (l := ⟨"box", some boxInertial⟩) (by simp [box]) (by simp)

theorem box_depth {m0 : KinModel ℝ} {n : String} {d : Nat} (h : LinkDepth box [] (AllWelds box m0 []) n d) :
    (n = "box" ∧ d = 0) ∨ (n = "box_com" ∧ d = 1) := by
  induction h with
  | root hl _ => simp only [box, List.mem_singleton] at hl; subst hl; exact .inl ⟨rfl, rfl⟩
  | joint hj _ => simp at hj
  | weld hw _ ih =>
    rcases hw with hw | hw
    · cases hw with
      | mk hl _ =>
        simp only [box, List.mem_singleton] at hl; subst hl
        rcases ih with ⟨_, rfl⟩ | ⟨h, _⟩
        · exact .inr ⟨rfl, rfl⟩
        · simp at h
    · simp [weldsAfter] at hw

/-- **Witness against C34.** A robot of one link whose `<inertial>` has `rpy="π 0 0"`, ixx = iyy = izz = 2,
ixy = 1. Turned to the world the tensor has entry xy = -1, but `get_total_inertia_matrix` returns 1. -/
theorem C34_witness : ∃ m0 I m', construct (buildModel box []) = .ok m0 ∧ getTotalInertia m0 = .ok I m' ∧ I 0 1 = 1 ∧
    ∀ bs, Bodies box [] (AllWelds box m0 []) (fun _ => 0) Pose.identity bs → inertiaAbout bs (comOf bs) 0 1 = -1 := by
  obtain ⟨m0, hm0⟩ := box_constructs
  have h : Reach box [] m0 [] m0 := ⟨⟨by simp, fun _ => 0, by simp⟩, by intro j hj; simp at hj, hm0, .nil⟩
  obtain ⟨bs, hb, I, m', e, hI⟩ := C34_unrotated h (fun n d hd => by
    rcases box_depth hd with ⟨_, rfl⟩ | ⟨_, rfl⟩ <;> simp [box]) (θ := fun _ => 0)
    (by intro s i _; rfl) (by intro j hj; simp at hj) (by intro c hc; simp at hc)
  have hbs : bs = [(boxInertial, Pose.identity)] := by
    refine ((hb _).mp ⟨box, List.Perm.refl _, by simp [box], ?_⟩).symm
    exact .cons ⟨rfl, box_pose⟩ .nil
  have hcom : comOf [(boxInertial, (Pose.identity : Pose ℝ))] = ⟨0, 0, 0⟩ := by
    simp [comOf, bodyCentre, boxInertial, Pose.transform, Pose.identity, Vec3.add, Vec3.zero]
  refine ⟨m0, I, m', hm0, e, ?_, ?_⟩
  · rw [hbs, hcom] at hI
    have : I 0 1 = Matrix.of I 0 1 := rfl
    rw [this, hI]
    simp [inertiaUnrotated, bodyInertia, Rot.matrix_one, Inertial.tensor, steiner, boxInertial, Pose.transform, Pose.identity,
      Vec3.add, Vec3.zero, Vec3.toV, dotProduct, Fin.sum_univ_three, Matrix.vecMulVec]
    rfl
  · intro bs' h'
    rw [(hb bs').mp h', hbs, hcom]
    have hm : (⟨1, 0, 0, 0⟩ : Rot ℝ).matrix = !![1, 0, 0; 0, -1, 0; 0, 0, -1] := by
      rw [Rot.matrix_unit (by simp [Rot.norm2])]; simp
    have hr : (Pose.transform Pose.identity boxInertial.origin).rotation = ⟨1, 0, 0, 0⟩ := by
      rw [Pose.identity_transform]; exact box_rotation
    simp only [inertiaAbout, List.map_cons, List.map_nil, hr, hm, bodyInertia]
    simp [Pose.identity_transform, Inertial.tensor, steiner, boxInertial, Vec3.zero, Vec3.toV, dotProduct, Matrix.vecMulVec]
    simp [Matrix.vecMul, dotProduct, Fin.sum_univ_three]

end Example
end Tinyfk
