import Verif.Spec.Physical
import Verif.Props.Inertia

/-!
# C129: the total inertia as a physical quantity
-/

namespace Tinyfk

open Matrix

theorem secondMoments_add (A B : Matrix (Fin 3) (Fin 3) ℝ) : secondMoments (A + B) = secondMoments A + secondMoments B := by
  simp only [secondMoments, Matrix.trace_add, add_div, add_smul]
  abel

theorem secondMoments_sum (l : List (Matrix (Fin 3) (Fin 3) ℝ)) : secondMoments l.sum = (l.map secondMoments).sum := by
  induction l with
  | nil => simp [secondMoments]
  | cons A l ih => simp [secondMoments_add, ih]

theorem trace_steiner (m : ℝ) (d : Fin 3 → ℝ) : (steiner m d).trace = 2 * (m * (d ⬝ᵥ d)) := by
  simp only [steiner, Matrix.trace_smul, Matrix.trace_sub, Matrix.trace_one, Matrix.trace_vecMulVec, smul_eq_mul, Fintype.card_fin]
  push_cast
  ring

theorem secondMoments_steiner (m : ℝ) (d : Fin 3 → ℝ) : secondMoments (steiner m d) = m • vecMulVec d d := by
  rw [secondMoments, trace_steiner, steiner, smul_sub, smul_smul]
  rw [show 2 * (m * (d ⬝ᵥ d)) / 2 = m * (d ⬝ᵥ d) by ring]
  abel

theorem trace_conj {R : Matrix (Fin 3) (Fin 3) ℝ} (h : R * Rᵀ = 1) (A : Matrix (Fin 3) (Fin 3) ℝ) : (R * A * Rᵀ).trace = A.trace := by
  rw [Matrix.trace_mul_comm, ← Matrix.mul_assoc, mul_eq_one_comm.mp h, Matrix.one_mul]

theorem secondMoments_conj {R : Matrix (Fin 3) (Fin 3) ℝ} (h : R * Rᵀ = 1) (A : Matrix (Fin 3) (Fin 3) ℝ) :
    secondMoments (R * A * Rᵀ) = R * secondMoments A * Rᵀ := by
  simp only [secondMoments, trace_conj h, Matrix.mul_sub, Matrix.sub_mul, Matrix.mul_smul, Matrix.smul_mul, Matrix.mul_one, h]

theorem Physical.steiner {m : ℝ} (hm : 0 ≤ m) (d : Fin 3 → ℝ) : Physical (steiner m d) := by
  rw [Physical, secondMoments_steiner]
  have := Matrix.posSemidef_vecMulVec_self_star d
  exact (by simpa using this : (vecMulVec d d).PosSemidef).smul hm

theorem Physical.conj {A R : Matrix (Fin 3) (Fin 3) ℝ} (h : Physical A) (hR : R * Rᵀ = 1) : Physical (R * A * Rᵀ) := by
  rw [Physical, secondMoments_conj hR]
  exact conj_posSemidef h

theorem Physical.add {A B : Matrix (Fin 3) (Fin 3) ℝ} (h : Physical A) (h' : Physical B) : Physical (A + B) := by
  rw [Physical, secondMoments_add]
  exact PosSemidef.add h h'

theorem Physical.sum (l : List (Matrix (Fin 3) (Fin 3) ℝ)) (h : ∀ A ∈ l, Physical A) : Physical l.sum := by
  rw [Physical, secondMoments_sum]
  refine sum_posSemidef _ fun B hB => ?_
  obtain ⟨A, hA, rfl⟩ := List.mem_map.mp hB
  exact h A hA

/-- no moment about an axis is larger than the other two together -/
theorem Physical.triangle {A : Matrix (Fin 3) (Fin 3) ℝ} (h : Physical A) :
    A 0 0 ≤ A 1 1 + A 2 2 ∧ A 1 1 ≤ A 2 2 + A 0 0 ∧ A 2 2 ≤ A 0 0 + A 1 1 := by
  have key : ∀ i : Fin 3, 0 ≤ A.trace / 2 - A i i := by
    intro i
    have := PosSemidef.diag_nonneg h (i := i)
    simpa [secondMoments] using this
  have ht : A.trace = A 0 0 + A 1 1 + A 2 2 := by simp [Matrix.trace, Fin.sum_univ_three]
  rw [ht] at key
  have h0 := key 0
  have h1 := key 1
  have h2 := key 2
  refine ⟨by linarith, by linarith, by linarith⟩

/-- moving the point about which the inertia is taken: a term of the total mass and one of the first moments -/
theorem steiner_sum (c p : Fin 3 → ℝ) (l : List (ℝ × (Fin 3 → ℝ))) :
    (l.map fun x => steiner x.1 (x.2 - p)).sum = (l.map fun x => steiner x.1 (x.2 - c)).sum + steiner (l.map Prod.fst).sum (c - p) +
      ((2 * ((l.map fun x => x.1 • (x.2 - c)).sum ⬝ᵥ (c - p))) • (1 : Matrix (Fin 3) (Fin 3) ℝ) -
        vecMulVec (l.map fun x => x.1 • (x.2 - c)).sum (c - p) - vecMulVec (c - p) (l.map fun x => x.1 • (x.2 - c)).sum) := by
  induction l with
  | nil => simp [steiner]
  | cons x l ih =>
    simp only [List.map_cons, List.sum_cons, ih]
    ext r t
    simp only [Matrix.add_apply, Matrix.sub_apply, Matrix.smul_apply, steiner, vecMulVec_apply, Pi.add_apply, Pi.smul_apply, Pi.sub_apply,
      smul_eq_mul, dotProduct, Fin.sum_univ_three]
    ring

/-- the first moments about the centre of mass vanish -/
theorem first_moments {bs : List (Inertial ℝ × Pose ℝ)} (hM : massOf bs ≠ 0) :
    (bs.map fun x => x.1.mass • ((bodyCentre x).toV - (comOf bs).toV)).sum = 0 := by
  have key : ∀ (c : Fin 3 → ℝ) (l : List (Inertial ℝ × Pose ℝ)), (l.map fun x => x.1.mass • ((bodyCentre x).toV - c)).sum =
      (l.map fun x => x.1.mass • (bodyCentre x).toV).sum - massOf l • c := by
    intro c l
    induction l with
    | nil => simp [massOf]
    | cons x l ih =>
      have hm : massOf (x :: l) = x.1.mass + massOf l := rfl
      rw [List.map_cons, List.sum_cons, ih, hm, List.map_cons, List.sum_cons, smul_sub, add_smul]
      abel
  rw [key, comOf_toV, smul_smul, mul_inv_cancel₀ hM, one_smul, sub_self]

theorem inertiaAbout_other {bs : List (Inertial ℝ × Pose ℝ)} (hM : massOf bs ≠ 0) (p : Vec3 ℝ) :
    inertiaAbout bs p = inertiaAbout bs (comOf bs) + steiner (massOf bs) ((comOf bs).toV - p.toV) := by
  have split : ∀ (c : Vec3 ℝ) (l : List (Inertial ℝ × Pose ℝ)), inertiaAbout l c =
      (l.map fun x => (Pose.transform x.2 x.1.origin).rotation.matrix * x.1.tensor * (Pose.transform x.2 x.1.origin).rotation.matrixᵀ).sum +
      ((l.map fun x => (x.1.mass, (bodyCentre x).toV)).map fun x => steiner x.1 (x.2 - c.toV)).sum := by
    intro c l
    induction l with
    | nil => simp [inertiaAbout]
    | cons x l ih =>
      simp only [inertiaAbout, List.map_cons, List.sum_cons, bodyInertia] at ih ⊢
      rw [ih, show (bodyCentre x).toV = (Pose.transform x.2 x.1.origin).position.toV from rfl]
      exact add_add_add_comm _ _ _ _
  rw [split, split, steiner_sum (comOf bs).toV]
  simp only [List.map_map, Function.comp_def]
  rw [first_moments hM]
  simp only [massOf, zero_dotProduct, mul_zero, zero_smul, Matrix.zero_vecMulVec, Matrix.vecMulVec_zero, sub_zero, add_zero]
  rw [add_assoc]

section
variable {ls : List (RawLink ℝ)} {js : List (RawJoint ℝ)} {m0 m : KinModel ℝ} {cs : List (Call ℝ)}

/-- **C129, trace.** The sum of the three moments of the total inertia is the correct one, whether or not `<inertial>` origins are rotated. -/
theorem C129_trace (h : Reach ls js m0 cs m) (hf : Shallow ls js m0 cs) {θ : String → ℝ} (hθ : AnglesAfter m0 cs θ)
    (hu : UnitDesc js) (hc : UnitCalls cs) (hi : ∀ r ∈ ls, ∀ i, r.inertial = some i → i.origin.rotation.norm2 = 1) :
    ∃ bs, (∀ bs', Bodies ls js (AllWelds ls m0 cs) θ (baseAfter Pose.identity cs) bs' ↔ bs' = bs) ∧
      ∃ I m', getTotalInertia m = .ok I m' ∧ (Matrix.of I).trace = (inertiaAbout bs (comOf bs)).trace := by
  obtain ⟨bs, hb, I, m', e, hI⟩ := h.inertia hf hθ hu hc
  refine ⟨bs, hb, I, m', e, ?_⟩
  rw [hI, inertiaUnrotated, inertiaAbout, Matrix.trace_list_sum, Matrix.trace_list_sum, List.map_map, List.map_map]
  congr 1
  refine List.map_congr_left fun x hx => ?_
  obtain ⟨r, hr, hr1, hr2⟩ := ((hb bs).mpr rfl).mem hx
  have hn : x.2.rotation.norm2 = 1 := hr2.unit hu (fun w hw => hc.allWelds hw) (hc.base Rot.norm2_one)
  have hn' : (Pose.transform x.2 x.1.origin).rotation.norm2 = 1 := by
    show (Rot.mul x.2.rotation x.1.origin.rotation).norm2 = 1
    rw [Rot.norm2_mul, hn, hi r hr _ hr1, one_mul]
  simp only [Function.comp, bodyInertia, Matrix.trace_add, trace_conj (Rot.matrix_orthogonal hn), trace_conj (Rot.matrix_orthogonal hn')]

/-- **C129, physical.** When the inertia of every link is physically possible and no mass is negative, the total inertia is physically
possible, so that no moment about an axis exceeds the sum of the other two. -/
theorem C129_physical (h : Reach ls js m0 cs m) (hf : Shallow ls js m0 cs) (hu : UnitDesc js) (hc : UnitCalls cs)
    (hp : ∀ r ∈ ls, ∀ i, r.inertial = some i → 0 ≤ i.mass ∧ Physical i.tensor) :
    ∃ I m', getTotalInertia m = .ok I m' ∧ Physical (Matrix.of I) ∧
      I 0 0 ≤ I 1 1 + I 2 2 ∧ I 1 1 ≤ I 2 2 + I 0 0 ∧ I 2 2 ≤ I 0 0 + I 1 1 := by
  obtain ⟨θ, hθ⟩ := exists_angles m0 cs
  obtain ⟨bs, hb, I, m', e, hI⟩ := h.inertia hf hθ hu hc
  have hP : Physical (Matrix.of I) := by
    rw [hI]
    refine Physical.sum _ fun A hA => ?_
    obtain ⟨x, hx, rfl⟩ := List.mem_map.mp hA
    obtain ⟨r, hr, hr1, hr2⟩ := ((hb bs).mpr rfl).mem hx
    have hn : x.2.rotation.norm2 = 1 := hr2.unit hu (fun w hw => hc.allWelds hw) (hc.base Rot.norm2_one)
    exact ((hp r hr _ hr1).2.conj (Rot.matrix_orthogonal hn)).add (.steiner (hp r hr _ hr1).1 _)
  exact ⟨I, m', e, hP, hP.triangle⟩

/-- **C129, any other point.** Adding the term of the total mass at the centre of mass gives the inertia about any other point. -/
theorem C129_other_point (h : Reach ls js m0 cs m) (hf : Shallow ls js m0 cs) {θ : String → ℝ} (hθ : AnglesAfter m0 cs θ)
    (hu : UnitDesc js) (hc : UnitCalls cs) (hM : m.totalMass ≠ 0)
    (hi : ∀ r ∈ ls, ∀ i, r.inertial = some i → i.origin.rotation = Rot.one) :
    ∃ bs, (∀ bs', Bodies ls js (AllWelds ls m0 cs) θ (baseAfter Pose.identity cs) bs' ↔ bs' = bs) ∧
      ∃ c m1 I m2, getCom m = .ok c m1 ∧ getTotalInertia m = .ok I m2 ∧
        ∀ p : Vec3 ℝ, inertiaAbout bs p = Matrix.of I + steiner m.totalMass (c.toV - p.toV) := by
  obtain ⟨bs, hb, I, m', e, hI⟩ := C34_inertia_partial h hf hθ hu hc hi
  obtain ⟨bs', hb', m1, e1⟩ := C30_com h hf hθ
  obtain rfl := (hb bs').mp ((hb' bs').mpr rfl)
  have hm : massOf bs' = m.totalMass := by rw [((hb bs').mpr rfl).massOf, C35_total_mass_real h]
  refine ⟨bs', hb, comOf bs', m1, I, m', e1, e, fun p => ?_⟩
  rw [hI, inertiaAbout_other (by rw [hm]; exact hM), hm]

end

namespace Example

/-! ### The hypotheses are met -/

theorem physical : ∀ r ∈ ls, ∀ i, r.inertial = some i → 0 ≤ i.mass ∧ Physical i.tensor := by
  intro r hr i hi
  refine ⟨(positive r hr i hi).le, ?_⟩
  have key : ∀ a b c : ℝ, a ≤ b + c → b ≤ c + a → c ≤ a + b → Physical !![a, 0, 0; 0, b, 0; 0, 0, c] := by
    intro a b c ha hb hc
    have : secondMoments !![a, 0, 0; 0, b, 0; 0, 0, c] = Matrix.diagonal ![(b + c - a) / 2, (c + a - b) / 2, (a + b - c) / 2] := by
      ext i j
      fin_cases i <;> fin_cases j <;> simp [secondMoments, Matrix.trace, Fin.sum_univ_three] <;> ring
    rw [Physical, this]
    refine Matrix.PosSemidef.diagonal fun i => ?_
    fin_cases i <;> simp <;> linarith
  simp only [ls, List.mem_cons, List.not_mem_nil, or_false] at hr
  rcases hr with rfl | rfl | rfl | rfl <;> simp at hi <;> subst hi <;> simp only [armInertial, tipInertial, Inertial.tensor] <;>
    exact key _ _ _ (by norm_num) (by norm_num) (by norm_num)

example := C129_trace m1_reach shallow angles_m1 unitDesc unitCalls_hist (fun r hr i hi => by rw [unrotated r hr i hi]; exact Rot.norm2_one)
/-- a robot with a rotated `<inertial>` origin, whose inertia is wrong (C34) -/
example {m0 : KinModel ℝ} (hm0 : construct (buildModel box []) = .ok m0) {θ : String → ℝ} (hθ : AnglesAfter m0 [] θ) :=
  C129_trace (m := m0) (cs := []) ⟨⟨by simp, fun _ => 0, by simp⟩, by intro j hj; simp at hj, hm0, .nil⟩
    (by intro n d hd; rcases box_depth hd with ⟨_, rfl⟩ | ⟨_, rfl⟩ <;> simp [box]) hθ (by intro j hj; simp at hj) (by intro c hc; simp at hc)
    (by
      intro r hr i hi
      simp only [box, List.mem_singleton] at hr
      subst hr
      cases hi
      exact Rot.norm2_fromRPY _ _ _)
example := C129_physical m1_reach shallow unitDesc unitCalls_hist physical
example := C129_other_point m1_reach shallow angles_m1 unitDesc unitCalls_hist mass_m1 unrotated

end Example

end Tinyfk
