import Verif.Proofs.RoundInertia
import Verif.Props.RoundCom
import Verif.Props.Inertia

/-!
# Properties: rounding errors of the total inertia

C132.
-/

set_option linter.unusedSectionVars false

namespace Tinyfk

open Matrix

section
variable {F : Rounding} {ls' : List (RawLink (Fl F))} {js' : List (RawJoint (Fl F))} {ls : List (RawLink ℝ)} {js : List (RawJoint ℝ)}
  {welds : Weld ℝ → Prop} {ε μ A R H : ℝ} {D : Nat}

/-- from the distance of two vectors to their components -/
theorem dist_scale {η V k : ℝ} {v' v : Vec3 ℝ} (h1 : v.len ≤ V) (h2 : Vec3.dist v' v ≤ k * η * V) (ht : F.tiny ≤ V) (hk : 0 ≤ k) :
    Sc F η V k v'.x v.x ∧ Sc F η V k v'.y v.y ∧ Sc F η V k v'.z v.z := by
  rw [Vec3.len_quat] at h1
  have sub : (Vec3.mk (v'.x - v.x) (v'.y - v.y) (v'.z - v.z)).quat = v'.quat - v.quat := by
    ext <;> first | rfl | (show (0 : ℝ) = 0 - 0; ring)
  rw [Vec3.dist_quat, ← sub] at h2
  obtain ⟨a1, a2, a3⟩ := v.abs_le
  obtain ⟨b1, b2, b3⟩ := (Vec3.mk (v'.x - v.x) (v'.y - v.y) (v'.z - v.z)).abs_le
  exact ⟨⟨a1.trans h1, b1.trans h2, ht, hk⟩, ⟨a2.trans h1, b2.trans h2, ht, hk⟩, ⟨a3.trans h1, b3.trans h2, ht, hk⟩⟩

theorem dist_scale_rot {η : ℝ} {q' q : Rot ℝ} (h1 : q.norm2 = 1) (h2 : Rot.dist q' q ≤ η * q.len) (ht : F.tiny ≤ 1) :
    Sc F η 1 1 q'.x q.x ∧ Sc F η 1 1 q'.y q.y ∧ Sc F η 1 1 q'.z q.z ∧ Sc F η 1 1 q'.w q.w := by
  have hn : q.x ^ 2 + q.y ^ 2 + q.z ^ 2 + q.w ^ 2 = 1 := by rw [← h1]; simp only [Rot.norm2]; ring
  have hl : q.len = 1 := by rw [Rot.len, hn, Real.sqrt_one]
  rw [hl, mul_one] at h2
  have hs : (q'.x - q.x) ^ 2 + (q'.y - q.y) ^ 2 + (q'.z - q.z) ^ 2 + (q'.w - q.w) ^ 2 ≤ η ^ 2 := by
    have h0 := Real.sqrt_nonneg ((q'.x - q.x) ^ 2 + (q'.y - q.y) ^ 2 + (q'.z - q.z) ^ 2 + (q'.w - q.w) ^ 2)
    rw [← Real.sq_sqrt (show 0 ≤ (q'.x - q.x) ^ 2 + (q'.y - q.y) ^ 2 + (q'.z - q.z) ^ 2 + (q'.w - q.w) ^ 2 by positivity)]
    exact pow_le_pow_left₀ h0 h2 2
  have hη : 0 ≤ η := (Real.sqrt_nonneg _).trans h2
  have one : ∀ {a' a : ℝ}, a ^ 2 ≤ 1 → (a' - a) ^ 2 ≤ η ^ 2 → Sc F η 1 1 a' a := fun p1 p2 =>
    ⟨abs_le_of_sq_le_sq (by simpa using p1) (by norm_num), by rw [one_mul, mul_one]; exact abs_le_of_sq_le_sq p2 hη, ht, by norm_num⟩
  refine ⟨one ?_ ?_, one ?_ ?_, one ?_ ?_, one ?_ ?_⟩ <;>
    nlinarith [sq_nonneg q.x, sq_nonneg q.y, sq_nonneg q.z, sq_nonneg q.w, sq_nonneg (q'.x - q.x), sq_nonneg (q'.y - q.y),
      sq_nonneg (q'.z - q.z), sq_nonneg (q'.w - q.w)]

/-- the exact inertia sum -/
theorem unrotated_fold {bs : List (Inertial ℝ × Pose ℝ)} (hunit : ∀ b ∈ bs, b.2.rotation.norm2 = 1) (c : Vec3 ℝ) :
    Matrix.of ((bs.map fun x => (x.1.reset, Pose.transform x.2 ⟨x.1.origin.position, Rot.one⟩)).foldl (inertiaStep c) M3.zero) =
      inertiaUnrotated bs c := by
  rw [of_foldl, inertiaUnrotated, List.map_map]
  have hz : Matrix.of (M3.zero : M3 ℝ) = 0 := rfl
  rw [hz, zero_add]
  congr 1
  apply List.map_congr_left
  intro x hx
  show Matrix.of (Rot.mul x.2.rotation Rot.one).mat * x.1.reset.tensor * (Matrix.of (Rot.mul x.2.rotation Rot.one).mat)ᵀ + _ = _
  rw [Rot.mul_one, of_mat (hunit x hx)]
  rfl

/-- one body, as the inertia sum meets it -/
theorem massNear_of {η W δ τ : ℝ} {x' : Inertial (Fl F) × Pose (Fl F)} {x : Inertial ℝ × Pose ℝ} (h1 : BodyNear ε δ R τ x' x) (h2 : TensorNear ε H x'.1 x.1)
    (hunit : x.2.rotation.norm2 = 1) (hη1 : τ ≤ η) (hδ : δ ≤ η * W) (hRW : R ≤ W) (hεη : ε ≤ η) (hη0 : 0 ≤ η) (hμ0 : 0 ≤ μ) (ht1 : F.tiny ≤ 1)
    (htμ : F.tiny ≤ μ) (htW : F.tiny ≤ W) (hH : F.tiny ≤ H) :
    MassNear F η H (2 * W) μ (x'.1.reset, Pose.transform (K := Fl F) x'.2 ⟨x'.1.origin.position, Rot.one⟩)
      (x.1.reset, Pose.transform x.2 ⟨x.1.origin.position, Rot.one⟩) := by
  have ht0 := F.tiny_nonneg
  have hV2 : (2 * W) / 2 = W := by ring
  have hm0 := h1.pos
  have hq := dist_scale_rot (F := F) (η := η) (q' := (Rot.mul x'.2.rotation Rot.one : Rot (Fl F)).real) (q := Rot.mul x.2.rotation Rot.one)
    (by rw [Rot.mul_one]; exact hunit) (h1.rot.trans (mul_le_mul_of_nonneg_right hη1 (Real.sqrt_nonneg _))) ht1
  have hp := dist_scale (F := F) (η := η) (V := W) (k := 1) (v' := (bodyCentre x').real) (v := bodyCentre x) (h1.len.trans hRW) (h1.near.trans (by
    rw [one_mul]
    exact hδ)) htW (by norm_num)
  have e : ∀ {a' a : ℝ}, |a| ≤ H → |a' - a| ≤ ε * H → Sc F η H 1 a' a := fun p1 p2 =>
    ⟨p1, p2.trans (by rw [one_mul]; exact mul_le_mul_of_nonneg_right hεη (ht0.trans hH)), hH, by norm_num⟩
  refine ⟨⟨?_, ?_, (by show F.tiny ≤ x.1.mass + μ; linarith), by norm_num⟩, ?_, hq.1, hq.2.1, hq.2.2.1, hq.2.2.2, by rw [hV2]; exact hp.1, by rw [hV2]; exact hp.2.1,
    by rw [hV2]; exact hp.2.2⟩
  · show |x.1.mass| ≤ x.1.mass + μ
    rw [abs_of_nonneg hm0]; linarith
  · refine h1.mass.trans ?_
    rw [one_mul]
    exact mul_le_mul hεη (by show x.1.mass ≤ x.1.mass + μ; linarith) hm0 hη0
  · have s := h2.size
    intro i j
    fin_cases i <;> fin_cases j
    · exact e (s 0 0) h2.xx
    · exact e (s 0 1) h2.xy
    · exact e (s 0 2) h2.xz
    · exact e (s 0 1) h2.xy
    · exact e (s 1 1) h2.yy
    · exact e (s 1 2) h2.yz
    · exact e (s 0 2) h2.xz
    · exact e (s 1 2) h2.yz
    · exact e (s 2 2) h2.zz

theorem mass_fold (bs : List (Inertial ℝ × Pose ℝ)) (s : ℝ) : bs.foldl (fun s b => s + b.1.mass) s = s + (bs.map fun x => x.1.mass).sum := by
  induction bs generalizing s with
  | nil => simp
  | cons b bs ih => rw [List.foldl_cons, ih, List.map_cons, List.sum_cons]; ring

theorem size_sum (bs : List (Inertial ℝ × Pose ℝ)) (H W μ : ℝ) : ((bs.map fun x => (x.1.reset, Pose.transform x.2 ⟨x.1.origin.position, Rot.one⟩)).map
      fun x => 225 * H + 4 * ((x.1.mass + μ) * (2 * W) ^ 2)).sum =
    225 * bs.length * H + 4 * (2 * W) ^ 2 * ((bs.map fun x => x.1.mass).sum + bs.length * μ) := by
  induction bs with
  | nil => simp
  | cons b bs ih =>
    rw [List.map_cons, List.map_cons, List.sum_cons, ih, List.length_cons, List.map_cons, List.sum_cons]
    show 225 * H + 4 * ((b.1.mass + μ) * (2 * W) ^ 2) + _ = _
    push_cast
    ring

/-- the centre of mass, componentwise -/
theorem com_scale {bs' : List (Inertial (Fl F) × Pose (Fl F))} {bs : List (Inertial ℝ × Pose ℝ)} {η W : ℝ} (hm0 : ∀ b ∈ bs, 0 ≤ b.1.mass)
    (hlen : ∀ b ∈ bs, (bodyCentre b).len ≤ R) (hM : 0 < (bs.map fun x => x.1.mass).sum) (hRW : R ≤ W) (htW : F.tiny ≤ W)
    (hc : Vec3.dist (comOf (K := Fl F) bs').real (comOf bs) ≤ 3 * η * W) :
    Sc F η (2 * W / 2) 3 (comOf (K := Fl F) bs').x (comOf bs).x ∧ Sc F η (2 * W / 2) 3 (comOf (K := Fl F) bs').y (comOf bs).y ∧
      Sc F η (2 * W / 2) 3 (comOf (K := Fl F) bs').z (comOf bs).z := by
  have hV2 : (2 * W) / 2 = W := by ring
  have hcen : ∀ b ∈ bs, |(bodyCentre b).x| ≤ R ∧ |(bodyCentre b).y| ≤ R ∧ |(bodyCentre b).z| ≤ R := by
    intro b hb
    have h1 := hlen b hb
    rw [Vec3.len_quat] at h1
    obtain ⟨a1, a2, a3⟩ := (bodyCentre b).abs_le
    exact ⟨a1.trans h1, a2.trans h1, a3.trans h1⟩
  have hM1 : 0 < bs.foldl (fun s b => s + b.1.mass) (0 : ℝ) := by rw [mass_fold, zero_add]; exact hM
  have hcd : ∀ {a' a : ℝ}, |a| ≤ R → |a' - a| ≤ Vec3.dist (comOf (K := Fl F) bs').real (comOf bs) → Sc F η (2 * W / 2) 3 a' a := by
    intro a' a h1 h2
    rw [hV2]
    exact ⟨h1.trans hRW, h2.trans hc, htW, by norm_num⟩
  have sub : ∀ v w : Vec3 ℝ, (Vec3.mk (v.x - w.x) (v.y - w.y) (v.z - w.z)).quat = v.quat - w.quat := fun v w => by
    ext <;> first | rfl | (show (0 : ℝ) = 0 - 0; ring)
  have hdc := (Vec3.mk ((comOf (K := Fl F) bs').real.x - (comOf bs).x) ((comOf (K := Fl F) bs').real.y - (comOf bs).y)
    ((comOf (K := Fl F) bs').real.z - (comOf bs).z)).abs_le
  rw [sub, ← Vec3.dist_quat] at hdc
  exact ⟨hcd (mean_le (w := fun b : Inertial ℝ × Pose ℝ => b.1.mass) (t := fun b : Inertial ℝ × Pose ℝ => (bodyCentre b).x) (fun b hb => ⟨hm0 b hb, (hcen b hb).1⟩) hM1) hdc.1,
    hcd (mean_le (w := fun b : Inertial ℝ × Pose ℝ => b.1.mass) (t := fun b : Inertial ℝ × Pose ℝ => (bodyCentre b).y) (fun b hb => ⟨hm0 b hb, (hcen b hb).2.1⟩) hM1) hdc.2.1,
    hcd (mean_le (w := fun b : Inertial ℝ × Pose ℝ => b.1.mass) (t := fun b : Inertial ℝ × Pose ℝ => (bodyCentre b).z) (fun b hb => ⟨hm0 b hb, (hcen b hb).2.2⟩) hM1) hdc.2.2⟩

/-- the inertia sum, from the bodies and the centre of mass -/
theorem fold_bound {η W M N : ℝ} {bs' : List (Inertial (Fl F) × Pose (Fl F))} {bs : List (Inertial ℝ × Pose ℝ)} {c' : Vec3 (Fl F)} {c : Vec3 ℝ}
    (hF : Fine F η) (hS : KeepsSign F) (hμ0 : 0 ≤ μ) (hrange : InertiaRange F H (2 * W) μ (M + N * μ)) (hne : bs ≠ [])
    (hm0 : ∀ b ∈ bs, 0 ≤ b.1.mass) (hunit : ∀ b ∈ bs, b.2.rotation.norm2 = 1) (hsum : (bs.map fun x => x.1.mass).sum = M) (hblen : (bs.length : ℝ) ≤ N)
    (cx : Sc F η (2 * W / 2) 3 c'.x c.x) (cy : Sc F η (2 * W / 2) 3 c'.y c.y) (cz : Sc F η (2 * W / 2) 3 c'.z c.z)
    (hforall : List.Forall₂ (MassNear F η H (2 * W) μ)
      (bs'.map fun x => (x.1.reset, Pose.transform (K := Fl F) x.2 ⟨x.1.origin.position, Rot.one⟩))
      (bs.map fun x => (x.1.reset, Pose.transform x.2 ⟨x.1.origin.position, Rot.one⟩)))
    (hN : (43 + 2 * N) * η ≤ 1 / 1000) (hbig : 2 * (225 * (N + 1) * H + 4 * (2 * W) ^ 2 * (M + N * μ)) ≤ F.big) (r s : Fin 3) :
    |((bs'.map fun x => (x.1.reset, Pose.transform (K := Fl F) x.2 ⟨x.1.origin.position, Rot.one⟩)).foldl (inertiaStep c') M3.zero r s).real -
        inertiaUnrotated bs c r s| ≤ (43 + 2 * N) * η * (225 * (N + 1) * H + 4 * (2 * W) ^ 2 * (M + N * μ)) := by
  have hη0 := hF.nonneg
  have hH : F.tiny ≤ H := hrange.tiny
  have hH0 := F.tiny_nonneg.trans hH
  have hsumB := size_sum bs H W μ
  rw [hsum] at hsumB
  have hWsq : 0 ≤ 4 * (2 * W) ^ 2 := by positivity
  have hsize : H + (225 * bs.length * H + 4 * (2 * W) ^ 2 * (M + bs.length * μ)) ≤ 225 * (N + 1) * H + 4 * (2 * W) ^ 2 * (M + N * μ) := by
    have e1 := mul_le_mul_of_nonneg_right hblen hH0
    have e2 : 4 * (2 * W) ^ 2 * (M + bs.length * μ) ≤ 4 * (2 * W) ^ 2 * (M + N * μ) := by
      refine mul_le_mul_of_nonneg_left ?_ hWsq
      have := mul_le_mul_of_nonneg_right hblen hμ0
      linarith
    linarith
  have h2 : (1 : ℝ) ≤ N := by
    refine le_trans ?_ hblen
    have := List.length_pos_of_ne_nil hne
    exact_mod_cast this
  have hmass : ∀ x ∈ bs, x.1.mass + μ ≤ M + N * μ := by
    intro x hx
    have h1 : x.1.mass ≤ M := by
      rw [← hsum]
      refine List.single_le_sum ?_ _ (List.mem_map_of_mem (f := fun x : Inertial ℝ × Pose ℝ => x.1.mass) hx)
      simp only [List.mem_map, forall_exists_index, and_imp, forall_apply_eq_imp_iff₂]
      exact hm0
    have := mul_le_mul_of_nonneg_right h2 hμ0
    linarith
  have hkη : (43 + 2 * (bs.length : ℝ)) * η ≤ 1 / 1000 := by
    refine le_trans (mul_le_mul_of_nonneg_right ?_ hη0) hN
    linarith
  have hz : ScM F η H 43 (M3.zero : M3 (Fl F)) (M3.zero : M3 ℝ) := fun i j => by
    have : Sc F η H 43 (0 : ℝ) (0 : ℝ) := Sc.exact hF (by rw [abs_zero]; exact hH0) hH (by norm_num)
    fin_cases i <;> fin_cases j <;> exact this
  have hfin := inertia_scale hF hS hμ0 hrange cx cy cz hforall M3.zero M3.zero H 43 (by
      intro x hx
      obtain ⟨y, hy, rfl⟩ := List.mem_map.mp hx
      exact ⟨hm0 y hy, hmass y hy⟩) hz le_rfl (by rw [List.length_map]; exact hkη) (by rw [hsumB]; linarith)
  rw [hsumB, List.length_map] at hfin
  rw [← unrotated_fold hunit c]
  refine (hfin r s).near.trans ?_
  refine mul_le_mul (mul_le_mul_of_nonneg_right (by linarith) hη0) hsize (hfin r s).B0 ?_
  exact mul_nonneg (by linarith) hη0

/-- **C132**, from the computed poses of the bodies: every entry of the inertia sum, with rounding in every operation, is near that of
the exact robot. -/
theorem C132_sum {welds' : Weld (Fl F) → Prop} {θ : String → ℝ} {base' : Pose (Fl F)} {base : Pose ℝ}
    (hR : RobotNear ε μ ls' js' welds' ls js welds) (hP : Proper js welds) (hue : F.u ≤ ε) (hA : 1 ≤ A) (hsm : Small F ε μ A D R)
    (hcom : ∀ l ∈ ls, ∀ i, l.inertial = some i → welds ⟨l.name ++ "_com", l.name, ⟨i.origin.position, Rot.one⟩⟩)
    (hL : List.Forall₂ (fun l' l => LinkNear ε μ l' l ∧ ∀ i' i, l'.inertial = some i' → l.inertial = some i → TensorNear ε H i' i) ls' ls)
    (hu : UnitDesc js) (hw : ∀ w, welds w → w.offset.rotation.norm2 = 1) (hS : KeepsSign F)
    (hpos : 0 < massSum ls) (hM : F.tiny ≤ μ * massSum ls) (hH : F.tiny ≤ H) (hV : F.tiny ≤ μ * (R + (D + 1) * μ) ^ 2)
    (hη : poseAcc ε A D ls.length ≤ 1 / 10 ^ 6) (hN : (43 + 2 * ls.length) * poseAcc ε A D ls.length ≤ 1 / 1000)
    (hB : 12 * (massSum ls + 1) * (R + D + 1) ≤ F.big) (hB2 : 10 * (inertiaSize μ D ls.length R H (massSum ls + 1) + 1) ≤ F.big)
    (hθ : ∀ j ∈ js, |θ j.name| ≤ A) (hb : PoseNear ε (ε * (base.position.len + μ)) base' base) (hb1 : base.rotation.norm2 = 1)
    (hD : ∀ n d L, PathLength ls js welds θ base n d L → d ≤ D ∧ L ≤ R)
    {bs' : List (Inertial (Fl F) × Pose (Fl F))} (h : Bodies (K := Fl F) ls' js' welds' θ base' bs') :
    ∃ bs, Bodies ls js welds θ base bs ∧ ∀ r s,
      |((bs'.map fun x => (x.1.reset, Pose.transform (K := Fl F) x.2 ⟨x.1.origin.position, Rot.one⟩)).foldl
          (inertiaStep (comOf (K := Fl F) bs')) M3.zero r s).real - inertiaUnrotated bs (comOf bs) r s| ≤
        inertiaBound ε μ A D ls.length R H (massSum ls) := by
  have hlen : base.rotation.len = 1 := by
    have : base.rotation.x ^ 2 + base.rotation.y ^ 2 + base.rotation.z ^ 2 + base.rotation.w ^ 2 = 1 := by
      rw [← hb1]; simp only [Rot.norm2]; ring
    rw [Rot.len, this, Real.sqrt_one]
  have hue0 := F.u_nonneg.trans hue
  have ht0 := F.tiny_nonneg
  have htμ : F.tiny ≤ μ := hsm.tiny_le
  have hμ0 : 0 ≤ μ := ht0.trans htμ
  have hμ1 := hsm.unit
  have hN100 : 100 * (ls.length * ε) ≤ 1 := by
    have : 0 ≤ 500 * (D + 1) * ε * A := by positivity
    unfold poseAcc at hη
    linarith
  obtain ⟨bs, hbs, hn, hsum⟩ := bodies_near hR hP hue hA hsm hcom hθ hb (by rw [hlen]; norm_num) (by rw [hlen]; norm_num) hD (TensorNear ε H) hL h
  have hc := mean_bodies hue hA hsm hpos hM hN100 hB hbs (hn.imp fun _ _ h => h.1) hsum
  refine ⟨bs, hbs, ?_⟩
  have hblen : bs.length ≤ ls.length := by
    obtain ⟨sorted, hp, _, hf⟩ := hbs
    rw [← hf.length_eq, ← hp.length_eq]
    exact List.length_filter_le _ _
  have hblen' : (bs.length : ℝ) ≤ ls.length := by exact_mod_cast hblen
  have hget : ∀ b ∈ bs, ∃ b' : Inertial (Fl F) × Pose (Fl F), BodyNear ε (posBound ε μ A D R) R (500 * (D + 1) * ε * A) b' b := by
    intro b hb
    obtain ⟨i, hi, rfl⟩ := List.getElem_of_mem hb
    exact ⟨_, (hn.get (i := i) (by rw [hn.length_eq]; exact hi) hi).1⟩
  have hne : bs ≠ [] := by
    rintro rfl
    rw [← hsum] at hpos
    exact lt_irrefl _ hpos
  have hR0 : 0 ≤ R := by
    obtain ⟨b, hb⟩ := List.exists_mem_of_ne_nil _ hne
    obtain ⟨_, hb'⟩ := hget b hb
    exact (Real.sqrt_nonneg _).trans hb'.len
  have hm0 : ∀ b ∈ bs, 0 ≤ b.1.mass := fun b hb => (hget b hb).choose_spec.pos
  set η := poseAcc ε A D ls.length with hηd
  have hη1 : 500 * (D + 1) * ε * A ≤ η := by
    have : 0 ≤ 25 * (ls.length : ℝ) * ε := by positivity
    rw [hηd]; unfold poseAcc; linarith
  have hη2 : 25 * (ls.length : ℝ) * ε ≤ η := by
    have : 0 ≤ 500 * (D + 1) * ε * A := by positivity
    rw [hηd]; unfold poseAcc; linarith
  have hεη : ε ≤ η := by
    refine le_trans ?_ hη1
    have : (0 : ℝ) ≤ D := by positivity
    have : ε * 1 ≤ ε * ((D + 1) * A) := mul_le_mul_of_nonneg_left (by nlinarith) hue0
    nlinarith
  have hF : Fine F η := ⟨hue.trans hεη, hη⟩
  have hη0 := hF.nonneg
  set W := R + (D + 1) * μ with hW
  have hDμ : μ ≤ (D + 1) * μ := by
    have : (0 : ℝ) ≤ D * μ := by positivity
    linarith
  have hRW : R ≤ W := by rw [hW]; linarith
  have hμW : μ ≤ W := by rw [hW]; linarith
  have hW0 : 0 ≤ W := hR0.trans hRW
  have htW : F.tiny ≤ W := htμ.trans hμW
  have hV2 : (2 * W) / 2 = W := by ring
  set N : ℝ := (ls.length : ℝ) with hNd
  set M := massSum ls with hMd
  have hrange : InertiaRange F H (2 * W) μ (M + N * μ) := by
    have hW2 : 0 ≤ W ^ 2 := by positivity
    have h1 : μ * W ^ 2 ≤ 1 * W ^ 2 := mul_le_mul_of_nonneg_right hμ1 hW2
    refine ⟨hH, htμ.trans hμ1, by nlinarith, by nlinarith, le_trans ?_ hB2⟩
    unfold inertiaSize
    have : 0 ≤ N * H := mul_nonneg (by positivity) (ht0.trans hH)
    have h2 : 0 ≤ 4 * (2 * W) ^ 2 := by positivity
    rw [← hW]
    have : 4 * (2 * W) ^ 2 * (M + N * μ + 1) = 4 * (2 * W) ^ 2 * (M + 1 + N * μ) := by ring
    linarith
  -- the centre of mass
  obtain ⟨cx, cy, cz⟩ := com_scale (η := η) (W := W) hm0 (fun b hb => (hget b hb).choose_spec.len) (by rw [hsum]; exact hpos) hRW htW (hc.trans (by
    unfold comBound posBound
    have e1 : 25 * (bs.length : ℝ) * ε * (R + μ) ≤ 25 * N * ε * W := by
      have : 25 * (bs.length : ℝ) * ε ≤ 25 * N * ε := by
        have := mul_le_mul_of_nonneg_right hblen' hue0
        linarith
      exact mul_le_mul this (by rw [hW]; linarith) (by linarith) (by positivity)
    have e2 : 3 * (500 * (D + 1) * ε * A * W) + 25 * N * ε * W ≤ 3 * η * W := by
      have : 3 * (500 * (D + 1) * ε * A) + 25 * N * ε ≤ 3 * η := by
        have : 0 ≤ 25 * N * ε := by positivity
        rw [hηd]; unfold poseAcc; linarith
      have := mul_le_mul_of_nonneg_right this hW0
      linarith
    linarith))
  -- the bodies
  have hunit : ∀ b ∈ bs, b.2.rotation.norm2 = 1 := by
    intro b hb
    obtain ⟨r, _, hr⟩ := hbs.mem hb
    exact hr.2.unit hu hw hb1
  have hforall : List.Forall₂ (MassNear F η H (2 * W) μ)
      (bs'.map fun x => (x.1.reset, Pose.transform (K := Fl F) x.2 ⟨x.1.origin.position, Rot.one⟩))
      (bs.map fun x => (x.1.reset, Pose.transform x.2 ⟨x.1.origin.position, Rot.one⟩)) := by
    rw [List.forall₂_map_left_iff, List.forall₂_map_right_iff]
    have key : ∀ (x' : Inertial (Fl F) × Pose (Fl F)) (x : Inertial ℝ × Pose ℝ), x ∈ bs →
        BodyNear ε (posBound ε μ A D R) R (500 * (D + 1) * ε * A) x' x ∧ TensorNear ε H x'.1 x.1 →
        MassNear F η H (2 * W) μ (x'.1.reset, Pose.transform (K := Fl F) x'.2 ⟨x'.1.origin.position, Rot.one⟩)
          (x.1.reset, Pose.transform x.2 ⟨x.1.origin.position, Rot.one⟩) := fun x' x hx h =>
      massNear_of h.1 h.2 (hunit x hx) hη1 (mul_le_mul_of_nonneg_right hη1 hW0) hRW hεη hη0 hμ0 hrange.one htμ htW hH
    clear * - hn key
    induction hn with
    | nil => exact .nil
    | cons h1 _ ih => exact .cons (key _ _ (by simp) h1) (ih fun x' x hx => key x' x (by simp [hx]))
  intro r s
  refine fold_bound hF hS hμ0 hrange hne hm0 hunit hsum hblen' cx cy cz hforall hN ?_ r s
  unfold inertiaSize at hB2
  rw [← hW, ← hNd] at hB2
  have h0 : 0 ≤ 4 * (2 * W) ^ 2 := by positivity
  have h1 : 0 ≤ N := by positivity
  have h2 : 0 ≤ 225 * (N + 1) * H := mul_nonneg (by linarith) (ht0.trans hH)
  have h3 : 0 ≤ M + N * μ := by
    have : 0 ≤ N * μ := mul_nonneg h1 hμ0
    linarith [hpos.le]
  have h4 := mul_nonneg h0 h3
  linarith

variable {m0 m : KinModel (Fl F)} {cs : List (Call (Fl F))}

/-- **C132.** `get_total_inertia_matrix` in rounded arithmetic, on a robot with any past: every entry of the returned matrix is within
`inertiaBound` of that of the exact robot. -/
theorem C132_inertia (h : Reach ls' js' m0 cs m) (hf : Shallow ls' js' m0 cs)
    (hR : RobotNear ε μ ls' js' (AllWelds ls' m0 cs) ls js welds) (hP : Proper js welds) (hue : F.u ≤ ε) (hA : 1 ≤ A) (hsm : Small F ε μ A D R)
    (hcom : ∀ l ∈ ls, ∀ i, l.inertial = some i → welds ⟨l.name ++ "_com", l.name, ⟨i.origin.position, Rot.one⟩⟩)
    (hL : List.Forall₂ (fun l' l => LinkNear ε μ l' l ∧ ∀ i' i, l'.inertial = some i' → l.inertial = some i → TensorNear ε H i' i) ls' ls)
    (hu : UnitDesc js) (hw : ∀ w, welds w → w.offset.rotation.norm2 = 1) (hS : KeepsSign F)
    (hpos : 0 < massSum ls) (hM : F.tiny ≤ μ * massSum ls) (hH : F.tiny ≤ H) (hV : F.tiny ≤ μ * (R + (D + 1) * μ) ^ 2)
    (hη : poseAcc ε A D ls.length ≤ 1 / 10 ^ 6) (hN : (43 + 2 * ls.length) * poseAcc ε A D ls.length ≤ 1 / 1000)
    (hB : 12 * (massSum ls + 1) * (R + D + 1) ≤ F.big) (hB2 : 10 * (inertiaSize μ D ls.length R H (massSum ls + 1) + 1) ≤ F.big)
    {θ : String → ℝ} (hθ : AnglesAfter (K := Fl F) m0 cs θ) {base : Pose ℝ}
    (hb : PoseNear ε (ε * (base.position.len + μ)) (baseAfter Pose.identity cs) base) (hb1 : base.rotation.norm2 = 1)
    (hθA : ∀ j ∈ js, |θ j.name| ≤ A) (hD : ∀ n d L, PathLength ls js welds θ base n d L → d ≤ D ∧ L ≤ R) :
    ∃ I m' bs, getTotalInertia m = .ok I m' ∧ Bodies ls js welds θ base bs ∧
      ∀ r s, |(I r s).real - inertiaUnrotated bs (comOf bs) r s| ≤ inertiaBound ε μ A D ls.length R H (massSum ls) := by
  obtain ⟨bs', hbs', hp⟩ := h.bodies hθ
  obtain ⟨m', e, _⟩ := (Query.getTotalInertia hp).run (h.ready hf)
  obtain ⟨bs, h1, h2⟩ := C132_sum hR hP hue hA hsm hcom hL hu hw hS hpos hM hH hV hη hN hB hB2 hθA hb hb1 hD ((hbs' bs').mpr rfl)
  refine ⟨_, m', bs, e, h1, ?_⟩
  rw [comVal_bodies]
  exact h2

variable {h : List (PyCall (Fl F))} {s s' : PyModel (Fl F)} {q : List (Fl F)} {ids : List Nat}

/-- **C132.** `compute_total_inertia_matrix(q, ids)` in rounded arithmetic, right after `clear_cache`: every entry of the returned
matrix is within `inertiaBound` of that of the exact robot in configuration `q`. -/
theorem C132_compute (hr : PyReach ls' js' m0 h cs s) (hf : Shallow ls' js' m0 cs) (hi : ∀ i ∈ ids, i < m0.joints.length)
    (hq : q.length = ids.length) (hc : pyClearCache s = .ok () s')
    (hR : RobotNear ε μ ls' js' (AllWelds ls' m0 cs) ls js welds) (hP : Proper js welds) (hue : F.u ≤ ε) (hA : 1 ≤ A) (hsm : Small F ε μ A D R)
    (hcom : ∀ l ∈ ls, ∀ i, l.inertial = some i → welds ⟨l.name ++ "_com", l.name, ⟨i.origin.position, Rot.one⟩⟩)
    (hL : List.Forall₂ (fun l' l => LinkNear ε μ l' l ∧ ∀ i' i, l'.inertial = some i' → l.inertial = some i → TensorNear ε H i' i) ls' ls)
    (hu : UnitDesc js) (hw : ∀ w, welds w → w.offset.rotation.norm2 = 1) (hS : KeepsSign F)
    (hpos : 0 < massSum ls) (hM : F.tiny ≤ μ * massSum ls) (hH : F.tiny ≤ H) (hV : F.tiny ≤ μ * (R + (D + 1) * μ) ^ 2)
    (hη : poseAcc ε A D ls.length ≤ 1 / 10 ^ 6) (hN : (43 + 2 * ls.length) * poseAcc ε A D ls.length ≤ 1 / 1000)
    (hB : 12 * (massSum ls + 1) * (R + D + 1) ≤ F.big) (hB2 : 10 * (inertiaSize μ D ls.length R H (massSum ls + 1) + 1) ≤ F.big)
    {θ : String → ℝ} (hθ : AnglesAfter (K := Fl F) m0 (cs ++ [.setJointAngles ids q]) θ) {base : Pose ℝ}
    (hb : PoseNear ε (ε * (base.position.len + μ)) (baseAfter Pose.identity cs) base) (hb1 : base.rotation.norm2 = 1)
    (hθA : ∀ j ∈ js, |θ j.name| ≤ A) (hD : ∀ n d L, PathLength ls js welds θ base n d L → d ≤ D ∧ L ≤ R) :
    ∃ I s'' bs, pyInertia q ids s' = .ok I s'' ∧ Bodies ls js welds θ base bs ∧
      ∀ r s, |(I r s).real - inertiaUnrotated bs (comOf bs) r s| ≤ inertiaBound ε μ A D ls.length R H (massSum ls) := by
  obtain ⟨I, s'', e, mk, hmk, mk', ek⟩ := C06_inertia_partial hr hf hi hq hc
  have hset : ∀ c ∈ [Call.setJointAngles ids q], c.IsSet := by
    intro c hc; simp only [List.mem_singleton] at hc; subst hc; trivial
  obtain ⟨I2, m', bs, e2, h1, h2⟩ := C132_inertia hmk (hf.sets hset) (by rw [allWelds_sets hset]; exact hR) hP hue hA hsm hcom hL hu hw hS hpos hM hH hV hη
    hN hB hB2 hθ (by rw [baseAfter_append]; exact hb) hb1 hθA hD
  rw [ek] at e2
  cases e2
  exact ⟨I, s'', bs, e, h1, h2⟩

end

/-- Rounding to the nearest number keeps the sign. -/
theorem round53_nonneg {x : ℝ} (h : 0 ≤ x) : 0 ≤ round53 x := by
  have h2 : (0 : ℝ) < 2 ^ lastDigit x := by positivity
  unfold round53
  refine mul_nonneg ?_ h2.le
  have : 0 ≤ round (x / 2 ^ lastDigit x) := by
    rw [round_eq]
    exact Int.floor_nonneg.mpr (by positivity)
  exact_mod_cast this

theorem binary64_keepsSign (b : ℝ) : KeepsSign (binary64 b) :=
  ⟨fun a => round53_nonneg (mul_self_nonneg a), fun h1 h2 => round53_nonneg (add_nonneg h1 h2)⟩

/-! ### The hypotheses are met -/

namespace RoundExample

theorem tensors_near : List.Forall₂ (fun l' l => LinkNear (200 * dbl.u * 2) μ l' l ∧
    ∀ i' i, l'.inertial = some i' → l.inertial = some i → TensorNear (200 * dbl.u * 2) 1 i' i) ls' ls := by
  have hu := dbl.u_nonneg
  have h := links_near
  simp only [ls', ls] at h ⊢
  rcases h with _ | ⟨h1, _ | ⟨h2, _ | ⟨h3, _⟩⟩⟩
  refine .cons ⟨h1, nofun⟩ (.cons ⟨h2, nofun⟩ (.cons ⟨h3, ?_⟩ .nil))
  intro i' i e1 e2
  cases e1
  cases e2
  have z : ∀ x : ℝ, |x - x| ≤ 200 * dbl.u * 2 * 1 := fun x => by rw [sub_self, abs_zero]; positivity
  refine ⟨fun r s => ?_, z _, z _, z _, z _, z _, z _⟩
  fin_cases r <;> fin_cases s <;> simp [Inertial.tensor, mass]

theorem path0 {n : String} {d : Nat} {L : ℝ} (h : PathLength ls js (fun w => w = com) θ Pose.identity n d L) :
    d = (if n = "base" then 0 else if n = "arm" then 1 else if n = "hand" then 2 else 3) ∧
      L ≤ (if n = "base" then 1 else if n = "arm" then 4 / 3 else if n = "hand" then 4 else 5) := by
  induction h with
  | @root l h1 h2 =>
    simp only [ls, List.mem_cons, List.not_mem_nil, or_false] at h1
    rcases h1 with rfl | rfl | rfl <;> simp [js, turn, slide, Pose.identity, Vec3.zero, Vec3.len] at h2 ⊢
  | joint h1 _ ih =>
    simp only [js, List.mem_cons, List.not_mem_nil, or_false] at h1
    rcases h1 with rfl | rfl
    · have : turn.reach (θ turn.name) = 1 / 3 := by simp [turn, RawJoint.reach, Vec3.len]
      rw [this]
      simp [turn] at ih ⊢
      exact ⟨ih.1, by linarith⟩
    · have : slide.reach (θ slide.name) = 2 + 1 / 3 * (1 / 2) := by simp [slide, RawJoint.reach, Vec3.len, θ]
      rw [this]
      simp [slide] at ih ⊢
      exact ⟨ih.1, by linarith⟩
  | weld h1 _ ih =>
    rw [h1] at ih ⊢
    have : com.offset.position.len ≤ 1 := by
      simp only [com, Vec3.len]
      rw [Real.sqrt_le_one]
      norm_num
    simp [com] at ih this ⊢
    exact ⟨ih.1, by linarith⟩

theorem unit_desc : UnitDesc js := by
  intro j hj
  simp only [js, List.mem_cons, List.not_mem_nil, or_false] at hj
  rcases hj with rfl | rfl
  · exact ⟨Rot.norm2_fromRPY _ _ _, fun _ => by simp [turn, Vec3.IsUnit]⟩
  · exact ⟨Rot.norm2_fromRPY _ _ _, fun h => by simp [slide] at h⟩

theorem acc_le : poseAcc (200 * dbl.u * 2) 2 3 3 ≤ 2 / 10 ^ 10 := by
  unfold poseAcc
  rw [u_eq]
  norm_num

theorem size_le {M : ℝ} (hM : 0 ≤ M) : inertiaSize μ 3 3 5 1 M ≤ 900 + 1296 * (M + 3) := by
  have h1 := μ_le
  have h0 : 0 ≤ μ := by unfold μ; positivity
  have h2 : (2 * (5 + (((3 : ℕ) : ℝ) + 1) * μ)) ^ 2 ≤ 18 ^ 2 := pow_le_pow_left₀ (by positivity) (by push_cast; linarith) 2
  have h3 : M + ((3 : ℕ) : ℝ) * μ ≤ M + 3 := by push_cast; linarith
  have h4 : 4 * (2 * (5 + (((3 : ℕ) : ℝ) + 1) * μ)) ^ 2 * (M + ((3 : ℕ) : ℝ) * μ) ≤ 1296 * (M + 3) :=
    mul_le_mul (by linarith) h3 (by positivity) (by norm_num)
  unfold inertiaSize
  push_cast at h4 ⊢
  linarith

theorem identity_near : PoseNear (F := dbl) (200 * dbl.u * 2) (200 * dbl.u * 2 * ((Pose.identity : Pose ℝ).position.len + μ))
    (baseAfter Pose.identity []) Pose.identity := by
  have hu := dbl.u_nonneg
  have hμ : 0 ≤ μ := by unfold μ; positivity
  have e1 : Rot.dist (Pose.real (Pose.identity : Pose (Fl dbl))).rotation (Pose.identity : Pose ℝ).rotation = 0 := by
    show Rot.dist (Rot.one : Rot ℝ) Rot.one = 0
    simp [Rot.dist]
  have e2 : Vec3.dist (Pose.real (Pose.identity : Pose (Fl dbl))).position (Pose.identity : Pose ℝ).position = 0 := by
    show Vec3.dist (Vec3.zero : Vec3 ℝ) Vec3.zero = 0
    simp [Vec3.dist]
  have n1 : 0 ≤ (Pose.identity : Pose ℝ).position.len := Real.sqrt_nonneg _
  have n2 : 0 ≤ (Pose.identity : Pose ℝ).rotation.len := Real.sqrt_nonneg _
  exact ⟨e1.le.trans (by positivity), e2.le.trans (by positivity)⟩

theorem angles_fixed : AnglesAfter (K := Fl dbl) m0 ([] ++ [.setJointAngles [0, 1] [(1 / 2 : ℝ), (1 : ℝ)]]) θ := by
  intro s i hi
  rw [getJointIds_one, jointIds] at hi
  rcases hi with ⟨rfl, rfl⟩ | ⟨rfl, rfl⟩
  · show (θ "slide" : ℝ) = (1 / 2 : ℝ)
    simp [θ]
  · show (θ "turn" : ℝ) = (1 : ℝ)
    simp [θ]

/-- In IEEE arithmetic `compute_total_inertia_matrix` returns the inertia of this robot to four digits. -/
theorem hand_inertia {sc : PyModel (Fl dbl)} (hc : pyClearCache s0 = .ok () sc) :
    ∃ I s' bs, pyInertia (K := Fl dbl) [(1 / 2 : ℝ), (1 : ℝ)] [0, 1] sc = .ok I s' ∧ Bodies ls js (fun w => w = com) θ Pose.identity bs ∧
      ∀ r s, |(I r s).real - inertiaUnrotated bs (comOf bs) r s| ≤ 1 / 10 ^ 4 := by
  have hμ : 0 ≤ μ := by unfold μ; positivity
  have hμ1 := μ_le
  have ht := tiny_μ'
  have ht0 := dbl.tiny_nonneg
  have hl : ls.length = 3 := rfl
  have hacc := acc_le
  have hacc0 : 0 ≤ poseAcc (200 * dbl.u * 2) 2 3 3 := by have := dbl.u_nonneg; unfold poseAcc; positivity
  obtain ⟨I, s', bs, e, h1, h2⟩ := C132_compute (H := 1) (A := 2) (D := 3) (R := 5) (q := [(1 / 2 : ℝ), (1 : ℝ)]) (ids := [0, 1]) s0_reach shallow
    (by rw [joints_length]; simp) rfl hc robot_near proper (by have := dbl.u_nonneg; linarith) (by norm_num) small3 com_welds tensors_near unit_desc
    (by rintro w rfl; exact Rot.norm2_one) (binary64_keepsSign _) (by rw [mass_sum]; norm_num) (by rw [mass_sum]; linarith)
    (by linarith) (by
      have : μ * 1 ≤ μ * (5 + (((3 : ℕ) : ℝ) + 1) * μ) ^ 2 := mul_le_mul_of_nonneg_left (by push_cast; nlinarith) hμ
      linarith)
    (by rw [hl]; linarith) (by rw [hl]; push_cast; linarith) (by rw [mass_sum, big_eq]; norm_num)
    (by have := size_le (M := 1 + 1) (by norm_num)
        rw [mass_sum, hl, big_eq]
        linarith) angles_fixed identity_near Rot.norm2_one (by
      intro j hj
      simp only [js, List.mem_cons, List.not_mem_nil, or_false] at hj
      rcases hj with rfl | rfl <;> simp [turn, slide, θ]; norm_num)
    (fun n d L h => by
      obtain ⟨k1, k2⟩ := path0 h
      refine ⟨?_, k2.trans ?_⟩
      · rw [k1]; split_ifs <;> omega
      · split_ifs <;> norm_num)
  refine ⟨I, s', bs, e, h1, fun r s => (h2 r s).trans ?_⟩
  have hs := size_le (M := 1) (by norm_num)
  rw [mass_sum, hl]
  unfold inertiaBound
  have k1 : (43 + 2 * ((3 : ℕ) : ℝ)) * poseAcc (200 * dbl.u * 2) 2 3 3 ≤ 1 / 10 ^ 8 := by push_cast; linarith
  have k2 : ∀ ν : ℝ, 0 ≤ ν → 0 ≤ inertiaSize ν 3 3 5 1 1 := fun ν h => by unfold inertiaSize; positivity
  calc _ ≤ 1 / 10 ^ 8 * (900 + 1296 * (1 + 3)) := mul_le_mul k1 hs (k2 μ hμ) (by norm_num)
    _ ≤ _ := by norm_num

example : ∃ sc, pyClearCache s0 = .ok () sc := by
  obtain ⟨mc, hat⟩ := s0_reach.at
  obtain ⟨m1, e1, _⟩ := hat.clear
  exact ⟨{ s0 with robot := m1 }, by simp only [pyClearCache, onRobot, e1]⟩

example {mk : KinModel (Fl dbl)} (hmk : Reach ls' js' m0 ([] ++ configCalls [0, 1] .planer q) mk) :=
  C132_inertia (H := 1) (A := 2) hmk (shallow.sets (configCalls_isSet _ _ _)) (by rw [allWelds_sets (configCalls_isSet _ _ _)]; exact robot_near) proper
    (by have := dbl.u_nonneg; linarith) (by norm_num) small3 com_welds tensors_near unit_desc (by rintro w rfl; exact Rot.norm2_one)
    (binary64_keepsSign _) (by rw [mass_sum]; norm_num) (by rw [mass_sum]; linarith [tiny_μ', dbl.tiny_nonneg, μ_le])

end RoundExample
end Tinyfk
