import Verif.Proofs.RoundCom
import Verif.Props.RoundDist
import Verif.Props.Com
import Verif.Props.Cache

/-!
# Properties: rounding errors of the centre of mass

C105.
-/

set_option linter.unusedSectionVars false

namespace Tinyfk

section
variable {F : Rounding} {ls' : List (RawLink (Fl F))} {js' : List (RawJoint (Fl F))} {ls : List (RawLink ℝ)} {js : List (RawJoint ℝ)}
  {welds : Weld ℝ → Prop} {ε μ A R : ℝ} {D : Nat}

/-- a computed body and an exact one -/
structure BodyNear (ε δ R τ : ℝ) (x' : Inertial (Fl F) × Pose (Fl F)) (x : Inertial ℝ × Pose ℝ) : Prop where
  pos : 0 ≤ x.1.mass
  mass : |x'.1.mass.real - x.1.mass| ≤ ε * x.1.mass
  len : (bodyCentre x).len ≤ R
  near : Vec3.dist (bodyCentre x').real (bodyCentre x) ≤ δ
  rot : Rot.dist (Rot.mul x'.2.rotation Rot.one).real (Rot.mul x.2.rotation Rot.one) ≤ τ * (Rot.mul x.2.rotation Rot.one).len

/-- the centre of one body -/
theorem body_near {welds' : Weld (Fl F) → Prop} {θ : String → ℝ} {base' : Pose (Fl F)} {base : Pose ℝ}
    (hR : RobotNear ε μ ls' js' welds' ls js welds) (hP : Proper js welds) (hue : F.u ≤ ε) (hA : 1 ≤ A) (hsm : Small F ε μ A D R)
    (hcom : ∀ l ∈ ls, ∀ i, l.inertial = some i → welds ⟨l.name ++ "_com", l.name, ⟨i.origin.position, Rot.one⟩⟩)
    (hθ : ∀ j ∈ js, |θ j.name| ≤ A) (hb : PoseNear ε (ε * (base.position.len + μ)) base' base)
    (hb1 : 1 / 2 ≤ base.rotation.len) (hb2 : base.rotation.len ≤ 2)
    (hD : ∀ n d L, PathLength ls js welds θ base n d L → d ≤ D ∧ L ≤ R)
    {l' : RawLink (Fl F)} {l : RawLink ℝ} (hl : l ∈ ls) (hn : LinkNear ε μ l' l) {x' : Inertial (Fl F) × Pose (Fl F)}
    (hi : l'.inertial = some x'.1) (hx : WorldPose (K := Fl F) ls' js' welds' θ base' l'.name x'.2) :
    ∃ x : Inertial ℝ × Pose ℝ, l.inertial = some x.1 ∧ WorldPose ls js welds θ base l.name x.2 ∧ BodyNear ε (posBound ε μ A D R) R (500 * (D + 1) * ε * A) x' x := by
  obtain ⟨i', T'⟩ := x'
  obtain ⟨i, hi2⟩ : ∃ i, l.inertial = some i := by
    cases h : l.inertial with
    | none => rw [hn.none.mpr h] at hi; cases hi
    | some i => exact ⟨i, rfl⟩
  obtain ⟨m1, m2, m3⟩ := hn.some i' i hi hi2
  rw [hn.name] at hx
  obtain ⟨d, L, T, t1, t2, t3, t4, t5, t6⟩ := world_near hR hP hue hA hθ hb hb1 hb2 hsm hx (hD l.name)
  have near : NearAt ε μ A ls js welds θ base l.name T' d L T := ⟨t1, t2, t3, t4, t5, t6⟩
  have hw := hcom l hl i hi2
  obtain ⟨g1, g2⟩ := hD _ _ _ (.weld hw t2)
  have hue0 := F.u_nonneg.trans hue
  have hμ0 : 0 ≤ μ := F.tiny_nonneg.trans hsm.tiny_le
  have kw := near.weld (w := ⟨l.name ++ "_com", l.name, ⟨i.origin.position, Rot.one⟩⟩)
    (w' := ⟨l.name ++ "_com", l.name, ⟨i'.origin.position, Rot.one⟩⟩) hP hue hA hsm hw ⟨rfl, rfl, ?_, m3⟩ g1 g2
  · have hκ : 0 ≤ 100 * ε * A := by positivity
    have hacc := hsm.acc
    have hdR : ((d + 1 : Nat) : ℝ) ≤ D := by exact_mod_cast g1
    have e0 : 0 ≤ ε * A := by positivity
    have g := pow_growth hκ (d + 1 + 1) (by
      push_cast at hdR ⊢
      have : ((d : ℝ) + 1 + 1) * (ε * A) ≤ (D + 1) * (ε * A) := mul_le_mul_of_nonneg_right (by linarith) e0
      linarith)
    have g3 : 4 * ((1 + 100 * ε * A) ^ (d + 1 + 1) - 1) ≤ 500 * (D + 1) * ε * A := by
      push_cast at g hdR
      have : ((d : ℝ) + 1 + 1) * (ε * A) ≤ (D + 1) * (ε * A) := mul_le_mul_of_nonneg_right (by linarith) e0
      linarith
    refine ⟨(i, T), hi2, t1, m1, m2, kw.len.trans g2, kw.near.pos.trans ?_, kw.near.rot.trans ?_⟩
    · unfold posBound
      have hL0 := (path_nonneg (.weld hw t2))
      refine mul_le_mul g3 ?_ (by positivity) (by positivity)
      have : (((d + 1 : Nat) : ℝ) + 1) * μ ≤ (D + 1) * μ := mul_le_mul_of_nonneg_right (by linarith) hμ0
      linarith
    · refine mul_le_mul_of_nonneg_right ?_ (Real.sqrt_nonneg _)
      have : 0 ≤ (1 + 100 * ε * A) ^ (d + 1 + 1) - 1 := by
        have := one_le_pow₀ (n := d + 1 + 1) (by linarith : 1 ≤ 1 + 100 * ε * A)
        linarith
      linarith
  · have e1 : Rot.dist (Rot.real (Rot.one : Rot (Fl F))) (Rot.one : Rot ℝ) = 0 := by
      show Rot.dist (Rot.one : Rot ℝ) Rot.one = 0
      simp [Rot.dist]
    refine (le_of_eq e1).trans ?_
    exact mul_nonneg hue0 (Real.sqrt_nonneg _)

theorem massSum_perm {a b : List (RawLink ℝ)} (h : a.Perm b) : massSum a = massSum b :=
  (h.map _).sum_eq

theorem massSum_exists {ls : List (RawLink ℝ)} (h : 0 < massSum ls) : ∃ l ∈ ls, l.inertial.isSome := by
  by_contra hn
  push Not at hn
  have : massSum ls = 0 := by
    refine List.sum_eq_zero ?_
    simp only [List.mem_map, forall_exists_index, and_imp, forall_apply_eq_imp_iff₂]
    intro l hl
    have : ¬ l.inertial.isSome = true := hn l hl
    rw [Option.isSome_iff_ne_none, ne_eq, not_not] at this
    simp [RawLink.massOf, this]
  exact absurd h (by rw [this]; exact lt_irrefl _)

/-- The bodies of the computed robot and those of the exact one. -/
theorem bodies_near {welds' : Weld (Fl F) → Prop} {θ : String → ℝ} {base' : Pose (Fl F)} {base : Pose ℝ}
    (hR : RobotNear ε μ ls' js' welds' ls js welds) (hP : Proper js welds) (hue : F.u ≤ ε) (hA : 1 ≤ A) (hsm : Small F ε μ A D R)
    (hcom : ∀ l ∈ ls, ∀ i, l.inertial = some i → welds ⟨l.name ++ "_com", l.name, ⟨i.origin.position, Rot.one⟩⟩)
    (hθ : ∀ j ∈ js, |θ j.name| ≤ A) (hb : PoseNear ε (ε * (base.position.len + μ)) base' base)
    (hb1 : 1 / 2 ≤ base.rotation.len) (hb2 : base.rotation.len ≤ 2)
    (hD : ∀ n d L, PathLength ls js welds θ base n d L → d ≤ D ∧ L ≤ R) (Q : Inertial (Fl F) → Inertial ℝ → Prop)
    (hL : List.Forall₂ (fun l' l => LinkNear ε μ l' l ∧ ∀ i' i, l'.inertial = some i' → l.inertial = some i → Q i' i) ls' ls)
    {bs' : List (Inertial (Fl F) × Pose (Fl F))} (h : Bodies (K := Fl F) ls' js' welds' θ base' bs') :
    ∃ bs, Bodies ls js welds θ base bs ∧ List.Forall₂ (fun x' x => BodyNear ε (posBound ε μ A D R) R (500 * (D + 1) * ε * A) x' x ∧ Q x'.1 x.1) bs' bs ∧
      (bs.map fun x => x.1.mass).sum = massSum ls := by
  obtain ⟨sorted', hp', hs', hf'⟩ := h
  obtain ⟨sorted, hn, hp⟩ := List.perm_comp_forall₂ hp' hL
  have hmem : ∀ l ∈ sorted, l ∈ ls := fun l hl => hp.mem_iff.mp hl
  have hnames : sorted'.map RawLink.name = sorted.map RawLink.name := by
    clear * - hn
    induction hn with
    | nil => rfl
    | cons h _ ih => simp [h.1.name, ih]
  have key : ∃ bs, List.Forall₂ (fun r x => r.inertial = some x.1 ∧ WorldPose ls js welds θ base r.name x.2)
      (sorted.filter fun r => r.inertial.isSome) bs ∧ List.Forall₂ (fun x' x => BodyNear ε (posBound ε μ A D R) R (500 * (D + 1) * ε * A) x' x ∧ Q x'.1 x.1) bs' bs ∧
      (bs.map fun x => x.1.mass).sum = massSum sorted := by
    clear hp' hp hs' hnames
    induction hn generalizing bs' with
    | nil =>
      simp only [List.filter_nil, List.forall₂_nil_left_iff] at hf'
      subst hf'
      exact ⟨[], .nil, .nil, rfl⟩
    | @cons l' l sorted' sorted hll _ ih =>
      cases hi : l'.inertial with
      | none =>
        have hi2 := hll.1.none.mp hi
        rw [List.filter_cons_of_neg (by simp [hi])] at hf'
        obtain ⟨bs, k1, k2, k3⟩ := ih hf' (fun l hl => hmem l (by simp [hl]))
        refine ⟨bs, by rw [List.filter_cons_of_neg (by simp [hi2])]; exact k1, k2, ?_⟩
        rw [k3]
        simp [massSum, RawLink.massOf, hi2]
      | some i' =>
        rw [List.filter_cons_of_pos (by simp [hi])] at hf'
        rcases hf' with _ | ⟨⟨h1, h2⟩, h3⟩
        obtain ⟨bs, k1, k2, k3⟩ := ih h3 (fun l hl => hmem l (by simp [hl]))
        obtain ⟨x, x1, x2, x3⟩ := body_near hR hP hue hA hsm hcom hθ hb hb1 hb2 hD (hmem l (by simp)) hll.1 h1 h2
        refine ⟨x :: bs, ?_, (.cons ⟨x3, hll.2 _ _ h1 x1⟩ k2), ?_⟩
        · rw [List.filter_cons_of_pos (by simp [x1])]
          exact .cons ⟨x1, x2⟩ k1
        · simp only [List.map_cons, List.sum_cons, k3]
          simp [massSum, RawLink.massOf, x1]
  obtain ⟨bs, k1, k2, k3⟩ := key
  exact ⟨bs, ⟨sorted, hp, hnames ▸ hs', k1⟩, k2, k3.trans (massSum_perm hp)⟩

/-- the mass-weighted mean of computed bodies -/
theorem mean_bodies {θ : String → ℝ} {base : Pose ℝ} (hue : F.u ≤ ε) (hA : 1 ≤ A) (hsm : Small F ε μ A D R)
    (hpos : 0 < massSum ls) (hM : F.tiny ≤ μ * massSum ls)
    (hN : 100 * (ls.length * ε) ≤ 1) (hB : 12 * (massSum ls + 1) * (R + D + 1) ≤ F.big)
    {bs' : List (Inertial (Fl F) × Pose (Fl F))} {bs : List (Inertial ℝ × Pose ℝ)} {τ : ℝ} (hbs : Bodies ls js welds θ base bs)
    (hn : List.Forall₂ (BodyNear ε (posBound ε μ A D R) R τ) bs' bs) (hsum : (bs.map fun x => x.1.mass).sum = massSum ls) :
    Vec3.dist (comOf (K := Fl F) bs').real (comOf bs) ≤ comBound ε μ A D bs.length R := by
  have hue0 := F.u_nonneg.trans hue
  have hμ0 : 0 ≤ μ := F.tiny_nonneg.trans hsm.tiny_le
  have hne : bs ≠ [] := by
    rintro rfl
    rw [← hsum] at hpos
    exact lt_irrefl _ hpos
  have hlen : bs.length ≤ ls.length := by
    obtain ⟨sorted, hp, _, hf⟩ := hbs
    rw [← hf.length_eq, ← hp.length_eq]
    exact List.length_filter_le _ _
  have hR0 : 0 ≤ R := by
    obtain ⟨b, hb⟩ := List.exists_mem_of_ne_nil _ hne
    obtain ⟨i, hi, rfl⟩ := List.getElem_of_mem hb
    have := (hn.get (i := i) (by rw [hn.length_eq]; exact hi) hi).len
    exact (Real.sqrt_nonneg _).trans this
  have he : ε ≤ 1 / 500 := by
    have h1 := hsm.acc
    have h2 : ε * 1 ≤ ε * ((D + 1) * A) := mul_le_mul_of_nonneg_left (by
      have : (0 : ℝ) ≤ D := by positivity
      nlinarith) hue0
    linarith
  obtain ⟨p1, p2⟩ := posBound_le hsm hue hA le_rfl le_rfl hR0
  have hNb : 100 * ((bs.length : ℝ) * ε) ≤ 1 := by
    refine le_trans ?_ hN
    have : (bs.length : ℝ) ≤ ls.length := by exact_mod_cast hlen
    linarith [mul_le_mul_of_nonneg_right this hue0]
  have hfold : ∀ (f : Inertial ℝ × Pose ℝ → ℝ) (bs : List (Inertial ℝ × Pose ℝ)) (s : ℝ),
      bs.foldl (fun s b => s + f b) s = s + (bs.map f).sum := by
    intro f bs
    induction bs with
    | nil => intro s; simp
    | cons b bs ih => intro s; rw [List.foldl_cons, ih, List.map_cons, List.sum_cons]; ring
  have hMe : massSum ls = bs.foldl (fun s b => s + b.1.mass) (0 : ℝ) := by
    rw [hfold, zero_add, hsum]
  have hM0 : 0 ≤ massSum ls := by
    rw [← hsum]
    refine List.sum_nonneg ?_
    simp only [List.mem_map, forall_exists_index, and_imp, forall_apply_eq_imp_iff₂]
    intro b hb
    obtain ⟨i, hi, rfl⟩ := List.getElem_of_mem hb
    exact (hn.get (i := i) (by rw [hn.length_eq]; exact hi) hi).pos
  have hbig : 6 * (massSum ls + 1) * (R + posBound ε μ A D R + 1) ≤ F.big := by
    refine le_trans ?_ hB
    have : (0 : ℝ) ≤ D := by positivity
    have : 6 * (massSum ls + 1) * (R + posBound ε μ A D R + 1) ≤ 6 * (massSum ls + 1) * (2 * (R + D + 1)) :=
      mul_le_mul_of_nonneg_left (by linarith) (by positivity)
    linarith
  have coord : ∀ (c' : Vec3 ℝ → ℝ), (∀ v : Vec3 ℝ, |c' v| ≤ ‖v.quat‖) → (∀ v w : Vec3 ℝ, |c' v - c' w| ≤ ‖v.quat - w.quat‖) →
      |F.div (bs'.foldl (fun s a => F.add s (F.mul a.1.mass (c' (bodyCentre (K := Fl F) a).real))) 0) (bs'.foldl (fun s a => F.add s a.1.mass) 0) -
        bs.foldl (fun s b => s + b.1.mass * c' (bodyCentre b)) 0 / massSum ls| ≤
      6 / 5 * posBound ε μ A D R + 12 * (bs.length * ε) * (R + μ) := by
    intro c' h1 h2
    refine mean_near (m' := fun a => a.1.mass) (m := fun b => b.1.mass) (c' := fun a => c' (bodyCentre (K := Fl F) a).real) (c := fun b => c' (bodyCentre b))
      hue he hR0 p2 hsm.tiny_le hn (fun a b hab => ⟨hab.pos, hab.mass, ?_, ?_⟩) hMe rfl hpos hM hsm.unit hNb hbig
    · have := hab.near
      rw [Vec3.dist_quat] at this
      exact (h2 _ _).trans this
    · have := hab.len
      rw [Vec3.len_quat] at this
      exact (h1 _).trans this
  have sub : ∀ v w : Vec3 ℝ, (Vec3.mk (v.x - w.x) (v.y - w.y) (v.z - w.z)).quat = v.quat - w.quat := fun v w => by
    ext <;> first | rfl | (show (0 : ℝ) = 0 - 0; ring)
  have cx := coord Vec3.x (fun v => v.abs_le.1) (fun v w => by rw [← sub]; exact (Vec3.abs_le ⟨v.x - w.x, v.y - w.y, v.z - w.z⟩).1)
  have cy := coord Vec3.y (fun v => v.abs_le.2.1) (fun v w => by rw [← sub]; exact (Vec3.abs_le ⟨v.x - w.x, v.y - w.y, v.z - w.z⟩).2.1)
  have cz := coord Vec3.z (fun v => v.abs_le.2.2) (fun v w => by rw [← sub]; exact (Vec3.abs_le ⟨v.x - w.x, v.y - w.y, v.z - w.z⟩).2.2)
  rw [hMe] at cx cy cz
  have hb0 : 0 ≤ 6 / 5 * posBound ε μ A D R + 12 * (bs.length * ε) * (R + μ) := (abs_nonneg _).trans cx
  rw [Vec3.dist_quat, ← sub]
  refine (quat_norm_le (e := 6 / 5 * posBound ε μ A D R + 12 * (bs.length * ε) * (R + μ)) ?_ cx cy cz).trans ?_
  · show |(0 : ℝ)| ≤ _
    rw [abs_zero]
    exact hb0
  · have : 0 ≤ (bs.length : ℝ) * ε * (R + μ) := by positivity
    have : 0 ≤ posBound ε μ A D R := by
      refine le_trans ?_ p2
      positivity
    unfold comBound
    linarith

/-- **C105**, from the computed poses of the bodies: their mass-weighted mean, with rounding in every operation, is near the centre of
mass of the exact robot. -/
theorem C105_mean {welds' : Weld (Fl F) → Prop} {θ : String → ℝ} {base' : Pose (Fl F)} {base : Pose ℝ}
    (hR : RobotNear ε μ ls' js' welds' ls js welds) (hP : Proper js welds) (hue : F.u ≤ ε) (hA : 1 ≤ A) (hsm : Small F ε μ A D R)
    (hcom : ∀ l ∈ ls, ∀ i, l.inertial = some i → welds ⟨l.name ++ "_com", l.name, ⟨i.origin.position, Rot.one⟩⟩)
    (hL : List.Forall₂ (LinkNear ε μ) ls' ls) (hpos : 0 < massSum ls) (hM : F.tiny ≤ μ * massSum ls)
    (hN : 100 * (ls.length * ε) ≤ 1) (hB : 12 * (massSum ls + 1) * (R + D + 1) ≤ F.big)
    (hθ : ∀ j ∈ js, |θ j.name| ≤ A) (hb : PoseNear ε (ε * (base.position.len + μ)) base' base)
    (hb1 : 1 / 2 ≤ base.rotation.len) (hb2 : base.rotation.len ≤ 2)
    (hD : ∀ n d L, PathLength ls js welds θ base n d L → d ≤ D ∧ L ≤ R)
    {bs' : List (Inertial (Fl F) × Pose (Fl F))} (h : Bodies (K := Fl F) ls' js' welds' θ base' bs') :
    ∃ bs, Bodies ls js welds θ base bs ∧ Vec3.dist (comOf (K := Fl F) bs').real (comOf bs) ≤ comBound ε μ A D bs.length R := by
  obtain ⟨bs, hbs, hn, hsum⟩ := bodies_near hR hP hue hA hsm hcom hθ hb hb1 hb2 hD (fun _ _ => True) (hL.imp fun _ _ h => ⟨h, fun _ _ _ _ => trivial⟩) h
  exact ⟨bs, hbs, mean_bodies hue hA hsm hpos hM hN hB hbs (hn.imp fun _ _ h => h.1) hsum⟩

variable {m0 m : KinModel (Fl F)} {cs : List (Call (Fl F))}

/-- **C105.** `get_com` in rounded arithmetic, on a robot with any past: the returned point is within `comBound` of the centre of mass
of the exact robot. -/
theorem C105_com (h : Reach ls' js' m0 cs m) (hf : Shallow ls' js' m0 cs)
    (hR : RobotNear ε μ ls' js' (AllWelds ls' m0 cs) ls js welds) (hP : Proper js welds) (hue : F.u ≤ ε) (hA : 1 ≤ A) (hsm : Small F ε μ A D R)
    (hcom : ∀ l ∈ ls, ∀ i, l.inertial = some i → welds ⟨l.name ++ "_com", l.name, ⟨i.origin.position, Rot.one⟩⟩)
    (hL : List.Forall₂ (LinkNear ε μ) ls' ls) (hpos : 0 < massSum ls) (hM : F.tiny ≤ μ * massSum ls)
    (hN : 100 * (ls.length * ε) ≤ 1) (hB : 12 * (massSum ls + 1) * (R + D + 1) ≤ F.big)
    {θ : String → ℝ} (hθ : AnglesAfter (K := Fl F) m0 cs θ) {base : Pose ℝ}
    (hb : PoseNear ε (ε * (base.position.len + μ)) (baseAfter Pose.identity cs) base)
    (hb1 : 1 / 2 ≤ base.rotation.len) (hb2 : base.rotation.len ≤ 2)
    (hθA : ∀ j ∈ js, |θ j.name| ≤ A) (hD : ∀ n d L, PathLength ls js welds θ base n d L → d ≤ D ∧ L ≤ R) :
    ∃ v m' bs, getCom m = .ok v m' ∧ Bodies ls js welds θ base bs ∧ Vec3.dist v.real (comOf bs) ≤ comBound ε μ A D bs.length R := by
  obtain ⟨bs', hbs', m', e⟩ := C30_com h hf hθ
  obtain ⟨bs, h1, h2⟩ := C105_mean hR hP hue hA hsm hcom hL hpos hM hN hB hθA hb hb1 hb2 hD ((hbs' bs').mpr rfl)
  exact ⟨_, m', bs, e, h1, h2⟩

variable {h : List (PyCall (Fl F))} {s s' : PyModel (Fl F)} {qs : QArg (Fl F)} {ids : List Nat} {bt : BaseType} {wj : Bool}

/-- **C105.** `solve_com_fk` in rounded arithmetic, with a planar or floating base or of a single configuration right after
`clear_cache`: row `k` of `C` is within `comBound` of the centre of mass of the exact robot at configuration `k`. -/
theorem C105_solve_com_fk (hr : PyReach ls' js' m0 h cs s) (hf : Shallow ls' js' m0 cs) (ha : ComArgs m0 s qs ids [] [] bt)
    (hc : (bt ≠ .fixed ∧ s' = s) ∨ (pyClearCache s = .ok () s' ∧ qs.rows.length = 1))
    (hR : RobotNear ε μ ls' js' (AllWelds ls' m0 cs) ls js welds) (hP : Proper js welds) (hue : F.u ≤ ε) (hA : 1 ≤ A) (hsm : Small F ε μ A D R)
    (hcom : ∀ l ∈ ls, ∀ i, l.inertial = some i → welds ⟨l.name ++ "_com", l.name, ⟨i.origin.position, Rot.one⟩⟩)
    (hL : List.Forall₂ (LinkNear ε μ) ls' ls) (hpos : 0 < massSum ls) (hM : F.tiny ≤ μ * massSum ls)
    (hN : 100 * (ls.length * ε) ≤ 1) (hB : 12 * (massSum ls + 1) * (R + D + 1) ≤ F.big) :
    ∃ C J s'', pySolveComFk qs ids none bt wj s' = .ok (C, J) s'' ∧
      ∀ (k : Nat) (q : List (Fl F)) (θ : String → ℝ) (base : Pose ℝ), qs.rows[k]? = some q →
        AnglesAfter (K := Fl F) m0 (cs ++ configCalls ids bt q) θ →
        PoseNear ε (ε * (base.position.len + μ)) (baseAfter Pose.identity (cs ++ configCalls ids bt q)) base →
        1 / 2 ≤ base.rotation.len → base.rotation.len ≤ 2 → (∀ j ∈ js, |θ j.name| ≤ A) →
        (∀ n d L, PathLength ls js welds θ base n d L → d ≤ D ∧ L ≤ R) →
        ∃ bs, Bodies ls js welds θ base bs ∧ Vec3.dist ⟨C.f k 0, C.f k 1, C.f k 2⟩ (comOf bs) ≤ comBound ε μ A D bs.length R := by
  obtain ⟨C, J, s'', e, _, _, hrow⟩ := C05_com_partial (act := none) (wj := wj) hr hf ha hc (fun _ h => absurd rfl h)
  refine ⟨C, J, s'', e, fun k q θ base h1 h2 hb hb1 hb2 hθ hD => ?_⟩
  obtain ⟨bs', Ts, hbs', hT, hv⟩ := hrow k q θ h1 h2
  obtain ⟨bs, g1, g2⟩ := C105_mean hR hP hue hA hsm hcom hL hpos hM hN hB hθ hb hb1 hb2 hD ((hbs' bs').mpr rfl)
  refine ⟨bs, g1, ?_⟩
  rw [hv 0 (by norm_num), hv 1 (by norm_num), hv 2 (by norm_num)]
  exact g2

end
/-! ### The hypotheses are met -/

namespace RoundExample

theorem links_near : List.Forall₂ (LinkNear (200 * dbl.u * 2) μ) ls' ls := by
  have hu := dbl.u_nonneg
  have hμ : 0 ≤ μ := by unfold μ; positivity
  refine .cons ⟨rfl, by simp, nofun⟩ (.cons ⟨rfl, by simp, nofun⟩ (.cons ⟨rfl, by simp, ?_⟩ .nil))
  intro i' i h1 h2
  cases h1
  cases h2
  refine ⟨by norm_num [mass], ?_, ?_⟩
  · have : (mass'.mass).real - mass.mass = 0 := by simp [mass', mass, Fl.real]
    rw [this, abs_zero]
    have : mass.mass = 1 := rfl
    rw [this]
    linarith
  · have e2 : Vec3.dist mass'.origin.position.real mass.origin.position = 0 := by
      show Vec3.dist mass.origin.position mass.origin.position = 0
      simp [Vec3.dist]
    rw [e2]
    have : 0 ≤ mass.origin.position.len := Real.sqrt_nonneg _
    exact mul_nonneg (by linarith) (by linarith)

theorem com_welds : ∀ l ∈ ls, ∀ i, l.inertial = some i → (⟨l.name ++ "_com", l.name, ⟨i.origin.position, Rot.one⟩⟩ : Weld ℝ) = com := by
  intro l hl i hi
  simp only [ls, List.mem_cons, List.not_mem_nil, or_false] at hl
  rcases hl with rfl | rfl | rfl
  · cases hi
  · cases hi
  · cases hi
    rfl

theorem mass_sum : massSum ls = 1 := by
  simp [massSum, ls, RawLink.massOf, mass]

theorem small3 : Small dbl (200 * dbl.u * 2) μ 2 3 5 := by
  refine ⟨?_, ?_, μ_le, ?_⟩
  · rw [u_eq]; norm_num
  · rw [tiny_eq, μ, show (64 : ℝ) ^ (3 + 2) = 2 ^ (30 : ℤ) by norm_num, ← zpow_add₀ (by norm_num : (2 : ℝ) ≠ 0)]
    exact zpow_le_zpow_right₀ (by norm_num) (by norm_num)
  · rw [big_eq]; norm_num

theorem comArgs : ComArgs m0 s0 (.list1 q) [0, 1] [] [] .planer := by
  refine ⟨nofun, by simp [QArg.rows], by intro r hr; simp only [QArg.rows, List.mem_singleton] at hr; subst hr; rfl, ?_, by simp, rfl⟩
  rw [joints_length]; simp

/-- In IEEE arithmetic `solve_com_fk` returns the centre of mass of this robot to eight digits. -/
theorem hand_com : ∃ C J s', pySolveComFk (.list1 q) [0, 1] none .planer false s0 = .ok (C, J) s' ∧
    ∃ bs, Bodies ls js (fun w => w = com) θ base bs ∧ Vec3.dist ⟨C.f 0 0, C.f 0 1, C.f 0 2⟩ (comOf bs) ≤ 1 / 10 ^ 8 := by
  have hμ : 0 ≤ μ := by unfold μ; positivity
  have hμ1 := μ_le
  obtain ⟨C, J, s', e, h⟩ := C105_solve_com_fk (wj := false) (A := 2) s0_reach shallow comArgs (.inl ⟨nofun, rfl⟩)
    robot_near proper (by have := dbl.u_nonneg; linarith) (by norm_num) small3 com_welds links_near
    (by rw [mass_sum]; norm_num) (by rw [mass_sum]; linarith [tiny_μ', dbl.tiny_nonneg])
    (by rw [u_eq]; norm_num [ls]) (by rw [mass_sum, big_eq]; norm_num)
  obtain ⟨bs, h1, h2⟩ := h 0 q θ base rfl angles base_near.1
    (by rw [base_near.2]; norm_num) (by rw [base_near.2]; norm_num) (by
      intro j hj
      simp only [js, List.mem_cons, List.not_mem_nil, or_false] at hj
      rcases hj with rfl | rfl <;> simp [turn, slide, θ]; norm_num)
    (fun n d L h => by
      obtain ⟨k1, k2⟩ := path h
      refine ⟨?_, k2.trans ?_⟩
      · rw [k1]; split_ifs <;> omega
      · split_ifs <;> norm_num)
  refine ⟨C, J, s', e, bs, h1, h2.trans ?_⟩
  have hl : (bs.length : ℝ) ≤ 3 := by
    obtain ⟨sorted, hp, _, hf⟩ := h1
    have : bs.length ≤ ls.length := by
      rw [← hf.length_eq, ← hp.length_eq]
      exact List.length_filter_le _ _
    exact_mod_cast this
  have hl0 : (0 : ℝ) ≤ bs.length := by positivity
  have k1 : 25 * (bs.length : ℝ) * (200 * dbl.u * 2) * (5 + μ) ≤ 25 * 3 * (200 * dbl.u * 2) * (5 + 1) := by
    have := dbl.u_nonneg
    refine mul_le_mul ?_ (by linarith) (by linarith) (by linarith)
    exact mul_le_mul_of_nonneg_right (by linarith) (by linarith)
  have k2 : 25 * 3 * (200 * dbl.u * 2) * (5 + 1) ≤ 1 / 10 ^ 10 := by
    rw [u_eq]; norm_num
  have k3 : posBound (200 * dbl.u * 2) μ 2 3 5 ≤ 2 / 10 ^ 9 := by
    unfold posBound
    rw [u_eq]
    norm_num
    linarith
  unfold comBound
  linarith

/-- the robot after the calls that set this configuration -/
theorem configured : ∃ mk, Reach ls' js' m0 ([] ++ configCalls [0, 1] .planer q) mk :=
  (⟨isTree, supported, m0_spec, .nil⟩ : Reach ls' js' m0 [] m0).config (by rw [joints_length]; simp) rfl

example {mk : KinModel (Fl dbl)} (hmk : Reach ls' js' m0 ([] ++ configCalls [0, 1] .planer q) mk) :=
  C105_com (A := 2) hmk (shallow.sets (configCalls_isSet _ _ _)) (by rw [allWelds_sets (configCalls_isSet _ _ _)]; exact robot_near) proper
    (by have := dbl.u_nonneg; linarith) (by norm_num) small3 com_welds links_near
    (by rw [mass_sum]; norm_num) (by rw [mass_sum]; linarith [tiny_μ', dbl.tiny_nonneg, μ_le])
    (by rw [u_eq]; norm_num [ls]) (by rw [mass_sum, big_eq]; norm_num) angles base_near.1
    (by rw [base_near.2]; norm_num) (by rw [base_near.2]; norm_num)

end RoundExample
end Tinyfk
