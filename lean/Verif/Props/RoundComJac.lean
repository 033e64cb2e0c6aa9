import Verif.Proofs.RoundInertia
import Verif.Props.RoundGrad
import Verif.Props.RoundCom
import Verif.Props.ComJac
import Verif.Proofs.ComFk
import Verif.Props.ComBatchJac

/-!
# Properties: rounding errors of the Jacobian of the centre of mass

C107.
-/

set_option linter.unusedSectionVars false

namespace Tinyfk

section
variable {F : Rounding} {ls' : List (RawLink (Fl F))} {js' : List (RawJoint (Fl F))} {ls : List (RawLink ℝ)} {js : List (RawJoint ℝ)}
  {welds : Weld ℝ → Prop} {ε μ A R : ℝ} {D : Nat} {m0 m : KinModel (Fl F)} {cs : List (Call (Fl F))}

/-- the pose of an added link comes from that of its carrier -/
theorem WeldsApart.inv (hW : WeldsApart ls js welds) {w : Weld ℝ} (hw : welds w) {θ : String → ℝ} {base T : Pose ℝ}
    (h : WorldPose ls js welds θ base w.name T) : ∃ B, WorldPose ls js welds θ base w.carrier B ∧ T = Pose.transform B w.offset := by
  generalize hn : w.name = n at h
  cases h with
  | root hl _ => exact absurd hn.symm (hW.link w hw _ hl)
  | joint hj _ _ => exact absurd hn.symm (hW.child w hw _ hj)
  | weld hw' hB =>
    obtain rfl := hW.inj _ _ hw hw' hn
    exact ⟨_, hB, rfl⟩

theorem colBound_mono (hε : 0 ≤ ε) (hμ : 0 ≤ μ) (hA : 0 ≤ A) {r : RawJoint ℝ} {d : Nat} {L : ℝ} (hd : d ≤ D) (hL : L ≤ R) (hL0 : 0 ≤ L) :
    colBound ε μ A r d L ≤ colBound ε μ A r D R := by
  have hdR : (d : ℝ) ≤ D := by exact_mod_cast hd
  have ha0 : 0 ≤ r.axis.len := Real.sqrt_nonneg _
  have e0 : 0 ≤ ε * A := by positivity
  have h1 : ((d : ℝ) + 1) * (ε * A) ≤ (D + 1) * (ε * A) := mul_le_mul_of_nonneg_right (by linarith) e0
  have h2 : ((d : ℝ) + 1) * μ ≤ (D + 1) * μ := mul_le_mul_of_nonneg_right (by linarith) hμ
  unfold colBound
  split
  · exact mul_le_mul_of_nonneg_right (by linarith) (by linarith)
  · refine mul_le_mul (by linarith) (by linarith) (by positivity) (by positivity)

theorem colSize_mono {r : RawJoint ℝ} {L : ℝ} (hL : L ≤ R) : colSize r L ≤ colSize r R := by
  unfold colSize
  split <;> linarith

theorem colSize_nonneg {r : RawJoint ℝ} (hR : 0 ≤ R) : 0 ≤ colSize r R := by
  have : 0 ≤ r.axis.len := Real.sqrt_nonneg _
  unfold colSize
  split <;> linarith

theorem colBound_size (hε : 0 ≤ ε) (hμ : 0 ≤ μ) (hA : 1 ≤ A) (hR : 0 ≤ R) {r : RawJoint ℝ} :
    500 * ε * (colSize r R + μ) ≤ colBound ε μ A r D R := by
  have ha0 : 0 ≤ r.axis.len := Real.sqrt_nonneg _
  have hD0 : (0 : ℝ) ≤ D := by positivity
  have e0 : 0 ≤ ε * A := by positivity
  have k3 : ε ≤ ε * A := le_mul_of_one_le_right hε hA
  have k4 : ε * A ≤ (D + 1) * (ε * A) := le_mul_of_one_le_left e0 (by linarith)
  have k5 : μ ≤ (D + 1) * μ := le_mul_of_one_le_left hμ (by linarith)
  unfold colSize colBound
  split
  · exact mul_le_mul_of_nonneg_right (by linarith) (by linarith)
  · have := mul_le_mul (show 500 * ε ≤ 1500 * (D + 1) * ε * A by linarith) (show 2 * R + μ ≤ 2 * (R + (D + 1) * μ) by linarith)
      (by positivity) (by positivity)
    linarith

/-- a body of the exact robot that moves with a joint: its `<inertial>`, its pose for each value of the joint and the velocity of its centre -/
abbrev MovingBody := Inertial ℝ × (ℝ → Pose ℝ) × Vec3 ℝ

/-- what is known of a computed mass and Jacobian, and of the body that it belongs to -/
structure BodyCol (ε δ S : ℝ) (k : Nat) (t : ℝ) (x : Fl F × Mat (Fl F)) (z : MovingBody) : Prop where
  pos : 0 ≤ z.1.mass
  mass : |x.1.real - z.1.mass| ≤ ε * z.1.mass
  deriv : Vec3.HasDeriv (fun v => bodyCentre (z.1, z.2.1 v)) z.2.2 t
  near : Vec3.dist ⟨x.2.f 0 k, x.2.f 1 k, x.2.f 2 k⟩ z.2.2 ≤ δ
  size : z.2.2.len ≤ S

/-- the link of a computed Jacobian of a centre of mass -/
def JacOf (m : KinModel (Fl F)) (ids : List Nat) (wb : Bool) (x : Fl F × Mat (Fl F)) (l' : RawLink (Fl F)) : Prop :=
  ∃ d lk i', IsComJac m ids wb m.base d x ∧ m.links[d]? = some lk ∧ lk.name = l'.name ++ "_com" ∧ lk.inertial = some i'.reset ∧
    l'.inertial = some i'

theorem Reach.com_jacs (h : Reach ls' js' m0 cs m) {ids : List Nat} (hids : ∀ i ∈ ids, i < m.joints.length) (wb : Bool) :
    ∃ (sorted : List (RawLink (Fl F))) (xs : List (Fl F × Mat (Fl F))), sorted.Perm ls' ∧ (sorted.map RawLink.name).Pairwise (· < ·) ∧
      List.Forall₂ (IsComJac m ids wb m.base) m.comDummy xs ∧
      List.Forall₂ (JacOf m ids wb) xs (sorted.filter fun r => r.inertial.isSome) := by
  obtain ⟨xs, hxs⟩ := h.abs.inv.exists_comJacs hids wb m.base
  obtain ⟨sorted, hp, hs, _, hcom, _⟩ := h.constructed.order
  refine ⟨sorted, xs, hp, hs, hxs, ?_⟩
  rw [h.abs.coms] at hxs
  refine forall₂_comp ?_ hxs.flip (forall₂_comp (Q := fun d (l' : RawLink (Fl F)) => ∃ lk i', m.links[d]? = some lk ∧ lk.name = l'.name ++ "_com" ∧
    lk.inertial = some i'.reset ∧ l'.inertial = some i') ?_ hcom (withInertial_filter sorted).flip)
  · rintro x d l' hx ⟨lk, i', h1, h2, h3, h4⟩
    exact ⟨d, lk, i', hx, h1, h2, h3, h4⟩
  · rintro d p l' ⟨lk, h1, h2, h3⟩ ⟨h4, h5⟩
    obtain ⟨lk', g1, g2, g3, _⟩ := h.abs.old d lk h1
    exact ⟨lk', p.2, g1, by rw [g2, h2, h4], g3.trans h3, h5⟩

/-- the moving body of a computed Jacobian -/
theorem Reach.body_col (h : Reach ls' js' m0 cs m) (hR : RobotNear ε μ ls' js' (AllWelds ls' m0 cs) ls js welds)
    (hu : UnitDesc js) (hw : ∀ w, welds w → w.offset.rotation.norm2 = 1) (hax : ∀ r ∈ js, r.axis.len ≤ 1 + R)
    (hue : F.u ≤ ε) (hA : 1 ≤ A) (hsm : Small F ε μ A D R) (hrp : RpOK m) (hW : WeldsApart ls js welds)
    (hcom : ∀ l ∈ ls, ∀ i, l.inertial = some i → welds ⟨l.name ++ "_com", l.name, ⟨i.origin.position, Rot.one⟩⟩)
    {ids : List Nat} {wb : Bool} {k i : Nat} {s : String} (hk : ids[k]? = some i) (hi : i < m.joints.length)
    (hs : getJointIds [s] m0 = .ok [i] m0) {θ : String → ℝ} (hθ : AnglesAfter (K := Fl F) m0 cs θ) {base : Pose ℝ}
    (hb : PoseNear ε (ε * (base.position.len + μ)) (baseAfter Pose.identity cs) base) (hbu : base.rotation.norm2 = 1)
    (hθA : ∀ j ∈ js, |θ j.name| ≤ A) (hD : ∀ n d L, PathLength ls js welds θ base n d L → d ≤ D ∧ L ≤ R)
    {x : Fl F × Mat (Fl F)} {l' : RawLink (Fl F)} {l : RawLink ℝ} (hx : JacOf m ids wb x l') (hl : l ∈ ls) (hn : LinkNear ε μ l' l) :
    ∃ (r : RawJoint ℝ) (z : MovingBody), r ∈ js ∧ r.name = s ∧ l.inertial = some z.1 ∧
      (∀ v, WorldPose ls js welds (Function.update θ s v) base l.name (z.2.1 v)) ∧
      BodyCol ε (colBound ε μ A r D R) (colSize r R) k (θ s) x z ∧ 0 ≤ R := by
  have he : 0 ≤ ε := F.u_nonneg.trans hue
  have hμ0 : 0 ≤ μ := F.tiny_nonneg.trans hsm.tiny_le
  obtain ⟨d, lk, i', ⟨lk', inr, E, cols, h1, h2, h3, h4, h5, h6, h7⟩, g1, g2, g3, g4⟩ := hx
  rw [h1] at g1; cases g1
  rw [h3] at g3; cases g3
  obtain ⟨i0, hi0⟩ : ∃ i, l.inertial = some i := by
    cases h : l.inertial with
    | none => rw [hn.none.mpr h] at g4; cases g4
    | some i => exact ⟨i, rfl⟩
  obtain ⟨m1, m2, _⟩ := hn.some i' i0 g4 hi0
  have hweld := hcom l hl i0 hi0
  rw [hn.name] at g2
  have hlid : getLinkIds [l.name ++ "_com"] m = .ok [d] m := by
    rw [getLinkIds_one, h.abs.inv.graph.linkNames]
    exact ⟨lk, h1, g2⟩
  have hkl : k < cols.length := by rw [← h6.length_eq]; exact (List.getElem?_eq_some_iff.mp hk).1
  obtain ⟨r, dd, L, T, X, Q, p1, p2, p3, p4, p5, p6, p7, _, p9, p10, _, p11, p12⟩ := h.column_near hR hu hw hax hue hA hsm hrp
    (List.getElem?_eq_some_iff.mp h1).1 hi h5 (rt := .ignore) (col := cols[k]) (by
      obtain ⟨hk1, hk2⟩ := List.getElem?_eq_some_iff.mp hk
      rw [← hk2]
      exact (List.forall₂_iff_get.mp h6).2 k hk1 hkl) hlid hs hθ hb hbu hθA (hD _)
  have hL0 : 0 ≤ L := (Real.sqrt_nonneg _).trans p10
  choose B hB1 hB2 using fun v => hW.inv hweld (p4 v)
  have hent : ∀ r, r < 3 → x.2.f r k = cols[k] r := by
    intro r hr
    rw [h7]
    simp [jacMat, RotType.dim, hr, hkl]
  refine ⟨r, (i0, B, X), p1, p2, hi0, hB1, ⟨m1, ?_, ?_, ?_, p9.trans (colSize_mono p12)⟩, hL0.trans p12⟩
  · rw [← h4]; exact m2
  · have e : (fun v => bodyCentre (i0, B v)) = fun v => (T v).position := by
      funext v
      rw [hB2 v]
      rfl
    simp only [e]
    exact p5
  · rw [hent 0 (by omega), hent 1 (by omega), hent 2 (by omega)]
    exact p7.trans (colBound_mono he hμ0 (by linarith) p11 p12 hL0)

theorem forall₂_filter {sorted' : List (RawLink (Fl F))} {sorted : List (RawLink ℝ)} (h : List.Forall₂ (LinkNear ε μ) sorted' sorted) :
    List.Forall₂ (fun l' l => LinkNear ε μ l' l ∧ l ∈ sorted) (sorted'.filter fun r => r.inertial.isSome)
      (sorted.filter fun r => r.inertial.isSome) := by
  have key : ∀ (all : List (RawLink ℝ)), (∀ l ∈ sorted, l ∈ all) → List.Forall₂ (fun l' l => LinkNear ε μ l' l ∧ l ∈ all)
      (sorted'.filter fun r => r.inertial.isSome) (sorted.filter fun r => r.inertial.isSome) := by
    intro all hall
    induction h with
    | nil => exact .nil
    | @cons l' l _ _ hll _ ih =>
      have ih := ih fun l hl => hall l (by simp [hl])
      cases hi : l'.inertial with
      | none =>
        rw [List.filter_cons_of_neg (by simp [hi]), List.filter_cons_of_neg (by simp [hll.none.mp hi])]
        exact ih
      | some i' =>
        have hs : l.inertial.isSome := by
          cases h : l.inertial with
          | none => rw [hll.none.mpr h] at hi; cases hi
          | some i => rfl
        rw [List.filter_cons_of_pos (by simp [hi]), List.filter_cons_of_pos (by simpa using hs)]
        exact .cons ⟨hll, hall l (by simp)⟩ ih
  exact key sorted fun _ h => h

theorem foldl_add_sum {β : Type} (f : β → ℝ) (bs : List β) (s : ℝ) : bs.foldl (fun s b => s + f b) s = s + (bs.map f).sum := by
  induction bs generalizing s with
  | nil => simp
  | cons b bs ih => rw [List.foldl_cons, ih, List.map_cons, List.sum_cons]; ring

theorem massSum_filter (ls : List (RawLink ℝ)) : massSum (ls.filter fun r => r.inertial.isSome) = massSum ls := by
  induction ls with
  | nil => rfl
  | cons l ls ih =>
    cases hi : l.inertial with
    | none =>
      rw [List.filter_cons_of_neg (by simp [hi]), ih]
      simp [massSum, RawLink.massOf, hi]
    | some i =>
      rw [List.filter_cons_of_pos (by simp [hi])]
      simp only [massSum, List.map_cons, List.sum_cons] at ih ⊢
      rw [ih]

/-- one coordinate of the centre of mass of moving bodies -/
theorem com_coord_deriv {P : MovingBody → Prop} {t : ℝ} (c : Vec3 ℝ → ℝ) {zs : List MovingBody} (hz : ∀ z ∈ zs, P z)
    (hd : ∀ z, P z → HasDerivAt (fun v => c (bodyCentre (z.1, z.2.1 v))) (c z.2.2) t) :
    HasDerivAt (fun v => (zs.map fun z => (z.1, z.2.1 v)).foldl (fun s x => s + x.1.mass * c (bodyCentre x)) 0 /
        (zs.map fun z => (z.1, z.2.1 v)).foldl (fun s x => s + x.1.mass) 0)
      (zs.foldl (fun s z => s + z.1.mass * c z.2.2) 0 / zs.foldl (fun s z => s + z.1.mass) 0) t := by
  simp only [List.foldl_map]
  refine HasDerivAt.div_const ?_ _
  refine hasDerivAt_foldl (R := fun a b => a = b ∧ P a) (g := fun z v => z.1.mass * c (bodyCentre (z.1, z.2.1 v)))
    (g' := fun z => z.1.mass * c z.2.2) ?_ ?_ (hasDerivAt_const _ _)
  · rintro a _ ⟨rfl, h⟩
    exact (hd a h).const_mul _
  · exact List.forall₂_same.mpr fun z hzm => ⟨rfl, hz z hzm⟩

/-- the columns of the Jacobian of the centre of mass, with their sizes -/
theorem Reach.com_jacobian_near (h : Reach ls' js' m0 cs m) (hf : Shallow ls' js' m0 cs)
    (hR : RobotNear ε μ ls' js' (AllWelds ls' m0 cs) ls js welds) (hnd : (js.map RawJoint.name).Nodup) (hW : WeldsApart ls js welds)
    (hu : UnitDesc js) (hw : ∀ w, welds w → w.offset.rotation.norm2 = 1) (hax : ∀ r ∈ js, r.axis.len ≤ 1 + R)
    (hue : F.u ≤ ε) (hA : 1 ≤ A) (hsm : Small F ε μ A D R)
    (hcom : ∀ l ∈ ls, ∀ i, l.inertial = some i → welds ⟨l.name ++ "_com", l.name, ⟨i.origin.position, Rot.one⟩⟩)
    (hL : List.Forall₂ (LinkNear ε μ) ls' ls) (hpos : 0 < massSum ls) (hM : F.tiny ≤ μ * massSum ls)
    (hN : 100 * (ls.length * ε) ≤ 1) (hB : 48 * (massSum ls + 1) * (R + D + 1) ≤ F.big)
    {ids : List Nat} (hids : ∀ i ∈ ids, i < m.joints.length) (wb : Bool) :
    ∃ J m', getComJacobian ids wb m = .ok J m' ∧
      ∀ (k i : Nat) (s : String) (θ : String → ℝ) (base : Pose ℝ), ids[k]? = some i → getJointIds [s] m0 = .ok [i] m0 →
        AnglesAfter (K := Fl F) m0 cs θ → PoseNear ε (ε * (base.position.len + μ)) (baseAfter Pose.identity cs) base →
        base.rotation.norm2 = 1 → (∀ j ∈ js, |θ j.name| ≤ A) → (∀ n d L, PathLength ls js welds θ base n d L → d ≤ D ∧ L ≤ R) →
        ∃ (r : RawJoint ℝ) (c : ℝ → Vec3 ℝ) (X : Vec3 ℝ) (N : Nat), r ∈ js ∧ r.name = s ∧ N ≤ ls.length ∧
          (∀ v, ∃ bs, Bodies ls js welds (Function.update θ s v) base bs ∧ bs.length = N ∧ comOf bs = c v) ∧
          Vec3.HasDeriv c X (θ s) ∧ Vec3.dist ⟨J.f 0 k, J.f 1 k, J.f 2 k⟩ X ≤ comColBound ε μ A r D N R ∧ (∀ a, |X.coord a| ≤ colSize r R) ∧ 0 ≤ R := by
  obtain ⟨sorted', xs, hp', hs', hxs, hxl⟩ := h.com_jacs hids wb
  obtain ⟨m', e, _⟩ := (Query.getComJacobian hxs (fun _ => h.root_pose)).run (h.ready hf)
  refine ⟨_, m', e, ?_⟩
  intro k i s θ base hk hs hθ hb hbu hθA hD
  have hex := massSum_exists hpos
  have hue0 := F.u_nonneg.trans hue
  have hμ0 : 0 ≤ μ := F.tiny_nonneg.trans hsm.tiny_le
  obtain ⟨sorted, hn, hp⟩ := List.perm_comp_forall₂ hp' hL
  have hnames : sorted'.map RawLink.name = sorted.map RawLink.name := by
    clear * - hn
    induction hn with
    | nil => rfl
    | cons h _ ih => simp [h.name, ih]
  have hmem : ∀ l ∈ sorted, l ∈ ls := fun l hl => hp.mem_iff.mp hl
  have hne' : sorted.filter (fun r => r.inertial.isSome) ≠ [] := by
    obtain ⟨l, hl, hi⟩ := hex
    exact List.ne_nil_of_mem (List.mem_filter.mpr ⟨hp.mem_iff.mpr hl, hi⟩)
  have hi := hids i (List.mem_of_getElem? hk)
  have hrp : RpOK m := by
    refine h.rpOK (.inl ?_)
    obtain ⟨l, hl, hi⟩ := hex
    obtain ⟨k, hk, rfl⟩ := List.getElem_of_mem hl
    have hk' : k < ls'.length := by rw [hL.length_eq]; exact hk
    have := hL.get hk' hk
    refine ⟨ls'[k], by simp, ?_⟩
    rw [Option.isSome_iff_ne_none] at hi ⊢
    exact fun h => hi (this.none.mp h)
  have hxl2 : List.Forall₂ (fun x l => ∃ l', JacOf m ids wb x l' ∧ LinkNear ε μ l' l ∧ l ∈ ls) xs (sorted.filter fun r => r.inertial.isSome) :=
    forall₂_comp (fun x l' l h1 ⟨h2, h3⟩ => ⟨l', h1, h2, hmem l h3⟩) hxl (forall₂_filter hn)
  have one : ∀ x l, (∃ l', JacOf m ids wb x l' ∧ LinkNear ε μ l' l ∧ l ∈ ls) → ∃ (r : RawJoint ℝ) (z : MovingBody), r ∈ js ∧ r.name = s ∧
      l.inertial = some z.1 ∧ (∀ v, WorldPose ls js welds (Function.update θ s v) base l.name (z.2.1 v)) ∧
      BodyCol ε (colBound ε μ A r D R) (colSize r R) k (θ s) x z ∧ 0 ≤ R := by
    rintro x l ⟨l', h1, h2, h3⟩
    exact h.body_col hR hu hw hax hue hA hsm hrp hW hcom hk hi hs hθ hb hbu hθA hD h1 h3 h2
  obtain ⟨r, hr, hrn, hR0⟩ : ∃ r ∈ js, r.name = s ∧ 0 ≤ R := by
    generalize sorted.filter (fun r => r.inertial.isSome) = fl at hne' hxl2
    cases hxl2 with
    | nil => exact absurd rfl hne'
    | cons h1 _ =>
      obtain ⟨r, _, h1, h2, _, _, _, h3⟩ := one _ _ h1
      exact ⟨r, h1, h2, h3⟩
  obtain ⟨zs, hz1, hz2⟩ := forall₂_between (P := BodyCol ε (colBound ε μ A r D R) (colSize r R) k (θ s))
    (Q := fun z l => l.inertial = some z.1 ∧ ∀ v, WorldPose ls js welds (Function.update θ s v) base l.name (z.2.1 v)) hxl2 (by
      intro x _ l hx
      obtain ⟨r', z, h1, h2, h3, h4, h5, _⟩ := one x l hx
      have : r' = r := List.inj_on_of_nodup_map hnd h1 hr (h2.trans hrn.symm)
      subst this
      exact ⟨z, h5, h3, h4⟩)
  have hzl : zs.length ≤ ls.length := by
    rw [hz2.length_eq, ← hp.length_eq]
    exact List.length_filter_le _ _
  have hzne : zs ≠ [] := by
    rintro rfl
    exact hne' (List.forall₂_nil_left_iff.mp hz2)
  have hsum : zs.foldl (fun s z => s + z.1.mass) 0 = massSum ls := by
    rw [foldl_add_sum (fun z : MovingBody => z.1.mass), zero_add, ← massSum_perm hp, ← massSum_filter]
    generalize sorted.filter (fun r => r.inertial.isSome) = fl at hz2
    clear * - hz2
    induction hz2 with
    | nil => rfl
    | cons h _ ih =>
      simp only [List.map_cons, List.sum_cons, ih, massSum]
      simp [RawLink.massOf, h.1]
  have hzP : ∀ z ∈ zs, ∃ x : Fl F × Mat (Fl F), BodyCol ε (colBound ε μ A r D R) (colSize r R) k (θ s) x z := by
    intro z hz
    obtain ⟨j, hj, rfl⟩ := List.getElem_of_mem hz
    exact ⟨_, hz1.get (by rw [hz1.length_eq]; exact hj) hj⟩
  have he : ε ≤ 1 / 500 := by
    have h1 := hsm.acc
    have h2 : ε * 1 ≤ ε * ((D + 1) * A) := mul_le_mul_of_nonneg_left (by
      have : (0 : ℝ) ≤ D := by positivity
      nlinarith) hue0
    linarith
  obtain ⟨q1, _, q3⟩ := colBound_le (r := r) hsm hue hA le_rfl le_rfl hR0 (hax r hr)
  have q2 := colBound_size (D := D) (r := r) hue0 hμ0 hA hR0
  have hS0 := colSize_nonneg (r := r) hR0
  have hNb : 100 * ((zs.length : ℝ) * ε) ≤ 1 := by
    refine le_trans ?_ hN
    have : (zs.length : ℝ) ≤ ls.length := by exact_mod_cast hzl
    linarith [mul_le_mul_of_nonneg_right this hue0]
  have hM0 : 0 ≤ massSum ls := by
    rw [← hsum, foldl_add_sum (fun z : MovingBody => z.1.mass), zero_add]
    refine List.sum_nonneg ?_
    simp only [List.mem_map, forall_exists_index, and_imp, forall_apply_eq_imp_iff₂]
    intro z hz
    obtain ⟨x, hx⟩ := hzP z hz
    exact hx.pos
  have hbig : 6 * (massSum ls + 1) * (colSize r R + colBound ε μ A r D R + 1) ≤ F.big := by
    refine le_trans ?_ hB
    have : (0 : ℝ) ≤ D := by positivity
    have : 6 * (massSum ls + 1) * (colSize r R + colBound ε μ A r D R + 1) ≤ 6 * (massSum ls + 1) * (8 * (R + D + 1)) :=
      mul_le_mul_of_nonneg_left (by linarith) (by positivity)
    linarith
  have hnc : k < ids.length + (if wb then 6 else 0) := by
    have := (List.getElem?_eq_some_iff.mp hk).1
    omega
  have coord : ∀ (a : Nat) (c : Vec3 ℝ → ℝ), a < 3 → (∀ v : Vec3 ℝ, |c v| ≤ ‖v.quat‖) → (∀ v w : Vec3 ℝ, |c v - c w| ≤ ‖v.quat - w.quat‖) →
      (∀ x : Fl F × Mat (Fl F), (x.2.f a k).real = c ⟨x.2.f 0 k, x.2.f 1 k, x.2.f 2 k⟩) →
      |((comJacVal (ids.length + if wb then 6 else 0) xs).f a k).real - zs.foldl (fun s z => s + z.1.mass * c z.2.2) 0 / massSum ls| ≤
      6 / 5 * colBound ε μ A r D R + 12 * (zs.length * ε) * (colSize r R + μ) := by
    intro a c ha h1 h2 h3
    have hval : ((comJacVal (ids.length + if wb then 6 else 0) xs).f a k).real =
        F.div (xs.foldl (fun s x => F.add s (F.mul x.1.real (x.2.f a k).real)) 0) (xs.foldl (fun s x => F.add s x.1.real) 0) := by
      simp only [comJacVal, ha, hnc, and_self, if_true]
      rfl
    rw [hval]
    refine mean_near (m' := fun x : Fl F × Mat (Fl F) => x.1.real) (m := fun z : MovingBody => z.1.mass)
      (c' := fun x : Fl F × Mat (Fl F) => (x.2.f a k).real) (c := fun z : MovingBody => c z.2.2)
      hue he hS0 q2 hsm.tiny_le hz1 (fun x z hxz => ⟨hxz.pos, hxz.mass, ?_, ?_⟩) hsum.symm rfl hpos hM hsm.unit hNb hbig
    · have := hxz.near
      rw [Vec3.dist_quat] at this
      rw [h3]
      exact (h2 _ _).trans this
    · have := hxz.size
      rw [Vec3.len_quat] at this
      exact (h1 _).trans this
  have sub : ∀ v w : Vec3 ℝ, (Vec3.mk (v.x - w.x) (v.y - w.y) (v.z - w.z)).quat = v.quat - w.quat := fun v w => by
    ext <;> first | rfl | (show (0 : ℝ) = 0 - 0; ring)
  have cx := coord 0 Vec3.x (by norm_num) (fun v => v.abs_le.1)
    (fun v w => by rw [← sub]; exact (Vec3.abs_le ⟨v.x - w.x, v.y - w.y, v.z - w.z⟩).1) fun _ => rfl
  have cy := coord 1 Vec3.y (by norm_num) (fun v => v.abs_le.2.1)
    (fun v w => by rw [← sub]; exact (Vec3.abs_le ⟨v.x - w.x, v.y - w.y, v.z - w.z⟩).2.1) fun _ => rfl
  have cz := coord 2 Vec3.z (by norm_num) (fun v => v.abs_le.2.2)
    (fun v w => by rw [← sub]; exact (Vec3.abs_le ⟨v.x - w.x, v.y - w.y, v.z - w.z⟩).2.2) fun _ => rfl
  have hb0 : 0 ≤ 6 / 5 * colBound ε μ A r D R + 12 * (zs.length * ε) * (colSize r R + μ) := (abs_nonneg _).trans cx
  rw [← hsum] at cx cy cz
  refine ⟨r, fun v => comOf (zs.map fun z => (z.1, z.2.1 v)), ⟨_, _, _⟩, zs.length, hr, hrn, hzl, fun v => ⟨_, ⟨sorted, hp, hnames ▸ hs', ?_⟩,
    List.length_map _, rfl⟩, ⟨com_coord_deriv Vec3.x hzP fun z ⟨x, hx⟩ => hx.deriv.1, com_coord_deriv Vec3.y hzP fun z ⟨x, hx⟩ => hx.deriv.2.1,
    com_coord_deriv Vec3.z hzP fun z ⟨x, hx⟩ => hx.deriv.2.2⟩, ?_, ?_, hR0⟩
  · rw [List.forall₂_map_right_iff]
    exact hz2.flip.imp fun l z h => ⟨h.1, h.2 v⟩
  · rw [Vec3.dist_quat, ← sub]
    refine (quat_norm_le (e := 6 / 5 * colBound ε μ A r D R + 12 * (zs.length * ε) * (colSize r R + μ)) ?_ cx cy cz).trans ?_
    · show |(0 : ℝ)| ≤ _
      rw [abs_zero]
      exact hb0
    · have : 0 ≤ (zs.length : ℝ) * ε * (colSize r R + μ) := by positivity
      have : 0 ≤ colBound ε μ A r D R := by
        refine le_trans ?_ q2
        positivity
      unfold comColBound
      linarith
  · have hM1 : 0 < zs.foldl (fun s z => s + z.1.mass) 0 := by rw [hsum]; exact hpos
    have hsz : ∀ (c : Vec3 ℝ → ℝ), (∀ v : Vec3 ℝ, |c v| ≤ ‖v.quat‖) → ∀ z ∈ zs, 0 ≤ z.1.mass ∧ |c z.2.2| ≤ colSize r R := by
      intro c hc z hz
      obtain ⟨x, hx⟩ := hzP z hz
      have := hx.size
      rw [Vec3.len_quat] at this
      exact ⟨hx.pos, (hc _).trans this⟩
    intro a
    match a with
    | 0 => exact mean_le (w := fun z : MovingBody => z.1.mass) (t := fun z : MovingBody => z.2.2.x) (hsz Vec3.x fun v => v.abs_le.1) hM1
    | 1 => exact mean_le (w := fun z : MovingBody => z.1.mass) (t := fun z : MovingBody => z.2.2.y) (hsz Vec3.y fun v => v.abs_le.2.1) hM1
    | _ + 2 => exact mean_le (w := fun z : MovingBody => z.1.mass) (t := fun z : MovingBody => z.2.2.z) (hsz Vec3.z fun v => v.abs_le.2.2) hM1

/-- **C107.** `get_com_jacobian` in rounded arithmetic, on a robot with any past: the column of a listed joint is within `comColBound` of
the derivative of the centre of mass of the exact robot with respect to that joint. -/
theorem C107_com_jacobian (h : Reach ls' js' m0 cs m) (hf : Shallow ls' js' m0 cs)
    (hR : RobotNear ε μ ls' js' (AllWelds ls' m0 cs) ls js welds) (hnd : (js.map RawJoint.name).Nodup) (hW : WeldsApart ls js welds)
    (hu : UnitDesc js) (hw : ∀ w, welds w → w.offset.rotation.norm2 = 1) (hax : ∀ r ∈ js, r.axis.len ≤ 1 + R)
    (hue : F.u ≤ ε) (hA : 1 ≤ A) (hsm : Small F ε μ A D R)
    (hcom : ∀ l ∈ ls, ∀ i, l.inertial = some i → welds ⟨l.name ++ "_com", l.name, ⟨i.origin.position, Rot.one⟩⟩)
    (hL : List.Forall₂ (LinkNear ε μ) ls' ls) (hpos : 0 < massSum ls) (hM : F.tiny ≤ μ * massSum ls)
    (hN : 100 * (ls.length * ε) ≤ 1) (hB : 48 * (massSum ls + 1) * (R + D + 1) ≤ F.big)
    {ids : List Nat} (hids : ∀ i ∈ ids, i < m.joints.length) (wb : Bool) :
    ∃ J m', getComJacobian ids wb m = .ok J m' ∧
      ∀ (k i : Nat) (s : String) (θ : String → ℝ) (base : Pose ℝ), ids[k]? = some i → getJointIds [s] m0 = .ok [i] m0 →
        AnglesAfter (K := Fl F) m0 cs θ → PoseNear ε (ε * (base.position.len + μ)) (baseAfter Pose.identity cs) base →
        base.rotation.norm2 = 1 → (∀ j ∈ js, |θ j.name| ≤ A) → (∀ n d L, PathLength ls js welds θ base n d L → d ≤ D ∧ L ≤ R) →
        ∃ (r : RawJoint ℝ) (c : ℝ → Vec3 ℝ) (X : Vec3 ℝ) (N : Nat), r ∈ js ∧ r.name = s ∧ N ≤ ls.length ∧
          (∀ v, ∃ bs, Bodies ls js welds (Function.update θ s v) base bs ∧ bs.length = N ∧ comOf bs = c v) ∧
          Vec3.HasDeriv c X (θ s) ∧ Vec3.dist ⟨J.f 0 k, J.f 1 k, J.f 2 k⟩ X ≤ comColBound ε μ A r D N R := by
  obtain ⟨J, m', e, hJ⟩ := h.com_jacobian_near hf hR hnd hW hu hw hax hue hA hsm hcom hL hpos hM hN hB hids wb
  refine ⟨J, m', e, fun k i s θ base h1 h2 h3 h4 h5 h6 h7 => ?_⟩
  obtain ⟨r, c, X, N, p1, p2, p3, p4, p5, p6, _⟩ := hJ k i s θ base h1 h2 h3 h4 h5 h6 h7
  exact ⟨r, c, X, N, p1, p2, p3, p4, p5, p6⟩

variable {h : List (PyCall (Fl F))} {s s' : PyModel (Fl F)} {qs : QArg (Fl F)} {ids : List Nat} {bt : BaseType}

/-- **C107.** `solve_com_fk` with `with_jacobian=True` in rounded arithmetic, with a planar or floating base or of a single configuration
right after `clear_cache`: in the three rows of configuration `k` the column of a listed joint is within `comColBound` of the derivative
of the centre of mass of the exact robot with respect to that joint. -/
theorem C107_solve_com_fk (hr : PyReach ls' js' m0 h cs s) (hf : Shallow ls' js' m0 cs) (ha : ComArgs m0 s qs ids [] [] bt)
    (hc : (bt ≠ .fixed ∧ s' = s) ∨ (pyClearCache s = .ok () s' ∧ qs.rows.length = 1))
    (hR : RobotNear ε μ ls' js' (AllWelds ls' m0 cs) ls js welds) (hnd : (js.map RawJoint.name).Nodup) (hW : WeldsApart ls js welds)
    (hu : UnitDesc js) (hw : ∀ w, welds w → w.offset.rotation.norm2 = 1) (hax : ∀ r ∈ js, r.axis.len ≤ 1 + R)
    (hue : F.u ≤ ε) (hA : 1 ≤ A) (hsm : Small F ε μ A D R)
    (hcom : ∀ l ∈ ls, ∀ i, l.inertial = some i → welds ⟨l.name ++ "_com", l.name, ⟨i.origin.position, Rot.one⟩⟩)
    (hL : List.Forall₂ (LinkNear ε μ) ls' ls) (hpos : 0 < massSum ls) (hM : F.tiny ≤ μ * massSum ls)
    (hN : 100 * (ls.length * ε) ≤ 1) (hB : 48 * (massSum ls + 1) * (R + D + 1) ≤ F.big) :
    ∃ C J s'', pySolveComFk qs ids none bt true s' = .ok (C, J) s'' ∧
      ∀ (k c i : Nat) (q : List (Fl F)) (jn : String) (θ : String → ℝ) (base : Pose ℝ), qs.rows[k]? = some q → ids[c]? = some i →
        getJointIds [jn] m0 = .ok [i] m0 → AnglesAfter (K := Fl F) m0 (cs ++ configCalls ids bt q) θ →
        PoseNear ε (ε * (base.position.len + μ)) (baseAfter Pose.identity (cs ++ configCalls ids bt q)) base →
        base.rotation.norm2 = 1 → (∀ j ∈ js, |θ j.name| ≤ A) → (∀ n d L, PathLength ls js welds θ base n d L → d ≤ D ∧ L ≤ R) →
        ∃ (r : RawJoint ℝ) (g : ℝ → Vec3 ℝ) (X : Vec3 ℝ) (N : Nat), r ∈ js ∧ r.name = jn ∧ N ≤ ls.length ∧
          (∀ v, ∃ bs, Bodies ls js welds (Function.update θ jn v) base bs ∧ bs.length = N ∧ comOf bs = g v) ∧
          Vec3.HasDeriv g X (θ jn) ∧
          Vec3.dist ⟨J.f (3 * k) c, J.f (3 * k + 1) c, J.f (3 * k + 2) c⟩ X ≤ comColBound ε μ A r D N R := by
  obtain ⟨mc, hat⟩ := hr.at
  have key : At ls' js' m0 cs mc s'.robot ∧ (bt ≠ .fixed ∨ (Fresh s'.robot ∧ qs.rows.length = 1)) := by
    rcases hc with ⟨h1, rfl⟩ | ⟨h1, h2⟩
    · exact ⟨hat, .inl h1⟩
    · obtain ⟨m1, e1, a1, a2, _⟩ := hat.clear
      simp only [pyClearCache, onRobot, e1] at h1
      cases h1
      exact ⟨a1, .inr ⟨a2, h2⟩⟩
  obtain ⟨hat', hc'⟩ := key
  obtain ⟨C, J, s'', mc', e, _, hres⟩ := hat'.pySolveComFk (act := none) (wj := true) hf
    ⟨ha.notFlat, ha.nonempty, ha.shape, ha.joints, by simp, rfl⟩ hc' (fun _ h => absurd rfl h)
  refine ⟨C, J, s'', e, ?_⟩
  intro k c i q jn θ base hk hci hjn hθ hb hbu hθA hD
  have hql := ha.shape q (List.mem_of_getElem? hk)
  obtain ⟨mk, hmk⟩ := hat.reach.config ha.joints hql
  have hset := configCalls_isSet ids bt q
  have hids : ∀ i ∈ ids, i < mk.joints.length := by rw [hmk.abs.joints]; exact ha.joints
  have hcl := (List.getElem?_eq_some_iff.mp hci).1
  obtain ⟨B, mk', Bs, eB, _, _, hBs, hJ⟩ := hres.jac rfl k q mk hk hmk
  obtain ⟨B', mk'', eB', hcol⟩ := C107_com_jacobian hmk (hf.sets hset) (by rw [allWelds_sets hset]; exact hR) hnd hW hu hw hax hue hA hsm hcom hL hpos hM
    hN hB hids (bt != .fixed)
  rw [eB] at eB'
  cases eB'
  obtain ⟨r, g, X, N, h1, h2, h3, h4, h5, h6⟩ := hcol c i jn θ base hci hjn hθ hb hbu hθA hD
  refine ⟨r, g, X, N, h1, h2, h3, h4, h5, ?_⟩
  have hent : ∀ a < 3, J.f (3 * k + a) c = B.f a c := by
    intro a ha
    rw [hJ a ha c (by rw [hres.jCols]; omega)]
    simp [actionMean]
  rw [show 3 * k = 3 * k + 0 from rfl, hent 0 (by norm_num), Nat.add_zero, hent 1 (by norm_num), hent 2 (by norm_num)]
  exact h6

end

/-! ### The hypotheses are met -/

namespace RoundExample

theorem weldsApart : WeldsApart ls js (fun w => w = com) := by
  refine ⟨fun w w' h1 h2 _ => h1.trans h2.symm, ?_, ?_⟩
  · rintro w rfl l hl
    simp only [ls, List.mem_cons, List.not_mem_nil, or_false] at hl
    rcases hl with rfl | rfl | rfl <;> simp [com]
  · rintro w rfl j hj
    simp only [js, List.mem_cons, List.not_mem_nil, or_false] at hj
    rcases hj with rfl | rfl <;> simp [com, turn, slide]

/-- In IEEE arithmetic `solve_com_fk` returns the derivative of the centre of mass of this robot to seven digits. -/
theorem hand_com_jacobian : ∃ C J s', pySolveComFk (.list1 q) [0, 1] none .planer true s0 = .ok (C, J) s' ∧
    ∀ c s, (c = 0 ∧ s = "slide") ∨ (c = 1 ∧ s = "turn") → ∃ (g : ℝ → Vec3 ℝ) (X : Vec3 ℝ),
      (∀ v, ∃ bs, Bodies ls js (fun w => w = com) (Function.update θ s v) base bs ∧ comOf bs = g v) ∧ Vec3.HasDeriv g X (θ s) ∧
      Vec3.dist ⟨J.f 0 c, J.f 1 c, J.f 2 c⟩ X ≤ 1 / 10 ^ 7 := by
  have hμ : 0 ≤ μ := by unfold μ; positivity
  have hμ1 := μ_le
  obtain ⟨C, J, s', e, h⟩ := C107_solve_com_fk (A := 2) s0_reach shallow comArgs (.inl ⟨nofun, rfl⟩)
    robot_near (by simp [js, turn, slide]) weldsApart unitDesc (fun w hw => by rw [hw]; simp [com, Rot.norm2, Rot.one])
    (fun r hr => by have := axes r hr; linarith) (by have := dbl.u_nonneg; linarith) (by norm_num) small3 com_welds links_near
    (by rw [mass_sum]; norm_num) (by rw [mass_sum]; linarith [tiny_μ', dbl.tiny_nonneg])
    (by rw [u_eq]; norm_num [ls]) (by rw [mass_sum, big_eq]; norm_num)
  refine ⟨C, J, s', e, fun c s hcs => ?_⟩
  obtain ⟨r, g, X, N, p1, _, p3, p4, p5, p6⟩ := h 0 c c q s θ base rfl (by rcases hcs with ⟨rfl, rfl⟩ | ⟨rfl, rfl⟩ <;> rfl)
    (by rw [getJointIds_one, jointIds]; rcases hcs with ⟨rfl, rfl⟩ | ⟨rfl, rfl⟩ <;> simp) angles base_near.1
    (Rot.norm2_fromRPY _ _ _) (by
      intro j hj
      simp only [js, List.mem_cons, List.not_mem_nil, or_false] at hj
      rcases hj with rfl | rfl <;> simp [turn, slide, θ]; norm_num)
    (fun n d L h => by
      obtain ⟨k1, k2⟩ := path h
      refine ⟨?_, k2.trans ?_⟩
      · rw [k1]; split_ifs <;> omega
      · split_ifs <;> norm_num)
  refine ⟨g, X, fun v => ?_, p5, p6.trans ?_⟩
  · obtain ⟨bs, b1, _, b3⟩ := p4 v
    exact ⟨bs, b1, b3⟩
  have hl : (N : ℝ) ≤ 3 := by exact_mod_cast p3
  have hr := axes r p1
  have ha0 : 0 ≤ r.axis.len := Real.sqrt_nonneg _
  have hS : colSize r 5 ≤ 10 := by unfold colSize; split <;> linarith
  have hS0 := colSize_nonneg (r := r) (R := 5) (by norm_num)
  have k1 : 25 * (N : ℝ) * (200 * dbl.u * 2) * (colSize r 5 + μ) ≤ 25 * 3 * (200 * dbl.u * 2) * (10 + 1) := by
    have := dbl.u_nonneg
    refine mul_le_mul ?_ (by linarith) (by linarith) (by linarith)
    exact mul_le_mul_of_nonneg_right (by linarith) (by linarith)
  have k2 : 25 * 3 * (200 * dbl.u * 2) * (10 + 1) ≤ 1 / 10 ^ 9 := by
    rw [u_eq]; norm_num
  have k3 : colBound (200 * dbl.u * 2) μ 2 r 3 5 ≤ 12 / 10 ^ 9 := by
    unfold colBound
    rw [u_eq]
    split
    · norm_num
      linarith
    · norm_num
      linarith
  unfold comColBound
  linarith

example {mk : KinModel (Fl dbl)} (hmk : Reach ls' js' m0 ([] ++ configCalls [0, 1] .planer q) mk) :=
  C107_com_jacobian (A := 2) hmk (shallow.sets (configCalls_isSet _ _ _)) (by rw [allWelds_sets (configCalls_isSet _ _ _)]; exact robot_near)
    (by simp [js, turn, slide]) weldsApart unitDesc (fun w hw => by rw [hw]; simp [com, Rot.norm2, Rot.one])
    (fun r hr => by have := axes r hr; linarith) (by have := dbl.u_nonneg; linarith) (by norm_num) small3 com_welds links_near
    (by rw [mass_sum]; norm_num) (by rw [mass_sum]; linarith [tiny_μ', dbl.tiny_nonneg, μ_le])
    (by rw [u_eq]; norm_num [ls]) (by rw [mass_sum, big_eq]; norm_num)
    (ids := [0, 1]) (by rw [hmk.abs.joints, joints_length]; simp) true

end RoundExample
end Tinyfk
