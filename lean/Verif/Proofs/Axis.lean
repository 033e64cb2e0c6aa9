import Verif.Props.Deriv
import Verif.Spec.Axis
import Mathlib.Tactic.FieldSimp

/-!
# Turning about an axis that is not a unit vector
-/

set_option linter.unusedSectionVars false

namespace Tinyfk

open Scalar Matrix

namespace Rot

theorem axisQ_norm2 (k : Vec3 ℝ) (v : ℝ) : (axisQ k v).norm2 = slowness k v := by
  simp only [axisQ, norm2, slowness, Vec3.len2]; ring

end Rot

theorem Vec3.len2_nonneg (k : Vec3 ℝ) : 0 ≤ k.len2 := by
  simp only [Vec3.len2]; positivity

theorem slowness_pos {k : Vec3 ℝ} (hk : k.len2 ≠ 0) (v : ℝ) : 0 < slowness k v := by
  have h := Real.sin_sq_add_cos_sq (v / 2)
  have hl : 0 < k.len2 := lt_of_le_of_ne k.len2_nonneg (Ne.symm hk)
  rcases eq_or_lt_of_le (sq_nonneg (Real.sin (v / 2))) with h0 | h0
  · simp only [slowness]; rw [← h0] at h ⊢; linarith
  · simp only [slowness]; positivity

namespace Rot

/-- the turn as a linear map -/
theorem axisQ_rotate {k : Vec3 ℝ} (hk : k.len2 ≠ 0) (v : ℝ) (r : Vec3 ℝ) : (axisQ k v).rotate r =
    Vec3.add r (Vec3.add
      (Vec3.times (2 * Real.sin (v / 2) * Real.cos (v / 2) / slowness k v) (Vec3.cross k r))
      (Vec3.times (2 * Real.sin (v / 2) ^ 2 / slowness k v) (Vec3.cross k (Vec3.cross k r)))) := by
  have hN := slowness_pos hk v
  rw [rotate_eq _ _ (by rw [axisQ_norm2]; exact hN.ne'), axisQ_norm2]
  generalize hs : slowness k v = N at hN ⊢
  have hN' : N ≠ 0 := hN.ne'
  simp only [slowness, Vec3.len2] at hs
  simp only [axisQ, Vec3.add, Vec3.times, Vec3.cross, Vec3.mk.injEq]
  refine ⟨?_, ?_, ?_⟩
  · field_simp
    linear_combination (r.x) * hs
  · field_simp
    linear_combination (r.y) * hs
  · field_simp
    linear_combination (r.z) * hs

theorem axisQ_fixes' {k : Vec3 ℝ} (hk : k.len2 ≠ 0) (v : ℝ) : (axisQ k v).rotate k = k := by
  rw [axisQ_rotate hk]
  simp only [Vec3.add, Vec3.times, Vec3.cross]
  ext <;> simp only <;> ring

end Rot

theorem half_deriv (t : ℝ) : HasDerivAt (fun v : ℝ => Real.sin (v / 2)) (Real.cos (t / 2) / 2) t ∧
    HasDerivAt (fun v : ℝ => Real.cos (v / 2)) (-Real.sin (t / 2) / 2) t := by
  have hd : HasDerivAt (fun v : ℝ => v / 2) (1 / 2) t := (hasDerivAt_id t).div_const 2
  exact ⟨hd.sin.congr_deriv (by ring), hd.cos.congr_deriv (by ring)⟩

theorem slowness_deriv (k : Vec3 ℝ) (t : ℝ) :
    HasDerivAt (slowness k) (Real.sin (t / 2) * Real.cos (t / 2) * (k.len2 - 1)) t := by
  obtain ⟨hs, hc⟩ := half_deriv t
  refine ((hc.pow 2).add ((hs.pow 2).const_mul k.len2)).congr_deriv ?_
  simp only [Nat.cast_ofNat, Nat.add_one_sub_one, pow_one]
  ring

theorem alpha_deriv {k : Vec3 ℝ} (hk : k.len2 ≠ 0) (t : ℝ) :
    HasDerivAt (fun v => 2 * Real.sin (v / 2) * Real.cos (v / 2) / slowness k v)
      ((1 - 2 * Real.sin (t / 2) ^ 2 * k.len2 / slowness k t) / slowness k t) t := by
  obtain ⟨hs, hc⟩ := half_deriv t
  have hN := (slowness_pos hk t).ne'
  refine (((hs.const_mul 2).mul hc).div (slowness_deriv k t) hN).congr_deriv ?_
  have h1 := Real.sin_sq_add_cos_sq (t / 2)
  simp only [Pi.mul_apply]
  field_simp
  simp only [slowness]
  generalize Real.sin (t / 2) = s at *
  generalize Real.cos (t / 2) = c at *
  linear_combination (c ^ 2 - k.len2 * s ^ 2) * h1

theorem beta_deriv {k : Vec3 ℝ} (hk : k.len2 ≠ 0) (t : ℝ) :
    HasDerivAt (fun v => 2 * Real.sin (v / 2) ^ 2 / slowness k v)
      (2 * Real.sin (t / 2) * Real.cos (t / 2) / slowness k t / slowness k t) t := by
  obtain ⟨hs, hc⟩ := half_deriv t
  have hN := (slowness_pos hk t).ne'
  refine (((hs.pow 2).const_mul 2).div (slowness_deriv k t) hN).congr_deriv ?_
  have h1 := Real.sin_sq_add_cos_sq (t / 2)
  simp only [Nat.cast_ofNat, Nat.add_one_sub_one, pow_one, Pi.pow_apply]
  field_simp
  simp only [slowness]
  generalize Real.sin (t / 2) = s at *
  generalize Real.cos (t / 2) = c at *
  linear_combination (s * c) * h1

/-- the velocity of a vector that is turned about an axis of any length -/
theorem axisQ_velocity {k : Vec3 ℝ} (hk : k.len2 ≠ 0) (t : ℝ) (r : Vec3 ℝ) :
    Vec3.HasDeriv (fun v => (Rot.axisQ k v).rotate r)
      (Vec3.times (1 / slowness k t) (Vec3.cross k ((Rot.axisQ k t).rotate r))) t := by
  have hN := (slowness_pos hk t).ne'
  have ha := alpha_deriv hk t
  have hb := beta_deriv hk t
  have e : (fun v => (Rot.axisQ k v).rotate r) = _ := funext fun v => Rot.axisQ_rotate hk v r
  rw [e, Rot.axisQ_rotate hk]
  refine ⟨?_, ?_, ?_⟩
  · refine (((ha.mul_const (Vec3.cross k r).x).add (hb.mul_const (Vec3.cross k (Vec3.cross k r)).x)).const_add r.x).congr_deriv ?_
    simp only [Vec3.cross, Vec3.times, Vec3.add, Vec3.len2]
    ring
  · refine (((ha.mul_const (Vec3.cross k r).y).add (hb.mul_const (Vec3.cross k (Vec3.cross k r)).y)).const_add r.y).congr_deriv ?_
    simp only [Vec3.cross, Vec3.times, Vec3.add, Vec3.len2]
    ring
  · refine (((ha.mul_const (Vec3.cross k r).z).add (hb.mul_const (Vec3.cross k (Vec3.cross k r)).z)).const_add r.z).congr_deriv ?_
    simp only [Vec3.cross, Vec3.times, Vec3.add, Vec3.len2]
    ring

theorem Vec3.HasDeriv.rotate {f : ℝ → Vec3 ℝ} {f' : Vec3 ℝ} {t : ℝ} (h : Vec3.HasDeriv f f' t) {F : Rot ℝ}
    (hF : F.norm2 ≠ 0) : Vec3.HasDeriv (fun v => F.rotate (f v)) (F.rotate f') t := by
  have e : (fun v => F.rotate (f v)) = _ := funext fun v => Rot.rotate_eq F (f v) hF
  rw [e, Rot.rotate_eq _ _ hF]
  obtain ⟨h1, h2, h3⟩ := h
  refine ⟨?_, ?_, ?_⟩
  · exact ((((h1.const_mul _).add (h2.const_mul _)).add (h3.const_mul _)).div_const _)
  · exact ((((h1.const_mul _).add (h2.const_mul _)).add (h3.const_mul _)).div_const _)
  · exact ((((h1.const_mul _).add (h2.const_mul _)).add (h3.const_mul _)).div_const _)

theorem Rot.rotate_cross' {F : Rot ℝ} (hF : F.norm2 ≠ 0) (a b : Vec3 ℝ) :
    F.rotate (Vec3.cross a b) = Vec3.cross (F.rotate a) (F.rotate b) := by
  rw [Rot.rotate_eq _ _ hF, Rot.rotate_eq _ _ hF, Rot.rotate_eq _ _ hF]
  generalize hs : F.norm2 = N at hF ⊢
  simp only [Rot.norm2] at hs
  simp only [Vec3.cross, Vec3.mk.injEq]
  refine ⟨?_, ?_, ?_⟩
  · field_simp
    rw [← hs]; ring
  · field_simp
    rw [← hs]; ring
  · field_simp
    rw [← hs]; ring

/-- no rotation stored in the model is zero, no turning axis is zero -/
structure NonzeroModel (m : KinModel ℝ) : Prop where
  base : m.base.rotation.norm2 ≠ 0
  edges : ∀ {l p jp : Nat} {lk : Link ℝ} {j : Joint ℝ}, m.links[l]? = some lk → lk.parent = some p →
    lk.parentJoint = some jp → m.jheap[jp]? = some j →
    j.origin.rotation.norm2 ≠ 0 ∧ ((j.type = .revolute ∨ j.type = .continuous) → j.axis.len2 ≠ 0)

variable {ls : List (RawLink ℝ)} {js : List (RawJoint ℝ)} {m0 m m' : KinModel ℝ} {cs : List (Call ℝ)}

theorem Reach.nonzeroModel (h : Reach ls js m0 cs m) (hu : AxesNonzero js) (hc : UnitCalls cs) : NonzeroModel m where
  base := by rw [h.abs.base, hc.base (b := Pose.identity) Rot.norm2_one]; norm_num
  edges := by
    intro l p jp lk j h1 h2 h3 h4
    rcases h.abs.desc.links l lk h1 with ⟨hp, _⟩ | ⟨p', pk, jp', j', e1, e2, e3, e4, hcase⟩
    · rw [h2] at hp; cases hp
    · rw [h3] at e3; cases e3
      rw [h4] at e4; cases e4
      rcases hcase with ⟨r, hr, ⟨_, _, rfl⟩, _⟩ | ⟨hj, hw⟩
      · have h1 := (hu r hr).1
        exact ⟨fun h0 => by rw [show r.origin.rotation.norm2 = 0 from h0] at h1; norm_num at h1, (hu r hr).2⟩
      · have hor := hc.allWelds (m0 := m0) (ls := ls) (w := ⟨lk.name, pk.name, j.origin⟩) hw
        refine ⟨by rw [show j.origin.rotation.norm2 = 1 from hor]; norm_num, ?_⟩
        rw [hj]
        simp [newFixedJoint]

theorem IsPose.nonzero (h : NonzeroModel m) {l : Nat} {T : Pose ℝ} (hT : IsPose m l T) : T.rotation.norm2 ≠ 0 := by
  induction hT with
  | root => exact h.base
  | child e1 e2 e3 e4 e5 _ ih =>
    have hu := h.edges e1 e2 e3 e4
    rw [Pose.transform, Rot.norm2_mul]
    refine mul_ne_zero ih ?_
    cases e5 with
    | fixed => exact hu.1
    | @movable _ θ _ _ _ hM =>
      rw [Pose.transform, Rot.norm2_mul]
      refine mul_ne_zero hu.1 ?_
      cases hM with
      | rot ht =>
        have := (slowness_pos (hu.2 ht) θ).ne'
        rw [← Rot.axisQ_norm2] at this
        simp only [Rot.axisQ] at this
        simp only [real_half, real_sin, real_cos]
        rw [show θ * (1 / 2) = θ / 2 by ring]
        exact this
      | slide => simp only; rw [Rot.norm2_one]; norm_num

/-- The position of link `l` as a function of the angle `v` of joint `i` in state `m`, with its derivative `d`. -/
structure Drifts (m : KinModel ℝ) (i l : Nat) (θ : ℝ) (d : Vec3 ℝ) (T : ℝ → Pose ℝ) : Prop where
  pose : ∀ v, IsPose (turned m i v) l (T v)
  pos : Vec3.HasDeriv (fun v => (T v).position) d θ

/-- how much slower joint `j` moves at `θ` than its column says -/
noncomputable def Joint.slow (j : Joint ℝ) (θ : ℝ) : ℝ :=
  if j.type = .prismatic then 1 else slowness j.axis θ

/-- a link below the joint moves with its axis -/
theorem Graph.drifts_on (g : Graph m) (hu : NonzeroModel m) {i jp l : Nat} (hjp : m.joints[i]? = some jp)
    (hon : OnPath m jp l) {E : Pose ℝ} (hE : IsPose m l E) {θ : ℝ} (hθ : m.angles[i]? = some θ)
    {j : Joint ℝ} (hj : m.jheap[jp]? = some j) {c : Nat} (hc : j.childLink = some c) {C : Pose ℝ} (hC : IsPose m c C) :
    ∃ T, Drifts m i l θ (Vec3.times (1 / j.slow θ)
      (if j.type = .prismatic then C.rotation.rotate j.axis
        else Vec3.cross (C.rotation.rotate j.axis) (Vec3.sub E.position C.position))) T := by
  obtain ⟨j', c', p, lk, B, R, e1, e2, e3, e4, e5, e6, hB, key⟩ := g.joint_split hjp hon
  rw [hj] at e1; cases e1
  rw [hc] at e3; cases e3
  have hedge := hu.edges e4 e5 e6 hj
  have hBu := hB.nonzero hu
  generalize hF : Pose.transform B j.origin = F at key
  have hFu : F.rotation.norm2 ≠ 0 := by
    rw [← hF, Pose.transform, Rot.norm2_mul]; exact mul_ne_zero hBu hedge.1
  have hEC : ∀ M, JointMotion j θ M → C = Pose.transform F M ∧ E = Pose.transform (Pose.transform F M) R := by
    intro M hM
    obtain ⟨k1, k2⟩ := key θ M hM
    exact ⟨hC.unique ((turned_self hθ).mp k1), hE.unique ((turned_self hθ).mp k2)⟩
  by_cases hp : j.type = .prismatic
  · simp only [hp, if_true, Joint.slow, Vec3.times, div_one, one_mul]
    have hM : ∀ v, JointMotion j v ⟨⟨j.axis.x * v, j.axis.y * v, j.axis.z * v⟩, Rot.one⟩ := fun v => .slide hp
    obtain ⟨hC', hE'⟩ := hEC _ (hM θ)
    refine ⟨fun v => Pose.transform (Pose.transform F ⟨⟨j.axis.x * v, j.axis.y * v, j.axis.z * v⟩, Rot.one⟩) R,
      fun v => (key v _ (hM v)).2, ?_⟩
    have hrot : C.rotation.rotate j.axis = F.rotation.rotate j.axis := by
      rw [hC']; simp [Pose.transform]
    rw [hrot]
    have hsm : ∀ v, F.rotation.rotate ⟨j.axis.x * v, j.axis.y * v, j.axis.z * v⟩ =
        ⟨v * (F.rotation.rotate j.axis).x, v * (F.rotation.rotate j.axis).y, v * (F.rotation.rotate j.axis).z⟩ := by
      intro v
      have := Rot.rotate_smul F.rotation j.axis v
      rw [mul_comm j.axis.x, mul_comm j.axis.y, mul_comm j.axis.z]
      exact this
    simp only [Pose.transform, Rot.mul_one, hsm, Vec3.add]
    refine ⟨?_, ?_, ?_⟩
    · exact ((((hasDerivAt_id θ).mul_const (F.rotation.rotate j.axis).x).add_const F.position.x).const_add
        (F.rotation.rotate R.position).x).congr_deriv (one_mul _)
    · exact ((((hasDerivAt_id θ).mul_const (F.rotation.rotate j.axis).y).add_const F.position.y).const_add
        (F.rotation.rotate R.position).y).congr_deriv (one_mul _)
    · exact ((((hasDerivAt_id θ).mul_const (F.rotation.rotate j.axis).z).add_const F.position.z).const_add
        (F.rotation.rotate R.position).z).congr_deriv (one_mul _)
  · have ht : j.type = .revolute ∨ j.type = .continuous := by
      cases h : j.type <;> simp_all [JointType.Movable]
    simp only [hp, if_false, Joint.slow]
    have hM : ∀ v, JointMotion j v ⟨Vec3.zero, Rot.axisQ j.axis v⟩ := fun v => jointMotion_rot ht v
    obtain ⟨hC', hE'⟩ := hEC _ (hM θ)
    have hk := hedge.2 ht
    have hax : C.rotation.rotate j.axis = F.rotation.rotate j.axis := by
      rw [hC']
      simp only [Pose.transform]
      rw [Rot.rotate_mul, Rot.axisQ_fixes' hk]
    rw [hax]
    refine ⟨fun v => Pose.transform (Pose.transform F ⟨Vec3.zero, Rot.axisQ j.axis v⟩) R,
      fun v => (key v _ (hM v)).2, ?_⟩
    have hsub : Vec3.sub E.position C.position = (Rot.mul F.rotation (Rot.axisQ j.axis θ)).rotate R.position := by
      rw [hE', hC']
      simp only [Pose.transform, Vec3.add, Vec3.sub]
      ext <;> simp
    rw [hsub, Rot.rotate_mul, ← Rot.rotate_cross' hFu]
    have h1 := (axisQ_velocity hk θ R.position).rotate hFu
    have h2 := Rot.rotate_smul F.rotation (Vec3.cross j.axis ((Rot.axisQ j.axis θ).rotate R.position)) (1 / slowness j.axis θ)
    rw [show Vec3.times (1 / slowness j.axis θ) (Vec3.cross j.axis ((Rot.axisQ j.axis θ).rotate R.position)) = _ from rfl] at h1
    unfold Vec3.times at h1 ⊢
    rw [h2] at h1
    have h3 := h1.add_const (Vec3.add (F.rotation.rotate Vec3.zero) F.position)
    refine h3.congr fun v => ?_
    simp only [Pose.transform, Rot.rotate_mul]

end Tinyfk
