import Verif.Props.BaseDist
import Verif.Props.Inertia

/-!
# C83: the base columns of the Jacobian of the centre of mass
-/

namespace Tinyfk

open Scalar

/-- `g b` is what `get_com` returns after `set_base_pose(b)` in state `m` -/
def ComBaseCurve (m : KinModel ℝ) (g : ℝ → ℝ → ℝ → ℝ → ℝ → ℝ → Vec3 ℝ) : Prop :=
  ∀ x y z r p w, ∃ m1 m2, setBasePoseVec [x, y, z, r, p, w] m = .ok () m1 ∧ getCom m1 = .ok (g x y z r p w) m2

section
variable {ls : List (RawLink ℝ)} {js : List (RawJoint ℝ)} {m0 m m' : KinModel ℝ} {cs : List (Call ℝ)}

section

/-- weighted sums -/
noncomputable def wsum (ys : List (Inertial ℝ × Pose ℝ)) (f : Pose ℝ → ℝ) : ℝ := (ys.map fun y => y.1.mass * f y.2).sum

theorem foldl_plus_sum {α : Type} (f : α → ℝ) (xs : List α) (a : ℝ) : xs.foldl (fun s x => s + f x) a = a + (xs.map f).sum := by
  induction xs generalizing a with
  | nil => simp
  | cons x xs ih => rw [List.foldl_cons, ih, List.map_cons, List.sum_cons, add_assoc]

theorem wsum_congr {ys : List (Inertial ℝ × Pose ℝ)} {f g : Pose ℝ → ℝ} (h : ∀ T, f T = g T) : wsum ys f = wsum ys g := by
  rw [show f = g from funext h]

theorem wsum_lin (ys : List (Inertial ℝ × Pose ℝ)) (f g h : Pose ℝ → ℝ) (a b c d : ℝ) :
    wsum ys (fun T => a * f T + b * g T + c * h T + d) = a * wsum ys f + b * wsum ys g + c * wsum ys h + d * wsum ys (fun _ => 1) := by
  induction ys with
  | nil => simp [wsum]
  | cons y ys ih =>
    simp only [wsum, List.map_cons, List.sum_cons] at ih ⊢
    rw [ih]; ring

theorem comVal_cmp (ys : List (Inertial ℝ × Pose ℝ)) {a : Nat} (ha : a < 3) :
    (comVal ys).cmp a = wsum ys (fun T => T.position.cmp a) / wsum ys (fun _ => 1) := by
  simp only [comVal, foldl_comStep, foldl_plus_sum]
  match a, ha with
  | 0, _ | 1, _ | 2, _ => simp [Vec3.cmp, wsum, Vec3.zero]

/-- rotation is linear -/
theorem rotate_linear (q : Rot ℝ) {a : Nat} (ha : a < 3) : ∃ A B C : ℝ, ∀ v : Vec3 ℝ, (q.rotate v).cmp a = A * v.x + B * v.y + C * v.z := by
  refine ⟨(q.rotate ⟨1, 0, 0⟩).cmp a, (q.rotate ⟨0, 1, 0⟩).cmp a, (q.rotate ⟨0, 0, 1⟩).cmp a, ?_⟩
  intro v
  match a, ha with
  | 0, _ | 1, _ | 2, _ => simp only [Rot.rotate, Rot.mul, Vec3.cmp]; ring

/-- the centre of mass of moved bodies -/
theorem comVal_moved (ys : List (Inertial ℝ × Pose ℝ)) (hM : wsum ys (fun _ => 1) ≠ 0) (p : Pose ℝ) :
    comVal (ys.map fun y => (y.1, Pose.transform p y.2)) = Vec3.add (p.rotation.rotate (comVal ys)) p.position := by
  have hw : ∀ f : Pose ℝ → ℝ, wsum (ys.map fun y => (y.1, Pose.transform p y.2)) f = wsum ys fun T => f (Pose.transform p T) := by
    intro f; simp only [wsum, List.map_map]; rfl
  have key : ∀ a < 3, (comVal (ys.map fun y => (y.1, Pose.transform p y.2))).cmp a =
      (Vec3.add (p.rotation.rotate (comVal ys)) p.position).cmp a := by
    intro a ha
    rw [comVal_cmp _ ha, hw, hw, Vec3.cmp_add]
    obtain ⟨A, B, C, hABC⟩ := rotate_linear p.rotation ha
    rw [wsum_congr (g := fun T => A * T.position.cmp 0 + B * T.position.cmp 1 + C * T.position.cmp 2 + p.position.cmp a) (by
      intro T
      show (Vec3.add (p.rotation.rotate T.position) p.position).cmp a = _
      rw [Vec3.cmp_add, hABC]; rfl), wsum_lin, hABC]
    have h0 := comVal_cmp ys (a := 0) (by omega)
    have h1 := comVal_cmp ys (a := 1) (by omega)
    have h2 := comVal_cmp ys (a := 2) (by omega)
    have e0 : (comVal ys).x = (comVal ys).cmp 0 := rfl
    have e1 : (comVal ys).y = (comVal ys).cmp 1 := rfl
    have e2 : (comVal ys).z = (comVal ys).cmp 2 := rfl
    rw [e0, e1, e2, h0, h1, h2]
    field_simp
  refine Vec3.ext (key 0 (by omega)) (key 1 (by omega)) (key 2 (by omega))

/-- the bodies beside the Jacobians that `get_com_jacobian` adds up -/
theorem Reach.comBase (h : Reach ls js m0 cs m) {ids : List Nat} (hids : ∀ i ∈ ids, i < m.joints.length) :
    ∃ xs ys, List.Forall₂ (IsComJac m ids true m.base) m.comDummy xs ∧ List.Forall₂ (IsComPt m) m.comDummy ys ∧
      wsum ys (fun _ => 1) = ((ls.filterMap RawLink.inertial).map Inertial.mass).sum ∧
      (xs.map fun x => x.1).sum = wsum ys (fun _ => 1) ∧
      ∀ a < 3, ∀ c < 6, (xs.map fun x => x.1 * x.2.f a (ids.length + c)).sum = wsum ys fun E => baseCol .ignore E m.base c a := by
  obtain ⟨xs, hxs⟩ := h.abs.inv.exists_comJacs hids true m.base
  obtain ⟨θ, hθ⟩ := exists_angles m0 cs
  obtain ⟨bs, hb, hpts⟩ := h.bodies hθ
  refine ⟨xs, _, hxs, hpts, ?_, ?_, ?_⟩
  · rw [← ((hb bs).mpr rfl).massOf]
    simp [wsum, massOf, Inertial.reset, Function.comp_def]
  all_goals generalize (bs.map fun x => (x.1.reset, Pose.transform x.2 ⟨x.1.origin.position, Rot.one⟩)) = ys at hpts
  · generalize m.comDummy = ds at hxs hpts
    induction hxs generalizing ys with
    | nil => cases hpts; simp [wsum]
    | cons h1 _ ih =>
      cases hpts with
      | cons h2 h3 =>
        simp only [wsum, List.map_cons, List.sum_cons] at ih ⊢
        rw [ih _ h3]
        obtain ⟨lk, inr, E, cols, g1, g2, g3, g4, g5, g6, g7⟩ := h1
        obtain ⟨lk', k1, k2, k3, k4⟩ := h2
        rw [g1] at k1; cases k1
        rw [g3] at k3; cases k3
        rw [← g4, mul_one]
  · intro a ha c hc
    generalize m.comDummy = ds at hxs hpts
    induction hxs generalizing ys with
    | nil => cases hpts; simp [wsum]
    | cons h1 _ ih =>
      cases hpts with
      | cons h2 h3 =>
        simp only [wsum, List.map_cons, List.sum_cons] at ih ⊢
        rw [ih _ h3]
        obtain ⟨lk, inr, E, cols, g1, g2, g3, g4, g5, g6, g7⟩ := h1
        obtain ⟨lk', k1, k2, k3, k4⟩ := h2
        rw [g1] at k1; cases k1
        rw [g3] at k3
        have e1 := Option.some.inj k3
        have e2 := g5.unique k4
        rw [← g4, g7, e1, ← e2, if_pos rfl, g6.length_eq, jacMat_base ha hc]

end

/-- **C83.** After any history, for a description with total mass not zero: the base columns of `get_com_jacobian`.
The three columns for the base position are the identity, which is the derivative of `get_com`. Let
`[x, y, z, r, p, w]` be what `get_base_pose` returns. If the base is away from the singularity, the last three
columns are within `5e-8` times the distance of the centre of mass from the base of the derivative of `get_com` in
base roll, pitch and yaw. -/
theorem C83_com_base (h : Reach ls js m0 cs m) (hf : Shallow ls js m0 cs) (hu : UnitDesc js) (hc : UnitCalls cs)
    (hM : ((ls.filterMap RawLink.inertial).map Inertial.mass).sum ≠ 0)
    {ids : List Nat} (hids : ∀ i ∈ ids, i < m.joints.length) :
    ∃ J m' g C m2 x y z r p w, getComJacobian ids true m = .ok J m' ∧ J.cols = ids.length + 6 ∧ ComBaseCurve m g ∧
      getCom m = .ok C m2 ∧ getBasePose m = .ok [x, y, z, r, p, w] m ∧
      (∀ a < 3, ∀ c < 3, J.f a (ids.length + c) = if a = c then 1 else 0) ∧
      (∀ x y z r p w,
        Vec3.HasDeriv (fun t => g t y z r p w) ⟨1, 0, 0⟩ x ∧ Vec3.HasDeriv (fun t => g x t z r p w) ⟨0, 1, 0⟩ y ∧
        Vec3.HasDeriv (fun t => g x y t r p w) ⟨0, 0, 1⟩ z) ∧
      (|m.base.rotation.sarg| < 99999 / 100000 →
        let ε := 5 / 10 ^ 8 * Real.sqrt (sqDist C ⟨x, y, z⟩)
        (NearDeriv (fun t => (g x y z t p w).x) r (J.f 0 (ids.length + 3)) ε ∧
         NearDeriv (fun t => (g x y z t p w).y) r (J.f 1 (ids.length + 3)) ε ∧
         NearDeriv (fun t => (g x y z t p w).z) r (J.f 2 (ids.length + 3)) ε) ∧
        (NearDeriv (fun t => (g x y z r t w).x) p (J.f 0 (ids.length + 4)) ε ∧
         NearDeriv (fun t => (g x y z r t w).y) p (J.f 1 (ids.length + 4)) ε ∧
         NearDeriv (fun t => (g x y z r t w).z) p (J.f 2 (ids.length + 4)) ε) ∧
        (NearDeriv (fun t => (g x y z r p t).x) w (J.f 0 (ids.length + 5)) ε ∧
         NearDeriv (fun t => (g x y z r p t).y) w (J.f 1 (ids.length + 5)) ε ∧
         NearDeriv (fun t => (g x y z r p t).z) w (J.f 2 (ids.length + 5)) ε)) := by
  obtain ⟨xs, ys, hxs, hys, hmass, hsum, hcols⟩ := h.comBase hids
  rw [← hmass] at hM
  have hbu := (h.unitModel hu hc).base
  obtain ⟨m', e, _⟩ := (Query.getComJacobian hxs (fun _ => h.root_pose)).run (h.ready hf)
  obtain ⟨m2, e2, _⟩ := (Query.getCom hys).run (h.ready hf)
  -- the bodies in the base frame
  let zs := ys.map fun y => (y.1, Pose.transform m.base.inverse y.2)
  have hzM : wsum zs (fun _ => 1) = wsum ys (fun _ => 1) := by simp only [wsum, zs, List.map_map]; rfl
  have hback : ∀ p : Pose ℝ, (ys.map fun y => (y.1, Pose.transform p (Pose.transform m.base.inverse y.2))) =
      zs.map fun y => (y.1, Pose.transform p y.2) := by intro p; simp only [zs, List.map_map]; rfl
  have hcv : ∀ p : Pose ℝ, comVal (ys.map fun y => (y.1, Pose.transform p (Pose.transform m.base.inverse y.2))) =
      Vec3.add (p.rotation.rotate (comVal zs)) p.position := by
    intro p; rw [hback, comVal_moved _ (by rw [hzM]; exact hM)]
  have hself : comVal ys = Vec3.add (m.base.rotation.rotate (comVal zs)) m.base.position := by
    rw [← hcv]
    congr 1
    rw [List.map_congr_left (g := id), List.map_id]
    intro y _
    rw [← Pose.transform_assoc, Pose.transform_inverse (by rw [hbu]; norm_num), Pose.identity_transform]; rfl
  have hval : ∀ a < 3, ∀ c < 6, (comJacVal (ids.length + 6) xs).f a (ids.length + c) =
      wsum ys (fun E => baseCol .ignore E m.base c a) / wsum ys (fun _ => 1) := by
    intro a ha c hc6
    have hcl : ids.length + c < ids.length + 6 := by omega
    simp only [comJacVal, ha, hcl, and_self, if_true]
    rw [← hsum, ← hcols a ha c hc6, foldl_plus_sum (fun x : ℝ × Mat ℝ => x.1 * x.2.f a (ids.length + c)),
      foldl_plus_sum (fun x : ℝ × Mat ℝ => x.1), zero_add, zero_add]
  refine ⟨_, m', fun x y z r p w => Vec3.add ((Rot.fromRPY r p w).rotate (comVal zs)) ⟨x, y, z⟩, comVal ys, m2, m.base.position.x,
    m.base.position.y, m.base.position.z, m.base.rotation.getRPY.x, m.base.rotation.getRPY.y, m.base.rotation.getRPY.z, e, rfl,
    ?_, e2, rfl, ?_, ?_, ?_⟩
  · intro x y z r p w
    have hready := (h.abs.inv.setBase ⟨⟨x, y, z⟩, Rot.fromRPY r p w⟩).ready (FitsStack.congr (m := m) rfl rfl (h.fits hf))
    have hpts : List.Forall₂ (IsComPt (rebased m ⟨⟨x, y, z⟩, Rot.fromRPY r p w⟩)) m.comDummy
        (ys.map fun y' => (y'.1, Pose.transform ⟨⟨x, y, z⟩, Rot.fromRPY r p w⟩ (Pose.transform m.base.inverse y'.2))) := by
      rw [List.forall₂_map_right_iff]
      refine hys.imp ?_
      rintro d y' ⟨lk, k1, k2, k3, k4⟩
      exact ⟨lk, k1, k2, k3, k4.rebased hbu _⟩
    obtain ⟨m3, e3, _⟩ := (Query.getCom hpts).run hready
    rw [hcv] at e3
    exact ⟨_, m3, rfl, e3⟩
  · intro a ha c hc3
    rw [if_pos rfl, hval a ha c (by omega)]
    have : (fun E => baseCol .ignore E m.base c a) = fun _ : Pose ℝ => if a = c then (1 : ℝ) else 0 := by
      funext E; simp [baseCol, hc3]
    rw [this]
    split
    · exact div_self hM
    · simp [wsum]
  · intro x y z r p w
    have h0 : ∀ (u t : ℝ), HasDerivAt (fun _ : ℝ => u) 0 t := fun u t => hasDerivAt_const t u
    have h1 : ∀ (u t : ℝ), HasDerivAt (fun v : ℝ => u + v) 1 t := fun u t => (hasDerivAt_id t).const_add u
    simp only [Vec3.HasDeriv, Vec3.add]
    exact ⟨⟨h1 _ _, h0 _ _, h0 _ _⟩, ⟨h0 _ _, h1 _ _, h0 _ _⟩, ⟨h0 _ _, h0 _ _, h1 _ _⟩⟩
  · intro hb ε
    let b := m.base.position
    let q := m.base.rotation.getRPY
    -- the reported angles turn vectors the same way
    have hrep : ∀ v, (rpyV q).rotate v = m.base.rotation.rotate v := by
      intro v
      rcases Rot.fromRPY_getRPY hbu hb with e | e
      · show (Rot.fromRPY q.x q.y q.z).rotate v = _; rw [e]
      · show (Rot.fromRPY q.x q.y q.z).rotate v = _; rw [e, Rot.rotate_neg hbu]
    have hε : ε = 5 / 10 ^ 8 * Real.sqrt (comVal zs).len2 := by
      show 5 / 10 ^ 8 * Real.sqrt (sqDist (comVal ys) b) = _
      have : sqDist (comVal ys) b = (comVal zs).len2 := by
        rw [hself, ← len2_rotate hbu (comVal zs)]
        simp only [sqDist, Vec3.add, Vec3.len2, b]; ring
      rw [this]
    have key : ∀ k < 3, ∀ a < 3, NearDeriv (fun t => (Vec3.add ((rpyV (setAng k t q)).rotate (comVal zs)) b).cmp a) (q.cmp k)
        ((comJacVal (ids.length + 6) xs).f a (ids.length + (3 + k))) ε := by
      intro k hk a ha
      have hg : Harm 1 (Real.sqrt (comVal zs).len2) fun t => (Vec3.add ((rpyV (setAng k t q)).rotate (comVal zs)) b).cmp a := by
        simp only [Vec3.cmp_add]
        exact (harm_setAng hk q (comVal zs) ha).add_const _
      obtain ⟨D, d1, d2⟩ := hg.fwd (by norm_num) (Real.sqrt_nonneg _) (q.cmp k) (h := 1 / 10 ^ 7) (by positivity)
      refine ⟨D, d1, ?_⟩
      have htw : tweak q k = setAng k (q.cmp k + 1 / 10 ^ 7) q := by
        match k, hk with
        | 0, _ | 1, _ | 2, _ => simp [tweak, setAng, real_epsFD, Vec3.cmp]
      have hcol : ∀ E : Pose ℝ, baseCol .ignore E m.base (3 + k) a =
          10 ^ 7 * (Pose.transform ⟨b, rpyV (tweak q k)⟩ (Pose.transform m.base.inverse E)).position.cmp a +
            (-10 ^ 7) * E.position.cmp a + 0 * 0 + 0 := by
        intro E
        have hbc : baseCol .ignore E m.base (3 + k) a = baseRotCol .ignore E m.base k a := by simp [baseCol]
        rw [hbc, baseRotCol_row (by exact ha), Pose.row_pos _ _ ha, Pose.row_pos _ _ ha]
        show ((Pose.transform ⟨b, rpyV (tweak q k)⟩ (Pose.transform m.base.inverse E)).position.cmp a - E.position.cmp a) / (1 / 10 ^ 7) = _
        ring
      have hJ : (comJacVal (ids.length + 6) xs).f a (ids.length + (3 + k)) =
          ((Vec3.add ((rpyV (setAng k (q.cmp k + 1 / 10 ^ 7) q)).rotate (comVal zs)) b).cmp a -
            (Vec3.add ((rpyV (setAng k (q.cmp k) q)).rotate (comVal zs)) b).cmp a) / (1 / 10 ^ 7) := by
        rw [hval a ha _ (by omega), wsum_congr hcol, wsum_lin, setAng_self k hk, hrep, ← hself, ← htw]
        have h1 := hcv ⟨b, rpyV (tweak q k)⟩
        have h2 := congrArg (fun v => v.cmp a) h1
        simp only at h2
        rw [← h2, comVal_cmp _ ha, comVal_cmp _ ha]
        have h3 : ∀ (p : Pose ℝ) (f : Pose ℝ → ℝ),
            wsum (ys.map fun y => (y.1, Pose.transform p (Pose.transform m.base.inverse y.2))) f =
            wsum ys fun T => f (Pose.transform p (Pose.transform m.base.inverse T)) := by
          intro p f; simp only [wsum, List.map_map]; rfl
        rw [h3, h3]
        field_simp
        ring
      rw [hJ, hε]
      refine d2.trans (le_of_eq ?_)
      ring
    exact ⟨⟨key 0 (by omega) 0 (by omega), key 0 (by omega) 1 (by omega), key 0 (by omega) 2 (by omega)⟩,
      ⟨key 1 (by omega) 0 (by omega), key 1 (by omega) 1 (by omega), key 1 (by omega) 2 (by omega)⟩,
      ⟨key 2 (by omega) 0 (by omega), key 2 (by omega) 1 (by omega), key 2 (by omega) 2 (by omega)⟩⟩

end

namespace Example

example := C83_com_base m1_reach shallow unitDesc unitCalls_hist (by simp [ls, armInertial, tipInertial]; norm_num) two_joints
-- and the base of this state is away from the singularity
example : |m1.base.rotation.sarg| < 99999 / 100000 := by
  rw [m1_reach.abs.base]; simp [hist, baseAfter, Rot.sarg, Rot.one]

end Example
end Tinyfk
