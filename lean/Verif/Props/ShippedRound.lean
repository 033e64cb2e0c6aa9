import Verif.Spec.RoundSums
import Verif.Props.Shipped
import Verif.Props.Rounding

/-!
# Properties: accuracy for the robots in `data/`

C97: from the bytes of the file to the returned array, in rounded arithmetic.
-/

set_option maxRecDepth 20000

namespace Tinyfk

/-- Decimal numbers are read as their value, rounded. -/
structure ReadsRounded (F : Rounding) (rnd : Bool → Nat → Int → Option (Fl F)) (val : Dec → Fl F) : Prop where
  reads : Reads rnd val
  rounded : ∀ d : Dec, d.Ordinary → Rounded F.u F.tiny (val d) d.exact

/-- The arithmetic is at least as good as binary64. -/
structure DoubleLike (F : Rounding) : Prop where
  u : F.u ≤ 2 ^ (-53 : ℤ)
  tiny : F.tiny ≤ 10 ^ (-200 : ℤ)
  big : 10 ^ 100 ≤ F.big

namespace Shipped

/-- a bound for `|d|`, in millionths -/
def ub (d : Dec) : Nat :=
  if 0 ≤ d.exp + 6 then d.digits * 10 ^ (d.exp + 6).toNat else d.digits / 10 ^ (-(d.exp + 6)).toNat + 1

theorem ub_spec (d : Dec) : |d.exact| ≤ ub d / 10 ^ 6 := by
  have h0 : |d.exact| = d.digits * (10 : ℝ) ^ d.exp := by
    unfold Dec.exact
    rw [abs_mul, abs_mul, Nat.abs_cast, abs_of_pos (by positivity : (0 : ℝ) < 10 ^ d.exp)]
    cases d.neg <;> simp
  rw [h0, le_div_iff₀ (by positivity), mul_assoc]
  have h1 : (10 : ℝ) ^ d.exp * 10 ^ 6 = 10 ^ (d.exp + 6) := by
    rw [zpow_add₀ (by norm_num)]; norm_cast
  rw [h1]
  unfold ub
  split
  · rename_i h
    obtain ⟨k, hk⟩ := Int.eq_ofNat_of_zero_le h
    rw [hk]; simp
  · rename_i h
    obtain ⟨k, hk⟩ := Int.eq_ofNat_of_zero_le (show 0 ≤ -(d.exp + 6) by omega)
    rw [hk, show d.exp + 6 = -(k : ℤ) by rw [← hk]; ring]
    simp only [Int.toNat_natCast, zpow_neg, zpow_natCast]
    rw [← div_eq_mul_inv, div_le_iff₀ (by positivity)]
    have h2 : d.digits ≤ (d.digits / 10 ^ k + 1) * 10 ^ k := by
      have := Nat.lt_div_mul_add (a := d.digits) (b := 10 ^ k) (by positivity)
      rw [Nat.add_mul]; omega
    exact_mod_cast h2

/-- the numbers of a vector are ordinary -/
def ordVec (v : Vec3 Dec) : Bool := v.x.Ordinary && v.y.Ordinary && v.z.Ordinary
/-- … and at most 9 -/
def angVec (v : Vec3 Dec) : Bool := ordVec v && ub v.x ≤ 9000000 && ub v.y ≤ 9000000 && ub v.z ≤ 9000000

/-- the numbers of an origin -/
def ordOrigin : Option OriginRow → Bool
  | none => true
  | some o => (match o.xyz with
    | none => true
    | some v => ordVec v) && (match o.rpy with
    | none => true
    | some v => angVec v)

/-- a bound for the length of an offset, in millionths -/
def ubOrigin : Option OriginRow → Nat
  | none => 0
  | some o => match o.xyz with
    | none => 0
    | some v => ub v.x + ub v.y + ub v.z

/-- a bound for the length of a joint -/
def ubJoint (j : JointRow) : Nat := ubOrigin j.origin + if j.type = .prismatic then 10000000 else 0

/-- depth and length for each link, parents first -/
def bounds (js : List JointRow) : List (List Char) → List (List Char × Nat × Nat) → List (List Char × Nat × Nat)
  | [], acc => acc
  | n :: ns, acc =>
    let e := match js.find? fun j => j.child = n with
      | none => (0, 0)
      | some j => match acc.lookup j.parent with
        | none => (0, 0)
        | some (d, L) => (d + 1, L + ubJoint j)
    bounds js ns ((n, e) :: acc)

/-- the table of depths and lengths is right, and they are at most 15 and 24 m (16 and 25 m with the centres of mass) -/
def boundsOk (ls : List LinkRow) (js : List JointRow) (tab : List (List Char × Nat × Nat)) : Bool :=
  tab.all (fun e => e.2.1 ≤ 15 && e.2.2 ≤ 24000000) &&
  ls.all (fun l => (tab.lookup l.name).isSome) &&
  ls.all (fun l => match l.inertial with
    | none => true
    | some i => ubOrigin i.origin ≤ 1000000 && ordOrigin i.origin && (tab.lookup (l.name ++ chars "_com")).isNone) &&
  js.all (fun j => match tab.lookup j.parent, tab.lookup j.child with
    | some (d, L), some (d', L') => d + 1 ≤ d' && L + ubJoint j ≤ L'
    | _, _ => false) &&
  js.all (fun j => ordOrigin j.origin && (match j.axis with
    | none => true
    | some v => ordVec v && (j.type = .fixed || isAxis v)))

/-- at most 100 links, with masses that are ordinary numbers -/
def massOk (ls : List LinkRow) : Bool :=
  ls.length ≤ 100 && ls.all (fun l => match l.inertial with
    | none => true
    | some i => i.mass.Ordinary)

variable {F : Rounding} {rnd : Bool → Nat → Int → Option (Fl F)} {val : Dec → Fl F}

/-- the accuracy of the numbers of the robot -/
noncomputable def eps (F : Rounding) : ℝ := 200 * F.u * 10
/-- the length below which accuracy is absolute -/
noncomputable def mu : ℝ := 10 ^ (-100 : ℤ)

theorem mu_pos : 0 < mu := by unfold mu; positivity

theorem eps_nonneg : 0 ≤ eps F := by have := F.u_nonneg; unfold eps; positivity

theorem ordVec_rounded (hv : ReadsRounded F rnd val) {v : Vec3 Dec} (h : ordVec v = true) :
    VecRounded (decVec val v) (decVec Dec.exact v) := by
  simp only [ordVec, Bool.and_eq_true, decide_eq_true_eq] at h
  exact ⟨hv.rounded _ h.1.1, hv.rounded _ h.1.2, hv.rounded _ h.2⟩

theorem zero_rounded : Rounded F.u F.tiny 0 0 := by
  simp only [Rounded, sub_self, abs_zero]
  exact mul_nonneg F.u_nonneg (le_max_of_le_right F.tiny_nonneg)

theorem zeroVec_rounded : VecRounded (F := F) (⟨0, 0, 0⟩ : Vec3 (Fl F)) (⟨0, 0, 0⟩ : Vec3 ℝ) := ⟨zero_rounded, zero_rounded, zero_rounded⟩

theorem near_refl_rot (F : Rounding) : Rot.dist (Rot.real (F := F) (⟨0, 0, 0, 1⟩ : Rot (Fl F))) (⟨0, 0, 0, 1⟩ : Rot ℝ) = 0 := by
  show Rot.dist (⟨(0 : ℝ), (0 : ℝ), (0 : ℝ), (1 : ℝ)⟩ : Rot ℝ) _ = 0
  simp [Rot.dist]

variable (hF : DoubleLike F)
include hF

theorem tiny_mu : 1000 * F.tiny ≤ mu := by
  have := hF.tiny
  unfold mu
  have e : (1000 : ℝ) * 10 ^ (-200 : ℤ) ≤ 10 ^ (-100 : ℤ) := by
    rw [show (1000 : ℝ) = 10 ^ (3 : ℤ) by norm_num, ← zpow_add₀ (by norm_num)]
    exact zpow_le_zpow_right₀ (by norm_num) (by norm_num)
  linarith

theorem u_le : F.u ≤ 12 / 10 ^ 17 := hF.u.trans (by norm_num)

theorem big_ge : 10 ^ 80 ≤ F.big := le_trans (by norm_num) hF.big

theorem vec_pos {v' : Vec3 (Fl F)} {v : Vec3 ℝ} (h : VecRounded v' v) :
    Vec3.dist v'.real v ≤ eps F * (v.len + mu) := by
  have hn := h.near
  have hu := F.u_nonneg
  have ht := F.tiny_nonneg
  have := tiny_mu hF
  rw [Vec3.dist_quat, Vec3.len_quat]
  refine hn.trans ?_
  unfold eps
  have c1 : F.u * (1000 * F.tiny) ≤ F.u * mu := mul_le_mul_of_nonneg_left this hu
  have c2 : 0 ≤ F.u * ‖v.quat‖ := by positivity
  have c3 : 0 ≤ F.u * mu := mul_nonneg hu mu_pos.le
  have c4 : 0 ≤ F.u * F.tiny := by positivity
  nlinarith

theorem ang_le {d : Dec} {p : ℝ} (hr : Rounded F.u F.tiny p d.exact) (h2 : ub d ≤ 9000000) :
    |p| ≤ 10 ∧ |d.exact| ≤ 10 := by
  have hb := ub_spec d
  have h3 : (ub d : ℝ) ≤ 9000000 := by exact_mod_cast h2
  have h4 : |d.exact| ≤ 9 := hb.trans (by rw [div_le_iff₀ (by positivity)]; linarith)
  refine ⟨?_, by linarith⟩
  unfold Rounded at hr
  have ht : F.tiny ≤ 9 := by
    have := tiny_mu hF
    have h0 := F.tiny_nonneg
    have : mu ≤ 1 := by unfold mu; exact zpow_le_one_of_nonpos₀ (by norm_num) (by norm_num)
    linarith
  have h5 : F.u * max |d.exact| F.tiny ≤ F.u * 9 := mul_le_mul_of_nonneg_left (max_le h4 ht) F.u_nonneg
  have h6 := u_le hF
  have h7 : |p| ≤ |p - d.exact| + |d.exact| := by
    have := abs_add_le (p - d.exact) d.exact
    rwa [sub_add_cancel] at this
  linarith

theorem origin_near (hv : ReadsRounded F rnd val) {o : Option OriginRow} (h : ordOrigin o = true) :
    PoseNear (eps F) (eps F * ((originOf Dec.exact o).position.len + mu)) (originOf val o) (originOf Dec.exact o) := by
  have hs : 5000 * F.u * 10 ≤ 1 := by have := u_le hF; linarith
  have hb : 2 * 10 + 4 ≤ F.big := le_trans (by norm_num) (big_ge hF)
  have hm : mu ≤ 1 := by unfold mu; exact zpow_le_one_of_nonpos₀ (by norm_num) (by norm_num)
  have rot0 : Rot.dist (Rot.real (F := F) (⟨0, 0, 0, 1⟩ : Rot (Fl F))) (⟨0, 0, 0, 1⟩ : Rot ℝ) ≤ eps F * Rot.len ⟨0, 0, 0, 1⟩ := by
    rw [near_refl_rot]
    exact mul_nonneg eps_nonneg (Real.sqrt_nonneg _)
  cases o with
  | none => exact ⟨rot0, vec_pos hF zeroVec_rounded⟩
  | some o =>
    simp only [ordOrigin, Bool.and_eq_true] at h
    have hp : VecRounded (originOf val (some o)).position (originOf Dec.exact (some o)).position := by
      cases hx : o.xyz with
      | none => simp only [originOf, hx]; exact zeroVec_rounded
      | some v =>
        have h1 := h.1
        rw [hx] at h1
        simp only [originOf, hx]; exact ordVec_rounded hv h1
    cases hr : o.rpy with
    | none =>
      refine ⟨?_, vec_pos hF hp⟩
      simp only [originOf, hr]
      exact rot0
    | some a =>
      have h2 := h.2
      rw [hr] at h2
      simp only [angVec, Bool.and_eq_true, decide_eq_true_eq] at h2
      have ho := h2.1.1.1
      have ho' := ho
      simp only [ordVec, Bool.and_eq_true, decide_eq_true_eq] at ho'
      have ax := ang_le hF (hv.rounded _ ho'.1.1) h2.1.1.2
      have ay := ang_le hF (hv.rounded _ ho'.1.2) h2.1.2
      have az := ang_le hF (hv.rounded _ ho'.2) h2.2
      refine (C94_pose_numbers (A := 10) (by norm_num) hs hb (tiny_mu hF) hm
        ⟨_, decVec val a, _, decVec Dec.exact a, hp, ordVec_rounded hv ho, ax.1, ay.1, az.1, ax.2, ay.2, az.2, ?_, ?_⟩).1
      · simp only [originOf, hr]; rfl
      · simp only [originOf, hr]; rfl

omit hF in
theorem axis_len {v : Vec3 Dec} (h : isAxis v = true) : (decVec Dec.exact v).len = 1 := by
  have := isAxis_unit h
  unfold Vec3.IsUnit at this
  simp only [Vec3.len, this, Real.sqrt_one]

theorem axis_near {v' : Vec3 (Fl F)} {v : Vec3 ℝ} (h : VecRounded v' v) (hl : v.len = 1) : Vec3.dist v'.real v ≤ eps F * v.len := by
  have hn := h.near
  have hu := F.u_nonneg
  have := tiny_mu hF
  have hm : mu ≤ 1 := by unfold mu; exact zpow_le_one_of_nonpos₀ (by norm_num) (by norm_num)
  rw [hl]
  rw [Vec3.len_quat] at hl
  rw [hl] at hn
  rw [Vec3.dist_quat]
  refine hn.trans ?_
  unfold eps
  have c1 : F.u * F.tiny ≤ F.u * 1 := mul_le_mul_of_nonneg_left (by linarith [F.tiny_nonneg]) hu
  linarith

omit hF in
theorem dist_self_vec (F : Rounding) (v : Vec3 ℝ) : Vec3.dist (Vec3.real (F := F) v) v = 0 := by
  show Vec3.dist v v = 0
  simp [Vec3.dist]

variable {lr : List LinkRow} {jr : List JointRow} {tab : List (List Char × Nat × Nat)}

theorem joint_near (hv : ReadsRounded F rnd val) {j : JointRow} (h1 : ordOrigin j.origin = true)
    (h2 : (match j.axis with
    | none => true
    | some v => ordVec v && (j.type = .fixed || isAxis v)) = true) :
    JointNear (eps F) mu (j.joint val) (j.joint Dec.exact) := by
  refine ⟨rfl, rfl, rfl, rfl, origin_near hF hv h1, ?_⟩
  by_cases hf : j.type = .floating ∨ j.type = .fixed
  · simp only [JointRow.joint, if_pos hf]
    rw [show Vec3.dist (Vec3.real (F := F) (⟨0, 0, 0⟩ : Vec3 (Fl F))) (⟨0, 0, 0⟩ : Vec3 ℝ) = 0 from dist_self_vec F ⟨0, 0, 0⟩]
    exact mul_nonneg eps_nonneg (Real.sqrt_nonneg _)
  · simp only [JointRow.joint, if_neg hf]
    cases ha : j.axis with
    | none =>
      simp only [axisOf]
      rw [show Vec3.dist (Vec3.real (F := F) (⟨1, 0, 0⟩ : Vec3 (Fl F))) (⟨1, 0, 0⟩ : Vec3 ℝ) = 0 from dist_self_vec F ⟨1, 0, 0⟩]
      exact mul_nonneg eps_nonneg (Real.sqrt_nonneg _)
    | some v =>
      rw [ha] at h2
      simp only [Bool.and_eq_true, Bool.or_eq_true, decide_eq_true_eq] at h2
      rcases h2.2 with e | e
      · exact absurd (.inr e) hf
      · exact axis_near hF (ordVec_rounded hv h2.1) (axis_len e)

theorem robot_near (hv : ReadsRounded F rnd val) (h : boundsOk lr jr tab = true) :
    RobotNear (eps F) mu (lr.map (LinkRow.link val)) (jr.map (JointRow.joint val)) (ComWeld (lr.map (LinkRow.link val)))
      (lr.map (LinkRow.link Dec.exact)) (jr.map (JointRow.joint Dec.exact)) (ComWeld (lr.map (LinkRow.link Dec.exact))) := by
  simp only [boundsOk, Bool.and_eq_true] at h
  refine ⟨?_, ?_, ?_, ?_⟩
  · intro l' hl'
    obtain ⟨l, hl, rfl⟩ := List.mem_map.mp hl'
    exact ⟨_, List.mem_map_of_mem hl, rfl⟩
  · intro j' hj'
    obtain ⟨j, hj, rfl⟩ := List.mem_map.mp hj'
    have := List.all_eq_true.mp h.2 j hj
    rw [Bool.and_eq_true] at this
    exact ⟨_, List.mem_map_of_mem hj, joint_near hF hv this.1 this.2⟩
  · intro j' hj'
    obtain ⟨j, hj, rfl⟩ := List.mem_map.mp hj'
    exact ⟨_, List.mem_map_of_mem hj, rfl⟩
  · intro w' hw'
    cases hw' with
    | mk hl hi =>
      obtain ⟨l, hl0, rfl⟩ := List.mem_map.mp hl
      obtain ⟨i, hi', rfl⟩ := Option.map_eq_some_iff.mp hi
      have := List.all_eq_true.mp h.1.1.2 l hl0
      rw [hi'] at this
      simp only [Bool.and_eq_true] at this
      refine ⟨_, .mk (List.mem_map_of_mem hl0) (i := i.inertial Dec.exact) (by simp only [LinkRow.link, hi']; rfl), rfl, rfl, ?_, ?_⟩
      · rw [show Rot.dist (Pose.real (F := F) ⟨(InertialRow.inertial val i).origin.position, Rot.one⟩).rotation Rot.one = 0 from near_refl_rot F]
        exact mul_nonneg eps_nonneg (Real.sqrt_nonneg _)
      · exact (origin_near hF hv this.1.2).pos

omit hF in
theorem unit_len {q : Rot ℝ} (h : q.norm2 = 1) : q.len = 1 := by
  unfold Rot.norm2 at h
  rw [Rot.len, show q.x ^ 2 + q.y ^ 2 + q.z ^ 2 + q.w ^ 2 = 1 by linarith, Real.sqrt_one]

omit hF in
theorem proper (h : geometry lr jr = true) :
    Proper (jr.map (JointRow.joint Dec.exact)) (ComWeld (lr.map (LinkRow.link Dec.exact))) := by
  have hu := geometry_unit h
  refine ⟨fun j hj => ?_, fun j hj ht => ?_, fun w hw => ?_⟩
  · rw [unit_len (hu j hj).1]; norm_num
  · have := (hu j hj).2 ht
    unfold Vec3.IsUnit at this
    rw [Vec3.len, this, Real.sqrt_one]; norm_num
  · cases hw
    rw [unit_len (by simp [Rot.one, Rot.norm2])]; norm_num

omit hF in
theorem ubOrigin_spec (o : Option OriginRow) : (originOf Dec.exact o).position.len ≤ ubOrigin o / 10 ^ 6 := by
  have zero : Vec3.len ⟨0, 0, 0⟩ = 0 := by simp [Vec3.len]
  cases o with
  | none => simp only [originOf, ubOrigin]; rw [zero]; simp
  | some o =>
    cases hx : o.xyz with
    | none => simp only [originOf, ubOrigin, hx]; rw [zero]; simp
    | some v =>
      simp only [originOf, ubOrigin, hx]
      have h1 := ub_spec v.x
      have h2 := ub_spec v.y
      have h3 := ub_spec v.z
      push_cast
      rw [add_div, add_div]
      refine le_trans ?_ (add_le_add (add_le_add h1 h2) h3)
      refine Real.sqrt_le_iff.mpr ⟨by positivity, ?_⟩
      simp only [decVec]
      have a1 := abs_nonneg v.x.exact
      have a2 := abs_nonneg v.y.exact
      have a3 := abs_nonneg v.z.exact
      rw [← sq_abs v.x.exact, ← sq_abs v.y.exact, ← sq_abs v.z.exact]
      nlinarith [mul_nonneg a1 a2, mul_nonneg a1 a3, mul_nonneg a2 a3]

omit hF in
theorem ubJoint_spec {j : JointRow} (h2 : (match j.axis with
    | none => true
    | some v => ordVec v && (j.type = .fixed || isAxis v)) = true) {a : ℝ} (ha : |a| ≤ 10) :
    (j.joint Dec.exact).reach a ≤ ubJoint j / 10 ^ 6 := by
  have ho := ubOrigin_spec j.origin
  unfold RawJoint.reach ubJoint
  push_cast
  rw [add_div]
  refine add_le_add ho ?_
  by_cases hp : j.type = .prismatic
  · have hl : (j.joint Dec.exact).axis.len = 1 := by
      simp only [JointRow.joint, hp, reduceCtorEq, or_self, if_false]
      cases hx : j.axis with
      | none => simp [axisOf, Vec3.len]
      | some v =>
        rw [hx] at h2
        simp only [Bool.and_eq_true, Bool.or_eq_true, decide_eq_true_eq, hp, reduceCtorEq, false_or] at h2
        exact axis_len h2.2
    have hp' : (j.joint Dec.exact).type = .prismatic := hp
    rw [if_pos hp', if_pos hp, hl]
    norm_num
    linarith
  · have hp' : (j.joint Dec.exact).type ≠ .prismatic := hp
    rw [if_neg hp', if_neg hp]
    simp

omit hF in
theorem tab_le {tab : List (List Char × Nat × Nat)} (h : ∀ e ∈ tab, (decide (e.2.1 ≤ 15) && decide (e.2.2 ≤ 24000000)) = true) {m : List Char} {p : Nat × Nat}
    (hl : tab.lookup m = some p) : p.1 ≤ 15 ∧ p.2 ≤ 24000000 := by
  induction tab with
  | nil => cases hl
  | cons e tab ih =>
    obtain ⟨k, v⟩ := e
    rw [List.lookup_cons] at hl
    split at hl
    · cases hl
      have := h _ List.mem_cons_self
      simpa using this
    · exact ih (fun e he => h e (List.mem_cons_of_mem _ he)) hl

omit hF in
theorem path_bound (h : boundsOk lr jr tab = true) {θ : String → ℝ} (hθ : ∀ j ∈ jr.map (JointRow.joint Dec.exact), |θ j.name| ≤ 10)
    {base : Pose ℝ} {n : String} {d : Nat} {L : ℝ}
    (hp : PathLength (lr.map (LinkRow.link Dec.exact)) (jr.map (JointRow.joint Dec.exact)) (ComWeld (lr.map (LinkRow.link Dec.exact)))
      θ base n d L) :
    (∃ m d0 L0, n = String.ofList m ∧ tab.lookup m = some (d0, L0) ∧ d ≤ d0 ∧ L ≤ base.position.len + L0 / 10 ^ 6) ∨
    (∃ m, n = String.ofList m ∧ tab.lookup m = none ∧ d ≤ 16 ∧ L ≤ base.position.len + 25) := by
  simp only [boundsOk, Bool.and_eq_true] at h
  have look : ∀ l ∈ lr, ∃ d0 L0, tab.lookup l.name = some (d0, L0) ∧ d0 ≤ 15 ∧ L0 ≤ 24000000 := by
    intro l hl
    have := List.all_eq_true.mp h.1.1.1.2 l hl
    obtain ⟨p, hp⟩ := Option.isSome_iff_exists.mp this
    exact ⟨p.1, p.2, hp, tab_le (List.all_eq_true.mp h.1.1.1.1) hp⟩
  induction hp with
  | root hl _ =>
    obtain ⟨l, hl0, rfl⟩ := List.mem_map.mp hl
    obtain ⟨d0, L0, e, _, _⟩ := look l hl0
    refine .inl ⟨l.name, d0, L0, rfl, e, Nat.zero_le _, ?_⟩
    exact le_add_of_nonneg_right (by positivity)
  | @joint j d L hj _ ih =>
    obtain ⟨j, hj0, rfl⟩ := List.mem_map.mp hj
    have h3 := List.all_eq_true.mp h.1.2 j hj0
    have h4 := List.all_eq_true.mp h.2 j hj0
    rw [Bool.and_eq_true] at h4
    have hr := ubJoint_spec h4.2 (hθ _ (List.mem_map_of_mem hj0))
    cases e1 : tab.lookup j.parent with
    | none => rw [e1] at h3; cases h3
    | some p =>
      cases e2 : tab.lookup j.child with
      | none => rw [e1, e2] at h3; cases h3
      | some p' =>
        rw [e1, e2] at h3
        simp only [Bool.and_eq_true, decide_eq_true_eq] at h3
        rcases ih with ⟨m, d0, L0, hm, e, hd, hL⟩ | ⟨m, hm, e, _⟩
        · obtain rfl : m = j.parent := (String.ofList_injective hm).symm
          rw [e1] at e
          cases e
          refine .inl ⟨j.child, _, _, rfl, e2, by omega, ?_⟩
          have : ((L0 + ubJoint j : Nat) : ℝ) ≤ p'.2 := by exact_mod_cast h3.2
          push_cast at this
          have h5 := div_le_div_of_nonneg_right this (by positivity : (0 : ℝ) ≤ 10 ^ 6)
          rw [add_div] at h5
          linarith
        · obtain rfl : m = j.parent := (String.ofList_injective hm).symm
          rw [e1] at e; cases e
  | weld hw _ ih =>
    cases hw with
    | mk hl hi =>
      obtain ⟨l, hl0, rfl⟩ := List.mem_map.mp hl
      obtain ⟨i, hi', rfl⟩ := Option.map_eq_some_iff.mp hi
      have h5 := List.all_eq_true.mp h.1.1.2 l hl0
      rw [hi'] at h5
      simp only [Bool.and_eq_true, decide_eq_true_eq, Option.isNone_iff_eq_none] at h5
      obtain ⟨d1, L1, e1, b1, b2⟩ := look l hl0
      rcases ih with ⟨m, d0, L0, hm, e, hd, hL⟩ | ⟨m, hm, e, _⟩
      · obtain rfl : m = l.name := (String.ofList_injective hm).symm
        rw [e1] at e
        cases e
        refine .inr ⟨_, ?_, h5.2, by omega, ?_⟩
        · rw [String.ofList_append]; rfl
        · have h6 := ubOrigin_spec i.origin
          have h7 : (ubOrigin i.origin : ℝ) ≤ 1000000 := by exact_mod_cast h5.1.1
          have h8 : (L1 : ℝ) ≤ 24000000 := by exact_mod_cast b2
          have h9 : (ubOrigin i.origin : ℝ) / 10 ^ 6 ≤ 1 := by rw [div_le_iff₀ (by positivity)]; linarith
          have h10 : (L1 : ℝ) / 10 ^ 6 ≤ 24 := by rw [div_le_iff₀ (by positivity)]; linarith
          show _ + (originOf Dec.exact i.origin).position.len ≤ _
          linarith
      · obtain rfl : m = l.name := (String.ofList_injective hm).symm
        rw [e1] at e; cases e

omit hF in
/-- links of these robots are behind at most 16 joints and welds, and at most 43 m away, when the base is at most 18 m away -/
theorem reach43 (h : boundsOk lr jr tab = true) {θ : String → ℝ} (hθ : ∀ j ∈ jr.map (JointRow.joint Dec.exact), |θ j.name| ≤ 10)
    {base : Pose ℝ} (hb : base.position.len ≤ 18) (n : String) (d : Nat) (L : ℝ)
    (hp : PathLength (lr.map (LinkRow.link Dec.exact)) (jr.map (JointRow.joint Dec.exact)) (ComWeld (lr.map (LinkRow.link Dec.exact)))
      θ base n d L) : d ≤ 16 ∧ L ≤ 43 := by
  rcases path_bound h hθ hp with ⟨m, d0, L0, _, e, hd, hL⟩ | ⟨_, _, _, hd, hL⟩
  · simp only [boundsOk, Bool.and_eq_true] at h
    have hb := tab_le (List.all_eq_true.mp h.1.1.1.1) e
    have h1 : (L0 : ℝ) ≤ 24000000 := by exact_mod_cast hb.2
    have h2 : (L0 : ℝ) / 10 ^ 6 ≤ 24 := by rw [div_le_iff₀ (by positivity)]; linarith
    exact ⟨hd.trans (hb.1.trans (by norm_num)), by linarith⟩
  · exact ⟨hd, by linarith⟩

omit hF in
theorem mu_le : mu ≤ 1 / 10 ^ 10 := by
  unfold mu
  rw [show (1 / 10 ^ 10 : ℝ) = 10 ^ (-10 : ℤ) by norm_num]
  exact zpow_le_zpow_right₀ (by norm_num) (by norm_num)

theorem small : Small F (eps F) mu 10 16 43 := by
  have hu := u_le hF
  have ht := hF.tiny
  have hb := hF.big
  refine ⟨?_, ?_, ?_, ?_⟩
  · unfold eps; push_cast; linarith
  · refine (mul_le_mul_of_nonneg_right ht (by positivity)).trans ?_
    unfold mu
    have e : (64 : ℝ) ^ (16 + 2) ≤ 10 ^ (100 : ℤ) := by norm_num
    refine (mul_le_mul_of_nonneg_left e (by positivity)).trans ?_
    rw [← zpow_add₀ (by norm_num)]
    norm_num
  · unfold mu; exact zpow_le_one_of_nonpos₀ (by norm_num) (by norm_num)
  · refine le_trans ?_ hb
    norm_num

/-- the base given by the columns after the joint angles -/
private def baseOf {K : Type} [Scalar K] (bt : BaseType) (l : List K) : Pose K := configBase 0 bt l

omit hF in
theorem configBase_cases (n : Nat) (bt : BaseType) (q : List (Fl F)) :
    (configBase (K := Fl F) n bt q = Pose.identity ∧ configBase (K := ℝ) n bt q = Pose.identity) ∨
    ∃ x y z r p w : Fl F, (∀ v : Fl F, v ∈ [x, y, z, r, p, w] → Fl.real v = 0 ∨ v ∈ q.drop n) ∧
      configBase (K := Fl F) n bt q = ⟨⟨x, y, z⟩, Rot.fromRPY (K := Fl F) r p w⟩ ∧
      configBase (K := ℝ) n bt q = ⟨⟨x, y, z⟩, Rot.fromRPY r p w⟩ := by
  have key : ∀ l : List (Fl F), 
      (baseOf (K := Fl F) bt l = Pose.identity ∧ baseOf (K := ℝ) bt l = Pose.identity) ∨
      ∃ x y z r p w : Fl F, (∀ v : Fl F, v ∈ [x, y, z, r, p, w] → Fl.real v = 0 ∨ v ∈ l) ∧
        baseOf (K := Fl F) bt l = ⟨⟨x, y, z⟩, Rot.fromRPY (K := Fl F) r p w⟩ ∧
        baseOf (K := ℝ) bt l = ⟨⟨x, y, z⟩, Rot.fromRPY r p w⟩ := by
    intro l
    match bt, l with
    | .fixed, _ => exact .inl ⟨rfl, rfl⟩
    | .planer, [] => exact .inl ⟨rfl, rfl⟩
    | .planer, [_] => exact .inl ⟨rfl, rfl⟩
    | .planer, [_, _] => exact .inl ⟨rfl, rfl⟩
    | .planer, [x, y, w] =>
      refine .inr ⟨x, y, (0 : Fl F), (0 : Fl F), (0 : Fl F), w, ?_, rfl, rfl⟩
      intro v hv
      simp only [List.mem_cons, List.not_mem_nil, or_false] at hv
      rcases hv with rfl | rfl | rfl | rfl | rfl | rfl
      · exact .inr (List.mem_cons_self)
      · exact .inr (List.mem_cons_of_mem _ List.mem_cons_self)
      · exact .inl rfl
      · exact .inl rfl
      · exact .inl rfl
      · exact .inr (List.mem_cons_of_mem _ (List.mem_cons_of_mem _ List.mem_cons_self))
    | .planer, _ :: _ :: _ :: _ :: _ => exact .inl ⟨rfl, rfl⟩
    | .floating, [] => exact .inl ⟨rfl, rfl⟩
    | .floating, [_] => exact .inl ⟨rfl, rfl⟩
    | .floating, [_, _] => exact .inl ⟨rfl, rfl⟩
    | .floating, [_, _, _] => exact .inl ⟨rfl, rfl⟩
    | .floating, [_, _, _, _] => exact .inl ⟨rfl, rfl⟩
    | .floating, [_, _, _, _, _] => exact .inl ⟨rfl, rfl⟩
    | .floating, [x, y, z, r, p, w] =>
      exact .inr ⟨x, y, z, r, p, w, fun v hv => .inr hv, rfl, rfl⟩
    | .floating, _ :: _ :: _ :: _ :: _ :: _ :: _ :: _ => exact .inl ⟨rfl, rfl⟩
  exact key (q.drop n)

/-- the base of a configuration -/
theorem base_near (n : Nat) (bt : BaseType) (q : List (Fl F)) (hq : ∀ v ∈ q, |Fl.real v| ≤ 10) :
    PoseNear (eps F) (eps F * ((configBase (K := ℝ) n bt q).position.len + mu)) (configBase (K := Fl F) n bt q) (configBase (K := ℝ) n bt q) ∧
      (configBase (K := ℝ) n bt q).rotation.norm2 = 1 ∧ (configBase (K := ℝ) n bt q).position.len ≤ 18 := by
  have hs : 5000 * F.u * 10 ≤ 1 := by have := u_le hF; linarith
  have hb : 2 * 10 + 4 ≤ F.big := le_trans (by norm_num) (big_ge hF)
  have hm : mu ≤ 1 := by unfold mu; exact zpow_le_one_of_nonpos₀ (by norm_num) (by norm_num)
  have z10 : |(0 : ℝ)| ≤ 10 := by norm_num
  have self : ∀ x : ℝ, Rounded F.u F.tiny x x := fun x => by
    simp only [Rounded, sub_self, abs_zero]
    exact mul_nonneg F.u_nonneg (le_max_of_le_right F.tiny_nonneg)
  have len : ∀ x y z : ℝ, |x| ≤ 10 → |y| ≤ 10 → |z| ≤ 10 → Vec3.len ⟨x, y, z⟩ ≤ 18 := by
    intro x y z hx hy hz
    refine Real.sqrt_le_iff.mpr ⟨by norm_num, ?_⟩
    have := sq_le_sq' (abs_le.mp hx).1 (abs_le.mp hx).2
    have := sq_le_sq' (abs_le.mp hy).1 (abs_le.mp hy).2
    have := sq_le_sq' (abs_le.mp hz).1 (abs_le.mp hz).2
    show x ^ 2 + y ^ 2 + z ^ 2 ≤ _
    linarith
  have key : ∀ x y z r p w : ℝ, |x| ≤ 10 → |y| ≤ 10 → |z| ≤ 10 → |r| ≤ 10 → |p| ≤ 10 → |w| ≤ 10 →
      PoseNear (F := F) (eps F) (eps F * (Vec3.len ⟨x, y, z⟩ + mu)) ⟨⟨x, y, z⟩, Rot.fromRPY (K := Fl F) r p w⟩ ⟨⟨x, y, z⟩, Rot.fromRPY r p w⟩ :=
    fun x y z r p w _ _ _ hr hp hw => (C94_pose_numbers (F := F) (A := 10) (by norm_num) hs hb (tiny_mu hF) hm
      ⟨⟨x, y, z⟩, ⟨r, p, w⟩, ⟨x, y, z⟩, ⟨r, p, w⟩, ⟨self _, self _, self _⟩, ⟨self _, self _, self _⟩, hr, hp, hw, hr, hp, hw, rfl, rfl⟩).1
  have fixedCase : PoseNear (eps F) (eps F * ((Pose.identity (K := ℝ)).position.len + mu)) (Pose.identity (K := Fl F)) (Pose.identity (K := ℝ)) ∧
      (Pose.identity (K := ℝ)).rotation.norm2 = 1 ∧ (Pose.identity (K := ℝ)).position.len ≤ 18 := by
    refine ⟨⟨?_, vec_pos hF (zeroVec_rounded (F := F))⟩, by simp [Pose.identity, Rot.one, Rot.norm2], len 0 0 0 z10 z10 z10⟩
    rw [show Rot.dist (Pose.real (F := F) Pose.identity).rotation (Pose.identity (K := ℝ)).rotation = 0 from near_refl_rot F]
    exact mul_nonneg eps_nonneg (Real.sqrt_nonneg _)
  have hq' : ∀ v ∈ q.drop n, |Fl.real v| ≤ 10 := fun v hv => hq v (List.mem_of_mem_drop hv)
  rcases configBase_cases (F := F) n bt q with ⟨e1, e2⟩ | ⟨x, y, z, r, p, w, hm', e1, e2⟩
  · rw [e1, e2]; exact fixedCase
  · rw [e1, e2]
    have hx : ∀ v : Fl F, v ∈ [x, y, z, r, p, w] → |Fl.real v| ≤ 10 := fun v hv =>
      (hm' v hv).elim (fun e => by rw [e]; exact z10) (hq' v)
    have k := key x y z r p w (hx x (by simp)) (hx y (by simp)) (hx z (by simp)) (hx r (by simp)) (hx p (by simp)) (hx w (by simp))
    exact ⟨k, Rot.norm2_fromRPY _ _ _, len x y z (hx x (by simp)) (hx y (by simp)) (hx z (by simp))⟩

theorem accuracy (hv : ReadsRounded F rnd val) (h : boundsOk lr jr tab = true) (hg : geometry lr jr = true)
    {θ : String → ℝ} (hθ : ∀ j ∈ jr.map (JointRow.joint Dec.exact), |θ j.name| ≤ 10)
    {base' : Pose (Fl F)} {base : Pose ℝ} (hb : PoseNear (eps F) (eps F * (base.position.len + mu)) base' base)
    (hbu : base.rotation.norm2 = 1) (hbl : base.position.len ≤ 18) {n : String} {T' : Pose (Fl F)}
    (hT : WorldPose (K := Fl F) (lr.map (LinkRow.link val)) (jr.map (JointRow.joint val)) (ComWeld (lr.map (LinkRow.link val))) θ
      base' n T') :
    ∃ T, WorldPose (lr.map (LinkRow.link Dec.exact)) (jr.map (JointRow.joint Dec.exact)) (ComWeld (lr.map (LinkRow.link Dec.exact))) θ
      base n T ∧ PoseNear (1 / 10 ^ 8) (1 / 10 ^ 6) T' T := by
  have hl1 : base.rotation.len = 1 := unit_len hbu
  have hD := reach43 h hθ hbl n
  obtain ⟨d, L, T, h1, h2, h3⟩ := C94_world (robot_near hF hv h) (proper hg)
    (by have := F.u_nonneg; unfold eps; linarith) (by norm_num) (small hF) hθ hb (by rw [hl1]; norm_num) (by rw [hl1]; norm_num) hD hT
  obtain ⟨hd, hL⟩ := hD d L h2
  have hu := u_le hF
  have hu0 := F.u_nonneg
  have hd' : (d : ℝ) ≤ 16 := by exact_mod_cast hd
  have hd0 : (0 : ℝ) ≤ d := Nat.cast_nonneg d
  have he : eps F ≤ 24 / 10 ^ 14 := by unfold eps; linarith
  have he0 := eps_nonneg (F := F)
  have hm := mu_le
  have a1 : ((d : ℝ) + 1) * eps F ≤ 17 * (24 / 10 ^ 14) := mul_le_mul (by linarith) he he0 (by norm_num)
  refine ⟨T, h1, h3.rot.trans (mul_le_mul_of_nonneg_right ?_ (Real.sqrt_nonneg _)), h3.pos.trans ?_⟩
  · linarith
  · have a2 : L + ((d : ℝ) + 1) * mu ≤ 43 + 17 * (1 / 10 ^ 10) :=
      add_le_add hL (mul_le_mul (by linarith) hm mu_pos.le (by norm_num))
    have a3 : 500 * ((d : ℝ) + 1) * eps F * 10 ≤ 5000 * (17 * (24 / 10 ^ 14)) := by linarith
    refine (mul_le_mul_of_nonneg_left a2 (by positivity)).trans ((mul_le_mul_of_nonneg_right a3 (by norm_num)).trans ?_)
    norm_num

omit hF in
theorem kuka_fetch : Kuka.text ≠ Fetch.text := by
  intro h; have := congrArg List.length h; revert this; decide +kernel
omit hF in
theorem kuka_pr2 : Kuka.text ≠ Pr2.text := by
  intro h; have := congrArg List.length h; revert this; decide +kernel
omit hF in
theorem fetch_pr2 : Fetch.text ≠ Pr2.text := by
  intro h; have := congrArg List.length h; revert this; decide +kernel

omit hF in
theorem texts {K : Type} [Scalar K] {val : Dec → K} {t : List Char} {ls : List (RawLink K)} {js : List (RawJoint K)}
    (h : Shipped val t ls js) :
    (t = Kuka.text ∧ ls = Kuka.links.map (LinkRow.link val) ∧ js = Kuka.joints.map (JointRow.joint val)) ∨
    (t = Fetch.text ∧ ls = Fetch.links.map (LinkRow.link val) ∧ js = Fetch.joints.map (JointRow.joint val)) ∨
    (t = Pr2.text ∧ ls = Pr2.links.map (LinkRow.link val) ∧ js = Pr2.joints.map (JointRow.joint val)) := by
  cases h
  · exact .inl ⟨rfl, rfl, rfl⟩
  · exact .inr (.inl ⟨rfl, rfl, rfl⟩)
  · exact .inr (.inr ⟨rfl, rfl, rfl⟩)

omit hF in
/-- the same file, read twice -/
theorem both {K : Type} [Scalar K] {val : Dec → K} {t : List Char} {ls' : List (RawLink K)} {js' : List (RawJoint K)}
    {ls : List (RawLink ℝ)} {js : List (RawJoint ℝ)} (h : Shipped val t ls' js') (hx : Shipped Dec.exact t ls js) :
    ∃ lr jr, ls' = lr.map (LinkRow.link val) ∧ js' = jr.map (JointRow.joint val) ∧
      ls = lr.map (LinkRow.link Dec.exact) ∧ js = jr.map (JointRow.joint Dec.exact) ∧ geometry lr jr = true ∧
      massOk lr = true ∧ ∃ tab, boundsOk lr jr tab = true := by
  have e1 := h.texts
  have e2 := hx.texts
  rcases e1 with ⟨rfl, rfl, rfl⟩ | ⟨rfl, rfl, rfl⟩ | ⟨rfl, rfl, rfl⟩
  · rcases e2 with ⟨_, rfl, rfl⟩ | ⟨e, _⟩ | ⟨e, _⟩
    · exact ⟨_, _, rfl, rfl, rfl, rfl, by decide +kernel, by decide +kernel, bounds Kuka.joints Kuka.order [], by decide +kernel⟩
    · exact absurd e kuka_fetch
    · exact absurd e kuka_pr2
  · rcases e2 with ⟨e, _⟩ | ⟨_, rfl, rfl⟩ | ⟨e, _⟩
    · exact absurd e.symm kuka_fetch
    · exact ⟨_, _, rfl, rfl, rfl, rfl, by decide +kernel, by decide +kernel, bounds Fetch.joints Fetch.order [], by decide +kernel⟩
    · exact absurd e fetch_pr2
  · rcases e2 with ⟨e, _⟩ | ⟨e, _⟩ | ⟨_, rfl, rfl⟩
    · exact absurd e.symm kuka_pr2
    · exact absurd e.symm fetch_pr2
    · exact ⟨_, _, rfl, rfl, rfl, rfl, by decide +kernel, by decide +kernel, bounds Pr2.joints Pr2.order [], by decide +kernel⟩

omit hF in
/-- the joint values of a configuration are as bounded as its numbers -/
theorem angle_le {jn : List String} {q : List (Fl F)} (hq : jn.length ≤ q.length) (hb : ∀ v ∈ q, |Fl.real v| ≤ 10) {θ : String → ℝ}
    (h3 : ConfigSays (K := Fl F) jn q θ) (n : String) : |θ n| ≤ 10 := by
  by_cases hn : n ∈ jn
  · obtain ⟨i, hi⟩ := List.getElem?_of_mem hn
    have hlen : i < q.length := by
      have := (List.getElem?_eq_some_iff.mp hi).1
      omega
    have hv' := List.getElem?_eq_getElem hlen
    rw [h3.listed i n _ hi hv']
    exact hb _ (List.getElem_mem hlen)
  · rw [h3.others n hn]
    show |(0 : ℝ)| ≤ 10
    norm_num

end Shipped

section
variable {F : Rounding} {rnd : Bool → Nat → Int → Option (Fl F)} {val : Dec → Fl F} {t : List Char}
  {ls' : List (RawLink (Fl F))} {js' : List (RawJoint (Fl F))} {ls : List (RawLink ℝ)} {js : List (RawJoint ℝ)}

/-- **C97.** Load a file of `data/` in `double` arithmetic, look up joints and links by name, compute poses for any joint values and
base coordinates up to 10 (radians or metres): each position is within a micrometre of the position in the robot that the file describes, and each
quaternion within `10^-8` of the exact one. -/
theorem C97_accuracy (hF : DoubleLike F) (hv : ReadsRounded F rnd val) (h : Shipped val t ls' js') (hx : Shipped Dec.exact t ls js)
    {jn ln : List String} (hjn : ∀ n ∈ jn, ∃ j ∈ js, j.type.Movable ∧ j.name = n) (hd : jn.Nodup)
    (hln : ∀ n ∈ ln, n ∈ ls.map RawLink.name) (bt : BaseType) (qs : Arr2 (Fl F)) (hq : qs.cols = jn.length + bt.dof)
    (hne : qs.rows ≠ []) (hb : ∀ q ∈ qs.rows, ∀ v ∈ q, |Fl.real v| ≤ 10) (rt : RotType) :
    ∃ s0 ids es P J s, pyInit (parseText (strToDouble rnd)) (String.ofList t) = .ok s0 ∧
      pyGetJointIds jn s0 = .ok ids s0 ∧ pyGetLinkIds ln s0 = .ok es s0 ∧
      pySolveFk (.nd2 qs) es ids rt bt false false s0 = .ok (P, J) s ∧
      P.rows = qs.rows.length * ln.length ∧ P.cols = rt.width ∧
      ∀ (k j : Nat) (q : List (Fl F)) (n : String) (θ : String → ℝ),
        qs.rows[k]? = some q → ln[j]? = some n → ConfigSays (K := Fl F) jn q θ →
        ∃ T, (∀ T', WorldPose ls js (ComWeld ls) θ (configBase (K := ℝ) jn.length bt q) n T' ↔ T' = T) ∧ T.rotation.len = 1 ∧
          Vec3.dist ⟨P.f (k * ln.length + j) 0, P.f (k * ln.length + j) 1, P.f (k * ln.length + j) 2⟩ T.position ≤ 1 / 10 ^ 6 ∧
          (rt = .xyzw → Rot.dist ⟨P.f (k * ln.length + j) 3, P.f (k * ln.length + j) 4, P.f (k * ln.length + j) 5,
            P.f (k * ln.length + j) 6⟩ T.rotation ≤ 1 / 10 ^ 8) := by
  obtain ⟨lr, jr, rfl, rfl, rfl, rfl, hg, _, tab, hbo⟩ := Shipped.both h hx
  obtain ⟨s0, ids, es, P, J, s, e1, e2, e3, e4, e5, e6, e7⟩ := C96_poses hv.reads h (jn := jn) (ln := ln)
    (fun n hn => by
      obtain ⟨j, hj, ht, rfl⟩ := hjn n hn
      obtain ⟨r, hr, rfl⟩ := List.mem_map.mp hj
      exact ⟨_, List.mem_map_of_mem hr, ht, rfl⟩) hd
    (fun n hn => by
      have := hln n hn
      rw [List.map_map] at this ⊢
      exact this) bt qs hq hne rt
  refine ⟨s0, ids, es, P, J, s, e1, e2, e3, e4, e5, e6, fun k j q n θ h1 h2 h3 => ?_⟩
  obtain ⟨T', hT', hp⟩ := e7 k j q n θ h1 h2 h3
  have hqm := List.mem_of_getElem? h1
  have hθ := Shipped.angle_le (by have := qs.wf q hqm; omega) (hb q hqm) h3
  obtain ⟨hb1, hb2, hb3⟩ := Shipped.base_near hF jn.length bt q (hb q hqm)
  obtain ⟨T, hT, hnear⟩ := Shipped.accuracy hF hv hbo hg (fun j _ => hθ _) hb1 hb2 hb3 ((hT' T').mpr rfl)
  obtain ⟨_, _, _, _, _, _, _, _, _, _, _, _, x7⟩ := C96_poses reads_exact hx (jn := jn) (ln := ln) hjn hd hln
    (K := ℝ) bt qs hq hne rt
  obtain ⟨T0, hT0, _⟩ := x7 k j q n θ h1 h2 ⟨h3.listed, h3.others⟩
  obtain rfl : T = T0 := (hT0 T).mp hT
  have hu : T.rotation.norm2 = 1 := by
    refine hT.unit (Shipped.geometry_unit hg) (fun w hw => ?_) hb2
    cases hw
    simp [Rot.one, Rot.norm2]
  have hlen := Shipped.unit_len hu
  refine ⟨T, hT0, hlen, ?_, fun hrt => ?_⟩
  · obtain ⟨p0, p1, p2, _⟩ := hp
    rw [p0, p1, p2]
    exact hnear.pos
  · subst hrt
    obtain ⟨_, _, _, p3, p4, p5, p6⟩ := hp
    rw [p3, p4, p5, p6]
    have := hnear.rot
    rwa [hlen, mul_one] at this

end

/-- the hypotheses: IEEE arithmetic with correctly rounded functions and reading, and the PR2 -/
theorem Shipped.ieee : DoubleLike RoundExample.dbl ∧
    ReadsRounded RoundExample.dbl (fun neg m e => some (round53 (Dec.exact ⟨neg, m, e⟩))) (fun d => round53 d.exact) := by
  refine ⟨⟨le_refl _, ?_, ?_⟩, fun _ _ => rfl, fun d _ => round53_rounded _⟩
  · show (2 : ℝ) ^ (-1022 : ℤ) ≤ 10 ^ (-200 : ℤ)
    rw [zpow_neg, zpow_neg]
    refine inv_anti₀ (by positivity) ?_
    calc (10 : ℝ) ^ (200 : ℤ) ≤ ((2 : ℝ) ^ (4 : ℤ)) ^ (200 : ℤ) := by
          refine zpow_le_zpow_left₀ (by norm_num) (by norm_num) (by norm_num)
      _ = (2 : ℝ) ^ (800 : ℤ) := by rw [← zpow_mul]; norm_num
      _ ≤ _ := zpow_le_zpow_right₀ (by norm_num) (by norm_num)
  · show (10 : ℝ) ^ 100 ≤ 10 ^ 200
    exact pow_le_pow_right₀ (by norm_num) (by norm_num)

end Tinyfk
