import Verif.Props.ShippedRound
import Verif.Props.RoundJac
import Verif.Props.RoundComJac

/-!
# Properties: accuracy of Jacobians and centres of mass for the robots in `data/`

C112: from the bytes of the file to the Jacobian, in rounded arithmetic.
-/

set_option maxRecDepth 20000

namespace Tinyfk

namespace Shipped

variable {F : Rounding} {rnd : Bool → Nat → Int → Option (Fl F)} {val : Dec → Fl F}
  {lr : List LinkRow} {jr : List JointRow} {tab : List (List Char × Nat × Nat)}

theorem ord_pos {d : Dec} (h : d.Ordinary) (h0 : d.digits ≠ 0) : (10 : ℝ) ^ (-40 : ℤ) ≤ |d.exact| := by
  have h1 : |d.exact| = d.digits * (10 : ℝ) ^ d.exp := by
    unfold Dec.exact
    rw [abs_mul, abs_mul, Nat.abs_cast, abs_of_pos (by positivity : (0 : ℝ) < 10 ^ d.exp)]
    cases d.neg <;> simp
  rw [h1]
  have h2 : (1 : ℝ) ≤ d.digits := by exact_mod_cast Nat.one_le_iff_ne_zero.mpr h0
  have h3 : (10 : ℝ) ^ (-40 : ℤ) ≤ 10 ^ d.exp := zpow_le_zpow_right₀ (by norm_num) h.2.1
  have h4 : (0 : ℝ) < 10 ^ d.exp := by positivity
  nlinarith

theorem ord_le {d : Dec} (h : d.Ordinary) : |d.exact| ≤ 10 ^ 60 := by
  have h1 : |d.exact| = d.digits * (10 : ℝ) ^ d.exp := by
    unfold Dec.exact
    rw [abs_mul, abs_mul, Nat.abs_cast, abs_of_pos (by positivity : (0 : ℝ) < 10 ^ d.exp)]
    cases d.neg <;> simp
  rw [h1]
  have h2 : (d.digits : ℝ) ≤ 10 ^ 20 := by exact_mod_cast h.1.le
  have h3 : (10 : ℝ) ^ d.exp ≤ 10 ^ (40 : ℤ) := zpow_le_zpow_right₀ (by norm_num) h.2.2
  calc (d.digits : ℝ) * 10 ^ d.exp ≤ 10 ^ 20 * 10 ^ (40 : ℤ) := mul_le_mul h2 h3 (by positivity) (by positivity)
    _ = 10 ^ 60 := by norm_num

theorem mass_near (hF : DoubleLike F) (hv : ReadsRounded F rnd val) (h0 : ∀ d : Dec, d.digits = 0 → Fl.real (val d) = 0)
    {d : Dec} (h : d.Ordinary) (hn : 0 ≤ d.exact) : |Fl.real (val d) - d.exact| ≤ eps F * d.exact := by
  by_cases hz : d.digits = 0
  · rw [h0 d hz, exact_zero hz]; simp
  · have h1 := hv.rounded d h
    have h2 := ord_pos h hz
    have h3 : F.tiny ≤ |d.exact| := (hF.tiny.trans (zpow_le_zpow_right₀ (by norm_num) (by norm_num))).trans h2
    unfold Rounded at h1
    rw [max_eq_left h3, abs_of_nonneg hn] at h1
    refine h1.trans (mul_le_mul_of_nonneg_right ?_ hn)
    have := F.u_nonneg
    unfold eps; linarith

theorem links_near (hF : DoubleLike F) (hv : ReadsRounded F rnd val) (h0 : ∀ d : Dec, d.digits = 0 → Fl.real (val d) = 0)
    (hm : massOk lr = true) (hg : geometry lr jr = true) (hb : boundsOk lr jr tab = true) :
    List.Forall₂ (LinkNear (F := F) (eps F) mu) (lr.map (LinkRow.link val)) (lr.map (LinkRow.link Dec.exact)) := by
  rw [List.forall₂_map_left_iff, List.forall₂_map_right_iff, List.forall₂_same]
  intro l hl
  refine ⟨rfl, by simp [LinkRow.link], fun i' i e1 e2 => ?_⟩
  obtain ⟨ir, h1, rfl⟩ := Option.map_eq_some_iff.mp e1
  obtain ⟨ir', h2, rfl⟩ := Option.map_eq_some_iff.mp e2
  rw [h1] at h2
  cases h2
  have hpos := ((geometry_inertial hg).1 _ (List.mem_map_of_mem hl) _ e2).1
  simp only [massOk, Bool.and_eq_true] at hm
  have ho := List.all_eq_true.mp hm.2 l hl
  rw [h1] at ho
  simp only [boundsOk, Bool.and_eq_true] at hb
  have ho' := List.all_eq_true.mp hb.1.1.2 l hl
  rw [h1] at ho'
  simp only [Bool.and_eq_true] at ho'
  exact ⟨hpos, mass_near hF hv h0 (of_decide_eq_true ho) hpos, (origin_near hF hv ho'.1.2).pos⟩

theorem massOf_bounds (hm : massOk lr = true) (hg : geometry lr jr = true) {l : RawLink ℝ}
    (hl : l ∈ lr.map (LinkRow.link Dec.exact)) : 0 ≤ l.massOf ∧ l.massOf ≤ 10 ^ 60 := by
  cases hi : l.inertial with
  | none => simp [RawLink.massOf, hi]
  | some i =>
    have h1 := ((geometry_inertial hg).1 l hl i hi).1
    simp only [RawLink.massOf, hi, Option.map_some, Option.getD_some]
    refine ⟨h1, ?_⟩
    obtain ⟨r, hr, rfl⟩ := List.mem_map.mp hl
    obtain ⟨ir, h2, rfl⟩ := Option.map_eq_some_iff.mp hi
    simp only [massOk, Bool.and_eq_true] at hm
    have ho := List.all_eq_true.mp hm.2 r hr
    rw [h2] at ho
    exact (le_abs_self _).trans (ord_le (of_decide_eq_true ho))

theorem massSum_bounds (hm : massOk lr = true) (hg : geometry lr jr = true) :
    10 ^ (-40 : ℤ) ≤ massSum (lr.map (LinkRow.link Dec.exact)) ∧ massSum (lr.map (LinkRow.link Dec.exact)) ≤ 10 ^ 62 := by
  have hlen : lr.length ≤ 100 := by
    simp only [massOk, Bool.and_eq_true] at hm
    exact of_decide_eq_true hm.1
  constructor
  · obtain ⟨l, hl, i, hi, hp⟩ := (geometry_inertial hg).2
    have h1 : l.massOf ≤ massSum (lr.map (LinkRow.link Dec.exact)) := by
      unfold massSum
      refine List.single_le_sum (fun x hx => ?_) _ (List.mem_map_of_mem hl)
      obtain ⟨r, hr, rfl⟩ := List.mem_map.mp hx
      exact (massOf_bounds hm hg hr).1
    refine le_trans ?_ h1
    simp only [RawLink.massOf, hi, Option.map_some, Option.getD_some]
    obtain ⟨r, hr, rfl⟩ := List.mem_map.mp hl
    obtain ⟨ir, h2, rfl⟩ := Option.map_eq_some_iff.mp hi
    simp only [massOk, Bool.and_eq_true] at hm
    have ho := List.all_eq_true.mp hm.2 r hr
    rw [h2] at ho
    have hz : ir.mass.digits ≠ 0 := by
      intro hz
      have := exact_zero hz
      rw [show (InertialRow.inertial Dec.exact ir).mass = ir.mass.exact from rfl, this] at hp
      exact absurd hp (lt_irrefl _)
    have := ord_pos (of_decide_eq_true ho) hz
    rwa [abs_of_pos (show 0 < ir.mass.exact from hp)] at this
  · unfold massSum
    have := List.sum_le_card_nsmul ((lr.map (LinkRow.link Dec.exact)).map RawLink.massOf) (10 ^ 60) (fun x hx => by
      obtain ⟨r, hr, rfl⟩ := List.mem_map.mp hx
      exact (massOf_bounds hm hg hr).2)
    refine this.trans ?_
    rw [List.length_map, List.length_map, nsmul_eq_mul]
    have : (lr.length : ℝ) ≤ 100 := by exact_mod_cast hlen
    nlinarith

theorem axes_le (hg : geometry lr jr = true) : ∀ r ∈ jr.map (JointRow.joint Dec.exact), r.axis.len ≤ 1 := by
  intro r hr
  obtain ⟨j, hj, rfl⟩ := List.mem_map.mp hr
  simp only [geometry, Bool.and_eq_true] at hg
  have := List.all_eq_true.mp hg.1.1 j hj
  by_cases hf : j.type = .floating ∨ j.type = .fixed
  · simp only [JointRow.joint, if_pos hf]; simp [Vec3.len]
  · simp only [JointRow.joint, if_neg hf]
    cases ha : j.axis with
    | none => simp [axisOf, Vec3.len]
    | some v =>
      rw [ha] at this
      simp only [Bool.or_eq_true, decide_eq_true_eq] at this
      rcases this with e | e
      · exact absurd (.inr e) hf
      · exact (axis_len e).le

theorem weldsApart {num : String → Option ℝ} {t : List Char} {ls : List (RawLink ℝ)} {js : List (RawJoint ℝ)}
    (h : RobotText num t ls js) : WeldsApart ls js (ComWeld ls) := by
  refine ⟨?_, ?_, ?_⟩
  · rintro w w' @⟨l, i, hl, hi⟩ @⟨l', i', hl', hi'⟩ e
    obtain rfl := List.inj_on_of_nodup_map h.linkNames hl hl' (append_com_inj e)
    rw [hi] at hi'
    cases hi'
    rfl
  · rintro w @⟨l, i, hl, hi⟩ r hr e
    exact h.noClash l hl (by rw [hi]; rfl) (List.mem_map.mpr ⟨r, hr, e⟩)
  · rintro w @⟨l, i, hl, hi⟩ j hj e
    have hm := (h.ends j hj).2
    rw [e] at hm
    exact h.noClash l hl (by rw [hi]; rfl) hm

theorem bodies_le {ls : List (RawLink ℝ)} {js : List (RawJoint ℝ)} {welds : Weld ℝ → Prop} {θ : String → ℝ} {base : Pose ℝ}
    {bs : List (Inertial ℝ × Pose ℝ)} (h : Bodies ls js welds θ base bs) : bs.length ≤ ls.length := by
  obtain ⟨sorted, h1, _, h2⟩ := h
  rw [← h2.length_eq, ← h1.length_eq]
  exact List.length_filter_le _ _

/-- the numbers of the bounds -/
theorem col_num (hF : DoubleLike F) (hg : geometry lr jr = true) {r : RawJoint ℝ} (hr : r ∈ jr.map (JointRow.joint Dec.exact)) :
    colBound (eps F) mu 10 r 16 43 ≤ 6 / 10 ^ 6 ∧ colSize r 43 ≤ 86 := by
  have hu := u_le hF
  have he : eps F ≤ 24 / 10 ^ 14 := by unfold eps; linarith
  have he0 := eps_nonneg (F := F)
  have hm := mu_le
  have hm0 := mu_pos.le
  have ha := axes_le hg r hr
  have ha0 : 0 ≤ r.axis.len := Real.sqrt_nonneg _
  constructor
  · unfold colBound
    push_cast
    split
    · have : eps F * (r.axis.len + mu) ≤ 24 / 10 ^ 14 * 2 := mul_le_mul he (by linarith) (by linarith) (by norm_num)
      linarith
    · have : eps F * (43 + (16 + 1) * mu) ≤ 24 / 10 ^ 14 * 44 := mul_le_mul he (by linarith) (by linarith) (by norm_num)
      linarith
  · unfold colSize
    split <;> linarith

end Shipped

section
variable {F : Rounding} {rnd : Bool → Nat → Int → Option (Fl F)} {val : Dec → Fl F} {t : List Char}
  {ls' : List (RawLink (Fl F))} {js' : List (RawJoint (Fl F))} {ls : List (RawLink ℝ)} {js : List (RawJoint ℝ)}

/-- **C112, Jacobians.** Load a file of `data/` in `double` arithmetic, look up joints and links by name, compute poses and Jacobians for any
joint values and base coordinates up to 10: in the column of each joint, the position rows are within `10^-5` of the derivative of the
position in the robot that the file describes, and the quaternion rows within `10^-7` of the derivative of the quaternion. -/
theorem C112_jacobians (hF : DoubleLike F) (hv : ReadsRounded F rnd val) (h : Shipped val t ls' js') (hx : Shipped Dec.exact t ls js)
    {jn ln : List String} (hjn : ∀ n ∈ jn, ∃ j ∈ js, j.type.Movable ∧ j.name = n) (hd : jn.Nodup)
    (hln : ∀ n ∈ ln, n ∈ ls.map RawLink.name) (bt : BaseType) (qs : Arr2 (Fl F)) (hq : qs.cols = jn.length + bt.dof)
    (hne : qs.rows ≠ []) (hb : ∀ q ∈ qs.rows, ∀ v ∈ q, |Fl.real v| ≤ 10) (rt : RotType) :
    ∃ s0 ids es P J s, pyInit (parseText (strToDouble rnd)) (String.ofList t) = .ok s0 ∧
      pyGetJointIds jn s0 = .ok ids s0 ∧ pyGetLinkIds ln s0 = .ok es s0 ∧
      pySolveFk (.nd2 qs) es ids rt bt true false s0 = .ok (P, J) s ∧
      ∀ (k j c : Nat) (q : List (Fl F)) (n a : String) (θ : String → ℝ),
        qs.rows[k]? = some q → ln[j]? = some n → jn[c]? = some a → ConfigSays (K := Fl F) jn q θ →
        ∃ (T : ℝ → Pose ℝ) (X : Vec3 ℝ) (Q : Rot ℝ),
          (∀ v, WorldPose ls js (ComWeld ls) (Function.update θ a v) (configBase (K := ℝ) jn.length bt q) n (T v)) ∧
          Vec3.HasDeriv (fun v => (T v).position) X (θ a) ∧ Rot.HasDeriv (fun v => (T v).rotation) Q (θ a) ∧
          Vec3.dist ⟨J.f ((k * ln.length + j) * rt.width + 0) c, J.f ((k * ln.length + j) * rt.width + 1) c,
            J.f ((k * ln.length + j) * rt.width + 2) c⟩ X ≤ 1 / 10 ^ 5 ∧
          (rt = .xyzw → Rot.dist ⟨J.f ((k * ln.length + j) * 7 + 3) c, J.f ((k * ln.length + j) * 7 + 4) c,
            J.f ((k * ln.length + j) * 7 + 5) c, J.f ((k * ln.length + j) * 7 + 6) c⟩ Q ≤ 1 / 10 ^ 7) := by
  obtain ⟨lr, jr, rfl, rfl, rfl, rfl, hg, _, tab, hbo⟩ := Shipped.both h hx
  obtain ⟨m0, s0, ids, es, e1, hL⟩ := loaded (C96_files hv.reads h) (jn := jn) (ln := ln)
    (fun n hn => by
      obtain ⟨j, hj, ht, rfl⟩ := hjn n hn
      obtain ⟨r, hr, rfl⟩ := List.mem_map.mp hj
      exact ⟨_, List.mem_map_of_mem hr, ht, rfl⟩) hd
    (fun n hn => by
      have := hln n hn
      rw [List.map_map] at this ⊢
      exact this)
  have hue : F.u ≤ Shipped.eps F := by have := F.u_nonneg; unfold Shipped.eps; linarith
  obtain ⟨P, J, s', e2, hJ⟩ := C101_solve_fk (rt := rt) (uc := false) (A := 10) (D := 16) (R := 43) hL.reach hL.shallow hL.fits
    (hL.fkArgs qs hq hne) (.inr rfl)
    (.inl (by
      obtain ⟨l, hl, i, hi, _⟩ := (Shipped.geometry_inertial hg).2
      obtain ⟨r, hr, rfl⟩ := List.mem_map.mp hl
      obtain ⟨ir, h2, rfl⟩ := Option.map_eq_some_iff.mp hi
      exact ⟨_, List.mem_map_of_mem hr, by simp [LinkRow.link, h2]⟩))
    (by rw [allWelds_nil]; exact Shipped.robot_near hF hv hbo) (Shipped.geometry_unit hg)
    (fun w hw => by cases hw; simp [Rot.one, Rot.norm2])
    (fun r hr => (Shipped.axes_le hg r hr).trans (by norm_num)) hue (by norm_num) (Shipped.small hF)
  rw [show s0.withCache s0.robot.cache = s0 from rfl] at e2
  refine ⟨s0, ids, es, P, J, s', e1, hL.jointIds, hL.linkIds, e2, ?_⟩
  intro k j c q n a θ h1 h2 h3 h4
  have hqm := List.mem_of_getElem? h1
  have hql := qs.wf q hqm
  have hθ := Shipped.angle_le (by omega) (hb q hqm) h4
  obtain ⟨hb1, hb2, hb3⟩ := Shipped.base_near hF jn.length bt q (hb q hqm)
  obtain ⟨l, hl1, hl2⟩ := hL.link j n h2
  obtain ⟨i, hi1, hi2⟩ := hL.joint c a h3
  obtain ⟨r, d, L, T, X, Q, p1, rfl, p3, p4, p5, p6, p7, p8⟩ := hJ k j l i c q n a θ _ h1 hl1 (by rw [hL.robot]; exact hl2) hi1 hi2
    (hL.angles bt q θ (by rw [hL.lenJ]; omega) h4) (by rw [hL.base]; exact hb1) hb2 (fun _ _ => hθ _)
    (Shipped.reach43 hbo (fun _ _ => hθ _) hb3 n)
  obtain ⟨hd, hLn⟩ := Shipped.reach43 hbo (fun _ _ => hθ _) hb3 n d L p3
  have hL0 : 0 ≤ L := path_nonneg p3
  rw [hL.lenL] at p7 p8
  refine ⟨T, X, Q, p4, p5, p6, p7.trans ?_, fun hrt => (p8 hrt).trans ?_⟩
  · refine (colBound_mono Shipped.eps_nonneg Shipped.mu_pos.le (by norm_num) hd hLn hL0).trans ?_
    exact (Shipped.col_num hF hg p1).1.trans (by norm_num)
  · have hu := Shipped.u_le hF
    have he : Shipped.eps F ≤ 24 / 10 ^ 14 := by unfold Shipped.eps; linarith
    have hd' : (d : ℝ) ≤ 16 := by exact_mod_cast hd
    have hd0 : (0 : ℝ) ≤ d := Nat.cast_nonneg d
    have : ((d : ℝ) + 1) * Shipped.eps F ≤ 17 * (24 / 10 ^ 14) := mul_le_mul (by linarith) he Shipped.eps_nonneg (by norm_num)
    linarith

/-- **C112, centres of mass.** Load a file of `data/` in `double` arithmetic, look up joints by name and call `solve_com_fk` with a planar or
floating base, or with one configuration right after `clear_cache`: each centre of mass is within `3 * 10^-6` of the centre of mass of
the robot that the file describes, and each column of the Jacobian within `2 * 10^-5` of its derivative. (A number whose digits are all
0 is read as 0: one body of `kuka.urdf` has the mass `0.0`.) -/
theorem C112_com (hF : DoubleLike F) (hv : ReadsRounded F rnd val) (h0 : ∀ d : Dec, d.digits = 0 → Fl.real (val d) = 0)
    (h : Shipped val t ls' js') (hx : Shipped Dec.exact t ls js)
    {jn : List String} (hjn : ∀ n ∈ jn, ∃ j ∈ js, j.type.Movable ∧ j.name = n) (hd : jn.Nodup)
    (bt : BaseType) (qs : Arr2 (Fl F)) (hq : qs.cols = jn.length + bt.dof)
    (hne : qs.rows ≠ []) (hb : ∀ q ∈ qs.rows, ∀ v ∈ q, |Fl.real v| ≤ 10) :
    ∃ s0 ids, pyInit (parseText (strToDouble rnd)) (String.ofList t) = .ok s0 ∧ pyGetJointIds jn s0 = .ok ids s0 ∧
      ∀ s1, (bt ≠ .fixed ∧ s1 = s0) ∨ (pyClearCache s0 = .ok () s1 ∧ qs.rows.length = 1) →
        ∃ C J s, pySolveComFk (.nd2 qs) ids none bt true s1 = .ok (C, J) s ∧
          ∀ (k : Nat) (q : List (Fl F)) (θ : String → ℝ), qs.rows[k]? = some q → ConfigSays (K := Fl F) jn q θ →
            (∃ bs, Bodies ls js (ComWeld ls) θ (configBase (K := ℝ) jn.length bt q) bs ∧
              Vec3.dist ⟨C.f k 0, C.f k 1, C.f k 2⟩ (comOf bs) ≤ 3 / 10 ^ 6) ∧
            ∀ (c : Nat) (a : String), jn[c]? = some a → ∃ (g : ℝ → Vec3 ℝ) (X : Vec3 ℝ),
              (∀ v, ∃ bs, Bodies ls js (ComWeld ls) (Function.update θ a v) (configBase (K := ℝ) jn.length bt q) bs ∧ comOf bs = g v) ∧
              Vec3.HasDeriv g X (θ a) ∧
              Vec3.dist ⟨J.f (3 * k) c, J.f (3 * k + 1) c, J.f (3 * k + 2) c⟩ X ≤ 2 / 10 ^ 5 := by
  have hT := C96_files reads_exact hx
  obtain ⟨lr, jr, rfl, rfl, rfl, rfl, hg, hm, tab, hbo⟩ := Shipped.both h hx
  obtain ⟨m0, s0, ids, es, e1, hL⟩ := loaded (C96_files hv.reads h) (jn := jn) (ln := [])
    (fun n hn => by
      obtain ⟨j, hj, ht, rfl⟩ := hjn n hn
      obtain ⟨r, hr, rfl⟩ := List.mem_map.mp hj
      exact ⟨_, List.mem_map_of_mem hr, ht, rfl⟩) hd (by simp)
  have hu := Shipped.u_le hF
  have hue : F.u ≤ Shipped.eps F := by have := F.u_nonneg; unfold Shipped.eps; linarith
  have he : Shipped.eps F ≤ 24 / 10 ^ 14 := by unfold Shipped.eps; linarith
  have he0 := Shipped.eps_nonneg (F := F)
  have hmu := Shipped.mu_le
  have hmu0 := Shipped.mu_pos
  have hlen : lr.length ≤ 100 := by
    simp only [Shipped.massOk, Bool.and_eq_true] at hm
    exact of_decide_eq_true hm.1
  have hlen' : ((lr.map (LinkRow.link Dec.exact)).length : ℝ) ≤ 100 := by
    rw [List.length_map]; exact_mod_cast hlen
  obtain ⟨hm1, hm2⟩ := Shipped.massSum_bounds hm hg
  have hpos : 0 < massSum (lr.map (LinkRow.link Dec.exact)) := lt_of_lt_of_le (by positivity) hm1
  have hMt : F.tiny ≤ Shipped.mu * massSum (lr.map (LinkRow.link Dec.exact)) := by
    refine hF.tiny.trans (le_trans ?_ (mul_le_mul_of_nonneg_left hm1 hmu0.le))
    unfold Shipped.mu
    rw [← zpow_add₀ (by norm_num)]
    exact zpow_le_zpow_right₀ (by norm_num) (by norm_num)
  have hN : 100 * (((lr.map (LinkRow.link Dec.exact)).length : ℝ) * Shipped.eps F) ≤ 1 := by
    have : ((lr.map (LinkRow.link Dec.exact)).length : ℝ) * Shipped.eps F ≤ 100 * (24 / 10 ^ 14) := mul_le_mul hlen' he he0 (by norm_num)
    linarith
  have hB : 48 * (massSum (lr.map (LinkRow.link Dec.exact)) + 1) * ((43 : ℝ) + (16 : Nat) + 1) ≤ F.big := by
    refine le_trans ?_ hF.big
    push_cast
    have : (48 * (10 ^ 62 + 1) * (43 + 16 + 1) : ℝ) ≤ 10 ^ 100 := by norm_num
    linarith
  have hB' : 12 * (massSum (lr.map (LinkRow.link Dec.exact)) + 1) * ((43 : ℝ) + (16 : Nat) + 1) ≤ F.big := by
    refine le_trans ?_ hB
    push_cast
    linarith
  have hR := Shipped.robot_near hF hv hbo
  rw [← allWelds_nil _ m0] at hR
  have hcom : ∀ l ∈ lr.map (LinkRow.link Dec.exact), ∀ i, l.inertial = some i →
      ComWeld (lr.map (LinkRow.link Dec.exact)) ⟨l.name ++ "_com", l.name, ⟨i.origin.position, Rot.one⟩⟩ := fun l hl i hi => .mk hl hi
  have hlk := Shipped.links_near hF hv h0 hm hg hbo
  have ha : ComArgs m0 s0 (.nd2 qs) ids [] [] bt :=
    ⟨(fun _ h' => by cases h'), hne, (fun q hq' => by rw [qs.wf q hq', hq, hL.lenJ]), hL.joints, by simp, rfl⟩
  refine ⟨s0, ids, e1, hL.jointIds, fun s1 hs1 => ?_⟩
  obtain ⟨C, J, s, e2, hC⟩ := C105_solve_com_fk (wj := true) (A := 10) (D := 16) (R := 43) hL.reach hL.shallow ha hs1 hR (Shipped.proper hg) hue
    (by norm_num) (Shipped.small hF) hcom hlk hpos hMt hN hB'
  obtain ⟨C2, J2, s2, e3, hJ⟩ := C107_solve_com_fk (A := 10) (D := 16) (R := 43) hL.reach hL.shallow ha hs1 hR hT.jointNames
    (Shipped.weldsApart hT) (Shipped.geometry_unit hg) (fun w hw => by cases hw; simp [Rot.one, Rot.norm2])
    (fun r hr => (Shipped.axes_le hg r hr).trans (by norm_num)) hue (by norm_num) (Shipped.small hF) hcom hlk hpos hMt hN hB
  rw [e2] at e3
  cases e3
  refine ⟨C, J, s, e2, fun k q θ h1 h4 => ?_⟩
  have hqm := List.mem_of_getElem? h1
  have hql := qs.wf q hqm
  have hθ := Shipped.angle_le (by omega) (hb q hqm) h4
  obtain ⟨hb1, hb2, hb3⟩ := Shipped.base_near hF jn.length bt q (hb q hqm)
  have hl1 := Shipped.unit_len hb2
  have hang := hL.angles bt q θ (by rw [hL.lenJ]; omega) h4
  refine ⟨?_, fun c a h3 => ?_⟩
  · obtain ⟨bs, g1, g2⟩ := hC k q θ _ h1 hang (by rw [hL.base]; exact hb1) (by rw [hl1]; norm_num) (by rw [hl1]; norm_num) (fun _ _ => hθ _)
      (Shipped.reach43 hbo (fun _ _ => hθ _) hb3)
    refine ⟨bs, g1, g2.trans ?_⟩
    have hbl : (bs.length : ℝ) ≤ 100 := le_trans (by exact_mod_cast Shipped.bodies_le g1) hlen'
    unfold comBound posBound
    push_cast
    have c1 : Shipped.eps F * (43 + (16 + 1) * Shipped.mu) ≤ 24 / 10 ^ 14 * (43 + 1 / 10 ^ 3) :=
      mul_le_mul he (by linarith) (by linarith) (by norm_num)
    have c2 : (bs.length : ℝ) * (Shipped.eps F * (43 + Shipped.mu)) ≤ 100 * (24 / 10 ^ 14 * 44) :=
      mul_le_mul hbl (mul_le_mul he (by linarith) (by linarith) (by norm_num)) (by positivity) (by norm_num)
    linarith
  · obtain ⟨i, hi1, hi2⟩ := hL.joint c a h3
    obtain ⟨r, g, X, N, p1, rfl, p3, p4, p5, p6⟩ := hJ k c i q a θ _ h1 hi1 hi2 hang (by rw [hL.base]; exact hb1) hb2 (fun _ _ => hθ _)
      (Shipped.reach43 hbo (fun _ _ => hθ _) hb3)
    refine ⟨g, X, fun v => ?_, p5, p6.trans ?_⟩
    · obtain ⟨bs, b1, _, b3⟩ := p4 v
      exact ⟨bs, b1, b3⟩
    · obtain ⟨n1, n2⟩ := Shipped.col_num hF hg p1
      have hNl : (N : ℝ) ≤ 100 := le_trans (by exact_mod_cast p3) hlen'
      have hc0 : 0 ≤ colSize r 43 := colSize_nonneg (by norm_num)
      unfold comColBound
      have c2 : (N : ℝ) * (Shipped.eps F * (colSize r 43 + Shipped.mu)) ≤ 100 * (24 / 10 ^ 14 * 87) :=
        mul_le_mul hNl (mul_le_mul he (by linarith) (by linarith) (by norm_num)) (by positivity) (by norm_num)
      linarith

end

/-- one configuration of the first joint of the KUKA arm on a planar base -/
noncomputable def Shipped.kukaQ : Arr2 (Fl RoundExample.dbl) := ⟨4, [[(1 / 2 : ℝ), (1 : ℝ), (2 : ℝ), (3 : ℝ)]], fun q hq => by obtain rfl := List.mem_singleton.mp hq; rfl⟩

theorem Shipped.kuka_joint : ∀ n ∈ ["lbr_iiwa_joint_1"], ∃ j ∈ Kuka.joints.map (JointRow.joint Dec.exact), j.type.Movable ∧ j.name = n := by
  intro n hn
  obtain rfl := List.mem_singleton.mp hn
  exact ⟨_, List.mem_map_of_mem (List.mem_cons_self), .inl rfl, rfl⟩

theorem Shipped.kukaQ_le : ∀ q ∈ Shipped.kukaQ.rows, ∀ v ∈ q, |Fl.real v| ≤ 10 := by
  intro q hq v hv
  obtain rfl := List.mem_singleton.mp hq
  have key : ∀ x ∈ ([1 / 2, 1, 2, 3] : List ℝ), |x| ≤ 10 := by
    intro x hx
    simp only [List.mem_cons, List.not_mem_nil, or_false] at hx
    rcases hx with rfl | rfl | rfl | rfl <;> norm_num [abs_le]
  exact key v hv

/-- the hypotheses, and the result for one robot: IEEE arithmetic with correctly rounded functions and reading, and the KUKA arm -/
example := C112_jacobians Shipped.ieee.1 Shipped.ieee.2 .kuka .kuka (jn := ["lbr_iiwa_joint_1"]) (ln := ["lbr_iiwa_link_7"])
  Shipped.kuka_joint (by simp) (by intro n hn; obtain rfl := List.mem_singleton.mp hn; rw [List.map_map]; decide +kernel)
  .planer Shipped.kukaQ rfl (by simp [Shipped.kukaQ]) Shipped.kukaQ_le .xyzw
example := C112_com Shipped.ieee.1 Shipped.ieee.2 (fun d hd => by
    show round53 d.exact = 0
    rw [Shipped.exact_zero hd]; simp [round53])
  .kuka .kuka (jn := ["lbr_iiwa_joint_1"]) Shipped.kuka_joint (by simp) .planer Shipped.kukaQ rfl (by simp [Shipped.kukaQ]) Shipped.kukaQ_le

end Tinyfk
