import Verif.Props.ShippedJac
import Verif.Props.RoundDist
import Verif.Props.RoundGrad

/-!
# Properties: accuracy of squared distances and their gradients for the robots in `data/`

C112: from the bytes of the file to the distances between links, in rounded arithmetic.
-/

set_option maxRecDepth 20000

namespace Tinyfk

namespace Shipped

variable {F : Rounding}

theorem pos_num (hF : DoubleLike F) {d : Nat} {L : ℝ} (hd : d ≤ 16) (hL0 : 0 ≤ L) (hL : L ≤ 43) : 0 ≤ posBound (eps F) mu 10 d L ∧ posBound (eps F) mu 10 d L ≤ 1 / 10 ^ 6 := by
  have hu := u_le hF
  have he : eps F ≤ 24 / 10 ^ 14 := by unfold eps; linarith
  have he0 := eps_nonneg (F := F)
  have hm := mu_le
  have hm0 := mu_pos.le
  have hd' : (d : ℝ) ≤ 16 := by exact_mod_cast hd
  have hd0 : (0 : ℝ) ≤ d := Nat.cast_nonneg d
  unfold posBound
  have h1 : 0 ≤ L + (d + 1) * mu := by positivity
  have h2 : L + (d + 1) * mu ≤ 44 := by
    have : ((d : ℝ) + 1) * mu ≤ 17 * mu := mul_le_mul_of_nonneg_right (by linarith) hm0
    linarith
  have h3 : 500 * ((d : ℝ) + 1) * eps F * 10 ≤ 500 * 17 * (24 / 10 ^ 14) * 10 := by
    have : ((d : ℝ) + 1) * eps F ≤ 17 * (24 / 10 ^ 14) := mul_le_mul (by linarith) he he0 (by norm_num)
    nlinarith
  refine ⟨by positivity, (mul_le_mul h3 h2 h1 (by norm_num)).trans (by norm_num)⟩

end Shipped

section
variable {F : Rounding} {rnd : Bool → Nat → Int → Option (Fl F)} {val : Dec → Fl F} {t : List Char}
  {ls' : List (RawLink (Fl F))} {js' : List (RawJoint (Fl F))} {ls : List (RawLink ℝ)} {js : List (RawJoint ℝ)}

/-- **C112, distances.** Load a file of `data/` in `double` arithmetic, look up joints and links by name, and compute squared distances
between pairs of these links and their gradients, for any joint values and base coordinates up to 10. With `D` the distance of the two
links in the robot that the file describes, the squared distance is within `10^-5 (D + 1)` of `D ^ 2`, and its gradient
with respect to each joint within `4 * 10^-5 (D + v + 1)` of the derivative of `D ^ 2`, where `v` is the speed of the links relative to each other. -/
theorem C112_distances (hF : DoubleLike F) (hv : ReadsRounded F rnd val) (h : Shipped val t ls' js') (hx : Shipped Dec.exact t ls js)
    {jn ln : List String} (hjn : ∀ n ∈ jn, ∃ j ∈ js, j.type.Movable ∧ j.name = n) (hd : jn.Nodup)
    (hln : ∀ n ∈ ln, n ∈ ls.map RawLink.name) (bt : BaseType) (qs : List (List (Fl F))) (hq : ∀ q ∈ qs, q.length = jn.length + bt.dof)
    (hb : ∀ q ∈ qs, ∀ v ∈ q, |Fl.real v| ≤ 10) :
    ∃ s0 ids es, pyInit (parseText (strToDouble rnd)) (String.ofList t) = .ok s0 ∧
      pyGetJointIds jn s0 = .ok ids s0 ∧ pyGetLinkIds ln s0 = .ok es s0 ∧
      ∀ ps : List (Nat × Nat), ps ≠ [] → (∀ p ∈ ps, p.1 ∈ es ∧ p.2 ∈ es) →
        ∃ V J s, pySqdists qs ps ids bt true false s0 = .ok (V, J) s ∧
          ∀ (k j i1 i2 l1 l2 : Nat) (q : List (Fl F)) (n1 n2 : String) (θ : String → ℝ),
            qs[k]? = some q → ps[j]? = some (l1, l2) → es[i1]? = some l1 → ln[i1]? = some n1 → es[i2]? = some l2 → ln[i2]? = some n2 →
            ConfigSays (K := Fl F) jn q θ →
            (∃ T1 T2 : Pose ℝ, WorldPose ls js (ComWeld ls) θ (configBase (K := ℝ) jn.length bt q) n1 T1 ∧
              WorldPose ls js (ComWeld ls) θ (configBase (K := ℝ) jn.length bt q) n2 T2 ∧
              |(V.f (k * ps.length + j) 0).real - Vec3.dist T1.position T2.position ^ 2| ≤
                1 / 10 ^ 5 * (Vec3.dist T1.position T2.position + 1)) ∧
            ∀ (c : Nat) (a : String), jn[c]? = some a → ∃ (T1 T2 : ℝ → Pose ℝ) (X1 X2 : Vec3 ℝ) (G : ℝ),
              (∀ v, WorldPose ls js (ComWeld ls) (Function.update θ a v) (configBase (K := ℝ) jn.length bt q) n1 (T1 v)) ∧
              (∀ v, WorldPose ls js (ComWeld ls) (Function.update θ a v) (configBase (K := ℝ) jn.length bt q) n2 (T2 v)) ∧
              Vec3.HasDeriv (fun v => (T1 v).position) X1 (θ a) ∧ Vec3.HasDeriv (fun v => (T2 v).position) X2 (θ a) ∧
              HasDerivAt (fun v => Vec3.dist (T1 v).position (T2 v).position ^ 2) G (θ a) ∧
              |(J.f (k * ps.length + j) c).real - G| ≤
                4 / 10 ^ 5 * (Vec3.dist (T1 (θ a)).position (T2 (θ a)).position + Vec3.dist X1 X2 + 1) := by
  obtain ⟨lr, jr, rfl, rfl, rfl, rfl, hg, _, tab, hbo⟩ := Shipped.both h hx
  obtain ⟨m0, s0, ids, es, e1, hL⟩ := loaded (C96_files hv.reads h) (jn := jn) (ln := ln)
    (fun n hn => by
      obtain ⟨j, hj, ht, rfl⟩ := hjn n hn
      obtain ⟨r, hr, rfl⟩ := List.mem_map.mp hj
      exact ⟨_, List.mem_map_of_mem hr, ht, rfl⟩) hd
    (fun n hn => by
      have := hln n hn
      rw [List.map_map] at this ⊢
      exact this)
  refine ⟨s0, ids, es, e1, hL.jointIds, hL.linkIds, fun ps hps hmem => ?_⟩
  have hue : F.u ≤ Shipped.eps F := by have := F.u_nonneg; unfold Shipped.eps; linarith
  have hargs : DistArgs m0 s0 qs ps ids bt := ⟨hps, fun q hqm => by rw [hL.lenJ]; exact hq q hqm, hL.joints, fun p hp => by
    rw [hL.robot]; exact ⟨hL.links _ (hmem p hp).1, hL.links _ (hmem p hp).2⟩⟩
  have hine : (∃ r ∈ lr.map (LinkRow.link val), r.inertial.isSome) ∨ weldsAfter (names0 m0) ([] : List (Call (Fl F))) ≠ [] := .inl (by
      obtain ⟨l, hl, i, hi, _⟩ := (Shipped.geometry_inertial hg).2
      obtain ⟨r, hr, rfl⟩ := List.mem_map.mp hl
      obtain ⟨ir, h2, rfl⟩ := Option.map_eq_some_iff.mp hi
      exact ⟨_, List.mem_map_of_mem hr, by simp [LinkRow.link, h2]⟩)
  have hbig := Shipped.big_ge hF
  have hnear : RobotNear (Shipped.eps F) Shipped.mu (lr.map (LinkRow.link val)) (jr.map (JointRow.joint val))
      (AllWelds (lr.map (LinkRow.link val)) m0 []) (lr.map (LinkRow.link Dec.exact)) (jr.map (JointRow.joint Dec.exact))
      (ComWeld (lr.map (LinkRow.link Dec.exact))) := by rw [allWelds_nil]; exact Shipped.robot_near hF hv hbo
  have hw : ∀ w : Weld ℝ, ComWeld (lr.map (LinkRow.link Dec.exact)) w → w.offset.rotation.norm2 = 1 :=
    fun w hw => by cases hw; simp [Rot.one, Rot.norm2]
  have hT := C96_files reads_exact hx
  obtain ⟨V, J, s', e2, hV⟩ := C104_sqdists (wj := true) (uc := false) (A := 10) (D := 16) (R := 43) hL.reach hL.shallow hL.fits
    hargs (.inl rfl) (fun _ => hine) hnear (Proper.of_unit (Shipped.geometry_unit hg) hw) hue (by norm_num) (Shipped.small hF) (le_trans (by norm_num) hbig)
  obtain ⟨V2, J2, s2, e3, hJ⟩ := C106_gradient (uc := false) (A := 10) (D := 16) (R := 43) hL.reach hL.shallow hL.fits
    hargs (.inl rfl) hine hnear hT.jointNames (Shipped.geometry_unit hg) hw
    (fun r hr => (Shipped.axes_le hg r hr).trans (by norm_num)) hue (by norm_num) (Shipped.small hF) (le_trans (by norm_num) hbig)
  rw [show s0.withCache s0.robot.cache = s0 from rfl] at e2 e3
  rw [e2] at e3
  cases e3
  refine ⟨V, J, s', e2, ?_⟩
  intro k j i1 i2 l1 l2 q n1 n2 θ h1 h2 h3 h4 h5 h6 h7
  have hqm := List.mem_of_getElem? h1
  have hql := hq q hqm
  have hθ := Shipped.angle_le (by omega) (hb q hqm) h7
  obtain ⟨hb1, hb2, hb3⟩ := Shipped.base_near hF jn.length bt q (hb q hqm)
  obtain ⟨x1, hx1, hy1⟩ := hL.link i1 n1 h4
  rw [h3] at hx1; cases hx1
  obtain ⟨x2, hx2, hy2⟩ := hL.link i2 n2 h6
  rw [h5] at hx2; cases hx2
  have hreach := fun n => Shipped.reach43 hbo (fun _ _ => hθ _) hb3 n
  have hang := hL.angles bt q θ (by rw [hL.lenJ]; omega) h7
  have htiny := hF.tiny
  have hu := Shipped.u_le hF
  have he : Shipped.eps F ≤ 24 / 10 ^ 14 := by unfold Shipped.eps; linarith
  have het : 8 * Shipped.eps F * F.tiny ≤ 1 / 10 ^ 10 := by
    have ht1 : F.tiny ≤ 1 := htiny.trans (zpow_le_one_of_nonpos₀ (by norm_num) (by norm_num))
    have := mul_le_mul he ht1 F.tiny_nonneg (by norm_num)
    linarith
  have hm := Shipped.mu_le
  have hm0 := Shipped.mu_pos.le
  have hlen : (configBase (K := ℝ) jn.length bt q).rotation.len = 1 := Rot.len_one hb2
  constructor
  · obtain ⟨d1, L1, T1, d2, L2, T2, E, p1, p2, p3, p4, rfl, p6⟩ := hV k j l1 l2 q n1 n2 θ _ h1 h2 (by rw [hL.robot]; exact hy1) (by rw [hL.robot]; exact hy2)
      hang (by rw [hL.base]; exact hb1) (by rw [hlen]; norm_num) (by rw [hlen]; norm_num) (fun _ _ => hθ _) (fun n d L _ => hreach n d L)
    refine ⟨T1, T2, p1, p3, p6.trans ?_⟩
    obtain ⟨hd1, hL1⟩ := hreach n1 d1 L1 p2
    obtain ⟨hd2, hL2⟩ := hreach n2 d2 L2 p4
    have a1 := Shipped.pos_num hF hd1 (path_nonneg p2) hL1
    have a2 := Shipped.pos_num hF hd2 (path_nonneg p4) hL2
    have hD0 : 0 ≤ Vec3.dist T1.position T2.position := Real.sqrt_nonneg _
    generalize posBound (Shipped.eps F) Shipped.mu 10 d1 L1 = E1 at *
    generalize posBound (Shipped.eps F) Shipped.mu 10 d2 L2 = E2 at *
    nlinarith
  · intro c a hc
    obtain ⟨i, hi1, hi2⟩ := hL.joint c a hc
    obtain ⟨r, d1, d2, L1, L2, T1, T2, X1, X2, G, E, C, o1, o2, o3, o4, o5, o6, o7, o8, o9, rfl, rfl, o12⟩ := hJ k j l1 l2 i c q n1 n2 a θ _ h1 h2
      (by rw [hL.robot]; exact hy1) (by rw [hL.robot]; exact hy2) hi1 hi2
      hang (by rw [hL.base]; exact hb1) hb2 (fun _ _ => hθ _) (fun n d L _ => hreach n d L)
    refine ⟨T1, T2, X1, X2, G, o5, o6, o7, o8, o9, o12.trans ?_⟩
    obtain ⟨hd1, hL1⟩ := hreach n1 d1 L1 o3
    obtain ⟨hd2, hL2⟩ := hreach n2 d2 L2 o4
    have a1 := Shipped.pos_num hF hd1 (path_nonneg o3) hL1
    have a2 := Shipped.pos_num hF hd2 (path_nonneg o4) hL2
    have c1 := (colBound_mono (r := r) (Shipped.eps_nonneg (F := F)) Shipped.mu_pos.le (by norm_num : (0 : ℝ) ≤ 10) hd1 hL1 (path_nonneg o3)).trans (Shipped.col_num hF hg o1).1
    have c2 := (colBound_mono (r := r) (Shipped.eps_nonneg (F := F)) Shipped.mu_pos.le (by norm_num : (0 : ℝ) ≤ 10) hd2 hL2 (path_nonneg o4)).trans (Shipped.col_num hF hg o1).1
    have hD0 : 0 ≤ Vec3.dist (T1 (θ a)).position (T2 (θ a)).position := Real.sqrt_nonneg _
    have hX0 : 0 ≤ Vec3.dist X1 X2 := Real.sqrt_nonneg _
    generalize posBound (Shipped.eps F) Shipped.mu 10 d1 L1 = E1 at *
    generalize posBound (Shipped.eps F) Shipped.mu 10 d2 L2 = E2 at *
    generalize colBound (Shipped.eps F) Shipped.mu 10 r d1 L1 = C1 at *
    generalize colBound (Shipped.eps F) Shipped.mu 10 r d2 L2 = C2 at *
    generalize Vec3.dist (T1 (θ a)).position (T2 (θ a)).position = D0 at *
    generalize Vec3.dist X1 X2 = X0 at *
    have hE0 : 0 ≤ E1 + E2 := by linarith
    have hE : E1 + E2 ≤ 2 / 10 ^ 6 := by linarith
    have hC : C1 + C2 ≤ 12 / 10 ^ 6 := by linarith
    have k1 : (X0 + (C1 + C2)) * (E1 + E2) ≤ (X0 + 12 / 10 ^ 6) * (2 / 10 ^ 6) :=
      mul_le_mul (by linarith) hE hE0 (by positivity)
    have k2 : (C1 + C2) * D0 ≤ 12 / 10 ^ 6 * D0 := mul_le_mul_of_nonneg_right hC hD0
    linarith

end

/-- the hypotheses, and the result for one robot: IEEE arithmetic with correctly rounded functions and reading, and two links of the KUKA arm -/
example := C112_distances Shipped.ieee.1 Shipped.ieee.2 .kuka .kuka (jn := ["lbr_iiwa_joint_1"]) (ln := ["lbr_iiwa_link_7", "lbr_iiwa_link_2"])
  Shipped.kuka_joint (by simp) (by
    intro n hn
    rw [List.map_map]
    simp only [List.mem_cons, List.not_mem_nil, or_false] at hn
    rcases hn with rfl | rfl <;> decide +kernel)
  .planer Shipped.kukaQ.rows (fun q hq => by obtain rfl := List.mem_singleton.mp hq; rfl) Shipped.kukaQ_le

end Tinyfk
