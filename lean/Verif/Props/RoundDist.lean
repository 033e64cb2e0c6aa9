import Verif.Proofs.RoundDist
import Verif.Spec.RoundSums
import Verif.Props.Rounding
import Verif.Props.Dist

/-!
# Properties: rounding errors of squared distances

C104.
-/

set_option linter.unusedSectionVars false

namespace Tinyfk

section
variable {F : Rounding} {ls' : List (RawLink (Fl F))} {js' : List (RawJoint (Fl F))} {ls : List (RawLink ℝ)} {js : List (RawJoint ℝ)}
  {welds : Weld ℝ → Prop} {ε μ A R : ℝ} {D : Nat}

/-- `C94_world`, with the length of the path as bound of the position -/
theorem world_pos {welds' : Weld (Fl F) → Prop} {θ : String → ℝ} {base' : Pose (Fl F)} {base : Pose ℝ}
    (hR : RobotNear ε μ ls' js' welds' ls js welds) (hP : Proper js welds) (hue : F.u ≤ ε) (hA : 1 ≤ A) (hsm : Small F ε μ A D R)
    (hθ : ∀ j ∈ js, |θ j.name| ≤ A) (hb : PoseNear ε (ε * (base.position.len + μ)) base' base)
    (hb1 : 1 / 2 ≤ base.rotation.len) (hb2 : base.rotation.len ≤ 2) {n : String}
    (hD : ∀ d L, PathLength ls js welds θ base n d L → d ≤ D ∧ L ≤ R)
    {T' : Pose (Fl F)} (h : WorldPose (K := Fl F) ls' js' welds' θ base' n T') :
    ∃ d L T, WorldPose ls js welds θ base n T ∧ PathLength ls js welds θ base n d L ∧ T.position.len ≤ L ∧ d ≤ D ∧ L ≤ R ∧
      Vec3.dist T'.real.position T.position ≤ posBound ε μ A d L := by
  obtain ⟨d, L, T, hT, hL, hTL, _, _, hn⟩ := world_near hR hP hue hA hθ hb hb1 hb2 hsm h hD
  obtain ⟨hdD, hLR⟩ := hD d L hL
  refine ⟨d, L, T, hT, hL, hTL, hdD, hLR, ?_⟩
  have he : 0 ≤ ε := F.u_nonneg.trans hue
  have hκ : 0 ≤ 100 * ε * A := by positivity
  have hacc := hsm.acc
  have hdR : (d : ℝ) ≤ D := by exact_mod_cast hdD
  have e0 : 0 ≤ ε * A := by positivity
  have g := pow_growth hκ (d + 1) (by
    push_cast
    have : ((d : ℝ) + 1) * (ε * A) ≤ (D + 1) * (ε * A) := mul_le_mul_of_nonneg_right (by linarith) e0
    linarith)
  push_cast at g
  have hL0 : 0 ≤ L := (Real.sqrt_nonneg _).trans hTL
  have hμ0 : 0 ≤ μ := le_trans (mul_nonneg F.tiny_nonneg (by positivity)) hsm.tiny
  exact hn.pos.trans (mul_le_mul_of_nonneg_right (by linarith) (by positivity))

theorem Small.tiny_le (h : Small F ε μ A D R) : F.tiny ≤ μ := by
  have := h.tiny
  have h1 : (1 : ℝ) ≤ 64 ^ (D + 2) := one_le_pow₀ (by norm_num)
  nlinarith [F.tiny_nonneg]

theorem posBound_nonneg {d : Nat} {L : ℝ} (hε : 0 ≤ ε) (hμ : 0 ≤ μ) (hA : 0 ≤ A) (hL : 0 ≤ L) : 0 ≤ posBound ε μ A d L := by
  unfold posBound
  positivity

/-- the bound is a small part of the length -/
theorem posBound_le (hsm : Small F ε μ A D R) (hue : F.u ≤ ε) (hA : 1 ≤ A) {d : Nat} {L : ℝ} (hd : d ≤ D) (hL : L ≤ R) (hL0 : 0 ≤ L) :
    posBound ε μ A d L ≤ R + D + 1 ∧ 500 * ε * (L + μ) ≤ posBound ε μ A d L := by
  have he : 0 ≤ ε := F.u_nonneg.trans hue
  have hμ0 : 0 ≤ μ := F.tiny_nonneg.trans hsm.tiny_le
  have hdR : (d : ℝ) ≤ D := by exact_mod_cast hd
  have hd0 : (0 : ℝ) ≤ d := by positivity
  have e0 : 0 ≤ ε * A := by positivity
  have k1 : 500 * ((d : ℝ) + 1) * ε * A ≤ 1 := by
    have : ((d : ℝ) + 1) * (ε * A) ≤ (D + 1) * (ε * A) := mul_le_mul_of_nonneg_right (by linarith) e0
    linarith [hsm.acc]
  have k2 : ((d : ℝ) + 1) * μ ≤ (D + 1) * 1 := mul_le_mul (by linarith) hsm.unit hμ0 (by positivity)
  refine ⟨?_, ?_⟩
  · have := mul_le_mul_of_nonneg_right k1 (show 0 ≤ L + (d + 1) * μ by positivity)
    unfold posBound
    linarith
  · have k3 : ε ≤ ε * A := le_mul_of_one_le_right he hA
    have k4 : ε * A ≤ (d + 1) * (ε * A) := le_mul_of_one_le_left e0 (by linarith)
    have k5 : μ ≤ (d + 1) * μ := le_mul_of_one_le_left hμ0 (by linarith)
    have := mul_le_mul (show 500 * ε ≤ 500 * (d + 1) * ε * A by linarith) (show L + μ ≤ L + (d + 1) * μ by linarith) (by positivity) (by positivity)
    unfold posBound
    linarith

variable {m0 : KinModel (Fl F)} {cs : List (Call (Fl F))} {h : List (PyCall (Fl F))} {s : PyModel (Fl F)} {qs : List (List (Fl F))}
  {ps : List (Nat × Nat)} {ids : List Nat} {bt : BaseType} {wj uc : Bool} {c : SizedCache (Pose (Fl F))}

/-- **C104.** `compute_inter_link_sqdists` with `use_cache=False`, or with a base, in rounded arithmetic, on a robot with any past: if the
computed positions of the two links of a pair may be off by `E` together, and the links of the exact robot are `r` apart, then the
returned value is within `4 * E * (r + E + μ) + 8 * ε * tiny` of `r ^ 2`. -/
theorem C104_sqdists (hr : PyReach ls' js' m0 h cs s) (hf : Shallow ls' js' m0 cs)
    (hc : c.Fits s.robot.links.length) (ha : DistArgs m0 s qs ps ids bt) (huc : uc = false ∨ bt ≠ .fixed)
    (hne : wj = true → (∃ r ∈ ls', r.inertial.isSome) ∨ weldsAfter (names0 m0) cs ≠ [])
    (hR : RobotNear ε μ ls' js' (AllWelds ls' m0 cs) ls js welds) (hP : Proper js welds) (hue : F.u ≤ ε) (hA : 1 ≤ A)
    (hsm : Small F ε μ A D R) (hB : 64 * (1 + R + D) ^ 2 ≤ F.big) :
    ∃ V J s', pySqdists qs ps ids bt wj uc (s.withCache c) = .ok (V, J) s' ∧
      ∀ (k j l1 l2 : Nat) (q : List (Fl F)) (n1 n2 : String) (θ : String → ℝ) (base : Pose ℝ),
        qs[k]? = some q → ps[j]? = some (l1, l2) → getLinkIds [n1] s.robot = .ok [l1] s.robot →
        getLinkIds [n2] s.robot = .ok [l2] s.robot →
        AnglesAfter (K := Fl F) m0 (cs ++ configCalls ids bt q) θ →
        PoseNear ε (ε * (base.position.len + μ)) (baseAfter Pose.identity (cs ++ configCalls ids bt q)) base →
        1 / 2 ≤ base.rotation.len → base.rotation.len ≤ 2 →
        (∀ j ∈ js, |θ j.name| ≤ A) →
        (∀ n d L, n = n1 ∨ n = n2 → PathLength ls js welds θ base n d L → d ≤ D ∧ L ≤ R) →
        ∃ d1 L1 T1 d2 L2 T2 E, WorldPose ls js welds θ base n1 T1 ∧ PathLength ls js welds θ base n1 d1 L1 ∧
          WorldPose ls js welds θ base n2 T2 ∧ PathLength ls js welds θ base n2 d2 L2 ∧
          E = posBound ε μ A d1 L1 + posBound ε μ A d2 L2 ∧
          |(V.f (k * ps.length + j) 0).real - Vec3.dist T1.position T2.position ^ 2| ≤
            4 * E * (Vec3.dist T1.position T2.position + E + μ) + 8 * ε * F.tiny := by
  obtain ⟨V, J, s', e, _, _, hrow⟩ := C07_sqdists (wj := wj) hr hf hc ha huc hne
  refine ⟨V, J, s', e, fun k j l1 l2 q n1 n2 θ base h1 h2 h3 h4 h5 hb hb1 hb2 hθ hD => ?_⟩
  obtain ⟨T1', T2', hT1', hT2', hV⟩ := hrow k j l1 l2 q n1 n2 θ h1 h2 h3 h4 h5
  obtain ⟨d1, L1, T1, hT1, hp1, hl1, hd1, hL1, hn1⟩ := world_pos hR hP hue hA hsm hθ hb hb1 hb2 (fun d L => hD n1 d L (.inl rfl))
    ((hT1' T1').mpr rfl)
  obtain ⟨d2, L2, T2, hT2, hp2, hl2, hd2, hL2, hn2⟩ := world_pos hR hP hue hA hsm hθ hb hb1 hb2 (fun d L => hD n2 d L (.inr rfl))
    ((hT2' T2').mpr rfl)
  refine ⟨d1, L1, T1, d2, L2, T2, _, hT1, hp1, hT2, hp2, rfl, ?_⟩
  have hu := F.u_nonneg
  have he : 0 ≤ ε := hu.trans hue
  have ht := F.tiny_nonneg
  have htμ := hsm.tiny_le
  have hμ0 : 0 ≤ μ := ht.trans htμ
  have hL10 : 0 ≤ L1 := (Real.sqrt_nonneg _).trans hl1
  have hL20 : 0 ≤ L2 := (Real.sqrt_nonneg _).trans hl2
  obtain ⟨a1, a2⟩ := posBound_le hsm hue hA hd1 hL1 hL10
  obtain ⟨b1, b2⟩ := posBound_le hsm hue hA hd2 hL2 hL20
  have hr : Vec3.dist T1.position T2.position ≤ L1 + L2 := by
    rw [Vec3.dist_quat]
    rw [Vec3.len_quat] at hl1 hl2
    exact (norm_sub_le _ _).trans (add_le_add hl1 hl2)
  have hr0 : 0 ≤ Vec3.dist T1.position T2.position := Real.sqrt_nonneg _
  set r := Vec3.dist T1.position T2.position with hrdef
  set E := posBound ε μ A d1 L1 + posBound ε μ A d2 L2 with hE
  have hE0 : 0 ≤ E := by
    have c1 : 0 ≤ 500 * ε * (L1 + μ) := by positivity
    have c2 : 0 ≤ 500 * ε * (L2 + μ) := by positivity
    linarith
  have key := sqDist_near (F := F) T1'.real.position T2'.real.position (a := T1.position) (b := T2.position) (e := E)
    (v := (V.f (k * ps.length + j) 0).real) (add_le_add hn1 hn2) (by
      rw [← hrdef]
      refine le_trans ?_ hB
      have g1 : r + E + F.tiny + 1 ≤ 4 * (1 + R + D) := by
        have := hsm.unit
        have : (0 : ℝ) ≤ D := by positivity
        linarith
      have g2 : (r + E + F.tiny + 1) ^ 2 ≤ (4 * (1 + R + D)) ^ 2 := pow_le_pow_left₀ (by positivity) g1 2
      linarith) hV
  rw [← hrdef] at key
  refine key.trans ?_
  have f1 : F.u * (r + F.tiny) ≤ ε * (L1 + L2 + μ) := mul_le_mul hue (by linarith) (by positivity) he
  have f2 : 4 * F.u * (r + F.tiny) ≤ 1 / 100 * E := by
    have c1 : 0 ≤ ε * (L1 + μ) := by positivity
    have c2 : 0 ≤ ε * (L2 + μ) := by positivity
    have c3 : 0 ≤ ε * μ := by positivity
    linarith
  have f3 : 3 * (E + 4 * F.u * (r + F.tiny)) * (r + E + F.tiny) ≤ 4 * E * (r + E + μ) :=
    mul_le_mul (by linarith) (by linarith) (by positivity) (by positivity)
  have f4 : F.u * F.tiny ≤ ε * F.tiny := mul_le_mul_of_nonneg_right hue ht
  linarith

end

theorem path_nonneg {ls : List (RawLink ℝ)} {js : List (RawJoint ℝ)} {welds : Weld ℝ → Prop} {θ : String → ℝ} {base : Pose ℝ}
    {n : String} {d : Nat} {L : ℝ} (h : PathLength ls js welds θ base n d L) : 0 ≤ L := by
  induction h with
  | root => exact Real.sqrt_nonneg _
  | joint _ _ ih => exact add_nonneg ih (RawJoint.reach_nonneg _ _)
  | weld _ _ ih => exact add_nonneg ih (Real.sqrt_nonneg _)

/-! ### The hypotheses are met -/

namespace RoundExample

theorem base_id : getLinkIds ["base"] m0 = .ok [1] m0 := by
  rw [getLinkIds_one, constructed.inv.graph.linkNames]
  have := congrArg (fun l => l[1]?) linkNames
  simpa [List.getElem?_map] using this

theorem distArgs : DistArgs m0 s0 [q] [(2, 1)] [0, 1] .planer := by
  refine ⟨by simp, by intro r hr; simp only [List.mem_singleton] at hr; subst hr; rfl, ?_, ?_⟩
  · rw [joints_length]; simp
  · show ∀ p ∈ [(2, 1)], p.1 < m0.links.length ∧ p.2 < m0.links.length
    rw [links_length]; simp

/-- In IEEE arithmetic the squared distance of the hand from the base is right to seven digits. -/
theorem hand_dist : ∃ V J s', pySqdists [q] [(2, 1)] [0, 1] .planer false true (s0.withCache stale) = .ok (V, J) s' ∧
    ∃ T1 T2, WorldPose ls js (fun w => w = com) θ base "hand" T1 ∧ WorldPose ls js (fun w => w = com) θ base "base" T2 ∧
      |(V.f 0 0).real - Vec3.dist T1.position T2.position ^ 2| ≤ 1 / 10 ^ 8 * (Vec3.dist T1.position T2.position + 2) := by
  obtain ⟨V, J, s', e, h⟩ := C104_sqdists (c := stale) (wj := false) (uc := true) (A := 2) s0_reach shallow stale_fits distArgs (.inr nofun) nofun
    robot_near proper (by have := dbl.u_nonneg; linarith) (by norm_num) small (by rw [big_eq]; norm_num)
  obtain ⟨d1, L1, T1, d2, L2, T2, E, hT1, hp1, hT2, hp2, rfl, hd⟩ := h 0 0 2 1 q "hand" "base" θ base rfl rfl hand_id base_id angles base_near.1
    (by rw [base_near.2]; norm_num) (by rw [base_near.2]; norm_num) (by
      intro j hj
      simp only [js, List.mem_cons, List.not_mem_nil, or_false] at hj
      rcases hj with rfl | rfl <;> simp [turn, slide, θ]; norm_num)
    (fun n d L hn h => by
      have := path h
      rcases hn with rfl | rfl
      · simp at this; exact ⟨by omega, this.2⟩
      · simp at this; exact ⟨by omega, by linarith⟩)
  obtain ⟨k1, k2⟩ := path hp1
  obtain ⟨k3, k4⟩ := path hp2
  simp at k1 k2 k3 k4
  subst k1 k3
  refine ⟨V, J, s', e, T1, T2, hT1, hT2, hd.trans ?_⟩
  have hμ : 0 ≤ μ := by unfold μ; positivity
  have hμ1 := μ_le
  have ht := tiny_le
  have ht0 := dbl.tiny_nonneg
  have hr0 : 0 ≤ Vec3.dist T1.position T2.position := Real.sqrt_nonneg _
  have b1 : posBound (200 * dbl.u * 2) μ 2 2 L1 + posBound (200 * dbl.u * 2) μ 2 0 L2 ≤ 11 / 10 ^ 10 := by
    unfold posBound
    rw [u_eq]
    norm_num
    linarith
  set E := posBound (200 * dbl.u * 2) μ 2 2 L1 + posBound (200 * dbl.u * 2) μ 2 0 L2 with hE
  have hE0 : 0 ≤ E := by
    have n1 : 0 ≤ L1 := path_nonneg hp1
    have n2 : 0 ≤ L2 := path_nonneg hp2
    have := dbl.u_nonneg
    exact add_nonneg (posBound_nonneg (by linarith) hμ (by norm_num) n1) (posBound_nonneg (by linarith) hμ (by norm_num) n2)
  set r := Vec3.dist T1.position T2.position
  have f1 : 4 * E * (r + E + μ) ≤ 4 * (11 / 10 ^ 10) * (r + 3 / 2) :=
    mul_le_mul (by linarith) (by linarith) (by linarith) (by norm_num)
  have f2 : 8 * (200 * dbl.u * 2) * dbl.tiny ≤ 1 / 10 ^ 10 := by
    rw [u_eq]
    norm_num
    linarith
  linarith

end RoundExample
end Tinyfk
