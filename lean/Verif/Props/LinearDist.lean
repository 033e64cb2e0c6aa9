import Verif.Props.Linear
import Mathlib.Analysis.InnerProductSpace.Calculus

/-!
# Properties: how well the gradient of a squared distance predicts the effect of a finite change

C122.
-/

namespace Tinyfk

open Scalar Quaternion
open scoped InnerProductSpace

/-- a point that is linear up to the square of time has a velocity -/
theorem hasDerivAt_of_quadratic_quat {f : ℝ → ℍ[ℝ]} {l : ℍ[ℝ]} {C : ℝ} (h : ∀ t, ‖f t - f 0 - t • l‖ ≤ t ^ 2 * C) : HasDerivAt f l 0 := by
  rw [hasDerivAt_iff_isLittleO]
  have hO : (fun t => f t - f 0 - (t - 0) • l) =O[nhds 0] fun t : ℝ => t ^ 2 := by
    refine Asymptotics.IsBigO.of_bound C (Filter.Eventually.of_forall fun t => ?_)
    rw [Real.norm_eq_abs, abs_of_nonneg (sq_nonneg t), sub_zero]
    linarith [h t]
  refine hO.trans_isLittleO ?_
  simp only [sub_zero]
  exact Asymptotics.isLittleO_pow_id (by norm_num)

/-- moving the base without turning it moves all links alike -/
theorem WorldPose.carry {ls : List (RawLink ℝ)} {js : List (RawJoint ℝ)} {welds : Weld ℝ → Prop} {θ : String → ℝ} {b b' : Pose ℝ}
    (hb : b'.rotation = b.rotation) {n : String} {T : Pose ℝ} (h : WorldPose ls js welds θ b n T) :
    ∃ T', WorldPose ls js welds θ b' n T' ∧ T'.rotation = T.rotation ∧
      T'.position.quat - b'.position.quat = T.position.quat - b.position.quat := by
  induction h with
  | root h1 h2 => exact ⟨b', .root h1 h2, hb, by simp⟩
  | joint hj _ hE ih =>
    obtain ⟨B', hB, h1, h2⟩ := ih
    refine ⟨_, .joint hj hB hE, ?_, ?_⟩
    · simp only [Pose.transform]; rw [h1]
    · simp only [Pose.transform]; rw [h1, Vec3.quat_add, Vec3.quat_add, add_sub_assoc, h2, add_sub_assoc]
  | weld hw _ ih =>
    obtain ⟨B', hB, h1, h2⟩ := ih
    refine ⟨_, .weld hw hB, ?_, ?_⟩
    · simp only [Pose.transform]; rw [h1]
    · simp only [Pose.transform]; rw [h1, Vec3.quat_add, Vec3.quat_add, add_sub_assoc, h2, add_sub_assoc]

section
variable {ls : List (RawLink ℝ)} {js : List (RawJoint ℝ)} {m0 mc mk mk' : KinModel ℝ} {cs : List (Call ℝ)}
  {h : List (PyCall ℝ)} {s : PyModel ℝ} {ids : List Nat} {ps : List (Nat × Nat)}
  {bt : BaseType} {uc : Bool} {c0 : SizedCache (Pose ℝ)}

/-- **C122.** How well the gradient of `compute_inter_link_sqdists` predicts a squared distance when a configuration `w` is replaced
by any other configuration `w'` with the same base angles. The error is at most the square of what the two links can move relative to the
base (`M1 + M2`, the bounds of C110), plus twice the distance at `w` times the errors of the predictions of the two positions (C120).
No joint is listed twice. -/
theorem C122_sqdists (hr : PyReach ls js m0 h cs s) (hf : Shallow ls js m0 cs) (hu : UnitDesc js) {qs qs' : List (List ℝ)}
    (hc : c0.Fits s.robot.links.length) (ha : DistArgs m0 s qs ps ids bt) (ha' : DistArgs m0 s qs' ps ids bt)
    (huc : uc = false ∨ bt ≠ .fixed)
    (hne : (∃ r ∈ ls, r.inertial.isSome) ∨ weldsAfter (names0 m0) cs ≠ []) (hid : ids.Nodup) :
    ∃ V J s1 V' J' s2, pySqdists qs ps ids bt true uc (s.withCache c0) = .ok (V, J) s1 ∧
      pySqdists qs' ps ids bt true uc (s.withCache c0) = .ok (V', J') s2 ∧
      ∀ (k k' j l1 l2 : Nat) (w w' : Fin (ids.length + bt.dof) → ℝ) (n1 n2 : String) (θ θ' : String → ℝ),
        qs[k]? = some (List.ofFn w) → qs'[k']? = some (List.ofFn w') →
        (∀ c : Fin (ids.length + bt.dof), IsBaseAngleCol ids.length bt c → w' c = w c) →
        ps[j]? = some (l1, l2) → getLinkIds [n1] s.robot = .ok [l1] s.robot → getLinkIds [n2] s.robot = .ok [l2] s.robot →
        AnglesAfter m0 (cs ++ configCalls ids bt (List.ofFn w)) θ → AnglesAfter m0 (cs ++ configCalls ids bt (List.ofFn w')) θ' →
        ∃ τ1 σ1 L1 τ2 σ2 L2 M1 M2, PathChange ls js (AllWelds ls m0 cs) θ' θ n1 τ1 σ1 L1 ∧
          PathChange ls js (AllWelds ls m0 cs) θ' θ n2 τ2 σ2 L2 ∧
          MovesAtMost ls js (AllWelds ls m0 cs) θ θ' 0 0 n1 M1 ∧ MovesAtMost ls js (AllWelds ls m0 cs) θ θ' 0 0 n2 M2 ∧
          |V'.f (k' * ps.length + j) 0 -
              (V.f (k * ps.length + j) 0 + ∑ c : Fin (ids.length + bt.dof), J.f (k * ps.length + j) c * (w' c - w c))| ≤
            (M1 + M2) ^ 2 + 2 * √(V.f (k * ps.length + j) 0) * (τ1 ^ 2 / 2 * L1 + τ1 * σ1 + (τ2 ^ 2 / 2 * L2 + τ2 * σ2)) := by
  obtain ⟨V, J, s1, e, hvel⟩ := C108_sqdists_velocity (uc := uc) hr hf hu hc ha huc hne hid
  have hrun : ∀ qs' : List (List ℝ), DistArgs m0 s qs' ps ids bt → _ := fun qs' ha' => C07_sqdists (wj := true) hr hf hc ha' huc fun _ => hne
  obtain ⟨V', J', s2, e', _, _, hres'⟩ := hrun qs' ha'
  obtain ⟨Va, Ja, sa, ea, _, _, hres⟩ := hrun qs ha
  rw [e] at ea
  cases ea
  refine ⟨V, J, s1, V', J', s2, e, e', ?_⟩
  intro k k' j l1 l2 w w' n1 n2 θ θ' hk hk' hba hj hn1 hn2 hθ hθ'
  have hkl := (List.getElem?_eq_some_iff.mp hk).1
  have hjl := (List.getElem?_eq_some_iff.mp hj).1
  obtain ⟨T1, T2, u1, u2, hV⟩ := hres k j l1 l2 _ n1 n2 θ hk hj hn1 hn2 hθ
  obtain ⟨T1', T2', u1', u2', hV'⟩ := hres' k' j l1 l2 _ n1 n2 θ' hk' hj hn1 hn2 hθ'
  obtain ⟨d, hd⟩ := line_base (cs := cs) (ids := ids) hba Pose.identity
  have hbu := (hr.unitCalls.append (configCalls_unit ids bt (List.ofFn w))).base (b := Pose.identity) Rot.norm2_one
  set b := baseAfter Pose.identity (cs ++ configCalls ids bt (List.ofFn w)) with hbdef
  have hl0 : lineOf w w' 0 = w := by funext c; simp [lineOf]
  have hl1 : lineOf w w' 1 = w' := by funext c; simp [lineOf]
  -- each link on its own, seen from the base
  have key : ∀ {n : String} {T T' : Pose ℝ},
      (∀ U, WorldPose ls js (AllWelds ls m0 cs) θ b n U ↔ U = T) →
      (∀ U, WorldPose ls js (AllWelds ls m0 cs) θ' (baseAfter Pose.identity (cs ++ configCalls ids bt (List.ofFn w'))) n U ↔ U = T') →
      ∃ (F : ℝ → Pose ℝ) (τ σ L M : ℝ) (l : ℍ[ℝ]),
        (∀ t, WorldPose ls js (AllWelds ls m0 cs) (fun i => θ i + t * (θ' i - θ i)) b n (F t)) ∧
        PathChange ls js (AllWelds ls m0 cs) θ' θ n τ σ L ∧ MovesAtMost ls js (AllWelds ls m0 cs) θ θ' 0 0 n M ∧
        (∀ t, ‖(F t).position.quat - (F 0).position.quat - t • l‖ ≤ t ^ 2 * (τ ^ 2 / 2 * L + τ * σ)) ∧
        ‖(F 1).position.quat - (F 0).position.quat‖ ≤ M ∧ F 0 = T ∧
        (F 1).position.quat - b.position.quat = T'.position.quat -
          (baseAfter Pose.identity (cs ++ configCalls ids bt (List.ofFn w'))).position.quat := by
    intro n T T' hT hT'
    obtain ⟨F, τ, σ, L, w1, w2, w3, _, _⟩ := ((hT T).mpr rfl).linear hu (fun w hw => hr.unitCalls.allWelds hw) hbu
      (θ' := θ') (B := fun _ => b) (d := 0) (fun _ => rfl) (fun _ => by simp)
    obtain ⟨l, hl⟩ := w3.linear
    have hF0 : F 0 = T := by
      have := w1 0
      simp only [zero_mul, add_zero] at this
      exact (hT _).mp this
    have hw1 := w1 1
    simp only [one_mul, add_sub_cancel] at hw1
    obtain ⟨U, τ', σ', L', x1, x2, _, x4, _, _⟩ := ((hT T).mpr rfl).change hu (fun w hw => hr.unitCalls.allWelds hw) hbu hbu
      (β := 0) (ρ := 0) (by simp [Rot.dist]) (by simp [Vec3.dist]) (θ' := θ')
    have hrot : (baseAfter Pose.identity (cs ++ configCalls ids bt (List.ofFn w'))).rotation = b.rotation := by
      have := (hd 1).1
      rw [hl1] at this
      exact this
    obtain ⟨Y, y1, _, y3⟩ := hw1.carry hrot
    obtain ⟨Z, z1, _, z3⟩ := x1.carry hrot
    rw [(hT' _).mp y1] at y3
    rw [(hT' _).mp z1] at z3
    have hF1 : (F 1).position.quat = U.position.quat := sub_left_injective (y3.symm.trans z3)
    refine ⟨F, τ, σ, L, _, l, w1, w2, ⟨τ', σ', L', x2, rfl⟩, hl, ?_, hF0, y3.symm⟩
    rw [hF1, hF0, ← Vec3.dist_quat]
    exact x4
  obtain ⟨F, τ1, σ1, L1, M1, f, f1, f2, f3, f4, f5, f6, f7⟩ := key u1 u1'
  obtain ⟨G, τ2, σ2, L2, M2, g, g1, g2, g3, g4, g5, g6, g7⟩ := key u2 u2'
  refine ⟨τ1, σ1, L1, τ2, σ2, L2, M1, M2, f2, g2, f3, g3, ?_⟩
  have hsq : ∀ a b : Vec3 ℝ, sqDist a b = ‖a.quat - b.quat‖ ^ 2 := by
    intro a b
    rw [← Vec3.dist_quat, ← sqrt_sqDist, Real.sq_sqrt (sqDist_nonneg _ _)]
  -- the returned squared distance along the line
  have hshape : ∀ t, (List.ofFn (lineOf w w' t)).length = ids.length + bt.dof := fun t => by simp
  obtain ⟨D, hD1, hD2⟩ := hvel k j _ hk hjl
  have hline : ∀ t, D (lineOf w w' t) = ‖(F t).position.quat - (G t).position.quat‖ ^ 2 := by
    intro t
    obtain ⟨V1, J1, s1', e1, v1⟩ := hD1 (lineOf w w' t)
    have ha1 : DistArgs m0 s (qs.set k (List.ofFn (lineOf w w' t))) ps ids bt := by
      refine ⟨ha.nonempty, fun q hq => ?_, ha.joints, ha.links⟩
      rcases List.mem_or_eq_of_mem_set hq with h1 | h1
      · exact ha.shape q h1
      · rw [h1]; exact hshape t
    obtain ⟨V2, J2, s2', e2, _, _, hres2⟩ := hrun _ ha1
    rw [e1] at e2
    cases e2
    obtain ⟨X1, X2, p1, p2, hV2⟩ := hres2 k j l1 l2 _ n1 n2 _ (List.getElem?_set_self hkl) hj hn1 hn2 (line_angles hθ hθ' t)
    obtain ⟨Y1, y1, _, y3⟩ := (f1 t).carry (hd t).1
    obtain ⟨Y2, z1, _, z3⟩ := (g1 t).carry (hd t).1
    rw [(p1 _).mp y1] at y3
    rw [(p2 _).mp z1] at z3
    rw [← v1, hV2, hsq]
    congr 2
    have := congrArg₂ (· - ·) y3 z3
    simpa using this
  have hmot : Motion (List.ofFn w) (lineOf w w') (fun c => w' c - w c) 0 := by
    refine ⟨by rw [hl0], fun c => ?_⟩
    have := ((hasDerivAt_id (0 : ℝ)).mul_const (w' c - w c)).const_add (w c)
    simpa [lineOf] using this
  have hder := hD2 (lineOf w w') (fun c => w' c - w c) 0 hmot (fun c hc => by rw [hba c hc, sub_self])
  simp only [hline] at hder
  have hx := (hasDerivAt_of_quadratic_quat f4).sub (hasDerivAt_of_quadratic_quat g4)
  have hsum := hder.unique hx.norm_sq
  rw [hsum, hV', hV, sqrt_sqDist, hsq, hsq, Vec3.dist_quat]
  have hfin : T1'.position.quat - T2'.position.quat = (F 1).position.quat - (G 1).position.quat := by
    have := congrArg₂ (· - ·) f7 g7
    simpa using this.symm
  rw [hfin, ← f6, ← g6]
  have h1 := f4 1
  have h2 := g4 1
  rw [one_smul, one_pow, one_mul] at h1 h2
  simp only [Pi.sub_apply]
  generalize (F 0).position.quat = p0 at *
  generalize (F 1).position.quat = p1 at *
  generalize (G 0).position.quat = q0 at *
  generalize (G 1).position.quat = q1 at *
  have e1 : ‖p1 - q1‖ ^ 2 = ‖p0 - q0‖ ^ 2 + 2 * ⟪p0 - q0, (p1 - p0) - (q1 - q0)⟫_ℝ + ‖(p1 - p0) - (q1 - q0)‖ ^ 2 := by
    rw [← norm_add_sq_real]
    congr 2
    abel
  have e2 : ⟪p0 - q0, (p1 - p0) - (q1 - q0)⟫_ℝ = ⟪p0 - q0, f - g⟫_ℝ + ⟪p0 - q0, (p1 - p0 - f) - (q1 - q0 - g)⟫_ℝ := by
    rw [← inner_add_right]
    congr 1
    abel
  have e3 : ‖p1 - q1‖ ^ 2 - (‖p0 - q0‖ ^ 2 + 2 * ⟪p0 - q0, f - g⟫_ℝ) =
      ‖(p1 - p0) - (q1 - q0)‖ ^ 2 + 2 * ⟪p0 - q0, (p1 - p0 - f) - (q1 - q0 - g)⟫_ℝ := by rw [e1, e2]; ring
  rw [e3]
  have i1 : ‖(p1 - p0) - (q1 - q0)‖ ≤ M1 + M2 := (norm_sub_le _ _).trans (add_le_add f5 g5)
  have i2 := (norm_sub_le (p1 - p0 - f) (q1 - q0 - g)).trans (add_le_add h1 h2)
  have i3 := abs_real_inner_le_norm (p0 - q0) ((p1 - p0 - f) - (q1 - q0 - g))
  have i4 := mul_le_mul_of_nonneg_left i2 (norm_nonneg (p0 - q0))
  refine (abs_add_le _ _).trans (add_le_add ?_ ?_)
  · rw [abs_of_nonneg (by positivity)]
    exact pow_le_pow_left₀ (norm_nonneg _) i1 2
  · rw [abs_mul, abs_two]
    linarith

end

namespace Example

example := C122_sqdists (uc := true) s1_reach s1_shallow unitDesc bad_fits (distArgs s1_links) (distArgs s1_links) (.inr (by decide)) (.inl inertial)
  (by decide)

end Example

end Tinyfk
