import Verif.Props.BaseAngles

/-!
# C82: squared distances do not depend on the base
-/

namespace Tinyfk

open Scalar

section
variable {ls : List (RawLink ℝ)} {js : List (RawJoint ℝ)} {m0 mc mk : KinModel ℝ} {cs : List (Call ℝ)}
  {h : List (PyCall ℝ)} {s : PyModel ℝ} {ps : List (Nat × Nat)} {ids : List Nat}
  {bt : BaseType} {uc : Bool} {c0 : SizedCache (Pose ℝ)}

section

theorem Rot.rotate_sub (q : Rot ℝ) (a b : Vec3 ℝ) : q.rotate (Vec3.sub a b) = Vec3.sub (q.rotate a) (q.rotate b) := by
  simp only [Rot.rotate, Rot.mul, Vec3.sub]
  refine Vec3.ext ?_ ?_ ?_ <;> simp only <;> ring

theorem sqDist_len2 (a b : Vec3 ℝ) : sqDist a b = (Vec3.sub a b).len2 := by
  simp only [sqDist, Vec3.len2, Vec3.sub]; ring

theorem sqDist_transform {p : Pose ℝ} (hp : p.rotation.norm2 = 1) (A B : Pose ℝ) :
    sqDist (Pose.transform p A).position (Pose.transform p B).position = sqDist A.position B.position := by
  rw [sqDist_len2, sqDist_len2, ← len2_rotate hp (Vec3.sub A.position B.position), Rot.rotate_sub]
  simp only [Pose.transform, Vec3.sub, Vec3.add, Vec3.len2]
  ring

theorem basePart_some {q : List ℝ} {n : Nat} (hq : q.length = n + bt.dof) (hb : bt ≠ .fixed) : ∃ p, basePart n bt q = some p := by
  obtain ⟨x, y, z, a, b, w, e, _⟩ := basePart_coords n hq hb
  exact ⟨_, e⟩

/-- a small turn moves a vector by at most the angle times its length -/
theorem turn_small (u v : Vec3 ℝ) {k : Nat} (hk : k < 3) (t : ℝ) :
    (Vec3.sub ((rpyV (setAng k (u.cmp k + t) u)).rotate v) ((rpyV u).rotate v)).len2 ≤ t ^ 2 * v.len2 := by
  have hc := cos_ge_sq t
  have key : ∀ X : ℝ, 0 ≤ X → X ≤ v.len2 → (2 - 2 * Real.cos t) * X ≤ t ^ 2 * v.len2 := by
    intro X h0 h1
    have h2 : (2 - 2 * Real.cos t) * X ≤ t ^ 2 * X := mul_le_mul_of_nonneg_right (by linarith) h0
    exact h2.trans (mul_le_mul_of_nonneg_left h1 (sq_nonneg t))
  -- a turn in a plane
  have plane : ∀ a x y : ℝ, (Real.cos (a + t) * x - Real.sin (a + t) * y - (Real.cos a * x - Real.sin a * y)) ^ 2 +
      (Real.sin (a + t) * x + Real.cos (a + t) * y - (Real.sin a * x + Real.cos a * y)) ^ 2 =
      (2 - 2 * Real.cos t) * (x ^ 2 + y ^ 2) := by
    intro a x y
    have h1 := Real.sin_sq_add_cos_sq a
    have h2 := Real.sin_sq_add_cos_sq (a + t)
    have h3 : Real.cos t = Real.cos (a + t) * Real.cos a + Real.sin (a + t) * Real.sin a := by
      rw [← Real.cos_sub]; congr 1; ring
    rw [h3]
    linear_combination (x ^ 2 + y ^ 2) * h1 + (x ^ 2 + y ^ 2) * h2
  have ty := turn_sq u.x v.y v.z
  match k, hk with
  | 0, _ =>
    refine le_trans (le_of_eq ?_) (key (v.y ^ 2 + v.z ^ 2) (by positivity) (by unfold Vec3.len2; nlinarith [sq_nonneg v.x]))
    rw [← plane u.x v.y v.z]
    simp only [rpyV, setAng, rotate_fromRPY, Vec3.cmp, Vec3.sub, Vec3.len2]
    generalize Real.cos (u.x + t) = c1; generalize Real.sin (u.x + t) = s1
    have hp := Real.sin_sq_add_cos_sq u.y
    have hw := Real.sin_sq_add_cos_sq u.z
    linear_combination ((c1 * v.y - s1 * v.z - (Real.cos u.x * v.y - Real.sin u.x * v.z)) ^ 2 +
      Real.sin u.y ^ 2 * (s1 * v.y + c1 * v.z - (Real.sin u.x * v.y + Real.cos u.x * v.z)) ^ 2) * hw +
      (s1 * v.y + c1 * v.z - (Real.sin u.x * v.y + Real.cos u.x * v.z)) ^ 2 * hp
  | 1, _ =>
    simp only [rpyV, setAng, rotate_fromRPY, Vec3.cmp, Vec3.sub, Vec3.len2]
    generalize Real.cos u.x * v.y - Real.sin u.x * v.z = y1 at ty ⊢
    generalize Real.sin u.x * v.y + Real.cos u.x * v.z = z1 at ty ⊢
    refine le_trans (le_of_eq ?_) (key (z1 ^ 2 + v.x ^ 2) (by positivity) (by unfold Vec3.len2; nlinarith [sq_nonneg y1]))
    rw [← plane u.y z1 v.x]
    generalize Real.cos (u.y + t) = c1; generalize Real.sin (u.y + t) = s1
    have hw := Real.sin_sq_add_cos_sq u.z
    linear_combination (c1 * v.x + s1 * z1 - (Real.cos u.y * v.x + Real.sin u.y * z1)) ^ 2 * hw
  | 2, _ =>
    simp only [rpyV, setAng, rotate_fromRPY, Vec3.cmp, Vec3.sub, Vec3.len2]
    generalize Real.cos u.x * v.y - Real.sin u.x * v.z = y1 at ty ⊢
    generalize Real.sin u.x * v.y + Real.cos u.x * v.z = z1 at ty ⊢
    have tx := turn_sq u.y z1 v.x
    generalize hx2 : Real.cos u.y * v.x + Real.sin u.y * z1 = x2
    have tx' : x2 ^ 2 ≤ z1 ^ 2 + v.x ^ 2 := by
      rw [← hx2]; nlinarith [sq_nonneg (Real.cos u.y * z1 - Real.sin u.y * v.x)]
    refine le_trans (le_of_eq ?_) (key (x2 ^ 2 + y1 ^ 2) (by positivity) (by unfold Vec3.len2; nlinarith))
    rw [← plane u.z x2 y1]
    ring

/-- the scalar product of a step along a sphere with the starting point -/
theorem step_dot (a b : Vec3 ℝ) (h : a.len2 = b.len2) :
    2 * (a.x - b.x) * b.x + 2 * (a.y - b.y) * b.y + 2 * (a.z - b.z) * b.z = -(Vec3.sub a b).len2 := by
  simp only [Vec3.len2, Vec3.sub] at h ⊢
  linear_combination h

end

/-- **C82.** `compute_inter_link_sqdists` with a planar or floating base, on a robot with any past and any
contents of the cache: the squared distances do not depend on the base entries of the configuration. The
entries of the gradient for the position of the base are 0. The entries for its angles are between `-1e-7` times
the squared distance and 0, if the base is away from the singularity (always, for a planar base). -/
theorem C82_base_invariance (hr : PyReach ls js m0 h cs s) (hf : Shallow ls js m0 cs) (hu : UnitDesc js) {qs : List (List ℝ)}
    (hc : c0.Fits s.robot.links.length) (ha : DistArgs m0 s qs ps ids bt) (hb : bt ≠ .fixed)
    (hne : (∃ r ∈ ls, r.inertial.isSome) ∨ weldsAfter (names0 m0) cs ≠ []) :
    ∃ V J s', pySqdists qs ps ids bt true uc (s.withCache c0) = .ok (V, J) s' ∧
      (∀ (k j : Nat) (q q' : List ℝ), qs[k]? = some q → j < ps.length → q'.length = q.length →
        q'.take ids.length = q.take ids.length →
        ∃ V' J' s'', pySqdists (qs.set k q') ps ids bt true uc (s.withCache c0) = .ok (V', J') s'' ∧
          V'.f (k * ps.length + j) 0 = V.f (k * ps.length + j) 0) ∧
      ∀ (k j c : Nat) (q : List ℝ), qs[k]? = some q → j < ps.length → c < bt.dof →
        (¬ IsBaseAngle bt c → J.f (k * ps.length + j) (ids.length + c) = 0) ∧
        (IsBaseAngle bt c →
          (bt = .floating → ∀ p, q[ids.length + 4]? = some p → |Real.sin p| < 99999 / 100000) →
          -(1 / 10 ^ 7 * V.f (k * ps.length + j) 0) ≤ J.f (k * ps.length + j) (ids.length + c) ∧
            J.f (k * ps.length + j) (ids.length + c) ≤ 0) := by
  obtain ⟨mc, hat⟩ := hr.at
  obtain ⟨V, J, s', e, hres⟩ := hr.sqdists (wj := true) (uc := uc) hf hc ha (.inr hb) (fun _ => hne)
  refine ⟨V, J, s', e, ?_, ?_⟩
  · intro k j q q' hk hj hlen htk
    have hql := ha.shape q (List.mem_of_getElem? hk)
    have hql' := hlen.trans hql
    obtain ⟨mk, hmk⟩ := hat.reach.config ha.joints hql
    obtain ⟨mkv, hmkv⟩ := hat.reach.config ha.joints hql'
    obtain ⟨p, hp⟩ : ∃ p, ps[j]? = some p := ⟨ps[j], by simp [hj]⟩
    obtain ⟨l1, l2⟩ := p
    obtain ⟨V', J', s'', e', hres'⟩ := hr.sqdists (wj := true) (uc := uc) (qs := qs.set k q') (ps := ps) hf hc
      ⟨ha.nonempty, by
        intro q1 hq1
        rcases List.mem_or_eq_of_mem_set hq1 with h1 | h1
        · exact ha.shape q1 h1
        · rw [h1]; exact hql', ha.joints, ha.links⟩ (.inr hb) (fun _ => hne)
    refine ⟨V', J', s'', e', ?_⟩
    obtain ⟨T1, _, T2, _, f1, f2, f3⟩ := hres.dist k j l1 l2 q mk hk hp hmk
    obtain ⟨F1, _, F2, _, g1, g2, g3⟩ := hres'.dist k j l1 l2 q' mkv (by
      rw [List.getElem?_set_self (List.getElem?_eq_some_iff.mp hk).1]) hp hmkv
    have hset := configCalls_isSet ids bt q
    have hready := hmk.ready (hf.sets hset)
    obtain ⟨p', hp'⟩ := basePart_some hql' hb
    have hlinks : mk.links = s.robot.links := by
      obtain ⟨θ, p, c1, e1⟩ := hmk.sets_eq hat.reach hset
      rw [e1]
      exact hat.links.symm
    obtain ⟨hl1, hl2⟩ := ha.links (l1, l2) (List.mem_of_getElem? hp)
    have hpose : ∀ l < s.robot.links.length, ∃ E, IsPose mk l E := by
      intro l hl
      obtain ⟨E, _, hE, _⟩ := hmk.jacobian (hf.sets hset) (by rw [welds_sets _ hset]; exact hne) (l := l)
        (by rw [hlinks]; exact hl) (ids := ids) (by rw [hmk.abs.joints]; exact ha.joints) .ignore true
      exact ⟨E, hE⟩
    obtain ⟨E1, hE1⟩ := hpose l1 hl1
    obtain ⟨E2, hE2⟩ := hpose l2 hl2
    obtain ⟨_, k1, _⟩ := getLinkPose_spec hready hE1
    obtain ⟨_, k2, _⟩ := getLinkPose_spec hready hE2
    rw [f1] at k1; cases k1
    rw [f2] at k2; cases k2
    have hbu : mk.base.rotation.norm2 = 1 := (hmk.unitModel hu (hr.unitCalls.append (configCalls_unit ids bt q))).base
    rw [g3, f3, hat.reach.varyBase hf hu hr.unitCalls htk hp' hmk hmkv hE1 g1,
      hat.reach.varyBase hf hu hr.unitCalls htk hp' hmk hmkv hE2 g2, sqDist_transform (basePart_unit hp'),
      sqDist_transform (p := mk.base.inverse) (Rot.norm2_inverse hbu)]
  · intro k j c q hk hj hcd
    have hql := ha.shape q (List.mem_of_getElem? hk)
    obtain ⟨mk, hmk⟩ := hat.reach.config ha.joints hql
    have hset := configCalls_isSet ids bt q
    have hready := hmk.ready (hf.sets hset)
    obtain ⟨p, hp⟩ : ∃ p, ps[j]? = some p := ⟨ps[j], by simp [hj]⟩
    obtain ⟨l1, l2⟩ := p
    obtain ⟨hl1, hl2⟩ := ha.links (l1, l2) (List.mem_of_getElem? hp)
    have hlinks : mk.links = s.robot.links := by
      obtain ⟨θ, p, c1, e1⟩ := hmk.sets_eq hat.reach hset
      rw [e1]
      exact hat.links.symm
    have hjac : ∀ l < s.robot.links.length, ∃ E B mk2, IsPose mk l E ∧ getJacobian l ids .ignore (bt != .fixed) mk = .ok B mk2 ∧
        ∀ r < 3, ∀ b < 6, B.f r (ids.length + b) = baseCol .ignore E mk.base b r := by
      intro l hl
      obtain ⟨E, cols, hE, hcols, mk2, eJ, _⟩ := hmk.jacobian (hf.sets hset) (by rw [welds_sets _ hset]; exact hne) (l := l)
        (by rw [hlinks]; exact hl) (ids := ids) (by rw [hmk.abs.joints]; exact ha.joints) .ignore true
      have hwb : (bt != .fixed) = true := by simpa using hb
      rw [hwb]
      refine ⟨E, _, mk2, hE, eJ, ?_⟩
      intro r hr3 b hb6
      rw [hcols.length_eq, if_pos rfl, jacMat_base (by exact hr3) hb6]
    obtain ⟨E1, B1, _, hE1, eJ1, hJ1⟩ := hjac l1 hl1
    obtain ⟨E2, B2, _, hE2, eJ2, hJ2⟩ := hjac l2 hl2
    obtain ⟨F1, _, F2, _, C1, _, C2, _, f1, f2, f3, f4, f5⟩ := hres.grad rfl k j l1 l2 q mk hk hp hmk
    rw [eJ1] at f3; cases f3
    rw [eJ2] at f4; cases f4
    obtain ⟨_, g1, _⟩ := getLinkPose_spec hready hE1
    obtain ⟨_, g2, _⟩ := getLinkPose_spec hready hE2
    obtain ⟨T1, _, T2, _, d1, d2, d3⟩ := hres.dist k j l1 l2 q mk hk hp hmk
    rw [f1] at g1; cases g1
    rw [f2] at g2; cases g2
    rw [f1] at d1; cases d1
    rw [f2] at d2; cases d2
    rw [f5 _ (by omega), d3]
    constructor
    · intro hna
      have hc3 : c < 3 ∧ fullCol ids.length bt (ids.length + c) = ids.length + c := by
        cases bt with
        | fixed => exact absurd rfl hb
        | planer =>
          simp only [BaseType.dof] at hcd
          have : c ≠ 2 := fun h2 => hna (.inl ⟨rfl, h2⟩)
          exact ⟨hcd, by unfold fullCol; simp [this]⟩
        | floating =>
          simp only [BaseType.dof] at hcd
          have : c ≠ 3 ∧ c ≠ 4 ∧ c ≠ 5 := ⟨fun h2 => hna (.inr ⟨rfl, .inl h2⟩), fun h2 => hna (.inr ⟨rfl, .inr (.inl h2)⟩),
            fun h2 => hna (.inr ⟨rfl, .inr (.inr h2)⟩)⟩
          exact ⟨by omega, rfl⟩
      obtain ⟨hc3, hfc⟩ := hc3
      rw [hfc, sqDistGrad, hJ1 0 (by omega) c (by omega), hJ1 1 (by omega) c (by omega), hJ1 2 (by omega) c (by omega),
        hJ2 0 (by omega) c (by omega), hJ2 1 (by omega) c (by omega), hJ2 2 (by omega) c (by omega)]
      simp [baseCol, hc3]
    · intro hca hpitch
      obtain ⟨bx, bY, bz, u, e0, hpl, hfl, ex, hsx⟩ := basePart_angles ids.length hql hca
      have hang : angIdx bt c < 3 := by
        rcases hca with ⟨rfl, rfl⟩ | ⟨rfl, rfl | rfl | rfl⟩ <;> simp [angIdx]
      have hbase : mk.base = ⟨⟨bx, bY, bz⟩, rpyV u⟩ := by
        rw [hmk.abs.base, baseAfter_append, baseAfter_config, e0]; rfl
      have hsin : |Real.sin u.y| < 99999 / 100000 := by
        rcases hca with ⟨h1, _⟩ | ⟨h1, _⟩
        · rw [hpl h1]; simp
        · exact hpitch h1 _ (hfl h1)
      have hbu : mk.base.rotation.norm2 = 1 := by rw [hbase]; exact Rot.norm2_fromRPY _ _ _
      have hfc : fullCol ids.length bt (ids.length + c) = ids.length + (3 + angIdx bt c) := by
        rcases hca with ⟨rfl, rfl⟩ | ⟨rfl, rfl | rfl | rfl⟩ <;> simp [angIdx, fullCol]
      -- the links in the base frame
      generalize hL1 : Pose.transform mk.base.inverse E1 = L1
      generalize hL2 : Pose.transform mk.base.inverse E2 = L2
      have back : ∀ E L : Pose ℝ, Pose.transform mk.base.inverse E = L → E = Pose.transform mk.base L := by
        intro E L hL
        rw [← hL, ← Pose.transform_assoc, Pose.transform_inverse (by rw [hbu]; norm_num), Pose.identity_transform]
      have b1 := back _ _ hL1
      have b2 := back _ _ hL2
      -- the step
      let S : Rot ℝ := rpyV (tweak (rpyV u).getRPY (angIdx bt c))
      have hcol : ∀ (E L : Pose ℝ), Pose.transform mk.base.inverse E = L → ∀ r < 3,
          baseCol .ignore E mk.base (3 + angIdx bt c) r = (((S.rotate L.position).cmp r + (⟨bx, bY, bz⟩ : Vec3 ℝ).cmp r) - E.position.cmp r) / (1 / 10 ^ 7) := by
        intro E L hL r hr3
        have hbc : baseCol .ignore E mk.base (3 + angIdx bt c) r = baseRotCol .ignore E mk.base (angIdx bt c) r := by simp [baseCol]
        rw [hbc, baseRotCol_row (by exact hr3), hL, Pose.row_pos _ _ hr3, Pose.row_pos _ _ hr3, hbase, ← Vec3.cmp_add]
        rfl
      -- the difference of the two links
      let v := Vec3.sub L1.position L2.position
      have hdiff : Vec3.sub E1.position E2.position = (rpyV u).rotate v := by
        rw [b1, b2, hbase, Rot.rotate_sub]
        simp only [Pose.transform, Vec3.sub, Vec3.add]
        refine Vec3.ext ?_ ?_ ?_ <;> simp only <;> ring
      have hS : S.norm2 = 1 := Rot.norm2_fromRPY _ _ _
      have hU : (rpyV u).norm2 = 1 := Rot.norm2_fromRPY _ _ _
      have hgrad : sqDistGrad B1 B2 E1.position E2.position (ids.length + (3 + angIdx bt c)) =
          -((Vec3.sub (S.rotate v) ((rpyV u).rotate v)).len2 * 10 ^ 7) := by
        rw [sqDistGrad, hJ1 0 (by omega) _ (by omega), hJ1 1 (by omega) _ (by omega), hJ1 2 (by omega) _ (by omega),
          hJ2 0 (by omega) _ (by omega), hJ2 1 (by omega) _ (by omega), hJ2 2 (by omega) _ (by omega),
          hcol E1 L1 hL1 0 (by omega), hcol E1 L1 hL1 1 (by omega), hcol E1 L1 hL1 2 (by omega),
          hcol E2 L2 hL2 0 (by omega), hcol E2 L2 hL2 1 (by omega), hcol E2 L2 hL2 2 (by omega)]
        have hd := step_dot (S.rotate v) ((rpyV u).rotate v) (by rw [len2_rotate hS, len2_rotate hU])
        rw [← hdiff] at hd ⊢
        have hv : S.rotate v = Vec3.sub (S.rotate L1.position) (S.rotate L2.position) := Rot.rotate_sub _ _ _
        rw [hv] at hd ⊢
        simp only [real_two, Vec3.cmp, Vec3.sub] at hd ⊢
        linear_combination 10 ^ 7 * hd
      have hlen : sqDist E1.position E2.position = v.len2 := by rw [sqDist_len2, hdiff, len2_rotate hU]
      rw [hfc, hgrad, hlen]
      obtain ⟨σ, hσ, htw⟩ := rotate_tweak u v hsin
      have hsm : (Vec3.sub (S.rotate v) ((rpyV u).rotate v)).len2 ≤ (1 / 10 ^ 7) ^ 2 * v.len2 := by
        have h1 : S.rotate v = _ := htw _ hang
        rw [h1]
        refine (turn_small u v hang _).trans (le_of_eq ?_)
        congr 1
        split
        · rcases hσ with ⟨h2, _⟩ | ⟨h2, _⟩ <;> rw [h2] <;> ring
        · ring
      have h0 := Vec3.len2_nonneg (Vec3.sub (S.rotate v) ((rpyV u).rotate v))
      constructor
      · have := mul_le_mul_of_nonneg_right hsm (by positivity : (0 : ℝ) ≤ 10 ^ 7)
        rw [show (1 / 10 ^ 7 : ℝ) ^ 2 * v.len2 * 10 ^ 7 = 1 / 10 ^ 7 * v.len2 by ring] at this
        linarith
      · have := mul_nonneg h0 (by positivity : (0 : ℝ) ≤ 10 ^ 7)
        linarith

end

namespace Example

example := C82_base_invariance (uc := true) s1_reach s1_shallow unitDesc bad_fits (distArgs s1_links) (by decide) (.inl inertial)

end Example
end Tinyfk
