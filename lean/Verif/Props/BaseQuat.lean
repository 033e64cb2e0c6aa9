import Verif.Props.BaseAngles
import Verif.Props.Turns

/-!
# C119: the rotation rows in the columns of the base angles
-/

namespace Tinyfk

open Scalar

/-- the base angles (roll, pitch, yaw) in a configuration with `n` joints; a planar base has no roll and no pitch -/
def anglesOfBase (n : Nat) (bt : BaseType) (q : List ℝ) : Option (Vec3 ℝ) :=
  match bt, q.drop n with
  | .planer, [_, _, w] => some ⟨0, 0, w⟩
  | .floating, [_, _, _, r, p, w] => some ⟨r, p, w⟩
  | _, _ => none

/-- Removing full turns from the three angles, `z` of them in total, leads to angles in the range in which
`get_base_pose` reports them, away from the singularity. -/
def AngleTurns (u : Vec3 ℝ) (z : ℤ) : Prop :=
  ∃ a b c : ℤ, a + b + c = z ∧ RpyBox (u.x - a * (2 * Real.pi)) (u.y - b * (2 * Real.pi)) (u.z - c * (2 * Real.pi))

section

theorem turns_to_range (t : ℝ) : ∃ a : ℤ, -Real.pi < t - a * (2 * Real.pi) ∧ t - a * (2 * Real.pi) ≤ Real.pi := by
  have hp : (0 : ℝ) < 2 * Real.pi := by linarith [Real.pi_pos]
  refine ⟨⌈(t - Real.pi) / (2 * Real.pi)⌉, ?_, ?_⟩
  · have h := Int.ceil_lt_add_one ((t - Real.pi) / (2 * Real.pi))
    have h2 := mul_lt_mul_of_pos_right h hp
    rw [add_mul, div_mul_cancel₀ _ hp.ne'] at h2
    linarith
  · have h := Int.le_ceil ((t - Real.pi) / (2 * Real.pi))
    have h2 := mul_le_mul_of_nonneg_right h hp.le
    rw [div_mul_cancel₀ _ hp.ne'] at h2
    linarith

/-- every triple of angles whose pitch is away from the singularity and has a positive cosine is covered -/
theorem AngleTurns.exists {u : Vec3 ℝ} (hs : |Real.sin u.y| < 99999 / 100000) (hc : 0 < Real.cos u.y) :
    ∃ z, AngleTurns u z := by
  obtain ⟨a, a1, a2⟩ := turns_to_range u.x
  obtain ⟨b, b1, b2⟩ := turns_to_range u.y
  obtain ⟨c, c1, c2⟩ := turns_to_range u.z
  have hsin : Real.sin (u.y - b * (2 * Real.pi)) = Real.sin u.y := Real.sin_sub_int_mul_two_pi _ _
  have hcos : Real.cos (u.y - b * (2 * Real.pi)) = Real.cos u.y := Real.cos_sub_int_mul_two_pi _ _
  refine ⟨a + b + c, a, b, c, rfl, ⟨a1, a2⟩, ?_, ⟨c1, c2⟩, by rw [hsin]; exact hs⟩
  rw [← hcos] at hc
  generalize u.y - b * (2 * Real.pi) = y at *
  constructor
  · by_contra h
    have := Real.cos_nonpos_of_pi_div_two_le_of_le (x := -y) (by linarith) (by linarith [Real.pi_pos])
    rw [Real.cos_neg] at this
    linarith
  · by_contra h
    have := Real.cos_nonpos_of_pi_div_two_le_of_le (x := y) (by linarith) (by linarith [Real.pi_pos])
    linarith

theorem half_turns (x : ℝ) (a : ℤ) : Real.sin ((x + a * (2 * Real.pi)) / 2) = (-1) ^ a * Real.sin (x / 2) ∧
    Real.cos ((x + a * (2 * Real.pi)) / 2) = (-1) ^ a * Real.cos (x / 2) := by
  have e : (x + a * (2 * Real.pi)) / 2 = x / 2 + a * Real.pi := by ring
  rw [e]
  exact ⟨Real.sin_add_int_mul_pi _ _, Real.cos_add_int_mul_pi _ _⟩

/-- multiply all four numbers -/
def Rot.signed (s : ℝ) (q : Rot ℝ) : Rot ℝ := ⟨s * q.x, s * q.y, s * q.z, s * q.w⟩

theorem fromRPY_full (r p w : ℝ) (a b c : ℤ) :
    Rot.fromRPY (r + a * (2 * Real.pi)) (p + b * (2 * Real.pi)) (w + c * (2 * Real.pi)) =
      Rot.signed ((-1) ^ (a + b + c)) (Rot.fromRPY r p w) := by
  have hz : ((-1 : ℝ)) ^ (a + b + c) = (-1) ^ a * (-1) ^ b * (-1) ^ c := by
    rw [zpow_add₀ (by norm_num), zpow_add₀ (by norm_num)]
  rw [Rot.fromRPY_raw, Rot.fromRPY_raw, hz]
  obtain ⟨r1, r2⟩ := half_turns r a
  obtain ⟨p1, p2⟩ := half_turns p b
  obtain ⟨w1, w2⟩ := half_turns w c
  simp only [r1, r2, p1, p2, w1, w2, Rot.signed, Rot.mk.injEq]
  refine ⟨?_, ?_, ?_, ?_⟩ <;> ring

theorem Rot.signed_neg (q : Rot ℝ) : Rot.signed (-1) q = q.neg := by
  simp [Rot.signed, Rot.neg]

theorem Rot.signed_one (q : Rot ℝ) : Rot.signed 1 q = q := by
  simp [Rot.signed]

/-- angles reported for the quaternion of `u`, and the quaternion one step further -/
theorem AngleTurns.step {u : Vec3 ℝ} {z : ℤ} (h : AngleTurns u z) {k : Nat} (hk : k < 3) :
    rpyV (tweak (rpyV u).getRPY k) = Rot.signed ((-1) ^ z) (rpyV (setAng k (u.cmp k + 1 / 10 ^ 7) u)) := by
  obtain ⟨a, b, c, hz, hb⟩ := h
  have hs : ((-1 : ℝ)) ^ z = 1 ∨ ((-1 : ℝ)) ^ z = -1 := by
    rcases Int.even_or_odd z with h | h
    · exact .inl h.neg_one_zpow
    · exact .inr h.neg_one_zpow
  have hu : rpyV u = Rot.signed ((-1) ^ z) (Rot.fromRPY (u.x - a * (2 * Real.pi)) (u.y - b * (2 * Real.pi)) (u.z - c * (2 * Real.pi))) := by
    have := fromRPY_full (u.x - a * (2 * Real.pi)) (u.y - b * (2 * Real.pi)) (u.z - c * (2 * Real.pi)) a b c
    simp only [sub_add_cancel, hz] at this
    exact this
  have hg : (rpyV u).getRPY = ⟨u.x - a * (2 * Real.pi), u.y - b * (2 * Real.pi), u.z - c * (2 * Real.pi)⟩ := by
    rw [← hb.getRPY, hu]
    rcases hs with h | h
    · rw [h, Rot.signed_one]
    · rw [h, Rot.signed_neg, Rot.getRPY_neg]
      rw [(Rot.fromRPY_entries _ _ _).2.2.2.2]
      exact hb.band
  have hn : ((-1 : ℝ)) ^ (-z) = (-1) ^ z := by
    rw [zpow_neg]
    rcases hs with h | h <;> rw [h] <;> norm_num
  have key : ∀ r p w : ℝ, Rot.fromRPY (r - a * (2 * Real.pi)) (p - b * (2 * Real.pi)) (w - c * (2 * Real.pi)) =
      Rot.signed ((-1) ^ z) (Rot.fromRPY r p w) := by
    intro r p w
    have := fromRPY_full r p w (-a) (-b) (-c)
    rw [show -a + -b + -c = -z by omega, hn] at this
    simp only [Int.cast_neg, neg_mul, ← sub_eq_add_neg] at this
    exact this
  rw [hg]
  match k, hk with
  | 0, _ => simp only [rpyV, tweak, setAng, Vec3.cmp, real_epsFD]; rw [sub_add_eq_add_sub]; exact key _ _ _
  | 1, _ => simp only [rpyV, tweak, setAng, Vec3.cmp, real_epsFD]; rw [sub_add_eq_add_sub]; exact key _ _ _
  | 2, _ => simp only [rpyV, tweak, setAng, Vec3.cmp, real_epsFD]; rw [sub_add_eq_add_sub]; exact key _ _ _

theorem Rot.signed_mul (s : ℝ) (p q : Rot ℝ) : Rot.mul (Rot.signed s p) q = Rot.signed s (Rot.mul p q) := by
  simp only [Rot.signed, Rot.mul, Rot.mk.injEq]
  refine ⟨?_, ?_, ?_, ?_⟩ <;> ring

theorem Rot.cmp_signed (s : ℝ) (q : Rot ℝ) (i : Nat) : (Rot.signed s q).cmp i = s * q.cmp i := by
  match i with
  | 0 | 1 | 2 | 3 => rfl
  | _ + 4 => simp [Rot.cmp]

theorem harm_quat_set {k : Nat} (hk : k < 3) (u : Vec3 ℝ) {s : Rot ℝ} (hs : s.norm2 = 1) (i : Nat) :
    Harm (1 / 2) 1 fun t => (Rot.mul (rpyV (setAng k t u)) s).cmp i := by
  match k, hk with
  | 0, _ => exact harm_quat_roll _ _ hs _
  | 1, _ => exact harm_quat_pitch _ _ hs _
  | 2, _ => exact harm_quat_yaw _ _ hs _

theorem Harm.slope {k ρ t D : ℝ} {g : ℝ → ℝ} (hg : Harm k ρ g) (hk : 0 ≤ k) (hρ : 0 ≤ ρ) (hD : HasDerivAt g D t) : |D| ≤ k * ρ := by
  obtain ⟨a, b, c, hg, hab⟩ := hg
  have h1 : HasDerivAt g (k * (b * Real.cos (k * t) - a * Real.sin (k * t))) t := by
    have hl : HasDerivAt (fun t => k * t) k t := by simpa using (hasDerivAt_id t).const_mul k
    have h2 := ((hl.cos.const_mul a).add (hl.sin.const_mul b)).add_const c
    rw [show g = fun t => a * Real.cos (k * t) + b * Real.sin (k * t) + c from funext hg]
    have e : k * (b * Real.cos (k * t) - a * Real.sin (k * t)) =
        a * (-Real.sin (k * t) * k) + b * (Real.cos (k * t) * k) := by ring
    rw [e]
    exact h2
  rw [hD.unique h1, abs_mul, abs_of_nonneg hk]
  apply mul_le_mul_of_nonneg_left _ hk
  apply abs_le_of_sq_le_sq _ hρ
  have hsc := Real.sin_sq_add_cos_sq (k * t)
  nlinarith [sq_nonneg (a * Real.cos (k * t) + b * Real.sin (k * t))]

theorem rotate_all {p q : Rot ℝ} (hp : p.norm2 = 1) (hq : q.norm2 = 1) (h : ∀ v, p.rotate v = q.rotate v) :
    Rot.UpToSign q p := by
  apply Rot.eq_or_neg_of_matrix hp hq
  have key : ∀ v : Vec3 ℝ, p.matrix.mulVec v.toV = q.matrix.mulVec v.toV := by
    intro v
    rw [← Rot.rotate_matrix, ← Rot.rotate_matrix, h v]
  have k0 := key ⟨1, 0, 0⟩
  have k1 := key ⟨0, 1, 0⟩
  have k2 := key ⟨0, 0, 1⟩
  ext i j
  have e0 := congrFun k0 i
  have e1 := congrFun k1 i
  have e2 := congrFun k2 i
  simp [Matrix.mulVec, dotProduct, Fin.sum_univ_three, Vec3.toV] at e0 e1 e2
  fin_cases j
  · exact e0
  · exact e1
  · exact e2

end

section
variable {ls : List (RawLink ℝ)} {js : List (RawJoint ℝ)} {m0 mc mk : KinModel ℝ} {cs : List (Call ℝ)}
  {h : List (PyCall ℝ)} {s : PyModel ℝ} {es ids : List Nat}
  {bt : BaseType} {rt : RotType} {uc : Bool} {c0 : SizedCache (Pose ℝ)}

theorem baseAngles_set {q : List ℝ} (n : Nat) (hq : q.length = n + bt.dof) {c : Nat} (hc : IsBaseAngle bt c) :
    ∃ (x y z : ℝ) (u : Vec3 ℝ), basePart n bt q = some ⟨⟨x, y, z⟩, rpyV u⟩ ∧ anglesOfBase n bt q = some u ∧
      q[n + c]? = some (u.cmp (angIdx bt c)) ∧
      ∀ v, basePart n bt (q.set (n + c) v) = some ⟨⟨x, y, z⟩, rpyV (setAng (angIdx bt c) v u)⟩ := by
  have hd : (q.drop n).length = bt.dof := by simp [hq]
  have hset : ∀ k v, (q.set (n + k) v).drop n = (q.drop n).set k v := by
    intro k v
    rw [List.drop_set, if_neg (by omega), Nat.add_sub_cancel_left]
  have hget : ∀ k, q[n + k]? = (q.drop n)[k]? := by intro k; rw [List.getElem?_drop]
  rw [hget c]
  generalize hD : q.drop n = D at hd hset hget
  rcases hc with ⟨rfl, rfl⟩ | ⟨rfl, hc⟩
  · obtain ⟨x, y, w, rfl⟩ : ∃ x y w, D = [x, y, w] := by
      match D, hd with
      | [x, y, w], _ => exact ⟨x, y, w, rfl⟩
    refine ⟨x, y, 0, ⟨0, 0, w⟩, by simp [basePart, hD, rpyV], by simp [anglesOfBase, hD], rfl, ?_⟩
    intro v; simp [basePart, hset, rpyV, setAng, angIdx]
  · obtain ⟨x, y, z, a, b, w, rfl⟩ : ∃ x y z a b w, D = [x, y, z, a, b, w] := by
      match D, hd with
      | [x, y, z, a, b, w], _ => exact ⟨x, y, z, a, b, w, rfl⟩
    refine ⟨x, y, z, ⟨a, b, w⟩, by simp [basePart, hD, rpyV], by simp [anglesOfBase, hD], ?_, ?_⟩
    · rcases hc with rfl | rfl | rfl <;> rfl
    · intro v
      rcases hc with rfl | rfl | rfl <;> simp [basePart, hset, rpyV, setAng, angIdx]

/-- the columns of the base angles, all rows -/
theorem PyReach.angleCols (hr : PyReach ls js m0 h cs s) (hf : Shallow ls js m0 cs) (hu : UnitDesc js) {qs : QArg ℝ}
    (hc : c0.Fits s.robot.links.length) (ha : FkArgs m0 s qs es ids bt) (hb : bt ≠ .fixed)
    (hne : (∃ r ∈ ls, r.inertial.isSome) ∨ weldsAfter (names0 m0) cs ≠ []) :
    ∃ P J s', pySolveFk qs es ids rt bt true uc (s.withCache c0) = .ok (P, J) s' ∧
      ∀ (k j c : Nat) (q : List ℝ), qs.rows[k]? = some q → j < es.length → IsBaseAngle bt c →
        ∃ (b u : Vec3 ℝ) (L : Pose ℝ), anglesOfBase ids.length bt q = some u ∧
          q[ids.length + c]? = some (u.cmp (angIdx bt c)) ∧ angIdx bt c < 3 ∧ L.rotation.norm2 = 1 ∧
          ∀ r < rt.width,
            P.f (k * es.length + j) r = (Pose.transform ⟨b, rpyV u⟩ L).row rt r ∧
            J.f ((k * es.length + j) * rt.width + r) (ids.length + c) =
              ((Pose.transform ⟨b, rpyV (tweak (rpyV u).getRPY (angIdx bt c))⟩ L).row rt r -
                (Pose.transform ⟨b, rpyV u⟩ L).row rt r) / (1 / 10 ^ 7) ∧
            ∀ v (qs' : QArg ℝ), (∀ q, qs' ≠ .list1 q) → qs'.rows = qs.rows.set k (q.set (ids.length + c) v) →
              ∃ P' J' s'', pySolveFk qs' es ids rt bt true uc (s.withCache c0) = .ok (P', J') s'' ∧
                ∀ r < rt.width, P'.f (k * es.length + j) r = (Pose.transform ⟨b, rpyV (setAng (angIdx bt c) v u)⟩ L).row rt r := by
  obtain ⟨mc, hat⟩ := hr.at
  obtain ⟨P, J, s', mc', e, _, hres⟩ := (hat.withCache hc).pySolveFk (rt := rt) (wj := true) (uc := uc)
    (qs := qs) (es := es) hf ⟨ha.notFlat, ha.nonempty, ha.shape, ha.joints, ha.links⟩ (.inl hb) (fun _ => hne)
  refine ⟨P, J, s', e, ?_⟩
  intro k j c q hk hj hca
  have hql := ha.shape q (List.mem_of_getElem? hk)
  obtain ⟨mk, hmk⟩ := hat.reach.config ha.joints hql
  have hset := configCalls_isSet ids bt q
  have hjl : es[j]? = some es[j] := by simp [hj]
  obtain ⟨B, mk1, eB, hB1, hB2, hB3⟩ := hres.jac rfl k j _ q mk hk hjl hmk
  have hwb : (bt != .fixed) = true := by simpa using hb
  rw [hwb] at eB
  obtain ⟨E, cols, hE, hcols, mk2, eJ, _⟩ := hmk.jacobian (hf.sets hset)
    (by rw [welds_sets _ hset]; exact hne) (l := es[j]) (by
      have h1 := ha.links es[j] (by simp)
      obtain ⟨θ, p, c1, e1⟩ := hmk.sets_eq hat.reach hset
      rw [e1]
      exact lt_of_lt_of_eq h1 (congrArg List.length hat.links))
    (ids := ids) (by rw [hmk.abs.joints]; exact ha.joints) rt true
  rw [eB] at eJ
  cases eJ
  obtain ⟨T, mk3, eT, hrowT⟩ := hres.pose k j _ q mk hk hjl hmk
  obtain ⟨mk4, eT', _⟩ := getLinkPose_spec (hmk.ready (hf.sets hset)) hE
  rw [eT] at eT'
  cases eT'
  obtain ⟨bx, bY, bz, u, e0, hang0, ex, hsx⟩ := baseAngles_set ids.length hql hca
  have hang : angIdx bt c < 3 := by
    rcases hca with ⟨rfl, rfl⟩ | ⟨rfl, rfl | rfl | rfl⟩ <;> simp [angIdx]
  have hbase : mk.base = ⟨⟨bx, bY, bz⟩, rpyV u⟩ := by
    rw [hmk.abs.base, baseAfter_append, baseAfter_config, e0]; rfl
  have hbu : mk.base.rotation.norm2 = 1 := by rw [hbase]; exact Rot.norm2_fromRPY _ _ _
  have hUm := hmk.unitModel hu (hr.unitCalls.append (configCalls_unit ids bt q))
  -- the link in the base frame
  generalize hL : Pose.transform mk.base.inverse E = L
  have e1 : Pose.transform mk.base L = E := by
    rw [← hL, ← Pose.transform_assoc, Pose.transform_inverse (by rw [hbu]; norm_num), Pose.identity_transform]
  have hLu : L.rotation.norm2 = 1 := by
    rw [← hL]
    show (Rot.mul mk.base.rotation.inverse E.rotation).norm2 = 1
    rw [Rot.norm2_mul, Rot.norm2_inverse hbu, hE.unit hUm, mul_one]
  refine ⟨⟨bx, bY, bz⟩, u, L, hang0, ex, hang, hLu, ?_⟩
  intro r hrl
  have hrd : r < rt.dim := by cases rt <;> simp_all [RotType.dim, RotType.width]
  refine ⟨by rw [hrowT.row hrl, ← hbase, e1], ?_, ?_⟩
  · have hfc : fullCol ids.length bt (ids.length + c) = ids.length + (3 + angIdx bt c) := by
      rcases hca with ⟨rfl, rfl⟩ | ⟨rfl, rfl | rfl | rfl⟩ <;> simp [angIdx, fullCol]
    have hcd : c < bt.dof := by
      rcases hca with ⟨rfl, rfl⟩ | ⟨rfl, rfl | rfl | rfl⟩ <;> simp [BaseType.dof]
    rw [hB3 r hrl _ (by omega), hfc, hcols.length_eq, if_pos rfl, jacMat_base hrd (by omega)]
    have hbc : baseCol rt E mk.base (3 + angIdx bt c) r = baseRotCol rt E mk.base (angIdx bt c) r := by simp [baseCol]
    rw [hbc, baseRotCol_row hrd, hL, ← e1, hbase]
    rfl
  · intro v qs' hflat hrows
    have hl' : (q.set (ids.length + c) v).length = ids.length + bt.dof := by rw [List.length_set]; exact hql
    obtain ⟨P', J', s'', _, e', _, hres'⟩ := (hat.withCache hc).pySolveFk (rt := rt) (wj := true) (uc := uc)
      (qs := qs') (es := es) hf ⟨hflat, by rw [hrows]; simpa using ha.nonempty, by
        rw [hrows]
        intro q1 hq1
        rcases List.mem_or_eq_of_mem_set hq1 with h1 | h1
        · exact ha.shape q1 h1
        · rw [h1]; exact hl', ha.joints, ha.links⟩ (.inl hb) (fun _ => hne)
    refine ⟨P', J', s'', e', ?_⟩
    obtain ⟨mkv, hmkv⟩ := hat.reach.config ha.joints hl'
    obtain ⟨T', mk', eT', hrow⟩ := hres'.pose k j _ (q.set (ids.length + c) v) mkv (by
      rw [hrows, List.getElem?_set_self (List.getElem?_eq_some_iff.mp hk).1]) hjl hmkv
    intro r hrl
    rw [hrow.row hrl, hat.reach.varyBase hf hu hr.unitCalls (by rw [List.take_set_of_le (by omega)]) (hsx v) hmk hmkv hE eT', hL]

/-- **C119, difference quotient.** Let `solve_fk` return `(P, J)` for a batch with a planar or floating base and
let `x` be a base angle in configuration `q`, the pitch of the base being away from the singularity. Asking again with this angle
changed by `1e-7` (by `-1e-7` for a pitch with negative cosine) gives `P'`, and the entries of `J` in the column of
the angle are `(P' - P) / 1e-7`: in the position rows, and in the roll-pitch-yaw rows if the link in `P'` is away from the
singularity. -/
theorem C119_difference_partial (hr : PyReach ls js m0 h cs s) (hf : Shallow ls js m0 cs) (hu : UnitDesc js) {qs : QArg ℝ}
    (hc : c0.Fits s.robot.links.length) (ha : FkArgs m0 s qs es ids bt) (hb : bt ≠ .fixed)
    (hne : (∃ r ∈ ls, r.inertial.isSome) ∨ weldsAfter (names0 m0) cs ≠ []) :
    ∃ P J s', pySolveFk qs es ids rt bt true uc (s.withCache c0) = .ok (P, J) s' ∧
      ∀ (k j c r : Nat) (q : List ℝ) (x : ℝ) (u : Vec3 ℝ), qs.rows[k]? = some q → j < es.length →
        IsBaseAngle bt c → r < rt.width → rt ≠ .xyzw ∨ r < 3 → q[ids.length + c]? = some x →
        anglesOfBase ids.length bt q = some u → |Real.sin u.y| < 99999 / 100000 →
        ∀ v (qs' : QArg ℝ), v = x + (if c = 4 ∧ Real.cos u.y < 0 then -1 else 1) * (1 / 10 ^ 7) →
          (∀ q, qs' ≠ .list1 q) → qs'.rows = qs.rows.set k (q.set (ids.length + c) v) →
          ∃ P' J' s'', pySolveFk qs' es ids rt bt true uc (s.withCache c0) = .ok (P', J') s'' ∧
            ((r = 5 → |Real.sin (P'.f (k * es.length + j) 4)| < 99999 / 100000) →
              J.f ((k * es.length + j) * rt.width + r) (ids.length + c) =
                (P'.f (k * es.length + j) r - P.f (k * es.length + j) r) / (1 / 10 ^ 7)) := by
  obtain ⟨P, J, s', e, H⟩ := hr.angleCols (rt := rt) (uc := uc) hf hu hc ha hb hne
  refine ⟨P, J, s', e, ?_⟩
  intro k j c r q x u hk hj hca hrl hrt hx hau hsin v qs' hv hflat hrows
  obtain ⟨b, u', L, hau', hx', hang, hLu, Hr⟩ := H k j c q hk hj hca
  rw [hau] at hau'
  cases hau'
  rw [hx] at hx'
  cases hx'
  obtain ⟨hP, hJ, hV⟩ := Hr r hrl
  obtain ⟨P', J', s'', e', hP'⟩ := hV v qs' hflat hrows
  refine ⟨P', J', s'', e', ?_⟩
  intro hreg
  rw [hJ, hP, hP' r hrl]
  congr 2
  have hstep : rpyV (setAng (angIdx bt c) v u) = rpyV (tweak (rpyV u).getRPY (angIdx bt c)) ∨
      rpyV (setAng (angIdx bt c) v u) = (rpyV (tweak (rpyV u).getRPY (angIdx bt c))).neg := by
    apply rotate_all (Rot.norm2_fromRPY _ _ _) (Rot.norm2_fromRPY _ _ _)
    intro w
    obtain ⟨σ, hσ, htw⟩ := rotate_tweak u w hsin
    show (rpyV (setAng (angIdx bt c) v u)).rotate w = (rpyV (tweak (rpyV u).getRPY (angIdx bt c))).rotate w
    rw [htw _ hang, hv]
    congr 5
    by_cases h1 : angIdx bt c = 1
    · have h4 : c = 4 := by
        rcases hca with ⟨rfl, rfl⟩ | ⟨rfl, rfl | rfl | rfl⟩ <;> simp [angIdx] at h1; rfl
      rw [if_pos h1]
      rcases hσ with ⟨h2, h3⟩ | ⟨h2, h3⟩
      · rw [if_neg (by intro h; linarith [h.2]), h2]
      · rw [if_pos ⟨h4, h3⟩, h2]
    · rw [if_neg h1, if_neg]
      rintro ⟨rfl, _⟩
      rcases hca with ⟨rfl, h5⟩ | ⟨rfl, _⟩
      · omega
      · exact h1 rfl
  have hrot : Rot.UpToSign (Rot.mul (rpyV (setAng (angIdx bt c) v u)) L.rotation)
      (Rot.mul (rpyV (tweak (rpyV u).getRPY (angIdx bt c))) L.rotation) := by
    apply Rot.UpToSign.mul _ (Rot.UpToSign.refl _)
    rcases hstep with h | h
    · exact .inl h.symm
    · right; rw [h, Rot.neg_neg]
  have hpos : (rpyV (tweak (rpyV u).getRPY (angIdx bt c))).rotate L.position = (rpyV (setAng (angIdx bt c) v u)).rotate L.position := by
    rcases hstep with h | h
    · rw [h]
    · rw [h, Rot.rotate_neg_any]
  by_cases hr3 : r < 3
  · rw [Pose.row_pos _ _ hr3, Pose.row_pos _ _ hr3]
    show (Vec3.add (Rot.rotate _ L.position) b).cmp r = (Vec3.add (Rot.rotate _ L.position) b).cmp r
    rw [hpos]
  · have hxr : rt = .rpy := by
      rcases rt with _ | _ | _
      · simp [RotType.width] at hrl; omega
      · rfl
      · rcases hrt with h | h
        · exact absurd rfl h
        · exact absurd h hr3
    subst hxr
    simp [RotType.width] at hrl
    obtain ⟨g1, g2, g3, g4⟩ := hrot.getRPY
    have h4 := hP' 4 (by simp [RotType.width])
    match r, hrl, hr3, hreg with
    | 3, _, _, _ => exact g1
    | 4, _, _, _ => exact g2
    | 5, _, _, hreg =>
      apply g4
      apply Rot.band_of_pitch
      have := hreg rfl
      rw [h4] at this
      exact this

/-- **C119, quaternion rows.** If the base angles of configuration `q` are, up to an even number of full turns in all, in the
range in which they are reported, the quaternion rows of the column of a base angle are within `1.25e-8` of the derivative
of the returned quaternion. -/
theorem C119_quaternion_partial (hr : PyReach ls js m0 h cs s) (hf : Shallow ls js m0 cs) (hu : UnitDesc js) {qs : QArg ℝ}
    (hc : c0.Fits s.robot.links.length) (ha : FkArgs m0 s qs es ids bt) (hb : bt ≠ .fixed)
    (hne : (∃ r ∈ ls, r.inertial.isSome) ∨ weldsAfter (names0 m0) cs ≠ []) :
    ∃ P J s', pySolveFk qs es ids .xyzw bt true uc (s.withCache c0) = .ok (P, J) s' ∧
      ∀ (k j c r : Nat) (q : List ℝ) (x : ℝ) (u : Vec3 ℝ) (z : ℤ), qs.rows[k]? = some q → j < es.length →
        IsBaseAngle bt c → 3 ≤ r → r < 7 → q[ids.length + c]? = some x →
        anglesOfBase ids.length bt q = some u → AngleTurns u z → Even z →
        ∃ D : ℝ → ℝ,
          (∀ v (qs' : QArg ℝ), (∀ q, qs' ≠ .list1 q) → qs'.rows = qs.rows.set k (q.set (ids.length + c) v) →
            ∃ P' J' s'', pySolveFk qs' es ids .xyzw bt true uc (s.withCache c0) = .ok (P', J') s'' ∧
              P'.f (k * es.length + j) r = D v) ∧
          NearDeriv D x (J.f ((k * es.length + j) * 7 + r) (ids.length + c)) (125 / 10 ^ 10) := by
  obtain ⟨P, J, s', e, H⟩ := hr.angleCols (rt := .xyzw) (uc := uc) hf hu hc ha hb hne
  refine ⟨P, J, s', e, ?_⟩
  intro k j c r q x u z hk hj hca hr3 hr7 hx hau hz hev
  obtain ⟨b, u', L, hau', hx', hang, hLu, Hr⟩ := H k j c q hk hj hca
  rw [hau] at hau'
  cases hau'
  rw [hx] at hx'
  cases hx'
  obtain ⟨hP, hJ, hV⟩ := Hr r hr7
  obtain ⟨i, rfl⟩ : ∃ i, r = 3 + i := ⟨r - 3, by omega⟩
  have hi : i < 4 := by omega
  refine ⟨fun v => (Rot.mul (rpyV (setAng (angIdx bt c) v u)) L.rotation).cmp i, ?_, ?_⟩
  · intro v qs' hflat hrows
    obtain ⟨P', J', s'', e', hP'⟩ := hV v qs' hflat hrows
    refine ⟨P', J', s'', e', ?_⟩
    rw [hP' _ hr7, Pose.row_quat _ hi]
    rfl
  · have hval : J.f ((k * es.length + j) * 7 + (3 + i)) (ids.length + c) = _ := hJ
    rw [hval, hz.step hang, hev.neg_one_zpow, Rot.signed_one, Pose.row_quat _ hi, Pose.row_quat _ hi]
    obtain ⟨D, h1, h2⟩ := (harm_quat_set hang u hLu i).fwd (by norm_num) (by norm_num) (u.cmp (angIdx bt c)) (h := 1 / 10 ^ 7) (by positivity)
    refine ⟨D, h1, ?_⟩
    rw [setAng_self _ hang] at h2
    have hε : (1 / 2 : ℝ) ^ 2 * 1 * (1 / 10 ^ 7) / 2 = 125 / 10 ^ 10 := by norm_num
    rw [hε] at h2
    exact h2

/-- **C119 is false** for every other configuration: if an odd number of full turns separates the base angles from the reported range,
the quaternion rows of the column of a base angle are, up to 1, `-2e7` times the returned quaternion. -/
theorem C119_wrong (hr : PyReach ls js m0 h cs s) (hf : Shallow ls js m0 cs) (hu : UnitDesc js) {qs : QArg ℝ}
    (hc : c0.Fits s.robot.links.length) (ha : FkArgs m0 s qs es ids bt) (hb : bt ≠ .fixed)
    (hne : (∃ r ∈ ls, r.inertial.isSome) ∨ weldsAfter (names0 m0) cs ≠ []) :
    ∃ P J s', pySolveFk qs es ids .xyzw bt true uc (s.withCache c0) = .ok (P, J) s' ∧
      ∀ (k j c r : Nat) (q : List ℝ) (u : Vec3 ℝ) (z : ℤ), qs.rows[k]? = some q → j < es.length →
        IsBaseAngle bt c → 3 ≤ r → r < 7 →
        anglesOfBase ids.length bt q = some u → AngleTurns u z → Odd z →
        |J.f ((k * es.length + j) * 7 + r) (ids.length + c) - (-(2 * 10 ^ 7)) * P.f (k * es.length + j) r| ≤ 1 := by
  obtain ⟨P, J, s', e, H⟩ := hr.angleCols (rt := .xyzw) (uc := uc) hf hu hc ha hb hne
  refine ⟨P, J, s', e, ?_⟩
  intro k j c r q u z hk hj hca hr3 hr7 hau hz hodd
  obtain ⟨b, u', L, hau', hx', hang, hLu, Hr⟩ := H k j c q hk hj hca
  rw [hau] at hau'
  cases hau'
  obtain ⟨hP, hJ, hV⟩ := Hr r hr7
  obtain ⟨i, rfl⟩ : ∃ i, r = 3 + i := ⟨r - 3, by omega⟩
  have hi : i < 4 := by omega
  have hval : J.f ((k * es.length + j) * 7 + (3 + i)) (ids.length + c) = _ := hJ
  rw [hval, hP, hz.step hang, hodd.neg_one_zpow, Pose.row_quat _ hi, Pose.row_quat _ hi]
  show |((Rot.mul (Rot.signed (-1) _) L.rotation).cmp i - (Rot.mul (rpyV u) L.rotation).cmp i) / (1 / 10 ^ 7) -
    -(2 * 10 ^ 7) * (Rot.mul (rpyV u) L.rotation).cmp i| ≤ 1
  rw [Rot.signed_mul, Rot.cmp_signed]
  obtain ⟨D, h1, h2⟩ := (harm_quat_set hang u hLu i).fwd (by norm_num) (by norm_num) (u.cmp (angIdx bt c)) (h := 1 / 10 ^ 7) (by positivity)
  rw [setAng_self _ hang] at h2
  have hD : |D| ≤ 1 / 2 * 1 := (harm_quat_set hang u hLu i).slope (by norm_num) (by norm_num) h1
  generalize (Rot.mul (rpyV (setAng (angIdx bt c) (u.cmp (angIdx bt c) + 1 / 10 ^ 7) u)) L.rotation).cmp i = A at *
  generalize (Rot.mul (rpyV u) L.rotation).cmp i = B at *
  obtain ⟨h3, h4⟩ := abs_le.mp h2
  obtain ⟨h5, h6⟩ := abs_le.mp hD
  have hq : (-1 * A - B) / (1 / 10 ^ 7) - -(2 * 10 ^ 7) * B = -((A - B) / (1 / 10 ^ 7)) := by ring
  rw [hq, abs_neg, abs_le]
  norm_num at h3 h4 ⊢
  constructor <;> linarith

end

namespace Example

theorem base_id1 : getLinkIds ["base"] m0 = .ok [1] m0 := by
  obtain ⟨mc, hat⟩ := s0_reach.at
  rw [getLinkIds_one, constructed.inv.graph.linkNames]
  have := congrArg (fun l => l[1]?) linkNames
  simpa [List.getElem?_map] using this

/-- the arguments: one planar configuration, no joints, the link "base" -/
theorem yaw_args (v : ℝ) : FkArgs m0 s0 (.nd1 [0, 0, v]) [1] [] .planer := by
  refine ⟨by simp, by simp [QArg.rows], by simp [QArg.rows, BaseType.dof], by simp, ?_⟩
  have : m0.links.length = 6 := by
    have := congrArg List.length linkNames
    simpa using this
  simp [s0, this]

/-- the third number of the quaternion of the base for a yaw of `v` -/
theorem base_quat (v : ℝ) : ∃ P J s', pySolveFk (.nd1 [0, 0, v]) [1] [] .xyzw .planer true false
    (s0.withCache ⟨6, List.replicate 6 Pose.identity, List.replicate 6 true⟩) = .ok (P, J) s' ∧
      P.f 0 5 = Real.sin (v / 2) := by
  obtain ⟨P, J, s', e, _, _, H⟩ := C02_solve_fk (rt := .xyzw) (wj := true) s0_reach (shallow_sets rfl) s0_fits (yaw_args v)
    (fun _ => .inl inertial)
  refine ⟨P, J, s', e, ?_⟩
  obtain ⟨θ, hθ⟩ := exists_angles m0 ([] ++ configCalls [] .planer [0, 0, v])
  obtain ⟨T, hT, hrow⟩ := H 0 0 1 [0, 0, v] "base" θ rfl rfl base_id1 hθ
  have h1 : WorldPose ls js (AllWelds ls m0 []) θ (baseAfter Pose.identity ([] ++ configCalls [] .planer [0, 0, v])) "base" _ :=
    .root (l := ⟨"base", none⟩) (by simp [ls]) (by simp [js, turn, slide, weld])
  have h2 := (hT _).mp h1
  have h5 := hrow.row (r := 5) (by simp [RotType.width])
  rw [← h2] at h5
  simp only [List.nil_append, configCalls, basePart, List.length_nil, List.drop_zero, baseAfter, Rot.fromRPY_raw] at h5
  simpa [Pose.row] using h5

theorem sin_two : 1 / 2 < Real.sin 2 := by
  rw [← Real.sin_pi_sub]
  have h3 := Real.pi_gt_three
  have h4 := Real.pi_le_four
  have h := Real.mul_le_sin (x := Real.pi - 2) (by linarith) (by linarith)
  have e : 2 / Real.pi * (Real.pi - 2) = 2 - 4 / Real.pi := by field_simp; ring
  have h5 : 4 / Real.pi < 4 / 3 := div_lt_div_of_pos_left (by norm_num) (by norm_num) h3
  rw [e] at h
  linarith

/-- **C119 is false.** For the robot of the example and a planar base with yaw 4, the derivative of the returned
third number of the base's quaternion is at most `1/2`, but the returned entry of the Jacobian is less than `-1e6`. -/
theorem C119_false : ∃ P J s', pySolveFk (.nd1 [0, 0, 4]) [1] [] .xyzw .planer true false
      (s0.withCache ⟨6, List.replicate 6 Pose.identity, List.replicate 6 true⟩) = .ok (P, J) s' ∧
    ∃ D D', (∀ v, ∃ P' J' s'', pySolveFk (.nd1 [0, 0, v]) [1] [] .xyzw .planer true false
        (s0.withCache ⟨6, List.replicate 6 Pose.identity, List.replicate 6 true⟩) = .ok (P', J') s'' ∧ P'.f 0 5 = D v) ∧
      HasDerivAt D D' 4 ∧ |D'| ≤ 1 / 2 ∧ J.f 5 2 < -(10 ^ 6) := by
  obtain ⟨P, J, s', e, H⟩ := C119_wrong (uc := false) s0_reach (shallow_sets rfl) unitDesc s0_fits (yaw_args 4) (by decide) (.inl inertial)
  obtain ⟨P1, J1, s1', e1, x1⟩ := base_quat 4
  rw [e] at e1
  cases e1
  refine ⟨P, J, s', e, fun v => Real.sin (v / 2), Real.cos (4 / 2) * (1 / 2), fun v => ?_, ?_, ?_, ?_⟩
  · obtain ⟨P', J', s'', e', x'⟩ := base_quat v
    exact ⟨P', J', s'', e', x'⟩
  · exact ((hasDerivAt_id (4 : ℝ)).div_const 2).sin
  · rw [abs_mul, abs_of_pos (by norm_num : (0 : ℝ) < 1 / 2)]
    linarith [Real.abs_cos_le_one (4 / 2)]
  · have h1 := H 0 0 2 5 [0, 0, 4] ⟨0, 0, 4⟩ 1 rfl (by decide) (.inl ⟨rfl, rfl⟩) (by decide) (by decide) rfl
      ⟨0, 0, 1, by norm_num, ⟨by simp [Real.pi_pos], by simp [Real.pi_pos.le]⟩, ⟨by simp [Real.pi_pos], by simp [Real.pi_pos]⟩,
        ⟨by push_cast; linarith [Real.pi_lt_d2], by push_cast; linarith [Real.pi_gt_three]⟩, by simp⟩ (by decide)
    have e4 : J.f ((0 * [1].length + 0) * 7 + 5) (([] : List Nat).length + 2) = J.f 5 2 := by simp
    have e5 : P.f (0 * [1].length + 0) 5 = P.f 0 5 := by simp
    rw [e4, e5, x1] at h1
    have h2 := (abs_le.mp h1).2
    have h3 := sin_two
    norm_num at h2 ⊢
    linarith

-- the planar configurations of an earlier example
example := C119_difference_partial (rt := .rpy) (uc := true) s1_reach s1_shallow unitDesc bad_fits (a1_args s1_links)
  (by decide) (.inl inertial)
example := C119_quaternion_partial (uc := true) s1_reach s1_shallow unitDesc bad_fits (a1_args s1_links)
  (by decide) (.inl inertial)

-- a yaw of 1 and two full turns
example : AngleTurns ⟨0, 0, 1 + 2 * (2 * Real.pi)⟩ 2 :=
  ⟨0, 0, 2, by norm_num, ⟨by simp [Real.pi_pos], by simp [Real.pi_pos.le]⟩, ⟨by simp [Real.pi_pos], by simp [Real.pi_pos]⟩,
    ⟨by push_cast; linarith [Real.pi_pos], by push_cast; linarith [Real.pi_gt_three]⟩, by simp⟩

end Example

end Tinyfk
