import Verif.Props.BaseError
import Verif.Props.BatchJac

/-!
# C81: the columns of the base angles in the Jacobian of `solve_fk`
-/

namespace Tinyfk

open Scalar

/-- entry `c` of the base part of a configuration is an angle: the yaw of a planar base, or roll, pitch or
yaw of a floating base -/
def IsBaseAngle (bt : BaseType) (c : Nat) : Prop :=
  bt = .planer ∧ c = 2 ∨ bt = .floating ∧ (c = 3 ∨ c = 4 ∨ c = 5)

section
variable {ls : List (RawLink ℝ)} {js : List (RawJoint ℝ)} {m0 mc mk : KinModel ℝ} {cs : List (Call ℝ)}
  {h : List (PyCall ℝ)} {s : PyModel ℝ} {es ids : List Nat}
  {bt : BaseType} {rt : RotType} {uc : Bool} {c0 : SizedCache (Pose ℝ)}

section

/-- replace one of three angles -/
def setAng (k : Nat) (v : ℝ) (u : Vec3 ℝ) : Vec3 ℝ :=
  match k with
  | 0 => ⟨v, u.y, u.z⟩
  | 1 => ⟨u.x, v, u.z⟩
  | _ => ⟨u.x, u.y, v⟩

/-- rotation by three angles -/
noncomputable def rpyV (u : Vec3 ℝ) : Rot ℝ := Rot.fromRPY u.x u.y u.z

/-- which of the three angles entry `c` is -/
def angIdx (bt : BaseType) (c : Nat) : Nat :=
  match bt with
  | .planer => 2
  | _ => c - 3

theorem basePart_angles {q : List ℝ} (n : Nat) (hq : q.length = n + bt.dof) {c : Nat} (hc : IsBaseAngle bt c) :
    ∃ (x y z : ℝ) (u : Vec3 ℝ), basePart n bt q = some ⟨⟨x, y, z⟩, rpyV u⟩ ∧ (bt = .planer → u.y = 0) ∧
      (bt = .floating → q[n + 4]? = some u.y) ∧ q[n + c]? = some (u.cmp (angIdx bt c)) ∧
      ∀ v, basePart n bt (q.set (n + c) v) = some ⟨⟨x, y, z⟩, rpyV (setAng (angIdx bt c) v u)⟩ := by
  have hd : (q.drop n).length = bt.dof := by simp [hq]
  have hset : ∀ k v, (q.set (n + k) v).drop n = (q.drop n).set k v := by
    intro k v
    rw [List.drop_set, if_neg (by omega), Nat.add_sub_cancel_left]
  have hget : ∀ k, q[n + k]? = (q.drop n)[k]? := by intro k; rw [List.getElem?_drop]
  rw [hget c, hget 4]
  generalize hD : q.drop n = D at hd hset hget
  rcases hc with ⟨rfl, rfl⟩ | ⟨rfl, hc⟩
  · obtain ⟨x, y, w, rfl⟩ : ∃ x y w, D = [x, y, w] := by
      match D, hd with
      | [x, y, w], _ => exact ⟨x, y, w, rfl⟩
    refine ⟨x, y, 0, ⟨0, 0, w⟩, by simp [basePart, hD, rpyV], by simp, by simp, rfl, ?_⟩
    intro v; simp [basePart, hset, rpyV, setAng, angIdx]
  · obtain ⟨x, y, z, a, b, w, rfl⟩ : ∃ x y z a b w, D = [x, y, z, a, b, w] := by
      match D, hd with
      | [x, y, z, a, b, w], _ => exact ⟨x, y, z, a, b, w, rfl⟩
    refine ⟨x, y, z, ⟨a, b, w⟩, by simp [basePart, hD, rpyV], by simp, by simp, ?_, ?_⟩
    · rcases hc with rfl | rfl | rfl <;> rfl
    · intro v
      rcases hc with rfl | rfl | rfl <;> simp [basePart, hset, rpyV, setAng, angIdx]

theorem setAng_self (k : Nat) (hk : k < 3) (u : Vec3 ℝ) : setAng k (u.cmp k) u = u := by
  match k, hk with
  | 0, _ | 1, _ | 2, _ => rfl

theorem harm_setAng {k : Nat} (hk : k < 3) (u v : Vec3 ℝ) {r : Nat} (hr : r < 3) :
    Harm 1 (Real.sqrt v.len2) fun t => ((rpyV (setAng k t u)).rotate v).cmp r := by
  match k, hk with
  | 0, _ => exact harm_roll _ _ _ hr
  | 1, _ => exact harm_pitch _ _ _ hr
  | 2, _ => exact harm_yaw _ _ _ hr

/-- one step in angle `k` from the reported angles -/
theorem rotate_tweak (u v : Vec3 ℝ) (hs : |Real.sin u.y| < 99999 / 100000) :
    ∃ σ : ℝ, (σ = 1 ∧ 0 < Real.cos u.y ∨ σ = -1 ∧ Real.cos u.y < 0) ∧ ∀ k < 3,
      (rpyV (tweak (rpyV u).getRPY k)).rotate v =
        (rpyV (setAng k (u.cmp k + (if k = 1 then σ else 1) * (1 / 10 ^ 7)) u)).rotate v := by
  obtain ⟨σ, hσ, a1, a2, a3, a4, a5, a6⟩ := getRPY_chart u.x u.z hs
  refine ⟨σ, hσ, ?_⟩
  have hσ2 : σ = 1 ∨ σ = -1 := hσ.imp And.left And.left
  have hσσ : σ * σ = 1 := by rcases hσ2 with h | h <;> rw [h] <;> ring
  intro k hk
  match k, hk with
  | 0, _ =>
    obtain ⟨b1, b2⟩ := turn_on (h := 1 / 10 ^ 7) a1 a2
    simp only [rpyV, tweak, setAng, real_epsFD, Vec3.cmp]
    simp only [Nat.zero_ne_one, if_false, one_mul]
    exact rotate_reported hσσ b1 b2 a3 a4 a5 a6 v
  | 1, _ =>
    obtain ⟨b1, b2⟩ := pitch_on (h := 1 / 10 ^ 7) hσ2 a3 a4
    simp only [rpyV, tweak, setAng, real_epsFD, Vec3.cmp, if_true]
    exact rotate_reported hσσ a1 a2 b1 b2 a5 a6 v
  | 2, _ =>
    obtain ⟨b1, b2⟩ := turn_on (h := 1 / 10 ^ 7) a5 a6
    simp only [rpyV, tweak, setAng, real_epsFD, Vec3.cmp]
    simp only [show (2 : ℕ) ≠ 1 by decide, if_false, one_mul]
    exact rotate_reported hσσ a1 a2 a3 a4 b1 b2 v

/-- the columns of the base angles -/
theorem PyReach.baseAngles (hr : PyReach ls js m0 h cs s) (hf : Shallow ls js m0 cs) (hu : UnitDesc js) {qs : QArg ℝ}
    (hc : c0.Fits s.robot.links.length) (ha : FkArgs m0 s qs es ids bt) (hb : bt ≠ .fixed)
    (hne : (∃ r ∈ ls, r.inertial.isSome) ∨ weldsAfter (names0 m0) cs ≠ []) :
    ∃ P J s', pySolveFk qs es ids rt bt true uc (s.withCache c0) = .ok (P, J) s' ∧
      ∀ (k j c r : Nat) (q : List ℝ) (x : ℝ), qs.rows[k]? = some q → j < es.length →
        IsBaseAngle bt c → r < 3 → q[ids.length + c]? = some x →
        (bt = .floating → ∀ p, q[ids.length + 4]? = some p → |Real.sin p| < 99999 / 100000) →
        ∃ (σ : ℝ) (D : ℝ → ℝ) (B : Pose ℝ),
          (σ = 1 ∨ bt = .floating ∧ c = 4 ∧ σ = -1 ∧ ∃ p, q[ids.length + 4]? = some p ∧ Real.cos p < 0) ∧
          (bt = .floating → c = 4 → σ = 1 → ∃ p, q[ids.length + 4]? = some p ∧ 0 < Real.cos p) ∧
          (∀ v (qs' : QArg ℝ), (∀ q, qs' ≠ .list1 q) → qs'.rows = qs.rows.set k (q.set (ids.length + c) v) →
            ∃ P' J' s'', pySolveFk qs' es ids rt bt true uc (s.withCache c0) = .ok (P', J') s'' ∧
              P'.f (k * es.length + j) r = D v) ∧
          basePart ids.length bt q = some B ∧
          NearDeriv D x (σ * J.f ((k * es.length + j) * rt.width + r) (ids.length + c))
            (5 / 10 ^ 8 * Real.sqrt (sqDist ⟨P.f (k * es.length + j) 0, P.f (k * es.length + j) 1, P.f (k * es.length + j) 2⟩ B.position)) := by
  obtain ⟨mc, hat⟩ := hr.at
  obtain ⟨P, J, s', mc', e, _, hres⟩ := (hat.withCache hc).pySolveFk (rt := rt) (wj := true) (uc := uc)
    (qs := qs) (es := es) hf ⟨ha.notFlat, ha.nonempty, ha.shape, ha.joints, ha.links⟩ (.inl hb) (fun _ => hne)
  refine ⟨P, J, s', e, ?_⟩
  intro k j c r q x hk hj hca hr3 hx hpitch
  have hrl : r < rt.width := by cases rt <;> simp [RotType.width] <;> omega
  have hrd : r < rt.dim := by cases rt <;> simp [RotType.dim] <;> omega
  have hql := ha.shape q (List.mem_of_getElem? hk)
  obtain ⟨mk, hmk⟩ := hat.reach.config ha.joints hql
  have hset := configCalls_isSet ids bt q
  have hjl : es[j]? = some es[j] := by simp [hj]
  obtain ⟨B, mk1, eB, hB1, hB2, hB3⟩ := hres.jac rfl k j _ q mk hk hjl hmk
  have hwb : (bt != .fixed) = true := by simpa using hb
  rw [hwb] at eB
  obtain ⟨E, cols, hE, hcols, mk2, eJ, _⟩ := hmk.jacobian (hf.sets hset)
    (by rw [welds_sets _ hset]; exact hne) (l := es[j]) (by
      have h1 := ha.links es[j] (by simp)
      obtain ⟨θ, p, c1, e1⟩ := hmk.sets_eq hat.reach hset
      rw [e1]
      exact lt_of_lt_of_eq h1 (congrArg List.length hat.links))
    (ids := ids) (by rw [hmk.abs.joints]; exact ha.joints) rt true
  rw [eB] at eJ
  cases eJ
  obtain ⟨T, mk3, eT, hrowT⟩ := hres.pose k j _ q mk hk hjl hmk
  obtain ⟨mk4, eT', _⟩ := getLinkPose_spec (hmk.ready (hf.sets hset)) hE
  rw [eT] at eT'
  cases eT'
  obtain ⟨bx, bY, bz, u, e0, hpl, hfl, ex, hsx⟩ := basePart_angles ids.length hql hca
  rw [hx] at ex
  cases ex
  have hang : angIdx bt c < 3 := by
    rcases hca with ⟨rfl, rfl⟩ | ⟨rfl, rfl | rfl | rfl⟩ <;> simp [angIdx]
  have hbase : mk.base = ⟨⟨bx, bY, bz⟩, rpyV u⟩ := by
    rw [hmk.abs.base, baseAfter_append, baseAfter_config, e0]; rfl
  have hsin : |Real.sin u.y| < 99999 / 100000 := by
    rcases hca with ⟨h1, _⟩ | ⟨h1, _⟩
    · rw [hpl h1]; simp
    · exact hpitch h1 _ (hfl h1)
  have hEu : (rpyV u).norm2 = 1 := Rot.norm2_fromRPY _ _ _
  have hbu : mk.base.rotation.norm2 = 1 := by rw [hbase]; exact hEu
  -- the link in the base frame
  generalize hL : Pose.transform mk.base.inverse E = L
  have e1 : Pose.transform mk.base L = E := by
    rw [← hL, ← Pose.transform_assoc, Pose.transform_inverse (by rw [hbu]; norm_num), Pose.identity_transform]
  have hlen : L.position.len2 = sqDist E.position ⟨bx, bY, bz⟩ := by
    rw [← hL, len2_local hbu, hbase]
    simp only [Vec3.len2, Vec3.sub, sqDist]; ring
  obtain ⟨σ, hσ, htw⟩ := rotate_tweak u L.position hsin
  -- the position as a function of the angle
  let g : ℝ → ℝ := fun t => ((rpyV (setAng (angIdx bt c) t u)).rotate L.position).cmp r + (⟨bx, bY, bz⟩ : Vec3 ℝ).cmp r
  have hg : Harm 1 (Real.sqrt L.position.len2) g := (harm_setAng hang u L.position hr3).add_const _
  have hval : J.f ((k * es.length + j) * rt.width + r) (ids.length + c) =
      (g (u.cmp (angIdx bt c) + (if angIdx bt c = 1 then σ else 1) * (1 / 10 ^ 7)) - g (u.cmp (angIdx bt c))) / (1 / 10 ^ 7) := by
    have hfc : fullCol ids.length bt (ids.length + c) = ids.length + (3 + angIdx bt c) := by
      rcases hca with ⟨rfl, rfl⟩ | ⟨rfl, rfl | rfl | rfl⟩ <;> simp [angIdx, fullCol]
    have hcd : c < bt.dof := by
      rcases hca with ⟨rfl, rfl⟩ | ⟨rfl, rfl | rfl | rfl⟩ <;> simp [BaseType.dof]
    rw [hB3 r hrl _ (by omega), hfc, hcols.length_eq, if_pos rfl, jacMat_base hrd (by omega)]
    have hbc : baseCol rt E mk.base (3 + angIdx bt c) r = baseRotCol rt E mk.base (angIdx bt c) r := by simp [baseCol]
    rw [hbc, baseRotCol_row hrd, hL, Pose.row_pos _ _ hr3, Pose.row_pos _ _ hr3]
    congr 2
    · rw [hbase]
      show (Vec3.add ((rpyV (tweak (rpyV u).getRPY (angIdx bt c))).rotate L.position) ⟨bx, bY, bz⟩).cmp r = _
      rw [Vec3.cmp_add, htw _ hang]
    · rw [← e1, hbase]
      show (Vec3.add ((rpyV u).rotate L.position) ⟨bx, bY, bz⟩).cmp r = _
      rw [Vec3.cmp_add]
      simp only [g, setAng_self _ hang]
  have hε : ∀ D, (1 : ℝ) ^ 2 * D * (1 / 10 ^ 7) / 2 = 5 / 10 ^ 8 * D := by intro D; ring
  have hPE : (⟨P.f (k * es.length + j) 0, P.f (k * es.length + j) 1, P.f (k * es.length + j) 2⟩ : Vec3 ℝ) = E.position := by
    have hw : 3 ≤ rt.width := by cases rt <;> simp [RotType.width]
    rw [hrowT.row (by omega), hrowT.row (by omega), hrowT.row (by omega)]
    rfl
  have hc4 : angIdx bt c = 1 → bt = .floating ∧ c = 4 := by
    rcases hca with ⟨rfl, rfl⟩ | ⟨rfl, rfl | rfl | rfl⟩ <;> simp [angIdx]
  refine ⟨if angIdx bt c = 1 then σ else 1, g, ⟨⟨bx, bY, bz⟩, rpyV u⟩, ?_, ?_, ?_, e0, ?_⟩
  · split
    · rename_i h1
      obtain ⟨h2, h3⟩ := hc4 h1
      rcases hσ with ⟨h4, _⟩ | ⟨h4, h5⟩
      · exact .inl h4
      · exact .inr ⟨h2, h3, h4, u.y, hfl h2, h5⟩
    · exact .inl rfl
  · intro h1 h2 h3
    rw [if_pos (by rw [h1, h2]; rfl)] at h3
    rcases hσ with ⟨_, h5⟩ | ⟨h4, _⟩
    · exact ⟨u.y, hfl h1, h5⟩
    · rw [h4] at h3; norm_num at h3
  · intro v qs' hflat hrows
    have hl' : (q.set (ids.length + c) v).length = ids.length + bt.dof := by rw [List.length_set]; exact hql
    obtain ⟨P', J', s'', _, e', _, hres'⟩ := (hat.withCache hc).pySolveFk (rt := rt) (wj := true) (uc := uc)
      (qs := qs') (es := es) hf ⟨hflat, by rw [hrows]; simpa using ha.nonempty, by
        rw [hrows]
        intro q1 hq1
        rcases List.mem_or_eq_of_mem_set hq1 with h1 | h1
        · exact ha.shape q1 h1
        · rw [h1]; exact hl', ha.joints, ha.links⟩ (.inl hb) (fun _ => hne)
    refine ⟨P', J', s'', e', ?_⟩
    obtain ⟨mkv, hmkv⟩ := hat.reach.config ha.joints hl'
    obtain ⟨T', mk', eT', hrow⟩ := hres'.pose k j _ (q.set (ids.length + c) v) mkv (by
      rw [hrows, List.getElem?_set_self (List.getElem?_eq_some_iff.mp hk).1]) hjl hmkv
    rw [hrow.row hrl, hat.reach.varyBase hf hu hr.unitCalls (by rw [List.take_set_of_le (by omega)]) (hsx v) hmk hmkv hE eT', hL,
      Pose.row_pos _ _ hr3]
    show (Vec3.add ((rpyV (setAng (angIdx bt c) v u)).rotate L.position) ⟨bx, bY, bz⟩).cmp r = _
    rw [Vec3.cmp_add]
  · rw [hPE, ← hlen, hval]
    generalize angIdx bt c = a at *
    have hss : (if a = 1 then σ else 1) = 1 ∨ (if a = 1 then σ else 1) = -1 := by
      split
      · exact hσ.imp And.left And.left
      · exact .inl rfl
    rcases hss with h1 | h1
    · rw [h1, one_mul, one_mul]
      obtain ⟨D, d1, d2⟩ := hg.fwd (by norm_num) (Real.sqrt_nonneg _) (u.cmp a) (h := 1 / 10 ^ 7) (by positivity)
      exact ⟨D, d1, by rw [← hε]; exact d2⟩
    · rw [h1, neg_one_mul, neg_one_mul]
      obtain ⟨D, d1, d2⟩ := hg.bwd (by norm_num) (Real.sqrt_nonneg _) (u.cmp a) (h := 1 / 10 ^ 7) (by positivity)
      refine ⟨D, d1, ?_⟩
      rw [← hε, ← abs_neg, show ∀ A : ℝ, -(-A - D) = A + D by intro A; ring]
      exact d2

end

/-- **C81 (partial).** `solve_fk` with a planar or floating base, on a robot with any past and any contents of the
cache: the position rows of the columns of the base angles are within `5e-8` times the distance of the link from
the base of the derivatives of the returned positions. `D v` is the number returned in that place when
entry `c` of the base part of configuration `k` is replaced by `v`. Planar bases need no hypothesis. A
floating base must be away from the singularity, and for the pitch column the cosine of the pitch must be
positive. Missing: pitch columns for a pitch beyond a right angle, which are wrong (`C81_pitch_reversed`,
`C81_false`). -/
theorem C81_base_angles_partial (hr : PyReach ls js m0 h cs s) (hf : Shallow ls js m0 cs) (hu : UnitDesc js) {qs : QArg ℝ}
    (hc : c0.Fits s.robot.links.length) (ha : FkArgs m0 s qs es ids bt) (hb : bt ≠ .fixed)
    (hne : (∃ r ∈ ls, r.inertial.isSome) ∨ weldsAfter (names0 m0) cs ≠ []) :
    ∃ P J s', pySolveFk qs es ids rt bt true uc (s.withCache c0) = .ok (P, J) s' ∧
      ∀ (k j c r : Nat) (q : List ℝ) (x : ℝ), qs.rows[k]? = some q → j < es.length →
        IsBaseAngle bt c → r < 3 → q[ids.length + c]? = some x →
        (bt = .floating → ∀ p, q[ids.length + 4]? = some p → |Real.sin p| < 99999 / 100000 ∧ (c = 4 → 0 < Real.cos p)) →
        ∃ (D : ℝ → ℝ) (B : Pose ℝ),
          (∀ v (qs' : QArg ℝ), (∀ q, qs' ≠ .list1 q) → qs'.rows = qs.rows.set k (q.set (ids.length + c) v) →
            ∃ P' J' s'', pySolveFk qs' es ids rt bt true uc (s.withCache c0) = .ok (P', J') s'' ∧
              P'.f (k * es.length + j) r = D v) ∧
          basePart ids.length bt q = some B ∧
          NearDeriv D x (J.f ((k * es.length + j) * rt.width + r) (ids.length + c))
            (5 / 10 ^ 8 * Real.sqrt (sqDist ⟨P.f (k * es.length + j) 0, P.f (k * es.length + j) 1, P.f (k * es.length + j) 2⟩ B.position)) := by
  obtain ⟨P, J, s', e, H⟩ := hr.baseAngles (rt := rt) (uc := uc) hf hu hc ha hb hne
  refine ⟨P, J, s', e, ?_⟩
  intro k j c r q x hk hj hca hr3 hx hp
  obtain ⟨σ, D, B, h1, h2, h3, h4, h5⟩ := H k j c r q x hk hj hca hr3 hx (fun h p h' => (hp h p h').1)
  refine ⟨D, B, h3, h4, ?_⟩
  rcases h1 with h1 | ⟨g1, g2, g3, p, g4, g5⟩
  · rw [h1, one_mul] at h5; exact h5
  · exact absurd ((hp g1 p g4).2 g2) (by linarith)

/-- **C81 is false for a pitch beyond a right angle.** With a floating base whose pitch has a negative cosine, the
pitch column is the derivative of the returned position with the sign reversed (up to the same error). -/
theorem C81_pitch_reversed (hr : PyReach ls js m0 h cs s) (hf : Shallow ls js m0 cs) (hu : UnitDesc js) {qs : QArg ℝ}
    (hc : c0.Fits s.robot.links.length) (ha : FkArgs m0 s qs es ids .floating)
    (hne : (∃ r ∈ ls, r.inertial.isSome) ∨ weldsAfter (names0 m0) cs ≠ []) :
    ∃ P J s', pySolveFk qs es ids rt .floating true uc (s.withCache c0) = .ok (P, J) s' ∧
      ∀ (k j r : Nat) (q : List ℝ) (p : ℝ), qs.rows[k]? = some q → j < es.length → r < 3 →
        q[ids.length + 4]? = some p → |Real.sin p| < 99999 / 100000 → Real.cos p < 0 →
        ∃ (D : ℝ → ℝ) (B : Pose ℝ),
          (∀ v (qs' : QArg ℝ), (∀ q, qs' ≠ .list1 q) → qs'.rows = qs.rows.set k (q.set (ids.length + 4) v) →
            ∃ P' J' s'', pySolveFk qs' es ids rt .floating true uc (s.withCache c0) = .ok (P', J') s'' ∧
              P'.f (k * es.length + j) r = D v) ∧
          basePart ids.length .floating q = some B ∧
          NearDeriv D p (-J.f ((k * es.length + j) * rt.width + r) (ids.length + 4))
            (5 / 10 ^ 8 * Real.sqrt (sqDist ⟨P.f (k * es.length + j) 0, P.f (k * es.length + j) 1, P.f (k * es.length + j) 2⟩ B.position)) := by
  obtain ⟨P, J, s', e, H⟩ := hr.baseAngles (rt := rt) (uc := uc) hf hu hc ha (by decide) hne
  refine ⟨P, J, s', e, ?_⟩
  intro k j r q p hk hj hr3 hp hs hcos
  obtain ⟨σ, D, B, h1, h2, h3, h4, h5⟩ := H k j 4 r q p hk hj (.inr ⟨rfl, by simp⟩) hr3 hp (fun _ p' h' => by
    rw [hp] at h'; cases h'; exact hs)
  refine ⟨D, B, h3, h4, ?_⟩
  rcases h1 with h1 | ⟨_, _, g3, _⟩
  · obtain ⟨p', g1, g2⟩ := h2 rfl rfl h1
    rw [hp] at g1; cases g1
    linarith
  · rw [g3, neg_one_mul] at h5; exact h5

end

namespace Example

theorem arm_id0 : getLinkIds ["arm"] m0 = .ok [0] m0 := by
  have hr := s0_reach.at
  obtain ⟨mc, hat⟩ := hr
  rw [getLinkIds_one, constructed.inv.graph.linkNames]
  have := congrArg (fun l => l[0]?) linkNames
  simpa [List.getElem?_map] using this

/-- the arguments: one floating configuration, no joints, the link "arm" -/
theorem tilt_args (v : ℝ) : FkArgs m0 s0 (.nd1 [0, 0, 0, 0, v, 0]) [0] [] .floating := by
  refine ⟨by simp, by simp [QArg.rows], by simp [QArg.rows, BaseType.dof], by simp, ?_⟩
  have : m0.links.length = 6 := by
    have := congrArg List.length linkNames
    simpa using this
  simp [s0, this]

theorem s0_fits : (⟨6, List.replicate 6 Pose.identity, List.replicate 6 true⟩ : SizedCache (Pose ℝ)).Fits s0.robot.links.length := by
  have : m0.links.length = 6 := by
    have := congrArg List.length linkNames
    simpa using this
  show SizedCache.Fits _ m0.links.length
  rw [this]
  exact ⟨rfl, rfl, rfl⟩

/-- position of the arm, one above the base, for a pitch of `v` -/
theorem arm_x (v : ℝ) : ∃ P J s', pySolveFk (.nd1 [0, 0, 0, 0, v, 0]) [0] [] .ignore .floating true false
    (s0.withCache ⟨6, List.replicate 6 Pose.identity, List.replicate 6 true⟩) = .ok (P, J) s' ∧
      P.f 0 0 = Real.sin v ∧ P.f 0 1 = 0 ∧ P.f 0 2 = Real.cos v := by
  obtain ⟨P, J, s', e, _, _, H⟩ := C02_solve_fk (rt := .ignore) (wj := true) s0_reach (shallow_sets rfl) s0_fits (tilt_args v)
    (fun _ => .inl inertial)
  refine ⟨P, J, s', e, ?_⟩
  obtain ⟨θ, hθ⟩ := exists_angles m0 ([] ++ configCalls [] .floating [0, 0, 0, 0, v, 0])
  obtain ⟨T, hT, hrow⟩ := H 0 0 0 [0, 0, 0, 0, v, 0] "arm" θ rfl rfl arm_id0 hθ
  have h1 : WorldPose ls js (AllWelds ls m0 []) θ (baseAfter Pose.identity ([] ++ configCalls [] .floating [0, 0, 0, 0, v, 0])) "base" _ :=
    .root (l := ⟨"base", none⟩) (by simp [ls]) (by simp [js, turn, slide, weld])
  have h2 := (hT _).mp (WorldPose.joint (j := turn) (by simp [js]) h1 (.rot (.inl rfl)))
  obtain ⟨h3, h4, h5, _⟩ := hrow
  simp only [List.length_cons, List.length_nil] at h3 h4 h5
  refine ⟨h3.trans ?_, h4.trans ?_, h5.trans ?_⟩
  all_goals
    rw [← h2]
    simp only [List.nil_append, configCalls, basePart, List.length_nil, List.drop_zero, baseAfter, Pose.transform, rotate_fromRPY, turn, Vec3.add]
    simp [Vec3.zero]

theorem cos_three : Real.cos 3 < -(98 / 100) := by
  have h1 := Real.one_sub_sq_div_two_le_cos (x := Real.pi - 3)
  rw [Real.cos_pi_sub] at h1
  have h2 := Real.pi_lt_d2
  have h3 := Real.pi_gt_three
  have : (Real.pi - 3) ^ 2 ≤ (15 / 100) ^ 2 := by
    apply pow_le_pow_left₀ <;> linarith
  nlinarith

/-- **C81 is false.** For the robot of the example and the configuration of the base with pitch 3, the derivative of
the returned x coordinate of the arm in the pitch is less than `-0.9`, but the returned entry of the Jacobian
is more than `0.9`. -/
theorem C81_false : ∃ P J s', pySolveFk (.nd1 [0, 0, 0, 0, 3, 0]) [0] [] .ignore .floating true false
      (s0.withCache ⟨6, List.replicate 6 Pose.identity, List.replicate 6 true⟩) = .ok (P, J) s' ∧
    ∃ D D', (∀ v, ∃ P' J' s'', pySolveFk (.nd1 [0, 0, 0, 0, v, 0]) [0] [] .ignore .floating true false
        (s0.withCache ⟨6, List.replicate 6 Pose.identity, List.replicate 6 true⟩) = .ok (P', J') s'' ∧ P'.f 0 0 = D v) ∧
      HasDerivAt D D' 3 ∧ D' < -(9 / 10) ∧ 9 / 10 < J.f 0 4 := by
  obtain ⟨P, J, s', e, H⟩ := C81_pitch_reversed (rt := .ignore) (uc := false) s0_reach (shallow_sets rfl) unitDesc s0_fits (tilt_args 3)
    (.inl inertial)
  obtain ⟨P1, J1, s1', e1, x1, x2, x3⟩ := arm_x 3
  rw [e] at e1
  cases e1
  refine ⟨P, J, s', e, Real.sin, Real.cos 3, fun v => ?_, Real.hasDerivAt_sin 3, by linarith [cos_three], ?_⟩
  · obtain ⟨P', J', s'', e', x', _⟩ := arm_x v
    exact ⟨P', J', s'', e', x'⟩
  · have hs3 : |Real.sin 3| < 99999 / 100000 := by
      have h1 := Real.sin_sq_add_cos_sq 3
      apply abs_lt_of_sq_lt_sq _ (by norm_num)
      nlinarith [cos_three]
    obtain ⟨D, B, hD, hB, D', d1, d2⟩ := H 0 0 0 [0, 0, 0, 0, 3, 0] 3 rfl (by decide) (by decide) rfl hs3 (by linarith [cos_three])
    have hDs : D = Real.sin := by
      funext v
      obtain ⟨P', J', s'', e', x'⟩ := hD v (.nd1 [0, 0, 0, 0, v, 0]) (by simp) rfl
      obtain ⟨P'', J'', s3, e'', x'', _⟩ := arm_x v
      rw [e'] at e''
      cases e''
      exact x'.symm.trans x''
    rw [hDs] at d1
    have := d1.unique (Real.hasDerivAt_sin 3)
    have hBp : B.position = ⟨0, 0, 0⟩ := by
      simp only [basePart, List.length_nil, List.drop_zero, Option.some.injEq] at hB
      rw [← hB]
    have hd : sqDist ⟨P.f (0 * [0].length + 0) 0, P.f (0 * [0].length + 0) 1, P.f (0 * [0].length + 0) 2⟩ B.position = 1 := by
      simp only [List.length_cons, List.length_nil, Nat.zero_mul, Nat.add_zero, x1, x2, x3, hBp, sqDist]
      linear_combination Real.sin_sq_add_cos_sq 3
    rw [hd, Real.sqrt_one, this] at d2
    have d3 := (abs_le.mp d2).2
    have e4 : J.f ((0 * [0].length + 0) * RotType.ignore.width + 0) (([] : List Nat).length + 4) = J.f 0 4 := by simp
    rw [e4] at d3
    have d4 := (abs_le.mp d2).1
    rw [e4] at d4
    linarith [cos_three]

-- the planar configurations of an earlier example
example := C81_base_angles_partial (rt := .rpy) (uc := true) s1_reach s1_shallow unitDesc bad_fits (a1_args s1_links)
  (by decide) (.inl inertial)

end Example
end Tinyfk
