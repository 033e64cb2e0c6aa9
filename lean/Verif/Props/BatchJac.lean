import Verif.Props.ComJac
import Verif.Props.Dist

/-!
# C36, C63: the Jacobians of the Python solvers are derivatives of their results
-/

namespace Tinyfk

open Scalar

section
variable {ls : List (RawLink ℝ)} {js : List (RawJoint ℝ)} {m0 mc mk : KinModel ℝ} {cs : List (Call ℝ)}
  {h : List (PyCall ℝ)} {s : PyModel ℝ} {ps : List (Nat × Nat)} {es ids : List Nat}
  {bt : BaseType} {rt : RotType} {uc : Bool} {c0 : SizedCache (Pose ℝ)}

section

theorem LastListing.of_nodup {ids : List Nat} (hn : ids.Nodup) {c : Nat} (hc : c < ids.length) : LastListing ids c := by
  intro c' h e
  rw [List.getElem?_eq_getElem hc] at e
  obtain ⟨h', e'⟩ := List.getElem?_eq_some_iff.mp e
  have := (List.Nodup.getElem_inj_iff hn).mp e'
  omega

theorem lastWrite_last {ids : List Nat} {vals : List ℝ} {k i : Nat} {v : ℝ} (hn : LastListing ids k)
    (hi : ids[k]? = some i) (hv : vals[k]? = some v) : lastWrite (ids.zip vals) i = some v := by
  induction ids generalizing vals k with
  | nil => simp at hi
  | cons a ids ih =>
    cases vals with
    | nil => simp at hv
    | cons w vals =>
      rw [List.zip_cons_cons, lastWrite_cons]
      cases k with
      | zero =>
        simp only [List.getElem?_cons_zero, Option.some.injEq] at hi hv
        subst hi; subst hv
        have : a ∉ ids := fun hm => by
          obtain ⟨k', hk', e⟩ := List.mem_iff_getElem.mp hm
          exact hn (k' + 1) (by omega) (by simp [hk', e])
        simp [lastWrite_eq_none this]
      | succ k =>
        simp only [List.getElem?_cons_succ] at hi hv
        have hn' : LastListing ids k := fun c' h' e => hn (c' + 1) (by omega) (by simpa using e)
        simp [ih hn' hi hv]

theorem lastWrite_set {ids : List Nat} {vals : List ℝ} {k i j : Nat} {v : ℝ}
    (hi : ids[k]? = some i) (hj : j ≠ i) : lastWrite (ids.zip (vals.set k v)) j = lastWrite (ids.zip vals) j := by
  induction ids generalizing vals k with
  | nil => simp at hi
  | cons a ids ih =>
    cases vals with
    | nil => simp
    | cons w vals =>
      cases k with
      | zero =>
        simp only [List.getElem?_cons_zero, Option.some.injEq] at hi
        subst hi
        simp only [List.set_cons_zero, List.zip_cons_cons, lastWrite_cons]
        have : ¬ a = j := fun e => hj e.symm
        simp [this]
      | succ k =>
        simp only [List.getElem?_cons_succ] at hi
        simp only [List.set_cons_succ, List.zip_cons_cons, lastWrite_cons, ih hi]

/-- changing one joint entry of a configuration is `set_joint_angles` of that joint -/
theorem Reach.vary (hc : Reach ls js m0 cs mc) {q : List ℝ} {c i : Nat} {x v : ℝ} (hn : LastListing ids c)
    (hq : ids.length ≤ q.length) (hi : ids[c]? = some i) (hx : q[c]? = some x) (hil : i < m0.joints.length)
    (h1 : Reach ls js m0 (cs ++ configCalls ids bt q) mk) {mkv : KinModel ℝ}
    (h2 : Reach ls js m0 (cs ++ configCalls ids bt (q.set c v)) mkv) :
    mk.angles[i]? = some x ∧ SameRobot (turned mk i v) mkv := by
  have hcl := (List.getElem?_eq_some_iff.mp hi).1
  have htk : ∀ w, (q.take ids.length).set c w = (q.set c w).take ids.length := fun w => (List.take_set ..).symm
  have hang : mk.angles[i]? = some x := by
    rw [h1.angles_get i hil, angleAfter_append, angleAfter_config,
      lastWrite_last hn hi (v := x) (by rw [List.getElem?_take_of_lt hcl]; exact hx)]
    rfl
  refine ⟨hang, ?_⟩
  have hlen : i < mk.angles.length := (List.getElem?_eq_some_iff.mp hang).1
  have h3 := h1.snoc (c := .setJointAngles [i] [v]) (m' := turned mk i v) (turned_set hlen v)
  rw [List.append_assoc] at h3
  refine hc.sameRobot h3 h2 ?_ (configCalls_isSet ids bt _) ?_ ?_
  · intro c hcm
    rcases List.mem_append.mp hcm with hcm | hcm
    · exact configCalls_isSet ids bt _ c hcm
    · obtain rfl := List.mem_singleton.mp hcm
      trivial
  · intro j
    rw [angleAfter_append, angleAfter_append, angleAfter_append j 0 cs, angleAfter_config, angleAfter_config, ← htk]
    simp only [angleAfter, List.zip_cons_cons, List.zip_nil_left, lastWrite_cons]
    by_cases hj : i = j
    · subst hj
      have hset : lastWrite (ids.zip ((q.take ids.length).set c v)) i = some v :=
        lastWrite_last hn hi (by rw [List.getElem?_set_self (by simp; omega)])
      rw [hset]
      simp [lastWrite]
    · rw [lastWrite_set hi (Ne.symm hj)]
      simp [lastWrite, hj]
  · rw [baseAfter_append, baseAfter_append, baseAfter_append _ cs, baseAfter_config, baseAfter_config]
    have : basePart ids.length bt (q.set c v) = basePart ids.length bt q := by
      unfold basePart
      rw [List.drop_set_of_lt hcl]
    rw [this]
    rfl

/-- the poses of a link along such a change -/
theorem Reach.vary_pose (hc : Reach ls js m0 cs mc) (hf : Shallow ls js m0 cs) {q : List ℝ} {c i l : Nat} {x v : ℝ} (hn : LastListing ids c)
    (hq : ids.length ≤ q.length) (hi : ids[c]? = some i) (hx : q[c]? = some x) (hil : i < m0.joints.length)
    (h1 : Reach ls js m0 (cs ++ configCalls ids bt q) mk) {mkv m' : KinModel ℝ}
    (h2 : Reach ls js m0 (cs ++ configCalls ids bt (q.set c v)) mkv) {T : ℝ → Pose ℝ}
    (hT : ∀ v, IsPose (turned mk i v) l (T v)) {T' : Pose ℝ} (e : getLinkPose l mkv = .ok T' m') : T' = T v := by
  obtain ⟨_, hs⟩ := hc.vary hn hq hi hx hil h1 h2
  obtain ⟨m2, e2, _⟩ := getLinkPose_spec (h2.ready (hf.sets (configCalls_isSet ids bt _))) ((IsPose.of_same hs).mpr (hT v))
  rw [e] at e2
  cases e2
  rfl

theorem set_self {q : List ℝ} {c : Nat} {x : ℝ} (h : q[c]? = some x) : q.set c x = q := by
  obtain ⟨h1, rfl⟩ := List.getElem?_eq_some_iff.mp h
  exact List.set_getElem_self h1

theorem PoseRow.row {P : Mat ℝ} {k r : Nat} {T : Pose ℝ} (h : PoseRow rt P k T) (hr : r < rt.width) : P.f k r = T.row rt r := by
  obtain ⟨h1, h2, h3, h4⟩ := h
  cases rt
  all_goals
    simp only [RotType.width] at hr
    simp only at h4
    interval_cases r <;> simp [Pose.row, *]

/-- inside the band, in terms of the reported pitch -/
theorem Rot.band_of_pitch {q : Rot ℝ} (h : |Real.sin q.getRPY.y| < 99999 / 100000) : |q.sarg| < 99999 / 100000 := by
  by_contra hn
  simp only [Rot.getRPY] at h
  have hpi : 99999 / 100000 < Real.sin (pi2 : ℝ) := by
    have e : (pi2 : ℝ) = 157079632679489661923 / 10 ^ 20 := by simp [pi2, real_lit]
    have h1 := Real.pi_gt_d4
    have h2 := Real.pi_lt_d4
    rw [← Real.cos_pi_div_two_sub]
    have h3 := Real.one_sub_sq_div_two_le_cos (x := Real.pi / 2 - pi2)
    have h4 : |Real.pi / 2 - (pi2 : ℝ)| < 1 / 1000 := by
      rw [e, abs_lt]; constructor <;> linarith
    have h5 := abs_lt.mp h4
    nlinarith
  split at h
  · simp only [Real.sin_neg, abs_neg] at h
    linarith [le_abs_self (Real.sin (pi2 : ℝ))]
  · split at h
    · linarith [le_abs_self (Real.sin (pi2 : ℝ))]
    · rename_i h1 h2
      rw [real_le, Rot.real_sargCut] at h1 h2
      exact hn (abs_lt.mpr ⟨by linarith, by linarith⟩)

/-- the rows of a pose that are smooth functions of the pose -/
theorem Moves.row {m : KinModel ℝ} {i l : Nat} {θ : ℝ} {E : Pose ℝ} {d a : Vec3 ℝ} {T : ℝ → Pose ℝ} {J : Mat ℝ} {k r : Nat}
    (hT : Moves m i l θ E d a T) (hJ : ColumnIs rt J k E d a) (hr : r < rt.width)
    (hreg : rt = .rpy → 3 ≤ r → |E.rotation.sarg| < 99999 / 100000 ∧ E.rotation.getRPY.x ≠ Real.pi ∧ E.rotation.getRPY.z ≠ Real.pi) :
    HasDerivAt (fun v => (T v).row rt r) (J.f r k) θ := by
  have hr' := hr
  obtain ⟨p1, p2, p3⟩ := hT.pos
  by_cases h3 : r < 3
  · interval_cases r
    · rw [hJ.x]; exact p1
    · rw [hJ.y]; exact p2
    · rw [hJ.z]; exact p3
  cases rt with
  | ignore => exact absurd hr h3
  | rpy =>
    obtain ⟨hb, hc1, hc2⟩ := hreg rfl (by omega)
    obtain ⟨e1, e2, e3⟩ := hJ.rpy rfl
    have hrot := hT.rot
    rw [← hT.here] at hrot hb hc1 hc2 e1 e2 e3
    obtain ⟨d1, d2, d3⟩ := Rot.getRPY_deriv (f := fun v => (T v).rotation) hT.unit hrot hb ⟨hc1, hc2⟩
    simp only [RotType.width] at hr
    replace h3 : 3 ≤ r := by omega
    clear hr' hreg
    interval_cases r
    · rw [e1]; exact d1
    · rw [e2]; exact d2
    · rw [e3]; exact d3
  | xyzw =>
    obtain ⟨e1, e2, e3, e4⟩ := hJ.quat rfl
    obtain ⟨d1, d2, d3, d4⟩ := hT.rot
    simp only [RotType.width] at hr
    replace h3 : 3 ≤ r := by omega
    clear hr' hreg
    interval_cases r
    · rw [e1]; exact d1
    · rw [e2]; exact d2
    · rw [e3]; exact d3
    · rw [e4]; exact d4

end

/-- **C63.** The Jacobian returned by `solve_fk` is the derivative of the poses it returns: for a joint
column `c` and row `r` of the pose of link `j` in configuration `k`, let `D v` be the number returned in that
place when entry `c` of configuration `k` is replaced by `v`. Then `D` is differentiable at the given
configuration, and its derivative is the entry of `J`. The joint is not listed again further on (C85 says what
happens then); roll-pitch-yaw rows are smooth only away from the singularity and the jumps at `π`, which is stated in terms of the
returned angles. -/
theorem C63_solve_fk_jacobian (hr : PyReach ls js m0 h cs s) (hf : Shallow ls js m0 cs) (hu : UnitDesc js) {qs : QArg ℝ}
    (hc : c0.Fits s.robot.links.length) (ha : FkArgs m0 s qs es ids bt) (huc : bt ≠ .fixed ∨ uc = false)
    (hne : (∃ r ∈ ls, r.inertial.isSome) ∨ weldsAfter (names0 m0) cs ≠ []) :
    ∃ P J s', pySolveFk qs es ids rt bt true uc (s.withCache c0) = .ok (P, J) s' ∧
      ∀ (k j c r : Nat) (q : List ℝ) (x : ℝ), qs.rows[k]? = some q → j < es.length → c < ids.length → r < rt.width →
        q[c]? = some x → LastListing ids c →
        (rt = .rpy → 3 ≤ r → |Real.sin (P.f (k * es.length + j) 4)| < 99999 / 100000 ∧
          P.f (k * es.length + j) 3 ≠ Real.pi ∧ P.f (k * es.length + j) 5 ≠ Real.pi) →
        ∃ D : ℝ → ℝ,
          (∀ v (qs' : QArg ℝ), (∀ q, qs' ≠ .list1 q) → qs'.rows = qs.rows.set k (q.set c v) →
            ∃ P' J' s'', pySolveFk qs' es ids rt bt true uc (s.withCache c0) = .ok (P', J') s'' ∧
              P'.f (k * es.length + j) r = D v) ∧
          HasDerivAt D (J.f ((k * es.length + j) * rt.width + r) c) x := by
  obtain ⟨mc, hat⟩ := hr.at
  obtain ⟨P, J, s', mc', e, _, hres⟩ := (hat.withCache hc).pySolveFk (rt := rt) (wj := true) (uc := uc)
    (qs := qs) (es := es) hf ⟨ha.notFlat, ha.nonempty, ha.shape, ha.joints, ha.links⟩ huc (fun _ => hne)
  refine ⟨P, J, s', e, ?_⟩
  intro k j c r q x hk hj hcl hrl hx hn hreg
  have hqm := List.mem_of_getElem? hk
  have hql := ha.shape q hqm
  obtain ⟨mk, hmk⟩ := hat.reach.config ha.joints hql
  have hset := configCalls_isSet ids bt q
  have hjl : es[j]? = some es[j] := by simp [hj]
  have hci : ids[c]? = some ids[c] := by simp [hcl]
  have hil := ha.joints ids[c] (by simp)
  obtain ⟨B, mk1, eB, hB1, hB2, hB3⟩ := hres.jac rfl k j _ q mk hk hjl hmk
  obtain ⟨E, J1, mk2, hE, eJ, hcol⟩ := hmk.jacobian_moves (hf.sets hset) hu (hr.unitCalls.append (configCalls_unit ids bt q))
    (by rw [welds_sets _ hset]; exact hne) (l := es[j]) (by
      have h1 := ha.links es[j] (by simp)
      obtain ⟨θ, p, c1, e1⟩ := hmk.sets_eq hat.reach hset
      rw [e1]
      exact lt_of_lt_of_eq h1 (congrArg List.length hat.links))
    (ids := ids) (by rw [hmk.abs.joints]; exact ha.joints) rt (bt != .fixed)
  rw [eB] at eJ
  cases eJ
  obtain ⟨θ, d, a, T, hθ, hT, hJ⟩ := hcol c _ hci
  refine ⟨fun v => (T v).row rt r, ?_, ?_⟩
  · intro v qs' hflat hrows
    have hl' : (q.set c v).length = ids.length + bt.dof := by rw [List.length_set]; exact hql
    obtain ⟨P', J', s'', _, e', _, hres'⟩ := (hat.withCache hc).pySolveFk (rt := rt) (wj := true) (uc := uc)
      (qs := qs') (es := es) hf ⟨hflat, by rw [hrows]; simpa using ha.nonempty, by
        rw [hrows]
        intro q1 hq1
        rcases List.mem_or_eq_of_mem_set hq1 with h1 | h1
        · exact ha.shape q1 h1
        · rw [h1]; exact hl', ha.joints, ha.links⟩ huc (fun _ => hne)
    refine ⟨P', J', s'', e', ?_⟩
    obtain ⟨mkv, hmkv⟩ := hat.reach.config ha.joints hl'
    obtain ⟨T', mk', eT, hrow⟩ := hres'.pose k j _ (q.set c v) mkv (by
      rw [hrows, List.getElem?_set_self (List.getElem?_eq_some_iff.mp hk).1]) hjl hmkv
    rw [hrow.row hrl, hat.reach.vary_pose hf hn (by omega) hci hx hil hmk hmkv hT.pose eT]
  · have hθx : θ = x := by
      have := (hat.reach.vary (v := x) hn (by omega) hci hx hil hmk
        (mkv := mk) (by rw [set_self hx]; exact hmk)).1
      rw [hθ] at this
      exact Option.some.inj this
    subst hθx
    have hfc : fullCol ids.length bt c = c := by
      unfold fullCol
      split
      · rw [if_neg (by omega)]
      · rfl
    rw [hB3 r hrl c (by omega), hfc]
    refine hT.row hJ hrl ?_
    intro hrt h3
    obtain ⟨T0, mk', eT, hrow⟩ := hres.pose k j _ q mk hk hjl hmk
    obtain ⟨m2, e2, _⟩ := getLinkPose_spec (hmk.ready (hf.sets hset)) hE
    rw [eT] at e2
    cases e2
    obtain ⟨g1, g2, g3⟩ := hreg hrt h3
    subst hrt
    obtain ⟨_, _, _, f1, f2, f3⟩ := hrow
    rw [f2] at g1
    rw [f1] at g2
    rw [f3] at g3
    exact ⟨Rot.band_of_pitch g1, g2, g3⟩


section

/-- the base pose of a configuration as a vector -/
theorem basePart_coords {q : List ℝ} (n : Nat) (hq : q.length = n + bt.dof) (hb : bt ≠ .fixed) :
    ∃ x y z a b w : ℝ, basePart n bt q = some ⟨⟨x, y, z⟩, Rot.fromRPY a b w⟩ ∧ q[n]? = some x ∧ q[n + 1]? = some y ∧
      (∀ v, basePart n bt (q.set n v) = some ⟨⟨v, y, z⟩, Rot.fromRPY a b w⟩) ∧
      (∀ v, basePart n bt (q.set (n + 1) v) = some ⟨⟨x, v, z⟩, Rot.fromRPY a b w⟩) ∧
      (bt = .floating → q[n + 2]? = some z ∧ ∀ v, basePart n bt (q.set (n + 2) v) = some ⟨⟨x, y, v⟩, Rot.fromRPY a b w⟩) := by
  have hd : (q.drop n).length = bt.dof := by simp [hq]
  have hset : ∀ k v, (q.set (n + k) v).drop n = (q.drop n).set k v := by
    intro k v
    rw [List.drop_set, if_neg (by omega), Nat.add_sub_cancel_left]
  have hget : ∀ k, q[n + k]? = (q.drop n)[k]? := by intro k; rw [List.getElem?_drop]
  have hset0 := hset 0
  have hget0 := hget 0
  simp only [Nat.add_zero] at hset0 hget0
  rw [hget0, hget 1, hget 2]
  generalize hD : q.drop n = D at hd hset hset0 hget
  cases bt with
  | fixed => exact absurd rfl hb
  | planer =>
    obtain ⟨x, y, w, rfl⟩ : ∃ x y w, D = [x, y, w] := by
      match D, hd with
      | [x, y, w], _ => exact ⟨x, y, w, rfl⟩
    refine ⟨x, y, 0, 0, 0, w, ?_, rfl, rfl, ?_, ?_, ?_⟩
    · simp [basePart, hD]
    · intro v; simp [basePart, hset0]
    · intro v; simp [basePart, hset]
    · simp
  | floating =>
    obtain ⟨x, y, z, a, b, w, rfl⟩ : ∃ x y z a b w, D = [x, y, z, a, b, w] := by
      match D, hd with
      | [x, y, z, a, b, w], _ => exact ⟨x, y, z, a, b, w, rfl⟩
    refine ⟨x, y, z, a, b, w, ?_, rfl, rfl, ?_, ?_, ?_⟩
    · simp [basePart, hD]
    · intro v; simp [basePart, hset0]
    · intro v; simp [basePart, hset]
    · intro _
      exact ⟨rfl, fun v => by simp [basePart, hset]⟩

/-- changing base entries of a configuration is `set_base_pose` -/
theorem Reach.varyBase (hc : Reach ls js m0 cs mc) (hf : Shallow ls js m0 cs) (hu : UnitDesc js) (huc : UnitCalls cs) {q q' : List ℝ} {l : Nat}
    (htk : q'.take ids.length = q.take ids.length) {p : Pose ℝ} (hp : basePart ids.length bt q' = some p)
    (h1 : Reach ls js m0 (cs ++ configCalls ids bt q) mk) {mkv m' : KinModel ℝ}
    (h2 : Reach ls js m0 (cs ++ configCalls ids bt q') mkv) {E T' : Pose ℝ} (hE : IsPose mk l E)
    (e : getLinkPose l mkv = .ok T' m') : T' = Pose.transform p (Pose.transform mk.base.inverse E) := by
  have h3 := h1.snoc (c := .setBasePose p) (m' := rebased mk p) rfl
  rw [List.append_assoc] at h3
  have hs : SameRobot (rebased mk p) mkv := by
    refine hc.sameRobot h3 h2 ?_ (configCalls_isSet ids bt _) ?_ ?_
    · intro c hcm
      rcases List.mem_append.mp hcm with hcm | hcm
      · exact configCalls_isSet ids bt _ c hcm
      · obtain rfl := List.mem_singleton.mp hcm
        trivial
    · intro j
      rw [angleAfter_append, angleAfter_append, angleAfter_append j 0 cs, angleAfter_config, angleAfter_config, htk]
      rfl
    · rw [baseAfter_append, baseAfter_append, baseAfter_append _ cs, baseAfter_config, baseAfter_config, hp]
      rfl
  have hT := hE.rebased (h1.unitModel hu (huc.append (configCalls_unit ids bt q))).base p
  obtain ⟨m2, e2, _⟩ := getLinkPose_spec (h2.ready (hf.sets (configCalls_isSet ids bt _))) ((IsPose.of_same hs).mpr hT)
  rw [e] at e2
  cases e2
  rfl

end

/-- **C63, base position.** The same for the columns of the position of a planar or floating base: column
`ids.length + b` is x, y (and z for a floating base). -/
theorem C63_base_position (hr : PyReach ls js m0 h cs s) (hf : Shallow ls js m0 cs) (hu : UnitDesc js) {qs : QArg ℝ}
    (hc : c0.Fits s.robot.links.length) (ha : FkArgs m0 s qs es ids bt) (hb : bt ≠ .fixed)
    (hne : (∃ r ∈ ls, r.inertial.isSome) ∨ weldsAfter (names0 m0) cs ≠ []) :
    ∃ P J s', pySolveFk qs es ids rt bt true uc (s.withCache c0) = .ok (P, J) s' ∧
      ∀ (k j b r : Nat) (q : List ℝ) (x : ℝ), qs.rows[k]? = some q → j < es.length →
        (b < 2 ∨ b = 2 ∧ bt = .floating) → r < rt.width → q[ids.length + b]? = some x →
        ∃ D : ℝ → ℝ,
          (∀ v (qs' : QArg ℝ), (∀ q, qs' ≠ .list1 q) → qs'.rows = qs.rows.set k (q.set (ids.length + b) v) →
            ∃ P' J' s'', pySolveFk qs' es ids rt bt true uc (s.withCache c0) = .ok (P', J') s'' ∧
              P'.f (k * es.length + j) r = D v) ∧
          HasDerivAt D (J.f ((k * es.length + j) * rt.width + r) (ids.length + b)) x := by
  obtain ⟨mc, hat⟩ := hr.at
  obtain ⟨P, J, s', mc', e, _, hres⟩ := (hat.withCache hc).pySolveFk (rt := rt) (wj := true) (uc := uc)
    (qs := qs) (es := es) hf ⟨ha.notFlat, ha.nonempty, ha.shape, ha.joints, ha.links⟩ (.inl hb) (fun _ => hne)
  refine ⟨P, J, s', e, ?_⟩
  intro k j b r q x hk hj hbl hrl hx
  have hql := ha.shape q (List.mem_of_getElem? hk)
  obtain ⟨mk, hmk⟩ := hat.reach.config ha.joints hql
  have hset := configCalls_isSet ids bt q
  have hjl : es[j]? = some es[j] := by simp [hj]
  obtain ⟨B, mk1, eB, hB1, hB2, hB3⟩ := hres.jac rfl k j _ q mk hk hjl hmk
  have hwb : (bt != .fixed) = true := by simpa using hb
  rw [hwb] at eB
  obtain ⟨E, cols, hE, hcols, mk2, eJ, _⟩ := hmk.jacobian (hf.sets hset)
    (by rw [welds_sets _ hset]; exact hne) (l := es[j]) (by
      have h1 := ha.links es[j] (by simp)
      obtain ⟨θ, p, c1, e1⟩ := hmk.sets_eq hat.reach hset
      rw [e1]
      exact lt_of_lt_of_eq h1 (congrArg List.length hat.links))
    (ids := ids) (by rw [hmk.abs.joints]; exact ha.joints) rt true
  rw [eB] at eJ
  cases eJ
  obtain ⟨bx, bY, bz, ba, bb, bw, e0, ex, ey, hsx, hsy, hsz⟩ := basePart_coords ids.length hql hb
  have hdof : b < bt.dof := by
    cases bt <;> simp [BaseType.dof] at hb hbl ⊢ <;> omega
  have hval : J.f ((k * es.length + j) * rt.width + r) (ids.length + b) = if r = b then 1 else 0 := by
    have hfc : fullCol ids.length bt (ids.length + b) = ids.length + b := by
      unfold fullCol
      split
      · simp at hbl
        rw [if_neg (by omega)]
      · rfl
    rw [hB3 r hrl _ (by omega), hfc, hcols.length_eq, if_pos rfl,
      jacMat_base (by cases rt <;> exact hrl) (by omega)]
    have : b < 3 := by omega
    simp [baseCol, this]
  have hcst : ∀ (u t : ℝ), HasDerivAt (fun _ : ℝ => u) 0 t := fun u t => hasDerivAt_const t u
  have hadd : ∀ (u t : ℝ), HasDerivAt (fun v : ℝ => u + v) 1 t := fun u t => (hasDerivAt_id t).const_add u
  have hbase : ∃ g : ℝ → Pose ℝ, (∀ v, basePart ids.length bt (q.set (ids.length + b) v) = some (g v)) ∧
      HasDerivAt (fun v => (Pose.transform (g v) (Pose.transform mk.base.inverse E)).row rt r) (if r = b then 1 else 0) x := by
    have hb3 : b = 0 ∨ b = 1 ∨ b = 2 ∧ bt = .floating := by
      rcases hbl with h | h
      · have : b = 0 ∨ b = 1 := by omega
        rcases this with h | h <;> simp [h]
      · exact .inr (.inr h)
    rcases hb3 with rfl | rfl | ⟨rfl, hfl⟩
    · refine ⟨_, hsx, ?_⟩
      cases rt
      all_goals
        simp only [RotType.width] at hrl
        interval_cases r <;> simp [Pose.row, Pose.transform, Vec3.add, hcst, hadd]
    · refine ⟨_, hsy, ?_⟩
      cases rt
      all_goals
        simp only [RotType.width] at hrl
        interval_cases r <;> simp [Pose.row, Pose.transform, Vec3.add, hcst, hadd]
    · refine ⟨_, (hsz hfl).2, ?_⟩
      cases rt
      all_goals
        simp only [RotType.width] at hrl
        interval_cases r <;> simp [Pose.row, Pose.transform, Vec3.add, hcst, hadd]
  obtain ⟨g, hg, hgd⟩ := hbase
  refine ⟨_, ?_, by rw [hval]; exact hgd⟩
  intro v qs' hflat hrows
  have hl' : (q.set (ids.length + b) v).length = ids.length + bt.dof := by rw [List.length_set]; exact hql
  obtain ⟨P', J', s'', _, e', _, hres'⟩ := (hat.withCache hc).pySolveFk (rt := rt) (wj := true) (uc := uc)
    (qs := qs') (es := es) hf ⟨hflat, by rw [hrows]; simpa using ha.nonempty, by
      rw [hrows]
      intro q1 hq1
      rcases List.mem_or_eq_of_mem_set hq1 with h1 | h1
      · exact ha.shape q1 h1
      · rw [h1]; exact hl', ha.joints, ha.links⟩ (.inl hb) (fun _ => hne)
  refine ⟨P', J', s'', e', ?_⟩
  obtain ⟨mkv, hmkv⟩ := hat.reach.config ha.joints hl'
  obtain ⟨T', mk', eT, hrow⟩ := hres'.pose k j _ (q.set (ids.length + b) v) mkv (by
    rw [hrows, List.getElem?_set_self (List.getElem?_eq_some_iff.mp hk).1]) hjl hmkv
  rw [hrow.row hrl, hat.reach.varyBase hf hu hr.unitCalls (by rw [List.take_set_of_le (by omega)]) (hg v) hmk hmkv hE eT]

section

theorem sqDist_deriv {f g : ℝ → Vec3 ℝ} {f' g' : Vec3 ℝ} {t : ℝ} (hf : Vec3.HasDeriv f f' t) (hg : Vec3.HasDeriv g g' t) :
    HasDerivAt (fun v => sqDist (f v) (g v)) (2 * (f'.x - g'.x) * ((f t).x - (g t).x) + 2 * (f'.y - g'.y) * ((f t).y - (g t).y) +
      2 * (f'.z - g'.z) * ((f t).z - (g t).z)) t := by
  have hx := hf.1.fun_sub hg.1
  have hy := hf.2.1.fun_sub hg.2.1
  have hz := hf.2.2.fun_sub hg.2.2
  have := ((hx.fun_mul hx).fun_add (hy.fun_mul hy)).fun_add (hz.fun_mul hz)
  exact this.congr_deriv (by ring)

end

/-- **C36.** Each joint entry of the gradient returned by `compute_inter_link_sqdists` is the derivative of the
squared distance it returns: let `D v` be the number returned for pair `j` and configuration `k` when entry
`c` of configuration `k` is replaced by `v`. Then the derivative of `D` at the given configuration is the
entry of the gradient. The joint is not listed again further on. -/
theorem C36_gradient (hr : PyReach ls js m0 h cs s) (hf : Shallow ls js m0 cs) (hu : UnitDesc js) {qs : List (List ℝ)}
    (hc : c0.Fits s.robot.links.length) (ha : DistArgs m0 s qs ps ids bt) (huc : uc = false ∨ bt ≠ .fixed)
    (hne : (∃ r ∈ ls, r.inertial.isSome) ∨ weldsAfter (names0 m0) cs ≠ []) :
    ∃ V J s', pySqdists qs ps ids bt true uc (s.withCache c0) = .ok (V, J) s' ∧
      ∀ (k j c : Nat) (q : List ℝ) (x : ℝ), qs[k]? = some q → j < ps.length → c < ids.length → q[c]? = some x →
        LastListing ids c → ∃ D : ℝ → ℝ,
          (∀ v, ∃ V' J' s'', pySqdists (qs.set k (q.set c v)) ps ids bt true uc (s.withCache c0) = .ok (V', J') s'' ∧
            V'.f (k * ps.length + j) 0 = D v) ∧
          HasDerivAt D (J.f (k * ps.length + j) c) x := by
  obtain ⟨mc, hat⟩ := hr.at
  obtain ⟨V, J, s', e, hres⟩ := hr.sqdists (wj := true) hf hc ha huc (fun _ => hne)
  refine ⟨V, J, s', e, ?_⟩
  intro k j c q x hk hj hcl hx hn
  have hql := ha.shape q (List.mem_of_getElem? hk)
  obtain ⟨mk, hmk⟩ := hat.reach.config ha.joints hql
  have hset := configCalls_isSet ids bt q
  obtain ⟨p, hp⟩ : ∃ p, ps[j]? = some p := ⟨ps[j], by simp [hj]⟩
  obtain ⟨l1, l2⟩ := p
  have hci : ids[c]? = some ids[c] := by simp [hcl]
  have hil := ha.joints ids[c] (by simp)
  have hlinks : mk.links = s.robot.links := by
    obtain ⟨θ, p, c1, e1⟩ := hmk.sets_eq hat.reach hset
    rw [e1]
    exact hat.links.symm
  have hmv : ∀ l < s.robot.links.length, ∃ E J1 mk2, IsPose mk l E ∧ getJacobian l ids .ignore (bt != .fixed) mk = .ok J1 mk2 ∧
      ∃ d a T, Moves mk ids[c] l x E d a T ∧ ColumnIs .ignore J1 c E d a := by
    intro l hl
    obtain ⟨E, J1, mk2, hE, eJ, hcol⟩ := hmk.jacobian_moves (hf.sets hset) hu (hr.unitCalls.append (configCalls_unit ids bt q))
      (by rw [welds_sets _ hset]; exact hne) (l := l) (by rw [hlinks]; exact hl)
      (ids := ids) (by rw [hmk.abs.joints]; exact ha.joints) .ignore (bt != .fixed)
    obtain ⟨θ, d, a, T, hθ, hT, hJ⟩ := hcol c _ hci
    have hθx : θ = x := by
      have := (hat.reach.vary (v := x) hn (by omega) hci hx hil hmk
        (mkv := mk) (by rw [set_self hx]; exact hmk)).1
      rw [hθ] at this
      exact Option.some.inj this
    subst hθx
    exact ⟨E, J1, mk2, hE, eJ, d, a, T, hT, hJ⟩
  obtain ⟨hl1, hl2⟩ := ha.links (l1, l2) (List.mem_of_getElem? hp)
  obtain ⟨E1, J1, mk1, hE1, eJ1, d1, a1, T1, hT1, hJ1⟩ := hmv l1 hl1
  obtain ⟨E2, J2, mk2, hE2, eJ2, d2, a2, T2, hT2, hJ2⟩ := hmv l2 hl2
  refine ⟨fun v => sqDist (T1 v).position (T2 v).position, ?_, ?_⟩
  · intro v
    have hl' : (q.set c v).length = ids.length + bt.dof := by rw [List.length_set]; exact hql
    obtain ⟨V', J', s'', e', hres'⟩ := hr.sqdists (wj := true) (uc := uc) (qs := qs.set k (q.set c v)) (ps := ps) hf hc
      ⟨ha.nonempty, by
        intro q1 hq1
        rcases List.mem_or_eq_of_mem_set hq1 with h1 | h1
        · exact ha.shape q1 h1
        · rw [h1]; exact hl', ha.joints, ha.links⟩ huc (fun _ => hne)
    refine ⟨V', J', s'', e', ?_⟩
    obtain ⟨mkv, hmkv⟩ := hat.reach.config ha.joints hl'
    obtain ⟨F1, _, F2, _, f1, f2, f3⟩ := hres'.dist k j l1 l2 (q.set c v) mkv (by
      rw [List.getElem?_set_self (List.getElem?_eq_some_iff.mp hk).1]) hp hmkv
    rw [f3, hat.reach.vary_pose hf hn (by omega) hci hx hil hmk hmkv hT1.pose f1,
      hat.reach.vary_pose hf hn (by omega) hci hx hil hmk hmkv hT2.pose f2]
  · obtain ⟨F1, _, F2, _, B1, _, B2, _, f1, f2, f3, f4, f5⟩ := hres.grad rfl k j l1 l2 q mk hk hp hmk
    rw [f3] at eJ1; cases eJ1
    rw [f4] at eJ2; cases eJ2
    have hready := hmk.ready (hf.sets hset)
    obtain ⟨_, g1, _⟩ := getLinkPose_spec hready hE1
    obtain ⟨_, g2, _⟩ := getLinkPose_spec hready hE2
    rw [f1] at g1; cases g1
    rw [f2] at g2; cases g2
    have hfc : fullCol ids.length bt c = c := by
      unfold fullCol
      split
      · rw [if_neg (by omega)]
      · rfl
    rw [f5 c (by omega), hfc, sqDistGrad, hJ1.x, hJ1.y, hJ1.z, hJ2.x, hJ2.y, hJ2.z]
    have := sqDist_deriv hT1.pos hT2.pos
    rw [hT1.here, hT2.here] at this
    simpa using this

end

namespace Example

/-! ### The hypotheses are met -/

example : LastListing [0, 1] 0 := .of_nodup (by decide) (by decide)

example := C63_solve_fk_jacobian (rt := .xyzw) (uc := true) s1_reach s1_shallow unitDesc bad_fits (a1_args s1_links)
  (.inl (by decide)) (.inl inertial)

example := C63_base_position (rt := .rpy) (uc := false) s1_reach s1_shallow unitDesc bad_fits (a1_args s1_links)
  (by decide) (.inl inertial)

example := C36_gradient (uc := true) s1_reach s1_shallow unitDesc bad_fits (distArgs s1_links) (.inr (by decide)) (.inl inertial)

end Example
end Tinyfk
