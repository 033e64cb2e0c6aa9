import Verif.Proofs.Linear
import Verif.Props.Change
import Verif.Props.Motion

/-!
# Properties: how well the Jacobian predicts the effect of a finite change

C120.
-/

namespace Tinyfk

open Scalar Quaternion

/-- The straight line from the configuration `w` to the configuration `w'`. -/
def lineOf {N : Nat} (w w' : Fin N → ℝ) (t : ℝ) : Fin N → ℝ := fun c => w c + t * (w' c - w c)

section
variable {ls : List (RawLink ℝ)} {js : List (RawJoint ℝ)} {m0 mc mk mk' : KinModel ℝ} {cs : List (Call ℝ)}
  {h : List (PyCall ℝ)} {s : PyModel ℝ} {es ids : List Nat} {ps : List (Nat × Nat)}
  {bt : BaseType} {rt : RotType} {wj uc : Bool} {c0 : SizedCache (Pose ℝ)}

theorem line_angles {w w' : Fin (ids.length + bt.dof) → ℝ} {θ θ' : String → ℝ}
    (hθ : AnglesAfter m0 (cs ++ configCalls ids bt (List.ofFn w)) θ) (hθ' : AnglesAfter m0 (cs ++ configCalls ids bt (List.ofFn w')) θ') (t : ℝ) :
    AnglesAfter m0 (cs ++ configCalls ids bt (List.ofFn (lineOf w w' t))) fun i => θ i + t * (θ' i - θ i) := by
  intro n i hn
  simp only
  rw [hθ n i hn, hθ' n i hn]
  by_cases hi : i ∈ ids
  · obtain ⟨c, hcl, e, hl⟩ := exists_lastListing hi
    have key : ∀ w : Fin (ids.length + bt.dof) → ℝ, angleAfter i 0 (cs ++ configCalls ids bt (List.ofFn w)) = w ⟨c, by omega⟩ := by
      intro w
      rw [angleAfter_append, angleAfter_config, lastWrite_last hl (i := i) (v := w ⟨c, by omega⟩) (by simp [hcl, e]) (by
        rw [List.getElem?_take_of_lt hcl, List.getElem?_ofFn, dif_pos (by omega)])]
      rfl
    rw [key, key, key]
    rfl
  · have key : ∀ w : Fin (ids.length + bt.dof) → ℝ, angleAfter i 0 (cs ++ configCalls ids bt (List.ofFn w)) = angleAfter i 0 cs := by
      intro w
      rw [angleAfter_append, angleAfter_config, lastWrite_eq_none hi]
      rfl
    rw [key, key, key]
    ring

theorem line_base {w w' : Fin (ids.length + bt.dof) → ℝ} (hb : ∀ c : Fin (ids.length + bt.dof), IsBaseAngleCol ids.length bt c → w' c = w c) (b : Pose ℝ) :
    ∃ d : ℍ[ℝ], ∀ t, (baseAfter b (cs ++ configCalls ids bt (List.ofFn (lineOf w w' t)))).rotation =
        (baseAfter b (cs ++ configCalls ids bt (List.ofFn w))).rotation ∧
      (baseAfter b (cs ++ configCalls ids bt (List.ofFn (lineOf w w' t)))).position.quat =
        (baseAfter b (cs ++ configCalls ids bt (List.ofFn w))).position.quat + t • d := by
  simp only [baseAfter_append, baseAfter_config]
  have hd : ∀ w : Fin (ids.length + bt.dof) → ℝ, (List.ofFn w).drop ids.length = List.ofFn fun d : Fin bt.dof => w (d.natAdd ids.length) := by
    intro w
    apply List.ext_getElem
    · simp
    · intro i h1 h2
      simp
  cases bt with
  | fixed => exact ⟨0, fun t => ⟨rfl, by simp [basePart]⟩⟩
  | planer =>
    have e : ∀ w : Fin (ids.length + BaseType.planer.dof) → ℝ, (basePart ids.length .planer (List.ofFn w)).getD (baseAfter b cs) =
        ⟨⟨w ((⟨0, by decide⟩ : Fin BaseType.planer.dof).natAdd ids.length), w ((⟨1, by decide⟩ : Fin BaseType.planer.dof).natAdd ids.length), 0⟩, Rot.fromRPY 0 0 (w ((⟨2, by decide⟩ : Fin BaseType.planer.dof).natAdd ids.length))⟩ := by
      intro w
      simp only [basePart]
      rw [hd]
      rfl
    have h2 : w' ((⟨2, by decide⟩ : Fin BaseType.planer.dof).natAdd ids.length) = w ((⟨2, by decide⟩ : Fin BaseType.planer.dof).natAdd ids.length) := hb _ ⟨2, rfl, by simp [IsBaseAngle]⟩
    refine ⟨Vec3.quat ⟨w' ((⟨0, by decide⟩ : Fin BaseType.planer.dof).natAdd ids.length) - w ((⟨0, by decide⟩ : Fin BaseType.planer.dof).natAdd ids.length),
      w' ((⟨1, by decide⟩ : Fin BaseType.planer.dof).natAdd ids.length) - w ((⟨1, by decide⟩ : Fin BaseType.planer.dof).natAdd ids.length), 0⟩, fun t => ?_⟩
    rw [e, e]
    refine ⟨by simp only [lineOf, h2, sub_self, mul_zero, add_zero], ?_⟩
    ext <;> simp [lineOf]
  | floating =>
    have e : ∀ w : Fin (ids.length + BaseType.floating.dof) → ℝ, (basePart ids.length .floating (List.ofFn w)).getD (baseAfter b cs) =
        ⟨⟨w ((⟨0, by decide⟩ : Fin BaseType.floating.dof).natAdd ids.length), w ((⟨1, by decide⟩ : Fin BaseType.floating.dof).natAdd ids.length), w ((⟨2, by decide⟩ : Fin BaseType.floating.dof).natAdd ids.length)⟩,
        Rot.fromRPY (w ((⟨3, by decide⟩ : Fin BaseType.floating.dof).natAdd ids.length)) (w ((⟨4, by decide⟩ : Fin BaseType.floating.dof).natAdd ids.length)) (w ((⟨5, by decide⟩ : Fin BaseType.floating.dof).natAdd ids.length))⟩ := by
      intro w
      simp only [basePart]
      rw [hd]
      rfl
    have h3 : w' ((⟨3, by decide⟩ : Fin BaseType.floating.dof).natAdd ids.length) = w ((⟨3, by decide⟩ : Fin BaseType.floating.dof).natAdd ids.length) := hb _ ⟨3, rfl, by simp [IsBaseAngle]⟩
    have h4 : w' ((⟨4, by decide⟩ : Fin BaseType.floating.dof).natAdd ids.length) = w ((⟨4, by decide⟩ : Fin BaseType.floating.dof).natAdd ids.length) := hb _ ⟨4, rfl, by simp [IsBaseAngle]⟩
    have h5 : w' ((⟨5, by decide⟩ : Fin BaseType.floating.dof).natAdd ids.length) = w ((⟨5, by decide⟩ : Fin BaseType.floating.dof).natAdd ids.length) := hb _ ⟨5, rfl, by simp [IsBaseAngle]⟩
    refine ⟨Vec3.quat ⟨w' ((⟨0, by decide⟩ : Fin BaseType.floating.dof).natAdd ids.length) - w ((⟨0, by decide⟩ : Fin BaseType.floating.dof).natAdd ids.length),
      w' ((⟨1, by decide⟩ : Fin BaseType.floating.dof).natAdd ids.length) - w ((⟨1, by decide⟩ : Fin BaseType.floating.dof).natAdd ids.length),
      w' ((⟨2, by decide⟩ : Fin BaseType.floating.dof).natAdd ids.length) - w ((⟨2, by decide⟩ : Fin BaseType.floating.dof).natAdd ids.length)⟩, fun t => ?_⟩
    rw [e, e]
    refine ⟨by simp only [lineOf, h3, h4, h5, sub_self, mul_zero, add_zero], ?_⟩
    ext <;> simp [lineOf]

/-- a function with a quadratic remainder -/
theorem hasDerivAt_of_quadratic {f : ℝ → ℝ} {l C : ℝ} (h : ∀ t, |f t - f 0 - t * l| ≤ t ^ 2 * C) : HasDerivAt f l 0 := by
  rw [hasDerivAt_iff_isLittleO]
  have hO : (fun t => f t - f 0 - (t - 0) • l) =O[nhds 0] fun t : ℝ => t ^ 2 := by
    refine Asymptotics.IsBigO.of_bound C (Filter.Eventually.of_forall fun t => ?_)
    rw [Real.norm_eq_abs, Real.norm_eq_abs, abs_of_nonneg (sq_nonneg t), sub_zero, smul_eq_mul]
    linarith [h t]
  refine hO.trans_isLittleO ?_
  simp only [sub_zero]
  exact Asymptotics.isLittleO_pow_id (by norm_num)

theorem quat_coord_le (a : ℍ[ℝ]) : |a.imI| ≤ ‖a‖ ∧ |a.imJ| ≤ ‖a‖ ∧ |a.imK| ≤ ‖a‖ := by
  have := quat_norm_sq a
  have h0 := norm_nonneg a
  refine ⟨?_, ?_, ?_⟩ <;> refine abs_le_of_sq_le_sq ?_ h0 <;> nlinarith [sq_nonneg a.re, sq_nonneg a.imI, sq_nonneg a.imJ, sq_nonneg a.imK]

/-- **C120.** How well the Jacobian of `solve_fk` predicts where a link goes when a configuration `w` is replaced by any other
configuration `w'` (not only by one close to it) with the same base angles. Let the turning joints on the path from the root to the link turn
by `τ` and the sliding joints slide by `σ` in all, and let the length of this path be `L` at `w`. Then the position returned for `w'` is at most
`τ ^ 2 / 2 * L + τ * σ` away from the position returned for `w` plus `J` times `w' - w`. No joint is listed twice. -/
theorem C120_solve_fk (hr : PyReach ls js m0 h cs s) (hf : Shallow ls js m0 cs) (hu : UnitDesc js) {qs qs' : QArg ℝ}
    (hc : c0.Fits s.robot.links.length) (ha : FkArgs m0 s qs es ids bt) (ha' : FkArgs m0 s qs' es ids bt)
    (huc : bt ≠ .fixed ∨ uc = false)
    (hne : (∃ r ∈ ls, r.inertial.isSome) ∨ weldsAfter (names0 m0) cs ≠ []) (hid : ids.Nodup) :
    ∃ P J s1 P' J' s2, pySolveFk qs es ids rt bt true uc (s.withCache c0) = .ok (P, J) s1 ∧
      pySolveFk qs' es ids rt bt true uc (s.withCache c0) = .ok (P', J') s2 ∧
      ∀ (k k' j l : Nat) (w w' : Fin (ids.length + bt.dof) → ℝ) (n : String) (θ θ' : String → ℝ),
        qs.rows[k]? = some (List.ofFn w) → qs'.rows[k']? = some (List.ofFn w') →
        (∀ c : Fin (ids.length + bt.dof), IsBaseAngleCol ids.length bt c → w' c = w c) →
        es[j]? = some l → getLinkIds [n] s.robot = .ok [l] s.robot → AnglesAfter m0 (cs ++ configCalls ids bt (List.ofFn w)) θ →
        AnglesAfter m0 (cs ++ configCalls ids bt (List.ofFn w')) θ' →
        ∃ τ σ L, PathChange ls js (AllWelds ls m0 cs) θ' θ n τ σ L ∧
          Vec3.dist ⟨P'.f (k' * es.length + j) 0, P'.f (k' * es.length + j) 1, P'.f (k' * es.length + j) 2⟩
              ⟨P.f (k * es.length + j) 0 + ∑ c : Fin (ids.length + bt.dof), J.f ((k * es.length + j) * rt.width + 0) c * (w' c - w c),
               P.f (k * es.length + j) 1 + ∑ c : Fin (ids.length + bt.dof), J.f ((k * es.length + j) * rt.width + 1) c * (w' c - w c),
               P.f (k * es.length + j) 2 + ∑ c : Fin (ids.length + bt.dof), J.f ((k * es.length + j) * rt.width + 2) c * (w' c - w c)⟩ ≤
            τ ^ 2 / 2 * L + τ * σ := by
  obtain ⟨mc, hat⟩ := hr.at
  obtain ⟨P, J, s1, e, hvel⟩ := C108_solve_fk_velocity (rt := rt) (uc := uc) hr hf hu hc ha huc hne hid
  have hrun : ∀ qs' : QArg ℝ, FkArgs m0 s qs' es ids bt → ∃ P' J' s2, pySolveFk qs' es ids rt bt true uc (s.withCache c0) = .ok (P', J') s2 ∧
      FkResult ls js m0 cs qs'.rows es ids rt bt true P' J' := by
    intro qs' ha'
    obtain ⟨P', J', s2, _, e', _, hres'⟩ := (hat.withCache hc).pySolveFk (rt := rt) (wj := true) (uc := uc)
      (qs := qs') (es := es) hf ⟨ha'.notFlat, ha'.nonempty, ha'.shape, ha'.joints, ha'.links⟩ huc (fun _ => hne)
    exact ⟨P', J', s2, e', hres'⟩
  obtain ⟨P', J', s2, e', hres'⟩ := hrun qs' ha'
  obtain ⟨Pa, Ja, sa, ea, hres⟩ := hrun qs ha
  rw [e] at ea
  cases ea
  refine ⟨P, J, s1, P', J', s2, e, e', ?_⟩
  intro k k' j l w w' n θ θ' hk hk' hba hj hn hθ hθ'
  have hkl := (List.getElem?_eq_some_iff.mp hk).1
  have hjl := (List.getElem?_eq_some_iff.mp hj).1
  obtain ⟨T, hT, hrow⟩ := hres.world hat ha.shape ha.joints k j l _ n θ hk hj hn hθ
  obtain ⟨T', hT', hrow'⟩ := hres'.world hat ha'.shape ha'.joints k' j l _ n θ' hk' hj hn hθ'
  obtain ⟨d, hd⟩ := line_base (cs := cs) (ids := ids) hba Pose.identity
  obtain ⟨F, τ, σ, L, w1, w2, w3, _, _⟩ := ((hT T).mpr rfl).linear hu (fun w hw => hr.unitCalls.allWelds hw)
    ((hr.unitCalls.append (configCalls_unit ids bt _)).base Rot.norm2_one) (θ' := θ') (fun t => (hd t).1) (fun t => (hd t).2)
  have hl0 : lineOf w w' 0 = w := by funext c; simp [lineOf]
  have hl1 : lineOf w w' 1 = w' := by funext c; simp [lineOf]
  have hF0 : F 0 = T := by
    have := w1 0
    rw [hl0] at this
    simp only [zero_mul, add_zero] at this
    exact (hT _).mp this
  have hF1 : F 1 = T' := by
    have := w1 1
    rw [hl1] at this
    simp only [one_mul, add_sub_cancel] at this
    exact (hT' _).mp this
  obtain ⟨lin, hlin⟩ := w3.linear
  have hmot : Motion (List.ofFn w) (lineOf w w') (fun c => w' c - w c) 0 := by
    refine ⟨by rw [hl0], fun c => ?_⟩
    have := ((hasDerivAt_id (0 : ℝ)).mul_const (w' c - w c)).const_add (w c)
    simpa [lineOf] using this
  have hshape : ∀ t, (List.ofFn (lineOf w w' t)).length = ids.length + bt.dof := fun t => by simp
  -- the returned positions along the line
  have hline : ∀ r < 3, ∀ D : (Fin (ids.length + bt.dof) → ℝ) → ℝ,
      (∀ w (qs' : QArg ℝ), (∀ q, qs' ≠ .list1 q) → qs'.rows = qs.rows.set k (List.ofFn w) →
        ∃ P' J' s'', pySolveFk qs' es ids rt bt true uc (s.withCache c0) = .ok (P', J') s'' ∧ P'.f (k * es.length + j) r = D w) →
      ∀ t, D (lineOf w w' t) = (F t).position.coord r := by
    intro r hr3 D hD t
    obtain ⟨q1, f1, _, f2⟩ := exists_batch qs.rows k (ids.length + bt.dof) (List.ofFn (lineOf w w' t)) ha.shape (hshape t)
    obtain ⟨P1, J1, s1', e1, v1⟩ := hD _ q1 f1 f2
    have ha1 : FkArgs m0 s q1 es ids bt := by
      refine ⟨f1, by rw [f2]; simpa using ha.nonempty, ?_, ha.joints, ha.links⟩
      rw [f2]
      intro q hq
      rcases List.mem_or_eq_of_mem_set hq with h1 | h1
      · exact ha.shape q h1
      · rw [h1]; exact hshape t
    obtain ⟨P2, J2, s2', e2, hres2⟩ := hrun q1 ha1
    rw [e1] at e2
    cases e2
    obtain ⟨T2, hT2, hrow2⟩ := hres2.world hat ha1.shape ha1.joints k j l _ n _ (by rw [f2, List.getElem?_set_self hkl]) hj hn (line_angles hθ hθ' t)
    rw [← v1, (hT2 _).mp (w1 t)]
    obtain ⟨x1, x2, x3, _⟩ := hrow2
    match r, hr3 with
    | 0, _ => exact x1
    | 1, _ => exact x2
    | 2, _ => exact x3
  have hrt : ∀ r, r < 3 → r < rt.width := by intro r hr3; cases rt <;> simp [RotType.width] <;> omega
  -- the linear term is what the Jacobian says
  have hsum : ∀ r < 3, ∀ lr : ℝ, (∀ t, |(F t).position.coord r - (F 0).position.coord r - t * lr| ≤ t ^ 2 * (τ ^ 2 / 2 * L + τ * σ)) →
      ∑ c : Fin (ids.length + bt.dof), J.f ((k * es.length + j) * rt.width + r) c * (w' c - w c) = lr := by
    intro r hr3 lr hlr
    obtain ⟨D, hD1, hD2⟩ := hvel k j r _ hk hjl (hrt r hr3) (fun _ h3 => absurd h3 (by omega))
    have h1 := hD2 (lineOf w w') (fun c => w' c - w c) 0 hmot (fun c hc => by rw [hba c hc, sub_self])
    simp only [hline r hr3 D hD1] at h1
    exact h1.unique (hasDerivAt_of_quadratic hlr)
  have hco : ∀ t, |(F t).position.x - (F 0).position.x - t * lin.imI| ≤ t ^ 2 * (τ ^ 2 / 2 * L + τ * σ) ∧
      |(F t).position.y - (F 0).position.y - t * lin.imJ| ≤ t ^ 2 * (τ ^ 2 / 2 * L + τ * σ) ∧
      |(F t).position.z - (F 0).position.z - t * lin.imK| ≤ t ^ 2 * (τ ^ 2 / 2 * L + τ * σ) := by
    intro t
    obtain ⟨g1, g2, g3⟩ := quat_coord_le ((F t).position.quat - (F 0).position.quat - t • lin)
    exact ⟨le_trans (by simpa using g1) (hlin t), le_trans (by simpa using g2) (hlin t), le_trans (by simpa using g3) (hlin t)⟩
  refine ⟨τ, σ, L, w2, ?_⟩
  rw [hsum 0 (by omega) lin.imI fun t => (hco t).1, hsum 1 (by omega) lin.imJ fun t => (hco t).2.1, hsum 2 (by omega) lin.imK fun t => (hco t).2.2]
  obtain ⟨x1, x2, x3, _⟩ := hrow
  obtain ⟨y1, y2, y3, _⟩ := hrow'
  rw [x1, x2, x3, y1, y2, y3]
  have h1 := hlin 1
  rw [hF0, hF1, one_smul, one_pow, one_mul] at h1
  refine le_trans ?_ h1
  rw [quat_norm_eq_sqrt]
  unfold Vec3.dist
  refine Real.sqrt_le_sqrt ?_
  simp only [Quaternion.re_sub, Quaternion.imI_sub, Quaternion.imJ_sub, Quaternion.imK_sub, Vec3.quat_re, Vec3.quat_imI, Vec3.quat_imJ,
    Vec3.quat_imK]
  nlinarith [sq_nonneg lin.re]

/-- sums of linear terms -/
theorem foldl_linear {α : Type} {m : α → ℝ} {c : α → ℝ → Vec3 ℝ} {M : ℝ} {xs : List α}
    (h : ∀ a ∈ xs, 0 ≤ m a ∧ ∃ l : ℍ[ℝ], ∀ t, ‖(c a t).quat - (c a 0).quat - t • l‖ ≤ t ^ 2 * M) :
    ∀ (v : ℝ → Vec3 ℝ) (z : ℝ), (∃ l : ℍ[ℝ], ∀ t, ‖(v t).quat - (v 0).quat - t • l‖ ≤ t ^ 2 * (M * z)) →
      ∃ l : ℍ[ℝ], ∀ t, ‖Vec3.quat ⟨xs.foldl (fun s x => s + m x * (c x t).x) (v t).x, xs.foldl (fun s x => s + m x * (c x t).y) (v t).y,
            xs.foldl (fun s x => s + m x * (c x t).z) (v t).z⟩ -
          Vec3.quat ⟨xs.foldl (fun s x => s + m x * (c x 0).x) (v 0).x, xs.foldl (fun s x => s + m x * (c x 0).y) (v 0).y,
            xs.foldl (fun s x => s + m x * (c x 0).z) (v 0).z⟩ - t • l‖ ≤ t ^ 2 * (M * xs.foldl (fun s x => s + m x) z) := by
  induction xs with
  | nil => intro v z hz; exact hz
  | cons a xs ih =>
    intro v z ⟨l, hl⟩
    obtain ⟨g1, l', g2⟩ := h a (by simp)
    simp only [List.foldl_cons]
    refine ih (fun b hb => h b (by simp [hb])) (fun t => ⟨(v t).x + m a * (c a t).x, (v t).y + m a * (c a t).y, (v t).z + m a * (c a t).z⟩) (z + m a)
      ⟨l + m a • l', fun t => ?_⟩
    have e : Vec3.quat ⟨(v t).x + m a * (c a t).x, (v t).y + m a * (c a t).y, (v t).z + m a * (c a t).z⟩ -
        Vec3.quat ⟨(v 0).x + m a * (c a 0).x, (v 0).y + m a * (c a 0).y, (v 0).z + m a * (c a 0).z⟩ - t • (l + m a • l') =
        ((v t).quat - (v 0).quat - t • l) + m a • ((c a t).quat - (c a 0).quat - t • l') := by
      ext <;> simp <;> ring
    rw [e]
    refine (norm_add_le _ _).trans ?_
    rw [norm_smul, Real.norm_of_nonneg g1]
    have := mul_le_mul_of_nonneg_left (g2 t) g1
    linarith [hl t]

/-- the centre of mass of bodies that move linearly up to a remainder -/
theorem comOf_linear {Fs : List (Inertial ℝ × (ℝ → Pose ℝ))} {M : ℝ} (hpos : 0 < Fs.foldl (fun s x => s + x.1.mass) 0)
    (h : ∀ a ∈ Fs, 0 ≤ a.1.mass ∧ ∃ l : ℍ[ℝ], ∀ t, ‖(bodyCentre (a.1, a.2 t)).quat - (bodyCentre (a.1, a.2 0)).quat - t • l‖ ≤ t ^ 2 * M) :
    ∃ l : ℍ[ℝ], ∀ t, ‖(comOf (Fs.map fun a => (a.1, a.2 t))).quat - (comOf (Fs.map fun a => (a.1, a.2 0))).quat - t • l‖ ≤ t ^ 2 * M := by
  obtain ⟨l, hl⟩ := foldl_linear (m := fun x : Inertial ℝ × (ℝ → Pose ℝ) => x.1.mass) (c := fun x t => bodyCentre (x.1, x.2 t)) h
    (fun _ => Vec3.zero) 0 ⟨0, fun t => by simp⟩
  refine ⟨(Fs.foldl (fun s x => s + x.1.mass) 0)⁻¹ • l, fun t => ?_⟩
  have h2 := hl t
  unfold comOf
  simp only [List.foldl_map, Vec3.zero] at h2 ⊢
  generalize Fs.foldl (fun s x => s + x.1.mass) 0 = Z at *
  generalize Fs.foldl (fun s x => s + x.1.mass * (bodyCentre (x.1, x.2 0)).x) 0 = a1 at *
  generalize Fs.foldl (fun s x => s + x.1.mass * (bodyCentre (x.1, x.2 0)).y) 0 = a2 at *
  generalize Fs.foldl (fun s x => s + x.1.mass * (bodyCentre (x.1, x.2 0)).z) 0 = a3 at *
  generalize Fs.foldl (fun s x => s + x.1.mass * (bodyCentre (x.1, x.2 t)).x) 0 = b1 at *
  generalize Fs.foldl (fun s x => s + x.1.mass * (bodyCentre (x.1, x.2 t)).y) 0 = b2 at *
  generalize Fs.foldl (fun s x => s + x.1.mass * (bodyCentre (x.1, x.2 t)).z) 0 = b3 at *
  have e : Vec3.quat ⟨b1 / Z, b2 / Z, b3 / Z⟩ - Vec3.quat ⟨a1 / Z, a2 / Z, a3 / Z⟩ - t • Z⁻¹ • l =
      Z⁻¹ • (Vec3.quat ⟨b1, b2, b3⟩ - Vec3.quat ⟨a1, a2, a3⟩ - t • l) := by
    ext <;> simp <;> ring
  rw [e, norm_smul, Real.norm_of_nonneg (by positivity), inv_mul_le_iff₀ hpos]
  linarith

/-- the bodies of the robot along the straight line from one configuration to another -/
theorem Bodies.linear {welds : Weld ℝ → Prop} (hcw : ∀ w, ComWeld ls w → welds w) (hu : UnitDesc js) (hw : ∀ w, welds w → w.offset.rotation.norm2 = 1)
    {θ θ' : String → ℝ} {b : Pose ℝ} (hb : b.rotation.norm2 = 1)
    {B : ℝ → Pose ℝ} {d : ℍ[ℝ]} (hB : ∀ t, (B t).rotation = b.rotation) (hBd : ∀ t, (B t).position.quat = b.position.quat + t • d)
    (hmass : ∀ r ∈ ls, ∀ i, r.inertial = some i → 0 ≤ i.mass) {M : ℝ}
    (hM : ∀ r ∈ ls, ∀ τ σ L, r.inertial.isSome → PathChange ls js welds θ' θ (r.name ++ "_com") τ σ L → τ ^ 2 / 2 * L + τ * σ ≤ M)
    {xs : List (Inertial ℝ × Pose ℝ)} (h : Bodies ls js welds θ b xs) (hpos : 0 < xs.foldl (fun s x => s + x.1.mass) 0) :
    ∃ ys : ℝ → List (Inertial ℝ × Pose ℝ), (∀ t, Bodies ls js welds (fun i => θ i + t * (θ' i - θ i)) (B t) (ys t)) ∧
      ∃ l : ℍ[ℝ], ∀ t, ‖(comOf (ys t)).quat - (comOf (ys 0)).quat - t • l‖ ≤ t ^ 2 * M := by
  obtain ⟨sorted, g1, g2, g3⟩ := h
  suffices H : ∃ Fs : List (Inertial ℝ × (ℝ → Pose ℝ)), (∀ t, List.Forall₂ (fun (r : RawLink ℝ) (x : Inertial ℝ × Pose ℝ) => r.inertial = some x.1 ∧
      WorldPose ls js welds (fun i => θ i + t * (θ' i - θ i)) (B t) r.name x.2) (sorted.filter fun r => r.inertial.isSome) (Fs.map fun a => (a.1, a.2 t))) ∧
      (∀ a ∈ Fs, 0 ≤ a.1.mass ∧ ∃ l : ℍ[ℝ], ∀ t, ‖(bodyCentre (a.1, a.2 t)).quat - (bodyCentre (a.1, a.2 0)).quat - t • l‖ ≤ t ^ 2 * M) ∧
      Fs.map (fun a => a.1) = xs.map (fun a => a.1) by
    obtain ⟨Fs, a, b, c⟩ := H
    have hp : 0 < Fs.foldl (fun s x => s + x.1.mass) 0 := by
      have e := congrArg (List.foldl (fun (s : ℝ) (x : Inertial ℝ) => s + x.mass) 0) c
      simp only [List.foldl_map] at e
      exact lt_of_lt_of_eq hpos e.symm
    obtain ⟨l, hl⟩ := comOf_linear hp b
    refine ⟨fun t => Fs.map fun a => (a.1, a.2 t), fun t => ?_, l, fun t => ?_⟩
    · exact ⟨sorted, g1, g2, a t⟩
    · exact hl t
  have hmem : ∀ r ∈ sorted.filter (fun r => r.inertial.isSome), r ∈ ls := fun r hr => g1.mem_iff.mp (List.mem_filter.mp hr).1
  clear g1 g2 hpos
  generalize (sorted.filter fun r => r.inertial.isSome) = fl at g3 hmem
  induction g3 with
  | nil => exact ⟨[], fun _ => .nil, by simp, rfl⟩
  | @cons r x _ _ k1 _ ih =>
    obtain ⟨Fs, a, b, c⟩ := ih fun r hr => hmem r (by simp [hr])
    have hr := hmem r (by simp)
    obtain ⟨i0, T0⟩ := x
    simp only at k1
    have hweld := hcw _ (ComWeld.mk hr k1.1)
    obtain ⟨F, τ, σ, L, v1, v2, v3, _, _⟩ := k1.2.linear hu hw hb hB hBd (θ' := θ')
    have hc := v3.transform (B := fun _ => ⟨i0.origin.position, Rot.one⟩) (.const Rot.norm2_one) (d := 0) (L := i0.origin.position.len) (σ := 0) (by simp) le_rfl (by simp)
    refine ⟨(i0, F) :: Fs, fun t => .cons ⟨k1.1, v1 t⟩ (a t), ?_, by rw [List.map_cons, List.map_cons, c]⟩
    intro y hy
    rcases List.mem_cons.mp hy with rfl | hy
    · obtain ⟨l, hl⟩ := hc.linear
      refine ⟨hmass r hr _ k1.1, l, fun t => ?_⟩
      unfold bodyCentre
      refine (hl t).trans (mul_le_mul_of_nonneg_left ?_ (sq_nonneg t))
      have hp := PathChange.weld hweld v2
      have hm := hM r hr _ _ _ (by rw [k1.1]; rfl) hp
      refine le_trans (le_of_eq ?_) hm
      ring
    · exact b y hy

/-- **C120, centre of mass.** The centre of mass `solve_com_fk` returns for `w'` is at most as far away from the one for `w` plus the Jacobian
times `w' - w` as this bound for the centres of the bodies: with the base at the same place, nonnegative masses that are not all zero, and without
action forces. -/
theorem C120_solve_com_fk {qs qs' : QArg ℝ} {s' : PyModel ℝ}
    (hr : PyReach ls js m0 h cs s) (hf : Shallow ls js m0 cs) (hu : UnitDesc js)
    (ha : ComArgs m0 s qs ids [] [] bt) (ha' : ComArgs m0 s qs' ids [] [] bt)
    (hc : (bt ≠ .fixed ∧ s' = s) ∨ (pyClearCache s = .ok () s' ∧ qs.rows.length = 1 ∧ qs'.rows.length = 1)) (hid : ids.Nodup)
    (hmass : ∀ r ∈ ls, ∀ i, r.inertial = some i → 0 ≤ i.mass) (hsome : ∃ r ∈ ls, ∃ i, r.inertial = some i ∧ 0 < i.mass) :
    ∃ C J s1 C' J' s2, pySolveComFk qs ids none bt true s' = .ok (C, J) s1 ∧
      pySolveComFk qs' ids none bt true s' = .ok (C', J') s2 ∧
      ∀ (k k' : Nat) (w w' : Fin (ids.length + bt.dof) → ℝ) (θ θ' : String → ℝ) (M : ℝ),
        qs.rows[k]? = some (List.ofFn w) → qs'.rows[k']? = some (List.ofFn w') →
        (∀ c : Fin (ids.length + bt.dof), ids.length ≤ c → w' c = w c) →
        AnglesAfter m0 (cs ++ configCalls ids bt (List.ofFn w)) θ → AnglesAfter m0 (cs ++ configCalls ids bt (List.ofFn w')) θ' →
        (∀ r ∈ ls, ∀ τ σ L, r.inertial.isSome → PathChange ls js (AllWelds ls m0 cs) θ' θ (r.name ++ "_com") τ σ L → τ ^ 2 / 2 * L + τ * σ ≤ M) →
        Vec3.dist ⟨C'.f k' 0, C'.f k' 1, C'.f k' 2⟩
          ⟨C.f k 0 + ∑ c : Fin (ids.length + bt.dof), J.f (3 * k + 0) c * (w' c - w c),
           C.f k 1 + ∑ c : Fin (ids.length + bt.dof), J.f (3 * k + 1) c * (w' c - w c),
           C.f k 2 + ∑ c : Fin (ids.length + bt.dof), J.f (3 * k + 2) c * (w' c - w c)⟩ ≤ M := by
  obtain ⟨C, J, s1, e, hvel⟩ := C108_solve_com_fk_velocity (act := none) hr hf hu ha (hc.imp_right fun a => ⟨a.1, a.2.1⟩) (by simp) hid
  obtain ⟨C', J', s2, e', _, _, h2⟩ := C05_com_partial (act := none) (wj := true) hr hf ha' (hc.imp_right fun a => ⟨a.1, a.2.2⟩) (by simp)
  obtain ⟨Ca, Ja, sa, ea, _, _, h1⟩ := C05_com_partial (act := none) (wj := true) hr hf ha (hc.imp_right fun a => ⟨a.1, a.2.1⟩) (by simp)
  rw [e] at ea
  cases ea
  refine ⟨C, J, s1, C', J', s2, e, e', ?_⟩
  intro k k' w w' θ θ' M hk hk' hba hθ hθ' hM
  have hkl := (List.getElem?_eq_some_iff.mp hk).1
  obtain ⟨bs, Ts, hb, hT, hC⟩ := h1 k _ θ hk hθ
  obtain ⟨bs', Ts', hb', hT', hC'⟩ := h2 k' _ θ' hk' hθ'
  have hB := (hb bs).mpr rfl
  obtain ⟨d, hd⟩ := line_base (cs := cs) (ids := ids) (fun c hcb => hba c (by obtain ⟨d, hd, _⟩ := hcb; omega)) Pose.identity
  obtain ⟨ys, y1, lin, hlin⟩ := hB.linear (fun w hw => .inl hw) hu (fun w hw => hr.unitCalls.allWelds hw)
    ((hr.unitCalls.append (configCalls_unit ids bt _)).base Rot.norm2_one) (θ' := θ') (fun t => (hd t).1) (fun t => (hd t).2) hmass hM
    (hB.mass_pos hmass hsome)
  have hl0 : lineOf w w' 0 = w := by funext c; simp [lineOf]
  have hl1 : lineOf w w' 1 = w' := by funext c; simp [lineOf]
  have hF0 : ys 0 = bs := by
    have := y1 0
    rw [hl0] at this
    simp only [zero_mul, add_zero] at this
    exact (hb _).mp this
  have hF1 : ys 1 = bs' := by
    have := y1 1
    rw [hl1] at this
    simp only [one_mul, add_sub_cancel] at this
    exact (hb' _).mp this
  have hmot : Motion (List.ofFn w) (lineOf w w') (fun c => w' c - w c) 0 := by
    refine ⟨by rw [hl0], fun c => ?_⟩
    have := ((hasDerivAt_id (0 : ℝ)).mul_const (w' c - w c)).const_add (w c)
    simpa [lineOf] using this
  have hshape : ∀ t, (List.ofFn (lineOf w w' t)).length = ids.length + bt.dof := fun t => by simp
  have hline : ∀ r < 3, ∀ D : (Fin (ids.length + bt.dof) → ℝ) → ℝ,
      (∀ w (qs' : QArg ℝ), (∀ q, qs' ≠ .nd1 q) → qs'.rows = qs.rows.set k (List.ofFn w) →
        ∃ C' J' s3, pySolveComFk qs' ids none bt true s' = .ok (C', J') s3 ∧ C'.f k r = D w) →
      ∀ t, D (lineOf w w' t) = (comOf (ys t)).coord r := by
    intro r hr3 D hD t
    obtain ⟨q1, _, f1, f2⟩ := exists_batch qs.rows k (ids.length + bt.dof) (List.ofFn (lineOf w w' t)) ha.shape (hshape t)
    obtain ⟨P1, J1, s1', e1, v1⟩ := hD _ q1 f1 f2
    have ha1 : ComArgs m0 s q1 ids [] [] bt := by
      refine ⟨f1, by rw [f2]; simpa using ha.nonempty, ?_, ha.joints, by simp, rfl⟩
      rw [f2]
      intro q hq
      rcases List.mem_or_eq_of_mem_set hq with h1 | h1
      · exact ha.shape q h1
      · rw [h1]; exact hshape t
    obtain ⟨P2, J2, s2', e2, _, _, h3⟩ := C05_com_partial (act := none) (wj := true) hr hf ha1
      (hc.imp_right fun a => ⟨a.1, by rw [f2, List.length_set]; exact a.2.1⟩) (by simp)
    rw [e1] at e2
    cases e2
    obtain ⟨bt', Tt, hbt, hTt, hCt⟩ := h3 k _ _ (by rw [f2, List.getElem?_set_self hkl]) (line_angles hθ hθ' t)
    rw [← v1, hCt r hr3, (hbt _).mp (y1 t)]
    cases hTt
    simp [actionMean]
  have hsum : ∀ r < 3, ∀ lr : ℝ, (∀ t, |(comOf (ys t)).coord r - (comOf (ys 0)).coord r - t * lr| ≤ t ^ 2 * M) →
      ∑ c : Fin (ids.length + bt.dof), J.f (3 * k + r) c * (w' c - w c) = lr := by
    intro r hr3 lr hlr
    obtain ⟨D, hD1, hD2⟩ := hvel k r _ hk hr3
    have h1 := hD2 (lineOf w w') (fun c => w' c - w c) 0 hmot (fun c hc => by rw [hba c hc, sub_self])
    simp only [hline r hr3 D hD1] at h1
    exact h1.unique (hasDerivAt_of_quadratic hlr)
  have hco : ∀ t, |(comOf (ys t)).x - (comOf (ys 0)).x - t * lin.imI| ≤ t ^ 2 * M ∧
      |(comOf (ys t)).y - (comOf (ys 0)).y - t * lin.imJ| ≤ t ^ 2 * M ∧
      |(comOf (ys t)).z - (comOf (ys 0)).z - t * lin.imK| ≤ t ^ 2 * M := by
    intro t
    obtain ⟨g1, g2, g3⟩ := quat_coord_le ((comOf (ys t)).quat - (comOf (ys 0)).quat - t • lin)
    exact ⟨le_trans (by simpa using g1) (hlin t), le_trans (by simpa using g2) (hlin t), le_trans (by simpa using g3) (hlin t)⟩
  rw [hsum 0 (by omega) lin.imI fun t => (hco t).1, hsum 1 (by omega) lin.imJ fun t => (hco t).2.1, hsum 2 (by omega) lin.imK fun t => (hco t).2.2]
  have c : ∀ r < 3, C.f k r = (comOf bs).coord r := by
    intro r hr3
    rw [hC r hr3]
    cases hT
    simp [actionMean]
  have c' : ∀ r < 3, C'.f k' r = (comOf bs').coord r := by
    intro r hr3
    rw [hC' r hr3]
    cases hT'
    simp [actionMean]
  rw [c 0 (by decide), c 1 (by decide), c 2 (by decide), c' 0 (by decide), c' 1 (by decide), c' 2 (by decide)]
  have h1 := hlin 1
  rw [hF0, hF1, one_smul, one_pow, one_mul] at h1
  refine le_trans ?_ h1
  rw [quat_norm_eq_sqrt]
  unfold Vec3.dist
  refine Real.sqrt_le_sqrt ?_
  simp only [Quaternion.re_sub, Quaternion.imI_sub, Quaternion.imJ_sub, Quaternion.imK_sub, Vec3.quat_re, Vec3.quat_imI, Vec3.quat_imJ,
    Vec3.quat_imK, Vec3.coord]
  nlinarith [sq_nonneg lin.re]

end

namespace Example

/-! ### The hypotheses are met -/

example := C120_solve_fk (rt := .xyzw) (uc := true) s1_reach s1_shallow unitDesc bad_fits (a1_args s1_links)
  (a1t_args s1_links) (.inl (by decide)) (.inl inertial) (by decide)

-- two rows of one batch
example := C120_solve_fk (rt := .rpy) (uc := false) s1_reach s1_shallow unitDesc bad_fits (a1_args s1_links)
  (a1_args s1_links) (.inr rfl) (.inl inertial) (by decide)

example := C120_solve_com_fk (ids := [0, 1]) (bt := .planer) (qs := .nd2 a1) (qs' := .nd2 a1t) s1_reach s1_shallow unitDesc
  ⟨by simp, by simp [QArg.rows, a1], by simp [QArg.rows, a1, BaseType.dof], (comArgs_planar s1_links).joints, by simp, rfl⟩
  ⟨by simp, by simp [QArg.rows, a1t], by simp [QArg.rows, a1t, BaseType.dof], (comArgs_planar s1_links).joints, by simp, rfl⟩
  (.inl ⟨by simp, rfl⟩) (by decide) masses ⟨⟨"arm", some armInertial⟩, by simp [ls], _, rfl, by norm_num [armInertial]⟩

/-- two configurations with different joint angles and base positions and the same base angle -/
example : ∀ c : Fin 5, IsBaseAngleCol 2 .planer c → (![1, 4, 3, 5, 7] : Fin 5 → ℝ) c = ![0, 2, 8, 9, 7] c := by
  rintro c ⟨d, hd, ⟨_, rfl⟩ | ⟨h, _⟩⟩
  · obtain rfl : c = 4 := by ext; simpa using hd
    rfl
  · cases h

end Example
end Tinyfk
