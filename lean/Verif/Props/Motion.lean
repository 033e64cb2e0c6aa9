import Verif.Proofs.Motion
import Verif.Props.BaseDist
import Verif.Props.ComBatchJac

/-!
# C108: the Jacobian turns joint velocities into velocities of the returned numbers

The statements about single columns (C63, C36, C86, C81) change one entry of a configuration. Here all entries move
at once.
-/

namespace Tinyfk

open Scalar

section
variable {ls : List (RawLink ℝ)} {js : List (RawJoint ℝ)} {m0 mc mk : KinModel ℝ} {cs : List (Call ℝ)}
  {h : List (PyCall ℝ)} {s : PyModel ℝ} {ps : List (Nat × Nat)} {es ids : List Nat}
  {bt : BaseType} {rt : RotType} {uc : Bool} {c0 : SizedCache (Pose ℝ)}

/-- entry `c` of a configuration is an angle of the base -/
def IsBaseAngleCol (n : Nat) (bt : BaseType) (c : Nat) : Prop := ∃ d, c = n + d ∧ IsBaseAngle bt d

/-- A motion `γ` of the entries of a configuration that passes through `q` at time `t` with velocities `γ'`. -/
structure Motion (q : List ℝ) {N : Nat} (γ : ℝ → Fin N → ℝ) (γ' : Fin N → ℝ) (t : ℝ) : Prop where
  here : List.ofFn (γ t) = q
  velocity : ∀ c, HasDerivAt (fun u => γ u c) (γ' c) t

section

theorem ofFn_update {N : Nat} (w : Fin N → ℝ) (c : Fin N) (v : ℝ) :
    List.ofFn (Function.update w c v) = (List.ofFn w).set c v := by
  apply List.ext_getElem
  · simp
  · intro i h1 h2
    simp only [List.getElem_ofFn, List.getElem_set]
    by_cases e : (c : Nat) = i
    · subst e; simp
    · rw [if_neg e, Function.update_of_ne]
      intro e'; exact e (congrArg Fin.val e').symm

/-- another batch in which configuration `k` is replaced -/
theorem exists_batch (rows : List (List ℝ)) (k N : Nat) (q : List ℝ) (hs : ∀ q ∈ rows, q.length = N) (hq : q.length = N) :
    ∃ qs' : QArg ℝ, (∀ q, qs' ≠ .list1 q) ∧ (∀ q, qs' ≠ .nd1 q) ∧ qs'.rows = rows.set k q := by
  refine ⟨.nd2 ⟨N, rows.set k q, ?_⟩, by simp, by simp, rfl⟩
  intro q1 hq1
  rcases List.mem_or_eq_of_mem_set hq1 with h1 | h1
  · exact hs q1 h1
  · rw [h1]; exact hq

/-- the velocity when only partial derivatives of moving entries are known -/
theorem velocity_of_partials {N : Nat} {F : (Fin N → ℝ) → ℝ} {γ : ℝ → Fin N → ℝ} {γ' J : Fin N → ℝ} {t : ℝ}
    (hF : DifferentiableAt ℝ F (γ t))
    (hp : ∀ c, γ' c = 0 ∨ HasDerivAt (fun v => F (Function.update (γ t) c v)) (J c) (γ t c))
    (hγ : ∀ c, HasDerivAt (fun t => γ t c) (γ' c) t) : HasDerivAt (fun t => F (γ t)) (∑ c, J c * γ' c) t := by
  have hd : ∀ c, HasDerivAt (fun v => F (Function.update (γ t) c v)) (fderiv ℝ F (γ t) (Pi.single c 1)) (γ t c) := by
    intro c
    have h3 : HasFDerivAt F (fderiv ℝ F (γ t)) (Function.update (γ t) c (γ t c)) := by
      rw [Function.update_eq_self]; exact hF.hasFDerivAt
    exact h3.comp_hasDerivAt (γ t c) (hasDerivAt_update (γ t) c (γ t c))
  refine (hasDerivAt_of_partials hF hd hγ).congr_deriv (Finset.sum_congr rfl fun c _ => ?_)
  rcases hp c with h0 | h1
  · rw [h0]; ring
  · rw [(hd c).unique h1]

/-- the velocity when some partial derivatives are known up to `ε` -/
theorem velocity_near {N : Nat} {F : (Fin N → ℝ) → ℝ} {γ : ℝ → Fin N → ℝ} {γ' J : Fin N → ℝ} {t ε : ℝ} {A : Fin N → Prop}
    [DecidablePred A] (hF : DifferentiableAt ℝ F (γ t))
    (hp : ∀ c, ¬ A c → HasDerivAt (fun v => F (Function.update (γ t) c v)) (J c) (γ t c))
    (ha : ∀ c, A c → NearDeriv (fun v => F (Function.update (γ t) c v)) (γ t c) (J c) ε)
    (hγ : ∀ c, HasDerivAt (fun t => γ t c) (γ' c) t) :
    NearDeriv (fun t => F (γ t)) t (∑ c, J c * γ' c) (ε * ∑ c, if A c then |γ' c| else 0) := by
  have hd : ∀ c, HasDerivAt (fun v => F (Function.update (γ t) c v)) (fderiv ℝ F (γ t) (Pi.single c 1)) (γ t c) := by
    intro c
    have h3 : HasFDerivAt F (fderiv ℝ F (γ t)) (Function.update (γ t) c (γ t c)) := by
      rw [Function.update_eq_self]; exact hF.hasFDerivAt
    exact h3.comp_hasDerivAt (γ t c) (hasDerivAt_update (γ t) c (γ t c))
  refine ⟨_, hasDerivAt_of_partials hF hd hγ, ?_⟩
  rw [← Finset.sum_sub_distrib, Finset.mul_sum]
  refine (Finset.abs_sum_le_sum_abs _ _).trans (Finset.sum_le_sum fun c _ => ?_)
  rw [← sub_mul, abs_mul]
  by_cases hc : A c
  · rw [if_pos hc]
    obtain ⟨D, h1, h2⟩ := ha c hc
    rw [(hd c).unique h1]
    exact mul_le_mul_of_nonneg_right h2 (abs_nonneg _)
  · rw [if_neg hc, (hd c).unique (hp c hc)]
    simp

theorem not_baseAngle {c : Nat} (hc : c < ids.length + bt.dof) (hb : ¬ IsBaseAngleCol ids.length bt c) :
    c < ids.length ∨ ∃ b, c = ids.length + b ∧ bt ≠ .fixed ∧ (b < 2 ∨ b = 2 ∧ bt = .floating) := by
  by_cases h : c < ids.length
  · exact .inl h
  · refine .inr ⟨c - ids.length, by omega, ?_, ?_⟩
    · rintro rfl; simp [BaseType.dof] at hc; omega
    · have hn : ¬ IsBaseAngle bt (c - ids.length) := fun h' => hb ⟨_, by omega, h'⟩
      have hlt : c - ids.length < bt.dof := by omega
      generalize c - ids.length = b at *
      cases bt
      · simp [BaseType.dof] at hlt
      · simp [BaseType.dof] at hlt
        simp [IsBaseAngle] at hn ⊢
        omega
      · simp [BaseType.dof] at hlt
        simp [IsBaseAngle] at hn ⊢
        omega

end

/-- the returned number as a function of a whole configuration, with its partial derivatives -/
theorem solve_fk_partials (hr : PyReach ls js m0 h cs s) (hf : Shallow ls js m0 cs) (hu : UnitDesc js) {qs : QArg ℝ}
    (hc : c0.Fits s.robot.links.length) (ha : FkArgs m0 s qs es ids bt) (huc : bt ≠ .fixed ∨ uc = false)
    (hne : (∃ r ∈ ls, r.inertial.isSome) ∨ weldsAfter (names0 m0) cs ≠ []) (hid : ids.Nodup) :
    ∃ P J s', pySolveFk qs es ids rt bt true uc (s.withCache c0) = .ok (P, J) s' ∧
      ∀ (k j r : Nat) (q : List ℝ), qs.rows[k]? = some q → j < es.length → r < rt.width →
        (rt = .rpy → 3 ≤ r → |Real.sin (P.f (k * es.length + j) 4)| < 99999 / 100000 ∧
          P.f (k * es.length + j) 3 ≠ Real.pi ∧ P.f (k * es.length + j) 5 ≠ Real.pi) →
        ∃ D : (Fin (ids.length + bt.dof) → ℝ) → ℝ,
          (∀ w (qs' : QArg ℝ), (∀ q, qs' ≠ .list1 q) → qs'.rows = qs.rows.set k (List.ofFn w) →
            ∃ P' J' s'', pySolveFk qs' es ids rt bt true uc (s.withCache c0) = .ok (P', J') s'' ∧
              P'.f (k * es.length + j) r = D w) ∧
          ∀ w, List.ofFn w = q → DifferentiableAt ℝ D w ∧ ∀ c : Fin (ids.length + bt.dof), ¬ IsBaseAngleCol ids.length bt c →
            HasDerivAt (fun v => D (Function.update w c v)) (J.f ((k * es.length + j) * rt.width + r) c) (w c) := by
  obtain ⟨P, J, s', e, hjoint⟩ := C63_solve_fk_jacobian (rt := rt) (uc := uc) hr hf hu hc ha huc hne
  refine ⟨P, J, s', e, ?_⟩
  intro k j r q hk hj hrl hreg
  obtain ⟨mc, hat⟩ := hr.at
  have hjl : es[j]? = some es[j] := by simp [hj]
  have hkl := (List.getElem?_eq_some_iff.mp hk).1
  obtain ⟨T, hT, hTp⟩ := hat.reach.smooth (ids := ids) (bt := bt) hu hr.unitCalls (l := es[j])
    (lt_of_lt_of_eq (ha.links es[j] (by simp)) (congrArg List.length hat.links))
  have hrun : ∀ w (qs' : QArg ℝ), (∀ q, qs' ≠ .list1 q) → qs'.rows = qs.rows.set k (List.ofFn w) →
      ∃ P' J' s'', pySolveFk qs' es ids rt bt true uc (s.withCache c0) = .ok (P', J') s'' ∧
        P'.f (k * es.length + j) r = (T w).row rt r ∧ PoseRow rt P' (k * es.length + j) (T w) := by
    intro w qs' hflat hrows
    have hl' : (List.ofFn w).length = ids.length + bt.dof := by simp
    obtain ⟨P', J', s'', _, e', _, hres'⟩ := (hat.withCache hc).pySolveFk (rt := rt) (wj := true) (uc := uc)
      (qs := qs') (es := es) hf ⟨hflat, by rw [hrows]; simpa using ha.nonempty, by
        rw [hrows]
        intro q1 hq1
        rcases List.mem_or_eq_of_mem_set hq1 with h1 | h1
        · exact ha.shape q1 h1
        · rw [h1]; exact hl', ha.joints, ha.links⟩ huc (fun _ => hne)
    obtain ⟨mkv, hmkv⟩ := hat.reach.config ha.joints hl'
    obtain ⟨T', mk', eT, hrow⟩ := hres'.pose k j _ (List.ofFn w) mkv (by
      rw [hrows, List.getElem?_set_self hkl]) hjl hmkv
    obtain ⟨m2, e2, _⟩ := getLinkPose_spec (hmkv.ready (hf.sets (configCalls_isSet ids bt _))) (hTp w mkv hmkv)
    rw [eT] at e2
    cases e2
    exact ⟨P', J', s'', e', hrow.row hrl, hrow⟩
  refine ⟨fun w => (T w).row rt r, fun w qs' h1 h2 => ?_, ?_⟩
  · obtain ⟨P', J', s'', a, b, _⟩ := hrun w qs' h1 h2
    exact ⟨P', J', s'', a, b⟩
  intro w hw
  have hsetk : qs.rows.set k (List.ofFn w) = qs.rows := by
    obtain ⟨h1, h2⟩ := List.getElem?_eq_some_iff.mp hk
    rw [hw, ← h2]
    exact List.set_getElem_self h1
  constructor
  · refine hT.row rt ?_
    intro hrt h3
    obtain ⟨g1, g2, g3⟩ := hreg hrt h3
    obtain ⟨P', J', s'', a, _, hrow⟩ := hrun w qs ha.notFlat hsetk.symm
    rw [e] at a
    cases a
    subst hrt
    obtain ⟨_, _, _, f1, f2, f3⟩ := hrow
    rw [f2] at g1
    rw [f1] at g2
    rw [f3] at g3
    exact ⟨Rot.band_of_pitch g1, g2, g3⟩
  · intro c hnb
    have hx : q[(c : Nat)]? = some (w c) := by
      rw [← hw, List.getElem?_ofFn, dif_pos c.2]
    have hD : ∀ (Dc : ℝ → ℝ), (∀ v (qs' : QArg ℝ), (∀ q, qs' ≠ .list1 q) → qs'.rows = qs.rows.set k (q.set c v) →
        ∃ P' J' s'', pySolveFk qs' es ids rt bt true uc (s.withCache c0) = .ok (P', J') s'' ∧
          P'.f (k * es.length + j) r = Dc v) → ∀ v, (T (Function.update w c v)).row rt r = Dc v := by
      intro Dc hDc v
      obtain ⟨qs', h1, _, h2⟩ := exists_batch qs.rows k (ids.length + bt.dof) (q.set c v) ha.shape (by
        rw [List.length_set, ← hw]; simp)
      obtain ⟨P1, J1, s1, e1, r1⟩ := hDc v qs' h1 h2
      obtain ⟨P2, J2, s2, e2, r2, _⟩ := hrun (Function.update w c v) qs' h1 (by rw [h2, ofFn_update, hw])
      rw [e1] at e2
      cases e2
      rw [← r2, r1]
    rcases not_baseAngle c.2 hnb with hcl | ⟨b, hcb, hb, hbl⟩
    · obtain ⟨Dc, h1, h2⟩ := hjoint k j c r q (w c) hk hj hcl hrl hx (.of_nodup hid hcl) hreg
      simp only [hD Dc h1]
      exact h2
    · obtain ⟨P1, J1, s1, e1, hbase⟩ := C63_base_position (rt := rt) (uc := uc) hr hf hu hc ha hb hne
      rw [e] at e1
      cases e1
      obtain ⟨Dc, h1, h2⟩ := hbase k j b r q (w c) hk hj hbl hrl (by rw [← hcb]; exact hx)
      rw [← hcb] at h1 h2
      simp only [hD Dc h1]
      exact h2

/-- **C108.** The Jacobian of `solve_fk` turns joint velocities into velocities of the returned pose. Let the
entries of configuration `k` move along any differentiable motion that passes through the given configuration,
all joints and the base position at once, while the base does not turn at that moment. Then each number returned
for link `j` is a differentiable function of time there, and its velocity is the row of `J` times the velocities
of the entries. Here `D w` is the number that is returned when configuration `k` is `w`. No joint is listed
twice; roll-pitch-yaw rows away from their singularity and jumps. -/
theorem C108_solve_fk_velocity (hr : PyReach ls js m0 h cs s) (hf : Shallow ls js m0 cs) (hu : UnitDesc js) {qs : QArg ℝ}
    (hc : c0.Fits s.robot.links.length) (ha : FkArgs m0 s qs es ids bt) (huc : bt ≠ .fixed ∨ uc = false)
    (hne : (∃ r ∈ ls, r.inertial.isSome) ∨ weldsAfter (names0 m0) cs ≠ []) (hid : ids.Nodup) :
    ∃ P J s', pySolveFk qs es ids rt bt true uc (s.withCache c0) = .ok (P, J) s' ∧
      ∀ (k j r : Nat) (q : List ℝ), qs.rows[k]? = some q → j < es.length → r < rt.width →
        (rt = .rpy → 3 ≤ r → |Real.sin (P.f (k * es.length + j) 4)| < 99999 / 100000 ∧
          P.f (k * es.length + j) 3 ≠ Real.pi ∧ P.f (k * es.length + j) 5 ≠ Real.pi) →
        ∃ D : (Fin (ids.length + bt.dof) → ℝ) → ℝ,
          (∀ w (qs' : QArg ℝ), (∀ q, qs' ≠ .list1 q) → qs'.rows = qs.rows.set k (List.ofFn w) →
            ∃ P' J' s'', pySolveFk qs' es ids rt bt true uc (s.withCache c0) = .ok (P', J') s'' ∧
              P'.f (k * es.length + j) r = D w) ∧
          ∀ γ (γ' : Fin (ids.length + bt.dof) → ℝ) t, Motion q γ γ' t → (∀ c : Fin (ids.length + bt.dof), IsBaseAngleCol ids.length bt c → γ' c = 0) →
            HasDerivAt (fun u => D (γ u)) (∑ c : Fin (ids.length + bt.dof), J.f ((k * es.length + j) * rt.width + r) c * γ' c) t := by
  obtain ⟨P, J, s', e, hall⟩ := solve_fk_partials (rt := rt) hr hf hu hc ha huc hne hid
  refine ⟨P, J, s', e, ?_⟩
  intro k j r q hk hj hrl hreg
  obtain ⟨D, hD1, hD2⟩ := hall k j r q hk hj hrl hreg
  refine ⟨D, hD1, ?_⟩
  intro γ γ' t hm hb
  obtain ⟨h1, h2⟩ := hD2 _ hm.here
  refine velocity_of_partials (J := fun c => J.f ((k * es.length + j) * rt.width + r) c) h1 (fun c => ?_) hm.velocity
  by_cases hc : IsBaseAngleCol ids.length bt c
  · exact .inl (hb c hc)
  · exact .inr (h2 c hc)

open Classical in
/-- **C108, turning base.** When the base turns as well, the velocity of a returned position is the row of `J` times
the velocities up to `5e-8` times the distance of the link from the base times the turning rates of the base. (For a
floating base, away from the singularity and with a pitch of positive cosine: the code falsifies C81 otherwise.) -/
theorem C108_turning_base (hr : PyReach ls js m0 h cs s) (hf : Shallow ls js m0 cs) (hu : UnitDesc js) {qs : QArg ℝ}
    (hc : c0.Fits s.robot.links.length) (ha : FkArgs m0 s qs es ids bt) (hb : bt ≠ .fixed)
    (hne : (∃ r ∈ ls, r.inertial.isSome) ∨ weldsAfter (names0 m0) cs ≠ []) (hid : ids.Nodup) :
    ∃ P J s', pySolveFk qs es ids rt bt true uc (s.withCache c0) = .ok (P, J) s' ∧
      ∀ (k j r : Nat) (q : List ℝ), qs.rows[k]? = some q → j < es.length → r < 3 →
        (bt = .floating → ∀ p, q[ids.length + 4]? = some p → |Real.sin p| < 99999 / 100000 ∧ 0 < Real.cos p) →
        ∃ (D : (Fin (ids.length + bt.dof) → ℝ) → ℝ) (B : Pose ℝ),
          (∀ w (qs' : QArg ℝ), (∀ q, qs' ≠ .list1 q) → qs'.rows = qs.rows.set k (List.ofFn w) →
            ∃ P' J' s'', pySolveFk qs' es ids rt bt true uc (s.withCache c0) = .ok (P', J') s'' ∧
              P'.f (k * es.length + j) r = D w) ∧
          basePart ids.length bt q = some B ∧
          ∀ γ (γ' : Fin (ids.length + bt.dof) → ℝ) t, Motion q γ γ' t →
            NearDeriv (fun u => D (γ u)) t (∑ c : Fin (ids.length + bt.dof), J.f ((k * es.length + j) * rt.width + r) c * γ' c)
              (5 / 10 ^ 8 * Real.sqrt (sqDist ⟨P.f (k * es.length + j) 0, P.f (k * es.length + j) 1, P.f (k * es.length + j) 2⟩
                B.position) * ∑ c : Fin (ids.length + bt.dof), if IsBaseAngleCol ids.length bt c then |γ' c| else 0) := by
  obtain ⟨P, J, s', e, hall⟩ := solve_fk_partials (rt := rt) (uc := uc) hr hf hu hc ha (.inl hb) hne hid
  refine ⟨P, J, s', e, ?_⟩
  intro k j r q hk hj hrl hreg
  have hrw : r < rt.width := by cases rt <;> simp [RotType.width] <;> omega
  obtain ⟨D, hD1, hD2⟩ := hall k j r q hk hj hrw (fun _ h3 => absurd h3 (by omega))
  have hql := ha.shape q (List.mem_of_getElem? hk)
  obtain ⟨B, hB⟩ := basePart_isSome hql hb
  refine ⟨D, B, hD1, hB, ?_⟩
  intro γ γ' t hm
  obtain ⟨h1, h2⟩ := hD2 _ hm.here
  obtain ⟨P1, J1, s1, e1, hang⟩ := C81_base_angles_partial (rt := rt) (uc := uc) hr hf hu hc ha hb hne
  rw [e] at e1
  cases e1
  refine velocity_near (J := fun c => J.f ((k * es.length + j) * rt.width + r) c) h1 h2 (fun c hca => ?_) hm.velocity
  obtain ⟨d, hcd, hda⟩ := hca
  have hx : q[(c : Nat)]? = some (γ t c) := by
    rw [← hm.here, List.getElem?_ofFn, dif_pos c.2]
  rw [hcd] at hx
  obtain ⟨Dc, B', g1, g2, g3⟩ := hang k j d r q (γ t c) hk hj hda hrl hx (fun hfl p hp => ⟨(hreg hfl p hp).1, fun _ => (hreg hfl p hp).2⟩)
  rw [hB] at g2
  cases g2
  have hD : ∀ v, D (Function.update (γ t) c v) = Dc v := by
    intro v
    obtain ⟨qs', f1, _, f2⟩ := exists_batch qs.rows k (ids.length + bt.dof) (q.set c v) ha.shape (by
      rw [List.length_set]; exact hql)
    obtain ⟨P1, J1, s1, e1, r1⟩ := g1 v qs' f1 (by rw [← hcd]; exact f2)
    obtain ⟨P2, J2, s2, e2, r2⟩ := hD1 (Function.update (γ t) c v) qs' f1 (by rw [f2, ofFn_update, hm.here])
    rw [e1] at e2
    cases e2
    rw [← r2, r1]
  simp only [hD, hcd]
  exact g3

section

theorem differentiable_over {W : Type} [NormedAddCommGroup W] [NormedSpace ℝ W] {f : W → ℝ} (hf : Differentiable ℝ f) (c : ℝ) :
    Differentiable ℝ fun w => f w / c := by
  simp only [div_eq_inv_mul]
  exact hf.const_mul _

theorem smooth_of_forall₂ {α β : Type} {R : α → β → Prop} {S : β → Prop} (hS : ∀ a b, R a b → S b) {l : List α} {r : List β}
    (h : List.Forall₂ R l r) : ∀ b ∈ r, S b := by
  induction h with
  | nil => simp
  | cons h1 _ ih =>
    intro b hb
    rcases List.mem_cons.mp hb with rfl | hb
    · exact hS _ _ h1
    · exact ih b hb

theorem differentiable_foldl {W α : Type} [NormedAddCommGroup W] [NormedSpace ℝ W] {g : α → W → ℝ} {xs : List α}
    (hg : ∀ a ∈ xs, Differentiable ℝ (g a)) {z : W → ℝ} (hz : Differentiable ℝ z) :
    Differentiable ℝ fun w => xs.foldl (fun s x => s + g x w) (z w) := by
  induction xs generalizing z with
  | nil => exact hz
  | cons a xs ih =>
    exact ih (fun b hb => hg b (by simp [hb])) (z := fun w => z w + g a w) (hz.add (hg a (by simp)))

theorem differentiable_actionMean {W : Type} [NormedAddCommGroup W] [NormedSpace ℝ W] {M : ℝ} {fs : List ℝ} {xs : List (W → ℝ)}
    (hx : ∀ f ∈ xs, Differentiable ℝ f) {y : W → ℝ} (hy : Differentiable ℝ y) :
    Differentiable ℝ fun w => actionMean M (fs.zip (xs.map fun f => f w)) (y w) := by
  have hlen : ∀ w, (xs.map fun f => f w).length = (xs.map fun _ => (0 : ℝ)).length := fun w => by simp
  have hz : ∀ w, fs.zip (xs.map fun f => f w) = (fs.zip xs).map fun a => (a.1, a.2 w) := by
    intro w
    rw [List.zip_map_right]
    rfl
  have hfold : Differentiable ℝ fun w => (fs.zip (xs.map fun f => f w)).foldl (fun y a => y + a.1 / M * a.2) (y w) := by
    simp only [hz, List.foldl_map]
    refine differentiable_foldl (g := fun (a : ℝ × (W → ℝ)) w => a.1 / M * a.2 w) (fun a ha => ?_) hy
    exact (hx a.2 (List.of_mem_zip ha).2).const_mul _
  by_cases he : fs.zip xs = []
  · have he' : ∀ w, fs.zip (xs.map fun f => f w) = [] := fun w => by rw [hz, he]; rfl
    simpa [actionMean, he'] using hy
  · have he' : ∀ w, fs.zip (xs.map fun f => f w) ≠ [] := fun w => by rw [hz]; simpa using he
    simp only [actionMean, he', if_false]
    simp only [fun w => foldl_weights (M := M) (fs := fs) (hlen w) 1]
    exact differentiable_over hfold _

/-- the centre of mass as a differentiable function of a whole configuration -/
theorem Reach.smooth_com (hc : Reach ls js m0 cs mc) (hf : Shallow ls js m0 cs) (hu : UnitDesc js) (huc : UnitCalls cs) :
    ∃ g : (Fin (ids.length + bt.dof) → ℝ) → Vec3 ℝ, Vec3.Smooth g ∧
      ∀ w mk, Reach ls js m0 (cs ++ configCalls ids bt (List.ofFn w)) mk → ∀ v m', getCom mk = .ok v m' → v = g w := by
  have hex : ∀ d ∈ mc.comDummy, ∃ y : Inertial ℝ × ((Fin (ids.length + bt.dof) → ℝ) → Pose ℝ), Pose.Smooth y.2 ∧
      ∀ w mk, Reach ls js m0 (cs ++ configCalls ids bt (List.ofFn w)) mk → IsComPt mk d (y.1, y.2 w) := by
    intro d hd
    obtain ⟨lk, inr, h1, h2⟩ := hc.abs.inv.com d hd
    obtain ⟨T, hT, hTp⟩ := hc.smooth (ids := ids) (bt := bt) hu huc (List.getElem?_eq_some_iff.mp h1).1
    refine ⟨(inr, T), hT, fun w mk hmk => ⟨lk, ?_, hc.abs.inv.graph.ids h1, h2, hTp w mk hmk⟩⟩
    obtain ⟨θ, p, c1, e1⟩ := hmk.sets_eq hc (configCalls_isSet ids bt _)
    rw [e1]
    exact h1
  obtain ⟨ys, hys⟩ := forall₂_exists mc.comDummy hex
  have hsm : ∀ y ∈ ys, Pose.Smooth y.2 := by
    exact smooth_of_forall₂ (fun _ _ h => h.1) hys
  refine ⟨fun w => comVal (ys.map fun y => (y.1, y.2 w)), ?_, ?_⟩
  · simp only [comVal, foldl_comStep, Vec3.zero]
    simp only [List.foldl_map]
    have h0 : ∀ g : Inertial ℝ × ((Fin (ids.length + bt.dof) → ℝ) → Pose ℝ) → (Fin (ids.length + bt.dof) → ℝ) → ℝ,
        (∀ y ∈ ys, Differentiable ℝ (g y)) → Differentiable ℝ fun w => ys.foldl (fun s x => s + g x w) 0 := fun g hg =>
      differentiable_foldl hg (z := fun _ => 0) (differentiable_const _)
    constructor
    · exact differentiable_over (h0 (fun y w => y.1.mass * (y.2 w).position.x) fun y hy => (hsm y hy).pos.x.const_mul _) _
    · exact differentiable_over (h0 (fun y w => y.1.mass * (y.2 w).position.y) fun y hy => (hsm y hy).pos.y.const_mul _) _
    · exact differentiable_over (h0 (fun y w => y.1.mass * (y.2 w).position.z) fun y hy => (hsm y hy).pos.z.const_mul _) _
  · intro w mk hmk v m' ev
    have hpts : List.Forall₂ (IsComPt mk) mk.comDummy (ys.map fun y => (y.1, y.2 w)) := by
      obtain ⟨θ, p, c1, e1⟩ := hmk.sets_eq hc (configCalls_isSet ids bt _)
      have : mk.comDummy = mc.comDummy := by rw [e1]
      rw [this, List.forall₂_map_right_iff]
      exact hys.imp fun d y hy => hy.2 w mk hmk
    obtain ⟨_, e4, _⟩ := (Query.getCom hpts).run (hmk.ready (hf.sets (configCalls_isSet ids bt _)))
    rw [ev] at e4
    exact (Res.ok.inj e4).1

end

/-- **C108, squared distances.** The gradient of `compute_inter_link_sqdists` times the velocities is the velocity of
the returned squared distance, when the base does not turn at that moment. -/
theorem C108_sqdists_velocity (hr : PyReach ls js m0 h cs s) (hf : Shallow ls js m0 cs) (hu : UnitDesc js) {qs : List (List ℝ)}
    (hc : c0.Fits s.robot.links.length) (ha : DistArgs m0 s qs ps ids bt) (huc : uc = false ∨ bt ≠ .fixed)
    (hne : (∃ r ∈ ls, r.inertial.isSome) ∨ weldsAfter (names0 m0) cs ≠ []) (hid : ids.Nodup) :
    ∃ V J s', pySqdists qs ps ids bt true uc (s.withCache c0) = .ok (V, J) s' ∧
      ∀ (k j : Nat) (q : List ℝ), qs[k]? = some q → j < ps.length →
        ∃ D : (Fin (ids.length + bt.dof) → ℝ) → ℝ,
          (∀ w, ∃ V' J' s'', pySqdists (qs.set k (List.ofFn w)) ps ids bt true uc (s.withCache c0) = .ok (V', J') s'' ∧
            V'.f (k * ps.length + j) 0 = D w) ∧
          ∀ γ (γ' : Fin (ids.length + bt.dof) → ℝ) t, Motion q γ γ' t →
            (∀ c : Fin (ids.length + bt.dof), IsBaseAngleCol ids.length bt c → γ' c = 0) →
            HasDerivAt (fun u => D (γ u)) (∑ c : Fin (ids.length + bt.dof), J.f (k * ps.length + j) c * γ' c) t := by
  obtain ⟨V, J, s', e, hjoint⟩ := C36_gradient (uc := uc) hr hf hu hc ha huc hne
  refine ⟨V, J, s', e, ?_⟩
  intro k j q hk hj
  obtain ⟨mc, hat⟩ := hr.at
  have hkl := (List.getElem?_eq_some_iff.mp hk).1
  obtain ⟨⟨l1, l2⟩, hp⟩ : ∃ p, ps[j]? = some p := ⟨ps[j], by simp [hj]⟩
  obtain ⟨hl1, hl2⟩ := ha.links (l1, l2) (List.mem_of_getElem? hp)
  have hml : s.robot.links.length = mc.links.length := congrArg List.length hat.links
  obtain ⟨T1, hT1, hp1⟩ := hat.reach.smooth (ids := ids) (bt := bt) hu hr.unitCalls (l := l1) (by rw [← hml]; exact hl1)
  obtain ⟨T2, hT2, hp2⟩ := hat.reach.smooth (ids := ids) (bt := bt) hu hr.unitCalls (l := l2) (by rw [← hml]; exact hl2)
  have hrun : ∀ w, ∃ V' J' s'', pySqdists (qs.set k (List.ofFn w)) ps ids bt true uc (s.withCache c0) = .ok (V', J') s'' ∧
      V'.f (k * ps.length + j) 0 = sqDist (T1 w).position (T2 w).position := by
    intro w
    have hl' : (List.ofFn w).length = ids.length + bt.dof := by simp
    obtain ⟨V', J', s'', e', hres'⟩ := hr.sqdists (wj := true) (uc := uc) (qs := qs.set k (List.ofFn w)) (ps := ps) hf hc
      ⟨ha.nonempty, by
        intro q1 hq1
        rcases List.mem_or_eq_of_mem_set hq1 with h1 | h1
        · exact ha.shape q1 h1
        · rw [h1]; exact hl', ha.joints, ha.links⟩ huc (fun _ => hne)
    refine ⟨V', J', s'', e', ?_⟩
    obtain ⟨mkv, hmkv⟩ := hat.reach.config ha.joints hl'
    obtain ⟨F1, _, F2, _, f1, f2, f3⟩ := hres'.dist k j l1 l2 (List.ofFn w) mkv (by
      rw [List.getElem?_set_self hkl]) hp hmkv
    have hready := hmkv.ready (hf.sets (configCalls_isSet ids bt _))
    obtain ⟨_, g1, _⟩ := getLinkPose_spec hready (hp1 w mkv hmkv)
    obtain ⟨_, g2, _⟩ := getLinkPose_spec hready (hp2 w mkv hmkv)
    rw [f1] at g1; cases g1
    rw [f2] at g2; cases g2
    exact f3
  refine ⟨fun w => sqDist (T1 w).position (T2 w).position, hrun, ?_⟩
  intro γ γ' t hm hb
  have hql := ha.shape q (List.mem_of_getElem? hk)
  refine velocity_of_partials (F := fun w => sqDist (T1 w).position (T2 w).position) (J := fun c => J.f (k * ps.length + j) c) ?_ (fun c => ?_) hm.velocity
  · have a1 := hT1.pos.x
    have a2 := hT1.pos.y
    have a3 := hT1.pos.z
    have b1 := hT2.pos.x
    have b2 := hT2.pos.y
    have b3 := hT2.pos.z
    have : Differentiable ℝ fun w => sqDist (T1 w).position (T2 w).position := by
      simp only [sqDist]
      fun_prop
    exact this _
  by_cases hca : IsBaseAngleCol ids.length bt c
  · exact .inl (hb c hca)
  right
  have hx : q[(c : Nat)]? = some (γ t c) := by
    rw [← hm.here, List.getElem?_ofFn, dif_pos c.2]
  rcases not_baseAngle c.2 hca with hcl | ⟨b, hcb, hbf, hbl⟩
  · obtain ⟨Dc, h1, h2⟩ := hjoint k j c q (γ t c) hk hj hcl hx (.of_nodup hid hcl)
    have hD : ∀ v, sqDist (T1 (Function.update (γ t) c v)).position (T2 (Function.update (γ t) c v)).position = Dc v := by
      intro v
      obtain ⟨P1, J1, s1, e1, r1⟩ := h1 v
      obtain ⟨P2, J2, s2, e2, r2⟩ := hrun (Function.update (γ t) c v)
      rw [ofFn_update, hm.here, e1] at e2
      cases e2
      rw [← r2, r1]
    simp only [hD]
    exact h2
  · obtain ⟨V1, J1, s1, e1, hinv, hcol⟩ := C82_base_invariance (uc := uc) hr hf hu hc ha hbf hne
    rw [e] at e1
    cases e1
    have hdof : b < bt.dof := by have := c.2; omega
    have hJ : J.f (k * ps.length + j) c = 0 := by
      rw [hcb]
      exact (hcol k j b q hk hj hdof).1 fun h' => hca ⟨b, hcb, h'⟩
    have hD : ∀ v, sqDist (T1 (Function.update (γ t) c v)).position (T2 (Function.update (γ t) c v)).position =
        V.f (k * ps.length + j) 0 := by
      intro v
      obtain ⟨P1, J1, s1, e1, r1⟩ := hinv k j q (q.set c v) hk hj (by simp) (by rw [List.take_set_of_le (by omega)])
      obtain ⟨P2, J2, s2, e2, r2⟩ := hrun (Function.update (γ t) c v)
      rw [ofFn_update, hm.here, e1] at e2
      cases e2
      rw [← r2, r1]
    simp only [hD, hJ]
    exact hasDerivAt_const _ _

/-- **C108, centre of mass.** The Jacobian of `solve_com_fk` times the velocities is the velocity of the returned
centre of mass, action forces included, when the base is at rest at that moment. -/
theorem C108_solve_com_fk_velocity {qs : QArg ℝ} {act : Option (List Nat × List ℝ)} {s' : PyModel ℝ}
    (hr : PyReach ls js m0 h cs s) (hf : Shallow ls js m0 cs) (hu : UnitDesc js)
    (ha : ComArgs m0 s qs ids (act.getD ([], [])).1 (act.getD ([], [])).2 bt)
    (hc : (bt ≠ .fixed ∧ s' = s) ∨ (pyClearCache s = .ok () s' ∧ qs.rows.length = 1))
    (hne : act ≠ none → (∃ r ∈ ls, r.inertial.isSome) ∨ weldsAfter (names0 m0) cs ≠ []) (hid : ids.Nodup) :
    ∃ C J s'', pySolveComFk qs ids act bt true s' = .ok (C, J) s'' ∧
      ∀ (k r : Nat) (q : List ℝ), qs.rows[k]? = some q → r < 3 →
        ∃ D : (Fin (ids.length + bt.dof) → ℝ) → ℝ,
          (∀ w (qs' : QArg ℝ), (∀ q, qs' ≠ .nd1 q) → qs'.rows = qs.rows.set k (List.ofFn w) →
            ∃ C' J' s3, pySolveComFk qs' ids act bt true s' = .ok (C', J') s3 ∧ C'.f k r = D w) ∧
          ∀ γ (γ' : Fin (ids.length + bt.dof) → ℝ) t, Motion q γ γ' t →
            (∀ c : Fin (ids.length + bt.dof), ids.length ≤ c → γ' c = 0) →
            HasDerivAt (fun u => D (γ u)) (∑ c : Fin (ids.length + bt.dof), J.f (3 * k + r) c * γ' c) t := by
  obtain ⟨C, J, s'', e, hjoint⟩ := C86_solve_com_fk_jacobian hr hf hu ha hc hne
  refine ⟨C, J, s'', e, ?_⟩
  intro k r q hk hrl
  obtain ⟨mc, hat⟩ := hr.at
  have key : At ls js m0 cs mc s'.robot ∧ (bt ≠ .fixed ∨ (Fresh s'.robot ∧ qs.rows.length = 1)) ∧
      s'.robot.links = s.robot.links := by
    rcases hc with ⟨h1, rfl⟩ | ⟨h1, h2⟩
    · exact ⟨hat, .inl h1, rfl⟩
    · obtain ⟨m1, e1, a1, a2, _⟩ := hat.clear
      simp only [pyClearCache, onRobot, e1] at h1
      cases h1
      refine ⟨a1, .inr ⟨a2, h2⟩, ?_⟩
      show m1.links = _
      rw [a1.links, hat.links]
  obtain ⟨hat', hc', hl⟩ := key
  have hkl := (List.getElem?_eq_some_iff.mp hk).1
  have hml : s.robot.links.length = mc.links.length := congrArg List.length hat.links
  obtain ⟨g, hg, hgv⟩ := hat.reach.smooth_com (ids := ids) (bt := bt) hf hu hr.unitCalls
  obtain ⟨Ts, hTs⟩ := forall₂_exists (l := (act.getD ([], [])).1)
    (R := fun l (T : (Fin (ids.length + bt.dof) → ℝ) → Pose ℝ) => Pose.Smooth T ∧
      ∀ w mk, Reach ls js m0 (cs ++ configCalls ids bt (List.ofFn w)) mk → IsPose mk l (T w))
    (fun l hl => hat.reach.smooth hu hr.unitCalls (by rw [← hml]; exact ha.links l hl))
  have hsm : ∀ T ∈ Ts, Pose.Smooth T := by
    exact smooth_of_forall₂ (fun _ _ h => h.1) hTs
  have hrun : ∀ w (qs' : QArg ℝ), (∀ q, qs' ≠ .nd1 q) → qs'.rows = qs.rows.set k (List.ofFn w) →
      ∃ C' J' s3, pySolveComFk qs' ids act bt true s' = .ok (C', J') s3 ∧
        C'.f k r = actionMean mc.totalMass ((act.getD ([], [])).2.zip ((Ts.map fun T w => (T w).position.coord r).map fun f => f w))
          ((g w).coord r) := by
    intro w qs' hflat hrows
    have hl' : (List.ofFn w).length = ids.length + bt.dof := by simp
    obtain ⟨C', J', s3, _, e', _, hres'⟩ := hat'.pySolveComFk (wj := true) (qs := qs') hf
      ⟨hflat, by rw [hrows]; simpa using ha.nonempty, by
        rw [hrows]
        intro q1 hq1
        rcases List.mem_or_eq_of_mem_set hq1 with h1 | h1
        · exact ha.shape q1 h1
        · rw [h1]; exact hl', ha.joints, by rw [hl]; exact ha.links, ha.forces⟩
      (by rw [hrows, List.length_set]; exact hc') (fun _ => hne)
    refine ⟨C', J', s3, e', ?_⟩
    obtain ⟨mkv, hmkv⟩ := hat.reach.config ha.joints hl'
    obtain ⟨v, mk2, Ts', ew, hTs', hC⟩ := hres'.com k (List.ofFn w) mkv (by
      rw [hrows, List.getElem?_set_self hkl]) hmkv
    have hmass : mkv.totalMass = mc.totalMass := by
      obtain ⟨θ, p, c1, e1⟩ := hmkv.sets_eq hat.reach (configCalls_isSet ids bt _)
      rw [e1]
    have hTT : Ts' = Ts.map fun T => T w := by
      have : List.Forall₂ (fun T T' => T' = T w) Ts Ts' :=
        forall₂_comp (R := fun T l => Pose.Smooth T ∧
            ∀ w mk, Reach ls js m0 (cs ++ configCalls ids bt (List.ofFn w)) mk → IsPose mk l (T w)) (fun T l T' h1 ⟨m', h2⟩ => by
          obtain ⟨_, g1, _⟩ := getLinkPose_spec (hmkv.ready (hf.sets (configCalls_isSet ids bt _))) (h1.2 w mkv hmkv)
          rw [h2] at g1
          exact (Res.ok.inj g1).1) hTs.flip hTs'
      clear hTs hTs' hC hsm
      induction this with
      | nil => rfl
      | cons h1 _ ih => simp only [List.map_cons, ← h1, ih]
    rw [hC r hrl, hmass, hTT, hgv w mkv hmkv v mk2 ew]
    simp only [List.map_map, Function.comp_def]
  refine ⟨_, hrun, ?_⟩
  intro γ γ' t hm hb
  obtain ⟨F, hF⟩ : ∃ F : (Fin (ids.length + bt.dof) → ℝ) → ℝ, F = fun w => actionMean mc.totalMass ((act.getD ([], [])).2.zip
    ((Ts.map fun T w => (T w).position.coord r).map fun f => f w)) ((g w).coord r) := ⟨_, rfl⟩
  show HasDerivAt (fun u => (fun w => actionMean mc.totalMass ((act.getD ([], [])).2.zip
    ((Ts.map fun T w => (T w).position.coord r).map fun f => f w)) ((g w).coord r)) (γ u)) _ t
  rw [← hF]
  have hql := ha.shape q (List.mem_of_getElem? hk)
  have hcoord : ∀ {f : (Fin (ids.length + bt.dof) → ℝ) → Vec3 ℝ}, Vec3.Smooth f → Differentiable ℝ fun w => (f w).coord r := by
    intro f hf
    match r, hrl with
    | 0, _ => exact hf.x
    | 1, _ => exact hf.y
    | 2, _ => exact hf.z
  refine velocity_of_partials (F := F) (J := fun c => J.f (3 * k + r) c) ?_ (fun c => ?_) hm.velocity
  · rw [hF]
    refine differentiable_actionMean ?_ (hcoord hg) _
    intro f hf
    obtain ⟨T, hT, rfl⟩ := List.mem_map.mp hf
    exact hcoord (hsm T hT).pos
  by_cases hcl : (c : Nat) < ids.length
  swap
  · exact .inl (hb c (by omega))
  right
  have hx : q[(c : Nat)]? = some (γ t c) := by
    rw [← hm.here, List.getElem?_ofFn, dif_pos c.2]
  obtain ⟨Dc, h1, h2⟩ := hjoint k c r q (γ t c) hk hcl hrl hx (.of_nodup hid hcl)
  have hD : ∀ v, actionMean mc.totalMass ((act.getD ([], [])).2.zip
      ((Ts.map fun T w => (T w).position.coord r).map fun f => f (Function.update (γ t) c v)))
        ((g (Function.update (γ t) c v)).coord r) = Dc v := by
    intro v
    obtain ⟨qs', f1, f1', f2⟩ := exists_batch qs.rows k (ids.length + bt.dof) (q.set c v) ha.shape (by
      rw [List.length_set]; exact hql)
    obtain ⟨P1, J1, s1, e1, r1⟩ := h1 v qs' f1' f2
    obtain ⟨P2, J2, s2, e2, r2⟩ := hrun (Function.update (γ t) c v) qs' f1' (by rw [f2, ofFn_update, hm.here])
    rw [e1] at e2
    cases e2
    rw [← r2, r1]
  simp only [hF, hD]
  exact h2

end

namespace Example

/-! ### The hypotheses are met -/

example := C108_solve_fk_velocity (rt := .xyzw) (uc := true) s1_reach s1_shallow unitDesc bad_fits (a1_args s1_links)
  (.inl (by decide)) (.inl inertial) (by decide)

example := C108_turning_base (rt := .rpy) (uc := false) s1_reach s1_shallow unitDesc bad_fits (a1_args s1_links)
  (by decide) (.inl inertial) (by decide)

example := C108_sqdists_velocity (uc := true) s1_reach s1_shallow unitDesc bad_fits (distArgs s1_links) (.inr (by decide)) (.inl inertial)
  (by decide)

example := C108_solve_com_fk_velocity (act := some ([3], [2])) s1_reach s1_shallow unitDesc (comArgs_planar s1_links)
  (.inl ⟨by simp, rfl⟩) (fun _ => .inl inertial) (by decide)

/-- all entries of a configuration moving at once with different velocities -/
example : Motion [1, 2, 3] (fun u c => ((c : Fin 3) : ℝ) + 1 + u * ((c : Fin 3) : ℝ)) (fun c => (c : ℝ)) 0 where
  here := by simp [List.ofFn_succ]; norm_num
  velocity c := by simpa using ((hasDerivAt_id (0 : ℝ)).mul_const (((c : Fin 3) : Nat) : ℝ)).const_add ((((c : Fin 3) : Nat) : ℝ) + 1)

end Example
end Tinyfk
