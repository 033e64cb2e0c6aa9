import Verif.Proofs.Batch
import Verif.Spec.Solver

/-!
# Properties: forward kinematics in batches, from Python

C02, C03, C37, C39, C40.
-/

set_option linter.unusedSectionVars false

namespace Tinyfk

open Scalar

section
variable {K : Type} [Scalar K]
  {ls : List (RawLink K)} {js : List (RawJoint K)} {m0 : KinModel K} {cs : List (Call K)} {mc m : KinModel K}

theorem RotType.dim_eq (rt : RotType) : rt.dim = rt.width := by cases rt <;> rfl

theorem getJacobian_same {l : Nat} {ids : List Nat} {rt : RotType} {wb : Bool} {B : Mat K} {m1 m2 : KinModel K}
    (hq : Query m1 (getJacobian l ids rt wb) B) (hs : SameRobot m1 m2) (hr : Ready m2) :
    ∃ m', getJacobian l ids rt wb m2 = .ok B m' := by
  obtain ⟨m', e, _⟩ := hq m2 hs hr
  exact ⟨m', e⟩

/-- `modifyRow` on all rows -/
theorem modifyInput_spec {n : Nat} {rows : List (List K)} (h : ∀ r ∈ rows, r.length = n + 3) :
    ∃ rows', modifyInput n rows = .ok rows' ∧ rows'.length = rows.length ∧
      ∀ (k : Nat) q, rows[k]? = some q → ∃ q', rows'[k]? = some q' ∧ modifyRow n q = .ok q' := by
  unfold modifyInput
  induction rows with
  | nil => exact ⟨[], rfl, rfl, by simp⟩
  | cons r rows ih =>
    obtain ⟨r', h1, _⟩ := modifyRow_spec (h r (by simp))
    obtain ⟨rows', h2, h3, h4⟩ := ih (fun r hr => h r (by simp [hr]))
    refine ⟨r' :: rows', by simp [mapOutcome, h1, h2], by simp [h3], ?_⟩
    intro k q hk
    cases k with
    | zero => simp at hk; subst hk; exact ⟨r', by simp, h1⟩
    | succ k => simpa using h4 k q (by simpa using hk)

theorem poseRow_of {rt : RotType} {P : Mat K} {c : Nat} {T : Pose K}
    (h : ∀ (r : Nat) v, (poseColumn rt T)[r]? = some v → P.f r c = v) : PoseRow rt P.transpose c T := by
  refine ⟨h 0 _ rfl, h 1 _ rfl, h 2 _ rfl, ?_⟩
  cases rt with
  | ignore => trivial
  | rpy => exact ⟨h 3 _ rfl, h 4 _ rfl, h 5 _ rfl⟩
  | xyzw => exact ⟨h 3 _ rfl, h 4 _ rfl, h 5 _ rfl, h 6 _ rfl⟩

theorem wrapBase_dof (wb : Bool) : (wrapBase wb).dof = if wb then 6 else 0 := by cases wb <;> rfl

/-- `solve_forward_kinematics` of the wrapper on any cache -/
theorem At.solveFk {rt : RotType} {ids es : List Nat} {wb wj uc : Bool} {qs : List (List K)}
    (h : At ls js m0 cs mc m) (hf : Shallow ls js m0 cs)
    (hi : ∀ i ∈ ids, i < m0.joints.length) (hc : CacheOk ids wb uc qs m)
    (he : ∀ l ∈ es, l < m.links.length)
    (hne : wj = true → (∃ r ∈ ls, r.inertial.isSome) ∨ weldsAfter (names0 m0) cs ≠ [])
    (hq : ∀ q ∈ qs, q.length = ids.length + (wrapBase wb).dof) (hqs : wb = true → qs ≠ []) :
    ∃ P J m' mc', solveForwardKinematics qs es ids rt wb wj uc m = .ok (P, J) m' ∧
      At ls js m0 (cs ++ batchCalls ids (wrapBase wb) qs) mc' m' ∧
      P.rows = qs.length * es.length ∧ P.cols = rt.width ∧
      J.rows = qs.length * es.length * rt.width ∧ J.cols = ids.length + (wrapBase wb).dof ∧
      (wj = false → ∀ r c, J.f r c = 0) ∧ (qs ≠ [] → Coherent m') ∧
      ∀ (k j l : Nat) q mk, qs[k]? = some q → es[j]? = some l →
        Reach ls js m0 (cs ++ configCalls ids (wrapBase wb) q) mk →
        (∃ T mk', getLinkPose l mk = .ok T mk' ∧ PoseRow rt P (k * es.length + j) T) ∧
        (wj = true → ∃ B mk', getJacobian l ids rt wb mk = .ok B mk' ∧
          JacBlock ids.length (wrapBase wb) rt J ((k * es.length + j) * rt.width) B) := by
  have he' : ∀ l ∈ es, l < (linksAfter (names0 m0) cs).length := by
    intro l hl; rw [← h.nlinks]; exact he l hl
  obtain ⟨P, J, m', mc', e, ha, d1, d2, d3, d4, _, _, d5, d7, d6⟩ := h.fkLoop (rt := rt) (es := es) (wb := wb)
    (wj := wj) (uc := uc) hi qs.length qs hc hf he' hne hq 0 (by simp)
    (Mat.zero rt.dim (qs.length * es.length))
    (Mat.zero (qs.length * es.length * rt.dim) (ids.length + (wrapBase wb).dof)) rfl rfl rfl rfl
  refine ⟨P.transpose, J, m', mc', ?_, ha, d2, d1.trans rt.dim_eq, ?_, d4, ?_, d7, ?_⟩
  · unfold solveForwardKinematics
    cases wb with
    | false => simp only [wrapBase, Bool.false_eq_true, if_false, BaseType.dof, Nat.add_zero] at e ⊢
               simp only [Prog.bind_apply, Prog.pure_apply, e]
    | true =>
      cases qs with
      | nil => exact absurd rfl (hqs rfl)
      | cons q0 qs =>
        have h0 := hq q0 (by simp)
        simp only [wrapBase, BaseType.dof, if_true] at h0 e
        have : ¬ (q0.length < 6 ∨ ids.length ≠ q0.length - 6) := by omega
        simp only [this, if_false, if_true]
        simp only [Prog.bind_apply, Prog.pure_apply, e]
  · rw [d3, ← rt.dim_eq]; rfl
  · intro hw r c; rw [d5 hw]; rfl
  · intro k j l q mk hk hj hmk
    obtain ⟨hlt, hqk⟩ := List.getElem?_eq_some_iff.mp hk
    have hmem : q ∈ qs := List.mem_of_getElem? hk
    obtain ⟨mb, hb, hB⟩ := d6 k hlt
    rw [batchCalls_take hk] at hb
    have hs1 : ∀ c ∈ batchCalls ids (wrapBase wb) (qs.take k) ++ configCalls ids (wrapBase wb) q, c.IsSet := by
      intro c hc
      rcases List.mem_append.mp hc with hc | hc
      · exact batchCalls_isSet _ _ _ c hc
      · exact configCalls_isSet _ _ _ c hc
    have hs2 := configCalls_isSet ids (wrapBase wb) q
    have hlen := hq q hmem
    have hsame : SameRobot mb mk := h.reach.sameRobot hb hmk hs1 hs2
      (fun i => angleAfter_override i 0 ids (wrapBase wb) (qs.take k) q (by omega) cs)
      (baseAfter_override Pose.identity ids (wrapBase wb) (qs.take k) q hlen cs)
    have hfk := hf.sets hs2
    have hrk : Ready mk := hmk.ready hfk
    have hrb : Ready mb := hb.ready (hf.sets hs1)
    have hlb : l < mb.links.length := by
      rw [← hb.length, links_sets _ hs1]; exact he' l (List.mem_of_getElem? hj)
    obtain ⟨⟨T, m1, e1, e2⟩, e3⟩ := hB j l hj
    rw [Nat.zero_add] at e2 e3
    refine ⟨?_, fun hw => ?_⟩
    · obtain ⟨T', hT'⟩ := hrb.tree.exists_pose hlb
      have hq := Query.getLinkPose hT'
      obtain ⟨m2, f1, _⟩ := hq.run hrb
      rw [e1] at f1; cases f1
      obtain ⟨m3, f2, _⟩ := hq mk hsame hrk
      exact ⟨T, m3, f2, poseRow_of e2⟩
    · obtain ⟨B, m2, f1, f2, f3, f4⟩ := e3 hw
      obtain ⟨B', q1, q2, q3⟩ := hb.jacQuery (by rw [welds_sets _ hs1]; exact hne hw) hlb hi rt wb
      obtain ⟨m4, g1, _⟩ := q1.run hrb
      rw [f1] at g1; cases g1
      obtain ⟨m5, g2, _⟩ := q1 mk hsame hrk
      have hfc : ∀ c, fullCol ids.length (wrapBase wb) c = c := by
        intro c; cases wb <;> rfl
      refine ⟨B, m5, g2, f2.trans rt.dim_eq, ?_, ?_⟩
      · intro c hc; rw [hfc, f3]; exact hc
      · intro r hr c hc
        rw [hfc, ← rt.dim_eq]
        exact f4 r c (by rw [rt.dim_eq]; exact hr) hc


theorem At.withCache {s : PyModel K} (h : At ls js m0 cs mc s.robot) {c : SizedCache (Pose K)}
    (hc : c.Fits s.robot.links.length) : At ls js m0 cs mc (s.withCache c).robot :=
  ⟨h.reach, h.same.trans ⟨⟨s.robot.stack, c, rfl⟩, rfl⟩, ⟨hc.size, hc.pred, hc.data⟩⟩

theorem fkArg_of {qs : QArg K} (h : ∀ q, qs ≠ .list1 q) : ∃ a, fkArg qs = .ok a ∧ a.rows = qs.rows := by
  cases qs with
  | nd1 q => exact ⟨_, rfl, rfl⟩
  | nd2 a => exact ⟨_, rfl, rfl⟩
  | list1 q => exact absurd rfl (h q)
  | list2 a _ => exact ⟨_, rfl, rfl⟩

theorem planarCols_get {n c : Nat} (hc : c < n + 3) : (planarCols n)[c]? = some (fullCol n .planer c) := by
  unfold planarCols fullCol
  by_cases h : c < n
  · rw [List.getElem?_append_left (by simpa using h), List.getElem?_range h]
    simp only
    rw [if_neg (by omega)]
  · rw [List.getElem?_append_right (by simp; omega)]
    simp only [List.length_range]
    have : c = n ∨ c = n + 1 ∨ c = n + 2 := by omega
    rcases this with rfl | rfl | rfl
    · simp
    · simp
    · simp

theorem selectCols_spec {n : Nat} {J : Mat K} (h : J.cols = n + 6) :
    ∃ J', J.selectCols (planarCols n) = .ok J' ∧ J'.rows = J.rows ∧ J'.cols = n + 3 ∧
      ∀ r c, c < n + 3 → J'.f r c = J.f r (fullCol n .planer c) := by
  obtain ⟨J', e⟩ := selectCols_planar h
  unfold Mat.selectCols at e
  split at e
  · cases e
    refine ⟨_, if_pos (by assumption), rfl, by simp [planarCols], ?_⟩
    intro r c hc
    simp only [planarCols_get hc]
  · cases e

/-- the Python call -/
theorem At.pySolveFk_coh {s : PyModel K} {qs : QArg K} {rt : RotType} {ids es : List Nat} {bt : BaseType}
    {wj uc : Bool} (h : At ls js m0 cs mc s.robot) (hf : Shallow ls js m0 cs)
    (ha : FkArgs m0 s qs es ids bt) (hc : bt ≠ .fixed ∨ (bt = .fixed ∧ CacheOk ids false uc qs.rows s.robot))
    (hne : wj = true → (∃ r ∈ ls, r.inertial.isSome) ∨ weldsAfter (names0 m0) cs ≠ []) :
    ∃ P J s' mc', pySolveFk qs es ids rt bt wj uc s = .ok (P, J) s' ∧
      At ls js m0 (cs ++ batchCalls ids bt qs.rows) mc' s'.robot ∧
      FkResult ls js m0 cs qs.rows es ids rt bt wj P J ∧ Coherent s'.robot := by
  obtain ⟨a, e1, e2⟩ := fkArg_of ha.notFlat
  have hcols : a.cols = ids.length + bt.dof := by
    cases hr : qs.rows with
    | nil => exact absurd hr ha.nonempty
    | cons q0 rs =>
      have h1 := a.wf q0 (by rw [e2, hr]; simp)
      rw [← h1]; exact ha.shape q0 (by rw [hr]; simp)
  cases bt with
  | fixed =>
    obtain ⟨P, J, m', mc', e, hat, d1, d2, d3, d4, d5, d7, d6⟩ := h.solveFk (rt := rt) (wb := false) (wj := wj)
      (uc := uc) hf ha.joints (hc.resolve_left (by simp)).2 ha.links hne (by simpa [wrapBase] using ha.shape) (by simp)
    refine ⟨P, J, { s with robot := m' }, mc', ?_, hat, ⟨d1, d2, d3, d4, ?_, ?_, ?_⟩, d7 ha.nonempty⟩
    · simp only [Tinyfk.pySolveFk, Prog.bind_apply, Prog.lift, Prog.read, e1, prepareRows, pyAssert, hcols,
        BaseType.dof, Nat.add_zero, beq_self_eq_true, if_true, e2]
      simp only [onRobot, bne_self_eq_false, Prog.pure_apply]
      rw [e]; rfl
    · exact fun k j l q mk h1 h2 h3 => (d6 k j l q mk h1 h2 h3).1
    · exact fun hw k j l q mk h1 h2 h3 => (d6 k j l q mk h1 h2 h3).2 hw
    · exact fun hw r _ c _ => d5 hw r c
  | floating =>
    obtain ⟨P, J, m', mc', e, hat, d1, d2, d3, d4, d5, d7, d6⟩ := h.solveFk (rt := rt) (wb := true) (wj := wj)
      (uc := uc) hf ha.joints (.inl rfl) ha.links hne (by simpa [wrapBase] using ha.shape)
      (fun _ => ha.nonempty)
    refine ⟨P, J, { s with robot := m' }, mc', ?_, hat, ⟨d1, d2, d3, d4, ?_, ?_, ?_⟩, d7 ha.nonempty⟩
    · simp only [Tinyfk.pySolveFk, Prog.bind_apply, Prog.lift, Prog.read, e1, prepareRows, pyAssert, hcols,
        BaseType.dof, beq_self_eq_true, if_true, e2]
      simp only [onRobot, show ((BaseType.floating != .fixed) = true) from rfl, Prog.pure_apply]
      rw [e]; rfl
    · exact fun k j l q mk h1 h2 h3 => (d6 k j l q mk h1 h2 h3).1
    · exact fun hw k j l q mk h1 h2 h3 => (d6 k j l q mk h1 h2 h3).2 hw
    · exact fun hw r _ c _ => d5 hw r c
  | planer =>
    obtain ⟨rows', g1, g2, g3⟩ := modifyInput_spec (n := ids.length) ha.shape
    obtain ⟨g4, g5⟩ := modifyInput_calls ha.shape g1
    have hrows : rows' ≠ [] := fun hn => ha.nonempty (by
      rw [hn] at g2; exact List.length_eq_zero_iff.mp (by simpa using g2.symm))
    obtain ⟨P, J, m', mc', e, hat, d1, d2, d3, d4, d5, d7, d6⟩ := h.solveFk (rt := rt) (wb := true) (wj := wj)
      (uc := uc) (qs := rows') hf ha.joints (.inl rfl) ha.links hne (by simpa [wrapBase, BaseType.dof] using g4)
      (fun _ => hrows)
    have hw : wrapBase true = .floating := rfl
    rw [hw] at hat d4 d6
    rw [g5] at hat
    obtain ⟨J', j1, j2, j3, j4⟩ := selectCols_spec (n := ids.length) d4
    refine ⟨P, J', { s with robot := m' }, mc', ?_, hat, ⟨?_, d2, ?_, j3, ?_, ?_, ?_⟩, d7 hrows⟩
    · simp only [Tinyfk.pySolveFk, Prog.bind_apply, Prog.lift, Prog.read, e1, prepareRows, pyAssert, hcols,
        BaseType.dof, beq_self_eq_true, if_true, e2, Prog.pure_apply, g1]
      simp only [onRobot, show ((BaseType.planer != .fixed) = true) from rfl]
      rw [e]
      simp only [j1]
    · rw [d1, g2]
    · rw [j2, d3, g2]
    · intro k j l q mk h1 h2 h3
      obtain ⟨q', r1, r2⟩ := g3 k q h1
      have := (modifyRow_calls (ha.shape q (List.mem_of_getElem? h1)) r2).2
      exact (d6 k j l q' mk r1 h2 (by rw [this]; exact h3)).1
    · intro hw k j l q mk h1 h2 h3
      obtain ⟨q', r1, r2⟩ := g3 k q h1
      have := (modifyRow_calls (ha.shape q (List.mem_of_getElem? h1)) r2).2
      obtain ⟨B, mk', f1, f2, f3, f4⟩ := (d6 k j l q' mk r1 h2 (by rw [this]; exact h3)).2 hw
      have hcol : ∀ c < ids.length + BaseType.planer.dof, fullCol ids.length .planer c < ids.length + 6 := by
        intro c hc
        simp only [BaseType.dof] at hc
        simp only [fullCol]
        split <;> omega
      refine ⟨B, mk', f1, f2, ?_, ?_⟩
      · intro c hc
        exact f3 _ (hcol c hc)
      · intro r hr c hc
        rw [j4 _ c hc]
        exact f4 r hr _ (hcol c hc)
    · intro hw r _ c hc
      rw [j4 _ c (by rw [j3] at hc; exact hc)]
      exact d5 hw _ _

/-- the Python call, on any cache -/
theorem At.pySolveFk {s : PyModel K} {qs : QArg K} {rt : RotType} {ids es : List Nat} {bt : BaseType}
    {wj uc : Bool} (h : At ls js m0 cs mc s.robot) (hf : Shallow ls js m0 cs)
    (ha : FkArgs m0 s qs es ids bt) (hc : bt ≠ .fixed ∨ uc = false)
    (hne : wj = true → (∃ r ∈ ls, r.inertial.isSome) ∨ weldsAfter (names0 m0) cs ≠ []) :
    ∃ P J s' mc', pySolveFk qs es ids rt bt wj uc s = .ok (P, J) s' ∧
      At ls js m0 (cs ++ batchCalls ids bt qs.rows) mc' s'.robot ∧
      FkResult ls js m0 cs qs.rows es ids rt bt wj P J := by
  obtain ⟨P, J, s', mc', e, h1, h2, _⟩ := h.pySolveFk_coh (rt := rt) (wj := wj) (uc := uc) hf ha (by
    rcases hc with hc | hc
    · exact .inl hc
    · by_cases hb : bt = .fixed
      · exact .inr ⟨hb, .inr (.inl hc)⟩
      · exact .inl hb) hne
  exact ⟨P, J, s', mc', e, h1, h2⟩

end
end Tinyfk
