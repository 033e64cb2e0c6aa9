import Verif.Props.ComBatchJac

/-!
# C41, C85: columns of the centre-of-mass Jacobian
-/

namespace Tinyfk

variable {K : Type} [Scalar K] {ls : List (RawLink K)} {js : List (RawJoint K)} {m0 m : KinModel K} {cs : List (Call K)}
  {h : List (PyCall K)} {s s' : PyModel K} {ids ids' : List Nat} {bt : BaseType} {qs : QArg K} {act : Option (List Nat × List K)}

/-- joint columns depend on the joint only, and base columns on the link only -/
theorem jacMat_columns {rt : RotType} {d : Nat} {T B : Pose K} {wb wb' : Bool} {cols cols' : List (Nat → K)}
    (hc : List.Forall₂ (IsJointCol m rt d T) ids cols) (hc' : List.Forall₂ (IsJointCol m rt d T) ids' cols') :
    (∀ (k k' : Nat), k < ids.length → ids[k]? = ids'[k']? → ∀ r,
      (jacMat rt cols T (if wb then some B else none)).f r k = (jacMat rt cols' T (if wb' then some B else none)).f r k') ∧
    (wb = true → wb' = true → ∀ c < 6, ∀ r,
      (jacMat rt cols T (if wb then some B else none)).f r (ids.length + c) =
        (jacMat rt cols' T (if wb' then some B else none)).f r (ids'.length + c)) := by
  have len1 := hc.length_eq
  have len2 := hc'.length_eq
  refine ⟨?_, ?_⟩
  · intro k k' hk hkk r
    have hk' : k' < ids'.length := by
      rw [List.getElem?_eq_getElem hk] at hkk
      exact (List.getElem?_eq_some_iff.mp hkk.symm).1
    have hee : ids[k] = ids'[k'] := by
      rw [List.getElem?_eq_getElem hk, List.getElem?_eq_getElem hk'] at hkk
      exact Option.some.inj hkk
    have c1 := hc.get hk (by omega)
    have c2 := hc'.get hk' (by omega)
    simp only [List.get_eq_getElem] at c1 c2
    rw [← hee] at c2
    have hcol : cols[k] = cols'[k'] := by
      rcases c1 with ⟨a1, a2⟩ | ⟨jp, j, c, tfC, a1, a2, a3, a4, a5, a6, a7⟩
      · rcases c2 with ⟨b1, b2⟩ | ⟨_, _, _, _, b1, _⟩
        · rw [a2, b2]
        · rw [a1] at b1; cases b1
      · rcases c2 with ⟨b1, b2⟩ | ⟨jp', j', c', tfC', b1, b2, b3, b4, b5, b6, b7⟩
        · rw [a1] at b1; cases b1
        · rw [a2] at b2; cases b2
          rw [a3] at b3; cases b3
          rw [a4] at b4; cases b4
          have := a6.unique b6
          subst this
          rw [a7, b7]
    simp only [jacMat]
    rw [if_pos (by omega : k < cols.length), if_pos (by omega : k' < cols'.length)]
    simp only [List.getD_eq_getElem?_getD, List.getElem?_eq_getElem (by omega : k < cols.length),
      List.getElem?_eq_getElem (by omega : k' < cols'.length), Option.getD_some, hcol]
  · rintro rfl rfl c hc r
    simp only [jacMat, if_true, len1, len2]
    have e1 : ¬ cols.length + c < cols.length := by omega
    have e2 : ¬ cols'.length + c < cols'.length := by omega
    have e3 : cols.length + c < cols.length + 6 := by omega
    have e4 : cols'.length + c < cols'.length + 6 := by omega
    simp only [e1, e2, e3, e4, if_false, if_true, Nat.add_sub_cancel_left]

/-- entries of the mean that agree body by body -/
theorem comJacVal_congr {R : Nat → K × Mat K → Prop} {R' : Nat → K × Mat K → Prop} {ds : List Nat} {xs xs' : List (K × Mat K)}
    (h : List.Forall₂ R ds xs) (h' : List.Forall₂ R' ds xs') {nc nc' a b b' : Nat} (ha : a < 3) (hb : b < nc) (hb' : b' < nc')
    (hh : ∀ d x x', R d x → R' d x' → x.1 = x'.1 ∧ x.2.f a b = x'.2.f a b') : (comJacVal nc xs).f a b = (comJacVal nc' xs').f a b' := by
  have key : ∀ y z, xs.foldl (fun s x => s + x.1 * x.2.f a b) y = xs'.foldl (fun s x => s + x.1 * x.2.f a b') y ∧
      xs.foldl (fun s x => s + x.1) z = xs'.foldl (fun s x => s + x.1) z := by
    induction h generalizing xs' with
    | nil => cases h'; simp
    | cons h1 _ ih =>
      cases h' with
      | cons h1' h2' =>
        obtain ⟨e1, e2⟩ := hh _ _ _ h1 h1'
        intro y z
        simp only [List.foldl_cons, e1, e2]
        exact ih h2' _ _
  simp only [comJacVal, if_pos (show a < 3 ∧ b < nc from ⟨ha, hb⟩), if_pos (show a < 3 ∧ b' < nc' from ⟨ha, hb'⟩), (key 0 0).1, (key 0 0).2]

/-- **C41, centre of mass.** The column of a joint in `get_com_jacobian` depends on the joint only, not on which other joints are asked for or
in which order; the same for the base columns. -/
theorem C41_com_columns (h : Reach ls js m0 cs m) (hf : Shallow ls js m0 cs) (hi : ∀ i ∈ ids, i < m.joints.length)
    (hi' : ∀ i ∈ ids', i < m.joints.length) (wb wb' : Bool) :
    ∃ J m1 J' m2, getComJacobian ids wb m = .ok J m1 ∧ getComJacobian ids' wb' m = .ok J' m2 ∧
      (∀ (k k' : Nat), k < ids.length → ids[k]? = ids'[k']? → ∀ r < 3, J.f r k = J'.f r k') ∧
      (wb = true → wb' = true → ∀ c < 6, ∀ r < 3, J.f r (ids.length + c) = J'.f r (ids'.length + c)) := by
  obtain ⟨xs, hxs⟩ := h.abs.inv.exists_comJacs hi wb m.base
  obtain ⟨xs', hxs'⟩ := h.abs.inv.exists_comJacs hi' wb' m.base
  obtain ⟨m1, e1, _⟩ := (Query.getComJacobian hxs (fun _ => h.root_pose)).run (h.ready hf)
  obtain ⟨m2, e2, _⟩ := (Query.getComJacobian hxs' (fun _ => h.root_pose)).run (h.ready hf)
  have same : ∀ {d x x'}, IsComJac m ids wb m.base d x → IsComJac m ids' wb' m.base d x' → x.1 = x'.1 ∧
      (∀ (k k' : Nat), k < ids.length → ids[k]? = ids'[k']? → ∀ r, x.2.f r k = x'.2.f r k') ∧
      (wb = true → wb' = true → ∀ c < 6, ∀ r, x.2.f r (ids.length + c) = x'.2.f r (ids'.length + c)) := by
    rintro d x x' ⟨lk, inr, T, cols, a1, a2, a3, a4, a5, a6, a7⟩ ⟨lk', inr', T', cols', b1, b2, b3, b4, b5, b6, b7⟩
    rw [a1] at b1; cases b1
    rw [a3] at b3; cases b3
    obtain rfl := a5.unique b5
    rw [a7, b7]
    exact ⟨a4.symm.trans b4, jacMat_columns a6 b6⟩
  refine ⟨_, m1, _, m2, e1, e2, ?_, ?_⟩
  · intro k k' hk hkk r hr
    have hk' : k' < ids'.length := by
      rw [List.getElem?_eq_getElem hk] at hkk
      exact (List.getElem?_eq_some_iff.mp hkk.symm).1
    exact comJacVal_congr hxs hxs' hr (by omega) (by omega) fun d x x' u v => ⟨(same u v).1, (same u v).2.1 k k' hk hkk r⟩
  · intro hw hw' c hc r hr
    refine comJacVal_congr hxs hxs' hr ?_ ?_ fun d x x' u v => ⟨(same u v).1, (same u v).2.2 hw hw' c hc r⟩
    · rw [if_pos hw]; omega
    · rw [if_pos hw']; omega

/-- **C85.** The columns of the Jacobian of `solve_com_fk` for two listings of the same joint are the same numbers. -/
theorem C85_com_columns (hr : PyReach ls js m0 h cs s) (hf : Shallow ls js m0 cs)
    (ha : ComArgs m0 s qs ids (act.getD ([], [])).1 (act.getD ([], [])).2 bt)
    (hc : (bt ≠ .fixed ∧ s' = s) ∨ (pyClearCache s = .ok () s' ∧ qs.rows.length = 1))
    (hne : act ≠ none → (∃ r ∈ ls, r.inertial.isSome) ∨ weldsAfter (names0 m0) cs ≠ []) :
    ∃ C J s'', pySolveComFk qs ids act bt true s' = .ok (C, J) s'' ∧
      ∀ (k c c' r : Nat), k < qs.rows.length → c < ids.length → ids[c]? = ids[c']? → r < 3 → J.f (3 * k + r) c = J.f (3 * k + r) c' := by
  obtain ⟨mc, hat⟩ := hr.at
  have key : At ls js m0 cs mc s'.robot ∧ (bt ≠ .fixed ∨ (Fresh s'.robot ∧ qs.rows.length = 1)) ∧
      s'.robot.links = s.robot.links := by
    rcases hc with ⟨h1, rfl⟩ | ⟨h1, h2⟩
    · exact ⟨hat, .inl h1, rfl⟩
    · obtain ⟨m1, e1, a1, a2, _⟩ := hat.clear
      simp only [pyClearCache, onRobot, e1] at h1
      cases h1
      refine ⟨a1, .inr ⟨a2, h2⟩, ?_⟩
      show m1.links = _
      rw [a1.links, hat.links]
  obtain ⟨hat', hc', hl⟩ := key
  obtain ⟨C, J, s'', mc', e, _, hres⟩ := hat'.pySolveComFk (wj := true) hf
    ⟨ha.notFlat, ha.nonempty, ha.shape, ha.joints, by rw [hl]; exact ha.links, ha.forces⟩ hc' (fun _ => hne)
  refine ⟨C, J, s'', e, ?_⟩
  intro k c c' r hk hcl hcc hr3
  have hk : qs.rows[k]? = some qs.rows[k] := by simp [hk]
  generalize qs.rows[k] = q at hk
  have hql := ha.shape q (List.mem_of_getElem? hk)
  obtain ⟨mk, hmk⟩ := hat.reach.config ha.joints hql
  have hset := configCalls_isSet ids bt q
  have hcl' : c' < ids.length := by
    rw [List.getElem?_eq_getElem hcl] at hcc
    exact (List.getElem?_eq_some_iff.mp hcc.symm).1
  have hids : ∀ i ∈ ids, i < mk.joints.length := by rw [hmk.abs.joints]; exact ha.joints
  have hlinks : mk.links = s.robot.links := by
    obtain ⟨θ, p, c1, e1⟩ := hmk.sets_eq hat.reach hset
    rw [e1]
    exact hat.links.symm
  obtain ⟨B, mk', Bs, eB, _, _, hBs, hJ⟩ := hres.jac rfl k q mk hk hmk
  obtain ⟨B1, m1, B2, m2, e1, e2, hcols, _⟩ := C41_com_columns hmk (hf.sets hset) hids hids (bt != .fixed) (bt != .fixed)
  rw [eB] at e1 e2
  cases e1
  cases e2
  have hact : ∀ B ∈ Bs, B.f r c = B.f r c' := by
    intro A hA
    obtain ⟨l, hl, m', eA⟩ : ∃ l ∈ (act.getD ([], [])).1, ∃ m', getJacobian l ids .ignore (bt != .fixed) mk = .ok A m' := by
      rw [List.forall₂_iff_get] at hBs
      obtain ⟨i, hi, rfl⟩ := List.getElem_of_mem hA
      obtain ⟨m', eA⟩ := hBs.2 i (by rw [hBs.1]; exact hi) hi
      exact ⟨_, List.getElem_mem _, m', eA⟩
    have hact : act ≠ none := by rintro rfl; simp at hl
    obtain ⟨B1, m1, B2, m2, e1, e2, hcols, _⟩ := C41_columns hmk (hf.sets hset) (by rw [welds_sets _ hset]; exact hne hact) (l := l)
      (by rw [hlinks]; exact ha.links l hl) hids hids .ignore (bt != .fixed) (bt != .fixed)
    rw [eA] at e1 e2
    cases e1
    cases e2
    exact hcols c c' hcl hcc r
  rw [hJ r hr3 c (by rw [hres.jCols]; omega), hJ r hr3 c' (by rw [hres.jCols]; omega), hcols c c' hcl hcc r hr3,
    List.map_congr_left hact]

namespace Example

/-! ### The hypotheses are met: joints asked for in another order, and one joint listed twice -/

example := C41_com_columns (ids := [1, 0]) (ids' := [0]) m1_reach shallow two_joints (fun i hi => two_joints i (by simp at hi ⊢; exact .inr hi)) true false
example := C85_com_columns (act := some ([3], [2])) (qs := .nd2 a1) (ids := [0, 0]) s1_reach s1_shallow
  ⟨by simp, by simp [QArg.rows, a1], by simp [QArg.rows, a1, BaseType.dof], by rw [joints_length]; simp, by rw [s1_links]; simp, rfl⟩
  (.inl ⟨by simp, rfl⟩) (fun _ => .inl inertial) (bt := .planer)

end Example

end Tinyfk
