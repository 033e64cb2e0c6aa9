import Verif.Props.BatchJac
import Verif.Props.CacheWitness
import Verif.Props.BaseAngles
import Verif.Proofs.Pickle

/-!
# C85: joint lists that name a joint more than once
-/

namespace Tinyfk

open Scalar

section
variable {K : Type} [Scalar K] {ids : List Nat} {q q' : List K}

omit [Scalar K] in
theorem writeAngles_last {a a' : List K} (hl : q.length = q'.length)
    (hc : ∀ c < ids.length, LastListing ids c → q[c]? = q'[c]?) (ha : a.length = a'.length)
    (hout : ∀ j, j ∉ ids → a[j]? = a'[j]?) : writeAngles ids q a = writeAngles ids q' a' := by
  induction ids generalizing q q' a a' with
  | nil =>
    simp only [writeAngles, Outcome.ok.injEq]
    exact List.ext_getElem? fun j => hout j (by simp)
  | cons i ids ih =>
    match q, q', hl, hc with
    | [], [], _, _ => simp [writeAngles]
    | v :: q, w :: q', hl, hc =>
      simp only [writeAngles, ← ha]
      split
      · refine ih (by simpa using hl) ?_ (by simpa using ha) ?_
        · intro c hcl hlast
          have := hc (c + 1) (by simpa using hcl) (by
            intro c' h' e
            obtain ⟨c'', rfl⟩ : ∃ c'', c' = c'' + 1 := ⟨c' - 1, by omega⟩
            exact hlast c'' (by omega) (by simpa using e))
          simpa using this
        · intro j hj
          by_cases hij : i = j
          · subst hij
            have := hc 0 (by simp) (by
              intro c' h' e
              obtain ⟨c'', rfl⟩ : ∃ c'', c' = c'' + 1 := ⟨c' - 1, by omega⟩
              simp only [List.getElem?_cons_succ, List.getElem?_cons_zero] at e
              exact hj (List.mem_of_getElem? e))
            simp only [List.getElem?_cons_zero, Option.some.injEq] at this
            subst this
            rename_i hlt
            rw [List.getElem?_set_self hlt, List.getElem?_set_self (by omega)]
          · rw [List.getElem?_set_ne hij, List.getElem?_set_ne hij]
            exact hout j (by simp [hj, Ne.symm hij])
      · rfl

omit [Scalar K] in
theorem SameConfig.angles (h : SameConfig ids q q') : setJointAnglesNC ids q = setJointAnglesNC ids q' := by
  funext m
  unfold setJointAnglesNC
  rw [writeAngles_last h.length h.last rfl (fun _ _ => rfl)]

/-- same configuration, and long enough for the base to be read from its end -/
structure SameLong (ids : List Nat) (wb : Bool) (q q' : List K) : Prop where
  same : SameConfig ids q q'
  long : wb = true → ids.length + 6 ≤ q.length

theorem SameLong.base (h : SameLong ids true q q') : setBaseFromTail q = setBaseFromTail q' := by
  have h6 := h.long rfl
  have hd : q.drop (q.length - 6) = q'.drop (q'.length - 6) := by
    have e : q.length - 6 = ids.length + (q.length - 6 - ids.length) := by omega
    rw [← h.same.length, e, ← List.drop_drop, ← List.drop_drop, h.same.base]
  unfold setBaseFromTail
  rw [hd, ← h.same.length]

theorem SameLong.apply {wb uc : Bool} (h : SameLong ids wb q q') : applyConfig ids wb uc q = applyConfig ids wb uc q' := by
  unfold applyConfig
  rw [h.same.angles]
  cases wb
  · rfl
  · rw [h.base]

theorem fkLoop_same {es : List Nat} {rt : RotType} {wb wj uc : Bool} {qs qs' : List (List K)}
    (h : List.Forall₂ (SameLong ids wb) qs qs') (i : Nat) (P J : Mat K) :
    fkLoop es ids rt wb wj uc qs i P J = fkLoop es ids rt wb wj uc qs' i P J := by
  induction h generalizing i P J with
  | nil => rfl
  | cons h1 _ ih =>
    simp only [fkLoop, h1.apply]
    simp only [ih]

theorem comFkLoop_same {al : List Nat} {fs : List K} {wb wj : Bool} {n : Nat} {qs qs' : List (List K)}
    (h : List.Forall₂ (SameLong ids wb) qs qs') (i : Nat) (C J : Mat K) :
    comFkLoop ids al fs wb wj n qs i C J = comFkLoop ids al fs wb wj n qs' i C J := by
  induction h generalizing i C J with
  | nil => rfl
  | cons h1 _ ih =>
    simp only [comFkLoop, h1.same.angles]
    cases wb
    · simp only [ih, Bool.false_eq_true, if_false]
    · simp only [h1.base, ih]

theorem distFkLoop_same {l1 l2 : List Nat} {wb wj uc : Bool} {n : Nat} {qs qs' : List (List K)}
    (h : List.Forall₂ (SameLong ids wb) qs qs') (i : Nat) (D G : Mat K) :
    distFkLoop ids l1 l2 wb wj uc n qs i D G = distFkLoop ids l1 l2 wb wj uc n qs' i D G := by
  induction h generalizing i D G with
  | nil => rfl
  | cons h1 _ ih => simp only [distFkLoop, h1.apply, ih]

theorem SameConfig.modifyRow (h : SameConfig ids q q') :
    (∃ e, modifyRow ids.length q = .exn e ∧ modifyRow ids.length q' = .exn e) ∨
      ∃ r r', modifyRow ids.length q = .ok r ∧ modifyRow ids.length q' = .ok r' ∧ SameLong ids true r r' := by
  have hg : q[ids.length + 2]? = q'[ids.length + 2]? := by
    have := congrArg (fun l => l[2]?) h.base
    simpa [List.getElem?_drop] using this
  unfold Tinyfk.modifyRow
  rw [← hg]
  cases hw : q[ids.length + 2]? with
  | none => exact .inl ⟨_, rfl, rfl⟩
  | some w =>
    right
    have hlt := (List.getElem?_eq_some_iff.mp hw).1
    have hlt' : ids.length + 2 < q'.length := h.length ▸ hlt
    refine ⟨_, _, rfl, rfl, ⟨?_, ?_, ?_⟩, ?_⟩
    · simp [h.length]
    · have key : ∀ p : List K, ids.length + 2 < p.length → ∀ t : List K,
          (p.take (ids.length + 2) ++ t).drop ids.length = (p.drop ids.length).take 2 ++ t := by
        intro p hp t
        rw [List.drop_append_of_le_length (by simp; omega), List.drop_take]
        congr 2
        omega
      rw [List.append_assoc, List.append_assoc, key q hlt, key q' hlt', h.base, h.length]
    · intro c hc hlast
      have key : ∀ p : List K, ids.length + 2 < p.length → ∀ t : List K,
          (p.take (ids.length + 2) ++ t)[c]? = p[c]? := by
        intro p hp t
        rw [List.getElem?_append_left (by simp; omega), List.getElem?_take_of_lt (by omega)]
      rw [List.append_assoc, List.append_assoc, key q hlt, key q' hlt', h.last c hc hlast]
    · intro _
      simp
      omega

theorem modifyInput_same {qs qs' : List (List K)} (h : List.Forall₂ (SameConfig ids) qs qs') :
    (∃ e, modifyInput ids.length qs = .exn e ∧ modifyInput ids.length qs' = .exn e) ∨
      ∃ rs rs', modifyInput ids.length qs = .ok rs ∧ modifyInput ids.length qs' = .ok rs' ∧
        List.Forall₂ (SameLong ids true) rs rs' := by
  unfold modifyInput
  induction h with
  | nil => exact .inr ⟨[], [], rfl, rfl, .nil⟩
  | cons h1 _ ih =>
    simp only [mapOutcome]
    rcases h1.modifyRow with ⟨e, e1, e2⟩ | ⟨r, r', e1, e2, hr⟩
    · rw [e1, e2]
      exact .inl ⟨e, rfl, rfl⟩
    · rw [e1, e2]
      rcases ih with ⟨e, f1, f2⟩ | ⟨rs, rs', f1, f2, hrs⟩
      · rw [f1, f2]
        exact .inl ⟨e, rfl, rfl⟩
      · rw [f1, f2]
        exact .inr ⟨_, _, rfl, rfl, .cons hr hrs⟩

theorem prepareRows_same {a a' : Arr2 K} {bt : BaseType} (hcol : a.cols = a'.cols)
    (h : List.Forall₂ (SameConfig ids) a.rows a'.rows) (s : PyModel K) :
    (∃ e, prepareRows ids.length bt a s = .exn e s ∧ prepareRows ids.length bt a' s = .exn e s) ∨
      ∃ rs rs', prepareRows ids.length bt a s = .ok rs s ∧ prepareRows ids.length bt a' s = .ok rs' s ∧
        List.Forall₂ (SameLong ids (bt != .fixed)) rs rs' := by
  cases bt with
  | fixed =>
    simp only [prepareRows, ← hcol, pyAssert, beq_iff_eq]
    by_cases hc : a.cols = ids.length
    · rw [if_pos hc]
      exact .inr ⟨_, _, rfl, rfl, h.imp fun _ _ hs => ⟨hs, by simp⟩⟩
    · rw [if_neg hc]
      exact .inl ⟨_, rfl, rfl⟩
  | floating =>
    simp only [prepareRows, ← hcol, pyAssert, beq_iff_eq]
    by_cases hc : a.cols = ids.length + 6
    · rw [if_pos hc]
      refine .inr ⟨_, _, rfl, rfl, ?_⟩
      have hw := a.wf
      generalize a.rows = R at h hw ⊢
      generalize a'.rows = R' at h ⊢
      induction h with
      | nil => exact .nil
      | cons h1 _ ih =>
        refine .cons ⟨h1, fun _ => ?_⟩ (ih fun r hr => hw r (by simp [hr]))
        rw [hw _ (by simp), hc]
    · rw [if_neg hc]
      exact .inl ⟨_, rfl, rfl⟩
  | planer =>
    simp only [prepareRows, ← hcol, pyAssert, beq_iff_eq]
    by_cases hc : a.cols = ids.length + 3
    · rw [if_pos hc]
      rcases modifyInput_same h with ⟨e, e1, e2⟩ | ⟨rs, rs', e1, e2, hr⟩
      · rw [e1, e2]
        exact .inl ⟨e, rfl, rfl⟩
      · rw [e1, e2]
        exact .inr ⟨rs, rs', rfl, rfl, hr⟩
    · rw [if_neg hc]
      exact .inl ⟨_, rfl, rfl⟩

theorem solveForwardKinematics_same {es : List Nat} {rt : RotType} {wb wj uc : Bool} {qs qs' : List (List K)}
    (h : List.Forall₂ (SameLong ids wb) qs qs') :
    solveForwardKinematics qs es ids rt wb wj uc = solveForwardKinematics qs' es ids rt wb wj uc := by
  unfold solveForwardKinematics
  cases h with
  | nil => rfl
  | cons h1 h2 =>
    simp only [h1.same.length, List.length_cons, h2.length_eq, fkLoop_same (.cons h1 h2)]

omit [Scalar K] in
theorem bind_same {α α' β : Type} {p : Prog (PyModel K) α} {p' : Prog (PyModel K) α'} {f : α → Prog (PyModel K) β}
    {f' : α' → Prog (PyModel K) β} {s : PyModel K}
    (h : (∃ e, p s = .exn e s ∧ p' s = .exn e s) ∨ ∃ a a', p s = .ok a s ∧ p' s = .ok a' s ∧ f a s = f' a' s) :
    (p >>= f) s = (p' >>= f') s := by
  rcases h with ⟨e, e1, e2⟩ | ⟨a, a', e1, e2, e3⟩
  · rw [Prog.bind_apply, Prog.bind_apply, e1, e2]
  · rw [Prog.bind_apply, Prog.bind_apply, e1, e2]
    exact e3

omit [Scalar K] in
theorem SameBatch.fkArg {qs qs' : QArg K} (h : SameBatch ids qs qs') :
    (∃ e, fkArg qs = .exn e ∧ fkArg qs' = .exn e) ∨ ∃ a a', fkArg qs = .ok a ∧ fkArg qs' = .ok a' ∧
      a.cols = a'.cols ∧ List.Forall₂ (SameConfig ids) a.rows a'.rows := by
  cases h with
  | nd1 h => exact .inr ⟨_, _, rfl, rfl, h.length, .cons h .nil⟩
  | nd2 h1 h2 => exact .inr ⟨_, _, rfl, rfl, h1, h2⟩
  | list1 h => exact .inl ⟨_, rfl, rfl⟩
  | list2 h1 h2 => exact .inr ⟨_, _, rfl, rfl, h1, h2⟩

omit [Scalar K] in
theorem SameBatch.comArg {qs qs' : QArg K} (h : SameBatch ids qs qs') :
    (∃ e, comArg qs = .exn e ∧ comArg qs' = .exn e) ∨ ∃ a a', comArg qs = .ok a ∧ comArg qs' = .ok a' ∧
      a.cols = a'.cols ∧ List.Forall₂ (SameConfig ids) a.rows a'.rows := by
  cases h with
  | nd1 h => exact .inl ⟨_, rfl, rfl⟩
  | nd2 h1 h2 => exact .inr ⟨_, _, rfl, rfl, h1, h2⟩
  | list1 h => exact .inr ⟨_, _, rfl, rfl, h.length, .cons h .nil⟩
  | list2 h1 h2 => exact .inr ⟨_, _, rfl, rfl, h1, h2⟩

/-- **C85.** When a joint is listed more than once, only its last entry counts, for every call and every state of
the model: `solve_fk` on configurations that differ only in the overridden entries has the same outcome, the same
result and leaves the same state. -/
theorem C85_solve_fk {qs qs' : QArg K} (h : SameBatch ids qs qs') (es : List Nat) (rt : RotType) (bt : BaseType)
    (wj uc : Bool) (s : PyModel K) :
    pySolveFk qs es ids rt bt wj uc s = pySolveFk qs' es ids rt bt wj uc s := by
  unfold pySolveFk
  refine bind_same ?_
  rcases h.fkArg with ⟨e, e1, e2⟩ | ⟨a, a', e1, e2, hcol, hrow⟩
  · exact .inl ⟨e, by rw [e1]; rfl, by rw [e2]; rfl⟩
  · refine .inr ⟨a, a', by rw [e1]; rfl, by rw [e2]; rfl, bind_same ?_⟩
    rcases prepareRows_same (bt := bt) hcol hrow s with h1 | ⟨rs, rs', f1, f2, hr⟩
    · exact .inl h1
    · exact .inr ⟨rs, rs', f1, f2, by rw [solveForwardKinematics_same hr]⟩

/-- **C85.** The same for `solve_com_fk`. -/
theorem C85_solve_com_fk {qs qs' : QArg K} (h : SameBatch ids qs qs') (action : Option (List Nat × List K))
    (bt : BaseType) (wj : Bool) (s : PyModel K) :
    pySolveComFk qs ids action bt wj s = pySolveComFk qs' ids action bt wj s := by
  unfold pySolveComFk
  refine bind_same ?_
  rcases h.comArg with ⟨e, e1, e2⟩ | ⟨a, a', e1, e2, hcol, hrow⟩
  · exact .inl ⟨e, by rw [e1]; rfl, by rw [e2]; rfl⟩
  · refine .inr ⟨a, a', by rw [e1]; rfl, by rw [e2]; rfl, bind_same ?_⟩
    rcases prepareRows_same (bt := bt) hcol hrow s with h1 | ⟨rs, rs', f1, f2, hr⟩
    · exact .inl h1
    · refine .inr ⟨rs, rs', f1, f2, ?_⟩
      simp only [solveComForwardKinematics, comFkLoop_same hr, hr.length_eq]

/-- **C85.** The same for `compute_inter_link_sqdists`; with a floating base the rows must hold a base. -/
theorem C85_sqdists {qs qs' : List (List K)} (h : List.Forall₂ (SameConfig ids) qs qs') (ps : List (Nat × Nat))
    (bt : BaseType) (hb : bt = .floating → ∀ q ∈ qs, ids.length + 6 ≤ q.length) (wj uc : Bool) (s : PyModel K) :
    pySqdists qs ps ids bt wj uc s = pySqdists qs' ps ids bt wj uc s := by
  have main : ∀ rs rs' : List (List K), List.Forall₂ (SameLong ids (bt != .fixed)) rs rs' →
      computeInterLinkSquaredDists rs (ps.map Prod.fst) (ps.map Prod.snd) ids (bt != .fixed) wj uc =
        computeInterLinkSquaredDists rs' (ps.map Prod.fst) (ps.map Prod.snd) ids (bt != .fixed) wj uc := by
    intro rs rs' hr
    simp only [computeInterLinkSquaredDists, distFkLoop_same hr, hr.length_eq]
  unfold pySqdists
  by_cases hp : bt = .planer
  · subst hp
    rw [if_pos rfl, if_pos rfl]
    refine bind_same ?_
    rcases modifyInput_same h with ⟨e, e1, e2⟩ | ⟨rs, rs', e1, e2, hr⟩
    · exact .inl ⟨e, by rw [e1]; rfl, by rw [e2]; rfl⟩
    · exact .inr ⟨rs, rs', by rw [e1]; rfl, by rw [e2]; rfl, by beta_reduce; rw [main rs rs' hr]⟩
  · rw [if_neg hp, if_neg hp]
    refine bind_same (.inr ⟨qs, qs', rfl, rfl, ?_⟩)
    beta_reduce
    suffices hr : List.Forall₂ (SameLong ids (bt != .fixed)) qs qs' by rw [main qs qs' hr]
    cases bt with
    | fixed => exact h.imp fun _ _ hs => ⟨hs, by simp⟩
    | planer => exact absurd rfl hp
    | floating =>
      replace hb := hb rfl
      clear main
      induction h with
      | nil => exact .nil
      | cons h1 _ ih => exact .cons ⟨h1, fun _ => hb _ (by simp)⟩ (ih fun q hq => hb q (by simp [hq]))

/-- **C85.** The same for `compute_total_inertia_matrix`. -/
theorem C85_inertia (h : SameConfig ids q q') (s : PyModel K) : pyInertia q ids s = pyInertia q' ids s := by
  unfold pyInertia computeTotalInertiaMatrix
  rw [h.angles]

/-- **C85.** The same for `set_q`: the robot ends in the same state, although the history of calls is different. -/
theorem C85_set_q (h : SameConfig ids q q') (bt : BaseType) {s s1 : PyModel K} (e : pySetQ ids q bt s = .ok () s1) :
    ∃ s2, pySetQ ids q' bt s = .ok () s2 ∧ s2.robot = s1.robot ∧ s2.xml = s1.xml ∧ s2.addHist = s1.addHist := by
  obtain ⟨θ, hw, hl, rfl⟩ := pySetQ_eq e
  have hl' : q'.length = ids.length + bt.dof := h.length ▸ hl
  have hw' : writeAngles ids (q'.take ids.length) s.robot.angles = .ok θ := by
    rw [writeAngles_take] at hw ⊢
    rw [← hw]
    exact (writeAngles_last h.length h.last rfl fun _ _ => rfl).symm
  refine ⟨_, pySetQ_ok hw' hl', ?_, rfl, rfl⟩
  simp only [basePart, h.base]

omit [Scalar K] in
/-- an entry that is overridden later on can be anything -/
theorem SameConfig.set {c : Nat} (hc : c < ids.length) (hn : ¬ LastListing ids c) (v : K) :
    SameConfig ids q (q.set c v) := by
  refine ⟨by simp, by rw [List.drop_set_of_lt hc], fun c' _ hl => ?_⟩
  have : c ≠ c' := fun e => hn (e ▸ hl)
  rw [List.getElem?_set_ne this]

/-- **C85.** In particular the results of `solve_fk` do not depend at all on the entry of a joint that is listed
again further on. -/
theorem C85_overridden {a a' : Arr2 K} {k c : Nat} {v : K} (hcol : a'.cols = a.cols) (hk : a.rows[k]? = some q)
    (hr : a'.rows = a.rows.set k (q.set c v)) (hc : c < ids.length) (hn : ¬ LastListing ids c) (es : List Nat)
    (rt : RotType) (bt : BaseType) (wj uc : Bool) (s : PyModel K) :
    pySolveFk (.nd2 a) es ids rt bt wj uc s = pySolveFk (.nd2 a') es ids rt bt wj uc s := by
  refine C85_solve_fk (.nd2 hcol.symm ?_) es rt bt wj uc s
  rw [hr]
  clear hr hcol
  generalize a.rows = R at hk ⊢
  induction R generalizing k with
  | nil => simp at hk
  | cons r R ih =>
    cases k with
    | zero =>
      simp only [List.getElem?_cons_zero, Option.some.injEq] at hk
      subst hk
      exact .cons (.set hc hn v) (List.forall₂_same.mpr fun _ _ => ⟨rfl, rfl, fun _ _ _ => rfl⟩)
    | succ k =>
      exact .cons ⟨rfl, rfl, fun _ _ _ => rfl⟩ (ih (by simpa using hk))

variable {ls : List (RawLink K)} {js : List (RawJoint K)} {m0 : KinModel K} {cs : List (Call K)}
  {h : List (PyCall K)} {s : PyModel K} {ps : List (Nat × Nat)} {es : List Nat}
  {bt : BaseType} {rt : RotType} {uc : Bool} {c0 : SizedCache (Pose K)}

/-- **C85.** The columns of the Jacobian of `solve_fk` for two listings of the same joint are the same numbers. -/
theorem C85_columns (hr : PyReach ls js m0 h cs s) (hf : Shallow ls js m0 cs) {qs : QArg K}
    (hc : c0.Fits s.robot.links.length) (ha : FkArgs m0 s qs es ids bt) (huc : bt ≠ .fixed ∨ uc = false)
    (hne : (∃ r ∈ ls, r.inertial.isSome) ∨ weldsAfter (names0 m0) cs ≠ []) :
    ∃ P J s', pySolveFk qs es ids rt bt true uc (s.withCache c0) = .ok (P, J) s' ∧
      ∀ (k j c c' r : Nat), k < qs.rows.length → j < es.length → c < ids.length → ids[c]? = ids[c']? → r < rt.width →
        J.f ((k * es.length + j) * rt.width + r) c = J.f ((k * es.length + j) * rt.width + r) c' := by
  obtain ⟨mc, hat⟩ := hr.at
  obtain ⟨P, J, s', mc', e, _, hres⟩ := (hat.withCache hc).pySolveFk (rt := rt) (wj := true) (uc := uc)
    (qs := qs) (es := es) hf ⟨ha.notFlat, ha.nonempty, ha.shape, ha.joints, ha.links⟩ huc (fun _ => hne)
  refine ⟨P, J, s', e, ?_⟩
  intro k j c c' r hk hj hcl hcc hrl
  have hk : qs.rows[k]? = some qs.rows[k] := by simp [hk]
  generalize qs.rows[k] = q at hk
  have hql := ha.shape q (List.mem_of_getElem? hk)
  obtain ⟨mk, hmk⟩ := hat.reach.config ha.joints hql
  have hset := configCalls_isSet ids bt q
  have hjl : es[j]? = some es[j] := by simp [hj]
  have hcl' : c' < ids.length := by
    rw [List.getElem?_eq_getElem hcl] at hcc
    exact (List.getElem?_eq_some_iff.mp hcc.symm).1
  obtain ⟨B, mk1, eB, hB1, hB2, hB3⟩ := hres.jac rfl k j _ q mk hk hjl hmk
  have hids : ∀ i ∈ ids, i < mk.joints.length := by rw [hmk.abs.joints]; exact ha.joints
  obtain ⟨B1, m1, B2, m2, e1, e2, hcols, _⟩ := C41_columns hmk (hf.sets hset) (by rw [welds_sets _ hset]; exact hne) (l := es[j])
    (by
      have h1 := ha.links es[j] (by simp)
      obtain ⟨θ, p, c1, e1⟩ := hmk.sets_eq hat.reach hset
      rw [e1]
      exact lt_of_lt_of_eq h1 (congrArg List.length hat.links)) hids hids rt (bt != .fixed) (bt != .fixed)
  rw [eB] at e1 e2
  cases e1
  cases e2
  have hfc : ∀ c < ids.length, fullCol ids.length bt c = c := by
    intro c hc
    unfold fullCol
    split
    · rw [if_neg (by omega)]
    · rfl
  rw [hB3 r hrl c (by omega), hB3 r hrl c' (by omega), hfc c hcl, hfc c' hcl']
  exact hcols c c' hcl hcc r

/-- **C85.** The same for the gradient of `compute_inter_link_sqdists`. -/
theorem C85_gradient_columns (hr : PyReach ls js m0 h cs s) (hf : Shallow ls js m0 cs) {qs : List (List K)}
    (hc : c0.Fits s.robot.links.length) (ha : DistArgs m0 s qs ps ids bt) (huc : uc = false ∨ bt ≠ .fixed)
    (hne : (∃ r ∈ ls, r.inertial.isSome) ∨ weldsAfter (names0 m0) cs ≠ []) :
    ∃ V J s', pySqdists qs ps ids bt true uc (s.withCache c0) = .ok (V, J) s' ∧
      ∀ (k j c c' : Nat), k < qs.length → j < ps.length → c < ids.length → ids[c]? = ids[c']? →
        J.f (k * ps.length + j) c = J.f (k * ps.length + j) c' := by
  obtain ⟨mc, hat⟩ := hr.at
  obtain ⟨V, J, s', e, hres⟩ := hr.sqdists (wj := true) hf hc ha huc (fun _ => hne)
  refine ⟨V, J, s', e, ?_⟩
  intro k j c c' hk hj hcl hcc
  have hk : qs[k]? = some qs[k] := by simp [hk]
  generalize qs[k] = q at hk
  have hql := ha.shape q (List.mem_of_getElem? hk)
  obtain ⟨mk, hmk⟩ := hat.reach.config ha.joints hql
  have hset := configCalls_isSet ids bt q
  have hjl : ps[j]? = some (ps[j].1, ps[j].2) := by simp [hj]
  have hcl' : c' < ids.length := by
    rw [List.getElem?_eq_getElem hcl] at hcc
    exact (List.getElem?_eq_some_iff.mp hcc.symm).1
  obtain ⟨F1, _, F2, _, B1, _, B2, _, f1, f2, f3, f4, f5⟩ := hres.grad rfl k j _ _ q mk hk hjl hmk
  have hids : ∀ i ∈ ids, i < mk.joints.length := by rw [hmk.abs.joints]; exact ha.joints
  have hlinks : mk.links = s.robot.links := by
    obtain ⟨θ, p, c1, e1⟩ := hmk.sets_eq hat.reach hset
    rw [e1]
    exact hat.links.symm
  have hmv : ∀ l < s.robot.links.length, ∀ B m', getJacobian l ids .ignore (bt != .fixed) mk = .ok B m' →
      ∀ r, B.f r c = B.f r c' := by
    intro l hl B m' eB
    obtain ⟨B1, m1, B2, m2, e1, e2, hcols, _⟩ := C41_columns hmk (hf.sets hset) (by rw [welds_sets _ hset]; exact hne)
      (l := l) (by rw [hlinks]; exact hl) hids hids .ignore (bt != .fixed) (bt != .fixed)
    rw [eB] at e1 e2
    cases e1
    cases e2
    exact hcols c c' hcl hcc
  obtain ⟨hl1, hl2⟩ := ha.links ps[j] (by simp)
  have hfc : ∀ c < ids.length, fullCol ids.length bt c = c := by
    intro c hc
    unfold fullCol
    split
    · rw [if_neg (by omega)]
    · rfl
  rw [f5 c (by omega), f5 c' (by omega), hfc c hcl, hfc c' hcl', sqDistGrad, sqDistGrad]
  simp only [hmv _ hl1 B1 _ f3, hmv _ hl2 B2 _ f4]

end

namespace Example

/-! ### The hypotheses are met, and what goes wrong -/

example : SameConfig [0, 1, 0] [(5 : ℝ), 2, 3] [7, 2, 3] := .set (c := 0) (by simp) (fun h => h 2 (by simp) rfl) 7

/-- joint `slide` listed twice -/
noncomputable def qTwice (b a : ℝ) : Arr2 ℝ := ⟨2, [[b, a]], by simp⟩

theorem last_one : LastListing [0, 0] 1 := by
  intro c' h
  match c', h with
  | c' + 2, _ => simp

theorem not_last_zero : ¬ LastListing [0, 0] 0 := fun h => h 1 (by simp) rfl

theorem fkArgs_twice (b a : ℝ) : FkArgs m0 s0 (.nd2 (qTwice b a)) [3] [0, 0] .fixed :=
  ⟨by simp, by simp [qTwice, QArg.rows], by simp [qTwice, QArg.rows, BaseType.dof], by rw [joints_length]; simp,
    by show ∀ l ∈ [3], l < m0.links.length; rw [links_length]; simp⟩

theorem angles_twice (b a : ℝ) : AnglesAfter m0 ([] ++ configCalls [0, 0] .fixed [b, a]) (θa a) := by
  intro s i h
  rw [getJointIds_one, jointIds] at h
  rcases h with ⟨rfl, rfl⟩ | ⟨rfl, rfl⟩ <;>
    simp [θa, configCalls, angleAfter, lastWrite, basePart]

/-- **C85.** A Jacobian that is not the derivative: `solve_fk` of the example robot with its sliding joint listed
twice, at `(b, a)`. The tip is at x = `a` whatever `b` is, so the derivative by the first entry is zero; but the
first column of the Jacobian says 1, as does the second. -/
theorem C85_witness (c0 : SizedCache (Pose ℝ)) (hc : c0.Fits s0.robot.links.length) (b a : ℝ) :
    ∃ P J s', pySolveFk (.nd2 (qTwice b a)) [3] [0, 0] .ignore .fixed true false (s0.withCache c0) = .ok (P, J) s' ∧
      P.f 0 0 = a ∧ J.f 0 0 = 1 ∧ J.f 0 1 = 1 := by
  have hx : ∀ b a P J s', pySolveFk (.nd2 (qTwice b a)) [3] [0, 0] .ignore .fixed true false (s0.withCache c0) = .ok (P, J) s' →
      P.f 0 0 = a := by
    intro b a P J s' e
    obtain ⟨P1, J1, s1, e1, _, _, hw⟩ := C02_solve_fk (rt := .ignore) (wj := true) s0_reach s0_shallow hc (fkArgs_twice b a)
      (fun _ => .inl inertial)
    rw [e] at e1
    cases e1
    obtain ⟨T, hT, hP⟩ := hw 0 0 3 [b, a] "tip" (θa a) rfl rfl tip_id (angles_twice b a)
    rw [show P.f 0 0 = T.position.x from hP.1, ← (hT _).mp (tip_pose a)]
  obtain ⟨P, J, s', e, hcol⟩ := C85_columns (rt := .ignore) s0_reach s0_shallow hc (fkArgs_twice b a) (.inr rfl) (.inl inertial)
  obtain ⟨P1, J1, s1, e1, hder⟩ := C63_solve_fk_jacobian (rt := .ignore) s0_reach s0_shallow unitDesc hc (fkArgs_twice b a)
    (.inr rfl) (.inl inertial)
  rw [e] at e1
  cases e1
  have h01 := hcol 0 0 0 1 0 (by simp [qTwice, QArg.rows]) (by simp) (by simp) rfl (by simp [RotType.width])
  obtain ⟨D, hD, hd⟩ := hder 0 0 1 0 [b, a] a rfl (by simp) (by simp) (by simp [RotType.width]) rfl last_one (by simp)
  have hDv : D = fun v => v := by
    funext v
    obtain ⟨P', J', s2, e2, h2⟩ := hD v (.nd2 (qTwice b v)) (by simp) rfl
    rw [← h2]
    exact hx b v P' J' s2 e2
  rw [hDv] at hd
  have h1 : J.f 0 1 = 1 := hd.unique (hasDerivAt_id a)
  exact ⟨P, J, s', e, hx b a P J s' e, h01.trans h1, h1⟩

example := C85_witness _ s0_fits 5 2

theorem same_twice (b b' a : ℝ) : SameConfig [0, 0] [b, a] [b', a] := .set (c := 0) (by simp) not_last_zero b'

example := C85_solve_fk (.nd2 (a := qTwice 5 2) (a' := qTwice 7 2) rfl (.cons (same_twice 5 7 2) .nil)) [3] .rpy .fixed true false s0
example := C85_solve_com_fk (.nd2 (a := qTwice 5 2) (a' := qTwice 7 2) rfl (.cons (same_twice 5 7 2) .nil)) none .fixed true s0
example := C85_sqdists (.cons (same_twice 5 7 2) .nil) [(3, 0)] .fixed (by simp) true false s0
example := C85_inertia (same_twice 5 7 2) s0
example : ∃ s1, pySetQ [0, 0] [5, 2] .fixed s0 = .ok () s1 ∧ ∃ s2, pySetQ [0, 0] [7, 2] .fixed s0 = .ok () s2 ∧ s2.robot = s1.robot := by
  have hlen : s0.robot.angles.length = 2 := by
    show m0.angles.length = 2
    obtain ⟨mc, hat⟩ := s0_reach.at
    obtain ⟨⟨st, c, hst⟩, _⟩ := hat.same
    have : m0.angles = mc.angles := (congrArg KinModel.angles hst : _)
    rw [this, hat.reach.anglesLen, joints_length]
  obtain ⟨θ, hθ⟩ : ∃ θ, writeAngles [0, 0] ([5, 2] : List ℝ) s0.robot.angles = .ok θ :=
    writeAngles_ok (by simp) (by rw [hlen]; simp)
  have e := pySetQ_ok (s := s0) (ids := [0, 0]) (q := [5, 2]) (bt := .fixed) (by simpa using hθ) (by simp [BaseType.dof])
  obtain ⟨s2, e2, h2, _⟩ := C85_set_q (same_twice 5 7 2) .fixed e
  exact ⟨_, e, s2, e2, h2⟩
example := C85_overridden (a := qTwice 5 2) (a' := qTwice 7 2) (k := 0) (c := 0) (v := 7) rfl rfl rfl (by simp) not_last_zero [3]
  .xyzw .fixed true false s0
example := C85_gradient_columns (qs := [[1, 2]]) (ps := [(3, 0)]) (ids := [0, 0]) (bt := .fixed) (uc := false) s0_reach s0_shallow
  s0_fits ⟨by simp, by simp [BaseType.dof], by rw [joints_length]; simp, by
    show ∀ p ∈ [(3, 0)], _ ∧ _; show ∀ p ∈ [(3, 0)], p.1 < m0.links.length ∧ p.2 < m0.links.length; rw [links_length]; simp⟩
  (.inl rfl) (.inl inertial)

end Example
end Tinyfk
