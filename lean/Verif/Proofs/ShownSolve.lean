import Verif.Proofs.ShownRows
import Verif.Props.SolveFk
import Verif.Proofs.ComFk
import Verif.Proofs.Dist

/-!
# The solvers with a fixed base and a kept cache
-/

set_option linter.unusedSectionVars false

namespace Tinyfk

open Scalar

variable {K : Type} [Scalar K]
  {ls : List (RawLink K)} {js : List (RawJoint K)} {m0 : KinModel K} {cs : List (Call K)} {mc m m' : KinModel K}
  {evs : List (Event K)}

theorem ShownRobot.reach {mk : KinModel K} (h : ShownRobot ls js m0 cs evs mk) :
    ∃ a, Reach ls js m0 (cs ++ [.setJointAngles (List.range m0.joints.length) a]) mk := by
  obtain ⟨θ, a, _, h, _⟩ := h
  exact ⟨a, h⟩

theorem ShownRobot.ready {mk : KinModel K} (h : ShownRobot ls js m0 cs evs mk) (hf : Shallow ls js m0 cs) : Ready mk := by
  obtain ⟨a, h⟩ := h.reach
  exact h.ready (hf.sets isSet_one)

theorem ShownRobot.nlinks {mk : KinModel K} (h : ShownRobot ls js m0 cs evs mk) :
    mk.links.length = (linksAfter (names0 m0) cs).length := by
  obtain ⟨a, h⟩ := h.reach
  rw [← h.length, links_sets _ isSet_one]

/-! ### `solve_fk` -/

/-- the row of one configuration -/
def fkBody (es ids : List Nat) (rt : RotType) (wj : Bool) (i : Nat) (PJ : Mat K × Mat K) : Prog (KinModel K) (Mat K × Mat K) := do
  let P ← fkPoseLoop rt (i * es.length) es 0 PJ.1
  let J ← if wj then fkJacLoop rt ids false (i * (es.length * rt.dim)) es 0 PJ.2 else pure PJ.2
  pure (P, J)

theorem fkLoop_rows (es ids : List Nat) (rt : RotType) (wj : Bool) (qs : List (List K)) (i : Nat) (P J : Mat K) (m : KinModel K) :
    fkLoop es ids rt false wj true qs i P J m = rowsLoop ids (fkBody es ids rt wj) qs i (P, J) m := by
  induction qs generalizing i P J m with
  | nil => rfl
  | cons q qs ih =>
    simp only [fkLoop, rowsLoop, fkBody, applyConfig, Prog.bind_apply]
    cases setJointAnglesNC ids q m with
    | ok u m1 =>
      simp only [Bool.false_eq_true, if_false, if_true, Prog.pure_apply]
      cases fkPoseLoop rt (i * es.length) es 0 P m1 with
      | ok P' m2 =>
        cases wj
        · exact ih _ _ _ _
        · simp only [if_true, Prog.bind_apply]
          cases fkJacLoop rt ids false (i * (es.length * rt.dim)) es 0 J m2 with
          | ok J' m3 => exact ih _ _ _ _
          | _ => rfl
      | _ => rfl
    | _ => rfl

theorem SDo.fkBody (es ids : List Nat) (rt : RotType) (wj : Bool) (i : Nat) (PJ : Mat K × Mat K) :
    SDo ls js m0 (fkBody es ids rt wj i PJ) [] (es.map .ask) := by
  unfold Tinyfk.fkBody
  cases wj
  · have := SDo.bind' (ls := ls) (js := js) (m0 := m0) (SDo.fkPoseLoop rt (i * es.length) es 0 PJ.1)
      (f := fun P => (Pure.pure (P, PJ.2) : Prog (KinModel K) (Mat K × Mat K))) (v2 := []) fun _ => .pure _
    rw [List.append_nil] at this
    exact this
  · refine SDo.evSame (ev := es.map .ask ++ (es.map .ask ++ [])) ?_ ?_
    · exact SDo.bind' (.fkPoseLoop _ _ _ _ _) fun P' => SDo.bind' (.fkJacLoop _ _ _ _ _ _ _) fun J' => .pure _
    · rw [List.append_nil]
      exact .twice (isAsk_map es)

theorem Blind.fkBody (es ids : List Nat) (rt : RotType) (wj : Bool) (i : Nat) (PJ : Mat K × Mat K) :
    Blind (fkBody es ids rt wj i PJ) := by
  unfold Tinyfk.fkBody
  refine .bind (.fkPoseLoop _ _ _ _ _) (.fkPoseLoop _ _ _ _ _) fun P => ?_
  cases wj
  · exact .pure _
  · exact .bind (.fkJacLoop _ _ _ _ _ _ _) (.fkJacLoop _ _ _ _ _ _ _) fun J => .pure _

theorem FkBlock.mono {mk : KinModel K} {rt : RotType} {ids es : List Nat} {wb wj : Bool} {k i : Nat} {P J P' J' : Mat K}
    (h : FkBlock mk rt ids wb wj es k P J) (hk : k < i) (hP : ∀ r c, c < i * es.length → P'.f r c = P.f r c)
    (hJ : ∀ r c, r < i * es.length * rt.dim → J'.f r c = J.f r c) : FkBlock mk rt ids wb wj es k P' J' := by
  intro j l hjl
  have hlt := (List.getElem?_eq_some_iff.mp hjl).1
  obtain ⟨⟨T, m', c1, c2⟩, c3⟩ := h j l hjl
  have hlt1 : k * es.length + j < i * es.length := by
    have e : (k + 1) * es.length = k * es.length + es.length := by ring
    have : (k + 1) * es.length ≤ i * es.length := Nat.mul_le_mul_right _ hk
    omega
  refine ⟨⟨T, m', c1, fun r v hv => ?_⟩, fun hw => ?_⟩
  · rw [hP r _ hlt1]; exact c2 r v hv
  · obtain ⟨B, m'', d1, d2, d3, d4⟩ := c3 hw
    refine ⟨B, m'', d1, d2, d3, fun r c hr hc => ?_⟩
    rw [hJ _ c ?_]; · exact d4 r c hr hc
    calc (k * es.length + j) * rt.dim + r < (k * es.length + j) * rt.dim + rt.dim := by omega
      _ = (k * es.length + j + 1) * rt.dim := by ring
      _ ≤ i * es.length * rt.dim := Nat.mul_le_mul_right _ hlt1

/-- `solve_forward_kinematics` of the wrapper with a fixed base and a kept cache -/
theorem Sits.solveFk {rt : RotType} {ids es : List Nat} {wj : Bool} {qs : List (List K)}
    (h : Sits ls js m0 cs evs m) (hf : Shallow ls js m0 cs) (hi : ∀ i ∈ ids, i < m0.joints.length)
    (he : ∀ l ∈ es, l < m.links.length)
    (hne : wj = true → (∃ r ∈ ls, r.inertial.isSome) ∨ weldsAfter (names0 m0) cs ≠ [])
    (hq : ∀ q ∈ qs, q.length = ids.length) :
    ∃ P J m', solveForwardKinematics qs es ids rt false wj true m = .ok (P, J) m' ∧
      FkShown ls js m0 cs evs qs es ids rt wj P J := by
  obtain ⟨mc, ha⟩ := h.at_
  have hr := ha.reach
  have he' : ∀ l ∈ es, l < (linksAfter (names0 m0) cs).length := by
    intro l hl; rw [← ha.nlinks]; exact he l hl
  have hloop := Sits.rowsLoop (ids := ids) (body := fkBody es ids rt wj) (asks := es.map .ask)
    (Inv := fun PJ : Mat K × Mat K => PJ.1.rows = rt.dim ∧ PJ.1.cols = qs.length * es.length ∧
      PJ.2.rows = qs.length * es.length * rt.dim ∧ PJ.2.cols = ids.length ∧ (wj = false → ∀ r c, PJ.2.f r c = 0))
    (Block := fun mk k PJ => FkBlock mk rt ids false wj es k PJ.1 PJ.2) qs.length hi hr hf (.fkBody _ _ _ _) (.fkBody _ _ _ _)
    (by
      rintro evs' mk i ⟨P, J⟩ hmk hin ⟨i1, i2, i3, i4, i5⟩
      obtain ⟨a, hra⟩ := hmk.reach
      obtain ⟨P1, J1, qP, qJ, a1, a2, a3, a4, a5, a6, a7, a8⟩ := Reach.fkBlock (rt := rt) (wb := false) (wj := wj)
        hra (hf.sets isSet_one) hi (by intro l hl; rw [hmk.nlinks]; exact he' l hl)
        (by rw [welds_sets _ isSet_one]; exact hne) i qs.length hin P J i1 i2 i3 i4
      refine ⟨(P1, J1), ?_, ⟨a1.trans i1, a2.trans i2, a3.trans i3, a4.trans i4, ?_⟩, ?_, a8⟩
      · refine Query.bind qP ?_
        cases wj
        · exact Query.bind (p := Pure.pure J) (f := fun J => Pure.pure (P1, J)) qJ (Query.pure _ _)
        · exact Query.bind (f := fun J => Pure.pure (P1, J)) qJ (Query.pure _ _)
      · intro hw r c; rw [a7 hw]; exact i5 hw r c
      · intro k hk mk' hB
        exact hB.mono hk a5 a6)
    qs hq (pre := []) (evs := evs) (m := m) (by simpa using h) (by simp) (by simp) 0 (by simp)
    (Mat.zero rt.dim (qs.length * es.length), Mat.zero (qs.length * es.length * rt.dim) ids.length)
    ⟨rfl, rfl, rfl, rfl, fun _ _ _ => rfl⟩
  obtain ⟨⟨P, J⟩, m', e, ⟨d1, d2, d3, d4, d5⟩, _, d6⟩ := hloop
  rw [← fkLoop_rows] at e
  refine ⟨P.transpose, J, m', ?_, d2, d1.trans rt.dim_eq, ?_, d4, ?_, ?_, ?_⟩
  · unfold solveForwardKinematics
    simp only [Bool.false_eq_true, if_false, Prog.bind_apply, Prog.pure_apply, e]
  · rw [d3, rt.dim_eq]
  · intro k j l q mk hk hj hmk
    obtain ⟨mb, hmb, hB⟩ := d6 k q hk
    have hsame := ShownRobot.same hr hmb hmk
    rw [Nat.zero_add] at hB
    obtain ⟨⟨T, m1, e1, e2⟩, _⟩ := hB j l hj
    have hrb := hmb.ready hf
    obtain ⟨T', hT'⟩ := hrb.tree.exists_pose (l := l) (by rw [hmb.nlinks]; exact he' l (List.mem_of_getElem? hj))
    have hq := Query.getLinkPose hT'
    obtain ⟨m2, f1, _⟩ := hq.run hrb
    rw [e1] at f1; cases f1
    obtain ⟨m3, f2, _⟩ := hq mk hsame (hmk.ready hf)
    exact ⟨T, m3, f2, poseRow_of e2⟩
  · intro hw k j l q mk hk hj hmk
    obtain ⟨mb, hmb, hB⟩ := d6 k q hk
    have hsame := ShownRobot.same hr hmb hmk
    rw [Nat.zero_add] at hB
    obtain ⟨_, e3⟩ := hB j l hj
    have hrb := hmb.ready hf
    obtain ⟨B, m2, f1, f2, f3, f4⟩ := e3 hw
    obtain ⟨a, hra⟩ := hmb.reach
    obtain ⟨B', q1, q2, q3⟩ := hra.jacQuery (by rw [welds_sets _ isSet_one]; exact hne hw)
      (by rw [hmb.nlinks]; exact he' l (List.mem_of_getElem? hj)) hi rt false
    obtain ⟨m4, g1, _⟩ := q1.run hrb
    rw [f1] at g1; cases g1
    obtain ⟨m5, g2, _⟩ := q1 mk hsame (hmk.ready hf)
    refine ⟨B, m5, g2, f2.trans rt.dim_eq, ?_, ?_⟩
    · intro c hc
      show c < B.cols
      rw [f3]; exact hc
    · intro r hr c hc
      rw [← rt.dim_eq]
      exact f4 r c (by rw [rt.dim_eq]; exact hr) hc
  · intro hw r _ c _; exact d5 hw r c

/-- the Python call -/
theorem Sits.pySolveFk {s : PyModel K} {qs : QArg K} {rt : RotType} {ids es : List Nat} {wj : Bool}
    (h : Sits ls js m0 cs evs s.robot) (hf : Shallow ls js m0 cs) (ha : FkArgs m0 s qs es ids .fixed)
    (hne : wj = true → (∃ r ∈ ls, r.inertial.isSome) ∨ weldsAfter (names0 m0) cs ≠ []) :
    ∃ P J s', pySolveFk qs es ids rt .fixed wj true s = .ok (P, J) s' ∧
      FkShown ls js m0 cs evs qs.rows es ids rt wj P J := by
  obtain ⟨a, e1, e2⟩ := fkArg_of ha.notFlat
  have hcols : a.cols = ids.length := by
    cases hr : qs.rows with
    | nil => exact absurd hr ha.nonempty
    | cons q0 rs =>
      have h1 := a.wf q0 (by rw [e2, hr]; simp)
      rw [← h1]; exact ha.shape q0 (by rw [hr]; simp)
  obtain ⟨P, J, m', e, hS⟩ := h.solveFk (rt := rt) (wj := wj) hf ha.joints ha.links hne
    (by simpa [BaseType.dof] using ha.shape)
  refine ⟨P, J, { s with robot := m' }, ?_, hS⟩
  simp only [Tinyfk.pySolveFk, Prog.bind_apply, Prog.lift, Prog.read, e1, prepareRows, pyAssert, hcols,
    beq_self_eq_true, if_true, e2]
  simp only [onRobot, bne_self_eq_false, Prog.pure_apply]
  rw [e]; rfl

/-! ### `solve_com_fk` -/

theorem comFkLoop_rows (ids al : List Nat) (fs : List K) (wj : Bool) (nDof : Nat) (qs : List (List K)) (i : Nat) (C J : Mat K)
    (m : KinModel K) :
    comFkLoop ids al fs false wj nDof qs i C J m =
      rowsLoop ids (fun i CJ => comRow ids al fs false wj nDof i CJ.1 CJ.2) qs i (C, J) m := by
  induction qs generalizing i C J m with
  | nil => rfl
  | cons q qs ih =>
    simp only [comFkLoop, rowsLoop, Prog.bind_apply]
    cases setJointAnglesNC ids q m with
    | ok u m1 =>
      simp only [Bool.false_eq_true, if_false, Prog.bind_apply]
      cases comRow ids al fs false wj nDof i C J m1 with
      | ok CJ m2 => exact ih _ _ _ _
      | _ => rfl
    | _ => rfl

/-- `solve_com_forward_kinematics` of the wrapper with a fixed base -/
theorem Sits.solveComFk {ids al : List Nat} {fs : List K} {wj : Bool} {qs : List (List K)}
    (h : Sits ls js m0 cs evs m) (hf : Shallow ls js m0 cs) (hi : ∀ i ∈ ids, i < m0.joints.length)
    (ha : ∀ l ∈ al, l < m.links.length) (hfs : al.length ≤ fs.length)
    (hne : wj = true → al ≠ [] → (∃ r ∈ ls, r.inertial.isSome) ∨ weldsAfter (names0 m0) cs ≠ [])
    (hq : ∀ q ∈ qs, q.length = ids.length) :
    ∃ C J m', solveComForwardKinematics qs ids al fs false wj m = .ok (C, J) m' ∧
      ComShown ls js m0 cs evs qs ids al fs wj C J := by
  obtain ⟨mc, hat⟩ := h.at_
  have hr := hat.reach
  have ha' : ∀ l ∈ al, l < (linksAfter (names0 m0) cs).length := by
    intro l hl; rw [← hat.nlinks]; exact ha l hl
  have hloop := Sits.rowsLoop (ids := ids) (body := fun i CJ => comRow ids al fs false wj ids.length i CJ.1 CJ.2)
    (asks := .askMasses :: al.map .ask)
    (Inv := fun CJ : Mat K × Mat K => CJ.1.rows = 3 ∧ CJ.1.cols = qs.length ∧
      CJ.2.rows = 3 * qs.length ∧ CJ.2.cols = ids.length ∧ (wj = false → ∀ r c, CJ.2.f r c = 0))
    (Block := fun mk k CJ => ComBlock mk ids al fs false wj k CJ.1 CJ.2) qs.length hi hr hf
    (fun _ _ => .comRow _ _ _ _ _ _ _ _ _) (fun _ _ => .comRow _ _ _ _ _ _ _ _ _)
    (by
      rintro evs' mk i ⟨C, J⟩ hmk hin ⟨i1, i2, i3, i4, i5⟩
      obtain ⟨a, hra⟩ := hmk.reach
      obtain ⟨C1, J1, qCJ, a1, a2, a3, a4, a5, a6, a7, a8⟩ := Reach.comRow (wb := false) (wj := wj)
        hra hi (by intro l hl; rw [hmk.nlinks]; exact ha' l hl) hfs
        (by rw [welds_sets _ isSet_one]; exact hne) i qs.length hin C J i1 i2 i3 i4
      refine ⟨(C1, J1), qCJ, ⟨a1.trans i1, a2.trans i2, a3.trans i3, a4.trans i4, ?_⟩, ?_, a8⟩
      · intro hw r c; rw [a7 hw]; exact i5 hw r c
      · intro k hk mk' hB
        exact hB.mono (fun r => a5 r k (by omega)) fun r hr c => a6 _ c (by omega))
    qs hq (pre := []) (evs := evs) (m := m) (by simpa using h) (by simp) (by simp) 0 (by simp)
    (Mat.zero 3 qs.length, Mat.zero (3 * qs.length) ids.length) ⟨rfl, rfl, rfl, rfl, fun _ _ _ => rfl⟩
  obtain ⟨⟨C, J⟩, m', e, ⟨d1, d2, d3, d4, d5⟩, _, d6⟩ := hloop
  rw [← comFkLoop_rows] at e
  simp only at d1 d2 d3 d4 d5 d6
  refine ⟨C.transpose, J, m', ?_, d2, d1, d3, d4, ?_, ?_, ?_⟩
  · unfold solveComForwardKinematics
    simp only [Bool.false_eq_true, if_false, Nat.add_zero, Prog.bind_apply, Prog.pure_apply, e]
  · intro k q mk hk hmk
    obtain ⟨mb, hmb, hB⟩ := d6 k q hk
    have hsame := ShownRobot.same hr hmb hmk
    have hrk := hmk.ready hf
    have hmass : mk.totalMass = mb.totalMass := by
      obtain ⟨⟨st, c, hc⟩, _⟩ := hsame; rw [hc]
    rw [Nat.zero_add] at hB
    obtain ⟨v, Ts, q1, q2, q3⟩ := hB.com
    obtain ⟨mk', g1, _⟩ := q1 mk hsame hrk
    refine ⟨v, mk', Ts, g1, q2.imp fun l T hq => ?_, ?_⟩
    · obtain ⟨m2, g2, _⟩ := hq mk hsame hrk; exact ⟨m2, g2⟩
    · rw [hmass]; exact q3
  · intro hw k q mk hk hmk
    obtain ⟨mb, hmb, hB⟩ := d6 k q hk
    have hsame := ShownRobot.same hr hmb hmk
    have hrk := hmk.ready hf
    have hmass : mk.totalMass = mb.totalMass := by
      obtain ⟨⟨st, c, hc⟩, _⟩ := hsame; rw [hc]
    rw [Nat.zero_add] at hB
    obtain ⟨B, Bs, q1, q2, q3, q4, q5⟩ := hB.jac hw
    obtain ⟨mk', g1, _⟩ := q1 mk hsame hrk
    refine ⟨B, mk', Bs, g1, q2, q3.trans d4.symm, q4.imp fun l B hq => ?_, ?_⟩
    · obtain ⟨m2, g2, _⟩ := hq mk hsame hrk; exact ⟨m2, g2⟩
    · rw [hmass, d4]; exact q5
  · intro hw r _ c _; exact d5 hw r c

/-- the Python call -/
theorem Sits.pySolveComFk {s : PyModel K} {qs : QArg K} {ids : List Nat} {act : Option (List Nat × List K)} {wj : Bool}
    (h : Sits ls js m0 cs evs s.robot) (hf : Shallow ls js m0 cs)
    (ha : ComArgs m0 s qs ids (act.getD ([], [])).1 (act.getD ([], [])).2 .fixed)
    (hne : wj = true → act ≠ none → (∃ r ∈ ls, r.inertial.isSome) ∨ weldsAfter (names0 m0) cs ≠ []) :
    ∃ C J s', pySolveComFk qs ids act .fixed wj s = .ok (C, J) s' ∧
      ComShown ls js m0 cs evs qs.rows ids (act.getD ([], [])).1 (act.getD ([], [])).2 wj C J := by
  obtain ⟨a, e1, e2⟩ := comArg_of ha.notFlat
  have hcols : a.cols = ids.length := by
    cases hr : qs.rows with
    | nil => exact absurd hr ha.nonempty
    | cons q0 rs =>
      have h1 := a.wf q0 (by rw [e2, hr]; simp)
      rw [← h1]; exact ha.shape q0 (by rw [hr]; simp)
  have hne' : wj = true → (act.getD ([], [])).1 ≠ [] →
      (∃ r ∈ ls, r.inertial.isSome) ∨ weldsAfter (names0 m0) cs ≠ [] := by
    intro hw hn
    refine hne hw ?_
    rintro rfl; exact hn rfl
  obtain ⟨C, J, m', e, hS⟩ := h.solveComFk (wj := wj) hf ha.joints ha.links ha.forces.ge hne'
    (by simpa [BaseType.dof] using ha.shape)
  refine ⟨C, J, { s with robot := m' }, ?_, hS⟩
  simp only [Tinyfk.pySolveComFk, Prog.bind_apply, Prog.lift, Prog.read, e1, prepareRows, pyAssert, hcols,
    beq_self_eq_true, if_true, e2]
  simp only [onRobot, bne_self_eq_false, Prog.pure_apply]
  rw [e]

/-! ### `compute_inter_link_sqdists` -/

theorem distFkLoop_rows (ids l1 l2 : List Nat) (wg : Bool) (nJ : Nat) (qs : List (List K)) (i : Nat) (D G : Mat K)
    (m : KinModel K) :
    distFkLoop ids l1 l2 false wg true nJ qs i D G m =
      rowsLoop ids (fun i DG => distLoop ids false wg nJ (i * l1.length) l2 l1 0 DG.1 DG.2) qs i (D, G) m := by
  induction qs generalizing i D G m with
  | nil => rfl
  | cons q qs ih =>
    simp only [distFkLoop, rowsLoop, applyConfig, Prog.bind_apply]
    cases setJointAnglesNC ids q m with
    | ok u m1 =>
      simp only [Bool.false_eq_true, if_false, if_true, Prog.pure_apply]
      cases distLoop ids false wg nJ (i * l1.length) l2 l1 0 D G m1 with
      | ok DG m2 => exact ih _ _ _ _
      | _ => rfl
    | _ => rfl

/-- `compute_inter_link_squared_dists` of the wrapper with a fixed base and a kept cache -/
theorem Sits.sqdists {ids : List Nat} {ps : List (Nat × Nat)} {wj : Bool} {qs : List (List K)}
    (h : Sits ls js m0 cs evs m) (hf : Shallow ls js m0 cs) (hi : ∀ i ∈ ids, i < m0.joints.length)
    (he : ∀ p ∈ ps, p.1 < m.links.length ∧ p.2 < m.links.length)
    (hne : wj = true → (∃ r ∈ ls, r.inertial.isSome) ∨ weldsAfter (names0 m0) cs ≠ [])
    (hq : ∀ q ∈ qs, q.length = ids.length) :
    ∃ V J m', computeInterLinkSquaredDists qs (ps.map Prod.fst) (ps.map Prod.snd) ids false wj true m = .ok (V, J) m' ∧
      DistShown ls js m0 cs evs qs ps ids wj V J := by
  obtain ⟨mc, hat⟩ := h.at_
  have hr := hat.reach
  have he' : ∀ p ∈ ps, p.1 < (linksAfter (names0 m0) cs).length ∧ p.2 < (linksAfter (names0 m0) cs).length := by
    intro l hl; rw [← hat.nlinks]; exact he l hl
  have ec : ps.length * qs.length = qs.length * ps.length := Nat.mul_comm _ _
  have hasks : (pairAsks ((ps.map Prod.fst).zip ((ps.map Prod.snd).drop 0)) : List (Event K)) = pairAsks ps := by
    rw [List.drop_zero, List.zip_map', ]
    simp
  have hloop := Sits.rowsLoop (ids := ids)
    (body := fun i DG => distLoop ids false wj ids.length (i * (ps.map Prod.fst).length) (ps.map Prod.snd) (ps.map Prod.fst) 0 DG.1 DG.2)
    (asks := pairAsks ps)
    (Inv := fun DG : Mat K × Mat K => DG.1.rows = qs.length * ps.length ∧ DG.1.cols = 1 ∧
      (wj = true → DG.2.rows = qs.length * ps.length ∧ DG.2.cols = ids.length))
    (Block := fun mk k DG => ∀ (j : Nat) p, ps[j]? = some p → DistPair mk ids false wj ids.length p
          (DG.1.f (k * ps.length + j) 0) (fun c => DG.2.f (k * ps.length + j) c)) qs.length hi hr hf
    (fun _ _ => hasks ▸ .distLoop _ _ _ _ _ _ _ _ _ _) (fun _ _ => .distLoop _ _ _ _ _ _ _ _ _ _)
    (by
      rintro evs' mk i ⟨D, G⟩ hmk hin ⟨i1, i2, i3⟩
      obtain ⟨a, hra⟩ := hmk.reach
      have he2 : ∀ p ∈ ps, p.1 < mk.links.length ∧ p.2 < mk.links.length := by
        intro p hp; rw [hmk.nlinks]; exact he' p hp
      have hle : (i + 1) * ps.length ≤ qs.length * ps.length := Nat.mul_le_mul_right _ (by omega)
      have ea : (i + 1) * ps.length = i * ps.length + ps.length := by ring
      have hne1 : wj = true → (∃ r ∈ ls, r.inertial.isSome) ∨
          weldsAfter (names0 m0) (cs ++ [.setJointAngles (List.range m0.joints.length) a]) ≠ [] := by
        rw [welds_sets _ isSet_one]; exact hne
      obtain ⟨D1, G1, qD, a1, a2, a3, a4, a5, a6, a7⟩ := Query.distLoop (m := mk) ids false wj
        ids.length (i * ps.length) (ps.map Prod.snd) ps
        (fun p hp => ⟨hra.abs.inv.exists_pose (he2 p hp).1, hra.abs.inv.exists_pose (he2 p hp).2⟩)
        (fun hw p hp => by
          obtain ⟨B1, q1, _⟩ := hra.jacQuery (hne1 hw) (he2 p hp).1 hi .ignore false
          obtain ⟨B2, q2, _⟩ := hra.jacQuery (hne1 hw) (he2 p hp).2 hi .ignore false
          exact ⟨⟨B1, q1⟩, ⟨B2, q2⟩⟩) 0
        (fun k p hk => by rw [Nat.zero_add, List.getElem?_map, hk]; rfl) D G (by simp only at i1; omega) i2
        (fun hw => by have := i3 hw; simp only at this; omega)
      refine ⟨(D1, G1), ?_, ⟨a1.trans i1, a2.trans i2, fun hw => ⟨a3.trans (i3 hw).1, a4.trans (i3 hw).2⟩⟩, ?_, ?_⟩
      · simp only [List.length_map]; exact qD
      · intro k hk mk' hB j p hj
        have hlt := (List.getElem?_eq_some_iff.mp hj).1
        have hlt1 : k * ps.length + j < i * ps.length := by
          have e : (k + 1) * ps.length = k * ps.length + ps.length := by ring
          have : (k + 1) * ps.length ≤ i * ps.length := Nat.mul_le_mul_right _ hk
          omega
        obtain ⟨T1, T2, t1, t2, t3, t4⟩ := hB j p hj
        refine ⟨T1, T2, t1, t2, ?_, fun hw => ?_⟩
        · simp only; rw [a5 _ _ (by omega)]; exact t3
        · obtain ⟨B1, B2, q1, q2, q3⟩ := t4 hw
          refine ⟨B1, B2, q1, q2, fun c hc => ?_⟩
          simp only
          rw [a6 _ _ (by omega)]; exact q3 c hc
      · simpa using a7)
    qs hq (pre := []) (evs := evs) (m := m) (by simpa using h) (by simp) (by simp) 0 (by simp)
    (Mat.zero (ps.length * qs.length) 1, if wj then Mat.zero (ps.length * qs.length) ids.length else Mat.zero 1 1)
    ⟨ec, rfl, by intro hw; simp only [hw, if_true]; exact ⟨ec, rfl⟩⟩
  obtain ⟨⟨V, J⟩, m', e, ⟨d1, d2, d3⟩, _, d6⟩ := hloop
  rw [← distFkLoop_rows] at e
  simp only at d1 d2 d3 d6
  have main : ∀ (k j l1 l2 : Nat) q mk, qs[k]? = some q → ps[j]? = some (l1, l2) →
      ShownRobot ls js m0 cs (rowEvents evs ids (pairAsks ps) qs k q) mk →
      DistPair mk ids false wj ids.length (l1, l2)
          (V.f (k * ps.length + j) 0) (fun c => J.f (k * ps.length + j) c) ∧ Ready mk := by
    intro k j l1 l2 q mk hk hj hmk
    obtain ⟨mb, hmb, hB⟩ := d6 k q hk
    have hsame := ShownRobot.same hr hmb hmk
    obtain ⟨T1, T2, t1, t2, t3, t4⟩ := hB j (l1, l2) hj
    rw [Nat.zero_add] at t3 t4
    refine ⟨⟨T1, T2, (IsPose.of_same hsame).mpr t1, (IsPose.of_same hsame).mpr t2, t3, fun hw => ?_⟩, hmk.ready hf⟩
    obtain ⟨B1, B2, q1, q2, q3⟩ := t4 hw
    exact ⟨B1, B2, q1.same hsame, q2.same hsame, q3⟩
  refine ⟨V, J, m', ?_, d1, d2, fun hw => (d3 hw).1, fun hw => (d3 hw).2, ?_, ?_⟩
  · unfold computeInterLinkSquaredDists
    simp only [List.length_map, Bool.false_eq_true, if_false, Nat.add_zero]
    exact e
  · intro k j l1 l2 q mk hk hj hmk
    obtain ⟨⟨T1, T2, t1, t2, t3, _⟩, hr⟩ := main k j l1 l2 q mk hk hj hmk
    obtain ⟨m1, f1, _⟩ := (Query.getLinkPose t1).run hr
    obtain ⟨m2, f2, _⟩ := (Query.getLinkPose t2).run hr
    exact ⟨T1, m1, T2, m2, f1, f2, t3⟩
  · intro hw k j l1 l2 q mk hk hj hmk
    obtain ⟨⟨T1, T2, t1, t2, _, t4⟩, hr⟩ := main k j l1 l2 q mk hk hj hmk
    obtain ⟨m1, f1, _⟩ := (Query.getLinkPose t1).run hr
    obtain ⟨m2, f2, _⟩ := (Query.getLinkPose t2).run hr
    obtain ⟨B1, B2, q1, q2, q3⟩ := t4 hw
    obtain ⟨m3, f3, _⟩ := q1.run hr
    obtain ⟨m4, f4, _⟩ := q2.run hr
    exact ⟨T1, m1, T2, m2, B1, m3, B2, m4, f1, f2, f3, f4, q3⟩

/-- the Python call -/
theorem Sits.pySqdists {s : PyModel K} {qs : List (List K)} {ps : List (Nat × Nat)} {ids : List Nat} {wj : Bool}
    (h : Sits ls js m0 cs evs s.robot) (hf : Shallow ls js m0 cs) (ha : DistArgs m0 s qs ps ids .fixed)
    (hne : wj = true → (∃ r ∈ ls, r.inertial.isSome) ∨ weldsAfter (names0 m0) cs ≠ []) :
    ∃ V J s', pySqdists qs ps ids .fixed wj true s = .ok (V, J) s' ∧ DistShown ls js m0 cs evs qs ps ids wj V J := by
  obtain ⟨V, J, m', e, hS⟩ := h.sqdists (wj := wj) hf ha.joints ha.links hne (by simpa [BaseType.dof] using ha.shape)
  refine ⟨V, J, { s with robot := m' }, ?_, hS⟩
  simp only [Tinyfk.pySqdists, Prog.bind_apply, reduceCtorEq, if_false, Prog.pure_apply, ha.nonempty, onRobot,
    false_and, bne_self_eq_false]
  rw [e]

/-! ### `compute_total_inertia_matrix` -/

theorem Sits.pyInertia {s : PyModel K} {q : List K} {ids : List Nat} (h : Sits ls js m0 cs evs s.robot)
    (hf : Shallow ls js m0 cs) (hi : ∀ i ∈ ids, i < m0.joints.length) (hq : q.length = ids.length)
    {mk : KinModel K} (hmk : ShownRobot ls js m0 cs (evs ++ configEvents ids .fixed true q) mk) :
    ∃ I s' mk', pyInertia q ids s = .ok I s' ∧ getTotalInertia mk = .ok I mk' := by
  obtain ⟨mc, hat⟩ := h.at_
  have hr := hat.reach
  have hset := SDo.setNC (ls := ls) (js := js) (m0 := m0) ids q cs evs s.robot h
  obtain ⟨m1, mc1, e1, _, _⟩ := hat.setNC hi (q := q) (by omega)
  rw [e1] at hset
  obtain ⟨I, m', mb, e2, hmb, hI⟩ := Sits.query (pre := [.setJointAngles ids (q.take ids.length)]) hset hr hf isSet_one
    (baseAfter_setAll _) Blind.getTotalInertia (Q := fun mk I => Query mk getTotalInertia I) (by
      intro mk hmk
      obtain ⟨a, hra⟩ := hmk.reach
      obtain ⟨xs, hxs⟩ := hra.abs.inv.exists_comPts
      exact ⟨_, .getTotalInertia hxs, .getTotalInertia hxs⟩)
  rw [← configEvents_fixed] at hmb
  obtain ⟨mk', e3, _⟩ := hI mk (ShownRobot.same hr hmb hmk) (hmk.ready hf)
  refine ⟨I, { s with robot := m' }, mk', ?_, e3⟩
  simp only [Tinyfk.pyInertia, onRobot, computeTotalInertiaMatrix, Prog.bind_apply, e1, e2]

end Tinyfk
