import Verif.Proofs.ShownPy
import Verif.Proofs.Dist
import Verif.Proofs.ComFk
import Verif.Props.Shown

/-!
# Rows of a batch that keeps the cache

The loops of the solvers, for a fixed base and a kept cache, are one loop; each row is asked on the robot that shows.
-/

set_option linter.unusedSectionVars false

namespace Tinyfk

open Scalar

variable {K : Type} [Scalar K] {α β A : Type}
  {ls : List (RawLink K)} {js : List (RawJoint K)} {m0 : KinModel K} {cs pre : List (Call K)} {mc m m' : KinModel K}
  {evs evs' : List (Event K)}

/-! ### The robot that shows -/

theorem shownAngles_sets (hp : ∀ c ∈ pre, c.IsSet) {θ : String → K} :
    ShownAngles ls js m0 (cs ++ pre) evs θ ↔ ShownAngles ls js m0 cs evs θ := by
  unfold ShownAngles
  rw [allWelds_sets hp, links_sets _ hp]

theorem Reach.angleAfter_eq {cs' : List (Call K)} {m1 : KinModel K} (h1 : Reach ls js m0 cs m1)
    {θ : String → K} (a1 : AnglesAfter m0 cs θ) (a2 : AnglesAfter m0 cs' θ) (i : Nat) (hi : i < m0.joints.length) :
    angleAfter i 0 cs = angleAfter i 0 cs' := by
  have g := (Reach.abs (⟨h1.tree, h1.supported, h1.built, .nil⟩ : Reach ls js m0 [] m0)).inv.graph
  obtain ⟨jp, hjp⟩ : ∃ jp, m0.joints[i]? = some jp := ⟨_, List.getElem?_eq_getElem hi⟩
  obtain ⟨j, _, _, _, hj, _⟩ := g.joint hjp
  have hs : m0.jointIds.find j.name = some i := (g.jointNames _ _).mpr ⟨jp, j, hjp, hj, rfl⟩
  have hi' := getJointIds_one.mpr hs
  rw [← a1 _ _ hi', ← a2 _ _ hi']

/-- the robot that shows is one -/
theorem ShownRobot.same {m1 m2 : KinModel K} (hr : Reach ls js m0 cs mc) (h1 : ShownRobot ls js m0 cs evs m1)
    (h2 : ShownRobot ls js m0 cs evs m2) : SameRobot m1 m2 := by
  obtain ⟨θ1, a1, s1, r1, b1⟩ := h1
  obtain ⟨θ2, a2, s2, r2, b2⟩ := h2
  have b2' : AnglesAfter m0 (cs ++ [.setJointAngles (List.range m0.joints.length) a2]) θ1 := by
    intro s i hi
    rw [s1 s i hi, ← s2 s i hi]
    exact b2 s i hi
  refine hr.sameRobot' r1 r2 isSet_one isSet_one (fun i hi => r1.angleAfter_eq b1 b2' i hi) ?_
  rw [baseAfter_setAll, baseAfter_setAll]

theorem Sits.config' (h : Sits ls js m0 (cs ++ pre) evs m) (hr : Reach ls js m0 cs mc) (hp : ∀ c ∈ pre, c.IsSet)
    (hb : baseAfter Pose.identity (cs ++ pre) = baseAfter Pose.identity cs) :
    ∃ (a : List K) (mk : KinModel K), ShownRobot ls js m0 cs evs mk ∧
      At ls js m0 (cs ++ [.setJointAngles (List.range m0.joints.length) a]) mk (m.hid a) ∧ Coherent (m.hid a) ∧ Sees a m := by
  obtain ⟨θ, hθ, _⟩ := C102_exists ls js m0 cs evs
  obtain ⟨a, mk, h1, h2, h3, h4, h5⟩ := h.config ((shownAngles_sets hp).mpr hθ)
  have h6 := (At.of_reach hr).hid h1
  generalize hmk : ({ mc with angles := a, cache := mc.cache.clear } : KinModel K) = mk' at h6
  have e' : AnglesAfter m0 (cs ++ [.setJointAngles (List.range m0.joints.length) a]) θ := by
    intro s i hi
    rw [h3 s i hi]
    have hf := getJointIds_one.mp hi
    have g := (Reach.abs (⟨hr.tree, hr.supported, hr.built, .nil⟩ : Reach ls js m0 [] m0)).inv.graph
    obtain ⟨jp, j, hjp, _⟩ := (g.jointNames s i).mp hf
    have hlt := (List.getElem?_eq_some_iff.mp hjp).1
    have x1 := h2.reach.angles_get i hlt
    have x2 := h6.reach.angles_get i hlt
    have y1 : mk.angles = a := by
      obtain ⟨⟨st, c, e⟩, _⟩ := h2.same
      exact (congrArg KinModel.angles e).symm
    have y2 : mk'.angles = a := by
      obtain ⟨⟨st, c, e⟩, _⟩ := h6.same
      exact (congrArg KinModel.angles e).symm
    rw [y1] at x1; rw [y2, x1] at x2
    exact Option.some.inj x2
  refine ⟨a, mk', ⟨θ, a, hθ, h6.reach, e'⟩, ⟨h6.reach, ?_, h2.sized⟩, h4, h5⟩
  refine SameRobot.trans ?_ h2.same
  have h2r : Reach ls js m0 (cs ++ (pre ++ [.setJointAngles (List.range m0.joints.length) a])) mk := by
    rw [← List.append_assoc]; exact h2.reach
  refine hr.sameRobot' h6.reach h2r isSet_one ?_ (fun i hi => ?_) ?_
  · intro c hc
    rcases List.mem_append.mp hc with hc | hc
    · exact hp c hc
    · exact isSet_one c hc
  · rw [← List.append_assoc]
    exact h6.reach.angleAfter_eq e' h3 i hi
  · rw [← List.append_assoc, baseAfter_setAll, baseAfter_setAll, hb]

/-! ### The loops do not notice hidden angles -/

theorem Blind.fkPoseLoop (rt : RotType) (head0 : Nat) (es : List Nat) (j : Nat) (P : Mat K) :
    Blind (fkPoseLoop rt head0 es j P) := by
  induction es generalizing j P with
  | nil => exact .pure _
  | cons l es ih =>
    unfold Tinyfk.fkPoseLoop
    exact .bind (.getLinkPose l) (.getLinkPose l) fun tf =>
      .bind (.lift _) (.lift (Mat.noExn_setCol _ _ _ _)) fun _ => ih _ _

theorem Blind.fkJacLoop (rt : RotType) (ids : List Nat) (wb : Bool) (head0 : Nat) (es : List Nat) (j : Nat) (J : Mat K) :
    Blind (fkJacLoop rt ids wb head0 es j J) := by
  induction es generalizing j J with
  | nil => exact .pure _
  | cons l es ih =>
    unfold Tinyfk.fkJacLoop
    exact .bind (.getJacobian l _ _ _) (.getJacobian l _ _ _) fun tf =>
      .bind (.lift _) (.lift (Mat.noExn_setBlock _ _ _ _)) fun _ => ih _ _

theorem Blind.actionLoop (ids : List Nat) (wb wj : Bool) (fs : List K) (i nDof : Nat) (es : List Nat)
    (j : Nat) (s : K) (C J : Mat K) : Blind (actionLoop ids wb wj fs i nDof es j s C J) := by
  induction es generalizing j s C J with
  | nil => exact .pure _
  | cons a l ih =>
    unfold Tinyfk.actionLoop
    refine .bind (.lift _) (.lift (.idx _ _ _)) fun _ => .bind (.read fun _ _ => rfl) (Stays.read fun _ => .ok _) fun _ =>
      .bind (.getLinkPose _) (.getLinkPose _) fun _ => .bind (.lift _) (.lift ?_) fun _ => .ite ?_ ?_
    · exact .bind (Mat.noExn_get _ _ _) fun _ => .bind (Mat.noExn_set _ _ _ _) fun _ =>
        .bind (Mat.noExn_get _ _ _) fun _ => .bind (Mat.noExn_set _ _ _ _) fun _ =>
        .bind (Mat.noExn_get _ _ _) fun _ => Mat.noExn_set _ _ _ _
    · exact .bind (.getJacobian _ _ _ _) (.getJacobian _ _ _ _) fun _ =>
        .bind (.lift _) (.lift (Mat.noExn_addBlock _ _ _ _ _ _ _)) fun _ => ih _ _ _ _
    · exact .bind (.pure _) (.pure _) fun _ => ih _ _ _ _

theorem Blind.distLoop (ids : List Nat) (wb wg : Bool) (nJ head0 : Nat) (l2 : List Nat) (l1 : List Nat)
    (j : Nat) (D G : Mat K) : Blind (distLoop ids wb wg nJ head0 l2 l1 j D G) := by
  induction l1 generalizing j D G with
  | nil => exact .pure _
  | cons a l ih =>
    unfold Tinyfk.distLoop
    refine .bind (.getLinkPose _) (.getLinkPose _) fun _ => .bind (.lift _) (.lift (.idx _ _ _)) fun _ =>
      .bind (.getLinkPose _) (.getLinkPose _) fun _ => .bind (.lift _) (.lift (Mat.noExn_set _ _ _ _)) fun _ => .ite ?_ ?_
    · exact .bind (.getJacobian _ _ _ _) (.getJacobian _ _ _ _) fun _ =>
        .bind (.getJacobian _ _ _ _) (.getJacobian _ _ _ _) fun _ =>
        .bind (.lift _) (.lift (Mat.noExn_setBlock _ _ _ _)) fun _ => ih _ _ _
    · exact .bind (.pure _) (.pure _) fun _ => ih _ _ _

theorem Blind.comRow (ids al : List Nat) (fs : List K) (wb wj : Bool) (nDof i : Nat) (C J : Mat K) :
    Blind (comRow ids al fs wb wj nDof i C J) := by
  have key : ∀ C J, Blind (if al.length > 0 then (do
      let (s, C, J) ← Tinyfk.actionLoop ids wb wj fs i nDof al 0 1 C J
      let C ← Prog.lift (C.mapBlock 0 i 3 1 (· / s))
      let J ← if wj then Prog.lift (J.mapBlock (3 * i) 0 3 nDof (· / s)) else Pure.pure J
      Pure.pure (C, J))
      else Pure.pure (C, J) : Prog (KinModel K) (Mat K × Mat K)) := by
    intro C J
    refine .ite ?_ (.pure _)
    refine .bind (.actionLoop _ _ _ _ _ _ _ _ _ _ _) (.actionLoop _ _ _ _ _ _ _ _ _ _ _) fun x => ?_
    refine .bind (.lift _) (.lift (Mat.noExn_mapBlock _ _ _ _ _ _)) fun _ => ?_
    cases wj
    · exact .pure _
    · exact .bind (.lift _) (.lift (Mat.noExn_mapBlock _ _ _ _ _ _)) fun _ => .pure _
  unfold Tinyfk.comRow
  refine .bind .getCom .getCom fun _ => .bind (.lift _) (.lift (Mat.noExn_setCol _ _ _ _)) fun _ => ?_
  cases wj
  · exact key _ _
  · exact .bind (.getComJacobian _ _) (.getComJacobian _ _) fun _ =>
      .bind (.lift _) (.lift (Mat.noExn_setBlock _ _ _ _)) fun _ => key _ _

/-- a query that does not notice hidden angles is answered by the robot that shows -/
theorem Sits.query (h : Sits ls js m0 (cs ++ pre) evs m) (hr : Reach ls js m0 cs mc) (hf : Shallow ls js m0 cs)
    (hp : ∀ c ∈ pre, c.IsSet) (hb : baseAfter Pose.identity (cs ++ pre) = baseAfter Pose.identity cs)
    {p : Prog (KinModel K) α} (hbl : Blind p) {Q : KinModel K → α → Prop}
    (hq : ∀ mk, ShownRobot ls js m0 cs evs mk → ∃ v, Query mk p v ∧ Q mk v) :
    ∃ v m' mk, p m = .ok v m' ∧ ShownRobot ls js m0 cs evs mk ∧ Q mk v := by
  obtain ⟨a, mk, h1, h2, h3, h4⟩ := h.config' hr hp hb
  obtain ⟨v, hv, hQ⟩ := hq mk h1
  have hf' := hf.sets (isSet_one (ids := List.range m0.joints.length) (a := a))
  obtain ⟨m', e, _⟩ := h2.query (h2.ready_coh hf' h3) hv
  rw [hbl m a h.graph.tree h4] at e
  cases e' : p m with
  | ok v' m'' => rw [e'] at e; cases e; exact ⟨v, m'', mk, rfl, h1, hQ⟩
  | exn x m'' => rw [e'] at e; cases e
  | ub u => rw [e'] at e; cases e
  | hang => rw [e'] at e; cases e

/-! ### The loop over the rows -/

/-- the loop of the solvers, for a fixed base and a kept cache -/
def rowsLoop (ids : List Nat) (body : Nat → A → Prog (KinModel K) A) : List (List K) → Nat → A → Prog (KinModel K) A
  | [], _, a => pure a
  | q :: qs, i, a => do
    setJointAnglesNC ids q
    let a ← body i a
    rowsLoop ids body qs (i + 1) a

theorem baseAfter_batchFixed (b : Pose K) (ids : List Nat) (qs : List (List K)) : baseAfter b (batchCalls ids .fixed qs) = b := by
  induction qs generalizing b with
  | nil => rfl
  | cons q qs ih => rw [batchCalls_cons, baseAfter_append]; simp [configCalls, basePart, baseAfter, ih]

theorem configCalls_fixed (ids : List Nat) (q : List K) : configCalls ids .fixed q = [.setJointAngles ids (q.take ids.length)] := by
  simp [configCalls, basePart]

theorem configEvents_fixed (ids : List Nat) (q : List K) : configEvents ids .fixed true q = [.write ids (q.take ids.length)] := by
  simp [configEvents]

theorem Sits.rowsLoop {ids : List Nat} {body : Nat → A → Prog (KinModel K) A} {asks : List (Event K)} {Inv : A → Prop}
    {Block : KinModel K → Nat → A → Prop} (n : Nat) (hi : ∀ i ∈ ids, i < m0.joints.length) (hr : Reach ls js m0 cs mc)
    (hf : Shallow ls js m0 cs) (hdo : ∀ i a, SDo ls js m0 (body i a) [] asks) (hbl : ∀ i a, Blind (body i a))
    (hrow : ∀ evs mk i acc, ShownRobot ls js m0 cs evs mk → i < n → Inv acc → ∃ acc', Query mk (body i acc) acc' ∧ Inv acc' ∧
      (∀ k < i, ∀ mk, Block mk k acc → Block mk k acc') ∧ Block mk i acc')
    (qs : List (List K)) (hq : ∀ q ∈ qs, q.length = ids.length) {pre : List (Call K)} {evs : List (Event K)} {m : KinModel K}
    (h : Sits ls js m0 (cs ++ pre) evs m)
    (hp : ∀ c ∈ pre, c.IsSet) (hb : baseAfter Pose.identity (cs ++ pre) = baseAfter Pose.identity cs)
    (i : Nat) (hin : i + qs.length = n) (acc : A) (hacc : Inv acc) :
    ∃ acc' m', Tinyfk.rowsLoop ids body qs i acc m = .ok acc' m' ∧ Inv acc' ∧
      (∀ k < i, ∀ mk, Block mk k acc → Block mk k acc') ∧
      ∀ k q, qs[k]? = some q → ∃ mk, ShownRobot ls js m0 cs (rowEvents evs ids asks qs k q) mk ∧ Block mk (i + k) acc' := by
  induction qs generalizing pre evs m i acc with
  | nil => exact ⟨acc, m, rfl, hacc, fun _ _ _ h => h, by simp⟩
  | cons q qs ih =>
    simp only [List.length_cons] at hin
    obtain ⟨mc', ha⟩ := h.at_
    obtain ⟨m1, mc1, e1, _, _⟩ := ha.setNC hi (q := q) (by rw [hq q (by simp)])
    have h1 := SDo.setNC (ls := ls) (js := js) (m0 := m0) ids q _ _ _ h
    rw [e1] at h1
    simp only [List.append_assoc] at h1
    have hp1 : ∀ c ∈ pre ++ [.setJointAngles ids (q.take ids.length)], c.IsSet := by
      intro c hc
      rcases List.mem_append.mp hc with hc | hc
      · exact hp c hc
      · exact isSet_one c hc
    have hb1 : baseAfter Pose.identity (cs ++ (pre ++ [.setJointAngles ids (q.take ids.length)])) =
        baseAfter Pose.identity cs := by
      rw [← List.append_assoc, baseAfter_setAll, hb]
    obtain ⟨acc1, m2, mk, e2, s2, i2, k2, b2⟩ := h1.query hr hf hp1 hb1 (hbl i acc)
      (fun mk hmk => hrow _ mk i acc hmk (by omega) hacc)
    have h2 := hdo i acc _ _ _ h1
    rw [e2] at h2
    simp only [List.append_nil, List.append_assoc] at h2
    obtain ⟨acc2, m3, e3, i3, k3, b3⟩ := ih (fun q hq' => hq q (by simp [hq'])) h2 hp1 hb1 (i + 1) (by omega) acc1 i2
    refine ⟨acc2, m3, ?_, i3, ?_, ?_⟩
    · simp only [Tinyfk.rowsLoop, Prog.bind_apply, e1, e2, e3]
    · intro k hk mk hB
      exact k3 k (by omega) mk (k2 k hk mk hB)
    · intro k q' hk
      cases k with
      | zero =>
        cases hk
        refine ⟨mk, ?_, k3 i (by omega) mk b2⟩
        simpa [rowEvents, batchEvents, configEvents_fixed] using s2
      | succ k =>
        obtain ⟨mk', s3, b4⟩ := b3 k q' hk
        refine ⟨mk', ?_, by rw [show i + (k + 1) = i + 1 + k by omega]; exact b4⟩
        simpa [rowEvents, batchEvents, configEvents_fixed] using s3

end Tinyfk
