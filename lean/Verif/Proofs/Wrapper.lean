import Verif.Spec.PyApi
import Verif.Props.Links

/-!
# The wrapper: states with arbitrary cache contents, and the solver loops
-/

set_option linter.unusedSectionVars false

namespace Tinyfk

open Scalar

variable {K : Type} [Scalar K]
variable {ls : List (RawLink K)} {js : List (RawJoint K)} {m0 m mc : KinModel K} {cs : List (Call K)}

/-- calls that only change angles and base -/
def Call.IsSet : Call K → Prop
  | .setJointAngles .. => True
  | .setBasePose .. => True
  | _ => False

theorem linksAfter_append (ns : List String) (a b : List (Call K)) :
    linksAfter ns (a ++ b) = linksAfter (linksAfter ns a) b := by
  induction a generalizing ns with
  | nil => rfl
  | cons c a ih => rw [List.cons_append, linksAfter_cons, ih, ← linksAfter_cons]

theorem weldsAfter_append (ns : List String) (a b : List (Call K)) :
    weldsAfter ns (a ++ b) = weldsAfter ns a ++ weldsAfter (linksAfter ns a) b := by
  induction a generalizing ns with
  | nil => rfl
  | cons c a ih =>
    rw [List.cons_append, weldsAfter_cons, ih, weldsAfter_cons ns c a, linksAfter_cons ns c a,
      List.append_assoc]

theorem sets_links (ns : List String) {a : List (Call K)} (h : ∀ c ∈ a, c.IsSet) : linksAfter ns a = ns := by
  induction a with
  | nil => rfl
  | cons c a ih =>
    have hc := h c (by simp)
    have := ih fun x hx => h x (by simp [hx])
    cases c <;> first | exact hc.elim | exact this

theorem sets_welds (ns : List String) {a : List (Call K)} (h : ∀ c ∈ a, c.IsSet) : weldsAfter ns a = [] := by
  induction a with
  | nil => rfl
  | cons c a ih =>
    have hc := h c (by simp)
    have := ih fun x hx => h x (by simp [hx])
    cases c <;> first | exact hc.elim | exact this

theorem welds_sets (ns : List String) {a : List (Call K)} (h : ∀ c ∈ a, c.IsSet) :
    weldsAfter ns (cs ++ a) = weldsAfter ns cs := by
  rw [weldsAfter_append, sets_welds _ h, List.append_nil]

theorem links_sets (ns : List String) {a : List (Call K)} (h : ∀ c ∈ a, c.IsSet) :
    linksAfter ns (cs ++ a) = linksAfter ns cs := by
  rw [linksAfter_append, sets_links _ h]

theorem allWelds_sets {a : List (Call K)} (h : ∀ c ∈ a, c.IsSet) :
    AllWelds ls m0 (cs ++ a) = AllWelds ls m0 cs := by
  funext w; simp only [AllWelds, welds_sets _ h]

theorem Shallow.sets (hf : Shallow ls js m0 cs) {a : List (Call K)} (h : ∀ c ∈ a, c.IsSet) :
    Shallow ls js m0 (cs ++ a) := by
  unfold Shallow; rw [allWelds_sets h]; exact hf

theorem configCalls_isSet (ids : List Nat) (bt : BaseType) (q : List K) :
    ∀ c ∈ configCalls ids bt q, c.IsSet := by
  intro c hc
  unfold configCalls at hc
  rcases List.mem_cons.mp hc with rfl | hc
  · trivial
  · split at hc
    · rw [List.mem_singleton.mp hc]; trivial
    · cases hc

theorem batchCalls_isSet (ids : List Nat) (bt : BaseType) (qs : List (List K)) :
    ∀ c ∈ batchCalls ids bt qs, c.IsSet := by
  intro c hc
  obtain ⟨q, _, hq⟩ := List.mem_flatMap.mp hc
  exact configCalls_isSet ids bt q c hq

/-- `m` is the reached state `mc` up to the contents of cache and stack, which are arbitrary. -/
structure At (ls : List (RawLink K)) (js : List (RawJoint K)) (m0 : KinModel K) (cs : List (Call K))
    (mc m : KinModel K) : Prop where
  reach : Reach ls js m0 cs mc
  same : SameRobot mc m
  sized : CacheSized m

/-- no cache entry is set -/
def Fresh (m : KinModel K) : Prop := ∀ l : Nat, m.cache.pred[l]? ≠ some true

theorem At.ready (h : At ls js m0 cs mc m) (hf : Shallow ls js m0 cs) (hc : Fresh m) : Ready m := by
  have hr := h.reach.ready hf
  obtain ⟨⟨st, c, rfl⟩, hcap⟩ := h.same
  exact ⟨Tree.congr (m := mc) rfl rfl rfl hr.tree, h.sized, coherent_of_fresh hc,
    FitsStack.congr (m := mc) rfl hcap hr.fits⟩

theorem At.ready_coh (h : At ls js m0 cs mc m) (hf : Shallow ls js m0 cs) (hc : Coherent m) : Ready m := by
  have hr := h.reach.ready hf
  obtain ⟨⟨st, c, rfl⟩, hcap⟩ := h.same
  exact ⟨Tree.congr (m := mc) rfl rfl rfl hr.tree, h.sized, hc,
    FitsStack.congr (m := mc) rfl hcap hr.fits⟩

theorem At.of_reach (h : Reach ls js m0 cs m) : At ls js m0 cs m m := ⟨h, .refl m, h.abs.inv.sized⟩

theorem At.query {α : Type} {p : Prog (KinModel K) α} {v : α} (h : At ls js m0 cs mc m) (hr : Ready m)
    (hq : Query mc p v) : ∃ m', p m = .ok v m' ∧ At ls js m0 cs mc m' ∧ Ready m' := by
  obtain ⟨m', e, hs, hr'⟩ := hq m h.same hr
  exact ⟨m', e, ⟨h.reach, hs, hr'.sized⟩, hr'⟩

theorem writeAngles_take (ids : List Nat) (q a : List K) :
    writeAngles ids (q.take ids.length) a = writeAngles ids q a := by
  induction ids generalizing q a with
  | nil => simp [writeAngles]
  | cons i ids ih =>
    cases q with
    | nil => rfl
    | cons v q =>
      simp only [List.length_cons, List.take_succ_cons, writeAngles]
      split
      · exact ih _ _
      · rfl

theorem Reach.anglesLen (h : Reach ls js m0 cs m) : m.angles.length = m0.joints.length := by
  rw [h.abs.inv.graph.anglesLen, h.abs.joints]

theorem At.links (h : At ls js m0 cs mc m) : m.links = mc.links := by
  obtain ⟨⟨st, c, rfl⟩, _⟩ := h.same; rfl

theorem At.joints (h : At ls js m0 cs mc m) : m.joints = m0.joints := by
  have := h.reach.abs.joints
  obtain ⟨⟨st, c, rfl⟩, _⟩ := h.same; exact this

theorem At.nlinks (h : At ls js m0 cs mc m) : m.links.length = (linksAfter (names0 m0) cs).length := by
  rw [h.links, h.reach.length]

/-- `_set_joint_angles` -/
theorem At.setNC (h : At ls js m0 cs mc m) {ids : List Nat} {q : List K}
    (hi : ∀ i ∈ ids, i < m0.joints.length) (hq : ids.length ≤ q.length) :
    ∃ m1 mc1, setJointAnglesNC ids q m = .ok () m1 ∧
      At ls js m0 (cs ++ [.setJointAngles ids (q.take ids.length)]) mc1 m1 ∧ m1.cache = m.cache ∧
      m1.base = m.base := by
  have hlen := h.reach.anglesLen
  obtain ⟨a, ha⟩ := writeAngles_ok (a := mc.angles) hq (by rw [hlen]; exact hi)
  have hrun : Call.run (.setJointAngles ids (q.take ids.length)) mc =
      .ok () { mc with angles := a, cache := mc.cache.clear } := by
    simp only [Call.run, setJointAngles, Prog.bind_apply, setJointAnglesNC, writeAngles_take, ha,
      clearCache, Prog.modify]
  refine ⟨{ m with angles := a }, _, ?_, ⟨h.reach.snoc hrun, ?_, ?_⟩, rfl, rfl⟩
  · obtain ⟨⟨st, c, rfl⟩, _⟩ := h.same
    simp only [setJointAnglesNC, ha]
  · obtain ⟨⟨st, c, rfl⟩, hcap⟩ := h.same
    exact ⟨⟨st, c, rfl⟩, hcap⟩
  · exact ⟨h.sized.size, h.sized.pred, h.sized.data⟩

theorem At.clear (h : At ls js m0 cs mc m) : ∃ m1, clearCache m = .ok () m1 ∧ At ls js m0 cs mc m1 ∧
    Fresh m1 ∧ m1.base = m.base := by
  refine ⟨_, rfl, ⟨h.reach, ?_, cacheSized_clear h.sized⟩, clear_pred _, rfl⟩
  obtain ⟨⟨st, c, rfl⟩, hcap⟩ := h.same
  exact ⟨⟨st, _, rfl⟩, hcap⟩

theorem At.setBase (h : At ls js m0 cs mc m) (p : Pose K) : ∃ m1 mc1, setBasePose p m = .ok () m1 ∧
    At ls js m0 (cs ++ [.setBasePose p]) mc1 m1 ∧ Fresh m1 := by
  refine ⟨_, _, setBasePose_eq p m, ⟨h.reach.snoc (c := .setBasePose p) (setBasePose_eq p mc), ?_, ?_⟩, ?_⟩
  · obtain ⟨⟨st, c, rfl⟩, hcap⟩ := h.same
    exact ⟨⟨st, _, rfl⟩, hcap⟩
  · exact cacheSized_clear (m := { m with base := p }) ⟨h.sized.size, h.sized.pred, h.sized.data⟩
  · exact clear_pred _

/-- the base type seen by the wrapper -/
def wrapBase (withBase : Bool) : BaseType := if withBase then .floating else .fixed

theorem drop_six {q : List K} {n : Nat} (h : q.length = n + 6) : ∃ x y z r p w,
    q.drop n = [x, y, z, r, p, w] := by
  have h6 : (q.drop n).length = 6 := by simp [h]
  match hd : q.drop n, h6 with
  | [x, y, z, r, p, w], _ => exact ⟨x, y, z, r, p, w, rfl⟩

theorem drop_three {q : List K} {n : Nat} (h : q.length = n + 3) : ∃ x y w, q.drop n = [x, y, w] := by
  have h3 : (q.drop n).length = 3 := by simp [h]
  match hd : q.drop n, h3 with
  | [x, y, w], _ => exact ⟨x, y, w, rfl⟩

theorem At.setBaseFromTail (h : At ls js m0 cs mc m) {q : List K} {n : Nat} (hq : q.length = n + 6) :
    ∃ m1 mc1 p, basePart n .floating q = some p ∧ setBaseFromTail q m = .ok () m1 ∧
      At ls js m0 (cs ++ [.setBasePose p]) mc1 m1 ∧ Fresh m1 := by
  obtain ⟨x, y, z, r, p, w, hd⟩ := drop_six hq
  obtain ⟨m1, mc1, e, h1, h2⟩ := h.setBase (poseOfXyzrpy x y z r p w)
  refine ⟨m1, mc1, _, by simp only [basePart, hd]; rfl, ?_, h1, h2⟩
  unfold Tinyfk.setBaseFromTail
  rw [if_neg (by omega), hq, Nat.add_sub_cancel, hd]
  exact e

/-- the cache is dropped, or right and stays right -/
def CacheOk (ids : List Nat) (wb uc : Bool) (qs : List (List K)) (m : KinModel K) : Prop :=
  wb = true ∨ uc = false ∨ (Coherent m ∧ ∀ q ∈ qs, writeAngles ids q m.angles = .ok m.angles)

theorem setJointAnglesNC_angles {ids : List Nat} {q : List K} {m m1 : KinModel K} {u : Unit}
    (e : setJointAnglesNC ids q m = .ok u m1) :
    ∃ a, writeAngles ids q m.angles = .ok a ∧ m1 = { m with angles := a } := by
  unfold setJointAnglesNC at e
  split at e
  · next a ha => cases e; exact ⟨a, ha, rfl⟩
  all_goals cases e

/-- applying a configuration in a solver, cache dropped or base given or nothing moved -/
theorem At.applyConfig (h : At ls js m0 cs mc m) {ids : List Nat} {q : List K} {wb uc : Bool}
    (hi : ∀ i ∈ ids, i < m0.joints.length) (hq : q.length = ids.length + (wrapBase wb).dof)
    (hc : CacheOk ids wb uc [q] m) :
    ∃ m1 mc1, applyConfig ids wb uc q m = .ok () m1 ∧
      At ls js m0 (cs ++ configCalls ids (wrapBase wb) q) mc1 m1 ∧ Coherent m1 ∧
      (¬ (wb = true ∨ uc = false) → m1.angles = m.angles) := by
  obtain ⟨ma, mca, ea, ha, hca, hba⟩ := h.setNC (q := q) hi (by omega)
  have hcalls : configCalls ids (wrapBase false) q = [.setJointAngles ids (q.take ids.length)] := by
    simp [configCalls, wrapBase, basePart]
  cases wb with
  | false =>
    cases uc with
    | false =>
      obtain ⟨mb, eb, hb, hfr, _⟩ := ha.clear
      refine ⟨mb, mca, ?_, ?_, coherent_of_fresh hfr, by simp⟩
      · simp [Tinyfk.applyConfig, Prog.bind_apply, ea, eb]
      · rw [hcalls]; exact hb
    | true =>
      obtain ⟨hcoh, hw⟩ : Coherent m ∧ ∀ q' ∈ [q], writeAngles ids q' m.angles = .ok m.angles := by
        simpa [CacheOk] using hc
      obtain ⟨a, e1, rfl⟩ := setJointAnglesNC_angles ea
      rw [hw q (by simp)] at e1
      cases e1
      refine ⟨m, mca, ?_, ?_, hcoh, fun _ => rfl⟩
      · simp [Tinyfk.applyConfig, Prog.bind_apply, ea]
      · rw [hcalls]; exact ha
  | true =>
    obtain ⟨mb, mcb, p, hp, eb, hb, hfr⟩ := ha.setBaseFromTail (q := q) (n := ids.length)
      (by simpa [wrapBase, BaseType.dof] using hq)
    have hcc : cs ++ configCalls ids (wrapBase true) q =
        cs ++ [.setJointAngles ids (q.take ids.length)] ++ [.setBasePose p] := by
      simp [configCalls, wrapBase, hp]
    rw [hcc]
    cases uc with
    | true =>
      exact ⟨mb, mcb, by simp [Tinyfk.applyConfig, Prog.bind_apply, ea, eb], hb, coherent_of_fresh hfr, by simp⟩
    | false =>
      obtain ⟨md, ed, hd, hfr', _⟩ := hb.clear
      exact ⟨md, mcb, by simp [Tinyfk.applyConfig, Prog.bind_apply, ea, eb, ed], hd, coherent_of_fresh hfr', by simp⟩

theorem CacheOk.head {ids : List Nat} {wb uc : Bool} {q : List K} {qs : List (List K)} {m : KinModel K}
    (h : CacheOk ids wb uc (q :: qs) m) : CacheOk ids wb uc [q] m := by
  rcases h with h | h | ⟨h1, h2⟩
  · exact .inl h
  · exact .inr (.inl h)
  · exact .inr (.inr ⟨h1, fun x hx => h2 x (by simp at hx; simp [hx])⟩)

theorem CacheOk.tail {ids : List Nat} {wb uc : Bool} {q : List K} {qs : List (List K)} {m m1 : KinModel K}
    (h : CacheOk ids wb uc (q :: qs) m) (hc : Coherent m1)
    (ha : ¬ (wb = true ∨ uc = false) → m1.angles = m.angles) : CacheOk ids wb uc qs m1 := by
  by_cases hb : wb = true ∨ uc = false
  · exact hb.imp id .inl
  · rcases h with h | h | ⟨_, h2⟩
    · exact .inl h
    · exact .inr (.inl h)
    · exact .inr (.inr ⟨hc, fun x hx => by rw [ha hb]; exact h2 x (by simp [hx])⟩)

theorem CacheOk.of_or {ids : List Nat} {wb uc : Bool} {qs : List (List K)} {m : KinModel K}
    (h : wb = true ∨ uc = false) : CacheOk ids wb uc qs m := h.imp id .inl

/-! ### The pose matrix -/

theorem poseColumn_length (rt : RotType) (T : Pose K) : (poseColumn rt T).length = rt.dim := by
  cases rt <;> rfl

theorem Query.fkPoseLoop {m : KinModel K} (rt : RotType) (head0 : Nat) {es : List Nat} {Ts : List (Pose K)}
    (h : List.Forall₂ (IsPose m) es Ts) (j : Nat) (P : Mat K) (hr : P.rows = rt.dim)
    (hc : head0 + j + es.length ≤ P.cols) :
    ∃ P', Query m (fkPoseLoop rt head0 es j P) P' ∧ P'.rows = P.rows ∧ P'.cols = P.cols ∧
      (∀ r c, (c < head0 + j ∨ head0 + j + es.length ≤ c) → P'.f r c = P.f r c) ∧
      ∀ (k : Nat) T, Ts[k]? = some T → ∀ (r : Nat) v, (poseColumn rt T)[r]? = some v →
        P'.f r (head0 + j + k) = v := by
  induction h generalizing j P with
  | nil =>
    refine ⟨P, Query.pure _ _, rfl, rfl, fun _ _ _ => rfl, ?_⟩
    intro k T hk; simp at hk
  | @cons l T es Ts hT _ ih =>
    simp only [List.length_cons] at hc
    have hset := Mat.setCol_spec P 0 (head0 + j) (poseColumn rt T)
      (by rw [poseColumn_length, hr]; omega) (by omega)
    generalize hP1 : (⟨P.rows, P.cols, fun a b => if b = head0 + j ∧ 0 ≤ a ∧ a < 0 + (poseColumn rt T).length then
        (poseColumn rt T).getD (a - 0) 0 else P.f a b⟩ : Mat K) = P1 at hset
    have hP1r : P1.rows = P.rows := by rw [← hP1]
    have hP1c : P1.cols = P.cols := by rw [← hP1]
    obtain ⟨P', hq, h1, h2, h3, h4⟩ := ih (j + 1) P1 (hP1r.trans hr) (by omega)
    refine ⟨P', ?_, h1.trans hP1r, h2.trans hP1c, ?_, ?_⟩
    · unfold Tinyfk.fkPoseLoop
      exact (Query.getLinkPose hT).bind ((Query.lift hset).bind hq)
    · intro r c hcc
      simp only [List.length_cons] at hcc
      rw [h3 r c (by omega), ← hP1]
      simp only
      rw [if_neg (by omega)]
    · intro k T' hk r v hv
      cases k with
      | zero =>
        simp only [List.getElem?_cons_zero, Option.some.injEq] at hk
        subst hk
        rw [Nat.add_zero, h3 r _ (by omega), ← hP1]
        simp only
        have hrl : r < (poseColumn rt T).length := (List.getElem?_eq_some_iff.mp hv).1
        rw [if_pos ⟨trivial, by omega, by omega⟩]
        simp [hv]
      | succ k =>
        simp only [List.getElem?_cons_succ] at hk
        have := h4 k T' hk r v hv
        rw [show head0 + j + (k + 1) = head0 + (j + 1) + k by omega]
        exact this

/-! ### The Jacobian -/

theorem Mat.setBlock_ok (M : Mat K) (i j : Nat) (B : Mat K) (h1 : i + B.rows ≤ M.rows) (h2 : j + B.cols ≤ M.cols) :
    M.setBlock i j B = .ok { M with f := fun a b =>
      if i ≤ a ∧ a < i + B.rows ∧ j ≤ b ∧ b < j + B.cols then B.f (a - i) (b - j) else M.f a b } := by
  unfold Mat.setBlock; rw [if_pos ⟨h1, h2⟩]

theorem Query.fkJacLoop {m : KinModel K} (rt : RotType) (ids : List Nat) (wb : Bool) (nDof head0 : Nat)
    {es : List Nat} {Bs : List (Mat K)}
    (h : List.Forall₂ (fun l B => Query m (Tinyfk.getJacobian l ids rt wb) B ∧ B.rows = rt.dim ∧
      B.cols = nDof) es Bs) (j : Nat) (J : Mat K)
    (hr : head0 + (j + es.length) * rt.dim ≤ J.rows) (hc : J.cols = nDof) :
    ∃ J', Query m (fkJacLoop rt ids wb head0 es j J) J' ∧ J'.rows = J.rows ∧ J'.cols = J.cols ∧
      (∀ r c, (r < head0 + j * rt.dim ∨ head0 + (j + es.length) * rt.dim ≤ r) → J'.f r c = J.f r c) ∧
      ∀ (k : Nat) B, Bs[k]? = some B → ∀ r c, r < rt.dim → c < nDof →
        J'.f (head0 + (j + k) * rt.dim + r) c = B.f r c := by
  induction h generalizing j J with
  | nil =>
    refine ⟨J, Query.pure _ _, rfl, rfl, fun _ _ _ => rfl, ?_⟩
    intro k T hk; simp at hk
  | @cons l B es Bs hB _ ih =>
    obtain ⟨hq0, hBr, hBc⟩ := hB
    simp only [List.length_cons] at hr
    have e1 : (j + (es.length + 1)) * rt.dim = j * rt.dim + rt.dim + es.length * rt.dim := by ring
    have e2 : (j + 1 + es.length) * rt.dim = j * rt.dim + rt.dim + es.length * rt.dim := by ring
    have e3 : (j + 1) * rt.dim = j * rt.dim + rt.dim := by ring
    have hset := Mat.setBlock_ok J (head0 + j * rt.dim) 0 B
      (by rw [hBr]; rw [e1] at hr; omega) (by omega)
    generalize hJ1 : (⟨J.rows, J.cols, fun a b =>
      if head0 + j * rt.dim ≤ a ∧ a < head0 + j * rt.dim + B.rows ∧ 0 ≤ b ∧ b < 0 + B.cols then
        B.f (a - (head0 + j * rt.dim)) (b - 0) else J.f a b⟩ : Mat K) = J1 at hset
    have hJ1r : J1.rows = J.rows := by rw [← hJ1]
    have hJ1c : J1.cols = J.cols := by rw [← hJ1]
    obtain ⟨J', hq, h1, h2, h3, h4⟩ := ih (j + 1) J1
      (by rw [e1] at hr; rw [e2]; omega) (hJ1c.trans hc)
    refine ⟨J', ?_, h1.trans hJ1r, h2.trans hJ1c, ?_, ?_⟩
    · unfold Tinyfk.fkJacLoop
      exact hq0.bind ((Query.lift hset).bind hq)
    · intro r c hcc
      simp only [List.length_cons] at hcc
      rw [e1] at hcc
      rw [h3 r c (by rw [e2, e3]; omega), ← hJ1]
      simp only
      rw [if_neg (by rw [hBr]; omega)]
    · intro k B' hk r c hrd hcd
      cases k with
      | zero =>
        simp only [List.getElem?_cons_zero, Option.some.injEq] at hk
        subst hk
        rw [Nat.add_zero, h3 _ _ (by rw [e3]; omega), ← hJ1]
        simp only
        rw [if_pos ⟨by omega, by rw [hBr]; omega, by omega, by omega⟩]
        congr 1
        omega
      | succ k =>
        simp only [List.getElem?_cons_succ] at hk
        have := h4 k B' hk r c hrd hcd
        rw [show j + (k + 1) = j + 1 + k by omega]
        exact this

/-- the Jacobian as a query on a reached state -/
theorem Reach.jacQuery (h : Reach ls js m0 cs mc)
    (hne : (∃ r ∈ ls, r.inertial.isSome) ∨ weldsAfter (names0 m0) cs ≠ [])
    {l : Nat} (hl : l < mc.links.length) {ids : List Nat} (hi : ∀ i ∈ ids, i < m0.joints.length)
    (rt : RotType) (wb : Bool) : ∃ B, Query mc (getJacobian l ids rt wb) B ∧ B.rows = rt.dim ∧
      B.cols = ids.length + (wrapBase wb).dof := by
  obtain ⟨tfE, hE⟩ := h.abs.inv.exists_pose hl
  obtain ⟨cols, hc⟩ := (h.rpOK hne).exists_cols h.abs.inv.graph rt hl
    (ids := ids) (by rw [h.abs.joints]; exact hi) tfE
  refine ⟨_, Query.getJacobian hE hc wb (fun _ => h.root_pose), rfl, ?_⟩
  have := hc.length_eq
  cases wb <;> simp [jacMat, wrapBase, BaseType.dof, this]

/-- What a solver knows about one configuration: `mc` is the robot with exactly this
configuration set, and row and block of links `es` are those of pose and Jacobian queries on it. -/
def FkBlock (mc : KinModel K) (rt : RotType) (ids : List Nat) (wb wj : Bool) (es : List Nat)
    (i : Nat) (P J : Mat K) : Prop :=
  ∀ (j l : Nat), es[j]? = some l →
    (∃ T m', getLinkPose l mc = .ok T m' ∧ ∀ (r : Nat) v, (poseColumn rt T)[r]? = some v →
      P.f r (i * es.length + j) = v) ∧
    (wj = true → ∃ B m', getJacobian l ids rt wb mc = .ok B m' ∧ B.rows = rt.dim ∧
      B.cols = ids.length + (wrapBase wb).dof ∧
      ∀ r c, r < rt.dim → c < ids.length + (wrapBase wb).dof →
        J.f ((i * es.length + j) * rt.dim + r) c = B.f r c)

/-- One configuration of `solve_forward_kinematics` after it has been applied. -/
theorem Reach.fkBlock (h : Reach ls js m0 cs mc) (hf : Shallow ls js m0 cs) {rt : RotType} {ids es : List Nat}
    {wb wj : Bool} (hi : ∀ i ∈ ids, i < m0.joints.length) (he : ∀ l ∈ es, l < mc.links.length)
    (hne : wj = true → (∃ r ∈ ls, r.inertial.isSome) ∨ weldsAfter (names0 m0) cs ≠ [])
    (i n : Nat) (hin : i < n) (P J : Mat K) (hPr : P.rows = rt.dim) (hPc : P.cols = n * es.length)
    (hJr : J.rows = n * es.length * rt.dim) (hJc : J.cols = ids.length + (wrapBase wb).dof) :
    ∃ P' J', Query mc (Tinyfk.fkPoseLoop rt (i * es.length) es 0 P) P' ∧
      Query mc (if wj then Tinyfk.fkJacLoop rt ids wb (i * (es.length * rt.dim)) es 0 J else Pure.pure J) J' ∧
      P'.rows = P.rows ∧ P'.cols = P.cols ∧ J'.rows = J.rows ∧ J'.cols = J.cols ∧
      (∀ r c, c < i * es.length → P'.f r c = P.f r c) ∧
      (∀ r c, r < i * es.length * rt.dim → J'.f r c = J.f r c) ∧
      (wj = false → J' = J) ∧
      FkBlock mc rt ids wb wj es i P' J' := by
  have hr := h.ready hf
  have hle : (i + 1) * es.length ≤ n * es.length := Nat.mul_le_mul_right _ hin
  have hle' : (i + 1) * es.length * rt.dim ≤ n * es.length * rt.dim := Nat.mul_le_mul_right _ hle
  have ea : (i + 1) * es.length = i * es.length + es.length := by ring
  have eb : (i + 1) * es.length * rt.dim = i * (es.length * rt.dim) + es.length * rt.dim := by ring
  obtain ⟨Ts, hTs⟩ := forall₂_exists (R := IsPose mc) es fun l hl => h.abs.inv.exists_pose (he l hl)
  obtain ⟨P', hqP, p1, p2, p3, p4⟩ := Query.fkPoseLoop rt (i * es.length) hTs 0 P hPr (by omega)
  have hpose : ∀ (j l : Nat), es[j]? = some l → ∃ T m', getLinkPose l mc = .ok T m' ∧
      ∀ (r : Nat) v, (poseColumn rt T)[r]? = some v → P'.f r (i * es.length + j) = v := by
    intro j l hjl
    have hlt := (List.getElem?_eq_some_iff.mp hjl).1
    have hlt' : j < Ts.length := by rw [← hTs.length_eq]; exact hlt
    have hT : IsPose mc l Ts[j] := by
      have := (List.forall₂_iff_get.mp hTs).2 j hlt hlt'
      have e : es.get ⟨j, hlt⟩ = l := (List.getElem?_eq_some_iff.mp hjl).2
      rw [e] at this; exact this
    obtain ⟨m', e, _⟩ := (Query.getLinkPose hT).run hr
    refine ⟨_, m', e, fun r v hv => ?_⟩
    have := p4 j _ (List.getElem?_eq_getElem hlt') r v hv
    simpa using this
  cases wj with
  | false =>
    refine ⟨P', J, hqP, by simpa using Query.pure mc J, p1, p2, rfl, rfl, ?_, fun _ _ _ => rfl, fun _ => rfl, ?_⟩
    · intro r c hc; exact p3 r c (by omega)
    · intro j l hjl
      exact ⟨hpose j l hjl, by simp⟩
  | true =>
    have hB : ∃ Bs, List.Forall₂ (fun l B => Query mc (Tinyfk.getJacobian l ids rt wb) B ∧ B.rows = rt.dim ∧
        B.cols = ids.length + (wrapBase wb).dof) es Bs :=
      forall₂_exists es fun l hl => h.jacQuery (hne rfl) (he l hl) hi rt wb
    obtain ⟨Bs, hBs⟩ := hB
    obtain ⟨J', hqJ, j1, j2, j3, j4⟩ := Query.fkJacLoop rt ids wb _ (i * (es.length * rt.dim)) hBs 0 J
      (by rw [hJr, Nat.zero_add]; omega) hJc
    refine ⟨P', J', hqP, by simpa using hqJ, p1, p2, j1, j2, ?_, ?_, by simp, ?_⟩
    · intro r c hc; exact p3 r c (by omega)
    · intro r c hc
      refine j3 r c (Or.inl ?_)
      rw [Nat.mul_assoc] at hc; omega
    · intro j l hjl
      refine ⟨hpose j l hjl, fun _ => ?_⟩
      have hlt := (List.getElem?_eq_some_iff.mp hjl).1
      have hlt' : j < Bs.length := by rw [← hBs.length_eq]; exact hlt
      have hT : Query mc (Tinyfk.getJacobian l ids rt wb) Bs[j] ∧ Bs[j].rows = rt.dim ∧
          Bs[j].cols = ids.length + (wrapBase wb).dof := by
        have := (List.forall₂_iff_get.mp hBs).2 j hlt hlt'
        have e : es.get ⟨j, hlt⟩ = l := (List.getElem?_eq_some_iff.mp hjl).2
        rw [e] at this; exact this
      obtain ⟨m', e, _⟩ := hT.1.run hr
      refine ⟨_, m', e, hT.2.1, hT.2.2, fun r c hr hc => ?_⟩
      have := j4 j _ (List.getElem?_eq_getElem hlt') r c hr hc
      rw [← this]
      congr 1
      ring

/-- The loop of `solve_forward_kinematics` over the configurations. -/
theorem At.fkLoop {rt : RotType} {ids es : List Nat} {wb wj uc : Bool}
    (hi : ∀ i ∈ ids, i < m0.joints.length) (n : Nat) (qs : List (List K))
    {cs : List (Call K)} {mc m : KinModel K} (hc : CacheOk ids wb uc qs m) (h : At ls js m0 cs mc m) (hf : Shallow ls js m0 cs)
    (he : ∀ l ∈ es, l < (linksAfter (names0 m0) cs).length)
    (hne : wj = true → (∃ r ∈ ls, r.inertial.isSome) ∨ weldsAfter (names0 m0) cs ≠ [])
    (hq : ∀ q ∈ qs, q.length = ids.length + (wrapBase wb).dof)
    (i : Nat) (hin : i + qs.length = n) (P J : Mat K) (hPr : P.rows = rt.dim) (hPc : P.cols = n * es.length)
    (hJr : J.rows = n * es.length * rt.dim) (hJc : J.cols = ids.length + (wrapBase wb).dof) :
    ∃ P' J' m' mc', Tinyfk.fkLoop es ids rt wb wj uc qs i P J m = .ok (P', J') m' ∧
      At ls js m0 (cs ++ batchCalls ids (wrapBase wb) qs) mc' m' ∧
      P'.rows = P.rows ∧ P'.cols = P.cols ∧ J'.rows = J.rows ∧ J'.cols = J.cols ∧
      (∀ r c, c < i * es.length → P'.f r c = P.f r c) ∧
      (∀ r c, r < i * es.length * rt.dim → J'.f r c = J.f r c) ∧
      (wj = false → J' = J) ∧ (qs ≠ [] → Coherent m') ∧
      ∀ k < qs.length, ∃ mk, Reach ls js m0 (cs ++ batchCalls ids (wrapBase wb) (qs.take (k + 1))) mk ∧
        FkBlock mk rt ids wb wj es (i + k) P' J' := by
  induction qs generalizing cs mc m i P J with
  | nil =>
    refine ⟨P, J, m, mc, rfl, by simpa [batchCalls] using h, rfl, rfl, rfl, rfl, fun _ _ _ => rfl,
      fun _ _ _ => rfl, fun _ => rfl, fun hn => absurd rfl hn, ?_⟩
    intro k hk; simp at hk
  | cons q qs ih =>
    simp only [List.length_cons] at hin
    obtain ⟨m1, mc1, e1, h1, hcoh, hang⟩ := h.applyConfig hi (hq q (by simp)) hc.head
    have hset := configCalls_isSet ids (wrapBase wb) q
    have hf1 := hf.sets hset
    have hr1 := h1.ready_coh hf1 hcoh
    have hne1 : wj = true → (∃ r ∈ ls, r.inertial.isSome) ∨
        weldsAfter (names0 m0) (cs ++ configCalls ids (wrapBase wb) q) ≠ [] := by
      rw [welds_sets _ hset]; exact hne
    have he1 : ∀ l ∈ es, l < (linksAfter (names0 m0) (cs ++ configCalls ids (wrapBase wb) q)).length := by
      rw [links_sets _ hset]; exact he
    obtain ⟨P1, J1, qP, qJ, a1, a2, a3, a4, a5, a6, a7, a8⟩ := Reach.fkBlock (rt := rt) (wb := wb) (wj := wj)
      h1.reach hf1 hi
      (by intro l hl; rw [← h1.links, h1.nlinks]; exact he1 l hl) hne1 i n (by omega) P J hPr hPc hJr hJc
    obtain ⟨m2, e2, h2, hr2⟩ := h1.query hr1 qP
    obtain ⟨m3, e3, h3, hr3⟩ := h2.query hr2 qJ
    have hang3 : ¬ (wb = true ∨ uc = false) → m3.angles = m.angles := by
      intro hb
      rw [← hang hb]
      obtain ⟨⟨st, c, hst⟩, _⟩ := h3.same
      obtain ⟨⟨st', c', hst'⟩, _⟩ := h1.same
      rw [hst, hst']
    obtain ⟨P2, J2, m4, mc4, e4, h4, b1, b2, b3, b4, b5, b6, b7, b9, b8⟩ := ih (hc.tail hr3.coh hang3) h3 hf1 he1 hne1
      (fun x hx => hq x (by simp [hx])) (i + 1) (by omega) P1 J1 (a1.trans hPr) (a2.trans hPc)
      (a3.trans hJr) (a4.trans hJc)
    have hlift : FkBlock mc1 rt ids wb wj es i P2 J2 := by
      intro j l hjl
      have hlt := (List.getElem?_eq_some_iff.mp hjl).1
      obtain ⟨⟨T, m', c1, c2⟩, c3⟩ := a8 j l hjl
      have hlt1 : i * es.length + j < (i + 1) * es.length := by
        have : (i + 1) * es.length = i * es.length + es.length := by ring
        omega
      refine ⟨⟨T, m', c1, fun r v hv => ?_⟩, fun hw => ?_⟩
      · rw [b5 r _ hlt1]; exact c2 r v hv
      · obtain ⟨B, m'', d1, d2, d3, d4⟩ := c3 hw
        refine ⟨B, m'', d1, d2, d3, fun r c hr hc => ?_⟩
        rw [b6 _ c ?_]; · exact d4 r c hr hc
        calc (i * es.length + j) * rt.dim + r < (i * es.length + j) * rt.dim + rt.dim := by omega
          _ = (i * es.length + j + 1) * rt.dim := by ring
          _ ≤ (i + 1) * es.length * rt.dim := Nat.mul_le_mul_right _ hlt1
    refine ⟨P2, J2, m4, mc4, ?_, ?_, b1.trans a1, b2.trans a2, b3.trans a3, b4.trans a4, ?_, ?_, ?_, ?_, ?_⟩
    · simp only [Tinyfk.fkLoop, Prog.bind_apply, e1, e2]
      cases wj with
      | false =>
        simp only [Bool.false_eq_true, if_false, Prog.pure_apply, Res.ok.injEq] at e3
        obtain ⟨rfl, rfl⟩ := e3
        simpa [Prog.bind_apply] using e4
      | true =>
        simp only [if_true] at e3
        simp only [if_true, Prog.bind_apply, e3, e4]
    · simpa [batchCalls, List.append_assoc] using h4
    · intro r c hcl
      have : i * es.length ≤ (i + 1) * es.length := Nat.mul_le_mul_right _ (by omega)
      rw [b5 r c (by omega), a5 r c hcl]
    · intro r c hcl
      have : i * es.length * rt.dim ≤ (i + 1) * es.length * rt.dim :=
        Nat.mul_le_mul_right _ (Nat.mul_le_mul_right _ (by omega))
      rw [b6 r c (by omega), a6 r c hcl]
    · intro hw; rw [b7 hw, a7 hw]
    · intro _
      cases qs with
      | nil => cases e4; exact hr3.coh
      | cons => exact b9 (by simp)
    · intro k hk
      cases k with
      | zero =>
        refine ⟨mc1, ?_, by simpa using hlift⟩
        simpa [batchCalls] using h1.reach
      | succ k =>
        simp only [List.length_cons] at hk
        obtain ⟨mk, hmk, hB⟩ := b8 k (by omega)
        refine ⟨mk, ?_, ?_⟩
        · simpa [batchCalls, List.append_assoc] using hmk
        · rw [show i + (k + 1) = i + 1 + k by omega]; exact hB

end Tinyfk
