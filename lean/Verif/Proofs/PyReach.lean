import Verif.Proofs.Frozen
import Verif.Props.Links

/-!
# What Python calls leave behind

Every Python call that returns leaves the robot where its effect says, up to cache and stack;
a call that raises leaves angles, base and links as they were.
-/

set_option linter.unusedSectionVars false

namespace Tinyfk

open Scalar

variable {K : Type} [Scalar K] {α β : Type}
  {ls : List (RawLink K)} {js : List (RawJoint K)} {m0 : KinModel K} {cs : List (Call K)} {mc m : KinModel K}

theorem writeAngles_valid {ids : List Nat} {vals a a' : List K} (h : writeAngles ids vals a = .ok a') :
    (∀ i ∈ ids, i < a.length) ∧ ids.length ≤ vals.length := by
  induction ids generalizing vals a with
  | nil => simp
  | cons i ids ih =>
    cases vals with
    | nil => cases h
    | cons v vals =>
      simp only [writeAngles] at h
      split at h
      · rename_i hi
        obtain ⟨h1, h2⟩ := ih h
        refine ⟨?_, by simpa using h2⟩
        intro x hx
        rcases List.mem_cons.mp hx with rfl | hx
        · exact hi
        · simpa using h1 x hx
      · cases h

theorem writeAngles_noExn (ids : List Nat) (vals a : List K) : (writeAngles ids vals a).NoExn := by
  induction ids generalizing vals a with
  | nil => exact .ok _
  | cons i ids ih =>
    cases vals with
    | nil => exact .ub _
    | cons v vals => exact .ite (ih _ _) (.ub _)

/-- `p` never throws and, when it returns, has the effect `eff`. -/
def Does (ls : List (RawLink K)) (js : List (RawJoint K)) (m0 : KinModel K)
    (p : Prog (KinModel K) α) (eff : List (Call K)) : Prop :=
  ∀ cs mc m, At ls js m0 cs mc m → match p m with
    | .ok _ m' => ∃ mc', At ls js m0 (cs ++ eff) mc' m'
    | .exn _ _ => False
    | .ub _ => True
    | .hang => True

theorem At.tree (h : At ls js m0 cs mc m) : Tree m := by
  obtain ⟨⟨st, c, rfl⟩, _⟩ := h.same
  exact Tree.congr (m := mc) rfl rfl rfl h.reach.abs.inv.graph.tree

theorem At.graph (h : At ls js m0 cs mc m) : Graph m := by
  obtain ⟨⟨st, c, rfl⟩, _⟩ := h.same
  exact Graph.congr (m := mc) (SameShape.of_links rfl) rfl rfl rfl rfl rfl rfl rfl h.reach.abs.inv.graph

theorem At.ext (h : At ls js m0 cs mc m) {m' : KinModel K} (he : Ext m m') : At ls js m0 cs mc m' :=
  ⟨h.reach, h.same.trans he.same, he.sized h.sized⟩

theorem rpLoop_congr {m m' : KinModel K} (h1 : m'.jheap = m.jheap) (h2 : m'.jointIds = m.jointIds)
    (h3 : m'.links = m.links) (l : List Nat) (t : RpTable) : rpLoop m' l t = rpLoop m l t := by
  induction l generalizing t with
  | nil => rfl
  | cons a l ih =>
    simp only [rpLoop, derefJoint, h1, h2, h3, ih]

theorem updateRptable_cache {m : KinModel K} {t : RpTable}
    (h : updateRptable m = .ok () { m with rptable := t }) (st : SizedStack (LinkIdAndTransform K))
    (c : SizedCache (Pose K)) : updateRptable { m with stack := st, cache := c } =
      .ok () { m with rptable := t, stack := st, cache := c } := by
  unfold updateRptable at h ⊢
  simp only [rpLoop_congr (m := m) (m' := { m with stack := st, cache := c }) rfl rfl rfl]
  cases hr : rpLoop m m.joints (RpTable.mk' m.linkIds.length m.jointIds.length) with
  | ok t' =>
    rw [hr] at h
    simp only [Res.ok.injEq, true_and] at h
    have : t' = t := congrArg KinModel.rptable h
    rw [this]
  | exn x => rw [hr] at h; cases h
  | ub u => rw [hr] at h; cases h
  | hang => rw [hr] at h; cases h

theorem At.addLink (h : At ls js m0 cs mc m) {name : String} {parent : Nat} {o : Pose K}
    (hn : m.linkIds.find name = none) (hp : parent < m.links.length) :
    ∃ mc' m', addNewLink name parent o m = .ok m.links.length m' ∧
      At ls js m0 (cs ++ [.addNewLink name parent o]) mc' m' := by
  obtain ⟨⟨st, c, rfl⟩, hcap⟩ := h.same
  obtain ⟨t, e, _⟩ := h.reach.abs.inv.addNewLink name parent o hn hp
  obtain ⟨_, _, _, _, _, _, _, hr⟩ := h.reach.addLink_eq e
  refine ⟨_, { attached { mc with stack := st, cache := c } name parent o with rptable := t }, ?_, hr, ?_, ?_⟩
  · have e1 : addNewLink name parent o mc =
        Prog.bind updateRptable (fun _ => Prog.pure mc.links.length) (attached mc name parent o) := by
      simp only [Tinyfk.addNewLink, hn]
      rw [if_pos hp]; rfl
    have e2 : addNewLink name parent o { mc with stack := st, cache := c } =
        Prog.bind updateRptable (fun _ => Prog.pure mc.links.length)
          (attached { mc with stack := st, cache := c } name parent o) := by
      simp only [Tinyfk.addNewLink, hn]
      rw [if_pos hp]; rfl
    rw [e2]
    rw [e1] at e
    have hu : updateRptable (attached mc name parent o) =
        .ok () { attached mc name parent o with rptable := t } := by
      simp only [Prog.bind] at e
      cases hu : updateRptable (attached mc name parent o) with
      | ok a m1 =>
        rw [hu] at e
        simp only [Prog.pure, Res.ok.injEq, true_and] at e
        rw [e]
      | exn x m1 => rw [hu] at e; cases e
      | ub u => rw [hu] at e; cases e
      | hang => rw [hu] at e; cases e
    have := updateRptable_cache hu st (c.extend Pose.identity)
    show Prog.bind updateRptable (fun _ => Prog.pure mc.links.length)
      { attached mc name parent o with stack := st, cache := c.extend Pose.identity } = _
    simp only [Prog.bind, this]
    rfl
  · exact ⟨⟨st, c.extend Pose.identity, rfl⟩, hcap⟩
  · have := cacheSized_attached h.sized name parent o
    exact ⟨this.size, this.pred, this.data⟩

theorem Does.stays {p : Prog (KinModel K) α} (h : Stays p) : Does ls js m0 p [] := by
  intro cs mc m ha
  have := h m ha.tree
  cases hp : p m with
  | ok a m' => rw [hp] at this; exact ⟨mc, by simpa using ha.ext this⟩
  | exn e m' => rw [hp] at this; exact this
  | ub u => trivial
  | hang => trivial

theorem Does.bind {p : Prog (KinModel K) α} {f : α → Prog (KinModel K) β} {e1 e2 : List (Call K)}
    (h : Does ls js m0 p e1) (h' : ∀ a, Does ls js m0 (f a) e2) : Does ls js m0 (p >>= f) (e1 ++ e2) := by
  intro cs mc m ha
  have h1 := h cs mc m ha
  rw [Prog.bind_apply]
  cases hp : p m with
  | ok a m1 =>
    rw [hp] at h1
    obtain ⟨mc1, h1⟩ := h1
    have h2 := h' a _ _ _ h1
    simp only
    cases hq : f a m1 with
    | ok b m2 => rw [hq] at h2; simpa using h2
    | exn e m2 => rw [hq] at h2; exact h2
    | ub u => trivial
    | hang => trivial
  | exn e m1 => rw [hp] at h1; exact h1
  | ub u => trivial
  | hang => trivial

theorem Does.pure (a : α) : Does ls js m0 (Pure.pure a) [] := .stays (.pure a)

theorem Does.ite {c : Prop} [Decidable c] {p q : Prog (KinModel K) α} {e : List (Call K)}
    (hp : Does ls js m0 p e) (hq : Does ls js m0 q e) : Does ls js m0 (if c then p else q) e := by
  split <;> assumption

theorem Does.setNC (ids : List Nat) (q : List K) :
    Does ls js m0 (setJointAnglesNC ids q) [.setJointAngles ids (q.take ids.length)] := by
  intro cs mc m ha
  cases hw : writeAngles ids q m.angles with
  | ok a =>
    obtain ⟨h1, h2⟩ := writeAngles_valid hw
    have hlen : m.angles.length = m0.joints.length := by
      rw [ha.graph.anglesLen, ha.joints]
    rw [hlen] at h1
    obtain ⟨m1, mc1, e, h3, _⟩ := ha.setNC h1 h2
    rw [e]
    exact ⟨mc1, h3⟩
  | exn e => exact absurd hw (writeAngles_noExn _ _ _ e)
  | ub u => simp [setJointAnglesNC, hw]
  | hang => simp [setJointAnglesNC, hw]

theorem Does.clear : Does ls js m0 (clearCache : Prog (KinModel K) Unit) [] := by
  intro cs mc m ha
  obtain ⟨m1, e, h, _⟩ := ha.clear
  rw [e]
  exact ⟨mc, by simpa using h⟩

theorem Does.setBase (p : Pose K) : Does ls js m0 (setBasePose p) [.setBasePose p] := by
  intro cs mc m ha
  obtain ⟨m1, mc1, e, h, _⟩ := ha.setBase p
  rw [e]
  exact ⟨mc1, h⟩

theorem Does.setBaseFromTail {q : List K} {n : Nat} (hq : q.length = n + 6) :
    ∃ p, basePart n .floating q = some p ∧ Does ls js m0 (setBaseFromTail q) [.setBasePose p] := by
  obtain ⟨x, y, z, r, p, w, hd⟩ := drop_six hq
  refine ⟨⟨⟨x, y, z⟩, Rot.fromRPY r p w⟩, by simp only [basePart, hd], ?_⟩
  have : Tinyfk.setBaseFromTail q = setBasePose (poseOfXyzrpy x y z r p w) := by
    unfold Tinyfk.setBaseFromTail
    rw [if_neg (by omega), hq, Nat.add_sub_cancel, hd]
  rw [this]
  exact .setBase _

/-- the joint angles and base of one configuration -/
theorem Does.config {ids : List Nat} {q : List K} {wb : Bool} {p : Prog (KinModel K) α}
    {e : List (Call K)}
    (hq : q.length = ids.length + (wrapBase wb).dof) (hp : Does ls js m0 p e) :
    Does ls js m0 (setJointAnglesNC ids q >>= fun _ => if wb then Tinyfk.setBaseFromTail q >>= fun _ => p else p)
      (configCalls ids (wrapBase wb) q ++ e) := by
  cases wb with
  | false =>
    have : configCalls ids (wrapBase false) q = [.setJointAngles ids (q.take ids.length)] := by
      simp [configCalls, wrapBase, basePart]
    rw [this]
    exact .bind (.setNC _ _) fun _ => by simpa using hp
  | true =>
    obtain ⟨b, hb, hd⟩ := Does.setBaseFromTail (ls := ls) (js := js) (m0 := m0) (q := q) (n := ids.length)
      (by simpa [wrapBase, BaseType.dof] using hq)
    have : configCalls ids (wrapBase true) q ++ e =
        [.setJointAngles ids (q.take ids.length)] ++ ([.setBasePose b] ++ e) := by
      simp [configCalls, wrapBase, hb]
    rw [this]
    refine .bind (.setNC _ _) fun _ => ?_
    simp only [if_true]
    exact .bind hd fun _ => hp

theorem Does.applyConfig {ids : List Nat} {q : List K} {wb uc : Bool}
    (hq : q.length = ids.length + (wrapBase wb).dof) :
    Does ls js m0 (applyConfig ids wb uc q) (configCalls ids (wrapBase wb) q) := by
  have := Does.config (ls := ls) (js := js) (m0 := m0) (ids := ids) (q := q) (wb := wb) hq
    (p := if uc then Pure.pure () else clearCache) (.ite (.pure ()) .clear)
  rw [List.append_nil] at this
  have e : Tinyfk.applyConfig ids wb uc q = (setJointAnglesNC ids q >>= fun _ =>
      if wb then Tinyfk.setBaseFromTail q >>= fun _ => (if uc then Pure.pure () else clearCache)
      else (if uc then Pure.pure () else clearCache)) := by
    cases wb <;> cases uc <;> rfl
  rw [e]
  exact this

theorem batchCalls_cons (ids : List Nat) (bt : BaseType) (q : List K) (qs : List (List K)) :
    batchCalls ids bt (q :: qs) = configCalls ids bt q ++ batchCalls ids bt qs := rfl

theorem Does.fkLoop (es ids : List Nat) (rt : RotType) (wb wj uc : Bool) (qs : List (List K))
    (hq : ∀ q ∈ qs, q.length = ids.length + (wrapBase wb).dof) (i : Nat) (P J : Mat K) :
    Does ls js m0 (fkLoop es ids rt wb wj uc qs i P J) (batchCalls ids (wrapBase wb) qs) := by
  induction qs generalizing i P J with
  | nil => exact .pure _
  | cons q qs ih =>
    rw [batchCalls_cons]
    unfold Tinyfk.fkLoop
    refine .bind (.applyConfig (hq q (by simp))) fun _ => ?_
    refine .bind (e1 := []) (.stays (.fkPoseLoop _ _ _ _ _)) fun _ => ?_
    cases wj
    · exact ih (fun q h => hq q (by simp [h])) _ _ _
    · exact .bind (e1 := []) (.stays (.fkJacLoop _ _ _ _ _ _ _)) fun _ =>
        ih (fun q h => hq q (by simp [h])) _ _ _

theorem Does.distFkLoop (ids l1 l2 : List Nat) (wb wg uc : Bool) (nJ : Nat) (qs : List (List K))
    (hq : ∀ q ∈ qs, q.length = ids.length + (wrapBase wb).dof) (i : Nat) (D G : Mat K) :
    Does ls js m0 (distFkLoop ids l1 l2 wb wg uc nJ qs i D G) (batchCalls ids (wrapBase wb) qs) := by
  induction qs generalizing i D G with
  | nil => exact .pure _
  | cons q qs ih =>
    rw [batchCalls_cons]
    exact .bind (.applyConfig (hq q (by simp))) fun _ => .bind (e1 := []) (.stays (.distLoop _ _ _ _ _ _ _ _ _ _))
      fun _ => ih (fun q h => hq q (by simp [h])) _ _ _

theorem Stays.comRow (ids al : List Nat) (fs : List K) (wb wj : Bool) (nDof i : Nat) (C J : Mat K) :
    Stays (comRow ids al fs wb wj nDof i C J) := by
  have key : ∀ C J, Stays (if al.length > 0 then (do
      let (s, C, J) ← Tinyfk.actionLoop ids wb wj fs i nDof al 0 1 C J
      let C ← Prog.lift (C.mapBlock 0 i 3 1 (· / s))
      let J ← if wj then Prog.lift (J.mapBlock (3 * i) 0 3 nDof (· / s)) else Pure.pure J
      Pure.pure (C, J))
      else Pure.pure (C, J) : Prog (KinModel K) (Mat K × Mat K)) := by
    intro C J
    by_cases hal : al.length > 0
    · simp only [hal, if_true]
      refine .bind (.actionLoop _ _ _ _ _ _ _ _ _ _ _) fun x => ?_
      refine .bind (.lift (Mat.noExn_mapBlock _ _ _ _ _ _)) fun _ => ?_
      cases wj
      · exact .pure _
      · exact .bind (.lift (Mat.noExn_mapBlock _ _ _ _ _ _)) fun _ => .pure _
    · simp only [hal, if_false]
      exact .pure _
  unfold Tinyfk.comRow
  refine .bind .getCom fun _ => .bind (.lift (Mat.noExn_setCol _ _ _ _)) fun _ => ?_
  cases wj
  · exact key _ _
  · exact .bind (.getComJacobian _ _) fun _ => .bind (.lift (Mat.noExn_setBlock _ _ _ _)) fun _ => key _ _

theorem Does.comFkLoop (ids al : List Nat) (fs : List K) (wb wj : Bool) (nDof : Nat) (qs : List (List K))
    (hq : ∀ q ∈ qs, q.length = ids.length + (wrapBase wb).dof) (i : Nat) (C J : Mat K) :
    Does ls js m0 (comFkLoop ids al fs wb wj nDof qs i C J) (batchCalls ids (wrapBase wb) qs) := by
  induction qs generalizing i C J with
  | nil => exact .pure _
  | cons q qs ih =>
    rw [batchCalls_cons]
    have ih' := ih (fun q h => hq q (by simp [h]))
    unfold Tinyfk.comFkLoop
    have main : Does ls js m0 (do
        let CJ ← Tinyfk.comRow ids al fs wb wj nDof i C J
        Tinyfk.comFkLoop ids al fs wb wj nDof qs (i + 1) CJ.1 CJ.2) (batchCalls ids (wrapBase wb) qs) :=
      .bind (e1 := []) (.stays (.comRow _ _ _ _ _ _ _ _ _)) fun _ => ih' _ _ _
    have := Does.config (ls := ls) (js := js) (m0 := m0) (ids := ids) (q := q) (wb := wb) (hq q (by simp)) main
    cases wb <;> exact this

/-! ### Dimensions of results -/

/-- every value returned by `p` satisfies `Q` -/
def Post {σ : Type} (p : Prog σ α) (Q : α → Prop) : Prop := ∀ s s' a, p s = .ok a s' → Q a

theorem Post.bind {σ : Type} {p : Prog σ α} {f : α → Prog σ β} {Q : α → Prop} {R : β → Prop}
    (h : Post p Q) (h' : ∀ a, Q a → Post (f a) R) : Post (p >>= f) R := by
  intro s s' b e
  rw [Prog.bind_apply] at e
  cases hp : p s with
  | ok a s1 => rw [hp] at e; exact h' a (h _ _ _ hp) _ _ _ e
  | exn x s1 => rw [hp] at e; cases e
  | ub u => rw [hp] at e; cases e
  | hang => rw [hp] at e; cases e

theorem Post.triv {σ : Type} (p : Prog σ α) : Post p (fun _ => True) := fun _ _ _ _ => trivial

theorem Post.pure {σ : Type} {a : α} {Q : α → Prop} (h : Q a) : Post (Pure.pure a : Prog σ α) Q := by
  intro s s' b e
  cases e; exact h

theorem Post.lift {σ : Type} {o : Outcome α} {Q : α → Prop} (h : ∀ a, o = .ok a → Q a) :
    Post (Prog.lift o : Prog σ α) Q := by
  intro s s' b e
  cases o with
  | ok a => cases e; exact h _ rfl
  | exn x => cases e
  | ub u => cases e
  | hang => cases e

theorem Mat.setBlock_dims {M M' B : Mat K} {i j : Nat} (h : M.setBlock i j B = .ok M') :
    M'.rows = M.rows ∧ M'.cols = M.cols := by
  unfold Mat.setBlock at h
  split at h
  · cases h; exact ⟨rfl, rfl⟩
  · cases h

theorem Post.fkJacLoop (rt : RotType) (ids : List Nat) (wb : Bool) (head0 : Nat) (es : List Nat)
    (j : Nat) (J : Mat K) : Post (fkJacLoop rt ids wb head0 es j J) (fun J' => J'.cols = J.cols) := by
  induction es generalizing j J with
  | nil => exact .pure rfl
  | cons a l ih =>
    refine Post.bind (Post.triv _) fun B _ => Post.bind (Q := fun J' => J'.cols = J.cols)
      (Post.lift fun _ h => (Mat.setBlock_dims h).2) fun J' hJ => ?_
    have := ih (j + 1) J'
    rw [hJ] at this
    exact this

theorem Post.fkLoop (es ids : List Nat) (rt : RotType) (wb wj uc : Bool) (qs : List (List K)) (i : Nat)
    (P J : Mat K) : Post (fkLoop es ids rt wb wj uc qs i P J) (fun PJ => PJ.2.cols = J.cols) := by
  induction qs generalizing i P J with
  | nil => exact .pure rfl
  | cons q qs ih =>
    unfold Tinyfk.fkLoop
    refine Post.bind (Post.triv _) fun _ _ => Post.bind (Post.triv _) fun P' _ => ?_
    cases wj with
    | false => exact ih _ _ _
    | true =>
      refine Post.bind (Post.fkJacLoop _ _ _ _ _ _ _) fun J' hJ => ?_
      have := ih (i + 1) P' J'
      rw [hJ] at this
      exact this

theorem Post.distLoop (ids : List Nat) (wb wg : Bool) (nJ head0 : Nat) (l2 : List Nat) (l1 : List Nat)
    (j : Nat) (D G : Mat K) : Post (distLoop ids wb wg nJ head0 l2 l1 j D G) (fun DG => DG.2.cols = G.cols) := by
  induction l1 generalizing j D G with
  | nil => exact .pure rfl
  | cons a l ih =>
    unfold Tinyfk.distLoop
    refine Post.bind (Post.triv _) fun _ _ => Post.bind (Post.triv _) fun _ _ =>
      Post.bind (Post.triv _) fun _ _ => Post.bind (Post.triv _) fun D' _ => ?_
    cases wg with
    | false => exact ih _ _ _
    | true =>
      refine Post.bind (Post.triv _) fun _ _ => Post.bind (Post.triv _) fun _ _ =>
        Post.bind (Q := fun J' => J'.cols = G.cols)
        (Post.lift fun _ h => (Mat.setBlock_dims h).2) fun G' hG => ?_
      have := ih (j + 1) D' G'
      rw [hG] at this
      exact this

theorem Post.distFkLoop (ids l1 l2 : List Nat) (wb wg uc : Bool) (nJ : Nat) (qs : List (List K)) (i : Nat)
    (D G : Mat K) : Post (distFkLoop ids l1 l2 wb wg uc nJ qs i D G) (fun DG => DG.2.cols = G.cols) := by
  induction qs generalizing i D G with
  | nil => exact .pure rfl
  | cons q qs ih =>
    unfold Tinyfk.distFkLoop
    refine Post.bind (Post.triv _) fun _ _ => Post.bind (Post.distLoop _ _ _ _ _ _ _ _ _ _) fun DG hDG => ?_
    have := ih (i + 1) DG.1 DG.2
    rw [hDG] at this
    exact this

/-! ### The rows made from planar configurations -/

theorem modifyRow_spec {n : Nat} {row : List K} (h : row.length = n + 3) :
    ∃ row', modifyRow n row = .ok row' ∧ row'.length = n + 6 ∧ row'.take n = row.take n ∧
      basePart n .floating row' = basePart n .planer row := by
  obtain ⟨x, y, w, hd⟩ := drop_three h
  have hrow : row = row.take n ++ [x, y, w] := by rw [← hd, List.take_append_drop]
  have hlen : (row.take n).length = n := by simp [h]
  generalize row.take n = a at hrow hlen
  subst hrow
  subst hlen
  refine ⟨a ++ [x, y, 0, 0, 0, w], ?_, by simp, by simp, by simp [basePart]⟩
  have h1 : (a ++ [x, y, w])[a.length + 2]? = some w := by
    simp
  have h2 : (a ++ [x, y, w]).take (a.length + 2) = a ++ [x, y] := by
    rw [List.take_length_add_append]; rfl
  simp only [modifyRow, h1, h2]
  simp

theorem modifyRow_calls {ids : List Nat} {row row' : List K} (h : row.length = ids.length + 3)
    (e : modifyRow ids.length row = .ok row') :
    row'.length = ids.length + 6 ∧ configCalls ids .floating row' = configCalls ids .planer row := by
  obtain ⟨r, e', h1, h2, h3⟩ := modifyRow_spec h
  rw [e'] at e; cases e
  exact ⟨h1, by simp only [configCalls, h2, h3]⟩

theorem modifyInput_calls {ids : List Nat} {rows rows' : List (List K)}
    (h : ∀ r ∈ rows, r.length = ids.length + 3) (e : modifyInput ids.length rows = .ok rows') :
    (∀ r ∈ rows', r.length = ids.length + 6) ∧ batchCalls ids .floating rows' = batchCalls ids .planer rows := by
  unfold modifyInput at e
  induction rows generalizing rows' with
  | nil => cases e; exact ⟨by simp, rfl⟩
  | cons r rows ih =>
    simp only [mapOutcome] at e
    obtain ⟨r', h1, h2, h3⟩ := modifyRow_spec (h r (by simp))
    rw [h1] at e
    simp only [Outcome.bind_eq, Outcome.bind_ok] at e
    cases hm : mapOutcome (modifyRow ids.length) rows with
    | ok rs =>
      rw [hm] at e
      cases e
      obtain ⟨h4, h5⟩ := ih (fun r hr => h r (by simp [hr])) hm
      refine ⟨?_, ?_⟩
      · intro x hx
        rcases List.mem_cons.mp hx with rfl | hx
        · exact h2
        · exact h4 x hx
      · rw [batchCalls_cons, batchCalls_cons, h5, (modifyRow_calls (h r (by simp)) h1).2]
    | exn x => rw [hm] at e; cases e
    | ub u => rw [hm] at e; cases e
    | hang => rw [hm] at e; cases e

/-! ### Python calls -/

/-- `p` has the effect `eff` on the robot when it returns, and none when it raises. -/
def PyDoes (ls : List (RawLink K)) (js : List (RawJoint K)) (m0 : KinModel K)
    (p : Prog (PyModel K) α) (eff : List (Call K)) : Prop :=
  ∀ cs mc s, At ls js m0 cs mc s.robot → match p s with
    | .ok _ s' => ∃ mc', At ls js m0 (cs ++ eff) mc' s'.robot
    | .exn _ s' => ∃ mc', At ls js m0 cs mc' s'.robot
    | .ub _ => True
    | .hang => True

theorem PyDoes.bind {p : Prog (PyModel K) α} {f : α → Prog (PyModel K) β} {Q : α → Prop}
    {e : List (Call K)}
    (h : PyDoes ls js m0 p []) (hQ : Post p Q) (h' : ∀ a, Q a → PyDoes ls js m0 (f a) e) :
    PyDoes ls js m0 (p >>= f) e := by
  intro cs mc s ha
  have h1 := h cs mc s ha
  rw [Prog.bind_apply]
  cases hp : p s with
  | ok a s1 =>
    rw [hp] at h1
    obtain ⟨mc1, h1⟩ := h1
    rw [List.append_nil] at h1
    exact h' a (hQ _ _ _ hp) _ _ _ h1
  | exn x s1 => rw [hp] at h1; exact h1
  | ub u => trivial
  | hang => trivial

/-- after the call of the robot, only work on values that does not raise -/
theorem PyDoes.andThen {p : Prog (PyModel K) α} {f : α → Prog (PyModel K) β} {Q : α → Prop}
    {e : List (Call K)} (h : PyDoes ls js m0 p e) (hQ : Post p Q)
    (h' : ∀ a, Q a → ∀ s, ∃ b, f a s = .ok b s) : PyDoes ls js m0 (p >>= f) e := by
  intro cs mc s ha
  have h1 := h cs mc s ha
  rw [Prog.bind_apply]
  cases hp : p s with
  | ok a s1 =>
    rw [hp] at h1
    obtain ⟨b, hb⟩ := h' a (hQ _ _ _ hp) s1
    simp only [hb]
    exact h1
  | exn x s1 => rw [hp] at h1; exact h1
  | ub u => trivial
  | hang => trivial

theorem PyDoes.pure (a : α) : PyDoes ls js m0 (Pure.pure a) [] :=
  fun _ mc _ h => ⟨mc, by simpa using h⟩

theorem PyDoes.throw (e : Exn) (eff : List (Call K)) :
    PyDoes ls js m0 (Prog.throw e : Prog (PyModel K) α) eff := fun _ mc _ h => ⟨mc, h⟩

theorem PyDoes.lift (o : Outcome α) : PyDoes ls js m0 (Prog.lift o : Prog (PyModel K) α) [] := by
  intro cs mc s h
  cases o with
  | ok a => exact ⟨mc, by simpa using h⟩
  | exn e => exact ⟨mc, h⟩
  | ub u => trivial
  | hang => trivial

theorem PyDoes.assert (c : Bool) (msg : String) : PyDoes ls js m0 (pyAssert c msg : Prog (PyModel K) Unit) [] := by
  cases c
  · exact .throw _ _
  · exact .pure _

theorem Post.assert (c : Bool) (msg : String) : Post (pyAssert c msg : Prog (PyModel K) Unit) (fun _ => c = true) := by
  cases c
  · intro s s' a e; cases e
  · exact .pure rfl

theorem PyDoes.ite {c : Prop} [Decidable c] {p q : Prog (PyModel K) α} {e : List (Call K)}
    (hp : PyDoes ls js m0 p e) (hq : PyDoes ls js m0 q e) : PyDoes ls js m0 (if c then p else q) e := by
  split <;> assumption

theorem PyDoes.robot {p : Prog (KinModel K) α} {e : List (Call K)} (h : Does ls js m0 p e) :
    PyDoes ls js m0 (onRobot p) e := by
  intro cs mc s ha
  have := h cs mc s.robot ha
  unfold onRobot
  cases hp : p s.robot with
  | ok a m' => rw [hp] at this; exact this
  | exn x m' => rw [hp] at this; exact this.elim
  | ub u => trivial
  | hang => trivial

theorem PyDoes.read (f : KinModel K → Outcome α) : PyDoes ls js m0 (onRobot (Prog.read f)) [] := by
  intro cs mc s ha
  unfold onRobot Prog.read
  cases f s.robot with
  | ok a => exact ⟨mc, by simpa using ha⟩
  | exn x => exact ⟨mc, ha⟩
  | ub u => trivial
  | hang => trivial

theorem Post.robot {p : Prog (KinModel K) α} {Q : α → Prop} (h : Post p Q) : Post (onRobot p) Q := by
  intro s s' a e
  unfold onRobot at e
  cases hp : p s.robot with
  | ok b m' => rw [hp] at e; cases e; exact h _ _ _ hp
  | exn x m' => rw [hp] at e; cases e
  | ub u => rw [hp] at e; cases e
  | hang => rw [hp] at e; cases e

/-- the histories kept for pickling do not matter for the robot -/
theorem PyDoes.modify {f : PyModel K → PyModel K} (hf : ∀ s, (f s).robot = s.robot)
    {p : Unit → Prog (PyModel K) α} {e : List (Call K)} (h : PyDoes ls js m0 (p ()) e) :
    PyDoes ls js m0 (Prog.modify f >>= p) e := by
  intro cs mc s ha
  have := h cs mc (f s) (by rw [hf]; exact ha)
  rw [Prog.bind_apply]
  exact this

theorem Does.setJointAngles (ids : List Nat) (q : List K) :
    Does ls js m0 (setJointAngles ids q) [.setJointAngles ids (q.take ids.length)] :=
  .bind (e2 := []) (.setNC _ _) fun _ => .clear

theorem PyDoes.setQ (ids : List Nat) (q : List K) (bt : BaseType) :
    PyDoes ls js m0 (pySetQ ids q bt) (configCalls ids bt q) := by
  unfold pySetQ
  refine PyDoes.modify (K := K) ?_ ?_
  · exact fun _ => rfl
  cases bt with
  | fixed =>
    refine .bind (.assert _ _) (Post.assert _ _) fun _ _ => ?_
    have : configCalls ids .fixed q = [.setJointAngles ids (q.take ids.length)] := by
      simp [configCalls, basePart]
    rw [this]
    exact .robot (.setJointAngles _ _)
  | planer =>
    refine .bind (.assert _ _) (Post.assert _ _) fun _ hq => ?_
    have hq : q.length = ids.length + 3 := by simpa using hq
    obtain ⟨x, y, w, hd⟩ := drop_three hq
    have h3 : q.length - 3 = ids.length := by omega
    simp only [h3, hd]
    have hcc : configCalls ids .planer q =
        [.setJointAngles ids (q.take ids.length)] ++ [.setBasePose (poseOfXyzrpy x y 0 0 0 w)] := by
      simp [configCalls, basePart, hd, poseOfXyzrpy]
    rw [hcc]
    have hr : ∀ s : PyModel K, (onRobot (Tinyfk.setJointAngles ids (q.take ids.length)) >>= fun _ =>
        onRobot (setBasePoseVec [x, y, 0, 0, 0, w])) s =
        onRobot (Tinyfk.setJointAngles ids (q.take ids.length) >>= fun _ =>
          setBasePose (poseOfXyzrpy x y 0 0 0 w)) s := by
      intro s
      simp only [Prog.bind_apply, onRobot]
      cases Tinyfk.setJointAngles ids (q.take ids.length) s.robot <;> simp [setBasePoseVec]
    intro cs mc s ha
    rw [hr]
    refine PyDoes.robot (.bind ?_ fun _ => .setBase _) cs mc s ha
    have := Does.setJointAngles (ls := ls) (js := js) (m0 := m0) ids (q.take ids.length)
    rwa [List.take_take, min_self] at this
  | floating =>
    refine .bind (.assert _ _) (Post.assert _ _) fun _ hq => ?_
    have hq : q.length = ids.length + 6 := by simpa using hq
    obtain ⟨x, y, z, r, p, w, hd⟩ := drop_six hq
    have h3 : q.length - 6 = ids.length := by omega
    simp only [h3, hd]
    have hcc : configCalls ids .floating q =
        [.setJointAngles ids (q.take ids.length)] ++ [.setBasePose (poseOfXyzrpy x y z r p w)] := by
      simp [configCalls, basePart, hd, poseOfXyzrpy]
    rw [hcc]
    have hr : ∀ s : PyModel K, (onRobot (Tinyfk.setJointAngles ids (q.take ids.length)) >>= fun _ =>
        onRobot (setBasePoseVec [x, y, z, r, p, w])) s =
        onRobot (Tinyfk.setJointAngles ids (q.take ids.length) >>= fun _ =>
          setBasePose (poseOfXyzrpy x y z r p w)) s := by
      intro s
      simp only [Prog.bind_apply, onRobot]
      cases Tinyfk.setJointAngles ids (q.take ids.length) s.robot <;> simp [setBasePoseVec]
    intro cs mc s ha
    rw [hr]
    refine PyDoes.robot (.bind ?_ fun _ => .setBase _) cs mc s ha
    have := Does.setJointAngles (ls := ls) (js := js) (m0 := m0) ids (q.take ids.length)
    rwa [List.take_take, min_self] at this

theorem PyDoes.addNewLink (a : AddArgs K) : PyDoes ls js m0 (pyAddNewLink a)
    [.addNewLink a.name a.parent
      ⟨a.position, Rot.fromRPY (a.rpy.getD Vec3.zero).x (a.rpy.getD Vec3.zero).y (a.rpy.getD Vec3.zero).z⟩] := by
  refine PyDoes.modify (K := K) ?_ ?_
  · exact fun _ => rfl
  intro cs mc s ha
  generalize ho : (⟨a.position, Rot.fromRPY (a.rpy.getD Vec3.zero).x (a.rpy.getD Vec3.zero).y
    (a.rpy.getD Vec3.zero).z⟩ : Pose K) = o
  have hw : wAddNewLink a.name a.parent a.position (a.rpy.getD Vec3.zero) =
      (Tinyfk.addNewLink a.name a.parent o >>= fun _ => Pure.pure ()) := by
    rw [← ho]; rfl
  simp only [onRobot, hw, Prog.bind_apply]
  cases hn : s.robot.linkIds.find a.name with
  | some x =>
    rw [addNewLink_dup hn]
    exact ⟨mc, ha⟩
  | none =>
    by_cases hp : a.parent < s.robot.links.length
    · obtain ⟨mc', h⟩ := ha.addLink (o := o) hn hp
      obtain ⟨m', e, h⟩ := h
      rw [e]
      exact ⟨mc', h⟩
    · simp only [Tinyfk.addNewLink, hn, hp, if_false]

theorem Does.solveFk (qs : List (List K)) (es ids : List Nat) (rt : RotType) (wb wj uc : Bool)
    (hq : ∀ q ∈ qs, q.length = ids.length + (wrapBase wb).dof) :
    Does ls js m0 (solveForwardKinematics qs es ids rt wb wj uc) (batchCalls ids (wrapBase wb) qs) := by
  unfold solveForwardKinematics
  have main : ∀ P J, Does ls js m0 (Tinyfk.fkLoop es ids rt wb wj uc qs 0 P J >>= fun x =>
      (Pure.pure (x.1.transpose, x.2) : Prog (KinModel K) (Mat K × Mat K)))
      (batchCalls ids (wrapBase wb) qs) := fun P J => by
    have := Does.bind (e2 := []) (Does.fkLoop (ls := ls) (js := js) (m0 := m0) es ids rt wb wj uc qs hq 0 P J)
      (f := fun x => (Pure.pure (x.1.transpose, x.2) : Prog (KinModel K) (Mat K × Mat K))) fun _ => .pure _
    rwa [List.append_nil] at this
  cases wb with
  | false => exact main _ _
  | true =>
    cases qs with
    | nil => exact fun _ _ _ _ => trivial
    | cons q0 qs =>
      have h0 := hq q0 (by simp)
      simp only [wrapBase, BaseType.dof, if_true] at h0
      have : ¬ (q0.length < 6 ∨ ids.length ≠ q0.length - 6) := by omega
      simp only [this, if_false, if_true]
      exact main _ _

theorem Post.solveFk (qs : List (List K)) (es ids : List Nat) (rt : RotType) (wb wj uc : Bool) :
    Post (solveForwardKinematics qs es ids rt wb wj uc)
      (fun PJ => PJ.2.cols = ids.length + (wrapBase wb).dof) := by
  unfold solveForwardKinematics
  have main : ∀ P J, Post (Tinyfk.fkLoop es ids rt wb wj uc qs 0 P J >>= fun x =>
      (Pure.pure (x.1.transpose, x.2) : Prog (KinModel K) (Mat K × Mat K)))
      (fun PJ => PJ.2.cols = J.cols) := fun P J =>
    Post.bind (Post.fkLoop _ _ _ _ _ _ _ _ _ _) fun _ h => .pure h
  cases wb with
  | false => exact main _ _
  | true =>
    cases qs with
    | nil => intro s s' a e; cases e
    | cons q0 qs =>
      simp only [if_true]
      split
      · intro s s' a e; cases e
      · exact main _ _

theorem Does.solveComFk (qs : List (List K)) (ids al : List Nat) (fs : List K) (wb wj : Bool)
    (hq : ∀ q ∈ qs, q.length = ids.length + (wrapBase wb).dof) :
    Does ls js m0 (solveComForwardKinematics qs ids al fs wb wj) (batchCalls ids (wrapBase wb) qs) := by
  unfold solveComForwardKinematics
  have := Does.bind (e2 := []) (Does.comFkLoop (ls := ls) (js := js) (m0 := m0) ids al fs wb wj
      (ids.length + if wb then 6 else 0) qs hq 0 (Mat.zero 3 qs.length)
      (Mat.zero (3 * qs.length) (ids.length + if wb then 6 else 0)))
    (f := fun x => (Pure.pure (x.1.transpose, x.2) : Prog (KinModel K) (Mat K × Mat K))) fun _ => .pure _
  rwa [List.append_nil] at this

theorem Does.sqdists (qs : List (List K)) (l1 l2 ids : List Nat) (wb wg uc : Bool)
    (hq : ∀ q ∈ qs, q.length = ids.length + (wrapBase wb).dof) :
    Does ls js m0 (computeInterLinkSquaredDists qs l1 l2 ids wb wg uc) (batchCalls ids (wrapBase wb) qs) :=
  Does.distFkLoop _ _ _ _ _ _ _ _ hq _ _ _

theorem Post.sqdists (qs : List (List K)) (l1 l2 ids : List Nat) (wb uc : Bool) :
    Post (computeInterLinkSquaredDists qs l1 l2 ids wb true uc)
      (fun DG => DG.2.cols = ids.length + (wrapBase wb).dof) := by
  have := Post.distFkLoop ids l1 l2 wb true uc (ids.length + if wb then 6 else 0) qs 0
    (Mat.zero (l1.length * qs.length) 1) (Mat.zero (l1.length * qs.length) (ids.length + if wb then 6 else 0))
  cases wb <;> exact this

theorem Does.inertia (q : List K) (ids : List Nat) :
    Does ls js m0 (computeTotalInertiaMatrix q ids) [.setJointAngles ids (q.take ids.length)] :=
  .bind (e2 := []) (.setNC _ _) fun _ => .stays .getTotalInertia

theorem wrapBase_of (bt : BaseType) : wrapBase (bt != .fixed) = if bt = .fixed then .fixed else .floating := by
  cases bt <;> rfl

theorem PyDoes.prepareRows (n : Nat) (bt : BaseType) (a : Arr2 K) : PyDoes ls js m0 (prepareRows n bt a) [] := by
  cases bt with
  | fixed => exact .bind (.assert _ _) (Post.assert _ _) fun _ _ => .pure _
  | planer => exact .bind (.assert _ _) (Post.assert _ _) fun _ _ => .lift _
  | floating => exact .bind (.assert _ _) (Post.assert _ _) fun _ _ => .pure _

theorem Post.prepareRows (ids : List Nat) (bt : BaseType) (a : Arr2 K) :
    Post (Tinyfk.prepareRows ids.length bt a) (fun rows =>
      (∀ r ∈ rows, r.length = ids.length + (wrapBase (bt != .fixed)).dof) ∧
      batchCalls ids (wrapBase (bt != .fixed)) rows = batchCalls ids bt a.rows) := by
  cases bt with
  | fixed =>
    refine Post.bind (Post.assert _ _) fun _ h => .pure ⟨?_, rfl⟩
    intro r hr
    rw [a.wf r hr]; exact eq_of_beq h
  | planer =>
    refine Post.bind (Post.assert _ _) fun _ h => Post.lift fun rows e => ?_
    exact modifyInput_calls (fun r hr => by rw [a.wf r hr]; simpa using h) e
  | floating =>
    refine Post.bind (Post.assert _ _) fun _ h => .pure ⟨?_, rfl⟩
    intro r hr
    rw [a.wf r hr]; exact eq_of_beq h

theorem fkArg_rows {qs : QArg K} {a : Arr2 K} (h : fkArg qs = .ok a) : a.rows = qs.rows := by
  cases qs <;> cases h <;> rfl

theorem comArg_rows {qs : QArg K} {a : Arr2 K} (h : comArg qs = .ok a) : a.rows = qs.rows := by
  cases qs <;> cases h <;> rfl

theorem selectCols_planar {n : Nat} {J : Mat K} (h : J.cols = n + 6) : ∃ J', J.selectCols (planarCols n) = .ok J' := by
  refine ⟨_, if_pos ?_⟩
  intro c hc
  simp only [planarCols, List.mem_append, List.mem_range, List.mem_cons, List.not_mem_nil, or_false] at hc
  omega

theorem PyDoes.solveFk (qs : QArg K) (es ids : List Nat) (rt : RotType) (bt : BaseType) (wj uc : Bool) :
    PyDoes ls js m0 (pySolveFk qs es ids rt bt wj uc) (batchCalls ids bt qs.rows) := by
  unfold pySolveFk
  refine .bind (.lift _) (Post.lift fun _ h => fkArg_rows h) fun a ha => ?_
  rw [← ha]
  refine .bind (.prepareRows _ _ _) (Post.prepareRows _ _ _) fun rows hr => ?_
  rw [← hr.2]
  refine .andThen (.robot (.solveFk rows es ids rt (bt != .fixed) wj uc hr.1))
    (Post.robot (.solveFk rows es ids rt (bt != .fixed) wj uc)) fun PJ hJ s => ?_
  obtain ⟨P, J⟩ := PJ
  cases bt with
  | fixed => exact ⟨_, rfl⟩
  | floating => exact ⟨_, rfl⟩
  | planer =>
    obtain ⟨J', e⟩ := selectCols_planar (n := ids.length) (J := J) hJ
    refine ⟨(P, J'), ?_⟩
    simp [Prog.bind_apply, Prog.lift, Prog.read, e]

theorem PyDoes.solveComFk (qs : QArg K) (ids : List Nat) (act : Option (List Nat × List K)) (bt : BaseType)
    (wj : Bool) : PyDoes ls js m0 (pySolveComFk qs ids act bt wj) (batchCalls ids bt qs.rows) := by
  unfold pySolveComFk
  refine .bind (.lift _) (Post.lift fun _ h => comArg_rows h) fun a ha => ?_
  rw [← ha]
  refine .bind (.prepareRows _ _ _) (Post.prepareRows _ _ _) fun rows hr => ?_
  rw [← hr.2]
  exact .robot (.solveComFk _ _ _ _ _ _ hr.1)

theorem PyDoes.sqdists (qs : List (List K)) (ps : List (Nat × Nat)) (ids : List Nat) (bt : BaseType)
    (wj uc : Bool) (hq : ∀ q ∈ qs, q.length = ids.length + bt.dof) :
    PyDoes ls js m0 (pySqdists qs ps ids bt wj uc) (batchCalls ids bt qs) := by
  unfold pySqdists
  have main : ∀ rows : List (List K),
      ((∀ r ∈ rows, r.length = ids.length + (wrapBase (bt != .fixed)).dof) ∧
      batchCalls ids (wrapBase (bt != .fixed)) rows = batchCalls ids bt qs) →
      PyDoes ls js m0 (if ps = [] then Prog.throw (.valueError "not enough values to unpack")
        else do
          let (V, J) ← onRobot (computeInterLinkSquaredDists rows (ps.map Prod.fst)
            (ps.map Prod.snd) ids (bt != .fixed) wj uc)
          if bt = .planer ∧ wj then do
            let J ← Prog.lift (J.selectCols (planarCols ids.length))
            Pure.pure (V, J)
          else Pure.pure (V, J)) (batchCalls ids bt qs) := by
    intro rows hr
    refine .ite (.throw _ _) ?_
    rw [← hr.2]
    cases wj with
    | false =>
      refine .andThen (.robot (.sqdists _ _ _ _ _ _ _ hr.1)) (Post.triv _) fun DG _ s => ?_
      exact ⟨DG, by simp⟩
    | true =>
      refine .andThen (.robot (.sqdists _ _ _ _ _ _ _ hr.1)) (Post.robot (.sqdists _ _ _ _ _ _)) fun DG hJ s => ?_
      obtain ⟨V, J⟩ := DG
      cases bt with
      | fixed => exact ⟨(V, J), by simp⟩
      | floating => exact ⟨(V, J), by simp⟩
      | planer =>
        obtain ⟨J', e⟩ := selectCols_planar (n := ids.length) (J := J) hJ
        refine ⟨(V, J'), ?_⟩
        simp [Prog.bind_apply, Prog.lift, Prog.read, e]
  cases bt with
  | fixed => exact main _ ⟨hq, rfl⟩
  | floating => exact main _ ⟨hq, rfl⟩
  | planer =>
    rw [if_pos rfl]
    exact .bind (.lift _) (Post.lift fun rows e => modifyInput_calls hq e) fun rows hr => main rows hr

theorem PyDoes.drop {p : Prog (PyModel K) α} {e : List (Call K)} (h : PyDoes ls js m0 p e) :
    PyDoes ls js m0 (Prog.bind p fun _ => Prog.pure ()) e :=
  PyDoes.andThen h (Post.triv _) fun _ _ _ => ⟨(), rfl⟩

/-- every Python call has its effect when it returns, and none when it raises -/
theorem PyCall.does (c : PyCall K) (hc : c.Shaped) : PyDoes ls js m0 c.run c.effect := by
  cases c with
  | getQ ids bt =>
    refine .drop ?_
    cases bt with
    | fixed => exact .bind (.pure _) (Post.triv _) fun _ _ => .bind (.read _) (Post.triv _) fun _ _ => .pure _
    | floating => exact .bind (.read _) (Post.triv _) fun _ _ => .bind (.read _) (Post.triv _) fun _ _ => .pure _
    | planer =>
      refine .bind (.read _) (Post.triv _) fun v _ => ?_
      have k : ∀ w, PyDoes ls js m0 (onRobot (Tinyfk.getJointAngles ids) >>= fun a =>
        (Pure.pure (a ++ w) : Prog (PyModel K) (List K))) [] := fun w =>
          .bind (.read _) (Post.triv _) fun _ _ => .pure _
      split
      · exact k _
      · exact .bind (.throw _ _) (Post.triv _) fun _ _ => k _
  | setQ ids q bt => exact .setQ ids q bt
  | solveFk qs e ids rt bt wj uc => exact .drop (.solveFk _ _ _ _ _ _ _)
  | solveComFk qs ids a bt wj => exact .drop (.solveComFk _ _ _ _ _)
  | inertia q ids => exact .drop (.robot (.inertia _ _))
  | getJointNames => exact .drop (.read _)
  | getJointIds ns => exact .drop (.read _)
  | getLinkIds ns => exact .drop (.read _)
  | getJointLimits ids => exact .drop (.bind (.read _) (Post.triv _) fun _ _ => .pure _)
  | addNewLink a => exact .addNewLink a
  | sqdists qs ps ids bt wj uc => exact .drop (.sqdists _ _ _ _ _ _ hc)
  | clearCache => exact .robot .clear
  | totalMass =>
    refine PyDoes.drop (K := K) (p := pyTotalMass) ?_
    intro cs mc s ha
    exact ⟨mc, by simpa [PyCall.effect] using ha⟩
  | rootLinkName => exact .drop (.read _)

theorem PyRuns.at {s s' : PyModel K} {h : List (PyCall K)} {es : List (Call K)} (hr : PyRuns s h es s')
    {cs : List (Call K)} {mc : KinModel K} (ha : At ls js m0 cs mc s.robot) :
    ∃ mc', At ls js m0 (cs ++ es) mc' s'.robot := by
  induction hr generalizing cs mc with
  | nil => exact ⟨mc, by simpa using ha⟩
  | ok hs e _ ih =>
    have := PyCall.does (ls := ls) (js := js) (m0 := m0) _ hs _ _ _ ha
    rw [e] at this
    obtain ⟨mc1, h1⟩ := this
    simpa using ih h1
  | exn hs e _ ih =>
    have := PyCall.does (ls := ls) (js := js) (m0 := m0) _ hs _ _ _ ha
    rw [e] at this
    obtain ⟨mc1, h1⟩ := this
    exact ih h1

/-- After any history of Python calls the robot is where their effects say, up to the contents of
cache and stack. -/
theorem PyReach.at {h : List (PyCall K)} {s : PyModel K} (hr : PyReach ls js m0 h cs s) :
    ∃ mc, At ls js m0 cs mc s.robot := by
  obtain ⟨xml, hx⟩ := hr.runs
  simpa using hx.at (At.of_reach (cs := []) ⟨hr.tree, hr.supported, hr.built, .nil⟩)

end Tinyfk
