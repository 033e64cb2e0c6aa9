import Verif.Proofs.ShownRun
import Verif.Proofs.PyReach

/-!
# Events of Python calls

The invariant `Sits` is kept by every Python call.
-/

set_option linter.unusedSectionVars false

namespace Tinyfk

open Scalar

variable {K : Type} [Scalar K] {α β : Type}
  {ls : List (RawLink K)} {js : List (RawJoint K)} {m0 : KinModel K} {cs : List (Call K)} {mc m m' : KinModel K}
  {evs evs' : List (Event K)}

/-! ### Events that come to the same -/

/-- the two lists of events do the same to every joint -/
def EvSame (e1 e2 : List (Event K)) : Prop :=
  ∀ i on mass (s : Seen K), e1.foldl (Seen.step i on mass) s = e2.foldl (Seen.step i on mass) s

theorem EvSame.refl (e : List (Event K)) : EvSame e e := fun _ _ _ _ => rfl
theorem EvSame.symm {e1 e2 : List (Event K)} (h : EvSame e1 e2) : EvSame e2 e1 := fun i on mass s => (h i on mass s).symm
theorem EvSame.trans {e1 e2 e3 : List (Event K)} (h : EvSame e1 e2) (h' : EvSame e2 e3) : EvSame e1 e3 :=
  fun i on mass s => (h i on mass s).trans (h' i on mass s)

theorem EvSame.append {e1 e2 e3 e4 : List (Event K)} (h : EvSame e1 e2) (h' : EvSame e3 e4) : EvSame (e1 ++ e3) (e2 ++ e4) := by
  intro i on mass s
  rw [List.foldl_append, List.foldl_append, h, h']

theorem Sits.evSame (h : Sits ls js m0 cs evs m) (he : EvSame evs evs') : Sits ls js m0 cs evs' m := by
  refine ⟨h.at_, h.closed, fun on mass ha => ?_⟩
  have := h.tracks on mass ha
  have e : (fun i => seenAfter i (on i) (mass i) evs) = fun i => seenAfter i (on i) (mass i) evs' := by
    funext i; exact he i _ _ _
  rw [← e]; exact this

theorem zip_take_length {γ : Type} (ids : List Nat) (q : List γ) : ids.zip (q.take ids.length) = ids.zip q := by
  induction ids generalizing q with
  | nil => rfl
  | cons a l ih =>
    cases q with
    | nil => rfl
    | cons b q => simp [ih]

theorem EvSame.take (ids : List Nat) (q : List K) : EvSame [.write ids q] [.write ids (q.take ids.length)] := by
  intro i on mass s
  simp only [List.foldl_cons, List.foldl_nil, Seen.step, zip_take_length]

theorem EvSame.clear : EvSame ([.clear, .clear] : List (Event K)) [.clear] := fun _ _ _ _ => rfl

/-- queries -/
def Event.IsAsk : Event K → Prop
  | .ask _ => True
  | .askMasses => True
  | _ => False

/-- the query depends on a joint on the path to `on` and `mass` -/
def Event.Hits (on : Nat → Prop) (mass : Prop) : Event K → Prop
  | .ask l => on l
  | .askMasses => mass
  | _ => False

open Classical in
theorem asks_foldl (i : Nat) (on : Nat → Prop) (mass : Prop) {e : List (Event K)} (h : ∀ x ∈ e, x.IsAsk) (s : Seen K) :
    e.foldl (Seen.step i on mass) s = if ∃ x ∈ e, x.Hits on mass then { s with held := some s.value } else s := by
  induction e generalizing s with
  | nil => simp
  | cons x e ih =>
    rw [List.foldl_cons, ih fun y hy => h y (by simp [hy])]
    have hx : s.step i on mass x = if x.Hits on mass then { s with held := some s.value } else s := by
      have := h x (by simp)
      cases x <;> simp only [Event.IsAsk] at this <;> rfl
    rw [hx]
    by_cases h1 : x.Hits on mass
    · simp [h1, Seen.value]
    · simp [h1]

theorem EvSame.asks {e1 e2 : List (Event K)} (h1 : ∀ x ∈ e1, x.IsAsk) (h : ∀ x, x ∈ e1 ↔ x ∈ e2) : EvSame e1 e2 := by
  intro i on mass s
  rw [asks_foldl i on mass h1, asks_foldl i on mass fun x hx => h1 x ((h x).mpr hx)]
  have : (∃ x ∈ e1, x.Hits on mass) ↔ ∃ x ∈ e2, x.Hits on mass := by
    constructor <;> rintro ⟨x, hx, hh⟩
    · exact ⟨x, (h x).mp hx, hh⟩
    · exact ⟨x, (h x).mpr hx, hh⟩
  by_cases hc : ∃ x ∈ e2, x.Hits on mass
  · rw [if_pos hc, if_pos (this.mpr hc)]
  · rw [if_neg hc, if_neg fun h => hc (this.mp h)]

theorem isAsk_map (L : List Nat) : ∀ x ∈ L.map (Event.ask (K := K)), x.IsAsk := by
  intro x hx
  obtain ⟨l, _, rfl⟩ := List.mem_map.mp hx
  trivial

/-! ### Programs and their events -/

/-- `p` never throws and, when it returns, has the effect `eff` and the events `ev` -/
def SDo (ls : List (RawLink K)) (js : List (RawJoint K)) (m0 : KinModel K) (p : Prog (KinModel K) α) (eff : List (Call K))
    (ev : List (Event K)) : Prop :=
  ∀ cs evs m, Sits ls js m0 cs evs m → match p m with
    | .ok _ m' => Sits ls js m0 (cs ++ eff) (evs ++ ev) m'
    | .exn _ _ => False
    | .ub _ => True
    | .hang => True

theorem SDo.evSame {p : Prog (KinModel K) α} {eff : List (Call K)} {ev ev' : List (Event K)} (h : SDo ls js m0 p eff ev)
    (he : EvSame ev ev') : SDo ls js m0 p eff ev' := by
  intro cs evs m hs
  have := h cs evs m hs
  cases hp : p m with
  | ok a m' => rw [hp] at this; exact this.evSame ((EvSame.refl _).append he)
  | exn e m' => rw [hp] at this; exact this
  | ub u => trivial
  | hang => trivial

theorem SDo.of {p : Prog (KinModel K) α} (hst : Stays p) {ev : List (Event K)}
    (h : ∀ cs evs m m' v, Sits ls js m0 cs evs m → p m = .ok v m' → Sits ls js m0 cs (evs ++ ev) m') :
    SDo ls js m0 p [] ev := by
  intro cs evs m hs
  have := hst m hs.graph.tree
  cases hp : p m with
  | ok a m' => rw [List.append_nil]; exact h _ _ _ _ _ hs hp
  | exn e m' => rw [hp] at this; exact this
  | ub u => trivial
  | hang => trivial

theorem SDo.bind {p : Prog (KinModel K) α} {f : α → Prog (KinModel K) β} {e1 e2 : List (Call K)} {v1 v2 : List (Event K)}
    (h : SDo ls js m0 p e1 v1) (h' : ∀ a, SDo ls js m0 (f a) e2 v2) : SDo ls js m0 (p >>= f) (e1 ++ e2) (v1 ++ v2) := by
  intro cs evs m ha
  have h1 := h cs evs m ha
  rw [Prog.bind_apply]
  cases hp : p m with
  | ok a m1 =>
    rw [hp] at h1
    have h2 := h' a _ _ _ h1
    simp only
    cases hq : f a m1 with
    | ok b m2 => rw [hq] at h2; simpa using h2
    | exn e m2 => rw [hq] at h2; exact h2
    | ub u => trivial
    | hang => trivial
  | exn e m1 => rw [hp] at h1; exact h1
  | ub u => trivial
  | hang => trivial

/-- binds in which only one side has an effect or events -/
theorem SDo.bind' {p : Prog (KinModel K) α} {f : α → Prog (KinModel K) β} {v1 v2 : List (Event K)}
    (h : SDo ls js m0 p [] v1) (h' : ∀ a, SDo ls js m0 (f a) [] v2) : SDo ls js m0 (p >>= f) [] (v1 ++ v2) :=
  SDo.bind (e1 := []) (e2 := []) h h'

theorem SDo.pure (a : α) : SDo ls js m0 (Pure.pure a) [] [] := by
  intro cs evs m hs
  show Sits ls js m0 (cs ++ []) (evs ++ []) m
  simpa using hs

theorem SDo.pureBind {a : α} {f : α → Prog (KinModel K) β} {e : List (Call K)} {v : List (Event K)} (h : SDo ls js m0 (f a) e v) :
    SDo ls js m0 (Pure.pure a >>= f) e v := h

theorem SDo.lift {o : Outcome α} (ho : o.NoExn) : SDo ls js m0 (Prog.lift o) [] [] := by
  intro cs evs m hs
  cases o with
  | ok a =>
    show Sits ls js m0 (cs ++ []) (evs ++ []) m
    simpa using hs
  | exn e => exact absurd rfl (ho e)
  | ub u => trivial
  | hang => trivial

theorem SDo.readTotal : SDo ls js m0 (Prog.read fun m : KinModel K => Outcome.ok m.totalMass) [] [] := by
  intro cs evs m hs
  show Sits ls js m0 (cs ++ []) (evs ++ []) m
  simpa using hs

theorem SDo.pose (l : Nat) : SDo ls js m0 (getLinkPose l) [] [.ask l] := .of (.getLinkPose l) fun _ _ _ _ _ h e => h.pose e
theorem SDo.jac (l : Nat) (ids : List Nat) (rt : RotType) (b : Bool) : SDo ls js m0 (getJacobian l ids rt b) [] [.ask l] :=
  .of (.getJacobian l ids rt b) fun _ _ _ _ _ h e => h.jac e
theorem SDo.com : SDo ls js m0 getCom [] [.askMasses] := .of .getCom fun _ _ _ _ _ h e => h.com e
theorem SDo.comJac (ids : List Nat) (b : Bool) : SDo ls js m0 (getComJacobian ids b) [] [.askMasses] :=
  .of (.getComJacobian ids b) fun _ _ _ _ _ h e => h.comJac e
theorem SDo.inertia' : SDo ls js m0 getTotalInertia [] [.askMasses] := .of .getTotalInertia fun _ _ _ _ _ h e => h.inertia e

theorem SDo.setNC (ids : List Nat) (q : List K) : SDo ls js m0 (setJointAnglesNC ids q)
    [.setJointAngles ids (q.take ids.length)] [.write ids (q.take ids.length)] := by
  intro cs evs m hs
  obtain ⟨mc, ha⟩ := hs.at_
  have := Does.setNC (ls := ls) (js := js) (m0 := m0) ids q cs mc m ha
  cases hp : setJointAnglesNC ids q m with
  | ok a m' =>
    rw [hp] at this
    obtain ⟨mc', h1⟩ := this
    exact (hs.write' hp h1).evSame ((EvSame.refl _).append (.take ids q))
  | exn e m' => rw [hp] at this; exact this
  | ub u => trivial
  | hang => trivial

theorem SDo.clear : SDo ls js m0 (clearCache : Prog (KinModel K) Unit) [] [.clear] := by
  intro cs evs m hs
  have := hs.clear (m' := { m with cache := m.cache.clear }) (u := ()) rfl
  rw [List.append_nil]
  exact this

theorem SDo.setBase (p : Pose K) : SDo ls js m0 (setBasePose p) [.setBasePose p] [.clear] := by
  intro cs evs m hs
  exact hs.setBase (m' := { m with base := p, cache := m.cache.clear }) (u := ()) rfl

theorem SDo.setBaseFromTail {q : List K} {n : Nat} (hq : q.length = n + 6) :
    ∃ p, basePart n .floating q = some p ∧ SDo ls js m0 (setBaseFromTail q) [.setBasePose p] [.clear] := by
  obtain ⟨x, y, z, r, p, w, hd⟩ := drop_six hq
  refine ⟨⟨⟨x, y, z⟩, Rot.fromRPY r p w⟩, by simp only [basePart, hd], ?_⟩
  have : Tinyfk.setBaseFromTail q = setBasePose (poseOfXyzrpy x y z r p w) := by
    unfold Tinyfk.setBaseFromTail
    rw [if_neg (by omega), hq, Nat.add_sub_cancel, hd]
  rw [this]
  exact .setBase _

/-- the joint angles and base of one configuration -/
theorem SDo.config {ids : List Nat} {q : List K} {wb : Bool} {p : Prog (KinModel K) α} {e : List (Call K)} {v : List (Event K)}
    (hq : q.length = ids.length + (wrapBase wb).dof) (hp : SDo ls js m0 p e v) :
    SDo ls js m0 (setJointAnglesNC ids q >>= fun _ => if wb then Tinyfk.setBaseFromTail q >>= fun _ => p else p)
      (configCalls ids (wrapBase wb) q ++ e) (configEvents ids (wrapBase wb) true q ++ v) := by
  cases wb with
  | false =>
    have : configCalls ids (wrapBase false) q = [.setJointAngles ids (q.take ids.length)] := by
      simp [configCalls, wrapBase, basePart]
    rw [this]
    exact .bind (.setNC _ _) fun _ => by simpa using hp
  | true =>
    obtain ⟨b, hb, hd⟩ := SDo.setBaseFromTail (ls := ls) (js := js) (m0 := m0) (q := q) (n := ids.length)
      (by simpa [wrapBase, BaseType.dof] using hq)
    have : configCalls ids (wrapBase true) q ++ e =
        [.setJointAngles ids (q.take ids.length)] ++ ([.setBasePose b] ++ e) := by
      simp [configCalls, wrapBase, hb]
    rw [this]
    have : configEvents ids (wrapBase true) true q ++ v = [.write ids (q.take ids.length)] ++ ([.clear] ++ v) := by
      simp [configEvents, wrapBase]
    rw [this]
    refine .bind (.setNC _ _) fun _ => ?_
    simp only [if_true]
    exact .bind hd fun _ => hp

theorem SDo.applyConfig {ids : List Nat} {q : List K} {wb uc : Bool}
    (hq : q.length = ids.length + (wrapBase wb).dof) :
    SDo ls js m0 (applyConfig ids wb uc q) (configCalls ids (wrapBase wb) q) (configEvents ids (wrapBase wb) uc q) := by
  have e : Tinyfk.applyConfig ids wb uc q = (setJointAnglesNC ids q >>= fun _ =>
      if wb then Tinyfk.setBaseFromTail q >>= fun _ => (if uc then Pure.pure () else clearCache)
      else (if uc then Pure.pure () else clearCache)) := by
    cases wb <;> cases uc <;> rfl
  rw [e]
  cases uc with
  | true =>
    have := SDo.config (ls := ls) (js := js) (m0 := m0) (ids := ids) (q := q) (wb := wb) hq
      (p := Pure.pure ()) (.pure ())
    simpa using this
  | false =>
    have := SDo.config (ls := ls) (js := js) (m0 := m0) (ids := ids) (q := q) (wb := wb) hq
      (p := clearCache) .clear
    rw [List.append_nil] at this
    refine SDo.evSame (by simpa using this) ?_
    cases wb with
    | false => exact .refl _
    | true => exact EvSame.append (e1 := [.write ids (q.take ids.length)]) (.refl _) .clear

theorem SDo.fkPoseLoop (rt : RotType) (head0 : Nat) (es : List Nat) (j : Nat) (P : Mat K) :
    SDo ls js m0 (fkPoseLoop rt head0 es j P) [] (es.map .ask) := by
  induction es generalizing j P with
  | nil => exact .pure _
  | cons l es ih =>
    unfold Tinyfk.fkPoseLoop
    exact SDo.bind' (v1 := [.ask l]) (.pose l) fun tf => SDo.bind' (v1 := []) (.lift (Mat.noExn_setCol _ _ _ _)) fun _ => ih _ _

theorem SDo.fkJacLoop (rt : RotType) (ids : List Nat) (wb : Bool) (head0 : Nat) (es : List Nat) (j : Nat) (J : Mat K) :
    SDo ls js m0 (fkJacLoop rt ids wb head0 es j J) [] (es.map .ask) := by
  induction es generalizing j J with
  | nil => exact .pure _
  | cons l es ih =>
    unfold Tinyfk.fkJacLoop
    exact SDo.bind' (v1 := [.ask l]) (.jac l _ _ _) fun tf => SDo.bind' (v1 := []) (.lift (Mat.noExn_setBlock _ _ _ _)) fun _ => ih _ _

theorem batchEvents_cons (ids : List Nat) (bt : BaseType) (keep : Bool) (asks : List (Event K)) (q : List K) (qs : List (List K)) :
    batchEvents ids bt keep asks (q :: qs) = configEvents ids bt keep q ++ (asks ++ batchEvents ids bt keep asks qs) := by
  simp [batchEvents]

theorem EvSame.twice {e : List (Event K)} (h : ∀ x ∈ e, x.IsAsk) : EvSame (e ++ e) e :=
  .asks (by simpa using h) (by simp)

theorem SDo.fkLoop (es ids : List Nat) (rt : RotType) (wb wj uc : Bool) (qs : List (List K))
    (hq : ∀ q ∈ qs, q.length = ids.length + (wrapBase wb).dof) (i : Nat) (P J : Mat K) :
    SDo ls js m0 (fkLoop es ids rt wb wj uc qs i P J) (batchCalls ids (wrapBase wb) qs)
      (batchEvents ids (wrapBase wb) uc (es.map .ask) qs) := by
  induction qs generalizing i P J with
  | nil => exact .pure _
  | cons q qs ih =>
    rw [batchCalls_cons, batchEvents_cons]
    have ih' := ih (fun q h => hq q (by simp [h]))
    unfold Tinyfk.fkLoop
    refine .bind (.applyConfig (hq q (by simp))) fun _ => ?_
    cases wj
    · exact SDo.bind (e1 := []) (.fkPoseLoop _ _ _ _ _) fun P' => ih' _ _ _
    · refine SDo.evSame (ev := es.map .ask ++ (es.map .ask ++ batchEvents ids (wrapBase wb) uc (es.map .ask) qs)) ?_ ?_
      · exact SDo.bind (e1 := []) (.fkPoseLoop _ _ _ _ _) fun P' =>
          SDo.bind (e1 := []) (.fkJacLoop _ _ _ _ _ _ _) fun J' => ih' _ _ _
      · rw [← List.append_assoc]
        exact (EvSame.twice (isAsk_map es)).append (.refl _)

/-- the pairs of links asked for -/
theorem isAsk_pairs (ps : List (Nat × Nat)) : ∀ x ∈ pairAsks (K := K) ps, x.IsAsk := by
  intro x hx
  simp only [pairAsks, List.mem_flatMap, List.mem_cons, List.not_mem_nil, or_false] at hx
  obtain ⟨p, _, rfl | rfl⟩ := hx <;> trivial

theorem SDo.distLoop (ids : List Nat) (wb wg : Bool) (nJ head0 : Nat) (l2 l1 : List Nat) (j : Nat) (D G : Mat K) :
    SDo ls js m0 (distLoop ids wb wg nJ head0 l2 l1 j D G) [] (pairAsks (l1.zip (l2.drop j))) := by
  induction l1 generalizing j D G with
  | nil => exact .pure _
  | cons a l ih =>
    unfold Tinyfk.distLoop
    cases hl : l2[j]? with
    | none =>
      intro cs evs m hs
      rw [Prog.bind_apply]
      have := SDo.pose (ls := ls) (js := js) (m0 := m0) a cs evs m hs
      cases hp : getLinkPose a m with
      | ok tf m1 =>
        simp only [Prog.bind_apply, Prog.lift, Prog.read, Outcome.idx, hl]
      | exn e m1 => rw [hp] at this; exact this
      | ub u => trivial
      | hang => trivial
    | some b =>
      obtain ⟨hj, rfl⟩ := List.getElem?_eq_some_iff.mp hl
      rw [List.drop_eq_getElem_cons hj]
      have e : pairAsks (K := K) ((a :: l).zip (l2[j] :: l2.drop (j + 1))) =
          [.ask a] ++ ([.ask l2[j]] ++ pairAsks (l.zip (l2.drop (j + 1)))) := rfl
      rw [e]
      have hidx : (Prog.lift (Outcome.idx "link_ids2" l2 j) : Prog (KinModel K) Nat) = Pure.pure l2[j] := by
        simp only [Outcome.idx, hl]; rfl
      rw [hidx]
      have hD : ∀ v, SDo ls js m0 (Prog.lift (D.set (head0 + j) 0 v)) [] [] := fun v => .lift (Mat.noExn_set _ _ _ _)
      cases wg with
      | false =>
        exact SDo.bind' (.pose a) fun tf1 => SDo.pureBind (SDo.bind' (.pose _) fun tf2 =>
          SDo.bind' (v1 := []) (hD _) fun D' => ih _ _ _)
      | true =>
        refine SDo.evSame (ev := [.ask a] ++ ([.ask l2[j]] ++ ([] ++ ([.ask a] ++ ([.ask l2[j]] ++
          ([] ++ pairAsks (l.zip (l2.drop (j + 1))))))))) ?_ ?_
        · exact SDo.bind' (.pose a) fun tf1 => SDo.pureBind (SDo.bind' (.pose _) fun tf2 =>
            SDo.bind' (v1 := []) (hD _) fun D' => SDo.bind' (.jac _ _ _ _) fun _ => SDo.bind' (.jac _ _ _ _) fun _ =>
              SDo.bind' (.lift (Mat.noExn_setBlock _ _ _ _)) fun _ => ih _ _ _)
        · have := (EvSame.twice (e := ([.ask a, .ask l2[j]] : List (Event K))) (isAsk_map [a, l2[j]])).append
            (.refl (pairAsks (l.zip (l2.drop (j + 1)))))
          simpa using this

theorem SDo.distFkLoop (ids l1 l2 : List Nat) (wb wg uc : Bool) (nJ : Nat) (qs : List (List K))
    (hq : ∀ q ∈ qs, q.length = ids.length + (wrapBase wb).dof) (i : Nat) (D G : Mat K) :
    SDo ls js m0 (distFkLoop ids l1 l2 wb wg uc nJ qs i D G) (batchCalls ids (wrapBase wb) qs)
      (batchEvents ids (wrapBase wb) uc (pairAsks (l1.zip l2)) qs) := by
  induction qs generalizing i D G with
  | nil => exact .pure _
  | cons q qs ih =>
    rw [batchCalls_cons, batchEvents_cons]
    exact .bind (.applyConfig (hq q (by simp))) fun _ => .bind (e1 := []) (.distLoop _ _ _ _ _ _ _ _ _ _)
      fun _ => ih (fun q h => hq q (by simp [h])) _ _ _

theorem SDo.actionLoop (ids : List Nat) (wb wj : Bool) (fs : List K) (i nDof : Nat) (l : List Nat) (j : Nat) (s : K) (C J : Mat K) :
    SDo ls js m0 (actionLoop ids wb wj fs i nDof l j s C J) [] (l.map .ask) := by
  induction l generalizing j s C J with
  | nil => exact .pure _
  | cons a l ih =>
    unfold Tinyfk.actionLoop
    refine SDo.bind' (v1 := []) (.lift (.idx _ _ _)) fun fj => SDo.bind' (v1 := []) .readTotal fun mt => ?_
    have hC : ∀ (tf : Pose K) (force : K), Outcome.NoExn (do
      let c0 ← C.get 0 i
      let C ← C.set 0 i (c0 + force * tf.position.x)
      let c1 ← C.get 1 i
      let C ← C.set 1 i (c1 + force * tf.position.y)
      let c2 ← C.get 2 i
      C.set 2 i (c2 + force * tf.position.z)) := fun tf force =>
      .bind (Mat.noExn_get _ _ _) fun _ => .bind (Mat.noExn_set _ _ _ _) fun _ =>
        .bind (Mat.noExn_get _ _ _) fun _ => .bind (Mat.noExn_set _ _ _ _) fun _ =>
        .bind (Mat.noExn_get _ _ _) fun _ => Mat.noExn_set _ _ _ _
    cases wj with
    | false =>
      exact SDo.bind' (v1 := [.ask a]) (.pose a) fun tf => SDo.bind' (v1 := []) (.lift (hC _ _)) fun _ => ih _ _ _ _
    | true =>
      refine SDo.evSame (ev := [.ask a] ++ ([] ++ ([.ask a] ++ ([] ++ l.map .ask)))) ?_ ?_
      · exact SDo.bind' (v1 := [.ask a]) (.pose a) fun tf => SDo.bind' (v1 := []) (.lift (hC _ _)) fun _ =>
          SDo.bind' (.jac _ _ _ _) fun _ => SDo.bind' (.lift (Mat.noExn_addBlock _ _ _ _ _ _ _)) fun _ => ih _ _ _ _
      · have := (EvSame.twice (e := ([.ask a] : List (Event K))) (isAsk_map [a])).append (.refl (l.map .ask))
        simpa using this

theorem SDo.comRow (ids al : List Nat) (fs : List K) (wb wj : Bool) (nDof i : Nat) (C J : Mat K) :
    SDo ls js m0 (comRow ids al fs wb wj nDof i C J) [] (.askMasses :: al.map .ask) := by
  have key : ∀ C J, SDo ls js m0 (if al.length > 0 then (do
      let (s, C, J) ← Tinyfk.actionLoop ids wb wj fs i nDof al 0 1 C J
      let C ← Prog.lift (C.mapBlock 0 i 3 1 (· / s))
      let J ← if wj then Prog.lift (J.mapBlock (3 * i) 0 3 nDof (· / s)) else Pure.pure J
      Pure.pure (C, J))
      else Pure.pure (C, J) : Prog (KinModel K) (Mat K × Mat K)) [] (al.map .ask) := by
    intro C J
    by_cases hal : al.length > 0
    · simp only [hal, if_true]
      have := SDo.bind' (ls := ls) (js := js) (m0 := m0) (SDo.actionLoop ids wb wj fs i nDof al 0 1 C J)
        (f := fun (x : K × Mat K × Mat K) => do
          let C ← Prog.lift (x.2.1.mapBlock 0 i 3 1 (· / x.1))
          let J ← if wj then Prog.lift (x.2.2.mapBlock (3 * i) 0 3 nDof (· / x.1)) else Pure.pure x.2.2
          (Pure.pure (C, J) : Prog (KinModel K) (Mat K × Mat K))) (v2 := []) fun x => by
        refine SDo.bind' (v1 := []) (v2 := []) (.lift (Mat.noExn_mapBlock _ _ _ _ _ _)) fun _ => ?_
        cases wj
        · exact .pure _
        · exact SDo.bind' (v1 := []) (.lift (Mat.noExn_mapBlock _ _ _ _ _ _)) fun _ => .pure _
      rw [List.append_nil] at this
      exact this
    · have hn : al = [] := by
        cases al with
        | nil => rfl
        | cons a l => exact absurd (by simp) hal
      subst hn
      exact .pure _
  unfold Tinyfk.comRow
  cases wj
  · exact SDo.bind' (v1 := [.askMasses]) .com fun _ => SDo.bind' (v1 := []) (.lift (Mat.noExn_setCol _ _ _ _)) fun _ => key _ _
  · refine SDo.evSame (ev := [.askMasses] ++ ([] ++ ([.askMasses] ++ ([] ++ al.map .ask)))) ?_ ?_
    · exact SDo.bind' .com fun _ => SDo.bind' (.lift (Mat.noExn_setCol _ _ _ _)) fun _ =>
        SDo.bind' (.comJac _ _) fun _ => SDo.bind' (.lift (Mat.noExn_setBlock _ _ _ _)) fun _ => key _ _
    · have := (EvSame.twice (e := ([.askMasses] : List (Event K))) (by simp [Event.IsAsk])).append (.refl (al.map .ask))
      simpa using this

theorem SDo.comFkLoop (ids al : List Nat) (fs : List K) (wb wj : Bool) (nDof : Nat) (qs : List (List K))
    (hq : ∀ q ∈ qs, q.length = ids.length + (wrapBase wb).dof) (i : Nat) (C J : Mat K) :
    SDo ls js m0 (comFkLoop ids al fs wb wj nDof qs i C J) (batchCalls ids (wrapBase wb) qs)
      (batchEvents ids (wrapBase wb) true (.askMasses :: al.map .ask) qs) := by
  induction qs generalizing i C J with
  | nil => exact .pure _
  | cons q qs ih =>
    rw [batchCalls_cons, batchEvents_cons]
    have ih' := ih (fun q h => hq q (by simp [h]))
    unfold Tinyfk.comFkLoop
    have main : SDo ls js m0 (do
        let CJ ← Tinyfk.comRow ids al fs wb wj nDof i C J
        Tinyfk.comFkLoop ids al fs wb wj nDof qs (i + 1) CJ.1 CJ.2) (batchCalls ids (wrapBase wb) qs)
        ((.askMasses :: al.map .ask) ++ batchEvents ids (wrapBase wb) true (.askMasses :: al.map .ask) qs) :=
      .bind (e1 := []) (.comRow _ _ _ _ _ _ _ _ _) fun _ => ih' _ _ _
    have := SDo.config (ls := ls) (js := js) (m0 := m0) (ids := ids) (q := q) (wb := wb) (hq q (by simp)) main
    cases wb <;> exact this

theorem SDo.solveFk (qs : List (List K)) (es ids : List Nat) (rt : RotType) (wb wj uc : Bool)
    (hq : ∀ q ∈ qs, q.length = ids.length + (wrapBase wb).dof) :
    SDo ls js m0 (solveForwardKinematics qs es ids rt wb wj uc) (batchCalls ids (wrapBase wb) qs)
      (batchEvents ids (wrapBase wb) uc (es.map .ask) qs) := by
  unfold solveForwardKinematics
  have main : ∀ P J, SDo ls js m0 (Tinyfk.fkLoop es ids rt wb wj uc qs 0 P J >>= fun x =>
      (Pure.pure (x.1.transpose, x.2) : Prog (KinModel K) (Mat K × Mat K)))
      (batchCalls ids (wrapBase wb) qs) (batchEvents ids (wrapBase wb) uc (es.map .ask) qs) := fun P J => by
    have := SDo.bind (e2 := []) (v2 := []) (SDo.fkLoop (ls := ls) (js := js) (m0 := m0) es ids rt wb wj uc qs hq 0 P J)
      (f := fun x => (Pure.pure (x.1.transpose, x.2) : Prog (KinModel K) (Mat K × Mat K))) fun _ => .pure _
    rwa [List.append_nil, List.append_nil] at this
  cases wb with
  | false => exact main _ _
  | true =>
    cases qs with
    | nil => exact fun _ _ _ _ => trivial
    | cons q0 qs =>
      have h0 := hq q0 (by simp)
      simp only [wrapBase, BaseType.dof, if_true] at h0
      have : ¬ (q0.length < 6 ∨ ids.length ≠ q0.length - 6) := by omega
      simp only [this, if_false, if_true]
      exact main _ _

theorem SDo.solveComFk (qs : List (List K)) (ids al : List Nat) (fs : List K) (wb wj : Bool)
    (hq : ∀ q ∈ qs, q.length = ids.length + (wrapBase wb).dof) :
    SDo ls js m0 (solveComForwardKinematics qs ids al fs wb wj) (batchCalls ids (wrapBase wb) qs)
      (batchEvents ids (wrapBase wb) true (.askMasses :: al.map .ask) qs) := by
  unfold solveComForwardKinematics
  have := SDo.bind (e2 := []) (v2 := []) (SDo.comFkLoop (ls := ls) (js := js) (m0 := m0) ids al fs wb wj
      (ids.length + if wb then 6 else 0) qs hq 0 (Mat.zero 3 qs.length)
      (Mat.zero (3 * qs.length) (ids.length + if wb then 6 else 0)))
    (f := fun x => (Pure.pure (x.1.transpose, x.2) : Prog (KinModel K) (Mat K × Mat K))) fun _ => .pure _
  rwa [List.append_nil, List.append_nil] at this

theorem zip_fst_snd (ps : List (Nat × Nat)) : (ps.map Prod.fst).zip (ps.map Prod.snd) = ps := by
  induction ps with
  | nil => rfl
  | cons p ps ih => simp [ih]

theorem SDo.sqdists (qs : List (List K)) (ps : List (Nat × Nat)) (ids : List Nat) (wb wg uc : Bool)
    (hq : ∀ q ∈ qs, q.length = ids.length + (wrapBase wb).dof) :
    SDo ls js m0 (computeInterLinkSquaredDists qs (ps.map Prod.fst) (ps.map Prod.snd) ids wb wg uc)
      (batchCalls ids (wrapBase wb) qs) (batchEvents ids (wrapBase wb) uc (pairAsks ps) qs) := by
  have := SDo.distFkLoop (ls := ls) (js := js) (m0 := m0) ids (ps.map Prod.fst) (ps.map Prod.snd) wb wg uc
    (ids.length + if wb then 6 else 0) qs hq 0 (Mat.zero ((ps.map Prod.fst).length * qs.length) 1)
    (if wg then Mat.zero ((ps.map Prod.fst).length * qs.length) (ids.length + if wb then 6 else 0) else Mat.zero 1 1)
  rw [zip_fst_snd] at this
  exact this

theorem SDo.inertia (q : List K) (ids : List Nat) :
    SDo ls js m0 (computeTotalInertiaMatrix q ids) [.setJointAngles ids (q.take ids.length)]
      [.write ids (q.take ids.length), .askMasses] :=
  .bind (e2 := []) (.setNC _ _) fun _ => .inertia'

theorem SDo.setJointAngles (ids : List Nat) (q : List K) :
    SDo ls js m0 (setJointAngles ids q) [.setJointAngles ids (q.take ids.length)] [.write ids (q.take ids.length), .clear] :=
  .bind (e2 := []) (.setNC _ _) fun _ => .clear

/-! ### Python calls -/

/-- `p` has the effect `eff` and the events `ev` when it returns, and none when it raises. -/
def PySDo (ls : List (RawLink K)) (js : List (RawJoint K)) (m0 : KinModel K)
    (p : Prog (PyModel K) α) (eff : List (Call K)) (ev : List (Event K)) : Prop :=
  ∀ cs evs s, Sits ls js m0 cs evs s.robot → match p s with
    | .ok _ s' => Sits ls js m0 (cs ++ eff) (evs ++ ev) s'.robot
    | .exn _ s' => Sits ls js m0 cs evs s'.robot
    | .ub _ => True
    | .hang => True

theorem PySDo.bind {p : Prog (PyModel K) α} {f : α → Prog (PyModel K) β} {Q : α → Prop}
    {e : List (Call K)} {v : List (Event K)}
    (h : PySDo ls js m0 p [] []) (hQ : Post p Q) (h' : ∀ a, Q a → PySDo ls js m0 (f a) e v) :
    PySDo ls js m0 (p >>= f) e v := by
  intro cs evs s ha
  have h1 := h cs evs s ha
  rw [Prog.bind_apply]
  cases hp : p s with
  | ok a s1 =>
    rw [hp] at h1
    simp only [List.append_nil] at h1
    exact h' a (hQ _ _ _ hp) _ _ _ h1
  | exn x s1 => rw [hp] at h1; exact h1
  | ub u => trivial
  | hang => trivial

theorem PySDo.andThen {p : Prog (PyModel K) α} {f : α → Prog (PyModel K) β} {Q : α → Prop}
    {e : List (Call K)} {v : List (Event K)} (h : PySDo ls js m0 p e v) (hQ : Post p Q)
    (h' : ∀ a, Q a → ∀ s, ∃ b, f a s = .ok b s) : PySDo ls js m0 (p >>= f) e v := by
  intro cs evs s ha
  have h1 := h cs evs s ha
  rw [Prog.bind_apply]
  cases hp : p s with
  | ok a s1 =>
    rw [hp] at h1
    obtain ⟨b, hb⟩ := h' a (hQ _ _ _ hp) s1
    simp only [hb]
    exact h1
  | exn x s1 => rw [hp] at h1; exact h1
  | ub u => trivial
  | hang => trivial

/-- a program that leaves the object as it is -/
theorem PySDo.frozen {p : Prog (PyModel K) α} (h : ∀ s, match p s with
    | .ok _ s' => s'.robot = s.robot
    | .exn _ s' => s'.robot = s.robot
    | .ub _ => True
    | .hang => True) : PySDo ls js m0 p [] [] := by
  intro cs evs s ha
  have := h s
  cases hp : p s with
  | ok a s1 => rw [hp] at this; simp only [List.append_nil]; rw [this]; exact ha
  | exn x s1 => rw [hp] at this; simp only; rw [this]; exact ha
  | ub u => trivial
  | hang => trivial

theorem PySDo.pure (a : α) : PySDo ls js m0 (Pure.pure a) [] [] := .frozen fun _ => rfl

theorem PySDo.throw (e : Exn) (eff : List (Call K)) (v : List (Event K)) :
    PySDo ls js m0 (Prog.throw e : Prog (PyModel K) α) eff v := fun _ _ _ h => h

theorem PySDo.lift (o : Outcome α) : PySDo ls js m0 (Prog.lift o : Prog (PyModel K) α) [] [] := by
  refine .frozen fun s => ?_
  cases o <;> trivial

theorem PySDo.assert (c : Bool) (msg : String) : PySDo ls js m0 (pyAssert c msg : Prog (PyModel K) Unit) [] [] := by
  cases c
  · exact .throw _ _ _
  · exact .pure _

theorem PySDo.ite {c : Prop} [Decidable c] {p q : Prog (PyModel K) α} {e : List (Call K)} {v : List (Event K)}
    (hp : PySDo ls js m0 p e v) (hq : PySDo ls js m0 q e v) : PySDo ls js m0 (if c then p else q) e v := by
  split <;> assumption

theorem PySDo.robot {p : Prog (KinModel K) α} {e : List (Call K)} {v : List (Event K)} (h : SDo ls js m0 p e v) :
    PySDo ls js m0 (onRobot p) e v := by
  intro cs evs s ha
  have := h cs evs s.robot ha
  unfold onRobot
  cases hp : p s.robot with
  | ok a m' => rw [hp] at this; exact this
  | exn x m' => rw [hp] at this; exact this.elim
  | ub u => trivial
  | hang => trivial

theorem PySDo.read (f : KinModel K → Outcome α) : PySDo ls js m0 (onRobot (Prog.read f)) [] [] := by
  refine .frozen fun s => ?_
  unfold onRobot Prog.read
  cases f s.robot <;> trivial

theorem PySDo.modify {f : PyModel K → PyModel K} (hf : ∀ s, (f s).robot = s.robot)
    {p : Unit → Prog (PyModel K) α} {e : List (Call K)} {v : List (Event K)} (h : PySDo ls js m0 (p ()) e v) :
    PySDo ls js m0 (Prog.modify f >>= p) e v := by
  intro cs evs s ha
  have := h cs evs (f s) (by rw [hf]; exact ha)
  rw [Prog.bind_apply]
  exact this

theorem PySDo.evSame {p : Prog (PyModel K) α} {e : List (Call K)} {v v' : List (Event K)} (h : PySDo ls js m0 p e v)
    (hv : EvSame v v') : PySDo ls js m0 p e v' := by
  intro cs evs s hs
  have := h cs evs s hs
  cases hp : p s with
  | ok a m' => rw [hp] at this; exact this.evSame ((EvSame.refl _).append hv)
  | exn e m' => rw [hp] at this; exact this
  | ub u => trivial
  | hang => trivial

theorem PySDo.setQ (ids : List Nat) (q : List K) (bt : BaseType) :
    PySDo ls js m0 (pySetQ ids q bt) (configCalls ids bt q) [.write ids (q.take ids.length), .clear] := by
  unfold pySetQ
  refine PySDo.modify (K := K) ?_ ?_
  · exact fun _ => rfl
  have hset : ∀ p : Pose K, SDo ls js m0 (Tinyfk.setJointAngles ids (q.take ids.length) >>= fun _ => setBasePose p)
      ([.setJointAngles ids (q.take ids.length)] ++ [.setBasePose p]) [.write ids (q.take ids.length), .clear] := by
    intro p
    refine SDo.evSame (ev := [.write ids (q.take ids.length), .clear] ++ [.clear]) (.bind ?_ fun _ => .setBase _) ?_
    · have := SDo.setJointAngles (ls := ls) (js := js) (m0 := m0) ids (q.take ids.length)
      rwa [List.take_take, min_self] at this
    · exact EvSame.append (e1 := [.write ids (q.take ids.length)]) (.refl _) .clear
  cases bt with
  | fixed =>
    refine .bind (.assert _ _) (Post.assert _ _) fun _ _ => ?_
    have : configCalls ids .fixed q = [.setJointAngles ids (q.take ids.length)] := by
      simp [configCalls, basePart]
    rw [this]
    exact .robot (.setJointAngles _ _)
  | planer =>
    refine .bind (.assert _ _) (Post.assert _ _) fun _ hq => ?_
    have hq : q.length = ids.length + 3 := by simpa using hq
    obtain ⟨x, y, w, hd⟩ := drop_three hq
    have h3 : q.length - 3 = ids.length := by omega
    simp only [h3, hd]
    have hcc : configCalls ids .planer q =
        [.setJointAngles ids (q.take ids.length)] ++ [.setBasePose (poseOfXyzrpy x y 0 0 0 w)] := by
      simp [configCalls, basePart, hd, poseOfXyzrpy]
    rw [hcc]
    have hr : ∀ s : PyModel K, (onRobot (Tinyfk.setJointAngles ids (q.take ids.length)) >>= fun _ =>
        onRobot (setBasePoseVec [x, y, 0, 0, 0, w])) s =
        onRobot (Tinyfk.setJointAngles ids (q.take ids.length) >>= fun _ =>
          setBasePose (poseOfXyzrpy x y 0 0 0 w)) s := by
      intro s
      simp only [Prog.bind_apply, onRobot]
      cases Tinyfk.setJointAngles ids (q.take ids.length) s.robot <;> simp [setBasePoseVec]
    intro cs evs s ha
    rw [hr]
    exact PySDo.robot (hset _) cs evs s ha
  | floating =>
    refine .bind (.assert _ _) (Post.assert _ _) fun _ hq => ?_
    have hq : q.length = ids.length + 6 := by simpa using hq
    obtain ⟨x, y, z, r, p, w, hd⟩ := drop_six hq
    have h3 : q.length - 6 = ids.length := by omega
    simp only [h3, hd]
    have hcc : configCalls ids .floating q =
        [.setJointAngles ids (q.take ids.length)] ++ [.setBasePose (poseOfXyzrpy x y z r p w)] := by
      simp [configCalls, basePart, hd, poseOfXyzrpy]
    rw [hcc]
    have hr : ∀ s : PyModel K, (onRobot (Tinyfk.setJointAngles ids (q.take ids.length)) >>= fun _ =>
        onRobot (setBasePoseVec [x, y, z, r, p, w])) s =
        onRobot (Tinyfk.setJointAngles ids (q.take ids.length) >>= fun _ =>
          setBasePose (poseOfXyzrpy x y z r p w)) s := by
      intro s
      simp only [Prog.bind_apply, onRobot]
      cases Tinyfk.setJointAngles ids (q.take ids.length) s.robot <;> simp [setBasePoseVec]
    intro cs evs s ha
    rw [hr]
    exact PySDo.robot (hset _) cs evs s ha

theorem PySDo.addNewLink (a : AddArgs K) : PySDo ls js m0 (pyAddNewLink a)
    [.addNewLink a.name a.parent
      ⟨a.position, Rot.fromRPY (a.rpy.getD Vec3.zero).x (a.rpy.getD Vec3.zero).y (a.rpy.getD Vec3.zero).z⟩] [.clear] := by
  refine PySDo.modify (K := K) ?_ ?_
  · exact fun _ => rfl
  intro cs evs s ha
  generalize ho : (⟨a.position, Rot.fromRPY (a.rpy.getD Vec3.zero).x (a.rpy.getD Vec3.zero).y
    (a.rpy.getD Vec3.zero).z⟩ : Pose K) = o
  have hw : wAddNewLink a.name a.parent a.position (a.rpy.getD Vec3.zero) =
      (Tinyfk.addNewLink a.name a.parent o >>= fun _ => Pure.pure ()) := by
    rw [← ho]; rfl
  simp only [onRobot, hw, Prog.bind_apply]
  cases hn : s.robot.linkIds.find a.name with
  | some x =>
    rw [addNewLink_dup hn]
    exact ha
  | none =>
    cases he : Tinyfk.addNewLink a.name a.parent o s.robot with
    | ok v m' => exact ha.addLink he
    | exn e m' =>
      obtain ⟨mc, h⟩ := ha.at_
      by_cases hp : a.parent < s.robot.links.length
      · obtain ⟨mc', m'', e, h'⟩ := h.addLink (o := o) hn hp
        rw [he] at e; cases e
      · simp only [Tinyfk.addNewLink, hn, hp, if_false] at he
        cases he
    | ub u => trivial
    | hang => trivial

theorem modifyInput_events {ids : List Nat} {rows rows' : List (List K)} (h : ∀ r ∈ rows, r.length = ids.length + 3)
    (e : modifyInput ids.length rows = .ok rows') (keep : Bool) (asks : List (Event K)) :
    batchEvents ids .floating keep asks rows' = batchEvents ids .planer keep asks rows := by
  unfold modifyInput at e
  induction rows generalizing rows' with
  | nil => cases e; rfl
  | cons r rows ih =>
    simp only [mapOutcome] at e
    obtain ⟨r', h1, h2, h3, _⟩ := modifyRow_spec (h r (by simp))
    rw [h1] at e
    simp only [Outcome.bind_eq, Outcome.bind_ok] at e
    cases hm : mapOutcome (modifyRow ids.length) rows with
    | ok rs =>
      rw [hm] at e
      cases e
      rw [batchEvents_cons, batchEvents_cons, ih (fun r hr => h r (by simp [hr])) hm]
      congr 1
      simp [configEvents, h3]
    | exn x => rw [hm] at e; cases e
    | ub u => rw [hm] at e; cases e
    | hang => rw [hm] at e; cases e

theorem PySDo.prepareRows (n : Nat) (bt : BaseType) (a : Arr2 K) : PySDo ls js m0 (prepareRows n bt a) [] [] := by
  cases bt with
  | fixed => exact .bind (.assert _ _) (Post.assert _ _) fun _ _ => .pure _
  | planer => exact .bind (.assert _ _) (Post.assert _ _) fun _ _ => .lift _
  | floating => exact .bind (.assert _ _) (Post.assert _ _) fun _ _ => .pure _

theorem Post.prepareRows_events (ids : List Nat) (bt : BaseType) (a : Arr2 K) :
    Post (Tinyfk.prepareRows ids.length bt a) (fun rows =>
      ((∀ r ∈ rows, r.length = ids.length + (wrapBase (bt != .fixed)).dof) ∧
      batchCalls ids (wrapBase (bt != .fixed)) rows = batchCalls ids bt a.rows) ∧
      ∀ keep asks, batchEvents ids (wrapBase (bt != .fixed)) keep asks rows = batchEvents ids bt keep asks a.rows) := by
  intro s s' rows e
  refine ⟨Post.prepareRows ids bt a s s' rows e, ?_⟩
  revert s s' rows
  show Post _ _
  cases bt with
  | fixed => exact Post.bind (Post.assert _ _) fun _ h => .pure fun _ _ => rfl
  | planer =>
    refine Post.bind (Post.assert _ _) fun _ h => Post.lift fun rows e => ?_
    exact modifyInput_events (fun r hr => by rw [a.wf r hr]; simpa using h) e
  | floating => exact Post.bind (Post.assert _ _) fun _ h => .pure fun _ _ => rfl

theorem PySDo.solveFk (qs : QArg K) (es ids : List Nat) (rt : RotType) (bt : BaseType) (wj uc : Bool) :
    PySDo ls js m0 (pySolveFk qs es ids rt bt wj uc) (batchCalls ids bt qs.rows)
      (batchEvents ids bt uc (es.map .ask) qs.rows) := by
  unfold pySolveFk
  refine .bind (.lift _) (Post.lift fun _ h => fkArg_rows h) fun a ha => ?_
  rw [← ha]
  refine .bind (.prepareRows _ _ _) (Post.prepareRows_events _ _ _) fun rows hr => ?_
  rw [← hr.1.2, ← hr.2]
  refine .andThen (.robot (.solveFk rows es ids rt (bt != .fixed) wj uc hr.1.1))
    (Post.robot (.solveFk rows es ids rt (bt != .fixed) wj uc)) fun PJ hJ s => ?_
  obtain ⟨P, J⟩ := PJ
  cases bt with
  | fixed => exact ⟨_, rfl⟩
  | floating => exact ⟨_, rfl⟩
  | planer =>
    obtain ⟨J', e⟩ := selectCols_planar (n := ids.length) (J := J) hJ
    refine ⟨(P, J'), ?_⟩
    simp [Prog.bind_apply, Prog.lift, Prog.read, e]

theorem PySDo.solveComFk (qs : QArg K) (ids : List Nat) (act : Option (List Nat × List K)) (bt : BaseType)
    (wj : Bool) : PySDo ls js m0 (pySolveComFk qs ids act bt wj) (batchCalls ids bt qs.rows)
      (batchEvents ids bt true (comAsks act) qs.rows) := by
  unfold pySolveComFk
  refine .bind (.lift _) (Post.lift fun _ h => comArg_rows h) fun a ha => ?_
  rw [← ha]
  refine .bind (.prepareRows _ _ _) (Post.prepareRows_events _ _ _) fun rows hr => ?_
  rw [← hr.1.2, ← hr.2]
  exact .robot (.solveComFk _ _ _ _ _ _ hr.1.1)

theorem PySDo.sqdists (qs : List (List K)) (ps : List (Nat × Nat)) (ids : List Nat) (bt : BaseType)
    (wj uc : Bool) (hq : ∀ q ∈ qs, q.length = ids.length + bt.dof) :
    PySDo ls js m0 (pySqdists qs ps ids bt wj uc) (batchCalls ids bt qs) (batchEvents ids bt uc (pairAsks ps) qs) := by
  unfold pySqdists
  have main : ∀ rows : List (List K),
      ((∀ r ∈ rows, r.length = ids.length + (wrapBase (bt != .fixed)).dof) ∧
      batchCalls ids (wrapBase (bt != .fixed)) rows = batchCalls ids bt qs) →
      (∀ keep asks, batchEvents ids (wrapBase (bt != .fixed)) keep asks rows = batchEvents ids bt keep asks qs) →
      PySDo ls js m0 (if ps = [] then Prog.throw (.valueError "not enough values to unpack")
        else do
          let (V, J) ← onRobot (computeInterLinkSquaredDists rows (ps.map Prod.fst)
            (ps.map Prod.snd) ids (bt != .fixed) wj uc)
          if bt = .planer ∧ wj then do
            let J ← Prog.lift (J.selectCols (planarCols ids.length))
            Pure.pure (V, J)
          else Pure.pure (V, J)) (batchCalls ids bt qs) (batchEvents ids bt uc (pairAsks ps) qs) := by
    intro rows hr he
    refine .ite (.throw _ _ _) ?_
    rw [← hr.2, ← he]
    cases wj with
    | false =>
      refine .andThen (.robot (.sqdists _ _ _ _ _ _ hr.1)) (Post.triv _) fun DG _ s => ?_
      exact ⟨DG, by simp⟩
    | true =>
      refine .andThen (.robot (.sqdists _ _ _ _ _ _ hr.1)) (Post.robot (.sqdists _ _ _ _ _ _)) fun DG hJ s => ?_
      obtain ⟨V, J⟩ := DG
      cases bt with
      | fixed => exact ⟨(V, J), by simp⟩
      | floating => exact ⟨(V, J), by simp⟩
      | planer =>
        obtain ⟨J', e⟩ := selectCols_planar (n := ids.length) (J := J) hJ
        refine ⟨(V, J'), ?_⟩
        simp [Prog.bind_apply, Prog.lift, Prog.read, e]
  cases bt with
  | fixed => exact main _ ⟨hq, rfl⟩ fun _ _ => rfl
  | floating => exact main _ ⟨hq, rfl⟩ fun _ _ => rfl
  | planer =>
    rw [if_pos rfl]
    refine .bind (Q := fun rows => modifyInput ids.length qs = .ok rows) (.lift _) (Post.lift fun rows e => e) fun rows e => ?_
    exact main rows (modifyInput_calls hq e) (modifyInput_events hq e)

theorem PySDo.drop {p : Prog (PyModel K) α} {e : List (Call K)} {v : List (Event K)} (h : PySDo ls js m0 p e v) :
    PySDo ls js m0 (Prog.bind p fun _ => Prog.pure ()) e v :=
  PySDo.andThen h (Post.triv _) fun _ _ _ => ⟨(), rfl⟩

/-- every Python call has its effect and events when it returns, and none when it raises -/
theorem PyCall.shows (c : PyCall K) (hc : c.Shaped) : PySDo ls js m0 c.run c.effect c.events := by
  cases c with
  | getQ ids bt =>
    refine .drop ?_
    cases bt with
    | fixed => exact .bind (.pure _) (Post.triv _) fun _ _ => .bind (.read _) (Post.triv _) fun _ _ => .pure _
    | floating => exact .bind (.read _) (Post.triv _) fun _ _ => .bind (.read _) (Post.triv _) fun _ _ => .pure _
    | planer =>
      refine .bind (.read _) (Post.triv _) fun v _ => ?_
      have k : ∀ w, PySDo ls js m0 (onRobot (Tinyfk.getJointAngles ids) >>= fun a =>
        (Pure.pure (a ++ w) : Prog (PyModel K) (List K))) [] [] := fun w =>
          .bind (.read _) (Post.triv _) fun _ _ => .pure _
      split
      · exact k _
      · exact .bind (.throw _ _ _) (Post.triv _) fun _ _ => k _
  | setQ ids q bt => exact .setQ ids q bt
  | solveFk qs e ids rt bt wj uc => exact .drop (.solveFk _ _ _ _ _ _ _)
  | solveComFk qs ids a bt wj => exact .drop (.solveComFk _ _ _ _ _)
  | inertia q ids => exact .drop (.robot (.inertia _ _))
  | getJointNames => exact .drop (.read _)
  | getJointIds ns => exact .drop (.read _)
  | getLinkIds ns => exact .drop (.read _)
  | getJointLimits ids => exact .drop (.bind (.read _) (Post.triv _) fun _ _ => .pure _)
  | addNewLink a => exact .addNewLink a
  | sqdists qs ps ids bt wj uc => exact .drop (.sqdists _ _ _ _ _ _ hc)
  | clearCache => exact .robot .clear
  | totalMass => exact PySDo.drop (K := K) (p := pyTotalMass) (.frozen fun _ => rfl)
  | rootLinkName => exact .drop (.read _)

theorem PyShows.sits {s s' : PyModel K} {h : List (PyCall K)} {es : List (Call K)} {ev : List (Event K)}
    (hr : PyShows s h es ev s') {cs : List (Call K)} {evs : List (Event K)} (ha : Sits ls js m0 cs evs s.robot) :
    Sits ls js m0 (cs ++ es) (evs ++ ev) s'.robot := by
  induction hr generalizing cs evs with
  | nil => simpa using ha
  | ok hs e _ ih =>
    have := PyCall.shows (ls := ls) (js := js) (m0 := m0) _ hs _ _ _ ha
    rw [e] at this
    simpa using ih this
  | exn hs e _ ih =>
    have := PyCall.shows (ls := ls) (js := js) (m0 := m0) _ hs _ _ _ ha
    rw [e] at this
    exact ih this

/-- the invariant after any history of Python calls -/
theorem PySReach.sits {h : List (PyCall K)} {s : PyModel K} (hr : PySReach ls js m0 h cs evs s) :
    Sits ls js m0 cs evs s.robot := by
  obtain ⟨xml, hx⟩ := hr.runs
  simpa using hx.sits (Sits.start hr.tree hr.supported hr.built)

/-- histories with events are histories -/
theorem PyShows.runs {s s' : PyModel K} {h : List (PyCall K)} {es : List (Call K)} {ev : List (Event K)}
    (hr : PyShows s h es ev s') : PyRuns s h es s' := by
  induction hr with
  | nil => exact .nil
  | ok hs e _ ih => exact .ok hs e ih
  | exn hs e _ ih => exact .exn hs e ih

/-- every history has events -/
theorem PyRuns.shows {s s' : PyModel K} {h : List (PyCall K)} {es : List (Call K)}
    (hr : PyRuns s h es s') : ∃ ev, PyShows s h es ev s' := by
  induction hr with
  | nil => exact ⟨[], .nil⟩
  | ok hs e _ ih => obtain ⟨ev, h⟩ := ih; exact ⟨_, .ok hs e h⟩
  | exn hs e _ ih => obtain ⟨ev, h⟩ := ih; exact ⟨_, .exn hs e h⟩

theorem PySReach.pyReach {h : List (PyCall K)} {s : PyModel K} (hr : PySReach ls js m0 h cs evs s) : PyReach ls js m0 h cs s :=
  ⟨hr.tree, hr.supported, hr.built, hr.runs.imp fun _ h => h.runs⟩

theorem PyReach.pySReach {h : List (PyCall K)} {s : PyModel K} (hr : PyReach ls js m0 h cs s) :
    ∃ evs, PySReach ls js m0 h cs evs s := by
  obtain ⟨xml, hx⟩ := hr.runs
  obtain ⟨ev, h⟩ := hx.shows
  exact ⟨ev, hr.tree, hr.supported, hr.built, xml, h⟩

end Tinyfk
