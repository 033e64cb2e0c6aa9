import Verif.Proofs.Wrapper

/-!
# Queries on arbitrary caches only add cache entries

Whatever the cache holds, a query changes at most stack and cache, and every entry that was
set keeps its value. So a stale entry stays until the cache is cleared.
-/

set_option linter.unusedSectionVars false

namespace Tinyfk

open Scalar

variable {K : Type} [Scalar K] {α β : Type}

/-- `m2` is `m1` up to stack and cache, and the cache only grew. -/
structure Ext (m1 m2 : KinModel K) : Prop where
  same : SameRobot m1 m2
  sized : CacheSized m1 → CacheSized m2
  keep : ∀ l T, m1.cache.getCache l = .ok (some T) → m2.cache.getCache l = .ok (some T)

theorem Ext.refl (m : KinModel K) : Ext m m := ⟨.refl m, id, fun _ _ h => h⟩
theorem Ext.trans {a b c : KinModel K} (h : Ext a b) (h' : Ext b c) : Ext a c :=
  ⟨h.same.trans h'.same, h'.sized ∘ h.sized, fun l T hl => h'.keep l T (h.keep l T hl)⟩

theorem Ext.tree {a b : KinModel K} (h : Ext a b) (ht : Tree a) : Tree b := by
  obtain ⟨⟨⟨s, c, rfl⟩, _⟩, _, _⟩ := h
  exact Tree.congr (m := a) rfl rfl rfl ht

/-- no exception -/
def Outcome.NoExn (o : Outcome α) : Prop := ∀ e, o ≠ .exn e

theorem Outcome.NoExn.ok (a : α) : (Outcome.ok a).NoExn := fun _ h => nomatch h
theorem Outcome.NoExn.ub (u : UB) : (Outcome.ub u : Outcome α).NoExn := fun _ h => nomatch h
theorem Outcome.NoExn.bind {o : Outcome α} {f : α → Outcome β} (h : o.NoExn) (h' : ∀ a, (f a).NoExn) :
    (o >>= f).NoExn := by
  cases o with
  | ok a => exact h' a
  | exn e => exact absurd rfl (h e)
  | ub u => exact .ub u
  | hang => exact fun _ h => nomatch h
theorem Outcome.NoExn.idx (w : String) (l : List α) (i : Nat) : (Outcome.idx w l i).NoExn := by
  unfold Outcome.idx; split
  · exact .ok _
  · exact .ub _
theorem Outcome.NoExn.ite {c : Prop} [Decidable c] {o o' : Outcome α} (h : o.NoExn) (h' : o'.NoExn) :
    (if c then o else o').NoExn := by
  split <;> assumption

theorem Mat.noExn_set (M : Mat K) (i j : Nat) (v : K) : (M.set i j v).NoExn := .ite (.ok _) (.ub _)
theorem Mat.noExn_get (M : Mat K) (i j : Nat) : (M.get i j).NoExn := .ite (.ok _) (.ub _)
theorem Mat.noExn_setBlock (M : Mat K) (i j : Nat) (B : Mat K) : (M.setBlock i j B).NoExn :=
  .ite (.ok _) (.ub _)
theorem Mat.noExn_mapBlock (M : Mat K) (i j r c : Nat) (g : K → K) : (M.mapBlock i j r c g).NoExn :=
  .ite (.ok _) (.ub _)
theorem Mat.noExn_addBlock (M : Mat K) (i j r c : Nat) (s : K) (B : Mat K) :
    (M.addBlock i j r c s B).NoExn := .ite (.ok _) (.ub _)
theorem Mat.noExn_setCol (M : Mat K) (i j : Nat) (vs : List K) : (M.setCol i j vs).NoExn := by
  induction vs generalizing M i with
  | nil => exact .ok _
  | cons v vs ih => exact .bind (M.noExn_set _ _ _) fun _ => ih _ _

theorem noExn_derefJoint (m : KinModel K) (j : Nat) : (derefJoint m j).NoExn := by
  unfold derefJoint; split
  · exact .ok _
  · exact .ub _

theorem noExn_isRelevant (t : RpTable) (l j : Nat) : (t.isRelevant l j).NoExn := by
  unfold RpTable.isRelevant; split
  · exact .ub _
  · exact .idx _ _ _

theorem noExn_jacJointWrite (rt : RotType) (tfE : Pose K) (erpy : Vec3 K) (einv : Rot K) (j : Joint K)
    (tfC : Pose K) (i : Nat) (J : Mat K) : (jacJointWrite rt tfE erpy einv j tfC i J).NoExn := by
  unfold jacJointWrite
  refine .bind (Mat.noExn_setCol _ _ _ _) fun _ => .ite (.ok _) ?_
  cases rt
  · exact .ok _
  · exact Mat.noExn_setCol _ _ _ _
  · exact Mat.noExn_setCol _ _ _ _

theorem noExn_jacBaseRot (rt : RotType) (nJoint : Nat) (tfE : Pose K) (erpy : Vec3 K) (tfB tfBE : Pose K)
    (rpyB : Vec3 K) (k : Nat) (J : Mat K) : (jacBaseRot rt nJoint tfE erpy tfB tfBE rpyB k J).NoExn := by
  unfold jacBaseRot
  refine .bind (Mat.noExn_setCol _ _ _ _) fun _ => ?_
  cases rt
  · exact .ok _
  · exact Mat.noExn_setCol _ _ _ _
  · exact Mat.noExn_setCol _ _ _ _

theorem noExn_jacBase (rt : RotType) (nJoint : Nat) (tfE : Pose K) (erpy : Vec3 K) (tfB : Pose K)
    (J : Mat K) : (jacBase rt nJoint tfE erpy tfB J).NoExn := by
  unfold jacBase
  exact .bind (Mat.noExn_set _ _ _ _) fun _ => .bind (Mat.noExn_set _ _ _ _) fun _ =>
    .bind (Mat.noExn_set _ _ _ _) fun _ => .bind (noExn_jacBaseRot _ _ _ _ _ _ _ _ _) fun _ =>
    .bind (noExn_jacBaseRot _ _ _ _ _ _ _ _ _) fun _ => noExn_jacBaseRot _ _ _ _ _ _ _ _ _

/-- `p` never throws and, when it returns, has only extended the cache. -/
def Stays (p : Prog (KinModel K) α) : Prop :=
  ∀ m1, Tree m1 → match p m1 with
    | .ok _ m2 => Ext m1 m2
    | .exn _ _ => False
    | .ub _ => True
    | .hang => True

theorem Stays.ok {p : Prog (KinModel K) α} (h : Stays p) {m1 m2 : KinModel K} {a : α} (ht : Tree m1)
    (e : p m1 = .ok a m2) : Ext m1 m2 := by
  have := h m1 ht; rw [e] at this; exact this

theorem Stays.noExn {p : Prog (KinModel K) α} (h : Stays p) {m1 m2 : KinModel K} {x : Exn} (ht : Tree m1)
    (e : p m1 = .exn x m2) : False := by
  have := h m1 ht; rw [e] at this; exact this

theorem Stays.pure (v : α) : Stays (Pure.pure v : Prog (KinModel K) α) := fun m _ => Ext.refl m

theorem Stays.bind {p : Prog (KinModel K) α} {f : α → Prog (KinModel K) β}
    (h : Stays p) (h' : ∀ v, Stays (f v)) : Stays (p >>= f) := by
  intro m1 ht
  have h1 := h m1 ht
  rw [Prog.bind_apply]
  cases hp : p m1 with
  | ok a m2 =>
    rw [hp] at h1
    have h2 := h' a m2 (h1.tree ht)
    simp only
    cases hq : f a m2 with
    | ok b m3 => rw [hq] at h2; exact Ext.trans h1 h2
    | exn b m3 => rw [hq] at h2; exact h2
    | ub u => trivial
    | hang => trivial
  | exn e m2 => rw [hp] at h1; exact h1
  | ub u => trivial
  | hang => trivial

theorem Stays.read {f : KinModel K → Outcome α} (hf : ∀ m, (f m).NoExn) : Stays (Prog.read f) := by
  intro m1 _
  unfold Prog.read
  have := hf m1
  cases h : f m1 with
  | ok a => exact Ext.refl _
  | exn e => exact this e h
  | ub u => trivial
  | hang => trivial

theorem Stays.lift {o : Outcome α} (h : o.NoExn) : Stays (Prog.lift o : Prog (KinModel K) α) :=
  Stays.read fun _ => h

theorem Stays.ite {c : Prop} [Decidable c] {p q : Prog (KinModel K) α}
    (hp : Stays p) (hq : Stays q) : Stays (if c then p else q) := by
  split <;> assumption

/-- the entries pushed by the upward loop are not cached -/
theorem upLoop_uncached {m : KinModel K} {h : Nat} {st st' : SizedStack (LinkIdAndTransform K)}
    {tf : Pose K} (e : upLoop m h st = .ok (st', tf)) (hcur : st.cur ≤ st.data.length)
    (hst : ∀ x ∈ st.data.take st.cur, m.cache.getCache x.id = .ok none) :
    st'.data.length = st.data.length ∧ st'.cur ≤ st'.data.length ∧
      ∀ x ∈ st'.data.take st'.cur, m.cache.getCache x.id = .ok none := by
  induction hn : st.data.length - st.cur using Nat.strongRecOn generalizing h st with
  | _ n ih =>
    rw [upLoop] at e
    split at e
    · cases e
    · rename_i hl hhl
      split at e
      · cases e; exact ⟨rfl, hcur, hst⟩
      · split at e
        · cases e; exact ⟨rfl, hcur, hst⟩
        · rename_i hg
          split at e
          · cases e
          · split at e
            · cases e
            · split at e
              · rename_i T hT
                split at e
                · rename_i hlt
                  have := ih (st.data.length - st.cur - 1) (by omega) e (by simp; omega) (by
                    intro x hx
                    have htk : (st.data.set st.cur ⟨hl.id, T⟩).take (st.cur + 1) =
                        st.data.take st.cur ++ [⟨hl.id, T⟩] := by
                      rw [List.take_succ_eq_append_getElem (by simpa using hlt)]
                      simp [List.take_set_of_le]
                    simp only [htk, List.mem_append, List.mem_singleton] at hx
                    rcases hx with hx | rfl
                    · exact hst x hx
                    · exact hg) (by simp; omega)
                  simpa using this
                · cases e
              · cases e
              · cases e
              · cases e
        · cases e
        · cases e
        · cases e

theorem setCache_keep {c c' : SizedCache (Pose K)} {i : Nat} {T : Pose K} (e : c.setCache i T = .ok c') :
    c'.size = c.size ∧ c'.pred.length = c.pred.length ∧ c'.data.length = c.data.length ∧
    c'.getCache i = .ok (some T) ∧ ∀ l, l ≠ i → c'.getCache l = c.getCache l := by
  unfold SizedCache.setCache at e
  split at e
  · rename_i hlt
    cases e
    refine ⟨rfl, by simp, by simp, ?_, ?_⟩
    · simp [SizedCache.getCache, hlt]
    · intro l hl
      simp [SizedCache.getCache, Ne.symm hl]
  · cases e

theorem downLoop_keep {c0 : SizedCache (Pose K)} (data : List (LinkIdAndTransform K)) (n : Nat)
    (hn : n ≤ data.length) (hu : ∀ x ∈ data.take n, c0.getCache x.id = .ok none) {tf T : Pose K}
    {c c' : SizedCache (Pose K)} (e : downLoop data n tf c = .ok (T, c'))
    (hk : ∀ l S, c0.getCache l = .ok (some S) → c.getCache l = .ok (some S)) :
    (∀ l S, c0.getCache l = .ok (some S) → c'.getCache l = .ok (some S)) ∧
    c'.size = c.size ∧ c'.pred.length = c.pred.length ∧ c'.data.length = c.data.length := by
  induction n generalizing tf c with
  | zero => simp only [downLoop, Outcome.ok.injEq, Prod.mk.injEq] at e; obtain ⟨_, rfl⟩ := e; exact ⟨hk, rfl, rfl, rfl⟩
  | succ n ih =>
    have hlt : n < data.length := hn
    simp only [downLoop, Outcome.idx, List.getElem?_eq_getElem hlt, Outcome.bind_eq, Outcome.bind_ok] at e
    cases hs : c.setCache data[n].id (Pose.transform tf data[n].pose) with
    | ok c1 =>
      rw [hs] at e
      simp only [Outcome.bind_ok] at e
      obtain ⟨a1, a2, a3, a4, a5⟩ := setCache_keep hs
      have hmem : data[n] ∈ data.take (n + 1) := by
        rw [List.take_succ_eq_append_getElem hlt]; exact List.mem_append_right _ (List.mem_singleton.mpr rfl)
      have := ih (by omega) (fun x hx => hu x (by
        rw [List.take_succ_eq_append_getElem hlt]; exact List.mem_append_left _ hx)) e (fun l S hl => by
          by_cases h : l = data[n].id
          · subst h; rw [hu _ hmem] at hl; cases hl
          · rw [a5 l h]; exact hk l S hl)
      exact ⟨this.1, this.2.1.trans a1, this.2.2.1.trans a2, this.2.2.2.trans a3⟩
    | exn x => rw [hs] at e; cases e
    | ub u => rw [hs] at e; cases e
    | hang => rw [hs] at e; cases e

theorem upLoop_noExn {m : KinModel K} (ht : Tree m) {h : Nat} {st : SizedStack (LinkIdAndTransform K)} :
    (upLoop m h st).NoExn := by
  induction hn : st.data.length - st.cur using Nat.strongRecOn generalizing h st with
  | _ n ih =>
    rw [upLoop]
    split
    · exact .ub _
    · rename_i hl hhl
      split
      · exact .ok _
      · rename_i p hp
        obtain ⟨jp, j, e1, e2, e3⟩ := ht.pjoint hhl hp
        split
        · exact .ok _
        · simp only [e1, e2]
          split
          · rename_i T hT
            split
            · exact ih (st.data.length - st.cur - 1) (by omega) (by simp; omega)
            · exact .ub _
          · rename_i x hx
            exfalso
            unfold jointTransform at hx
            rcases e3 with h | ⟨h, i, hi, hlt⟩
            · rw [if_pos h] at hx; cases hx
            · split at hx
              · cases hx
              · simp only [hi, Outcome.idx, List.getElem?_eq_getElem hlt, Outcome.bind_eq,
                  Outcome.bind_ok] at hx
                rcases h with h | h | h <;> simp [Joint.transform, h] at hx
          · exact .ub _
          · exact fun _ h => nomatch h
        · rename_i x hx
          exfalso
          unfold SizedCache.getCache at hx
          split at hx <;> first | cases hx | (split at hx <;> cases hx)
        · exact .ub _
        · exact fun _ h => nomatch h

theorem downLoop_noExn (data : List (LinkIdAndTransform K)) (n : Nat) (tf : Pose K) (c : SizedCache (Pose K)) :
    (downLoop data n tf c).NoExn := by
  induction n generalizing tf c with
  | zero => exact .ok _
  | succ n ih =>
    refine .bind (.idx _ _ _) fun _ => .bind ?_ fun _ => ih _ _
    exact .ite (.ok _) (.ub _)

theorem Stays.getLinkPose (l : Nat) : Stays (getLinkPose l : Prog (KinModel K) (Pose K)) := by
  intro m ht
  unfold Tinyfk.getLinkPose
  cases hg : m.cache.getCache l with
  | ok o =>
    cases o with
    | some T => exact Ext.refl m
    | none =>
      simp only [getLinkPoseInner]
      cases hu : upLoop m l m.stack.reset with
      | ok r =>
        obtain ⟨st, tf⟩ := r
        simp only
        obtain ⟨a1, a2, a3⟩ := upLoop_uncached hu (by simp [SizedStack.reset]) (by simp [SizedStack.reset])
        cases hd : downLoop st.data st.cur tf m.cache with
        | ok r =>
          obtain ⟨T, c⟩ := r
          simp only
          obtain ⟨b1, b2, b3, b4⟩ := downLoop_keep st.data st.cur a2 a3 hd (fun _ _ h => h)
          refine ⟨⟨⟨_, _, rfl⟩, by simpa [SizedStack.reset] using a1⟩, ?_, b1⟩
          intro hs
          exact ⟨b2.trans hs.size, b3.trans hs.pred, b4.trans hs.data⟩
        | exn x => exact downLoop_noExn _ _ _ _ x hd
        | ub u => trivial
        | hang => trivial
      | exn x => exact upLoop_noExn ht x hu
      | ub u => trivial
      | hang => trivial
  | exn x =>
    exfalso
    unfold SizedCache.getCache at hg
    split at hg <;> first | cases hg | (split at hg <;> cases hg)
  | ub u => trivial
  | hang => trivial

theorem Stays.jacJoint (elink : Nat) (rt : RotType) (tfE : Pose K) (erpy : Vec3 K)
    (einv : Rot K) (jid i : Nat) (J : Mat K) : Stays (jacJoint elink rt tfE erpy einv jid i J) := by
  unfold Tinyfk.jacJoint
  refine Stays.bind (Stays.read fun _ => noExn_isRelevant _ _ _) (fun b => Stays.ite ?_ (Stays.pure _))
  refine Stays.bind (Stays.read fun _ => .bind (.idx _ _ _) fun _ => noExn_derefJoint _ _) fun j =>
    Stays.bind (Stays.read fun m => ?_) fun _ =>
    Stays.bind (Stays.getLinkPose _) fun _ => Stays.lift (noExn_jacJointWrite _ _ _ _ _ _ _ _)
  cases j.childLink with
  | none => exact .ub _
  | some c =>
    simp only
    split
    · exact .ub _
    · exact .ok _

theorem Stays.jacJointLoop (elink : Nat) (rt : RotType) (tfE : Pose K)
    (erpy : Vec3 K) (einv : Rot K) (ids : List Nat) (i : Nat) (J : Mat K) :
    Stays (jacJointLoop elink rt tfE erpy einv ids i J) := by
  induction ids generalizing i J with
  | nil => exact Stays.pure _
  | cons a l ih => exact Stays.bind (Stays.jacJoint _ _ _ _ _ _ _ _) fun _ => ih _ _

theorem Stays.getJacobian (elink : Nat) (ids : List Nat) (rt : RotType) (b : Bool) :
    Stays (getJacobian elink ids rt b : Prog (KinModel K) (Mat K)) := by
  unfold Tinyfk.getJacobian
  refine Stays.bind (Stays.getLinkPose _) fun _ => Stays.bind (Stays.jacJointLoop _ _ _ _ _ _ _ _) fun _ =>
    Stays.ite ?_ (Stays.pure _)
  exact Stays.bind (Stays.read fun _ => .ok _) fun _ => Stays.bind (Stays.getLinkPose _) fun _ =>
    Stays.lift (noExn_jacBase _ _ _ _ _ _)

theorem Stays.comLinkData (l : Nat) : Stays (comLinkData l : Prog (KinModel K) (Inertial K × Nat)) := by
  refine Stays.read fun m => ?_
  split
  · exact .ub _
  · split
    · exact .ub _
    · exact .ok _

theorem Stays.comLoop (ds : List Nat) (acc : Vec3 K) (mt : K) : Stays (comLoop ds acc mt) := by
  induction ds generalizing acc mt with
  | nil => exact Stays.pure _
  | cons a l ih => exact Stays.bind (Stays.comLinkData _) fun _ => Stays.bind (Stays.getLinkPose _) fun _ => ih _ _

theorem Stays.getCom : Stays (getCom : Prog (KinModel K) (Vec3 K)) := by
  unfold Tinyfk.getCom
  exact Stays.bind (Stays.read fun _ => .ok _) fun _ => Stays.bind (Stays.comLoop _ _ _) fun _ => Stays.pure _

theorem Stays.comJacLoop (ids : List Nat) (b : Bool) (ds : List Nat) (acc : Mat K)
    (mt : K) : Stays (comJacLoop ids b ds acc mt) := by
  induction ds generalizing acc mt with
  | nil => exact Stays.pure _
  | cons a l ih =>
    exact Stays.bind (Stays.comLinkData _) fun _ => Stays.bind (Stays.getJacobian _ _ _ _) fun _ =>
      Stays.bind (Stays.lift (Mat.noExn_addBlock _ _ _ _ _ _ _)) fun _ => ih _ _

theorem Stays.getComJacobian (ids : List Nat) (b : Bool) :
    Stays (getComJacobian ids b : Prog (KinModel K) (Mat K)) := by
  unfold Tinyfk.getComJacobian
  exact Stays.bind (Stays.read fun _ => .ok _) fun _ => Stays.bind (Stays.comJacLoop _ _ _ _ _) fun _ =>
    Stays.lift (Mat.noExn_mapBlock _ _ _ _ _ _)

theorem Stays.inertiaLoop (com : Vec3 K) (ds : List Nat) (acc : M3 K) :
    Stays (inertiaLoop com ds acc) := by
  induction ds generalizing acc with
  | nil => exact Stays.pure _
  | cons a l ih =>
    refine Stays.bind (Stays.read fun m => ?_) fun d => ?_
    · split
      · exact .ub _
      · exact .ok _
    · rcases d with ⟨_ | inr, lid⟩
      · exact ih _
      · exact Stays.bind (Stays.getLinkPose _) fun _ => ih _

theorem Stays.getTotalInertia : Stays (getTotalInertia : Prog (KinModel K) (M3 K)) := by
  unfold Tinyfk.getTotalInertia
  exact Stays.bind Stays.getCom fun _ => Stays.bind (Stays.read fun _ => .ok _) fun _ => Stays.inertiaLoop _ _ _

theorem Stays.fkPoseLoop (rt : RotType) (head0 : Nat) (es : List Nat) (j : Nat) (P : Mat K) :
    Stays (fkPoseLoop rt head0 es j P) := by
  induction es generalizing j P with
  | nil => exact Stays.pure _
  | cons a l ih =>
    exact Stays.bind (Stays.getLinkPose _) fun _ => Stays.bind (Stays.lift (Mat.noExn_setCol _ _ _ _)) fun _ => ih _ _

theorem Stays.fkJacLoop (rt : RotType) (ids : List Nat) (wb : Bool) (head0 : Nat) (es : List Nat)
    (j : Nat) (J : Mat K) : Stays (fkJacLoop rt ids wb head0 es j J) := by
  induction es generalizing j J with
  | nil => exact Stays.pure _
  | cons a l ih =>
    exact Stays.bind (Stays.getJacobian _ _ _ _) fun _ =>
      Stays.bind (Stays.lift (Mat.noExn_setBlock _ _ _ _)) fun _ => ih _ _

theorem Stays.actionLoop (ids : List Nat) (wb wj : Bool) (forces : List K) (i nDof : Nat) (es : List Nat)
    (j : Nat) (s : K) (C J : Mat K) : Stays (actionLoop ids wb wj forces i nDof es j s C J) := by
  induction es generalizing j s C J with
  | nil => exact Stays.pure _
  | cons a l ih =>
    unfold Tinyfk.actionLoop
    refine Stays.bind (Stays.lift (.idx _ _ _)) fun _ => Stays.bind (Stays.read fun _ => .ok _) fun _ =>
      Stays.bind (Stays.getLinkPose _) fun _ => Stays.bind (Stays.lift ?_) fun _ => Stays.ite ?_ ?_
    · exact .bind (Mat.noExn_get _ _ _) fun _ => .bind (Mat.noExn_set _ _ _ _) fun _ =>
        .bind (Mat.noExn_get _ _ _) fun _ => .bind (Mat.noExn_set _ _ _ _) fun _ =>
        .bind (Mat.noExn_get _ _ _) fun _ => Mat.noExn_set _ _ _ _
    · exact Stays.bind (Stays.getJacobian _ _ _ _) fun _ =>
        Stays.bind (Stays.lift (Mat.noExn_addBlock _ _ _ _ _ _ _)) fun _ => ih _ _ _ _
    · exact Stays.bind (Stays.pure _) fun _ => ih _ _ _ _

theorem Stays.distLoop (ids : List Nat) (wb wg : Bool) (nJ head0 : Nat) (l2 : List Nat) (l1 : List Nat)
    (j : Nat) (D G : Mat K) : Stays (distLoop ids wb wg nJ head0 l2 l1 j D G) := by
  induction l1 generalizing j D G with
  | nil => exact Stays.pure _
  | cons a l ih =>
    unfold Tinyfk.distLoop
    refine Stays.bind (Stays.getLinkPose _) fun _ => Stays.bind (Stays.lift (.idx _ _ _)) fun _ =>
      Stays.bind (Stays.getLinkPose _) fun _ => Stays.bind (Stays.lift (Mat.noExn_set _ _ _ _)) fun _ =>
      Stays.ite ?_ ?_
    · exact Stays.bind (Stays.getJacobian _ _ _ _) fun _ => Stays.bind (Stays.getJacobian _ _ _ _) fun _ =>
        Stays.bind (Stays.lift (Mat.noExn_setBlock _ _ _ _)) fun _ => ih _ _ _
    · exact Stays.bind (Stays.pure _) fun _ => ih _ _ _

end Tinyfk
