import Verif.Proofs.ComFk

/-!
# Stale results

What a query returned before is returned again as long as the cache is not dropped, whatever
angles have been written in between.
-/

set_option linter.unusedSectionVars false

namespace Tinyfk

open Scalar

variable {K : Type} [Scalar K] {α β : Type}

/-- `m3` is `m2` up to angles and stack, and keeps what `m2` has cached. -/
structure Pins (m2 m3 : KinModel K) : Prop where
  same : ∃ θ st c, m3 = { m2 with angles := θ, stack := st, cache := c }
  keep : ∀ l T, m2.cache.getCache l = .ok (some T) → m3.cache.getCache l = .ok (some T)

theorem Pins.refl (m : KinModel K) : Pins m m := ⟨⟨_, _, _, rfl⟩, fun _ _ h => h⟩

theorem Ext.pins {a b : KinModel K} (h : Ext a b) : Pins a b := by
  obtain ⟨⟨⟨st, c, rfl⟩, _⟩, _, hk⟩ := h
  exact ⟨⟨_, _, _, rfl⟩, hk⟩

theorem Pins.trans {a b c : KinModel K} (h : Pins a b) (h' : Pins b c) : Pins a c := by
  obtain ⟨⟨θ, st, ca, rfl⟩, hk⟩ := h
  obtain ⟨⟨θ', st', ca', rfl⟩, hk'⟩ := h'
  exact ⟨⟨_, _, _, rfl⟩, fun l T e => hk' l T (hk l T e)⟩

/-- a value returned by `p` is returned again on all states that keep the cache -/
def Replays (m : KinModel K) (p : Prog (KinModel K) α) : Prop :=
  ∀ m1 m2 v, SameRobot m m1 → p m1 = .ok v m2 → ∀ m3, Pins m2 m3 → ∃ m4, p m3 = .ok v m4 ∧ Ext m3 m4

theorem Replays.pure (m : KinModel K) (v : α) : Replays m (Pure.pure v) := by
  intro m1 m2 w _ e m3 _
  cases e; exact ⟨m3, rfl, Ext.refl m3⟩

theorem Replays.lift (m : KinModel K) (o : Outcome α) : Replays m (Prog.lift o) := by
  intro m1 m2 w _ e m3 _
  cases o with
  | ok a => cases e; exact ⟨m3, rfl, Ext.refl m3⟩
  | _ => cases e

theorem Replays.read {m : KinModel K} {f : KinModel K → Outcome α}
    (hf : ∀ m θ st c, f { m with angles := θ, stack := st, cache := c } = f m) : Replays m (Prog.read f) := by
  intro m1 m2 w _ e m3 hp
  simp only [Prog.read] at e
  cases hm : f m1 with
  | ok a =>
    rw [hm] at e; cases e
    obtain ⟨⟨θ, st, c, rfl⟩, _⟩ := hp
    refine ⟨_, ?_, Ext.refl _⟩
    simp only [Prog.read, hf, hm]
  | exn _ => rw [hm] at e; cases e
  | ub _ => rw [hm] at e; cases e
  | hang => rw [hm] at e; cases e

theorem Replays.bind {m : KinModel K} (ht : Tree m) {p : Prog (KinModel K) α} {f : α → Prog (KinModel K) β}
    (hp : Replays m p) (sp : Stays p)
    (hf : ∀ a, (∃ m1 m2, SameRobot m m1 ∧ p m1 = .ok a m2) → Replays m (f a)) (sf : ∀ a, Stays (f a)) :
    Replays m (p >>= f) := by
  intro m1 m2 v hs e m3 hpin
  rw [Prog.bind_apply] at e
  cases hpm : p m1 with
  | ok a ma =>
    rw [hpm] at e
    simp only at e
    have ht1 : Tree m1 := by
      obtain ⟨⟨s, c, rfl⟩, _⟩ := hs
      exact Tree.congr (m := m) rfl rfl rfl ht
    have x1 := sp.ok ht1 hpm
    have x2 := (sf a).ok (x1.tree ht1) e
    obtain ⟨m3', e1, x3⟩ := hp m1 ma a hs hpm m3 (x2.pins.trans hpin)
    obtain ⟨m4, e2, x4⟩ := hf a ⟨m1, ma, hs, hpm⟩ ma m2 v (hs.trans x1.same) e m3' (hpin.trans x3.pins)
    exact ⟨m4, by rw [Prog.bind_apply, e1]; exact e2, x3.trans x4⟩
  | exn _ _ => rw [hpm] at e; cases e
  | ub _ => rw [hpm] at e; cases e
  | hang => rw [hpm] at e; cases e


/-- the upward loop does not touch what is below it on the stack -/
theorem upLoop_bottom {m : KinModel K} {h : Nat} {st st' : SizedStack (LinkIdAndTransform K)} {tf : Pose K}
    (e : upLoop m h st = .ok (st', tf)) (hc : 0 < st.cur) : 0 < st'.cur ∧ st'.data[0]? = st.data[0]? := by
  induction hn : st.data.length - st.cur using Nat.strongRecOn generalizing h st with
  | _ n ih =>
    rw [upLoop] at e
    split at e
    · cases e
    · split at e
      · cases e; exact ⟨hc, rfl⟩
      · split at e
        · cases e; exact ⟨hc, rfl⟩
        · split at e
          · cases e
          · split at e
            · cases e
            · split at e
              · split at e
                · rename_i hlt
                  obtain ⟨h1, h2⟩ := ih (st.data.length - st.cur - 1) (by omega) e (by simp) (by simp; omega)
                  exact ⟨h1, by rw [h2]; simp only; rw [List.getElem?_set_ne (by omega)]⟩
                · cases e
              all_goals cases e
        all_goals cases e

/-- the downward loop ends with caching the bottom of the stack -/
theorem downLoop_bottom (data : List (LinkIdAndTransform K)) (n : Nat) {tf T : Pose K} {c c' : SizedCache (Pose K)}
    {x : LinkIdAndTransform K} (hx : data[0]? = some x) (hn : 0 < n)
    (e : downLoop data n tf c = .ok (T, c')) : c'.getCache x.id = .ok (some T) := by
  induction n generalizing tf c with
  | zero => omega
  | succ n ih =>
    simp only [downLoop, Outcome.bind_eq] at e
    cases hd : Outcome.idx "SizedStack::top" data n with
    | ok y =>
      rw [hd, Outcome.bind_ok] at e
      cases hs : c.setCache y.id (Pose.transform tf y.pose) with
      | ok c1 =>
        rw [hs, Outcome.bind_ok] at e
        cases n with
        | zero =>
          simp only [downLoop] at e
          cases e
          simp only [Outcome.idx, hx] at hd
          cases hd
          exact (setCache_keep hs).2.2.2.1
        | succ n => exact ih (by omega) e
      | _ => rw [hs] at e; cases e
    | _ => rw [hd] at e; cases e

/-- a computed pose of a link that is not the root is cached -/
theorem getLinkPose_caches {m m' : KinModel K} (ht : Tree m) {l p : Nat} {lk : Link K} (hl : m.links[l]? = some lk)
    (hp : lk.parent = some p) {T : Pose K} (e : getLinkPose l m = .ok T m') :
    m'.cache.getCache l = .ok (some T) := by
  unfold getLinkPose at e
  split at e
  · next hc => cases e; exact hc
  · next hc =>
    unfold getLinkPoseInner at e
    split at e
    · next st tf0 hu =>
      split at e
      · next tf c hd =>
        cases e
        simp only
        have hb : 0 < st.cur ∧ ∃ x, st.data[0]? = some x ∧ x.id = l := by
          rw [upLoop] at hu
          simp only [hl, hp, ht.ids hl, hc] at hu
          split at hu
          · cases hu
          · split at hu
            · cases hu
            · split at hu
              · split at hu
                · next hlt =>
                  obtain ⟨h1, h2⟩ := upLoop_bottom hu (by simp)
                  simp only [SizedStack.reset] at hlt h2
                  rw [List.getElem?_set_self hlt] at h2
                  exact ⟨h1, _, h2, rfl⟩
                · cases hu
              all_goals cases hu
        obtain ⟨h1, x, h2, rfl⟩ := hb
        exact downLoop_bottom _ _ h2 h1 hd
      all_goals cases e
    all_goals cases e
  all_goals cases e

/-- link `l` exists and is not the root -/
def HasParent (m : KinModel K) (l : Nat) : Prop := ∃ lk p, m.links[l]? = some lk ∧ lk.parent = some p

theorem Replays.getLinkPose {m : KinModel K} (ht : Tree m) {l : Nat} (hl : HasParent m l) :
    Replays m (getLinkPose l) := by
  intro m1 m2 v hs e m3 hp
  obtain ⟨lk, p, h1, h2⟩ := hl
  obtain ⟨⟨st, c, rfl⟩, _⟩ := hs
  have hc := getLinkPose_caches (m := { m with stack := st, cache := c })
    (Tree.congr (m := m) rfl rfl rfl ht) h1 h2 e
  refine ⟨m3, ?_, Ext.refl m3⟩
  simp only [Tinyfk.getLinkPose, hp.keep _ _ hc]

theorem Replays.comLinkData (m : KinModel K) (l : Nat) : Replays m (comLinkData l) :=
  .read fun _ _ _ _ => rfl

theorem comLinkData_id {m m1 m2 : KinModel K} (ht : Tree m) {l : Nat} {a : Inertial K × Nat}
    (h : SameRobot m m1) (e : comLinkData l m1 = .ok a m2) : a.2 = l := by
  obtain ⟨⟨st, c, rfl⟩, _⟩ := h
  simp only [comLinkData, Prog.read] at e
  cases hl : m.links[l]? with
  | none => simp only [hl] at e; cases e
  | some lk =>
    simp only [hl] at e
    cases hi : lk.inertial with
    | none => simp only [hi] at e; cases e
    | some i => simp only [hi] at e; cases e; exact ht.ids hl

theorem Replays.comLoop {m : KinModel K} (ht : Tree m) (ds : List Nat) (hd : ∀ d ∈ ds, HasParent m d)
    (acc : Vec3 K) (mt : K) : Replays m (comLoop ds acc mt) := by
  induction ds generalizing acc mt with
  | nil => exact .pure _ _
  | cons d ds ih =>
    refine .bind ht (.comLinkData _ _) (.comLinkData _) (fun a ⟨m1, m2, h1, h2⟩ => ?_)
      (fun a => .bind (.getLinkPose _) fun _ => .comLoop _ _ _)
    have := comLinkData_id ht h1 h2
    subst this
    exact .bind ht (.getLinkPose ht (hd _ (by simp))) (.getLinkPose _)
      (fun _ _ => ih (fun d hd' => hd d (by simp [hd'])) _ _) fun _ => .comLoop _ _ _

/-- the centre-of-mass links have parents -/
def ComParents (m : KinModel K) : Prop := ∀ d ∈ m.comDummy, HasParent m d

theorem Replays.dummies (m : KinModel K) : Replays m (Prog.read fun m => Outcome.ok m.comDummy) :=
  .read fun _ _ _ _ => rfl

theorem Stays.dummies : Stays (Prog.read fun m : KinModel K => Outcome.ok m.comDummy) :=
  .read fun _ => .ok _

theorem dummies_eq {m : KinModel K} {a : List Nat} (h : ∃ m1 m2, SameRobot m m1 ∧
    (Prog.read fun m => Outcome.ok m.comDummy : Prog (KinModel K) _) m1 = .ok a m2) : a = m.comDummy := by
  obtain ⟨m1, m2, ⟨⟨st, c, rfl⟩, _⟩, e⟩ := h
  cases e; rfl

theorem Replays.getCom {m : KinModel K} (ht : Tree m) (hc : ComParents m) : Replays m getCom := by
  refine .bind ht (.dummies m) .dummies (fun a ha => ?_)
    (fun a => .bind (.comLoop _ _ _) fun _ => .pure _)
  rw [dummies_eq ha]
  exact .bind ht (.comLoop ht _ hc _ _) (.comLoop _ _ _) (fun _ _ => .pure _ _) fun _ => .pure _

theorem Replays.inertiaLoop {m : KinModel K} (ht : Tree m) (com : Vec3 K) (ds : List Nat)
    (hd : ∀ d ∈ ds, HasParent m d) (acc : M3 K) : Replays m (inertiaLoop com ds acc) := by
  induction ds generalizing acc with
  | nil => exact .pure _ _
  | cons d ds ih =>
    have ih' := ih fun d hd' => hd d (by simp [hd'])
    refine .bind ht (.read fun _ _ _ _ => rfl) (.read fun m => ?_) (fun a ⟨m1, m2, h1, h2⟩ => ?_) (fun a => ?_)
    · cases m.links[d]? <;> first | exact .ok _ | exact .ub _
    · obtain ⟨o, lid⟩ := a
      cases o with
      | none => exact ih' _
      | some inr =>
        have : lid = d := by
          obtain ⟨⟨st, c, rfl⟩, _⟩ := h1
          simp only [Prog.read] at h2
          cases hl : m.links[d]? with
          | none => simp only [hl] at h2; cases h2
          | some lk =>
            simp only [hl, Res.ok.injEq, Prod.mk.injEq] at h2
            exact h2.1.2 ▸ ht.ids hl
        subst this
        exact .bind ht (.getLinkPose ht (hd _ (by simp))) (.getLinkPose _) (fun _ _ => ih' _)
          fun _ => .inertiaLoop _ _ _
    · obtain ⟨o, lid⟩ := a
      cases o with
      | none => exact .inertiaLoop _ _ _
      | some inr => exact .bind (.getLinkPose _) fun _ => .inertiaLoop _ _ _

theorem Replays.getTotalInertia {m : KinModel K} (ht : Tree m) (hc : ComParents m) :
    Replays m getTotalInertia := by
  refine .bind ht (.getCom ht hc) .getCom (fun v _ => ?_)
    (fun a => .bind .dummies fun _ => .inertiaLoop _ _ _)
  refine .bind ht (.dummies m) .dummies (fun a ha => ?_) (fun a => .inertiaLoop _ _ _)
  rw [dummies_eq ha]
  exact .inertiaLoop ht _ _ hc _

/-- writing angles keeps the cache -/
theorem setJointAnglesNC_pins {ids : List Nat} {q : List K} {m m' : KinModel K} {u : Unit}
    (e : setJointAnglesNC ids q m = .ok u m') : Pins m m' := by
  unfold setJointAnglesNC at e
  split at e
  · cases e; exact ⟨⟨_, _, _, rfl⟩, fun _ _ h => h⟩
  all_goals cases e

theorem bind_ok_inv {σ : Type} {p : Prog σ α} {f : α → Prog σ β} {s s' : σ} {b : β}
    (e : (p >>= f) s = .ok b s') : ∃ a s1, p s = .ok a s1 ∧ f a s1 = .ok b s' := by
  rw [Prog.bind_apply] at e
  cases h : p s with
  | ok a s1 => rw [h] at e; exact ⟨a, s1, rfl, e⟩
  | exn _ _ => rw [h] at e; cases e
  | ub _ => rw [h] at e; cases e
  | hang => rw [h] at e; cases e

theorem lift_ok_inv {σ : Type} {o : Outcome α} {s s' : σ} {a : α} (e : (Prog.lift o) s = .ok a s') :
    o = .ok a ∧ s' = s := by
  cases o <;> cases e
  exact ⟨rfl, rfl⟩

/-- `comRow` without action links starts with the centre of mass -/
theorem comRow_inv {ids : List Nat} {fs : List K} {wb wj : Bool} {nDof i : Nat} {C J : Mat K} {m m' : KinModel K}
    {x : Mat K × Mat K} (ht : Tree m) (e : Tinyfk.comRow ids [] fs wb wj nDof i C J m = .ok x m') :
    ∃ v m1, getCom m = .ok v m1 ∧ C.setCol 0 i [v.x, v.y, v.z] = .ok x.1 ∧ Ext m m1 ∧ Ext m1 m' := by
  unfold Tinyfk.comRow at e
  simp only [List.length_nil, gt_iff_lt, Nat.lt_irrefl, if_false] at e
  cases wj with
  | false =>
    simp only [Bool.false_eq_true, if_false] at e
    obtain ⟨v, m1, e1, e'⟩ := bind_ok_inv e
    clear e
    obtain ⟨C1, m2, e2, e''⟩ := bind_ok_inv e'
    clear e'
    obtain ⟨e2', rfl⟩ := lift_ok_inv e2
    cases e''
    exact ⟨v, _, e1, e2', Stays.getCom.ok ht e1, Ext.refl _⟩
  | true =>
    simp only [if_true] at e
    obtain ⟨v, m1, e1, e'⟩ := bind_ok_inv e
    clear e
    obtain ⟨C1, m2, e2, e''⟩ := bind_ok_inv e'
    clear e'
    obtain ⟨e2', rfl⟩ := lift_ok_inv e2
    obtain ⟨B, m3, e3, e⟩ := bind_ok_inv e''
    clear e''
    obtain ⟨J1, m4, e4, e'⟩ := bind_ok_inv e
    clear e
    obtain ⟨e4, rfl⟩ := lift_ok_inv e4
    cases e'
    have x1 := Stays.getCom.ok ht e1
    exact ⟨v, _, e1, e2', x1, (Stays.getComJacobian _ _).ok (x1.tree ht) e3⟩

theorem setCol3_get {C C' : Mat K} {i : Nat} {v : Vec3 K} (e : C.setCol 0 i [v.x, v.y, v.z] = .ok C') :
    C'.rows = C.rows ∧ C'.cols = C.cols ∧ (∀ r < 3, C'.f r i = v.coord r) ∧
      ∀ r c, c ≠ i → C'.f r c = C.f r c := by
  simp only [Mat.setCol, Mat.set] at e
  by_cases h0 : 0 < C.rows ∧ i < C.cols
  · rw [if_pos h0] at e
    simp only [Outcome.bind_eq, Outcome.bind_ok] at e
    by_cases h1 : 0 + 1 < C.rows ∧ i < C.cols
    · rw [if_pos h1] at e
      simp only [Outcome.bind_ok] at e
      by_cases h2 : 0 + 1 + 1 < C.rows ∧ i < C.cols
      · rw [if_pos h2] at e
        cases e
        refine ⟨rfl, rfl, ?_, ?_⟩
        · intro r hr
          match r, hr with
          | 0, _ => simp [Vec3.coord]
          | 1, _ => simp [Vec3.coord]
          | 2, _ => simp [Vec3.coord]
        · intro r c hc; simp [hc]
      · rw [if_neg h2] at e; cases e
    · rw [if_neg h1] at e; cases e
  · rw [if_neg h0] at e; cases e

/-- the states between two configurations without base -/
theorem Tree.setNC {ids : List Nat} {q : List K} {m m' : KinModel K} {u : Unit} (ht : Tree m)
    (e : setJointAnglesNC ids q m = .ok u m') : Tree m' := by
  unfold setJointAnglesNC at e
  split at e
  · next a ha =>
    cases e
    exact Tree.congr (m := m) rfl rfl (by simpa using writeAngles_length ha) ht
  all_goals cases e

/-- Once `get_com` has answered `v`, all further rows of a batch with fixed base are `v`. -/
theorem comFkLoop_stale {ids : List Nat} {fs : List K} {wj : Bool} {nDof : Nat} {v : Vec3 K} (qs : List (List K))
    {i : Nat} {C J : Mat K} {m m' : KinModel K} {x : Mat K × Mat K} (ht : Tree m)
    (hv : ∀ m3, Pins m m3 → ∃ m4, getCom m3 = .ok v m4 ∧ Ext m3 m4)
    (e : Tinyfk.comFkLoop ids [] fs false wj nDof qs i C J m = .ok x m') :
    (∀ k < qs.length, ∀ r < 3, x.1.f r (i + k) = v.coord r) ∧ (∀ r c, c < i → x.1.f r c = C.f r c) ∧
      Pins m m' ∧ Tree m' := by
  induction qs generalizing i C J m with
  | nil => cases e; exact ⟨fun k hk => by simp at hk, fun _ _ _ => rfl, .refl _, ht⟩
  | cons q qs ih =>
    simp only [Tinyfk.comFkLoop, Bool.false_eq_true, if_false] at e
    obtain ⟨u, m1, e1, e⟩ := bind_ok_inv e
    obtain ⟨y, m3, e3, e⟩ := bind_ok_inv e
    have ht1 := ht.setNC e1
    obtain ⟨v', m4, f1, f2, x1, x2⟩ := comRow_inv ht1 e3
    have hp1 := setJointAnglesNC_pins e1
    obtain ⟨m5, f3, _⟩ := hv m1 hp1
    rw [f1] at f3; cases f3
    obtain ⟨_, _, c3, c4⟩ := setCol3_get f2
    obtain ⟨h1, h2, h3, h4⟩ := ih ((x1.trans x2).tree ht1)
      (fun m6 hp => hv m6 ((hp1.trans (x1.trans x2).pins).trans hp)) e
    refine ⟨?_, ?_, (hp1.trans (x1.trans x2).pins).trans h3, h4⟩
    · intro k hk r hr
      cases k with
      | zero => rw [Nat.add_zero, h2 r i (by omega), c3 r hr]
      | succ k =>
        rw [show i + (k + 1) = i + 1 + k by omega]
        exact h1 k (by simpa using hk) r hr
    · intro r c hc
      rw [h2 r c (by omega), c4 r c (by omega)]

/-- all rows of a batch with fixed base are the first row, and later queries return it too -/
theorem comFkLoop_first {ids : List Nat} {fs : List K} {wj : Bool} {nDof : Nat} {qs : List (List K)}
    {C J : Mat K} {m m' : KinModel K} {x : Mat K × Mat K} (ht : Tree m) (hc : ComParents m) (hn : qs ≠ [])
    (e : Tinyfk.comFkLoop ids [] fs false wj nDof qs 0 C J m = .ok x m') :
    ∃ v, (∀ k < qs.length, ∀ r < 3, x.1.f r k = v.coord r) ∧ Tree m' ∧
      ∀ m3, Pins m' m3 → ∃ m4, getCom m3 = .ok v m4 ∧ Ext m3 m4 := by
  cases qs with
  | nil => exact absurd rfl hn
  | cons q qs =>
    simp only [Tinyfk.comFkLoop, Bool.false_eq_true, if_false] at e
    obtain ⟨u, m1, e1, e⟩ := bind_ok_inv e
    obtain ⟨y, m3, e3, e⟩ := bind_ok_inv e
    have ht1 := ht.setNC e1
    obtain ⟨v, m4, f1, f2, x1, x2⟩ := comRow_inv ht1 e3
    have hc1 : ComParents m1 := by
      obtain ⟨⟨θ, st, c, rfl⟩, _⟩ := setJointAnglesNC_pins e1
      exact hc
    obtain ⟨_, _, c3, c4⟩ := setCol3_get f2
    have hv := fun m6 (hp : Pins m3 m6) => Replays.getCom ht1 hc1 m1 m4 v (.refl _) f1 m6 (x2.pins.trans hp)
    obtain ⟨h1, h2, h3, h4⟩ := comFkLoop_stale (v := v) qs ((x1.trans x2).tree ht1) hv e
    refine ⟨v, ?_, h4, fun m6 hp => hv m6 (h3.trans hp)⟩
    intro k hk r hr
    cases k with
    | zero => rw [h2 r 0 (by omega), c3 r hr]
    | succ k => rw [show k + 1 = 0 + 1 + k by omega]; exact h1 k (by simpa using hk) r hr

theorem setJointAnglesNC_ok {ids : List Nat} {q : List K} {m : KinModel K}
    (hi : ∀ i ∈ ids, i < m.angles.length) (hq : ids.length ≤ q.length) :
    ∃ m', setJointAnglesNC ids q m = .ok () m' ∧ m'.angles.length = m.angles.length := by
  obtain ⟨a, ha⟩ := writeAngles_ok hq hi
  unfold setJointAnglesNC
  rw [ha]
  exact ⟨_, rfl, writeAngles_length ha⟩

/-- such a batch returns -/
theorem comFkLoop_total {ids : List Nat} {fs : List K} {nDof : Nat} {v : Vec3 K} (qs : List (List K))
    {i : Nat} {C J : Mat K} {m : KinModel K} (hC : 3 ≤ C.rows) (hi : ∀ j ∈ ids, j < m.angles.length)
    (hq : ∀ q ∈ qs, ids.length ≤ q.length) (hc : i + qs.length ≤ C.cols)
    (hv : ∀ m3, Pins m m3 → ∃ m4, getCom m3 = .ok v m4 ∧ Ext m3 m4) :
    ∃ x m', Tinyfk.comFkLoop ids [] fs false false nDof qs i C J m = .ok x m' := by
  induction qs generalizing i C J m with
  | nil => exact ⟨_, _, rfl⟩
  | cons q qs ih =>
    obtain ⟨m1, e1, hl1⟩ := setJointAnglesNC_ok (m := m) hi (hq q (by simp))
    have hp1 := setJointAnglesNC_pins e1
    obtain ⟨m2, e2, x2⟩ := hv m1 hp1
    have hset : ∃ C', C.setCol 0 i [v.x, v.y, v.z] = .ok C' := by
      simp only [List.length_cons] at hc
      simp only [Mat.setCol, Mat.set]
      rw [if_pos (by omega)]
      simp only [Outcome.bind_eq, Outcome.bind_ok]
      rw [if_pos (by omega)]
      simp only [Outcome.bind_ok]
      rw [if_pos (by omega)]
      exact ⟨_, rfl⟩
    obtain ⟨C', hC'⟩ := hset
    obtain ⟨c1, c2, _, _⟩ := setCol3_get hC'
    have hl2 : m2.angles.length = m1.angles.length := by
      obtain ⟨⟨⟨st, c, rfl⟩, _⟩, _⟩ := x2; rfl
    obtain ⟨x, m', e3⟩ := ih (i := i + 1) (C := C') (J := J) (m := m2) (by omega)
      (fun j hj => by rw [hl2, hl1]; exact hi j hj) (fun q hq' => hq q (by simp [hq']))
      (by simp only [List.length_cons] at hc; omega) (fun m3 hp => hv m3 ((hp1.trans x2.pins).trans hp))
    refine ⟨x, m', ?_⟩
    simp only [Tinyfk.comFkLoop, Tinyfk.comRow, Prog.bind_apply, e1, e2, Bool.false_eq_true, if_false, Prog.pure_apply,
      Prog.lift, Prog.read, hC', List.length_nil, gt_iff_lt, Nat.lt_irrefl, e3]

/-! ### `solve_fk` -/

theorem setCol_get {vs : List K} {P P' : Mat K} {i c : Nat} (e : P.setCol i c vs = .ok P') :
    (∀ (r : Nat) v, vs[r]? = some v → P'.f (i + r) c = v) ∧
      (∀ r c', c' ≠ c ∨ r < i → P'.f r c' = P.f r c') := by
  induction vs generalizing i P with
  | nil => cases e; exact ⟨fun r v h => by simp at h, fun _ _ _ => rfl⟩
  | cons x vs ih =>
    simp only [Mat.setCol, Mat.set] at e
    by_cases h0 : i < P.rows ∧ c < P.cols
    · rw [if_pos h0] at e
      simp only [Outcome.bind_eq, Outcome.bind_ok] at e
      obtain ⟨h1, h2⟩ := ih e
      refine ⟨?_, ?_⟩
      · intro r v hr
        cases r with
        | zero =>
          rw [h2 (i + 0) c (.inr (by omega))]
          simpa using hr
        | succ r => rw [show i + (r + 1) = i + 1 + r by omega]; exact h1 r v (by simpa using hr)
      · intro r c' hh
        rw [h2 r c' (by omega)]
        have : ¬ (r = i ∧ c' = c) := by omega
        simp [this]
    · rw [if_neg h0] at e; cases e

/-- what the pose loop wrote -/
theorem fkPoseLoop_inv {rt : RotType} {head0 : Nat} {es : List Nat} {j : Nat} {P P' : Mat K} {m m' : KinModel K}
    (ht : Tree m) (e : fkPoseLoop rt head0 es j P m = .ok P' m') : Ext m m' ∧
      (∀ r c, c < head0 + j → P'.f r c = P.f r c) ∧
      ∀ (k l : Nat), es[k]? = some l → ∃ T m1 m2, Ext m m1 ∧ getLinkPose l m1 = .ok T m2 ∧ Ext m2 m' ∧
        ∀ (r : Nat) v, (poseColumn rt T)[r]? = some v → P'.f r (head0 + j + k) = v := by
  induction es generalizing j P m with
  | nil => cases e; exact ⟨Ext.refl _, fun _ _ _ => rfl, fun k l h => by simp at h⟩
  | cons l0 es ih =>
    unfold fkPoseLoop at e
    obtain ⟨T, m1, e1, e'⟩ := bind_ok_inv e
    clear e
    obtain ⟨P1, m2, e2, e3⟩ := bind_ok_inv e'
    clear e'
    obtain ⟨e2', rfl⟩ := lift_ok_inv e2
    have x1 := (Stays.getLinkPose l0).ok ht e1
    obtain ⟨x2, h1, h2⟩ := ih (x1.tree ht) e3
    obtain ⟨c1, c2⟩ := setCol_get e2'
    refine ⟨x1.trans x2, ?_, ?_⟩
    · intro r c hc
      rw [h1 r c (by omega), c2 r c (by omega)]
    · intro k l hk
      cases k with
      | zero =>
        simp only [List.getElem?_cons_zero, Option.some.injEq] at hk
        subst hk
        refine ⟨T, m, _, Ext.refl _, e1, x2, ?_⟩
        intro r v hv
        rw [h1 r _ (by omega)]
        have := c1 r v hv
        simpa using this
      | succ k =>
        simp only [List.getElem?_cons_succ] at hk
        obtain ⟨T', m3, m4, y1, y2, y3, y4⟩ := h2 k l hk
        refine ⟨T', m3, m4, x1.trans y1, y2, y3, ?_⟩
        intro r v hv
        rw [show head0 + j + (k + 1) = head0 + (j + 1) + k by omega]
        exact y4 r v hv

/-- one configuration without base and with the cache kept -/
theorem fkRow_inv {rt : RotType} {es ids : List Nat} {wj uc : Bool} {q : List K} {qs : List (List K)} {i : Nat}
    {P J : Mat K} {m m' : KinModel K} {x : Mat K × Mat K} (ht : Tree m)
    (e : Tinyfk.fkLoop es ids rt false wj uc (q :: qs) i P J m = .ok x m') :
    ∃ m1 P1 J1 m2 m3, applyConfig ids false uc q m = .ok () m1 ∧ Tree m1 ∧
      fkPoseLoop rt (i * es.length) es 0 P m1 = .ok P1 m2 ∧ Ext m1 m2 ∧ Ext m2 m3 ∧
      Tinyfk.fkLoop es ids rt false wj uc qs (i + 1) P1 J1 m3 = .ok x m' := by
  unfold Tinyfk.fkLoop at e
  obtain ⟨u, m1, e1, e'⟩ := bind_ok_inv e
  clear e
  obtain ⟨P1, m2, e2, e''⟩ := bind_ok_inv e'
  clear e'
  have ht1 : Tree m1 := by
    have e1' := e1
    simp only [applyConfig, Bool.false_eq_true, if_false] at e1'
    obtain ⟨u', ma, ea, eb⟩ := bind_ok_inv e1'
    clear e1'
    have hta := ht.setNC ea
    cases uc with
    | true =>
      simp only [if_true] at eb
      cases eb
      exact hta
    | false =>
      simp only [Bool.false_eq_true, if_false] at eb
      cases eb
      exact Tree.congr (m := ma) rfl rfl rfl hta
  have x1 := (fkPoseLoop_inv ht1 e2).1
  cases wj with
  | false =>
    simp only [Bool.false_eq_true, if_false] at e''
    exact ⟨m1, P1, J, m2, m2, e1, ht1, e2, x1, Ext.refl _, e''⟩
  | true =>
    simp only [if_true] at e''
    obtain ⟨J1, m3, e3, e4⟩ := bind_ok_inv e''
    exact ⟨m1, P1, J1, m2, m3, e1, ht1, e2, x1, (Stays.fkJacLoop _ _ _ _ _ _ _).ok (x1.tree ht1) e3, e4⟩

/-- a link whose pose is cached keeps this pose through a batch with `use_cache` -/
theorem fkLoop_stale {rt : RotType} {es ids : List Nat} {wj : Bool} {l : Nat} {T : Pose K} (qs : List (List K))
    {i : Nat} {P J : Mat K} {m m' : KinModel K} {x : Mat K × Mat K} (ht : Tree m)
    (hv : ∀ m3, Pins m m3 → ∃ m4, getLinkPose l m3 = .ok T m4)
    (e : Tinyfk.fkLoop es ids rt false wj true qs i P J m = .ok x m') :
    (∀ k < qs.length, ∀ j : Nat, es[j]? = some l → ∀ (r : Nat) v, (poseColumn rt T)[r]? = some v →
      x.1.f r ((i + k) * es.length + j) = v) ∧ ∀ r c, c < i * es.length → x.1.f r c = P.f r c := by
  induction qs generalizing i P J m with
  | nil => cases e; exact ⟨fun k hk => by simp at hk, fun _ _ _ => rfl⟩
  | cons q qs ih =>
    obtain ⟨m1, P1, J1, m2, m3, e1, ht1, e2, x1, x2, e3⟩ := fkRow_inv ht e
    have hp1 : Pins m m1 := by
      simp only [applyConfig, Bool.false_eq_true, if_false] at e1
      obtain ⟨u', ma, ea, eb⟩ := bind_ok_inv e1
      simp only [if_true] at eb
      cases eb
      exact setJointAnglesNC_pins ea
    obtain ⟨h1, h2⟩ := ih (x2.tree (x1.tree ht1))
      (fun m6 hp => hv m6 ((hp1.trans (x1.trans x2).pins).trans hp)) e3
    obtain ⟨_, g1, g2⟩ := fkPoseLoop_inv ht1 e2
    refine ⟨?_, ?_⟩
    · intro k hk j hj r v hr
      cases k with
      | zero =>
        have hjl := (List.getElem?_eq_some_iff.mp hj).1
        rw [Nat.add_zero, h2 r _ (by rw [Nat.succ_mul]; omega)]
        obtain ⟨T', m4, m5, y1, y2, _, y4⟩ := g2 j l hj
        obtain ⟨m6, y5⟩ := hv m4 (hp1.trans y1.pins)
        rw [y2] at y5; cases y5
        have := y4 r v hr
        simpa using this
      | succ k =>
        rw [show i + (k + 1) = i + 1 + k by omega]
        exact h1 k (by simpa using hk) j hj r v hr
    · intro r c hc
      have : i * es.length ≤ (i + 1) * es.length := Nat.mul_le_mul_right _ (by omega)
      rw [h2 r c (by omega), g1 r c (by omega)]

end Tinyfk
