import Verif.Proofs.PyReach
import Verif.Proofs.Stale
import Verif.Spec.Shown

/-!
# What the cache shows

A cached link keeps the pose it was computed with. So the answers of all queries are those of a robot
whose joints have other angles: for each joint the value it had when a pose at or below it was first
computed. Replacing the angles of a model by these does not change what any query does.
-/

set_option linter.unusedSectionVars false

namespace Tinyfk

open Scalar

variable {K : Type} [Scalar K] {α β : Type}

/-- the model with other joint angles -/
def KinModel.hid (m : KinModel K) (a : List K) : KinModel K := { m with angles := a }

/-- the same result with other joint angles -/
def Res.hid (a : List K) : Res (KinModel K) α → Res (KinModel K) α
  | .ok v m => .ok v (m.hid a)
  | .exn e m => .exn e (m.hid a)
  | .ub u => .ub u
  | .hang => .hang

/-- `a` and the angles of `m` agree where a pose computation looks: at the joints above links that are not cached. -/
def Sees (a : List K) (m : KinModel K) : Prop :=
  ∀ (h p jp i : Nat) (lk : Link K) (j : Joint K), m.links[h]? = some lk → (∀ T, m.cache.getCache lk.id ≠ .ok (some T)) →
    lk.parent = some p → lk.parentJoint = some jp → m.jheap[jp]? = some j → j.type ≠ .fixed → j.id = some i →
    a[i]? = m.angles[i]?

theorem Sees.ext {a : List K} {m m' : KinModel K} (h : Sees a m) (he : Ext m m') : Sees a m' := by
  obtain ⟨⟨⟨st, c, rfl⟩, _⟩, _, hk⟩ := he
  intro x p jp i lk j h1 h2 h3 h4 h5 h6 h7
  exact h x p jp i lk j h1 (fun T hT => h2 T (hk _ _ hT)) h3 h4 h5 h6 h7

/-- `p` does not notice other angles that it does not look at. -/
def Blind (p : Prog (KinModel K) α) : Prop := ∀ m a, Tree m → Sees a m → p (m.hid a) = (p m).hid a

theorem Blind.pure (v : α) : Blind (Pure.pure v : Prog (KinModel K) α) := fun _ _ _ _ => rfl

theorem Blind.read {f : KinModel K → Outcome α} (hf : ∀ m a, f (KinModel.hid m a) = f m) : Blind (Prog.read f) := by
  intro m a _ _
  unfold Prog.read
  rw [hf]
  cases f m <;> rfl

theorem Blind.lift (o : Outcome α) : Blind (Prog.lift o : Prog (KinModel K) α) := Blind.read fun _ _ => rfl

theorem Blind.bind {p : Prog (KinModel K) α} {f : α → Prog (KinModel K) β} (hp : Blind p) (sp : Stays p)
    (hf : ∀ v, Blind (f v)) : Blind (p >>= f) := by
  intro m a ht hs
  rw [Prog.bind_apply, Prog.bind_apply, hp m a ht hs]
  cases e : p m with
  | ok v m' =>
    have he := sp.ok ht e
    exact hf v m' a (he.tree ht) (hs.ext he)
  | exn x m' => rfl
  | ub u => rfl
  | hang => rfl

theorem Blind.ite {c : Prop} [Decidable c] {p q : Prog (KinModel K) α} (hp : Blind p) (hq : Blind q) :
    Blind (if c then p else q) := by
  split <;> assumption

theorem jointTransform_hid {m : KinModel K} {a : List K} {j : Joint K}
    (h : ∀ i, j.type ≠ .fixed → j.id = some i → a[i]? = m.angles[i]?) :
    jointTransform (m.hid a) j = jointTransform m j := by
  unfold jointTransform
  split
  · rfl
  · rename_i hf
    cases hi : j.id with
    | none => rfl
    | some i =>
      have := h i hf hi
      simp only [KinModel.hid, Outcome.idx, this]

theorem upLoop_hid {m : KinModel K} {a : List K} (hs : Sees a m) (h : Nat)
    (st : SizedStack (LinkIdAndTransform K)) : upLoop (m.hid a) h st = upLoop m h st := by
  induction hn : st.data.length - st.cur using Nat.strongRecOn generalizing h st with
  | _ n ih =>
    have e1 : (m.hid a).links = m.links := rfl
    have e2 : (m.hid a).cache = m.cache := rfl
    have e3 : (m.hid a).jheap = m.jheap := rfl
    have e4 : (m.hid a).base = m.base := rfl
    rw [upLoop, upLoop]
    simp only [e1, e2, e3, e4]
    cases hl : m.links[h]? with
    | none => rfl
    | some lk =>
      simp only
      cases hp : lk.parent with
      | none => rfl
      | some p =>
        simp only
        cases hg : m.cache.getCache lk.id with
        | ok o =>
          cases o with
          | some T => rfl
          | none =>
            simp only
            cases hj : lk.parentJoint with
            | none => rfl
            | some jp =>
              simp only
              cases hh : m.jheap[jp]? with
              | none => rfl
              | some j =>
                simp only
                rw [jointTransform_hid (fun i hf hi => hs h p jp i lk j hl (fun T hT => by rw [hg] at hT; cases hT) hp hj hh hf hi)]
                cases jointTransform m j with
                | ok T =>
                  simp only
                  by_cases hlt : st.cur < st.data.length
                  · rw [dif_pos hlt, dif_pos hlt]
                    exact ih _ (by simp only [List.length_set]; omega) _ _ rfl
                  · rw [dif_neg hlt, dif_neg hlt]
                | exn e => rfl
                | ub u => rfl
                | hang => rfl
        | exn e => rfl
        | ub u => rfl
        | hang => rfl

theorem Blind.getLinkPose (l : Nat) : Blind (getLinkPose l : Prog (KinModel K) (Pose K)) := by
  intro m a _ hs
  have hc : (m.hid a).cache = m.cache := rfl
  unfold Tinyfk.getLinkPose
  rw [hc]
  cases m.cache.getCache l with
  | ok o =>
    cases o with
    | some T => rfl
    | none =>
      simp only [getLinkPoseInner, upLoop_hid hs, hc]
      show (match upLoop m l m.stack.reset with | .ok (st, tf0) => _ | .exn e => _ | .ub u => _ | .hang => _) = _
      cases upLoop m l m.stack.reset with
      | ok r =>
        simp only
        cases downLoop r.1.data r.1.cur r.2 m.cache <;> rfl
      | exn e => rfl
      | ub u => rfl
      | hang => rfl
  | exn e => rfl
  | ub u => rfl
  | hang => rfl

theorem Blind.jacJoint (elink : Nat) (rt : RotType) (tfE : Pose K) (erpy : Vec3 K)
    (einv : Rot K) (jid i : Nat) (J : Mat K) : Blind (jacJoint elink rt tfE erpy einv jid i J) := by
  unfold Tinyfk.jacJoint
  refine Blind.bind (Blind.read fun _ _ => rfl) (Stays.read fun _ => noExn_isRelevant _ _ _) (fun b => Blind.ite ?_ (Blind.pure _))
  refine Blind.bind (Blind.read fun _ _ => rfl) (Stays.read fun _ => .bind (.idx _ _ _) fun _ => noExn_derefJoint _ _) fun j =>
    Blind.bind (Blind.read fun _ _ => rfl) (Stays.read fun m => ?_) fun _ =>
    Blind.bind (Blind.getLinkPose _) (Stays.getLinkPose _) fun _ => Blind.lift _
  cases j.childLink with
  | none => exact .ub _
  | some c =>
    simp only
    split
    · exact .ub _
    · exact .ok _

theorem Blind.jacJointLoop (elink : Nat) (rt : RotType) (tfE : Pose K)
    (erpy : Vec3 K) (einv : Rot K) (ids : List Nat) (i : Nat) (J : Mat K) :
    Blind (jacJointLoop elink rt tfE erpy einv ids i J) := by
  induction ids generalizing i J with
  | nil => exact Blind.pure _
  | cons a l ih => exact Blind.bind (Blind.jacJoint _ _ _ _ _ _ _ _) (Stays.jacJoint _ _ _ _ _ _ _ _) fun _ => ih _ _

theorem Blind.getJacobian (elink : Nat) (ids : List Nat) (rt : RotType) (b : Bool) :
    Blind (getJacobian elink ids rt b : Prog (KinModel K) (Mat K)) := by
  unfold Tinyfk.getJacobian
  refine Blind.bind (Blind.getLinkPose _) (Stays.getLinkPose _) fun _ =>
    Blind.bind (Blind.jacJointLoop _ _ _ _ _ _ _ _) (Stays.jacJointLoop _ _ _ _ _ _ _ _) fun _ =>
    Blind.ite ?_ (Blind.pure _)
  exact Blind.bind (Blind.read fun _ _ => rfl) (Stays.read fun _ => .ok _) fun _ =>
    Blind.bind (Blind.getLinkPose _) (Stays.getLinkPose _) fun _ => Blind.lift _

theorem Blind.comLinkData (l : Nat) : Blind (comLinkData l : Prog (KinModel K) (Inertial K × Nat)) :=
  Blind.read fun _ _ => rfl

theorem Blind.comLoop (ds : List Nat) (acc : Vec3 K) (mt : K) : Blind (comLoop ds acc mt) := by
  induction ds generalizing acc mt with
  | nil => exact Blind.pure _
  | cons a l ih =>
    exact Blind.bind (Blind.comLinkData _) (Stays.comLinkData _) fun _ =>
      Blind.bind (Blind.getLinkPose _) (Stays.getLinkPose _) fun _ => ih _ _

theorem Blind.getCom : Blind (getCom : Prog (KinModel K) (Vec3 K)) := by
  unfold Tinyfk.getCom
  exact Blind.bind (Blind.read fun _ _ => rfl) (Stays.read fun _ => .ok _) fun _ =>
    Blind.bind (Blind.comLoop _ _ _) (Stays.comLoop _ _ _) fun _ => Blind.pure _

theorem Blind.comJacLoop (ids : List Nat) (b : Bool) (ds : List Nat) (acc : Mat K)
    (mt : K) : Blind (comJacLoop ids b ds acc mt) := by
  induction ds generalizing acc mt with
  | nil => exact Blind.pure _
  | cons a l ih =>
    exact Blind.bind (Blind.comLinkData _) (Stays.comLinkData _) fun _ =>
      Blind.bind (Blind.getJacobian _ _ _ _) (Stays.getJacobian _ _ _ _) fun _ =>
      Blind.bind (Blind.lift _) (Stays.lift (Mat.noExn_addBlock _ _ _ _ _ _ _)) fun _ => ih _ _

theorem Blind.getComJacobian (ids : List Nat) (b : Bool) :
    Blind (getComJacobian ids b : Prog (KinModel K) (Mat K)) := by
  unfold Tinyfk.getComJacobian
  exact Blind.bind (Blind.read fun _ _ => rfl) (Stays.read fun _ => .ok _) fun _ =>
    Blind.bind (Blind.comJacLoop _ _ _ _ _) (Stays.comJacLoop _ _ _ _ _) fun _ => Blind.lift _

theorem Blind.inertiaLoop (com : Vec3 K) (ds : List Nat) (acc : M3 K) : Blind (inertiaLoop com ds acc) := by
  induction ds generalizing acc with
  | nil => exact Blind.pure _
  | cons a l ih =>
    refine Blind.bind (Blind.read fun _ _ => rfl) (Stays.read fun m => ?_) fun d => ?_
    · split
      · exact .ub _
      · exact .ok _
    · rcases d with ⟨_ | inr, lid⟩
      · exact ih _
      · exact Blind.bind (Blind.getLinkPose _) (Stays.getLinkPose _) fun _ => ih _

theorem Blind.getTotalInertia : Blind (getTotalInertia : Prog (KinModel K) (M3 K)) := by
  unfold Tinyfk.getTotalInertia
  exact Blind.bind Blind.getCom Stays.getCom fun _ =>
    Blind.bind (Blind.read fun _ _ => rfl) (Stays.read fun _ => .ok _) fun _ => Blind.inertiaLoop _ _ _

/-! ### Which links get cached -/

/-- link `x` has a cached pose -/
def Cached (m : KinModel K) (x : Nat) : Prop := ∃ T, m.cache.getCache x = .ok (some T)

/-- link `x` is not the root and `l` or above `l` -/
def Above (m : KinModel K) (l x : Nat) : Prop := HasParent m x ∧ Anc m x l

/-- with a link, all links between it and the root are cached -/
def Closed (m : KinModel K) : Prop :=
  ∀ x p lk, Cached m x → m.links[x]? = some lk → lk.parent = some p → HasParent m p → Cached m p

theorem Closed.anc {m : KinModel K} (h : Closed m) {x l : Nat} (hx : HasParent m x) (ha : Anc m x l) (hl : Cached m l) :
    Cached m x := by
  induction ha with
  | refl => exact hl
  | @up y p lk h1 h2 ha ih =>
    refine ih (h y p lk hl h1 h2 ?_)
    cases ha with
    | refl => exact hx
    | up h3 h4 _ => exact ⟨_, _, h3, h4⟩

theorem Anc.trans {m : KinModel K} {a b c : Nat} (h : Anc m a b) (h' : Anc m b c) : Anc m a c := by
  induction h' with
  | refl => exact h
  | up h1 h2 _ ih => exact .up h1 h2 ih

theorem Anc.same {m m' : KinModel K} (h : m'.links = m.links) {a x : Nat} (ha : Anc m a x) : Anc m' a x := by
  induction ha with
  | refl => exact .refl
  | up h1 h2 _ ih => exact .up (by rw [h]; exact h1) h2 ih

/-- what the upward loop pushes, together with what is cached, is what is above the link -/
theorem upLoop_marks {m : KinModel K} (ht : Tree m) (hc : Closed m) {h : Nat} {st st' : SizedStack (LinkIdAndTransform K)}
    {tf : Pose K} (e : upLoop m h st = .ok (st', tf)) (hcur : st.cur ≤ st.data.length) :
    st'.cur ≤ st'.data.length ∧ ∃ es, st'.data.take st'.cur = st.data.take st.cur ++ es ∧
      (∀ x ∈ es, Above m h x.id) ∧ ∀ x, Above m h x → Cached m x ∨ ∃ y ∈ es, y.id = x := by
  induction hn : st.data.length - st.cur using Nat.strongRecOn generalizing h st with
  | _ n ih =>
    rw [upLoop] at e
    split at e
    · cases e
    rename_i lk hl
    split at e
    · rename_i hp
      cases e
      refine ⟨hcur, [], by simp, by simp, ?_⟩
      rintro x ⟨⟨lk', p', h1, h2⟩, ha⟩
      cases ha with
      | refl => rw [hl] at h1; cases h1; rw [hp] at h2; cases h2
      | up h3 h4 _ => rw [hl] at h3; cases h3; rw [hp] at h4; cases h4
    rename_i p hp
    split at e
    · rename_i T hg
      cases e
      refine ⟨hcur, [], by simp, by simp, ?_⟩
      rintro x ⟨hx, ha⟩
      rw [ht.ids hl] at hg
      exact .inl (hc.anc hx ha ⟨_, hg⟩)
    · split at e
      · cases e
      rename_i jp hj
      split at e
      · cases e
      rename_i j hh
      split at e
      · rename_i T hT
        split at e
        · rename_i hlt
          have hlen : (st.data.set st.cur ⟨lk.id, T⟩).length = st.data.length := List.length_set
          obtain ⟨h1, es, h2, h3, h4⟩ := ih (st.data.length - (st.cur + 1)) (by omega) e (by simp only [hlen]; omega) (by simp only [hlen])
          refine ⟨h1, ⟨lk.id, T⟩ :: es, ?_, ?_, ?_⟩
          · rw [h2]
            simp only [List.take_set, List.take_add_one, List.getElem?_set_self hlt]
            rw [List.set_eq_of_length_le (by simp)]
            simp
          · intro x hx
            rcases List.mem_cons.mp hx with rfl | hx
            · rw [ht.ids hl]
              exact ⟨⟨lk, p, hl, hp⟩, .refl⟩
            · obtain ⟨a, b⟩ := h3 x hx
              exact ⟨a, .up hl hp b⟩
          · rintro x ⟨hx, ha⟩
            cases ha with
            | refl => exact .inr ⟨_, List.mem_cons_self, ht.ids hl⟩
            | up h5 h6 ha =>
              rw [hl] at h5; cases h5; rw [hp] at h6; cases h6
              rcases h4 x ⟨hx, ha⟩ with h | ⟨y, hy, hxy⟩
              · exact .inl h
              · exact .inr ⟨y, List.mem_cons_of_mem _ hy, hxy⟩
        · cases e
      · cases e
      · cases e
      · cases e
    · cases e
    · cases e
    · cases e

theorem downLoop_marks (data : List (LinkIdAndTransform K)) (n : Nat) (hn : n ≤ data.length) {tf T : Pose K}
    {c c' : SizedCache (Pose K)} (e : downLoop data n tf c = .ok (T, c')) (x : Nat) :
    (∃ S, c'.getCache x = .ok (some S)) ↔ (∃ S, c.getCache x = .ok (some S)) ∨ ∃ y ∈ data.take n, y.id = x := by
  induction n generalizing tf c with
  | zero => cases e; simp
  | succ n ih =>
    have hlt : n < data.length := hn
    simp only [downLoop, Outcome.idx, List.getElem?_eq_getElem hlt] at e
    change (Outcome.bind _ _) = _ at e
    simp only [Outcome.bind] at e
    change (Outcome.bind _ _) = _ at e
    cases hs : c.setCache data[n].id (Pose.transform tf data[n].pose) with
    | ok c1 =>
      rw [hs] at e
      have h1 := ih (by omega) (tf := Pose.transform tf data[n].pose) (c := c1) e
      obtain ⟨_, _, _, h2, h3⟩ := setCache_keep hs
      rw [h1, List.take_add_one, List.getElem?_eq_getElem hlt]
      simp only [Option.toList, List.mem_append, List.mem_singleton]
      by_cases hx : x = data[n].id
      · subst hx
        constructor
        · rintro _
          exact .inr ⟨data[n], .inr rfl, rfl⟩
        · rintro _
          exact .inl ⟨_, h2⟩
      · rw [h3 x hx]
        constructor
        · rintro (h | ⟨y, hy, h⟩)
          · exact .inl h
          · exact .inr ⟨y, .inl hy, h⟩
        · rintro (h | ⟨y, hy | hy, h⟩)
          · exact .inl h
          · exact .inr ⟨y, hy, h⟩
          · subst hy; exact absurd h.symm hx
    | exn x => rw [hs] at e; cases e
    | ub u => rw [hs] at e; cases e
    | hang => rw [hs] at e; cases e

/-- a pose query caches exactly the links above -/
theorem getLinkPose_marks {m m' : KinModel K} (ht : Tree m) (hc : Closed m) {l : Nat} {T : Pose K}
    (e : getLinkPose l m = .ok T m') (x : Nat) : Cached m' x ↔ Cached m x ∨ Above m l x := by
  unfold getLinkPose at e
  split at e
  · rename_i S hg
    cases e
    constructor
    · exact .inl
    · rintro (h | ⟨hx, ha⟩)
      · exact h
      · exact hc.anc hx ha ⟨_, hg⟩
  · unfold getLinkPoseInner at e
    split at e
    · rename_i st tf0 hu
      split at e
      · rename_i S c hd
        cases e
        obtain ⟨h1, es, h2, h3, h4⟩ := upLoop_marks ht hc hu (by simp [SizedStack.reset])
        have h5 := downLoop_marks _ _ h1 hd x
        rw [h2] at h5
        simp only [SizedStack.reset, List.take_zero, List.nil_append] at h5
        constructor
        · intro h
          rcases h5.mp h with h | ⟨y, hy, rfl⟩
          · exact .inl h
          · exact .inr (h3 y hy)
        · intro h
          apply h5.mpr
          rcases h with h | h
          · exact .inl h
          · exact h4 x h
      · cases e
      · cases e
      · cases e
    · cases e
    · cases e
    · cases e
  · cases e
  · cases e
  · cases e

/-- On every state of the robot `m` with a closed cache, `p` leaves one; what it adds to the cache contains `lo` and is contained
in `hi`. -/
def Asks (m : KinModel K) (p : Prog (KinModel K) α) (lo hi : Nat → Prop) : Prop :=
  ∀ m1 v m2, SameRobot m m1 → Closed m1 → p m1 = .ok v m2 →
    SameRobot m m2 ∧ Closed m2 ∧ (∀ x, Cached m1 x → Cached m2 x) ∧ (∀ x, lo x → Cached m2 x) ∧
      ∀ x, Cached m2 x → Cached m1 x ∨ hi x

theorem Asks.mono {m : KinModel K} {p : Prog (KinModel K) α} {lo lo' hi hi' : Nat → Prop} (h : Asks m p lo hi)
    (h1 : ∀ x, lo' x → lo x) (h2 : ∀ x, hi x → hi' x) : Asks m p lo' hi' := by
  intro m1 v m2 hs hc e
  obtain ⟨a, b, c, d, f⟩ := h m1 v m2 hs hc e
  exact ⟨a, b, c, fun x hx => d x (h1 x hx), fun x hx => (f x hx).imp id (h2 x)⟩

theorem Asks.pure (m : KinModel K) (v : α) (hi : Nat → Prop) : Asks m (Pure.pure v) (fun _ => False) hi := by
  intro m1 w m2 hs hc e
  cases e
  exact ⟨hs, hc, fun _ h => h, fun _ h => h.elim, fun _ h => .inl h⟩

theorem read_ok_inv {f : KinModel K → Outcome α} {m m' : KinModel K} {v : α} (e : Prog.read f m = .ok v m') :
    f m = .ok v ∧ m' = m := by
  unfold Prog.read at e
  split at e <;> cases e
  exact ⟨by assumption, rfl⟩

theorem Asks.read (m : KinModel K) (f : KinModel K → Outcome α) (hi : Nat → Prop) :
    Asks m (Prog.read f) (fun _ => False) hi := by
  intro m1 w m2 hs hc e
  have : m2 = m1 := by
    unfold Prog.read at e
    split at e <;> cases e
    rfl
  subst this
  exact ⟨hs, hc, fun _ h => h, fun _ h => h.elim, fun _ h => .inl h⟩

theorem Asks.lift (m : KinModel K) (o : Outcome α) (hi : Nat → Prop) : Asks m (Prog.lift o) (fun _ => False) hi :=
  Asks.read m _ hi

theorem Asks.bind {m : KinModel K} {p : Prog (KinModel K) α} {f : α → Prog (KinModel K) β} {lo1 lo2 hi : Nat → Prop}
    (hp : Asks m p lo1 hi) (hf : ∀ v, (∃ m1 m2, SameRobot m m1 ∧ p m1 = .ok v m2) → Asks m (f v) lo2 hi) :
    Asks m (p >>= f) (fun x => lo1 x ∨ lo2 x) hi := by
  intro m1 w m3 hs hc e
  obtain ⟨v, m2, e1, e2⟩ := bind_ok_inv e
  obtain ⟨a, b, c, d, g⟩ := hp m1 v m2 hs hc e1
  obtain ⟨a', b', c', d', g'⟩ := hf v ⟨m1, m2, hs, e1⟩ m2 w m3 a b e2
  refine ⟨a', b', fun x h => c' x (c x h), ?_, ?_⟩
  · rintro x (h | h)
    · exact c' x (d x h)
    · exact d' x h
  · intro x h
    rcases g' x h with h | h
    · exact g x h
    · exact .inr h

theorem Asks.bindL {m : KinModel K} {p : Prog (KinModel K) α} {f : α → Prog (KinModel K) β} {lo hi : Nat → Prop}
    (hp : Asks m p lo hi) (hf : ∀ v, (∃ m1 m2, SameRobot m m1 ∧ p m1 = .ok v m2) → Asks m (f v) (fun _ => False) hi) :
    Asks m (p >>= f) lo hi := (Asks.bind hp hf).mono (fun _ h => .inl h) fun _ h => h

theorem Asks.bindR {m : KinModel K} {p : Prog (KinModel K) α} {f : α → Prog (KinModel K) β} {lo hi : Nat → Prop}
    (hp : Asks m p (fun _ => False) hi) (hf : ∀ v, (∃ m1 m2, SameRobot m m1 ∧ p m1 = .ok v m2) → Asks m (f v) lo hi) :
    Asks m (p >>= f) lo hi := (Asks.bind hp hf).mono (fun _ h => .inr h) fun _ h => h

theorem Asks.ite {m : KinModel K} {c : Prop} [Decidable c] {p q : Prog (KinModel K) α} {lo hi : Nat → Prop}
    (hp : Asks m p lo hi) (hq : Asks m q lo hi) : Asks m (if c then p else q) lo hi := by
  split <;> assumption

theorem SameRobot.links {m m1 : KinModel K} (h : SameRobot m m1) : m1.links = m.links := by
  obtain ⟨⟨st, c, rfl⟩, _⟩ := h; rfl

theorem Tree.same {m m1 : KinModel K} (h : Tree m) (hs : SameRobot m m1) : Tree m1 := by
  obtain ⟨⟨st, c, rfl⟩, _⟩ := hs
  exact Tree.congr (m := m) rfl rfl rfl h

theorem HasParent.same {m m1 : KinModel K} (h : m1.links = m.links) {x : Nat} : HasParent m1 x ↔ HasParent m x := by
  unfold HasParent; rw [h]

theorem Above.same {m m1 : KinModel K} (h : m1.links = m.links) {l x : Nat} : Above m1 l x ↔ Above m l x :=
  ⟨fun ⟨a, b⟩ => ⟨(HasParent.same h).mp a, b.same h.symm⟩, fun ⟨a, b⟩ => ⟨(HasParent.same h).mpr a, b.same h⟩⟩

theorem Asks.getLinkPose {m : KinModel K} (ht : Tree m) (l : Nat) :
    Asks m (getLinkPose l) (Above m l) (Above m l) := by
  intro m1 v m2 hs hc e
  have ht1 := ht.same hs
  have he := (Stays.getLinkPose l).ok ht1 e
  have hm := getLinkPose_marks ht1 hc e
  have hs2 := hs.trans he.same
  refine ⟨hs2, ?_, fun x h => (hm x).mpr (.inl h), fun x h => (hm x).mpr (.inr ((Above.same hs.links).mpr h)),
    fun x h => ((hm x).mp h).imp id (Above.same hs.links).mp⟩
  intro x p lk hx h1 h2 h3
  rw [hs2.links, ← hs.links] at h1
  have h3' : HasParent m1 p := (HasParent.same (hs.links.trans hs2.links.symm)).mpr h3
  rcases (hm x).mp hx with h | ⟨_, h⟩
  · exact (hm p).mpr (.inl (hc x p lk h h1 h2 h3'))
  · exact (hm p).mpr (.inr ⟨h3', Anc.trans (.up h1 h2 .refl) h⟩)

/-- a marked entry of the relevance table is a joint on the path -/
def RpSound (m : KinModel K) : Prop :=
  ∀ l i, RpTable.isRelevant m.rptable l i = .ok true → ∃ jp, m.joints[i]? = some jp ∧ OnPath m jp l

theorem Asks.jacJoint {m : KinModel K} (g : Graph m) (hr : RpSound m) (elink : Nat) (rt : RotType) (tfE : Pose K)
    (erpy : Vec3 K) (einv : Rot K) (jid i : Nat) (J : Mat K) :
    Asks m (jacJoint elink rt tfE erpy einv jid i J) (fun _ => False) (Above m elink) := by
  unfold Tinyfk.jacJoint
  refine Asks.bindL (Asks.read m _ _) fun rel hrel => ?_
  cases rel with
  | false => exact Asks.pure m _ _
  | true =>
    simp only [if_true]
    obtain ⟨m1, m2, hs, e⟩ := hrel
    have e1 : RpTable.isRelevant m.rptable elink jid = .ok true := by
      obtain ⟨⟨st, c, rfl⟩, _⟩ := hs
      unfold Prog.read at e
      split at e <;> cases e
      assumption
    obtain ⟨jp, hjp, hon⟩ := hr _ _ e1
    obtain ⟨j, c, lk, p, h1, h2, h3, h4, h5, h6, h7⟩ := g.joint hjp
    have hanc : Anc m c elink := (g.onPath_iff h5 h6 h7 elink).mp hon
    refine Asks.bindL (Asks.read m _ _) fun j' hj' => Asks.bindL (Asks.read m _ _) fun cl hcl => ?_
    obtain ⟨m3, m4, hs3, e3⟩ := hj'
    obtain ⟨m5, m6, hs5, e5⟩ := hcl
    have hj : j' = j := by
      obtain ⟨⟨st, c, rfl⟩, _⟩ := hs3
      have e4 := (read_ok_inv e3).1
      simp only [Outcome.idx, hjp] at e4
      change derefJoint _ jp = _ at e4
      simp only [derefJoint, h1] at e4
      cases e4; rfl
    subst hj
    have hc' : cl = c := by
      simp only [Prog.read, h4, hs5.links, h5] at e5
      cases e5
      exact g.ids h5
    subst hc'
    refine Asks.bindL ((Asks.getLinkPose g.tree cl).mono (fun _ h => h.elim) ?_) fun _ _ => Asks.lift m _ _
    rintro x ⟨ha, hb⟩
    exact ⟨ha, hb.trans hanc⟩

theorem Asks.jacJointLoop {m : KinModel K} (g : Graph m) (hr : RpSound m) (elink : Nat) (rt : RotType) (tfE : Pose K)
    (erpy : Vec3 K) (einv : Rot K) (ids : List Nat) (i : Nat) (J : Mat K) :
    Asks m (jacJointLoop elink rt tfE erpy einv ids i J) (fun _ => False) (Above m elink) := by
  induction ids generalizing i J with
  | nil => exact Asks.pure m _ _
  | cons a l ih => exact Asks.bindL (Asks.jacJoint g hr _ _ _ _ _ _ _ _) fun _ _ => ih _ _

theorem Asks.getJacobian {m : KinModel K} (g : Graph m) (hr : RpSound m) (elink : Nat) (ids : List Nat) (rt : RotType) (b : Bool) :
    Asks m (getJacobian elink ids rt b) (Above m elink) (Above m elink) := by
  unfold Tinyfk.getJacobian
  refine Asks.bindL (Asks.getLinkPose g.tree _) fun _ _ => Asks.bindL (Asks.jacJointLoop g hr _ _ _ _ _ _ _ _) fun _ _ =>
    Asks.ite ?_ (Asks.pure m _ _)
  refine Asks.bindL (Asks.read m _ _) fun r hrt => ?_
  obtain ⟨m1, m2, hs, e⟩ := hrt
  have : r = m.rootLinkId := by
    obtain ⟨⟨st, c, rfl⟩, _⟩ := hs
    cases e; rfl
  subst this
  refine Asks.bindL ((Asks.getLinkPose g.tree _).mono (fun _ h => h.elim) ?_) fun _ _ => Asks.lift m _ _
  obtain ⟨lk, h1, h2⟩ := g.root
  rintro x ⟨⟨lk', p', h3, h4⟩, ha⟩
  cases ha with
  | refl => rw [h1] at h3; cases h3; rw [h2] at h4; cases h4
  | up h5 h6 _ => rw [h1] at h5; cases h5; rw [h2] at h6; cases h6

/-- above one of the links `L` -/
def AboveAny (m : KinModel K) (L : List Nat) (x : Nat) : Prop := ∃ l ∈ L, Above m l x

theorem AboveAny.nil {m : KinModel K} {x : Nat} : ¬ AboveAny m [] x := by rintro ⟨_, h, _⟩; cases h

theorem AboveAny.cons {m : KinModel K} {l : Nat} {L : List Nat} {x : Nat} :
    AboveAny m (l :: L) x ↔ Above m l x ∨ AboveAny m L x := by
  simp [AboveAny]

theorem AboveAny.append {m : KinModel K} {L L' : List Nat} {x : Nat} :
    AboveAny m (L ++ L') x ↔ AboveAny m L x ∨ AboveAny m L' x := by
  simp only [AboveAny, List.mem_append, or_and_right, exists_or]

/-- one link after the other -/
theorem Asks.cons {m : KinModel K} {p : Prog (KinModel K) α} {f : α → Prog (KinModel K) β} {l : Nat} {L : List Nat}
    (hp : Asks m p (Above m l) (Above m l))
    (hf : ∀ v, (∃ m1 m2, SameRobot m m1 ∧ p m1 = .ok v m2) → Asks m (f v) (AboveAny m L) (AboveAny m L)) :
    Asks m (p >>= f) (AboveAny m (l :: L)) (AboveAny m (l :: L)) := by
  refine (Asks.bind (hi := AboveAny m (l :: L)) (hp.mono (fun _ h => h) fun _ h => AboveAny.cons.mpr (.inl h))
    fun v hv => (hf v hv).mono (fun _ h => h) fun _ h => AboveAny.cons.mpr (.inr h)).mono (fun _ h => AboveAny.cons.mp h) fun _ h => h

theorem Asks.comLoop {m : KinModel K} (ht : Tree m) (ds : List Nat) (acc : Vec3 K) (mt : K) :
    Asks m (comLoop ds acc mt) (AboveAny m ds) (AboveAny m ds) := by
  induction ds generalizing acc mt with
  | nil => exact (Asks.pure m _ _).mono (fun _ h => (AboveAny.nil h).elim) fun _ h => h
  | cons d ds ih =>
    refine Asks.bindR (Asks.read m _ _) fun a ha => ?_
    obtain ⟨m1, m2, hs, e⟩ := ha
    have hid := comLinkData_id ht hs e
    rcases a with ⟨inr, lid⟩
    subst hid
    exact Asks.cons (Asks.getLinkPose ht _) fun _ _ => ih _ _

theorem Asks.getCom {m : KinModel K} (ht : Tree m) : Asks m getCom (AboveAny m m.comDummy) (AboveAny m m.comDummy) := by
  unfold Tinyfk.getCom
  refine Asks.bindR (Asks.read m _ _) fun a ha => ?_
  cases dummies_eq ha
  exact Asks.bindL (Asks.comLoop ht _ _ _) fun _ _ => Asks.pure m _ _

theorem Asks.comJacLoop {m : KinModel K} (g : Graph m) (hr : RpSound m) (ids : List Nat) (b : Bool) (ds : List Nat) (acc : Mat K)
    (mt : K) : Asks m (comJacLoop ids b ds acc mt) (AboveAny m ds) (AboveAny m ds) := by
  induction ds generalizing acc mt with
  | nil => exact (Asks.pure m _ _).mono (fun _ h => (AboveAny.nil h).elim) fun _ h => h
  | cons d ds ih =>
    refine Asks.bindR (Asks.read m _ _) fun a ha => ?_
    obtain ⟨m1, m2, hs, e⟩ := ha
    have hid := comLinkData_id g.tree hs e
    rcases a with ⟨inr, lid⟩
    subst hid
    exact Asks.cons (Asks.getJacobian g hr _ _ _ _) fun _ _ => Asks.bindR (Asks.lift m _ _) fun _ _ => ih _ _

theorem Asks.getComJacobian {m : KinModel K} (g : Graph m) (hr : RpSound m) (ids : List Nat) (b : Bool) :
    Asks m (getComJacobian ids b) (AboveAny m m.comDummy) (AboveAny m m.comDummy) := by
  unfold Tinyfk.getComJacobian
  refine Asks.bindR (Asks.read m _ _) fun a ha => ?_
  cases dummies_eq ha
  exact Asks.bindL (Asks.comJacLoop g hr _ _ _ _ _) fun _ _ => Asks.lift m _ _

theorem Asks.inertiaLoop {m : KinModel K} (ht : Tree m) (com : Vec3 K) (ds : List Nat) (acc : M3 K) :
    Asks m (inertiaLoop com ds acc) (fun _ => False) (AboveAny m ds) := by
  induction ds generalizing acc with
  | nil => exact Asks.pure m _ _
  | cons d ds ih =>
    refine Asks.bindR (Asks.read m _ _) fun a ha => ?_
    obtain ⟨m1, m2, hs, e⟩ := ha
    rcases a with ⟨_ | inr, lid⟩
    · exact (ih _).mono (fun _ h => h) fun _ h => AboveAny.cons.mpr (.inr h)
    · have hid : lid = d := by
        have e1 := (read_ok_inv e).1
        rw [hs.links] at e1
        cases hl : m.links[d]? with
        | none => rw [hl] at e1; cases e1
        | some lk =>
          rw [hl] at e1
          simp only [Outcome.ok.injEq, Prod.mk.injEq] at e1
          exact e1.2.symm.trans (ht.ids hl)
      subst hid
      exact Asks.bindR ((Asks.getLinkPose ht _).mono (fun _ h => h.elim) fun _ h => AboveAny.cons.mpr (.inl h)) fun _ _ =>
        (ih _).mono (fun _ h => h) fun _ h => AboveAny.cons.mpr (.inr h)

theorem Asks.getTotalInertia {m : KinModel K} (ht : Tree m) :
    Asks m getTotalInertia (AboveAny m m.comDummy) (AboveAny m m.comDummy) := by
  unfold Tinyfk.getTotalInertia
  refine Asks.bindL (Asks.getCom ht) fun _ _ => Asks.bindR (Asks.read m _ _) fun a ha => ?_
  cases dummies_eq ha
  exact Asks.inertiaLoop ht _ _ _

end Tinyfk
