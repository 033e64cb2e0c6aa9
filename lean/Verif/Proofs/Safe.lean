import Verif.Proofs.PyReach
import Verif.Spec.Bounds

/-!
# Defined behaviour

What makes the C++ methods stay within their arrays, whatever the cache holds.
-/

namespace Tinyfk

set_option linter.unusedSectionVars false

open Scalar

variable {K : Type} [Scalar K] {α β : Type} {B : Bounds}

/-- What a model offers. -/
structure Bounds where
  T : Prop
  L : Prop
  nj : Nat
  nl : Nat
  M : Nat → Prop

/-- A model with `B.nj` movable joints, `B.nl` links and mass links `B.M` on which accesses within these bounds are
defined. With `B.T` the relevance table is there, with `B.L` all joint limits are. -/
structure Sound (B : Bounds) (m : KinModel K) : Prop where
  tree : Tree m
  sized : CacheSized m
  fits : FitsStack m
  angles : m.angles.length = B.nj
  links : m.links.length = B.nl
  joint : ∀ i < B.nj, ∃ jp j c, m.joints[i]? = some jp ∧ m.jheap[jp]? = some j ∧ j.childLink = some c ∧ c < B.nl ∧
    (B.L → j.type ≠ .continuous → j.limits.isSome)
  njoints : m.joints.length = B.nj
  com : ∀ d ∈ m.comDummy, B.M d
  mass : ∀ d, B.M d → ∃ lk inr, m.links[d]? = some lk ∧ lk.inertial = some inr
  table : B.T → ∀ l < B.nl, ∀ i < B.nj, ∃ b, m.rptable.isRelevant l i = .ok b
  root : m.rootLinkId < B.nl

theorem Sound.frame {m m' : KinModel K} (h : Sound B m) {a : List K} {b : Pose K}
    {st : SizedStack (LinkIdAndTransform K)} {c : SizedCache (Pose K)}
    (e : m' = { m with angles := a, base := b, stack := st, cache := c }) (ha : a.length = m.angles.length)
    (hst : st.data.length = m.stack.data.length) (hc : CacheSized m') : Sound B m' := by
  subst e
  refine ⟨⟨h.tree.ids, fun hl => ?_, fun hl hp => ?_⟩, hc, FitsStack.congr (m := m) rfl hst h.fits,
    ha.trans h.angles, h.links, h.joint, h.njoints, h.com, h.mass, h.table, h.root⟩
  · obtain ⟨n, hn⟩ := h.tree.depth hl
    exact ⟨n, Depth.congr (m := m) (m' := { m with angles := a, base := b, stack := st, cache := c }) rfl hn⟩
  · obtain ⟨jp, j, h1, h2, h3⟩ := h.tree.pjoint hl hp
    exact ⟨jp, j, h1, h2, by rw [ha]; exact h3⟩

/-- `p` returns a value with `Q` -/
def Tot (B : Bounds) (p : Prog (KinModel K) α) (Q : α → Prop) : Prop :=
  ∀ m, Sound B m → ∃ a m', p m = .ok a m' ∧ Sound B m' ∧ Q a

/-- `p` returns or has undefined behaviour -/
def Mild (B : Bounds) (p : Prog (KinModel K) α) : Prop :=
  ∀ m, Sound B m → (∃ a m', p m = .ok a m' ∧ Sound B m') ∨ ∃ u, p m = .ub u

/-- `p` has undefined behaviour -/
def Bad (B : Bounds) (p : Prog (KinModel K) α) : Prop :=
  ∀ m, Sound B m → ∃ u, p m = .ub u

theorem Tot.mild {p : Prog (KinModel K) α} {Q : α → Prop} (h : Tot B p Q) : Mild B p :=
  fun m hm => by obtain ⟨a, m', e, h', _⟩ := h m hm; exact .inl ⟨a, m', e, h'⟩

theorem Bad.mild {p : Prog (KinModel K) α} (h : Bad B p) : Mild B p := fun m hm => .inr (h m hm)

theorem Tot.bind {p : Prog (KinModel K) α} {f : α → Prog (KinModel K) β} {Q : α → Prop} {R : β → Prop}
    (h : Tot B p Q) (h' : ∀ a, Q a → Tot B (f a) R) : Tot B (p >>= f) R := by
  intro m hm
  obtain ⟨a, m', e, hm', hq⟩ := h m hm
  rw [Prog.bind_apply, e]
  exact h' a hq m' hm'

theorem Mild.bind {p : Prog (KinModel K) α} {f : α → Prog (KinModel K) β}
    (h : Mild B p) (h' : ∀ a, Mild B (f a)) : Mild B (p >>= f) := by
  intro m hm
  rw [Prog.bind_apply]
  rcases h m hm with ⟨a, m', e, hm'⟩ | ⟨u, e⟩ <;> rw [e]
  · exact h' a m' hm'
  · exact .inr ⟨u, rfl⟩

theorem Bad.left {p : Prog (KinModel K) α} {f : α → Prog (KinModel K) β} (h : Bad B p) :
    Bad B (p >>= f) := by
  intro m hm
  rw [Prog.bind_apply]
  obtain ⟨u, e⟩ := h m hm
  rw [e]
  exact ⟨u, rfl⟩

theorem Bad.right {p : Prog (KinModel K) α} {f : α → Prog (KinModel K) β} (h : Mild B p)
    (h' : ∀ a, Bad B (f a)) : Bad B (p >>= f) := by
  intro m hm
  rw [Prog.bind_apply]
  rcases h m hm with ⟨a, m', e, hm'⟩ | ⟨u, e⟩ <;> rw [e]
  · exact h' a m' hm'
  · exact ⟨u, rfl⟩

theorem Tot.pure {a : α} {Q : α → Prop} (h : Q a) : Tot B (Pure.pure a : Prog (KinModel K) α) Q :=
  fun m hm => ⟨a, m, rfl, hm, h⟩

theorem Mild.pure (a : α) : Mild B (Pure.pure a : Prog (KinModel K) α) := fun m hm => .inl ⟨a, m, rfl, hm⟩

theorem Tot.mono {p : Prog (KinModel K) α} {Q R : α → Prop} (h : Tot B p Q) (hi : ∀ a, Q a → R a) :
    Tot B p R := fun m hm => by
  obtain ⟨a, m', e, h1, h2⟩ := h m hm; exact ⟨a, m', e, h1, hi a h2⟩

theorem Tot.read {f : KinModel K → Outcome α} {Q : α → Prop}
    (h : ∀ m, Sound B m → ∃ a, f m = .ok a ∧ Q a) : Tot B (Prog.read f) Q := by
  intro m hm
  obtain ⟨a, e, hq⟩ := h m hm
  exact ⟨a, m, by simp [Prog.read, e], hm, hq⟩

theorem Tot.lift {o : Outcome α} {Q : α → Prop} (h : ∃ a, o = .ok a ∧ Q a) : Tot B (Prog.lift o : Prog (KinModel K) α) Q :=
  Tot.read fun _ _ => h

/-- an outcome that is a value or undefined -/
def OkUb (o : Outcome α) : Prop := (∃ a, o = .ok a) ∨ ∃ u, o = .ub u

theorem Mild.read {f : KinModel K → Outcome α} (h : ∀ m, OkUb (f m)) : Mild B (Prog.read f) := by
  intro m hm
  rcases h m with ⟨a, e⟩ | ⟨u, e⟩
  · exact .inl ⟨a, m, by simp [Prog.read, e], hm⟩
  · exact .inr ⟨u, by simp [Prog.read, e]⟩

theorem Mild.lift {o : Outcome α} (h : OkUb o) : Mild B (Prog.lift o : Prog (KinModel K) α) :=
  Mild.read fun _ => h

theorem Bad.lift {u : UB} : Bad B (Prog.lift (.ub u) : Prog (KinModel K) α) := fun _ _ => ⟨u, rfl⟩

theorem Mild.ite {c : Prop} [Decidable c] {p q : Prog (KinModel K) α}
    (hp : Mild B p) (hq : Mild B q) : Mild B (if c then p else q) := by
  split <;> assumption

theorem Tot.ite {c : Prop} [Decidable c] {p q : Prog (KinModel K) α} {Q : α → Prop}
    (hp : c → Tot B p Q) (hq : ¬ c → Tot B q Q) : Tot B (if c then p else q) Q := by
  split
  · exact hp ‹_›
  · exact hq ‹_›

theorem OkUb.ok (a : α) : OkUb (.ok a) := .inl ⟨a, rfl⟩
theorem OkUb.ub (u : UB) : OkUb (.ub u : Outcome α) := .inr ⟨u, rfl⟩
theorem OkUb.bind {o : Outcome α} {f : α → Outcome β} (h : OkUb o) (h' : ∀ a, OkUb (f a)) : OkUb (o >>= f) := by
  rcases h with ⟨a, rfl⟩ | ⟨u, rfl⟩
  · exact h' a
  · exact .ub u
theorem OkUb.idx (w : String) (l : List α) (i : Nat) : OkUb (Outcome.idx w l i) := by
  unfold Outcome.idx; split
  · exact .ok _
  · exact .ub _
theorem OkUb.set (M : Mat K) (i j : Nat) (v : K) : OkUb (M.set i j v) := by
  unfold Mat.set; split
  · exact .ok _
  · exact .ub _
theorem OkUb.get (M : Mat K) (i j : Nat) : OkUb (M.get i j) := by
  unfold Mat.get; split
  · exact .ok _
  · exact .ub _
theorem OkUb.setCol (M : Mat K) (i j : Nat) (vs : List K) : OkUb (M.setCol i j vs) := by
  induction vs generalizing M i with
  | nil => exact .ok _
  | cons v vs ih => exact (OkUb.set M i j v).bind fun M' => ih M' (i + 1)
theorem OkUb.setBlock (M B : Mat K) (i j : Nat) : OkUb (M.setBlock i j B) := by
  unfold Mat.setBlock; split
  · exact .ok _
  · exact .ub _
theorem OkUb.mapBlock (M : Mat K) (i j r c : Nat) (g : K → K) : OkUb (M.mapBlock i j r c g) := by
  unfold Mat.mapBlock; split
  · exact .ok _
  · exact .ub _
theorem OkUb.addBlock (M : Mat K) (i j r c : Nat) (s : K) (B : Mat K) : OkUb (M.addBlock i j r c s B) := by
  unfold Mat.addBlock; split
  · exact .ok _
  · exact .ub _

/-! ### Poses -/

theorem downLoop_safe {data : List (LinkIdAndTransform K)} (n : Nat) (hn : n ≤ data.length)
    {k : Nat} (hd : ∀ i e, i < n → data[i]? = some e → e.id < k) (tf : Pose K) {c : SizedCache (Pose K)}
    (h1 : c.size = k) (h2 : c.pred.length = k) (h3 : c.data.length = k) :
    ∃ tf' c', downLoop data n tf c = .ok (tf', c') ∧ c'.size = k ∧ c'.pred.length = k ∧ c'.data.length = k := by
  induction n generalizing tf c with
  | zero => exact ⟨tf, c, rfl, h1, h2, h3⟩
  | succ n ih =>
    have hlt : n < data.length := by omega
    have he := hd n _ (by omega) (List.getElem?_eq_getElem hlt)
    have hc : c.setCache data[n].id (Pose.transform tf data[n].pose) =
        .ok { c with pred := c.pred.set data[n].id true, data := c.data.set data[n].id (Pose.transform tf data[n].pose) } := by
      simp [SizedCache.setCache, h2, h3, he]
    obtain ⟨tf', c', e1, e2⟩ := ih (by omega) (fun i e hi => hd i e (by omega)) (Pose.transform tf data[n].pose)
      (c := { c with pred := c.pred.set data[n].id true, data := c.data.set data[n].id (Pose.transform tf data[n].pose) })
      h1 (by simpa using h2) (by simpa using h3)
    refine ⟨tf', c', ?_, e2⟩
    simp only [downLoop, Outcome.idx, hlt, List.getElem?_eq_getElem, Outcome.bind_eq, Outcome.bind_ok, hc]
    exact e1

theorem upLoop_safe {m : KinModel K} (h : Sound B m) {l n : Nat} (hd : Depth m l n)
    (st : SizedStack (LinkIdAndTransform K)) (hcap : st.cur + n ≤ st.data.length)
    (hid : ∀ i e, i < st.cur → st.data[i]? = some e → e.id < B.nl) :
    ∃ st' tf, upLoop m l st = .ok (st', tf) ∧ st'.data.length = st.data.length ∧ st'.cur ≤ st'.data.length ∧
      ∀ i e, i < st'.cur → st'.data[i]? = some e → e.id < B.nl := by
  induction hd generalizing st with
  | root h1 h2 =>
    rw [upLoop]
    simp only [h1, h2]
    exact ⟨st, _, rfl, rfl, by omega, hid⟩
  | @child l p n lk h1 h2 hd ih =>
    have hlt := (List.getElem?_eq_some_iff.mp h1).1
    rw [upLoop]
    simp only [h1, h2, h.tree.ids h1]
    rcases getCache_of_lt h.sized hlt with ⟨hg, _⟩ | ⟨T', hg, _, _⟩
    · obtain ⟨jp, j, hj, hh, hok⟩ := h.tree.pjoint h1 h2
      obtain ⟨Tj, hT, _⟩ := jointTransform_spec (m := m) hok
      have hc : st.cur < st.data.length := by omega
      simp only [hg, hj, hh, hT, hc, dif_pos]
      obtain ⟨st', tf, e1, e2, e3, e4⟩ := ih ⟨st.data.set st.cur ⟨l, Tj⟩, st.cur + 1⟩ (by simp; omega) (by
        intro i e hi he
        simp only at hi he
        by_cases hic : i = st.cur
        · subst hic
          rw [List.getElem?_set_self hc] at he
          cases he
          rw [← h.links]; exact hlt
        · rw [List.getElem?_set_ne (Ne.symm hic)] at he
          exact hid i e (by omega) he)
      exact ⟨st', tf, e1, by simpa using e2, e3, e4⟩
    · simp only [hg]
      exact ⟨st, _, rfl, rfl, by omega, hid⟩

theorem Tot.getLinkPose {l : Nat} (hl : l < B.nl) :
    Tot B (getLinkPose l : Prog (KinModel K) (Pose K)) (fun _ => True) := by
  intro m h
  have hl' : l < m.links.length := by rw [h.links]; exact hl
  unfold Tinyfk.getLinkPose
  rcases getCache_of_lt h.sized hl' with ⟨hg, _⟩ | ⟨T', hg, _, _⟩
  · obtain ⟨n, hd⟩ := h.tree.depth hl'
    obtain ⟨st, tf, e1, e2, e3, e4⟩ := upLoop_safe h hd m.stack.reset
      (by simpa [SizedStack.reset] using h.fits _ _ hd) (by simp [SizedStack.reset])
    obtain ⟨tf', c', f1, f2, f3, f4⟩ := downLoop_safe (k := B.nl) st.cur e3 e4 tf (c := m.cache)
      (h.sized.size.trans h.links) (h.sized.pred.trans h.links) (h.sized.data.trans h.links)
    refine ⟨tf', { m with stack := { st with cur := 0 }, cache := c' }, ?_, ?_, trivial⟩
    · simp only [hg, getLinkPoseInner, e1, f1]
    · exact h.frame rfl rfl (by simpa [SizedStack.reset] using e2)
        ⟨f2.trans h.links.symm, f3.trans h.links.symm, f4.trans h.links.symm⟩
  · exact ⟨T', m, by simp only [hg], h, trivial⟩

theorem Bad.getLinkPose {l : Nat} (hl : ¬ l < B.nl) :
    Bad B (getLinkPose l : Prog (KinModel K) (Pose K)) := by
  intro m h
  have : m.cache.pred[l]? = none := by
    rw [List.getElem?_eq_none_iff, h.sized.pred, h.links]; omega
  exact ⟨_, by simp [Tinyfk.getLinkPose, SizedCache.getCache, this]; rfl⟩

theorem Mild.getLinkPose (l : Nat) : Mild B (getLinkPose l : Prog (KinModel K) (Pose K)) := by
  by_cases hl : l < B.nl
  · exact (Tot.getLinkPose hl).mild
  · exact (Bad.getLinkPose hl).mild

/-! ### Setters -/

theorem writeAngles_safe {ids : List Nat} {vals a : List K} (h1 : ∀ i ∈ ids, i < a.length)
    (h2 : ids.length ≤ vals.length) : ∃ a', writeAngles ids vals a = .ok a' ∧ a'.length = a.length := by
  induction ids generalizing vals a with
  | nil => exact ⟨a, rfl, rfl⟩
  | cons i ids ih =>
    cases vals with
    | nil => simp at h2
    | cons v vals =>
      simp only [writeAngles, h1 i (by simp), if_true]
      obtain ⟨a', e1, e2⟩ := ih (vals := vals) (a := a.set i v) (fun k hk => by simpa using h1 k (by simp [hk]))
        (by simpa using h2)
      exact ⟨a', e1, by simpa using e2⟩

theorem writeAngles_okUb (ids : List Nat) (vals a : List K) :
    (∃ a', writeAngles ids vals a = .ok a') ∨ ∃ u, writeAngles ids vals a = .ub u := by
  induction ids generalizing vals a with
  | nil => exact .inl ⟨a, rfl⟩
  | cons i ids ih =>
    cases vals with
    | nil => exact .inr ⟨_, rfl⟩
    | cons v vals =>
      simp only [writeAngles]
      split
      · exact ih _ _
      · exact .inr ⟨_, rfl⟩

theorem Tot.setNC {ids : List Nat} {q : List K} (hi : Below B.nj ids) (hq : ids.length ≤ q.length) :
    Tot B (setJointAnglesNC ids q) (fun _ => True) := by
  intro m h
  obtain ⟨a', e1, e2⟩ := writeAngles_safe (a := m.angles) (by rw [h.angles]; exact hi) hq
  exact ⟨(), { m with angles := a' }, by simp [setJointAnglesNC, e1], h.frame rfl e2 rfl ⟨h.sized.size, h.sized.pred,
    h.sized.data⟩, trivial⟩

theorem Bad.setNC {ids : List Nat} {q : List K} (hb : ¬ (Below B.nj ids ∧ ids.length ≤ q.length)) :
    Bad B (setJointAnglesNC ids q) := by
  intro m h
  rcases writeAngles_okUb ids q m.angles with ⟨a', e⟩ | ⟨u, e⟩
  · obtain ⟨h1, h2⟩ := writeAngles_valid e
    rw [h.angles] at h1
    exact absurd ⟨h1, h2⟩ hb
  · exact ⟨u, by simp [setJointAnglesNC, e]⟩

theorem Mild.setNC (ids : List Nat) (q : List K) : Mild B (setJointAnglesNC ids q) := by
  by_cases h : Below B.nj ids ∧ ids.length ≤ q.length
  · exact (Tot.setNC h.1 h.2).mild
  · exact (Bad.setNC h).mild

theorem Tot.clear : Tot B (clearCache : Prog (KinModel K) Unit) (fun _ => True) := fun m h =>
  ⟨(), _, rfl, h.frame (m' := { m with cache := m.cache.clear }) rfl rfl rfl (cacheSized_clear h.sized), trivial⟩

theorem Tot.setBase (p : Pose K) : Tot B (setBasePose p) (fun _ => True) := fun m h =>
  ⟨(), { m with base := p, cache := m.cache.clear }, rfl, h.frame rfl rfl rfl (cacheSized_clear (m := { m with base := p })
    ⟨h.sized.size, h.sized.pred, h.sized.data⟩), trivial⟩

theorem Tot.setJointAngles {ids : List Nat} {q : List K} (hi : Below B.nj ids) (hq : ids.length ≤ q.length) :
    Tot B (setJointAngles ids q) (fun _ => True) := (Tot.setNC hi hq).bind fun _ _ => Tot.clear

theorem Tot.setBaseFromTail {q : List K} (hq : 6 ≤ q.length) : Tot B (setBaseFromTail q) (fun _ => True) := by
  obtain ⟨x, y, z, r, p, w, e⟩ := drop_six (q := q) (n := q.length - 6) (by omega)
  have : ¬ q.length < 6 := by omega
  simp only [Tinyfk.setBaseFromTail, this, if_false, e]
  exact Tot.setBase _

theorem Bad.setBaseFromTail {q : List K} (hq : ¬ 6 ≤ q.length) : Bad B (setBaseFromTail q) := by
  have : q.length < 6 := by omega
  simp only [Tinyfk.setBaseFromTail, this, if_true]
  exact Bad.lift

theorem Mild.setBaseFromTail (q : List K) : Mild B (setBaseFromTail q) := by
  by_cases h : 6 ≤ q.length
  · exact (Tot.setBaseFromTail h).mild
  · exact (Bad.setBaseFromTail h).mild

/-- a configuration that can be applied -/
def RowOk (nj : Nat) (ids : List Nat) (wb : Bool) (q : List K) : Prop :=
  Below nj ids ∧ ids.length ≤ q.length ∧ (wb = true → 6 ≤ q.length)

theorem Tot.config {ids : List Nat} {wb : Bool} {q : List K} (h : RowOk B.nj ids wb q) {p : Prog (KinModel K) α}
    {Q : α → Prop} (hp : Tot B p Q) :
    Tot B (setJointAnglesNC ids q >>= fun _ =>
      if wb then Tinyfk.setBaseFromTail q >>= fun _ => p else p) Q := by
  refine (Tot.setNC h.1 h.2.1).bind fun _ _ => ?_
  exact Tot.ite (fun hw => (Tot.setBaseFromTail (h.2.2 hw)).bind fun _ _ => hp) fun _ => hp

theorem Mild.config (ids : List Nat) (wb : Bool) (q : List K) {p : Prog (KinModel K) α} (hp : Mild B p) :
    Mild B (setJointAnglesNC ids q >>= fun _ =>
      if wb then Tinyfk.setBaseFromTail q >>= fun _ => p else p) :=
  (Mild.setNC ids q).bind fun _ => Mild.ite ((Mild.setBaseFromTail q).bind fun _ => hp) hp

theorem Bad.config {ids : List Nat} {wb : Bool} {q : List K} (h : ¬ RowOk B.nj ids wb q) (p : Prog (KinModel K) α) :
    Bad B (setJointAnglesNC ids q >>= fun _ =>
      if wb then Tinyfk.setBaseFromTail q >>= fun _ => p else p) := by
  by_cases h1 : Below B.nj ids ∧ ids.length ≤ q.length
  · refine Bad.right (Mild.setNC ids q) fun _ => ?_
    cases wb with
    | false => exact absurd ⟨h1.1, h1.2, fun h => by cases h⟩ h
    | true =>
      rw [if_pos rfl]
      exact Bad.left (Bad.setBaseFromTail fun h6 => h ⟨h1.1, h1.2, fun _ => h6⟩)
  · exact Bad.left (Bad.setNC h1)

theorem Bad.config_then {ids : List Nat} {wb : Bool} {q : List K} {p : Prog (KinModel K) α} (hp : Bad B p) :
    Bad B (setJointAnglesNC ids q >>= fun _ =>
      if wb then Tinyfk.setBaseFromTail q >>= fun _ => p else p) := by
  refine Bad.right (Mild.setNC ids q) fun _ => ?_
  split
  · exact Bad.right (Mild.setBaseFromTail q) fun _ => hp
  · exact hp

theorem Tot.applyConfig {ids : List Nat} {wb uc : Bool} {q : List K} (h : RowOk B.nj ids wb q) :
    Tot B (applyConfig ids wb uc q) (fun _ => True) :=
  Tot.config h (Tot.ite (fun _ => Tot.pure trivial) fun _ => Tot.clear)

theorem Bad.applyConfig {ids : List Nat} {wb uc : Bool} {q : List K} (h : ¬ RowOk B.nj ids wb q) :
    Bad B (applyConfig ids wb uc q) := Bad.config h _

theorem Mild.applyConfig (ids : List Nat) (wb uc : Bool) (q : List K) :
    Mild B (applyConfig ids wb uc q) := by
  by_cases h : RowOk B.nj ids wb q
  · exact (Tot.applyConfig h).mild
  · exact (Bad.applyConfig h).mild

end Tinyfk
