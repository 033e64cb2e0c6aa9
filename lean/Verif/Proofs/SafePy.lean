import Verif.Proofs.SafeSolve
import Verif.Props.Cache

/-!
# Defined behaviour of the Python methods
-/

namespace Tinyfk

set_option linter.unusedSectionVars false

open Scalar

variable {K : Type} [Scalar K] {ls : List (RawLink K)} {js : List (RawJoint K)} {m0 mc m : KinModel K}
  {h : List (PyCall K)} {cs : List (Call K)} {s : PyModel K} {α β : Type} {B : Bounds}

/-- what a reached robot offers -/
def boundsOf (ls : List (RawLink K)) (js : List (RawJoint K)) (m0 : KinModel K) (cs : List (Call K))
    (m : KinModel K) : Bounds where
  T := (∃ r ∈ ls, r.inertial.isSome) ∨ weldsAfter (names0 m0) cs ≠ []
  L := ∀ j ∈ js, j.type = .revolute ∨ j.type = .prismatic → j.limits.isSome
  nj := m0.joints.length
  nl := (linksAfter (names0 m0) cs).length
  M := fun d => d ∈ m.comDummy

theorem At.sound (ha : At ls js m0 cs mc m) (hf : Shallow ls js m0 cs) : Sound (boundsOf ls js m0 cs m) m := by
  have hg := ha.graph
  have hr := ha.reach.ready hf
  have hm := ha.reach.abs.inv
  have hn := ha.nlinks
  have hj := ha.joints
  refine ⟨ha.tree, ha.sized, ?_, ?_, hn, ?_, ?_, fun d hd => hd, ?_, ?_, ?_⟩
  · obtain ⟨⟨st, c, rfl⟩, hcap⟩ := ha.same
    exact FitsStack.congr (m := mc) rfl hcap hr.fits
  · rw [hg.anglesLen, hj]; rfl
  · intro i hi
    have hi' : i < m.joints.length := by rw [hj]; exact hi
    obtain ⟨j, c, lk, p, h1, h2, h3, h4, h5, _⟩ := hg.joint (List.getElem?_eq_getElem hi')
    refine ⟨_, j, c, List.getElem?_eq_getElem hi', h1, h4, ?_, fun hL hc => ?_⟩
    · show c < (linksAfter (names0 m0) cs).length
      rw [← hn]; exact (List.getElem?_eq_some_iff.mp h5).1
    · have hl := ha.reach.abs.desc.hasLimits hm.graph hL
      obtain ⟨⟨st, c', rfl⟩, _⟩ := ha.same
      exact hl i _ j (List.getElem?_eq_getElem hi') h1 hc
  · rw [hj]; rfl
  · obtain ⟨⟨st, c, rfl⟩, _⟩ := ha.same
    exact hm.com
  · intro hT l hl i hi
    have hs := (ha.reach.rpOK hT).sized
    obtain ⟨⟨st, c, rfl⟩, _⟩ := ha.same
    refine ((hs.isRelevant (l := l) (i := i) ?_ ?_).imp fun _ h => h.1)
    · have : l < (linksAfter (names0 m0) cs).length := hl
      rw [← hn] at this; exact this
    · rw [show mc.joints = m0.joints from hj]; exact hi
  · obtain ⟨lk, h1, _⟩ := hg.root
    show _ < (linksAfter (names0 m0) cs).length
    rw [← hn]; exact (List.getElem?_eq_some_iff.mp h1).1

/-! ### The Python layer -/

/-- `p` returns or raises -/
def PyOk (B : Bounds) (p : Prog (PyModel K) α) : Prop :=
  ∀ s, Sound B s.robot → (∃ a s', p s = .ok a s' ∧ Sound B s'.robot) ∨ ∃ e s', p s = .exn e s'

/-- `p` returns a value with `Q` -/
def PyTot (B : Bounds) (p : Prog (PyModel K) α) (Q : α → Prop) : Prop :=
  ∀ s, Sound B s.robot → ∃ a s', p s = .ok a s' ∧ Sound B s'.robot ∧ Q a

/-- `p` has undefined behaviour -/
def PyBad (B : Bounds) (p : Prog (PyModel K) α) : Prop := ∀ s, Sound B s.robot → ∃ u, p s = .ub u

theorem PyTot.ok {p : Prog (PyModel K) α} {Q : α → Prop} (hp : PyTot B p Q) : PyOk B p := fun s hs => by
  obtain ⟨a, s', e, h1, _⟩ := hp s hs; exact .inl ⟨a, s', e, h1⟩

theorem PyTot.bindOk {p : Prog (PyModel K) α} {f : α → Prog (PyModel K) β} {Q : α → Prop} (hp : PyTot B p Q)
    (hf : ∀ a, Q a → PyOk B (f a)) : PyOk B (p >>= f) := by
  intro s hs
  obtain ⟨a, s', e, h1, hq⟩ := hp s hs
  rw [Prog.bind_apply, e]
  exact hf a hq s' h1

theorem PyTot.bind {p : Prog (PyModel K) α} {f : α → Prog (PyModel K) β} {Q : α → Prop} {R : β → Prop}
    (hp : PyTot B p Q) (hf : ∀ a, Q a → PyTot B (f a) R) : PyTot B (p >>= f) R := by
  intro s hs
  obtain ⟨a, s', e, h1, hq⟩ := hp s hs
  rw [Prog.bind_apply, e]
  exact hf a hq s' h1

theorem PyTot.bindBad {p : Prog (PyModel K) α} {f : α → Prog (PyModel K) β} {Q : α → Prop} (hp : PyTot B p Q)
    (hf : ∀ a, Q a → PyBad B (f a)) : PyBad B (p >>= f) := by
  intro s hs
  obtain ⟨a, s', e, h1, hq⟩ := hp s hs
  rw [Prog.bind_apply, e]
  exact hf a hq s' h1

theorem PyBad.left {p : Prog (PyModel K) α} {f : α → Prog (PyModel K) β} (hp : PyBad B p) : PyBad B (p >>= f) := by
  intro s hs
  obtain ⟨u, e⟩ := hp s hs
  exact ⟨u, by rw [Prog.bind_apply, e]⟩

theorem PyTot.pure {a : α} {Q : α → Prop} (hq : Q a) : PyTot B (Pure.pure a : Prog (PyModel K) α) Q :=
  fun s hs => ⟨a, s, rfl, hs, hq⟩

theorem PyTot.lift {o : Outcome α} {Q : α → Prop} (ho : ∃ a, o = .ok a ∧ Q a) :
    PyTot B (Prog.lift o : Prog (PyModel K) α) Q := by
  obtain ⟨a, rfl, hq⟩ := ho
  exact fun s hs => ⟨a, s, rfl, hs, hq⟩

theorem PyOk.raise {p : Prog (PyModel K) α} (hp : ∀ s, ∃ e s', p s = .exn e s') : PyOk B p := fun s _ => .inr (hp s)

theorem PyTot.robot {p : Prog (KinModel K) α} {Q : α → Prop} (hp : Tot B p Q) : PyTot B (onRobot p) Q := by
  intro s hs
  obtain ⟨a, m', e, h1, h2⟩ := hp _ hs
  exact ⟨a, { s with robot := m' }, by simp [onRobot, e], h1, h2⟩

theorem PyBad.robot {p : Prog (KinModel K) α} (hp : Bad B p) : PyBad B (onRobot p) := by
  intro s hs
  obtain ⟨u, e⟩ := hp _ hs
  exact ⟨u, by simp [onRobot, e]⟩

theorem PyTot.modify {f : PyModel K → PyModel K} (hf : ∀ s, (f s).robot = s.robot) :
    PyTot B (Prog.modify f) (fun _ => True) := fun s hs => ⟨(), f s, rfl, by rw [hf]; exact hs, trivial⟩

theorem PyTot.assert {c : Bool} {msg : String} (hc : c = true) :
    PyTot B (pyAssert c msg : Prog (PyModel K) Unit) (fun _ => True) := by
  rw [hc]; exact PyTot.pure trivial

theorem raise_bind {p : Prog (PyModel K) α} {f : α → Prog (PyModel K) β} (hp : ∀ s, ∃ e s', p s = .exn e s') :
    ∀ s, ∃ e s', (p >>= f) s = .exn e s' := by
  intro s
  obtain ⟨e, s', h1⟩ := hp s
  exact ⟨e, s', by rw [Prog.bind_apply, h1]⟩

theorem raise_assert {c : Bool} {msg : String} (hc : c = false) :
    ∀ s : PyModel K, ∃ e s', pyAssert c msg s = .exn e s' := by
  rw [hc]; exact fun s => ⟨_, _, rfl⟩

/-- `p` returns or raises when `C`, and has undefined behaviour otherwise -/
def Exact (B : Bounds) (p : Prog (PyModel K) α) (C : Prop) : Prop := (C → PyOk B p) ∧ (¬ C → PyBad B p)

theorem Exact.drop {p : Prog (PyModel K) α} {C : Prop} (hp : Exact B p C) :
    Exact B (Prog.bind p fun _ => Prog.pure ()) C := by
  refine ⟨fun hc s hs => ?_, fun hc s hs => ?_⟩
  · unfold Prog.bind
    rcases hp.1 hc s hs with ⟨a, s', e, h1⟩ | ⟨e, s', he⟩
    · rw [e]; exact .inl ⟨(), s', rfl, h1⟩
    · rw [he]; exact .inr ⟨e, s', rfl⟩
  · obtain ⟨u, e⟩ := hp.2 hc s hs
    exact ⟨u, by unfold Prog.bind; rw [e]⟩

theorem Exact.of_ok {p : Prog (PyModel K) α} (hp : PyOk B p) : Exact B p True :=
  ⟨fun _ => hp, fun h => absurd trivial h⟩

theorem getQ_exact (ids : List Nat) (bt : BaseType) : Exact B (pyGetQ ids bt : Prog (PyModel K) _) (Below B.nj ids) := by
  refine ⟨fun hi s hs => ?_, fun hi s hs => ?_⟩
  · obtain ⟨a, m', e, h1, _⟩ := Tot.getJointAngles hi _ hs
    cases bt <;> simp only [pyGetQ, Prog.bind_apply, onRobot, getBasePose, Prog.read, e, Prog.pure_apply] <;>
      exact .inl ⟨_, _, rfl, h1⟩
  · obtain ⟨u, e⟩ := Bad.getJointAngles hi _ hs
    cases bt <;> simp only [pyGetQ, Prog.bind_apply, onRobot, getBasePose, Prog.read, e, Prog.pure_apply] <;>
      exact ⟨u, rfl⟩

theorem setBasePoseVec_tot {v : List K} (hv : v.length = 6) : Tot B (setBasePoseVec v) (fun _ => True) := by
  match v, hv with
  | [x, y, z, r, p, w], _ => exact Tot.setBase _

theorem setQ_exact (ids : List Nat) (q : List K) (bt : BaseType) :
    Exact B (pySetQ ids q bt) (q.length = ids.length + bt.dof → Below B.nj ids) := by
  have hm : PyTot B (Prog.modify fun s : PyModel K => { s with setHist := s.setHist ++ [⟨ids, q, bt⟩] }) (fun _ => True) :=
    PyTot.modify fun _ => rfl
  by_cases hl : q.length = ids.length + bt.dof
  · refine ⟨fun hc => hm.bindOk fun _ _ => ?_, fun hc => hm.bindBad fun _ _ => ?_⟩
    · replace hc := hc hl
      cases bt with
      | fixed =>
        refine (PyTot.assert (by simpa [BaseType.dof] using hl)).bindOk fun _ _ => ?_
        exact (PyTot.robot (Tot.setJointAngles hc (by simp only [BaseType.dof] at hl; omega))).ok
      | floating =>
        simp only [BaseType.dof] at hl
        refine (PyTot.assert (by simpa using hl)).bindOk fun _ _ => ?_
        refine (PyTot.robot (Tot.setJointAngles hc (by simp; omega))).bindOk fun _ _ => ?_
        exact (PyTot.robot (setBasePoseVec_tot (by simp; omega))).ok
      | planer =>
        simp only [BaseType.dof] at hl
        refine (PyTot.assert (by simpa using hl)).bindOk fun _ _ => ?_
        obtain ⟨x, y, w, e⟩ := drop_three (q := q) (n := q.length - 3) (by omega)
        simp only [e]
        refine (PyTot.robot (Tot.setJointAngles hc (by simp; omega))).bindOk fun _ _ => ?_
        exact (PyTot.robot (setBasePoseVec_tot rfl)).ok
    · replace hc : ¬ Below B.nj ids := fun h => hc fun _ => h
      have hset : ∀ a : List K, Bad B (setJointAngles ids a) := fun a => Bad.left (Bad.setNC fun h => hc h.1)
      cases bt with
      | fixed =>
        exact (PyTot.assert (by simpa [BaseType.dof] using hl)).bindBad fun _ _ => PyBad.robot (hset _)
      | floating =>
        simp only [BaseType.dof] at hl
        exact (PyTot.assert (by simpa using hl)).bindBad fun _ _ => PyBad.left (PyBad.robot (hset _))
      | planer =>
        simp only [BaseType.dof] at hl
        refine (PyTot.assert (by simpa using hl)).bindBad fun _ _ => ?_
        obtain ⟨x, y, w, e⟩ := drop_three (q := q) (n := q.length - 3) (by omega)
        simp only [e]
        exact PyBad.left (PyBad.robot (hset _))
  · refine ⟨fun _ => hm.bindOk fun _ _ => PyOk.raise ?_, fun hc => absurd (fun h => absurd h hl) hc⟩
    cases bt with
    | fixed => exact raise_bind (raise_assert (by simpa [BaseType.dof] using hl))
    | floating => exact raise_bind (raise_assert (by simpa [BaseType.dof] using hl))
    | planer => exact raise_bind (raise_assert (by simpa [BaseType.dof] using hl))

theorem modifyInput_rows {n : Nat} {rows : List (List K)} (hr : ∀ r ∈ rows, n + 3 ≤ r.length) :
    ∃ rows', modifyInput n rows = .ok rows' ∧ List.Forall₂ (fun r r' => r'.length = r.length + 3) rows rows' := by
  induction rows with
  | nil => exact ⟨[], rfl, .nil⟩
  | cons r rows ih =>
    obtain ⟨rows', e, hf⟩ := ih fun r hr' => hr r (by simp [hr'])
    have hlt : n + 2 < r.length := by have := hr r (by simp); omega
    have e1 : modifyRow n r = .ok (r.take (n + 2) ++ List.replicate (r.length - n) 0 ++ [r[n + 2]]) := by
      simp [modifyRow, List.getElem?_eq_getElem hlt]
    refine ⟨_, ?_, .cons (b := r.take (n + 2) ++ List.replicate (r.length - n) 0 ++ [r[n + 2]]) ?_ hf⟩
    · unfold modifyInput at e ⊢
      unfold mapOutcome
      rw [e1, e]
      rfl
    · simp; omega

theorem modifyInput_raises {n : Nat} {rows : List (List K)} (hr : ¬ ∀ r ∈ rows, n + 3 ≤ r.length) :
    ∃ e, modifyInput n rows = .exn e := by
  induction rows with
  | nil => exact absurd (fun r h => by cases h) hr
  | cons r rows ih =>
    unfold modifyInput at ih ⊢
    unfold mapOutcome
    by_cases h1 : n + 3 ≤ r.length
    · have hlt : n + 2 < r.length := by omega
      obtain ⟨e, he⟩ := ih fun h => hr fun r' hr' => by
        rcases List.mem_cons.mp hr' with rfl | hr'
        · exact h1
        · exact h r' hr'
      rw [he]
      simp [modifyRow, List.getElem?_eq_getElem hlt, Outcome.bind]
    · have : r[n + 2]? = none := List.getElem?_eq_none_iff.mpr (by omega)
      simp [modifyRow, this, Outcome.bind]

theorem prepareRows_tot {ids : List Nat} {bt : BaseType} {a : Arr2 K} (hc : a.cols = ids.length + bt.dof) :
    PyTot B (prepareRows ids.length bt a) (fun rows => Rows ids (bt != .fixed) rows ∧ (rows = [] ↔ a.rows = [])) := by
  cases bt with
  | fixed =>
    refine (PyTot.assert (by simpa [BaseType.dof] using hc)).bind fun _ _ => PyTot.pure ⟨fun q hq => ?_, Iff.rfl⟩
    rw [a.wf q hq, hc]; rfl
  | floating =>
    refine (PyTot.assert (by simpa [BaseType.dof] using hc)).bind fun _ _ => PyTot.pure ⟨fun q hq => ?_, Iff.rfl⟩
    rw [a.wf q hq, hc]; rfl
  | planer =>
    refine (PyTot.assert (by simpa [BaseType.dof] using hc)).bind fun _ _ => PyTot.lift ?_
    simp only [BaseType.dof] at hc
    obtain ⟨rows', e, hf⟩ := modifyInput_rows (n := ids.length) (rows := a.rows) fun r hr => by
      rw [a.wf r hr, hc]
    refine ⟨rows', e, ?_, ?_⟩
    · have hw := a.wf
      intro q hq
      obtain ⟨r, hr, h1⟩ : ∃ r ∈ a.rows, q.length = r.length + 3 := by
        clear e hw hc
        generalize a.rows = rs at hf
        induction hf with
        | nil => cases hq
        | cons h1 _ ih =>
          rcases List.mem_cons.mp hq with rfl | hq
          · exact ⟨_, by simp, h1⟩
          · obtain ⟨r, hr, h2⟩ := ih hq
            exact ⟨r, by simp [hr], h2⟩
      rw [h1, hw r hr, hc]; rfl
    · have := hf.length_eq
      constructor
      · rintro rfl; exact List.length_eq_zero_iff.mp (by simpa using this)
      · intro h0; rw [h0] at this; exact List.length_eq_zero_iff.mp (by simpa using this.symm)

theorem prepareRows_raises {ids : List Nat} {bt : BaseType} {a : Arr2 K} (hc : ¬ a.cols = ids.length + bt.dof) :
    ∀ s : PyModel K, ∃ e s', prepareRows ids.length bt a s = .exn e s' := by
  cases bt <;> exact raise_bind (raise_assert (by simpa [BaseType.dof] using hc))

theorem raise_lift {e : Exn} : ∀ s : PyModel K, ∃ e' s', (Prog.lift (.exn e) : Prog (PyModel K) α) s = .exn e' s' :=
  fun s => ⟨e, s, rfl⟩

theorem lift_ok_bind (a : α) (f : α → Prog (PyModel K) β) : (Prog.lift (.ok a) >>= f) = f a := by
  funext s; rfl

theorem solveFk_arr {a : Arr2 K} {es ids : List Nat} {rt : RotType} {bt : BaseType} {wj uc : Bool}
    (ht : wj = true → B.T) (hc : a.cols = ids.length + bt.dof) :
    Exact B (do
      let rows ← prepareRows ids.length bt a
      let (P, J) ← onRobot (solveForwardKinematics rows es ids rt (bt != .fixed) wj uc)
      if bt = .planer then do
        let J ← Prog.lift (J.selectCols (planarCols ids.length))
        pure (P, J)
      else pure (P, J))
      ((a.rows = [] → bt = .fixed) ∧ (a.rows ≠ [] → Below B.nj ids ∧ Below B.nl es)) := by
  refine ⟨fun hb => (prepareRows_tot hc).bindOk fun rows hr => ?_,
    fun hb => (prepareRows_tot hc).bindBad fun rows hr => PyBad.left (PyBad.robot (Bad.solveFk hr.1 fun h => hb ⟨?_, ?_⟩))⟩
  · refine (PyTot.robot (Tot.solveFk ht hr.1 (fun h => by rw [hb.1 (hr.2.mp h)]; rfl) fun h =>
      hb.2 fun h' => h (hr.2.mpr h'))).bindOk fun x hx => ?_
    obtain ⟨P, J⟩ := x
    by_cases hp : bt = .planer
    · subst hp
      simp only [if_true]
      obtain ⟨J', e⟩ := selectCols_planar (n := ids.length) (J := J) (by rw [hx]; rfl)
      rw [e, lift_ok_bind]
      exact (PyTot.pure (Q := fun _ => True) trivial).ok
    · simp only [hp, if_false]
      exact (PyTot.pure (Q := fun _ => True) trivial).ok
  · intro h0
    have := h.1 (hr.2.mpr h0)
    cases bt <;> simp at this ⊢
  · exact fun h0 => h.2 fun h1 => h0 (hr.2.mp h1)

theorem Exact.raise {p : Prog (PyModel K) α} {C : Prop} (hp : ∀ s, ∃ e s', p s = .exn e s') (hC : C) : Exact B p C :=
  ⟨fun _ => PyOk.raise hp, fun h => absurd hC h⟩

theorem Exact.imp {p : Prog (PyModel K) α} {C D : Prop} (hd : D) (hp : Exact B p C) : Exact B p (D → C) :=
  ⟨fun h => hp.1 (h hd), fun h => hp.2 fun hc => h fun _ => hc⟩

theorem solveFk_exact (qs : QArg K) (es ids : List Nat) (rt : RotType) (bt : BaseType) (wj uc : Bool)
    (ht : wj = true → B.T) : Exact B (pySolveFk qs es ids rt bt wj uc)
      (qs.FkShaped (ids.length + bt.dof) →
        (qs.rows = [] → bt = .fixed) ∧ (qs.rows ≠ [] → Below B.nj ids ∧ Below B.nl es)) := by
  unfold pySolveFk
  have key : ∀ (a : Arr2 K), fkArg qs = .ok a → qs.rows = a.rows →
      (qs.FkShaped (ids.length + bt.dof) ↔ a.cols = ids.length + bt.dof) → Exact B (do
        let a ← Prog.lift (fkArg qs)
        let rows ← prepareRows ids.length bt a
        let (P, J) ← onRobot (solveForwardKinematics rows es ids rt (bt != .fixed) wj uc)
        if bt = .planer then do
          let J ← Prog.lift (J.selectCols (planarCols ids.length))
          pure (P, J)
        else pure (P, J)) (qs.FkShaped (ids.length + bt.dof) →
        (qs.rows = [] → bt = .fixed) ∧ (qs.rows ≠ [] → Below B.nj ids ∧ Below B.nl es)) := by
    intro a e1 e2 e3
    rw [e1, lift_ok_bind, e2, e3]
    by_cases hc : a.cols = ids.length + bt.dof
    · exact Exact.imp hc (solveFk_arr ht hc)
    · exact Exact.raise (raise_bind (prepareRows_raises hc)) fun h => absurd h hc
  cases qs with
  | nd1 q => exact key _ rfl rfl Iff.rfl
  | nd2 a => exact key _ rfl rfl Iff.rfl
  | list2 a ha => exact key _ rfl rfl Iff.rfl
  | list1 q => exact Exact.raise (raise_bind raise_lift) fun h => h.elim

theorem solveComFk_exact (qs : QArg K) (ids : List Nat) (act : Option (List Nat × List K)) (bt : BaseType) (wj : Bool)
    (ht : wj = true → B.T) : Exact B (pySolveComFk qs ids act bt wj)
      (qs.ComShaped (ids.length + bt.dof) → qs.rows ≠ [] →
        Below B.nj ids ∧ ∀ al fs, act = some (al, fs) → Below B.nl al ∧ al.length ≤ fs.length) := by
  unfold pySolveComFk
  have hact : ((∀ al fs, act = some (al, fs) → Below B.nl al ∧ al.length ≤ fs.length)) ↔
      ActOk B.nl (act.getD ([], [])).2 0 (act.getD ([], [])).1 := by
    cases act with
    | none => simp [ActOk, Below]
    | some x =>
      obtain ⟨al, fs⟩ := x
      simp only [Option.some.injEq, Prod.mk.injEq, ActOk, Option.getD_some, Nat.zero_add]
      constructor
      · intro h; have := h al fs ⟨rfl, rfl⟩; exact ⟨this.1, fun _ => this.2⟩
      · rintro ⟨h1, h2⟩ _ _ ⟨rfl, rfl⟩
        refine ⟨h1, ?_⟩
        by_cases h0 : al = []
        · simp [h0]
        · exact h2 h0
  have key : ∀ (a : Arr2 K), comArg qs = .ok a → qs.rows = a.rows →
      (qs.ComShaped (ids.length + bt.dof) ↔ a.cols = ids.length + bt.dof) → Exact B (do
        let a ← Prog.lift (comArg qs)
        let rows ← prepareRows ids.length bt a
        let act := act.getD ([], [])
        onRobot (solveComForwardKinematics rows ids act.1 act.2 (bt != .fixed) wj))
      (qs.ComShaped (ids.length + bt.dof) → qs.rows ≠ [] →
        Below B.nj ids ∧ ∀ al fs, act = some (al, fs) → Below B.nl al ∧ al.length ≤ fs.length) := by
    intro a e1 e2 e3
    rw [e1, lift_ok_bind, e2, e3, hact]
    by_cases hc : a.cols = ids.length + bt.dof
    · refine Exact.imp hc ⟨fun hb => (prepareRows_tot hc).bindOk fun rows hr => ?_,
        fun hb => (prepareRows_tot hc).bindBad fun rows hr => ?_⟩
      · exact (PyTot.robot (Tot.solveComFk ht hr.1 fun h => hb fun h' => h (hr.2.mpr h'))).ok
      · exact PyBad.robot (Bad.solveComFk ht fun h => hb fun h0 => h fun h1 => h0 (hr.2.mp h1))
    · exact Exact.raise (raise_bind (prepareRows_raises hc)) fun h => absurd h hc
  cases qs with
  | list1 q => exact key _ rfl rfl Iff.rfl
  | nd2 a => exact key _ rfl rfl Iff.rfl
  | list2 a ha => exact key _ rfl rfl Iff.rfl
  | nd1 q => exact Exact.raise (raise_bind raise_lift) fun h => h.elim

end Tinyfk
