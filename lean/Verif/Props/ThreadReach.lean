import Verif.Props.PyThreads
import Verif.Props.Bounds

/-!
# C90: what the calls of threads see
-/

set_option linter.unusedSectionVars false

namespace Tinyfk

open Scalar

section
variable {K : Type} [Scalar K] {ls : List (RawLink K)} {js : List (RawJoint K)} {m0 : KinModel K} {h : List (PyCall K)}
  {cs : List (Call K)} {s0 : PyModel K} {progs : Nat → List (PyCall K)} {tr pre post : List (TEvent K × PyModel K)}
  {w : Pool K} {i : Nat} {c : PyCall K} {r : Except Exn (PyVal K)} {s : PyModel K}

/-- every call of the extension has the effect of some Python method run alone -/
inductive Steps.Good : Steps K (PyVal K) → Prop
  | done (r : Outcome (PyVal K)) : (Steps.done r : Steps K (PyVal K)).Good
  | addHist {a : AddArgs K} {k : Steps K (PyVal K)} : k.Good → (Steps.addHist a k).Good
  | setHist {a : SetArgs K} {k : Steps K (PyVal K)} : k.Good → (Steps.setHist a k).Good
  | robot {γ : Type} {p : Prog (KinModel K) γ} {k : γ → Steps K (PyVal K)} :
      (∀ m b m', p m = .ok b m' → ∃ c r, c.Shaped ∧ Takes c m r m') →
      (∀ m e m', p m = .exn e m' → ∃ c r, c.Shaped ∧ Takes c m r m') → (∀ b, (k b).Good) → (Steps.robot p k).Good

theorem Steps.Good.local {α : Type} {o : Outcome α} {k : α → Steps K (PyVal K)} (h : ∀ a, o = .ok a → (k a).Good) :
    (Steps.local o k).Good := by
  cases o with
  | ok a => exact h a rfl
  | exn e => exact .done _
  | ub u => exact .done _
  | hang => exact .done _

/-- the only call of the extension of a method -/
theorem Steps.Good.one {γ : Type} {p : Prog (KinModel K) γ} {k : γ → Steps K (PyVal K)} (c : PyCall K) (hc : c.Shaped)
    (he : c.steps.eval = (Steps.robot p k).eval) (hk : ∀ b, ∃ r, k b = .done (ofExcept r)) : (Steps.robot p k).Good := by
  refine .robot ?_ ?_ ?_
  · intro m b m' hp
    obtain ⟨r, hr⟩ := hk b
    refine ⟨c, r, hc, takes_of_eval ?_⟩
    rw [he]
    simp only [Steps.eval, Prog.bind, hp, hr]
    cases r <;> rfl
  · intro m e m' hp
    refine ⟨c, .error e, hc, takes_of_eval ?_⟩
    rw [he]
    simp only [Steps.eval, Prog.bind, hp]
  · intro b
    obtain ⟨r, hr⟩ := hk b
    rw [hr]
    exact .done _

theorem tMats_ofExcept (sel : Bool) (n : Nat) (PJ : Mat K × Mat K) : ∃ r, tMats sel n PJ = .done (ofExcept r) := by
  unfold tMats Mat.selectCols
  split
  · split
    · exact ⟨.ok _, rfl⟩
    · exact ⟨.error _, rfl⟩
  · exact ⟨.ok _, rfl⟩

theorem Takes.read {γ : Type} {f : KinModel K → Outcome γ} {m m' : KinModel K} {b : γ} (h : Prog.read f m = .ok b m') :
    ∃ (c : PyCall K) (r : _), c.Shaped ∧ Takes c m r m' := by
  unfold Prog.read at h
  refine ⟨.totalMass, .ok (.num m.totalMass), trivial, takes_of_eval ?_⟩
  cases hf : f m <;> rw [hf] at h <;> cases h
  rfl

theorem Takes.read_exn {γ : Type} {f : KinModel K → Outcome γ} {m m' : KinModel K} {e : Exn} (h : Prog.read f m = .exn e m') :
    ∃ (c : PyCall K) (r : _), c.Shaped ∧ Takes c m r m' := by
  unfold Prog.read at h
  refine ⟨.totalMass, .ok (.num m.totalMass), trivial, takes_of_eval ?_⟩
  cases hf : f m <;> rw [hf] at h <;> cases h
  rfl

theorem Steps.Good.read {γ : Type} {f : KinModel K → Outcome γ} {k : γ → Steps K (PyVal K)} (h : ∀ b, (k b).Good) :
    (Steps.robot (Prog.read f) k).Good :=
  .robot (fun _ _ _ e => Takes.read e) (fun _ _ _ e => Takes.read_exn e) h

/-- the joints of a `set_q` with a base -/
theorem Steps.Good.joints {ids : List Nat} {v : List K} {k : Unit → Steps K (PyVal K)} (hl : v.length = ids.length)
    (h : ∀ b, (k b).Good) : (Steps.robot (setJointAngles ids v) k).Good := by
  have he : (PyCall.setQ ids v .fixed).steps.eval = (Steps.robot (setJointAngles ids v) fun _ => .done (.ok .none)).eval := by
    simp [PyCall.steps, tSetQ, Steps.eval, hl]
  refine .robot ?_ ?_ h
  · intro m b m' hp
    refine ⟨.setQ ids v .fixed, .ok .none, trivial, takes_of_eval ?_⟩
    rw [he]
    simp only [Steps.eval, Prog.bind, hp]
    rfl
  · intro m e m' hp
    refine ⟨.setQ ids v .fixed, .error e, trivial, takes_of_eval ?_⟩
    rw [he]
    simp only [Steps.eval, Prog.bind, hp]

/-- the base of a `set_q` with a base -/
theorem Steps.Good.base {v : List K} {k : Unit → Steps K (PyVal K)} (hl : v.length = 6)
    (h : ∀ b, (k b).Good) : (Steps.robot (setBasePoseVec v) k).Good := by
  obtain ⟨x, y, z, r, p, w, rfl⟩ : ∃ x y z r p w, v = [x, y, z, r, p, w] := by
    match v, hl with
    | [x, y, z, r, p, w], _ => exact ⟨_, _, _, _, _, _, rfl⟩
  refine .robot ?_ ?_ h
  · intro m b m' hp
    refine ⟨.setQ [] [x, y, z, r, p, w] .floating, .ok .none, trivial, takes_of_eval ?_⟩
    cases hp
    simp [PyCall.steps, tSetQ, Steps.eval, setBasePoseVec, setBasePose, setJointAngles, setJointAnglesNC, writeAngles, Prog.bind,
      Prog.bind_apply, Prog.modify, clearCache, Prog.lift, Prog.read, SizedCache.clear]
  · intro m e m' hp
    cases hp

theorem PyCall.good (c : PyCall K) (hc : c.Shaped) : c.steps.Good := by
  cases c with
  | getQ ids bt =>
    cases bt with
    | fixed => exact .read fun _ => .done _
    | planer =>
      refine .read fun v => ?_
      split
      · exact .read fun _ => .done _
      · exact .done _
    | floating => exact .read fun _ => .read fun _ => .done _
  | setQ ids q bt =>
    refine .setHist ?_
    cases bt with
    | fixed =>
      dsimp only
      split
      · rename_i hl
        exact .joints (by simpa using hl) fun _ => .done _
      · exact .done _
    | planer =>
      dsimp only
      split
      · rename_i hl
        have hl : q.length = ids.length + 3 := by simpa using hl
        split
        · exact .joints (by simp [hl]) fun _ => .base rfl fun _ => .done _
        · exact .done _
      · exact .done _
    | floating =>
      dsimp only
      split
      · rename_i hl
        have hl : q.length = ids.length + 6 := by simpa using hl
        exact .joints (by simp [hl]) fun _ => .base (by simp [hl]) fun _ => .done _
      · exact .done _
  | solveFk qs e ids rt bt wj uc =>
    refine .local fun a ha => .local fun rows hr => .one (.solveFk qs e ids rt bt wj uc) trivial ?_ fun _ => tMats_ofExcept _ _ _
    simp only [PyCall.steps, Steps.local, ha, hr]
  | solveComFk qs ids act bt wj =>
    refine .local fun a ha => .local fun rows hr => .one (.solveComFk qs ids act bt wj) trivial ?_ fun _ => tMats_ofExcept _ _ _
    simp only [PyCall.steps, Steps.local, ha, hr]
  | inertia q ids => exact .one (.inertia q ids) trivial rfl fun _ => ⟨.ok _, rfl⟩
  | getJointNames => exact .read fun _ => .done _
  | getJointIds ns => exact .read fun _ => .done _
  | getLinkIds ns => exact .read fun _ => .done _
  | getJointLimits ids => exact .read fun _ => .done _
  | addNewLink a => exact .addHist (.one (.addNewLink a) trivial rfl fun _ => ⟨.ok _, rfl⟩)
  | sqdists qs ps ids bt wj uc =>
    refine .local fun rows hr => ?_
    split
    · exact .done _
    · rename_i hp
      refine .one (.sqdists qs ps ids bt wj uc) hc ?_ fun _ => tMats_ofExcept _ _ _
      simp only [PyCall.steps, Steps.local, hr, hp, if_false]
  | clearCache => exact .one .clearCache trivial rfl fun _ => ⟨.ok _, rfl⟩
  | totalMass => exact .read fun _ => .done _
  | rootLinkName => exact .read fun _ => .done _

/-- drop the value -/
def Res.drop {σ α : Type} : Res σ α → Res σ Unit
  | .ok _ s' => .ok () s'
  | .exn e s' => .exn e s'
  | .ub u => .ub u
  | .hang => .hang

theorem drop_bind {σ α β : Type} (p : Prog σ α) (f : α → β) (s : σ) :
    Prog.bind p (fun _ => Prog.pure ()) s = (Prog.bind p (fun v => Prog.pure (f v)) s).drop := by
  unfold Prog.bind
  cases p s <;> rfl

theorem drop_unit {σ β : Type} (p : Prog σ Unit) (f : Unit → β) (s : σ) :
    p s = (Prog.bind p (fun v => Prog.pure (f v)) s).drop := by
  unfold Prog.bind
  cases p s <;> rfl

/-- dropping the value of a method -/
theorem pyEval_run (c : PyCall K) (s : PyModel K) : c.run s = (pyEval c s).drop := by
  cases c <;> first | exact drop_bind _ _ _ | exact drop_unit (β := PyVal K) _ (fun _ => .none) _

/-- one more method, run alone -/
theorem PyReach.takes {m' : KinModel K} (hr : PyReach ls js m0 h cs s) (hc : c.Shaped) (ht : Takes c s.robot r m') :
    ∃ cs' s', PyReach ls js m0 (h ++ [c]) (cs ++ cs') s' ∧ s'.robot = m' := by
  obtain ⟨s', e, hs⟩ := ht s rfl
  obtain ⟨xml, hx⟩ := hr.runs
  cases r with
  | ok v =>
    refine ⟨c.effect ++ [], s', ⟨hr.tree, hr.supported, hr.built, xml, hx.snoc (.ok hc ?_ .nil)⟩, e⟩
    rw [pyEval_run, hs]; rfl
  | error x =>
    refine ⟨[], s', ⟨hr.tree, hr.supported, hr.built, xml, hx.snoc (.exn (e := x) hc ?_ .nil)⟩, e⟩
    rw [pyEval_run, hs]; rfl

/-- **C90, what threads can make of a model.** Any number of threads with any programs (also with `set_q` with a base) share a
model; at every moment of every interleaving the robot is in a state that one thread alone could have brought about, by some
further Python calls. So everything proved of single calls on all reachable models holds of them at this moment. -/
theorem C90_reach (hr : PyReach ls js m0 h cs s0) (hs : ∀ i, ∀ c ∈ progs i, c.Shaped)
    (hx : Pool.Exec (Pool.start s0 progs) tr w) :
    ∃ h' cs' s, PyReach ls js m0 (h ++ h') (cs ++ cs') s ∧ s.robot = w.model.robot := by
  suffices H : (∃ h' cs' s, PyReach ls js m0 (h ++ h') (cs ++ cs') s ∧ s.robot = w.model.robot) ∧
      ∀ i, (∀ c ∈ (w.threads i).todo, c.Shaped) ∧ ∀ x ∈ (w.threads i).cur, x.2.Good from H.1
  generalize hw0 : Pool.start s0 progs = w0 at hx
  induction hx with
  | nil =>
    subst hw0
    exact ⟨⟨[], [], s0, by simpa using hr, rfl⟩, fun i => ⟨hs i, nofun⟩⟩
  | @snoc w1 w2 tr ev hx hst ih =>
    obtain ⟨⟨h', cs', s, hR, hm⟩, hT⟩ := ih
    have key : ∀ {i : Nat} {t : Thread K} {s1 : PyModel K}, (∀ c ∈ t.todo, c.Shaped) → (∀ x ∈ t.cur, x.2.Good) →
        ∀ j, (∀ c ∈ (({ w1 with model := s1 } : Pool K).set i t |>.threads j).todo, c.Shaped) ∧
          ∀ x ∈ (({ w1 with model := s1 } : Pool K).set i t |>.threads j).cur, x.2.Good := by
      intro i t s1 h1 h2 j
      by_cases hj : j = i
      · subst hj; rw [Pool.set_same]; exact ⟨h1, h2⟩
      · simp only [Pool.set, if_neg hj]; exact hT j
    cases hst with
    | @call i c cs1 ht =>
      refine ⟨⟨h', cs', s, hR, hm⟩, key (s1 := w1.model) ?_ ?_⟩
      · intro c hc; exact (hT i).1 c (by rw [ht]; exact List.mem_cons_of_mem _ hc)
      · rintro x ⟨⟩; exact PyCall.good c ((hT i).1 c (by rw [ht]; simp))
    | @addHist i c cs1 a k ht =>
      refine ⟨⟨h', cs', s, hR, hm⟩, key ?_ ?_⟩
      · have := (hT i).1; rwa [ht] at this
      · have := (hT i).2; rw [ht] at this
        rintro x ⟨⟩; cases this _ rfl; assumption
    | @setHist i c cs1 a k ht =>
      refine ⟨⟨h', cs', s, hR, hm⟩, key ?_ ?_⟩
      · have := (hT i).1; rwa [ht] at this
      · have := (hT i).2; rw [ht] at this
        rintro x ⟨⟩; cases this _ rfl; assumption
    | @robot i c cs1 β p k b m ht hp =>
      have h2 := (hT i).2
      rw [ht] at h2
      cases h2 _ rfl with
      | robot g1 g2 g3 =>
        obtain ⟨c', r', hc', htk⟩ := g1 _ _ _ hp
        rw [← hm] at htk
        obtain ⟨cs'', s', hR', hm'⟩ := hR.takes hc' htk
        refine ⟨⟨h' ++ [c'], cs' ++ cs'', s', by simpa [List.append_assoc] using hR', hm'⟩, key ?_ ?_⟩
        · have := (hT i).1; rwa [ht] at this
        · rintro x ⟨⟩; exact g3 _
    | @raise i c cs1 β p k e m ht hp =>
      have h2 := (hT i).2
      rw [ht] at h2
      cases h2 _ rfl with
      | robot g1 g2 g3 =>
        obtain ⟨c', r', hc', htk⟩ := g2 _ _ _ hp
        rw [← hm] at htk
        obtain ⟨cs'', s', hR', hm'⟩ := hR.takes hc' htk
        refine ⟨⟨h' ++ [c'], cs' ++ cs'', s', by simpa [List.append_assoc] using hR', hm'⟩, key ?_ ?_⟩
        · have := (hT i).1; rwa [ht] at this
        · rintro x ⟨⟩; exact .done _
    | @ret i c cs1 v ht =>
      refine ⟨⟨h', cs', s, hR, hm⟩, key (s1 := w1.model) ?_ ?_⟩
      · have := (hT i).1; rwa [ht] at this
      · nofun
    | @retExn i c cs1 e ht =>
      refine ⟨⟨h', cs', s, hR, hm⟩, key (s1 := w1.model) ?_ ?_⟩
      · have := (hT i).1; rwa [ht] at this
      · nofun

/-- **C90, `solve_fk` in any interleaving.** Any number of threads with any programs share a model; a call of
`solve_fk(use_cache=False)` that returned or raised did so at some moment between its begin and its end at which, if its arguments
were valid, it returned the poses of the described robot: the listed joints (and the base) where the configurations put them,
everything else as it was at that moment. -/
theorem C90_solve_fk {qs : QArg K} {es ids : List Nat} {rt : RotType} {bt : BaseType} {wj : Bool}
    (hr : PyReach ls js m0 h cs s0) (hs : ∀ i, ∀ c ∈ progs i, c.Shaped)
    (hx : Pool.Exec (Pool.start s0 progs) (pre ++ (.ret i (.solveFk qs es ids rt bt wj false) r, s) :: post) w) :
    ∃ a sc mid m1 x m2 h' cs' s1, pre = a ++ (.call i (.solveFk qs es ids rt bt wj false), sc) :: mid ∧
      (∀ e ∈ mid, ¬e.1.Bounds i) ∧ (.call i (.solveFk qs es ids rt bt wj false), sc) :: mid = m1 ++ x :: m2 ∧
      s1.robot = (modelAfter s0 (a ++ m1)).robot ∧ PyReach ls js m0 (h ++ h') (cs ++ cs') s1 ∧
      (Shallow ls js m0 (cs ++ cs') → FkArgs m0 s1 qs es ids bt →
        (wj = true → (∃ r ∈ ls, r.inertial.isSome) ∨ weldsAfter (names0 m0) (cs ++ cs') ≠ []) →
        ∃ P J, r = .ok (.mats P J) ∧ P.rows = qs.rows.length * es.length ∧ P.cols = rt.width ∧
          ∀ (k j l : Nat) (q : List K) (n : String) (θ : String → K),
            qs.rows[k]? = some q → es[j]? = some l → getLinkIds [n] s1.robot = .ok [l] s1.robot →
            AnglesAfter m0 (cs ++ cs' ++ configCalls ids bt q) θ →
            ∃ T, (∀ T', WorldPose ls js (AllWelds ls m0 (cs ++ cs')) θ
                (baseAfter Pose.identity (cs ++ cs' ++ configCalls ids bt q)) n T' ↔ T' = T) ∧
              PoseRow rt P (k * es.length + j) T) := by
  obtain ⟨a, sc, mid, m1, x, m2, e1, e2, e3, ht⟩ := C90_atomic hx trivial
  have hpre : ∃ w1, Pool.Exec (Pool.start s0 progs) (a ++ m1) w1 := by
    refine Pool.Exec.prefix (post := x :: m2 ++ (.ret i (.solveFk qs es ids rt bt wj false) r, s) :: post) (w := w) ?_
    rw [e1, e3] at hx
    simpa [List.append_assoc] using hx
  obtain ⟨w1, hw1⟩ := hpre
  obtain ⟨h', cs', s1, hR, hm⟩ := C90_reach hr hs hw1
  have hm' : s1.robot = (modelAfter s0 (a ++ m1)).robot := by rw [hm, hw1.model]; rfl
  refine ⟨a, sc, mid, m1, x, m2, h', cs', s1, e1, e2, e3, hm', hR, fun hf ha hne => ?_⟩
  obtain ⟨mc, hat⟩ := hR.at
  obtain ⟨P, J, s2, mc', e, _, hres⟩ := hat.pySolveFk (rt := rt) (wj := wj) (uc := false) hf ha (.inr rfl) hne
  obtain ⟨s3, _, h3⟩ := ht s1 hm'
  have hev : pyEval (.solveFk qs es ids rt bt wj false) s1 = .ok (.mats P J) s2 := by
    simp only [pyEval, Prog.bind, e]; rfl
  refine ⟨P, J, ?_, hres.pRows, hres.pCols, fun k j l q n θ h1 h2 h3 h4 => hres.world hat ha.shape ha.joints k j l q n θ h1 h2 h3 h4⟩
  cases r with
  | ok v => simp only [hev] at h3; cases h3; rfl
  | error x => simp only [hev] at h3; cases h3

end

end Tinyfk
