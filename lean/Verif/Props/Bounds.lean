import Verif.Proofs.SafePy
import Verif.Props.CacheWitness

/-!
# C77: which Python calls have defined behaviour
-/

namespace Tinyfk

set_option linter.unusedSectionVars false

open Scalar

section

variable {K : Type} [Scalar K] {ls : List (RawLink K)} {js : List (RawJoint K)} {m0 mc m : KinModel K}
  {h : List (PyCall K)} {cs : List (Call K)} {s : PyModel K} {B : Bounds}

theorem sqdists_arr {rows : List (List K)} {ps : List (Nat × Nat)} {ids : List Nat} {bt : BaseType} {wj uc : Bool}
    (ht : wj = true → B.T) :
    Exact B (do
      let (V, J) ← onRobot (computeInterLinkSquaredDists rows (ps.map Prod.fst)
        (ps.map Prod.snd) ids (bt != .fixed) wj uc)
      if bt = .planer ∧ wj then do
        let J ← Prog.lift (J.selectCols (planarCols ids.length))
        pure (V, J)
      else pure (V, J))
      (rows ≠ [] → (∀ p ∈ ps, p.1 < B.nl ∧ p.2 < B.nl) ∧ ∀ q ∈ rows, RowOk B.nj ids (bt != .fixed) q) := by
  refine ⟨fun hb => (PyTot.robot (Tot.sqdists ht hb)).bindOk fun x hx => ?_,
    fun hb => PyBad.left (PyBad.robot (Bad.sqdists ht hb))⟩
  obtain ⟨V, J⟩ := x
  by_cases hp : bt = .planer ∧ wj
  · simp only [hp, and_self, if_true]
    obtain ⟨J', e⟩ := selectCols_planar (n := ids.length) (J := J) (by rw [hx hp.2, hp.1]; rfl)
    rw [e, lift_ok_bind]
    exact (PyTot.pure (Q := fun _ => True) trivial).ok
  · simp only [hp, if_false]
    exact (PyTot.pure (Q := fun _ => True) trivial).ok

theorem Exact.congr {α : Type} {p : Prog (PyModel K) α} {C D : Prop} (hcd : C ↔ D) (hp : Exact B p C) : Exact B p D :=
  ⟨fun h => hp.1 (hcd.mpr h), fun h => hp.2 fun hc => h (hcd.mp hc)⟩

theorem jointNames_tot : PyTot B (pyGetJointNames (K := K)) fun _ => True := by
  refine PyTot.robot (Tot.read fun m hm => ?_)
  have : ∃ bs, mapOutcome (fun j => do let j ← derefJoint m j; pure j.name) m.joints = .ok bs := by
    refine mapOutcome_total _ _ fun a ha => ?_
    obtain ⟨i, hi⟩ := List.mem_iff_getElem?.mp ha
    obtain ⟨jp, j, c, h1, h2, _⟩ := hm.joint i (by rw [← hm.njoints]; exact (List.getElem?_eq_some_iff.mp hi).1)
    rw [h1] at hi
    cases hi
    exact ⟨j.name, by simp only [derefJoint, h2]; rfl⟩
  obtain ⟨bs, e⟩ := this
  exact ⟨bs, e, trivial⟩

theorem sqdists_exact (qs : List (List K)) (ps : List (Nat × Nat)) (ids : List Nat) (bt : BaseType) (wj uc : Bool)
    (ht : wj = true → B.T) : Exact B (pySqdists qs ps ids bt wj uc)
      (ps ≠ [] → qs ≠ [] → (bt = .planer → ∀ q ∈ qs, ids.length + 3 ≤ q.length) →
        Below B.nj ids ∧ (∀ p ∈ ps, p.1 < B.nl ∧ p.2 < B.nl) ∧
        ∀ q ∈ qs, ids.length ≤ q.length ∧ (bt = .floating → 6 ≤ q.length)) := by
  unfold pySqdists
  dsimp only
  have key : ∀ rows : List (List K), (bt = BaseType.planer → ∀ q ∈ qs, ids.length + 3 ≤ q.length) → (rows = [] ↔ qs = []) →
      ((∀ q ∈ rows, ids.length ≤ q.length ∧ (bt ≠ .fixed → 6 ≤ q.length)) ↔
        ∀ q ∈ qs, ids.length ≤ q.length ∧ (bt = .floating → 6 ≤ q.length)) →
      Exact B (if ps = [] then Prog.throw (.valueError "not enough values to unpack")
        else do
          let (V, J) ← onRobot (computeInterLinkSquaredDists rows (ps.map Prod.fst)
            (ps.map Prod.snd) ids (bt != .fixed) wj uc)
          if bt = .planer ∧ wj then do
            let J ← Prog.lift (J.selectCols (planarCols ids.length))
            pure (V, J)
          else pure (V, J)) (ps ≠ [] → qs ≠ [] → (bt = .planer → ∀ q ∈ qs, ids.length + 3 ≤ q.length) →
        Below B.nj ids ∧ (∀ p ∈ ps, p.1 < B.nl ∧ p.2 < B.nl) ∧
        ∀ q ∈ qs, ids.length ≤ q.length ∧ (bt = .floating → 6 ≤ q.length)) := by
    intro rows hpl h0 hrow
    by_cases hps : ps = []
    · rw [if_pos hps]
      exact Exact.raise (fun s => ⟨_, s, rfl⟩) fun h => absurd hps h
    · rw [if_neg hps]
      refine Exact.imp hps (Exact.congr ?_ (sqdists_arr ht))
      have hw : ∀ q : List K, RowOk B.nj ids (bt != .fixed) q ↔
          Below B.nj ids ∧ ids.length ≤ q.length ∧ (bt ≠ .fixed → 6 ≤ q.length) := by
        intro q; simp [RowOk]
      constructor
      · intro h1 h2 _
        obtain ⟨a, b⟩ := h1 fun h => h2 (h0.mp h)
        have hne : rows ≠ [] := fun h => h2 (h0.mp h)
        obtain ⟨r, hr⟩ := List.exists_mem_of_ne_nil _ hne
        exact ⟨((hw r).mp (b r hr)).1, a, hrow.mp fun q hq => ((hw q).mp (b q hq)).2⟩
      · intro h1 h2
        obtain ⟨a, b, c⟩ := h1 (fun h => h2 (h0.mpr h)) hpl
        exact ⟨b, fun q hq => (hw q).mpr ⟨a, hrow.mpr c q hq⟩⟩
  by_cases hp : bt = .planer
  · subst hp
    by_cases hq : ∀ q ∈ qs, ids.length + 3 ≤ q.length
    · obtain ⟨rows, e, hf⟩ := modifyInput_rows hq
      rw [if_pos rfl, e, lift_ok_bind]
      have hlen := hf.length_eq
      refine key rows (fun _ => hq) ?_ ?_
      · constructor
        · rintro rfl; exact List.length_eq_zero_iff.mp (by simpa using hlen)
        · intro h0; rw [h0] at hlen; exact List.length_eq_zero_iff.mp (by simpa using hlen.symm)
      · refine ⟨fun _ q hq' => ⟨by have := hq q hq'; omega, fun h => by cases h⟩, fun hx q hq' => ?_⟩
        obtain ⟨r, hr, h1⟩ : ∃ r ∈ qs, q.length = r.length + 3 := by
          clear e hlen key hq hx
          induction hf with
          | nil => cases hq'
          | cons h1 _ ih =>
            rcases List.mem_cons.mp hq' with rfl | hq'
            · exact ⟨_, by simp, h1⟩
            · obtain ⟨r, hr, h2⟩ := ih hq'
              exact ⟨r, by simp [hr], h2⟩
        have := hq r hr
        exact ⟨by omega, fun _ => by omega⟩
    · obtain ⟨e, he⟩ := modifyInput_raises hq
      rw [if_pos rfl, he]
      exact Exact.raise (raise_bind raise_lift) fun _ _ h => absurd (h rfl) hq
  · rw [if_neg hp]
    refine key qs (fun h => absurd h hp) Iff.rfl ?_
    have : bt ≠ .fixed ↔ bt = .floating := by cases bt <;> simp at hp ⊢
    rw [this]

theorem addNewLink_exact (ha : At ls js m0 cs mc s.robot) (a : AddArgs K) :
    ((a.name ∉ linksAfter (names0 m0) cs → a.parent < (linksAfter (names0 m0) cs).length) →
      (∃ s', pyAddNewLink a s = .ok () s') ∨ ∃ e s', pyAddNewLink a s = .exn e s') ∧
    (¬ (a.name ∉ linksAfter (names0 m0) cs → a.parent < (linksAfter (names0 m0) cs).length) →
      ∃ u, pyAddNewLink a s = .ub u) := by
  generalize ho : (⟨a.position, Rot.fromRPY (a.rpy.getD Vec3.zero).x (a.rpy.getD Vec3.zero).y
    (a.rpy.getD Vec3.zero).z⟩ : Pose K) = o
  have hw : wAddNewLink a.name a.parent a.position (a.rpy.getD Vec3.zero) =
      (Tinyfk.addNewLink a.name a.parent o >>= fun _ => Pure.pure ()) := by
    rw [← ho]; rfl
  have hname : s.robot.linkIds.find a.name = none ↔ a.name ∉ linksAfter (names0 m0) cs := by
    have h1 := ha.reach.mem_names a.name
    obtain ⟨⟨st, c, e⟩, _⟩ := ha.same
    rw [show s.robot.linkIds = mc.linkIds by rw [e], h1]
    cases mc.linkIds.find a.name <;> simp
  rw [← hname, ← ha.nlinks]
  simp only [pyAddNewLink, Prog.bind_apply, Prog.modify, onRobot, hw]
  cases hn : s.robot.linkIds.find a.name with
  | some x =>
    rw [addNewLink_dup hn]
    exact ⟨fun _ => .inr ⟨_, _, rfl⟩, fun h => absurd (fun h => by cases h) h⟩
  | none =>
    by_cases hp : a.parent < s.robot.links.length
    · obtain ⟨mc', m', e, _⟩ := ha.addLink (o := o) hn hp
      rw [e]
      exact ⟨fun _ => .inl ⟨_, rfl⟩, fun h => absurd (fun _ => hp) h⟩
    · refine ⟨fun h => absurd (h rfl) hp, fun _ => ?_⟩
      simp only [Tinyfk.addNewLink, hn, hp, if_false]
      exact ⟨_, rfl⟩

/-- **C77.** A Python call on a reached robot whose arguments are within bounds returns or raises;
any other call has undefined behaviour: nothing else checks the ids. (The robot is within the
stack bound of C08, Jacobians are asked of a robot with a mass, C09, and limits are given, C42.) -/
theorem C77_defined_exactly (c : PyCall K) (hr : PyReach ls js m0 h cs s) (hf : Shallow ls js m0 cs)
    (hjac : c.UsesJacobian → (∃ r ∈ ls, r.inertial.isSome) ∨ weldsAfter (names0 m0) cs ≠ [])
    (hlim : c.UsesLimits → ∀ j ∈ js, j.type = .revolute ∨ j.type = .prismatic → j.limits.isSome) :
    (c.InBounds m0.joints.length (linksAfter (names0 m0) cs) →
      (∃ s', c.run s = .ok () s') ∨ ∃ e s', c.run s = .exn e s') ∧
    (¬ c.InBounds m0.joints.length (linksAfter (names0 m0) cs) → ∃ u, c.run s = .ub u) := by
  obtain ⟨mc, ha⟩ := hr.at
  have hs := ha.sound hf
  have fin : ∀ C, Exact (boundsOf ls js m0 cs s.robot) c.run C → (C →
      (∃ s', c.run s = .ok () s') ∨ ∃ e s', c.run s = .exn e s') ∧ (¬ C → ∃ u, c.run s = .ub u) := by
    intro C hC
    refine ⟨fun h => ?_, fun h => hC.2 h s hs⟩
    rcases hC.1 h s hs with ⟨_, s', e, _⟩ | h
    · exact .inl ⟨s', e⟩
    · exact .inr h
  cases c with
  | getQ ids bt => exact fin _ (getQ_exact ids bt).drop
  | setQ ids q bt => exact fin _ (setQ_exact ids q bt)
  | solveFk qs es ids rt bt wj uc => exact fin _ (solveFk_exact (B := boundsOf ls js m0 cs s.robot) qs es ids rt bt wj uc hjac).drop
  | solveComFk qs ids act bt wj => exact fin _ (solveComFk_exact (B := boundsOf ls js m0 cs s.robot) qs ids act bt wj hjac).drop
  | inertia q ids =>
    refine fin _ (Exact.drop ⟨fun hb => ?_, fun hb => ?_⟩)
    · exact (PyTot.robot (Tot.inertia hb.1 hb.2)).ok
    · exact PyBad.robot (Bad.inertia hb)
  | getJointNames => 
    exact fin _ (Exact.drop (Exact.of_ok jointNames_tot.ok))
  | getJointIds ns =>
    refine fin _ (Exact.drop (Exact.of_ok fun s' hs' => ?_))
    rcases getJointIds_cases ns s'.robot with ⟨bs, h1, _⟩ | ⟨a, _, _, h1⟩
    · exact .inl ⟨bs, s', by simp [pyGetJointIds, onRobot, h1], hs'⟩
    · exact .inr ⟨_, s', by simp [pyGetJointIds, onRobot, h1]; rfl⟩
  | getLinkIds ns =>
    refine fin _ (Exact.drop (Exact.of_ok fun s' hs' => ?_))
    rcases getLinkIds_cases ns s'.robot with ⟨bs, h1, _⟩ | ⟨a, _, _, h1⟩
    · exact .inl ⟨bs, s', by simp [pyGetLinkIds, onRobot, h1], hs'⟩
    · exact .inr ⟨_, s', by simp [pyGetLinkIds, onRobot, h1]; rfl⟩
  | getJointLimits ids =>
    refine fin _ (Exact.drop ⟨fun hb => ?_, fun hb => ?_⟩)
    · exact (PyTot.robot (Tot.limits (B := boundsOf ls js m0 cs s.robot) (hlim trivial) hb)).bindOk fun _ _ => (PyTot.pure (Q := fun _ => True) trivial).ok
    · exact PyBad.left (PyBad.robot (Bad.limits hb))
  | addNewLink a => exact addNewLink_exact ha a
  | sqdists qs ps ids bt wj uc => exact fin _ (sqdists_exact (B := boundsOf ls js m0 cs s.robot) qs ps ids bt wj uc hjac).drop
  | clearCache => exact fin _ (Exact.of_ok (PyTot.robot Tot.clear).ok)
  | totalMass => exact fin _ (Exact.drop (p := pyTotalMass) (Exact.of_ok fun s' hs' => .inl ⟨_, s', rfl, hs'⟩))
  | rootLinkName =>
    refine fin _ (Exact.drop (p := pyRootLinkName) (Exact.of_ok (PyTot.robot (Q := fun _ => True) (Tot.read fun m hm => ?_)).ok))
    have : m.rootLinkId < m.links.length := by rw [hm.links]; exact hm.root
    simp only [List.getElem?_eq_getElem this]
    exact ⟨_, rfl, trivial⟩

theorem PyRuns.snoc {s0 s s1 : PyModel K} {h : List (PyCall K)} {cs es : List (Call K)} {c : PyCall K}
    (hr : PyRuns s0 h cs s) (hc : PyRuns s [c] es s1) : PyRuns s0 (h ++ [c]) (cs ++ es) s1 := by
  induction hr with
  | nil => exact hc
  | ok h1 h2 _ ih => rw [List.append_assoc]; exact .ok h1 h2 (ih hc)
  | exn h1 h2 _ ih => exact .exn h1 h2 (ih hc)

/-- **C77, histories.** A history of Python calls each of which is within bounds on the robot it
meets runs to its end, whatever raises on the way. -/
theorem C77_history (ht : IsTree js) (hsup : Supported js) (hb : construct (buildModel ls js) = .ok m0)
    (hlim : ∀ j ∈ js, j.type = .revolute ∨ j.type = .prismatic → j.limits.isSome)
    (hmass : ∃ r ∈ ls, r.inertial.isSome) {h : List (PyCall K)}
    (hall : ∀ (h1 : List (PyCall K)) (c : PyCall K) (h2 : List (PyCall K)), h = h1 ++ c :: h2 →
      ∀ (cs : List (Call K)) (s : PyModel K), PyReach ls js m0 h1 cs s →
        Shallow ls js m0 cs ∧ c.Shaped ∧ c.InBounds m0.joints.length (linksAfter (names0 m0) cs)) :
    ∃ (cs : List (Call K)) (s : PyModel K), PyReach ls js m0 h cs s := by
  induction h using List.reverseRecOn with
  | nil => exact ⟨[], _, ht, hsup, hb, "", .nil⟩
  | append_singleton h c ih =>
    obtain ⟨cs, s, hr⟩ := ih fun h1 c1 h2 e => hall h1 c1 (h2 ++ [c]) (by simp [e])
    obtain ⟨hf, hsh, hin⟩ := hall h c [] rfl cs s hr
    obtain ⟨xml, hruns⟩ := hr.runs
    rcases (C77_defined_exactly c hr hf (fun _ => .inl hmass) (fun _ => hlim)).1 hin with ⟨s', e⟩ | ⟨x, s', e⟩
    · exact ⟨cs ++ (c.effect ++ []), s', ht, hsup, hb, xml, hruns.snoc (.ok hsh e .nil)⟩
    · exact ⟨cs ++ [], s', ht, hsup, hb, xml, hruns.snoc (.exn hsh e .nil)⟩

end

namespace Example

theorem limits_given : ∀ j ∈ js, j.type = .revolute ∨ j.type = .prismatic → j.limits.isSome := by
  intro j hj
  simp only [js, List.mem_cons, List.not_mem_nil, or_false] at hj
  rcases hj with rfl | rfl | rfl <;> simp [turn, slide, weld]

theorem names_length : (linksAfter (names0 m0) ([] : List (Call ℝ))).length = 6 := by
  show (m0.links.map Link.name).length = 6
  rw [linkNames]
  rfl

/-- the joint ids 0 and 1 are within bounds, joint id 2 is not: `get_q([2])` and
`set_q([2], [0.1])` are undefined behaviour, not exceptions -/
example : (∃ u, (PyCall.getQ [2] .fixed).run s0 = .ub u) ∧
    (∃ u, (PyCall.setQ [2] [1 / 10] .fixed).run s0 = .ub u) ∧
    ((∃ s', (PyCall.getQ [1, 0] .fixed).run s0 = .ok () s') ∨
      ∃ e s', (PyCall.getQ [1, 0] .fixed).run s0 = .exn e s') := by
  have hs : Shallow ls js m0 [] := s0_shallow
  refine ⟨(C77_defined_exactly (.getQ [2] .fixed) s0_reach hs nofun nofun).2 ?_,
    (C77_defined_exactly (.setQ [2] [1 / 10] .fixed) s0_reach hs nofun nofun).2 ?_,
    (C77_defined_exactly (.getQ [1, 0] .fixed) s0_reach hs nofun nofun).1 ?_⟩
  · simp [PyCall.InBounds, Below, joints_length]
  · simp [PyCall.InBounds, Below, joints_length, BaseType.dof]
  · simp [PyCall.InBounds, Below, joints_length]

/-- one configuration of length 1 -/
noncomputable def short : Arr2 ℝ := ⟨1, [[0]], by simp⟩

/-- a configuration that is too short is rejected by `solve_fk` and undefined behaviour for
`compute_total_inertia_matrix` and `compute_inter_link_sqdists` -/
example : (∃ u, (PyCall.inertia [0] [0, 1]).run s0 = .ub u) ∧
    (∃ u, (PyCall.sqdists [[0]] [(0, 3)] [0, 1] .fixed true false).run s0 = .ub u) ∧
    ((∃ s', (PyCall.solveFk (.nd2 short) [3] [0, 1] .ignore .fixed true false).run s0 = .ok () s') ∨
      ∃ e s', (PyCall.solveFk (.nd2 short) [3] [0, 1] .ignore .fixed true false).run s0 = .exn e s') := by
  have hs : Shallow ls js m0 [] := s0_shallow
  refine ⟨(C77_defined_exactly (.inertia [0] [0, 1]) s0_reach hs nofun nofun).2 ?_,
    (C77_defined_exactly (.sqdists [[0]] [(0, 3)] [0, 1] .fixed true false) s0_reach hs (fun _ => .inl inertial) nofun).2 ?_,
    (C77_defined_exactly (.solveFk (.nd2 short) [3] [0, 1] .ignore .fixed true false) s0_reach hs
      (fun _ => .inl inertial) nofun).1 ?_⟩
  · simp [PyCall.InBounds]
  · simp [PyCall.InBounds]
  · simp [PyCall.InBounds, QArg.FkShaped, BaseType.dof, short]

theorem no_welds {s s' : PyModel ℝ} {h : List (PyCall ℝ)} {cs : List (Call ℝ)} (hr : PyRuns s h cs s')
    (hn : ∀ c ∈ h, weldsAfter (names0 m0) c.effect = [] ∧ linksAfter (names0 m0) c.effect = names0 m0) :
    weldsAfter (names0 m0) cs = [] := by
  induction hr with
  | nil => rfl
  | ok _ _ _ ih =>
    have h1 := hn _ (List.mem_cons_self ..)
    rw [weldsAfter_append, h1.1, h1.2, ih fun c hc => hn c (by simp [hc])]
    rfl
  | exn _ _ _ ih => exact ih fun c hc => hn c (by simp [hc])

/-- setting a configuration, reading it, and asking for an unknown link -/
noncomputable def calls : List (PyCall ℝ) :=
  [.setQ [0, 1] [1, 2] .fixed, .getQ [1] .planer, .getLinkIds ["nowhere"], .totalMass]

example : ∃ cs s, PyReach ls js m0 calls cs s := by
  refine C77_history isTree supported m0_spec limits_given inertial fun h1 c h2 e cs s hr => ?_
  have hmem : ∀ c' ∈ calls, (weldsAfter (names0 m0) c'.effect = [] ∧ linksAfter (names0 m0) c'.effect = names0 m0) ∧
      c'.Shaped ∧ ∀ ns, c'.InBounds 2 ns := by
    intro c' hc'
    simp only [calls, List.mem_cons, List.not_mem_nil, or_false] at hc'
    rcases hc' with rfl | rfl | rfl | rfl <;>
      simp [PyCall.effect, configCalls, basePart, weldsAfter, linksAfter, PyCall.Shaped, PyCall.InBounds, Below]
  have hc : c ∈ calls := by rw [e]; simp
  obtain ⟨_, hruns⟩ := hr.runs
  refine ⟨shallow_sets (no_welds hruns fun c' hc' => (hmem c' (by rw [e]; simp [hc'])).1), (hmem c hc).2.1, ?_⟩
  rw [joints_length]
  exact (hmem c hc).2.2 _

end Example

end Tinyfk
