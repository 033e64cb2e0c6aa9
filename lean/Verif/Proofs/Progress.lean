import Verif.Proofs.Depth
import Verif.Proofs.ComQuery

/-!
# Valid calls return
-/

set_option linter.unusedSectionVars false

namespace Tinyfk

open Scalar

variable {K : Type} [Scalar K]

/-- every joint that is not continuous has limits -/
def HasLimits (m : KinModel K) : Prop :=
  ∀ (i jp : Nat) (j : Joint K), m.joints[i]? = some jp → m.jheap[jp]? = some j →
    j.type ≠ .continuous → j.limits.isSome

theorem mapOutcome_total {α β : Type} (f : α → Outcome β) (l : List α) (h : ∀ a ∈ l, ∃ b, f a = .ok b) :
    ∃ bs, mapOutcome f l = .ok bs := by
  obtain ⟨bs, hbs⟩ := forall₂_exists (R := fun a b => f a = .ok b) l h
  exact ⟨bs, (mapOutcome_ok_iff f l bs).mpr hbs⟩

theorem idx_ok {α : Type} (what : String) (l : List α) {i : Nat} (h : i < l.length) :
    Outcome.idx what l i = .ok l[i] := by
  simp [Outcome.idx, h]

theorem Query.drop {m : KinModel K} {α : Type} {p : Prog (KinModel K) α} {v : α} (h : Query m p v)
    (hr : Ready m) : ∃ m', Prog.bind p (fun _ => Prog.pure ()) m = .ok () m' := by
  obtain ⟨m2, h1, _⟩ := h.run hr
  exact ⟨m2, by simp only [Prog.bind, h1, Prog.pure]⟩

/-- The relevance table is needed only by the Jacobians. -/
def Call.NeedsTable : Call K → Prop
  | .getJacobian .. => True
  | _ => False

theorem Inv.progress {m : KinModel K} (hi : Inv m) (hf : FitsStack m) {c : Call K}
    (hrp : c.NeedsTable → RpOK m)
    (hlim : HasLimits m) (hv : c.Valid m.joints.length m.links.length) :
    (∃ m', c.run m = .ok () m') ∨ ∃ e, c.run m = .exn (.invalidArgument e) m := by
  have hr := hi.ready hf
  cases c with
  | setJointAngles ids vals =>
    left
    obtain ⟨h1, h2⟩ := hv
    obtain ⟨a, ha⟩ := writeAngles_ok (a := m.angles) h2 (fun i hi' => by rw [hi.graph.anglesLen]; exact h1 i hi')
    exact ⟨_, by simp only [Call.run, Tinyfk.setJointAngles, Prog.bind_apply, setJointAnglesNC, ha]; rfl⟩
  | setBasePose p => exact .inl ⟨_, rfl⟩
  | setInitAngles => exact .inl ⟨_, rfl⟩
  | clearCache => exact .inl ⟨_, rfl⟩
  | addNewLink name parent pose =>
    cases hn : m.linkIds.find name with
    | some l =>
      right
      exact ⟨_, by simp only [Call.run, Prog.bind, addNewLink_dup hn]; rfl⟩
    | none =>
      left
      obtain ⟨t, h1, _⟩ := hi.addNewLink name parent pose hn hv
      exact ⟨_, by simp only [Call.run, Prog.bind, h1, Prog.pure]; rfl⟩
  | getLinkPose l =>
    left
    obtain ⟨T, hT⟩ := hi.exists_pose hv
    exact (Query.getLinkPose hT).drop hr
  | getJacobian l ids rt wb =>
    left
    obtain ⟨T, hT⟩ := hi.exists_pose hv.1
    obtain ⟨cols, hcols⟩ := (hrp trivial).exists_cols hi.graph rt hv.1 hv.2 T
    obtain ⟨rk, hroot, _⟩ := hi.graph.root
    obtain ⟨B, hB⟩ := hi.exists_pose (List.getElem?_eq_some_iff.mp hroot).1
    exact (Query.getJacobian hT hcols wb (fun _ => hB)).drop hr
  | getCom =>
    left
    obtain ⟨xs, hxs⟩ := hi.exists_comPts
    exact (Query.getCom hxs).drop hr
  | getComJacobian ids wb =>
    left
    obtain ⟨rk, hroot, _⟩ := hi.graph.root
    obtain ⟨B, hB⟩ := hi.exists_pose (List.getElem?_eq_some_iff.mp hroot).1
    obtain ⟨xs, hxs⟩ := hi.exists_comJacs hv wb B
    exact (Query.getComJacobian hxs (fun _ => hB)).drop hr
  | getTotalInertia =>
    left
    obtain ⟨xs, hxs⟩ := hi.exists_comPts
    exact (Query.getTotalInertia hxs).drop hr
  | getJointIds ns =>
    rcases getJointIds_cases ns m with ⟨ids, h, _⟩ | ⟨s, _, _, h⟩
    · exact .inl ⟨m, by simp only [Call.run, Prog.bind, h, Prog.pure]⟩
    · exact .inr ⟨_, by simp only [Call.run, Prog.bind, h]; rfl⟩
  | getLinkIds ns =>
    rcases getLinkIds_cases ns m with ⟨ids, h, _⟩ | ⟨s, _, _, h⟩
    · exact .inl ⟨m, by simp only [Call.run, Prog.bind, h, Prog.pure]⟩
    · exact .inr ⟨_, by simp only [Call.run, Prog.bind, h]; rfl⟩
  | getJointAngles ids =>
    left
    have hv' : ∀ i ∈ ids, i < m.joints.length := hv
    obtain ⟨bs, h⟩ := mapOutcome_total (Outcome.idx "joint_angles_" m.angles) ids (fun i hi' =>
      ⟨_, idx_ok _ _ (by rw [hi.graph.anglesLen]; exact hv' i hi')⟩)
    exact ⟨m, by simp only [Call.run, Prog.bind, Tinyfk.getJointAngles, Prog.read, h, Prog.pure]⟩
  | getJointPositionLimits ids =>
    left
    have hv' : ∀ i ∈ ids, i < m.joints.length := hv
    simp only [Call.run, Prog.bind, Tinyfk.getJointPositionLimits, Prog.read]
    obtain ⟨bs, h⟩ := mapOutcome_total (positionLimit m) ids (by
      intro i hi'
      have hlt := hv' i hi'
      obtain ⟨j, c, lk, p, h1, _⟩ := hi.graph.joint (List.getElem?_eq_getElem hlt)
      simp only [positionLimit, idx_ok _ _ hlt, Outcome.bind_eq, Outcome.bind_ok, derefJoint, h1]
      by_cases hc : j.type = .continuous
      · simp [hc]
      · obtain ⟨lim, hl⟩ := Option.isSome_iff_exists.mp (hlim i _ j (List.getElem?_eq_getElem hlt) h1 hc)
        simp [hc, hl])
    exact ⟨m, by simp only [h, Prog.pure]⟩

theorem Describes.hasLimits {ls : List (RawLink K)} {js : List (RawJoint K)} {welds : Weld K → Prop}
    {m : KinModel K} (hd : Describes ls js welds m) (g : Graph m)
    (h : ∀ j ∈ js, j.type = .revolute ∨ j.type = .prismatic → j.limits.isSome) : HasLimits m := by
  intro i jp j h1 h2 h3
  obtain ⟨r, j', hr, e1, _, _, e2⟩ := hd.joints i jp h1
  rw [h2] at e1; cases e1
  obtain ⟨j', _, _, _, f1, _, f2, _⟩ := g.joint h1
  rw [h2] at f1; cases f1
  have h3' : r.type ≠ .continuous := by rw [e2] at h3; exact h3
  have f2' : r.type.Movable := by rw [e2] at f2; exact f2
  have : r.limits.isSome := by
    apply h r hr
    rcases f2' with h | h | h
    · exact .inl h
    · exact absurd h h3'
    · exact .inr h
  rw [e2]; exact this

end Tinyfk
