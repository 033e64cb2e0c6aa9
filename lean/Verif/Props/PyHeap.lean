import Verif.Proofs.PyCopy

/-!
# C88, C89: pickling and copying when arguments are shared

`set_q` and `add_new_link` keep references to the arrays they are given. These theorems hold for every parser, every
text and every robot.
-/

set_option linter.unusedSectionVars false

namespace Tinyfk

open Scalar

section
variable {K : Type} [Scalar K] {parse : String → Option (ModelInterface K)} {w w' w0 w1 w2 : World K} {o : Nat}
  {ops pre post : List (HOp K)} {xml : String}

/-- the caller's objects in an argument -/
def HArg.refs {α : Type} (k : Nat → Ref) : HArg α → List Ref
  | .ref n => [k n]
  | .own _ => []

def SetRef.refs (a : SetRef K) : List Ref := a.ids.refs .ids ++ a.q.refs .arr

def AddRef.refs (a : AddRef K) : List Ref := a.position.refs .vec ++ (a.rpy.toList.flatMap (HArg.refs .vec))

theorem HArg.get_upd {α : Type} {k : Nat → Ref} {f : Nat → α} {n : Nat} {v : α} {a : HArg α} (h : k n ∉ a.refs k) :
    a.get (upd f n v) = a.get f := by
  cases a with
  | own a => rfl
  | ref m =>
    have : m ≠ n := by rintro rfl; exact h (by simp [HArg.refs])
    simp [HArg.get, upd_ne _ _ this]

theorem Untouched.prefix (h : Untouched o (pre ++ post)) : Untouched o pre := by
  intro p op q e r hr
  refine h p op (q ++ post) (by rw [e]; simp) r hr

/-- a history entry does not see a write to an object it does not refer to -/
theorem HOp.write_view {op : HOp K} {r : Ref} (hwr : op.writes = some r) (h : op.run parse w = .ok () w' ∨ ∃ e, op.run parse w = .exn e w')
    (ha : ∀ a ∈ w.adds (w.objs o).adds, r ∉ a.refs) (hs : ∀ a ∈ w.sets (w.objs o).sets, r ∉ a.refs) :
    w'.view o = w.view o ∧ w'.adds = w.adds ∧ w'.sets = w.sets := by
  cases op with
  | writeIds n v =>
    rcases h with h | ⟨e, h⟩ <;> cases h
    cases hwr
    refine ⟨?_, rfl, rfl⟩
    simp only [World.view, PyModel.mk.injEq, true_and]
    refine ⟨List.map_congr_left fun a _ => rfl, List.map_congr_left fun a m => ?_⟩
    have := hs a m
    simp only [SetRef.refs, List.mem_append, not_or] at this
    simp only [SetRef.get, HArg.get_upd this.1]
  | writeArr n v =>
    simp only [HOp.run] at h
    cases hwr
    split at h
    case isFalse => rcases h with h | ⟨e, h⟩ <;> cases h; exact ⟨rfl, rfl, rfl⟩
    rcases h with h | ⟨e, h⟩ <;> cases h
    refine ⟨?_, rfl, rfl⟩
    simp only [World.view, PyModel.mk.injEq, true_and]
    refine ⟨List.map_congr_left fun a _ => rfl, List.map_congr_left fun a m => ?_⟩
    have := hs a m
    simp only [SetRef.refs, List.mem_append, not_or] at this
    simp only [SetRef.get, HArg.get_upd this.2]
  | writeVec n v =>
    rcases h with h | ⟨e, h⟩ <;> cases h
    cases hwr
    refine ⟨?_, rfl, rfl⟩
    simp only [World.view, PyModel.mk.injEq, true_and]
    refine ⟨List.map_congr_left fun a m => ?_, List.map_congr_left fun a _ => rfl⟩
    have := ha a m
    simp only [AddRef.refs, List.mem_append, not_or] at this
    simp only [AddRef.get, HArg.get_upd this.1, AddArgs.mk.injEq, true_and]
    cases hr : a.rpy with
    | none => rfl
    | some x =>
      have h2 := this.2
      simp only [hr, Option.toList_some, List.flatMap_cons, List.flatMap_nil, List.append_nil] at h2
      simp only [Option.map_some, HArg.get_upd h2]
  | _ => cases hwr

/-- model `o` and what is recorded of it, along a program that does not touch passed arguments -/
theorem Life.recorded (hl : Life parse o w ops w') (hw : w.WF) (ho : o < w.count) (hu : Untouched o ops)
    (h0 : w.adds o = []) (h0' : w.sets o = [])
    (hm : ∃ m0, Replayed m0 (w.view o)) :
    w'.WF ∧ o < w'.count ∧ (∃ h, Recorded (w.view o) h (w'.view o)) ∧
      (∀ a ∈ w'.adds o, ∀ r ∈ a.refs, r ∈ ops.flatMap (HOp.passes o)) ∧
      (∀ a ∈ w'.sets o, ∀ r ∈ a.refs, r ∈ ops.flatMap (HOp.passes o)) ∧
        (w'.adds o = [] ↔ ∀ x ∈ ops, ¬HOp.AddsTo o x) := by
  have key : ∀ {w1 w2 : World K} {ops : List (HOp K)} {op : HOp K}, op.Gentle o →
      (op.run parse w1 = .ok () w2 ∨ (¬op.RecordedOn o ∧ ∃ e, op.run parse w1 = .exn e w2)) →
      (∀ o', op.on = some o' → o' < w1.count) → Untouched o (ops ++ [op]) →
      (w1.WF ∧ o < w1.count ∧ (∃ h, Recorded (w.view o) h (w1.view o)) ∧
        (∀ a ∈ w1.adds o, ∀ r ∈ a.refs, r ∈ ops.flatMap (HOp.passes o)) ∧
        (∀ a ∈ w1.sets o, ∀ r ∈ a.refs, r ∈ ops.flatMap (HOp.passes o)) ∧
        (w1.adds o = [] ↔ ∀ x ∈ ops, ¬HOp.AddsTo o x)) →
      (w2.WF ∧ o < w2.count ∧ (∃ h, Recorded (w.view o) h (w2.view o)) ∧
        (∀ a ∈ w2.adds o, ∀ r ∈ a.refs, r ∈ (ops ++ [op]).flatMap (HOp.passes o)) ∧
        (∀ a ∈ w2.sets o, ∀ r ∈ a.refs, r ∈ (ops ++ [op]).flatMap (HOp.passes o)) ∧
        (w2.adds o = [] ↔ ∀ x ∈ ops ++ [op], ¬HOp.AddsTo o x)) := by
    intro w1 w2 ops op hg hrun hon hu ⟨hw1, ho1, ⟨h, hrec⟩, hra, hrs, hadd⟩
    have hrun' : op.run parse w1 = .ok () w2 ∨ ∃ e, op.run parse w1 = .exn e w2 := by
      rcases hrun with h | ⟨_, h⟩
      · exact .inl h
      · exact .inr h
    obtain ⟨hw2, hc2⟩ := HOp.run_wf hw1 hon hrun'
    have hA := (hw1 o ho1).1
    have hS := (hw1 o ho1).2
    have still : ¬HOp.AddsTo o op → w2.view o = w1.view o → w2.adds o = w1.adds o → w2.sets o = w1.sets o →
        (w2.WF ∧ o < w2.count ∧ (∃ h, Recorded (w.view o) h (w2.view o)) ∧
        (∀ a ∈ w2.adds o, ∀ r ∈ a.refs, r ∈ (ops ++ [op]).flatMap (HOp.passes o)) ∧
        (∀ a ∈ w2.sets o, ∀ r ∈ a.refs, r ∈ (ops ++ [op]).flatMap (HOp.passes o)) ∧
        (w2.adds o = [] ↔ ∀ x ∈ ops ++ [op], ¬HOp.AddsTo o x)) := by
      intro e0 e1 e2 e3
      refine ⟨hw2, by omega, ⟨h, by rw [e1]; exact hrec⟩, ?_, ?_, ?_⟩
      · intro a m r mr
        rw [e2] at m
        simp only [List.flatMap_append, List.mem_append]
        exact .inl (hra a m r mr)
      · intro a m r mr
        rw [e3] at m
        simp only [List.flatMap_append, List.mem_append]
        exact .inl (hrs a m r mr)
      · rw [e2, hadd]; simp [or_imp, forall_and, e0]
    cases hwr : op.writes with
    | some r =>
      have hnot := hu ops op [] rfl r hwr
      obtain ⟨e1, e2, e3⟩ := HOp.write_view (o := o) hwr hrun'
        (fun a m mr => hnot (hra a (by rw [hA] at m; exact m) r mr)) (fun a m mr => hnot (hrs a (by rw [hS] at m; exact m) r mr))
      exact still (by cases op <;> first | exact id | cases hwr) e1 (by rw [e2]) (by rw [e3])
    | none =>
      by_cases hoo : op.on = some o
      · cases op with
        | setQ o' i q bt =>
          cases hoo
          rcases hrun with hrun | ⟨hx, _⟩
          · obtain ⟨e1, e2, e3⟩ := hSetQ_view hrun
            refine ⟨hw2, by omega, ⟨_, hrec.append (.call (c := .setQ (w1.ids i) (w1.arr q) bt) trivial e1 .nil)⟩, ?_, ?_, ?_⟩
            · intro a m r mr
              rw [e3] at m
              simp only [List.flatMap_append, List.mem_append]
              exact .inl (hra a m r mr)
            · intro a m r mr
              rw [e2, hS, upd_same] at m
              simp only [List.flatMap_append, List.mem_append]
              rcases List.mem_append.1 m with m | m
              · exact .inl (hrs a m r mr)
              · simp only [List.mem_singleton] at m
                subst m
                right
                simpa [HOp.passes, SetRef.refs, HArg.refs] using mr
            · rw [e3, hadd]; simp [or_imp, forall_and, HOp.AddsTo]
          · exact absurd rfl hx
        | addNewLink o' n p pos rpy =>
          cases hoo
          rcases hrun with hrun | ⟨hx, _⟩
          · obtain ⟨e1, e2, e3⟩ := hAddNewLink_view hrun
            refine ⟨hw2, by omega, ⟨_, hrec.append (.call (c := .addNewLink _) trivial e1 .nil)⟩, ?_, ?_, ?_⟩
            · intro a m r mr
              rw [e2, hA, upd_same] at m
              simp only [List.flatMap_append, List.mem_append]
              rcases List.mem_append.1 m with m | m
              · exact .inl (hra a m r mr)
              · simp only [List.mem_singleton] at m
                subst m
                right
                cases rpy <;> simpa [HOp.passes, AddRef.refs, HArg.refs] using mr
            · intro a m r mr
              rw [e3] at m
              simp only [List.flatMap_append, List.mem_append]
              exact .inl (hrs a m r mr)
            · rw [e2, hA, upd_same]; simp [or_imp, forall_and, HOp.AddsTo]
          · exact absurd rfl hx
        | call o' c hc =>
          cases hoo
          have hread : c.IsRead := hg rfl
          obtain ⟨m0, hm0⟩ := hm
          have hk := (hm0.run hrec).1.cache
          have hrel := RelP.call o c.run w1
          have hv : w2 = { w1 with objs := upd w1.objs o { w1.objs o with robot := (w1.objs o).robot } } := by
            simp only [HOp.run, hCall] at hrun'
            cases e : c.run (w1.view o) with
            | ok u s =>
              rw [e] at hrun'
              rcases hrun' with hx | ⟨e', hx⟩ <;> cases hx
              rw [hread.eq hk (.inl e)]
              rfl
            | exn x s =>
              rw [e] at hrun'
              rcases hrun' with hx | ⟨e', hx⟩ <;> cases hx
              rw [hread.eq hk (.inr ⟨_, e⟩)]
              rfl
            | ub u => rw [e] at hrun'; rcases hrun' with hx | ⟨e', hx⟩ <;> cases hx
            | hang => rw [e] at hrun'; rcases hrun' with hx | ⟨e', hx⟩ <;> cases hx
          subst hv
          refine still id ?_ rfl rfl
          simp only [World.view, upd_same]
          rfl
        | pickle o' =>
          have hf := HOp.run_frame hw1 ho1 hon (.inr ⟨o', rfl⟩) hwr hrun'
          exact still id (hf.view hA hS) hf.adds hf.sets
        | copy o' => cases hoo; exact absurd rfl hg
        | _ => cases hoo
      · have hf := HOp.run_frame hw1 ho1 hon (.inl hoo) hwr hrun'
        exact still (by cases op <;> first | exact id | (rintro rfl; exact hoo rfl)) (hf.view hA hS) hf.adds hf.sets
  induction hl with
  | nil =>
    refine ⟨hw, ho, ⟨[], .nil⟩, ?_, ?_, by simp [h0]⟩
    · intro a m; rw [h0] at m; cases m
    · intro a m; rw [h0'] at m; cases m
  | ok _ hg hon hrun ih => exact key hg (.inl hrun) hon hu (ih hu.prefix)
  | exn _ hg hx hon hrun ih => exact key hg (.inr ⟨hx, ⟨_, hrun⟩⟩) hon hu (ih hu.prefix)

theorem HRuns.wf (h : HRuns parse w ops w') : w'.WF := by
  induction h with
  | nil h => intro i hi; omega
  | ok _ hon hrun ih => exact (HOp.run_wf ih hon (.inl hrun)).1
  | exn _ hon hrun ih => exact (HOp.run_wf ih hon (.inr ⟨_, hrun⟩)).1

/-- a model along a program that does not touch passed arguments -/
theorem Life.born (hp : HRuns parse w pre w0) (hn : hNew parse xml w0 = .ok o w1) (hl : Life parse o w1 ops w2)
    (hu : Untouched o ops) : w2.WF ∧ o < w2.count ∧ ∃ m0 h, pyInit parse xml = .ok ⟨xml, m0, [], []⟩ ∧
      constructXml parse xml = .ok m0 ∧ Recorded ⟨xml, m0, [], []⟩ h (w2.view o) ∧ Replayed m0 (w2.view o) ∧
      (w2.objs o).xml = xml ∧ (w2.adds o = [] ↔ ∀ x ∈ ops, ¬HOp.AddsTo o x) ∧ o = w0.count ∧
      (∀ a ∈ w2.sets o, ∀ r ∈ a.refs, r ∈ ops.flatMap (HOp.passes o)) ∧
      (∀ a ∈ w2.adds o, ∀ r ∈ a.refs, r ∈ ops.flatMap (HOp.passes o)) := by
  have hw0 := hp.wf
  simp only [hNew] at hn
  cases e : pyInit parse xml with
  | ok s0 =>
    rw [e] at hn
    cases hn
    obtain ⟨m0, h1, rfl, h2⟩ := pyInit_eq e
    have hv : (w0.alloc xml m0).view w0.count = ⟨xml, m0, [], []⟩ := by simp [World.view, World.alloc]
    have hrp : Replayed m0 ((w0.alloc xml m0).view w0.count) := by rw [hv]; exact Replayed.init xml h2
    obtain ⟨hw2, ho2, ⟨h, hrec⟩, hra, hrs, ha⟩ := hl.recorded (alloc_wf _ _ _ hw0) (Nat.lt_succ_self _) hu
      (by simp [World.alloc]) (by simp [World.alloc]) ⟨m0, hrp⟩
    have hrr := hrp.run hrec
    rw [hv] at hrec hrr
    exact ⟨hw2, ho2, m0, h, rfl, h1, hrec, hrr.1, hrr.2, ha, rfl, hrs, hra⟩
  | exn x => rw [e] at hn; cases hn
  | ub u => rw [e] at hn; cases hn
  | hang => rw [e] at hn; cases hn

/-- **C88, the part that holds.** In any Python program: a model that is made by the constructor and changed by `set_q` and
`add_new_link` calls that return is preserved by pickling, provided the program does not change an argument after the call
it was passed to. -/
theorem C88_untouched_partial (hp : HRuns parse w pre w0) (hn : hNew parse xml w0 = .ok o w1) (hl : Life parse o w1 ops w2)
    (hu : Untouched o ops) :
    ∃ k w', hPickle parse o w2 = .ok k w' ∧ (w'.objs k).robot = (w2.objs o).robot ∧ (w'.objs o).robot = (w2.objs o).robot := by
  obtain ⟨hw2, ho2, m0, h, e, h1, hrec, _⟩ := hl.born hp hn hu
  obtain ⟨s', e1, e2, e3⟩ := C44_pickle e hrec
  refine ⟨_, _, by simp only [hPickle]; rw [show pySetState parse (pyGetState _) = _ from e1], ?_, ?_⟩
  · simp only [World.alloc, upd_same]; exact e2
  · have : o ≠ w2.count := by omega
    simp only [World.alloc, upd_ne _ _ this]

/-- the value at the last occurrence of a joint in the list is the one the joint gets -/
theorem writeAngles_nodup {ids : List Nat} {v a a' : List K} (h : writeAngles ids v a = .ok a') (hd : ids.Nodup)
    (hv : v.length = ids.length) : mapOutcome (Outcome.idx "joint_angles_" a') ids = .ok v := by
  induction ids generalizing v a with
  | nil => cases v with
    | nil => rfl
    | cons x v => simp at hv
  | cons i ids ih =>
    cases v with
    | nil => simp at hv
    | cons x v =>
      obtain ⟨hi, hids⟩ := List.nodup_cons.1 hd
      have hval := (writeAngles_valid h).1 i (by simp)
      have hg := writeAngles_get h i hval
      rw [List.zip_cons_cons, lastWrite_cons, lastWrite_eq_none hi] at hg
      simp only [writeAngles, hval, if_true] at h
      have := ih h hids (by simpa using hv)
      simp only [mapOutcome, this]
      simp [Outcome.idx, hg]

/-- **C88, what happens.** After `o.set_q(ids, q, bt)` returned, the program overwrites `q` in place with other numbers `v`. The
model still has the old values, but unpickling its pickle gives a model in which the joints have the values `v`. (`q` was
not passed to an earlier call; `ids` has no repetition.) -/
theorem C88_written (hp : HRuns parse w pre w0) (hn : hNew parse xml w0 = .ok o w1) (hl : Life parse o w1 ops w2)
    (hu : Untouched o ops) {i q : Nat} {bt : BaseType} {w3 : World K}
    (hq : (HOp.setQ o i q bt).run parse w2 = .ok () w3) (hfresh : .arr q ∉ ops.flatMap (HOp.passes o)) (hd : (w2.ids i).Nodup)
    {v : List K} {w4 : World K} (hwr : (HOp.writeArr q v).run parse w3 = .ok () w4) :
    ∃ k w', hPickle parse o w4 = .ok k w' ∧
      getJointAngles (w2.ids i) (w'.objs o).robot = .ok ((w2.arr q).take (w2.ids i).length) (w'.objs o).robot ∧
      getJointAngles (w2.ids i) (w'.objs k).robot = .ok (v.take (w2.ids i).length) (w'.objs k).robot := by
  obtain ⟨hw2, ho2, m0, h, hi, h1, hrec, hrp, hxml, _, _, hrs, _⟩ := hl.born hp hn hu
  obtain ⟨e1, e2, e3⟩ := hSetQ_view hq
  have hrel := RelP.setQ o ⟨.ref i, .ref q, bt⟩ w2
  simp only [HOp.run] at hq
  rw [hq] at hrel
  have hv3 : v.length = (w3.arr q).length := by
    simp only [HOp.run] at hwr
    split at hwr
    · assumption
    · cases hwr
  simp only [HOp.run, if_pos hv3, Res.ok.injEq, true_and] at hwr
  subst hwr
  have hv : v.length = (w2.arr q).length := by rw [hv3, hrel.arr]
  obtain ⟨θ, g1, g2, g3⟩ := pySetQ_eq e1
  simp only [SetRef.get, HArg.get] at g1 g2 g3 e1
  obtain ⟨θ', hθ'⟩ := writeAngles_ok (ids := w2.ids i) (vals := v.take (w2.ids i).length) (a := (w2.view o).robot.angles)
    (by simp; omega) (writeAngles_valid g1).1
  -- the robot that would have been reached with `v`
  have hv' := pySetQ_ok (s := w2.view o) (bt := bt) (q := v) hθ' (by omega)
  have hrec' := hrec.append (.call (c := .setQ (w2.ids i) v bt) trivial hv' .nil)
  obtain ⟨s', f1, f2, f3⟩ := C44_pickle hi hrec'
  have ho3 : o < w3.count := by rw [hrel.count]; exact ho2
  have hw3 := hrel.wf hw2
  have hview : pyGetState (World.view ({ w3 with arr := upd w3.arr q v } : World K) o) =
      pyGetState ⟨(w2.view o).xml, (w2.view o).robot.reset θ' ((basePart (w2.ids i).length bt v).getD (w2.view o).robot.base),
        (w2.view o).addHist, (w2.view o).setHist ++ [⟨w2.ids i, v, bt⟩]⟩ := by
    have hA := congrArg PyModel.addHist g3
    have hX := congrArg PyModel.xml g3
    have hS := congrArg PyModel.setHist g3
    simp only [World.view] at hA hX hS
    simp only [pyGetState, World.view, Pickled.mk.injEq]
    refine ⟨hX, ?_, ?_⟩
    · rw [← hA]; exact List.map_congr_left fun a _ => rfl
    · have hS2 := (hw2 o ho2).2
      rw [hrel.rs, e2, hS2, upd_same, List.map_append]
      congr 1
      · refine List.map_congr_left fun a m => ?_
        have : Ref.arr q ∉ a.refs := fun mr => hfresh (hrs a m _ mr)
        simp only [SetRef.refs, List.mem_append, not_or] at this
        simp only [SetRef.get, HArg.get_upd this.2, hrel.ids, hrel.arr]
      · simp only [List.map_cons, List.map_nil, SetRef.get, HArg.get, upd_same, hrel.ids]
  have hne : o ≠ w3.count := by omega
  have hang : (w3.objs o).robot.angles = θ := congrArg (fun s => s.robot.angles) g3
  have hang' : s'.robot.angles = θ' := congrArg KinModel.angles f2
  refine ⟨w3.count, ({ w3 with arr := upd w3.arr q v } : World K).alloc s'.xml s'.robot, ?_, ?_, ?_⟩
  · simp only [hPickle]
    rw [hview, show pySetState parse _ = _ from f1]
  · simp only [World.alloc, upd_ne _ _ hne, getJointAngles, Prog.read, hang]
    rw [writeAngles_nodup g1 hd (by simp; omega)]
  · simp only [World.alloc, upd_same, getJointAngles, Prog.read, hang']
    rw [writeAngles_nodup hθ' hd (by simp; omega)]

/-- **C89, what holds.** `copy.copy(o)` gives a model with the same robot and leaves the robot of `o` as it is. -/
theorem C89_copy_partial (hp : HRuns parse w pre w0) (hn : hNew parse xml w0 = .ok o w1) (hl : Life parse o w1 ops w2)
    (hu : Untouched o ops) :
    ∃ k w', hCopy parse o w2 = .ok k w' ∧ k ≠ o ∧ (w'.objs k).robot = (w2.objs o).robot ∧ (w'.objs o).robot = (w2.objs o).robot := by
  obtain ⟨hw2, ho2, m0, h, e, h1, hrec, hrp, hxml, _⟩ := hl.born hp hn hu
  obtain ⟨w', e1, e2, _, _, e3⟩ := hCopy_ok (parse := parse) hw2 ho2 (by rw [hxml]; exact h1) hrp
  exact ⟨_, w', e1, by omega, e2, congrArg PyModel.robot e3⟩

/-- **C89, what happens.** If a link was added to `o`, then after `copy.copy(o)` the model `o` can be pickled no more: its
history now has every call twice, and unpickling, `copy.deepcopy` and a second `copy.copy` raise. -/
theorem C89_copy_spoils (hp : HRuns parse w pre w0) (hn : hNew parse xml w0 = .ok o w1) (hl : Life parse o w1 ops w2)
    (hu : Untouched o ops) (hadd : ∃ op ∈ ops, op.AddsTo o) {k : Nat} {w' : World K} (hc : hCopy parse o w2 = .ok k w') :
    (∃ e, hPickle parse o w' = .exn e w') ∧ ∃ e w'', hCopy parse o w' = .exn e w'' := by
  obtain ⟨hw2, ho2, m0, h, e, h1, hrec, hrp, hxml, ha, _⟩ := hl.born hp hn hu
  obtain ⟨w3, e1, e2, hw3, ho3, e3⟩ := hCopy_ok (parse := parse) hw2 ho2 (by rw [hxml]; exact h1) hrp
  rw [hc] at e1
  cases e1
  have hne : (w2.view o).addHist ≠ [] := by
    simp only [World.view, (hw2 o ho2).1]
    intro h'
    rw [List.map_eq_nil_iff] at h'
    obtain ⟨op, hm, ho⟩ := hadd
    exact ha.1 h' op hm ho
  obtain ⟨a, L, hL⟩ := List.exists_cons_of_ne_nil hne
  -- the second half of the history meets its own names
  have hrun : ∀ H, ∃ e s, Prog.forEach ((w2.view o).addHist ++ (w2.view o).addHist) (fun a _ => pyAddNewLink a) ()
      ⟨xml, m0, (w2.view o).addHist ++ (w2.view o).addHist, H⟩ = .exn e s := by
    intro H
    have h2 := hrp.adds xml ((w2.view o).addHist ++ (w2.view o).addHist) H
    obtain ⟨_, hnames⟩ := forEach_adds_names h2
    obtain ⟨e, he⟩ := pyAddNewLink_dup (hnames a (by rw [hL]; simp))
    rw [forEach_append, Prog.bind, h2]
    simp only []
    generalize (⟨xml, (w2.view o).robot.posed m0.angles m0.base, _, H⟩ : PyModel K) = S at he
    rw [hL]
    simp only [Prog.forEach, Prog.bind, he]
    exact ⟨_, _, rfl⟩
  have hx3 : (w'.objs o).xml = xml := (congrArg PyModel.xml e3).trans hxml
  constructor
  · obtain ⟨e, s, he⟩ := hrun ((w2.view o).setHist ++ (w2.view o).setHist)
    refine ⟨e, ?_⟩
    simp only [hPickle, pyGetState, pySetState, e3, hxml, h1, Outcome.bind_eq, Outcome.bind_ok, pyReplay, Prog.bind_apply, he]
    rfl
  · have hrp' := copyReplay_exn (w := ({ w' with objs := upd w'.objs w'.count { w'.objs o with robot := m0 } } : World K))
      (y := w'.count) (by
        obtain ⟨e, s, he⟩ := hrun ((w2.view o).setHist ++ (w2.view o).setHist)
        refine ⟨e, s, ?_⟩
        have hv : World.view ({ w' with objs := upd w'.objs w'.count { w'.objs o with robot := m0 } } : World K) w'.count =
            ⟨(w'.view o).xml, m0, (w'.view o).addHist, (w'.view o).setHist⟩ := by
          simp only [World.view, upd_same]
          rfl
        rw [hv, e3, hxml]
        exact he)
    obtain ⟨e, w'', he⟩ := hrp'
    refine ⟨e, w'', ?_⟩
    rw [hCopy_eq, hx3, h1]
    simp only [he]

/-- **C89, what holds.** If no link was added to `o`, then `o` can be pickled after `copy.copy(o)`, and the pickle has the
robot of `o`. -/
theorem C89_no_links_partial (hp : HRuns parse w pre w0) (hn : hNew parse xml w0 = .ok o w1) (hl : Life parse o w1 ops w2)
    (hu : Untouched o ops) (hadd : ∀ op ∈ ops, ¬op.AddsTo o) {k : Nat} {w' : World K} (hc : hCopy parse o w2 = .ok k w') :
    ∃ j w'', hPickle parse o w' = .ok j w'' ∧ (w''.objs j).robot = (w2.objs o).robot := by
  obtain ⟨hw2, ho2, m0, h, e, h1, hrec, hrp, hxml, ha, _⟩ := hl.born hp hn hu
  obtain ⟨w3, e1, e2, hw3, ho3, e3⟩ := hCopy_ok (parse := parse) hw2 ho2 (by rw [hxml]; exact h1) hrp
  rw [hc] at e1
  cases e1
  have hnil : (w2.view o).addHist = [] := by
    simp only [World.view, (hw2 o ho2).1, ha.2 hadd, List.map_nil]
  have hcm := hrp.adds
  rw [hnil] at hcm
  have hrob : m0 = (w2.view o).robot.posed m0.angles m0.base := by
    have := hcm "" [] []
    simp only [Prog.forEach, Prog.pure, List.append_nil, Res.ok.injEq, PyModel.mk.injEq, true_and, and_true] at this
    exact this
  have hk : m0.cache.clear = m0.cache := by
    rw [hrob]; exact hrp.cache
  have hs := hrp.sets xml m0 ([] : List (AddArgs K)) ((w2.view o).setHist ++ (w2.view o).setHist) hk rfl rfl
  obtain ⟨i1, i2, i3⟩ := forEach_sets_inv hk hs
  simp only [KinModel.posed] at i2 i3
  have hs2 := forEach_sets (L := (w2.view o).setHist ++ (w2.view o).setHist) (x := xml) (m := m0) (A := [])
    (H := (w2.view o).setHist ++ (w2.view o).setHist) (θ := (w2.view o).robot.angles) hk
    (by intro e m; rcases List.mem_append.1 m with m | m <;> exact i1 e m)
    (by rw [setIds_append, setVals_append, writeAngles_append _ _ _ _ _ (setVals_length i1), i2]
        exact writeAngles_twice i2)
  rw [setBase_append, setBase_twice, ← i3] at hs2
  have hfin : m0.posed (w2.view o).robot.angles (w2.view o).robot.base = (w2.view o).robot := by
    rw [hrob]; rfl
  rw [hfin] at hs2
  refine ⟨w'.count, w'.alloc xml (w2.view o).robot, ?_, ?_⟩
  · simp only [hPickle, pyGetState, pySetState, e3, hxml, h1, Outcome.bind_eq, Outcome.bind_ok, pyReplay, Prog.bind_apply, hnil,
      List.append_nil, Prog.forEach, Prog.pure]
    rw [hs2]
    rfl
  · simp only [World.alloc, upd_same]
    rfl

end

namespace Example

/-! ### The hypotheses are met, and C88 and C89 are false -/

/-- a program's own objects: the list `[0]`, the array `[2]`, the arrays `(1, 2, 3)` -/
noncomputable def start : World ℝ :=
  ⟨fun _ => [0], fun _ => [2], fun _ => ⟨1, 2, 3⟩, fun _ => [], fun _ => [], fun _ => ⟨"", m0, 0, 0⟩, 0⟩

/-- after `o = KinematicModel(xml_text="<robot/>")` -/
noncomputable def w1 : World ℝ := start.alloc "<robot/>" m0

theorem new1 : hNew parse1 "<robot/>" start = .ok 0 w1 := by
  simp only [hNew, init1]
  rfl

theorem w1_view : w1.view 0 = ⟨"<robot/>", m0, [], []⟩ := by
  simp [World.view, w1, World.alloc, start]

/-- `o.set_q([0], q)` with `q = [2]` -/
theorem set1 : ∃ w2, (HOp.setQ 0 0 0 .fixed).run parse1 w1 = .ok () w2 := by
  obtain ⟨w2, h, _⟩ := hSetQ_ok (o := 0) (w := w1) (a := ⟨.ref 0, .ref 0, .fixed⟩) (s := _) (by
    rw [w1_view]
    exact pySetQ_ok (θ := [2, 0]) (by simp [m0_angles, writeAngles, SetRef.get, HArg.get, w1, World.alloc, start]) (by
      simp [SetRef.get, HArg.get, w1, World.alloc, start, BaseType.dof]))
  exact ⟨w2, h⟩

theorem untouched_nil : Untouched 0 ([] : List (HOp ℝ)) := by
  intro pre op post h
  cases pre <;> cases h

/-- **C88 is false of the code.** `q = [2]; o.set_q([0], q); q[0] = 1`: joint 0 of `o` is at 2, and in the pickle at 1. -/
theorem C88_false : ∃ w3 k w', Life parse1 0 w1 [.setQ 0 0 0 .fixed, .writeArr 0 [1]] w3 ∧ hPickle parse1 0 w3 = .ok k w' ∧
    getJointAngles [0] (w3.objs 0).robot = .ok [2] (w3.objs 0).robot ∧
    getJointAngles [0] (w'.objs k).robot = .ok [1] (w'.objs k).robot := by
  obtain ⟨w2, h2⟩ := set1
  have hc : ∀ o', (HOp.setQ 0 0 0 .fixed : HOp ℝ).on = some o' → o' < w1.count := by
    intro o' h; cases h; exact Nat.one_pos
  have hl0 : Life parse1 0 w1 [.setQ 0 0 0 .fixed] w2 := Life.ok .nil trivial hc h2
  have harr : w2.arr = w1.arr := by
    have := RelP.setQ 0 ⟨.ref 0, .ref 0, .fixed⟩ w1
    simp only [HOp.run] at h2
    rw [h2] at this
    exact this.arr
  have hwr : (HOp.writeArr 0 [1]).run parse1 w2 = .ok () { w2 with arr := upd w2.arr 0 [1] } := by
    simp [HOp.run, harr, w1, World.alloc, start]
  have hl : Life parse1 0 w1 ([.setQ 0 0 0 .fixed] ++ [.writeArr 0 [1]]) { w2 with arr := upd w2.arr 0 [1] } :=
    Life.ok hl0 trivial (by intro o' h; cases h) hwr
  obtain ⟨k, w', e1, e2, e3⟩ := C88_written (.nil rfl) new1 .nil untouched_nil h2 (by simp) (by simp [w1, World.alloc, start])
    (v := [1]) (w4 := { w2 with arr := upd w2.arr 0 [1] }) hwr
  refine ⟨_, k, w', hl, e1, ?_, by simpa [w1, World.alloc, start] using e3⟩
  have hx : w'.objs 0 = w2.objs 0 := by
    have hf := HOp.run_frame (parse := parse1) (op := .pickle 0) (o := 0) (w := { w2 with arr := upd w2.arr 0 [1] }) (w' := w')
      (HOp.run_wf (HOp.run_wf (alloc_wf start _ _ (by intro i hi; cases hi)) hc (.inl h2)).1 (by intro o' h; cases h)
        (.inl hwr)).1
      (lt_of_lt_of_le Nat.one_pos (HOp.run_wf (alloc_wf start _ _ (by intro i hi; cases hi)) hc (.inl h2)).2)
      (by intro o' h; cases h
          exact lt_of_lt_of_le Nat.one_pos (HOp.run_wf (alloc_wf start _ _ (by intro i hi; cases hi)) hc (.inl h2)).2)
      (.inr ⟨0, rfl⟩) rfl (.inl (by simp only [HOp.run, Prog.bind]; rw [e1]; rfl))
    exact hf.obj
  simp only []
  rw [← hx]
  simpa [w1, World.alloc, start] using e2

/-- `o.add_new_link("gripper", 2, position, rpy)` -/
theorem add1 : ∃ w2, (HOp.addNewLink 0 "gripper" 2 0 (some 1)).run parse1 w1 = .ok () w2 := by
  have h0 : PyReach ls js m0 [] [] ⟨"<robot/>", m0, [], []⟩ := ⟨isTree, supported, m0_spec, _, .nil⟩
  obtain ⟨mc, hat⟩ := h0.at
  obtain ⟨mc', m', e, hat'⟩ := hat.addLink (name := "gripper") (parent := 2)
    (o := ⟨⟨1, 2, 3⟩, Rot.fromRPY 1 2 3⟩) no_gripper (by show 2 < m0.links.length; rw [links_length]; omega)
  obtain ⟨w2, h, _⟩ := hAddNewLink_ok (o := 0) (w := w1) (a := ⟨"gripper", 2, .ref 0, some (.ref 1)⟩)
    (s := ⟨"<robot/>", m', [⟨"gripper", 2, ⟨1, 2, 3⟩, some ⟨1, 2, 3⟩⟩], []⟩) (by
    rw [w1_view]
    simp only [pyAddNewLink, Prog.bind_apply, Prog.modify, onRobot, wAddNewLink, addNewLinkRPY, AddRef.get, HArg.get, w1, World.alloc,
      start, Option.map_some, Option.getD_some, e, Prog.pure_apply]
    rfl)
  exact ⟨w2, h⟩

/-- **C89 is false of the code.** `o.add_new_link(...); p = copy.copy(o); pickle.loads(pickle.dumps(o))` raises. -/
theorem C89_false : ∃ w2 k w3, Life parse1 0 w1 [.addNewLink 0 "gripper" 2 0 (some 1)] w2 ∧ hCopy parse1 0 w2 = .ok k w3 ∧
    (∃ j w', hPickle parse1 0 w2 = .ok j w') ∧ ∃ e, hPickle parse1 0 w3 = .exn e w3 := by
  obtain ⟨w2, h2⟩ := add1
  have hl : Life parse1 0 w1 [.addNewLink 0 "gripper" 2 0 (some 1)] w2 :=
    Life.ok .nil trivial (by intro o' h; cases h; exact Nat.one_pos) h2
  have hu : Untouched 0 [(.addNewLink 0 "gripper" 2 0 (some 1) : HOp ℝ)] := by
    intro pre op post h r hr
    cases pre with
    | nil => cases h; cases hr
    | cons a pre => cases pre <;> cases h
  obtain ⟨k, w3, e1, _⟩ := C89_copy_partial (.nil rfl) new1 hl hu
  obtain ⟨j, w', e2, _⟩ := C88_untouched_partial (.nil rfl) new1 hl hu
  exact ⟨w2, k, w3, hl, e1, ⟨j, w', e2⟩, (C89_copy_spoils (.nil rfl) new1 hl hu
    ⟨.addNewLink 0 "gripper" 2 0 (some 1), by simp, rfl⟩ e1).1⟩

/-- the case without added links -/
example : ∃ w2 k w3 j w4, Life parse1 0 w1 [.setQ 0 0 0 .fixed] w2 ∧ hCopy parse1 0 w2 = .ok k w3 ∧ hPickle parse1 0 w3 = .ok j w4 := by
  obtain ⟨w2, h2⟩ := set1
  have hl : Life parse1 0 w1 [.setQ 0 0 0 .fixed] w2 := Life.ok .nil trivial (by intro o' h; cases h; exact Nat.one_pos) h2
  have hu : Untouched 0 [(.setQ 0 0 0 .fixed : HOp ℝ)] := by
    intro pre op post h r hr
    cases pre with
    | nil => cases h; cases hr
    | cons a pre => cases pre <;> cases h
  obtain ⟨k, w3, e1, _⟩ := C89_copy_partial (.nil rfl) new1 hl hu
  obtain ⟨j, w4, e2, _⟩ := C89_no_links_partial (.nil rfl) new1 hl hu (by simp [HOp.AddsTo]) e1
  exact ⟨w2, k, w3, j, w4, hl, e1, e2⟩

end Example
end Tinyfk
