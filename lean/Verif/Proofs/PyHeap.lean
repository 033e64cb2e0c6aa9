import Verif.Spec.PyHeap
import Verif.Proofs.Pickle
import Verif.Props.Pickle

/-!
# Models with references: what each statement changes
-/

set_option linter.unusedSectionVars false

namespace Tinyfk

open Scalar

variable {K : Type} [Scalar K] {parse : String → Option (ModelInterface K)} {w w' w1 w2 : World K} {o : Nat}

@[simp] theorem upd_same {α : Type} (f : Nat → α) (i : Nat) (a : α) : upd f i a i = a := by simp [upd]
theorem upd_ne {α : Type} (f : Nat → α) {i j : Nat} (a : α) (h : j ≠ i) : upd f i a j = f j := by simp [upd, h]

/-- each model has its own history lists -/
def World.WF (w : World K) : Prop := ∀ i, i < w.count → (w.objs i).adds = i ∧ (w.objs i).sets = i

/-- what a method of model `y` may change -/
structure Rel (y : Nat) (w w' : World K) : Prop where
  ids : w'.ids = w.ids
  arr : w'.arr = w.arr
  vec : w'.vec = w.vec
  count : w'.count = w.count
  objs : ∀ i, i ≠ y → w'.objs i = w.objs i
  xml : (w'.objs y).xml = (w.objs y).xml
  ra : (w'.objs y).adds = (w.objs y).adds
  rs : (w'.objs y).sets = (w.objs y).sets
  adds : ∀ i, i ≠ (w.objs y).adds → w'.adds i = w.adds i
  sets : ∀ i, i ≠ (w.objs y).sets → w'.sets i = w.sets i

theorem Rel.refl (y : Nat) (w : World K) : Rel y w w :=
  ⟨rfl, rfl, rfl, rfl, fun _ _ => rfl, rfl, rfl, rfl, fun _ _ => rfl, fun _ _ => rfl⟩

theorem Rel.trans {y : Nat} (h : Rel y w w1) (h' : Rel y w1 w2) : Rel y w w2 where
  ids := h'.ids.trans h.ids
  arr := h'.arr.trans h.arr
  vec := h'.vec.trans h.vec
  count := h'.count.trans h.count
  objs i hi := (h'.objs i hi).trans (h.objs i hi)
  xml := h'.xml.trans h.xml
  ra := h'.ra.trans h.ra
  rs := h'.rs.trans h.rs
  adds i hi := (h'.adds i (by rw [h.ra]; exact hi)).trans (h.adds i hi)
  sets i hi := (h'.sets i (by rw [h.rs]; exact hi)).trans (h.sets i hi)

/-- a program that changes only what a method of model `y` may change -/
def RelP {α : Type} (y : Nat) (p : Prog (World K) α) : Prop :=
  ∀ w, match p w with
    | .ok _ w' => Rel y w w'
    | .exn _ w' => Rel y w w'
    | .ub _ => True
    | .hang => True

theorem RelP.bind {α β : Type} {y : Nat} {p : Prog (World K) α} {f : α → Prog (World K) β} (hp : RelP y p) (hf : ∀ a, RelP y (f a)) :
    RelP y (p >>= f) := by
  intro w
  have h1 := hp w
  simp only [Prog.bind_apply]
  cases e : p w with
  | ok a w1 =>
    rw [e] at h1
    have h2 := hf a w1
    cases e2 : f a w1 with
    | ok b w2 => rw [e2] at h2; simpa only [e2] using h1.trans h2
    | exn x w2 => rw [e2] at h2; simpa only [e2] using h1.trans h2
    | ub u => simp only [e2]
    | hang => simp only [e2]
  | exn x w1 => rw [e] at h1; exact h1
  | ub u => trivial
  | hang => trivial

theorem RelP.get (y : Nat) : RelP y (Prog.get : Prog (World K) (World K)) := fun w => Rel.refl y w

theorem RelP.call {α : Type} (y : Nat) (p : Prog (PyModel K) α) : RelP y (hCall y p) := by
  intro w
  unfold hCall
  cases p (w.view y) with
  | ok a s => exact ⟨rfl, rfl, rfl, rfl, fun i hi => upd_ne _ _ hi, by simp, by simp, by simp, fun _ _ => rfl, fun _ _ => rfl⟩
  | exn a s => exact ⟨rfl, rfl, rfl, rfl, fun i hi => upd_ne _ _ hi, by simp, by simp, by simp, fun _ _ => rfl, fun _ _ => rfl⟩
  | ub u => trivial
  | hang => trivial

theorem RelP.setQ (y : Nat) (a : SetRef K) : RelP y (hSetQ y a) := by
  refine RelP.bind ?_ fun _ => RelP.bind (RelP.get y) fun _ => RelP.call y _
  intro w
  exact ⟨rfl, rfl, rfl, rfl, fun _ _ => rfl, rfl, rfl, rfl, fun _ _ => rfl, fun i hi => upd_ne _ _ hi⟩

theorem RelP.add (y : Nat) (a : AddRef K) : RelP y (hAddNewLink y a) := by
  refine RelP.bind ?_ fun _ => RelP.bind (RelP.get y) fun _ => RelP.call y _
  intro w
  exact ⟨rfl, rfl, rfl, rfl, fun _ _ => rfl, rfl, rfl, rfl, fun i hi => upd_ne _ _ hi, fun _ _ => rfl⟩

theorem RelP.forEach {ι : Type} {y : Nat} (xs : List ι) {body : ι → Unit → Prog (World K) Unit} (h : ∀ x, RelP y (body x ())) :
    RelP y (Prog.forEach xs body ()) := by
  induction xs with
  | nil => intro w; exact Rel.refl y w
  | cons x xs ih => exact RelP.bind (h x) fun _ => ih

/-- what a statement does to a model it does not work on, and to the caller's objects -/
structure Frame (o : Nat) (w w' : World K) : Prop where
  ids : w'.ids = w.ids
  arr : w'.arr = w.arr
  vec : w'.vec = w.vec
  obj : w'.objs o = w.objs o
  adds : w'.adds o = w.adds o
  sets : w'.sets o = w.sets o

theorem World.view_alloc (w : World K) (xml : String) (r : KinModel K) (ho : o < w.count) (hw : w.WF) :
    Frame o w (w.alloc xml r) ∧ (w.alloc xml r).WF := by
  refine ⟨⟨rfl, rfl, rfl, upd_ne _ _ (by omega), upd_ne _ _ (by omega), upd_ne _ _ (by omega)⟩, ?_⟩
  intro i hi
  by_cases h : i = w.count
  · subst h; simp [World.alloc]
  · have : i < w.count := by simp only [World.alloc] at hi; omega
    simp only [World.alloc, upd_ne _ _ h]
    exact hw i this

theorem Frame.refl (o : Nat) (w : World K) : Frame o w w := ⟨rfl, rfl, rfl, rfl, rfl, rfl⟩

theorem Rel.frame {y : Nat} (h : Rel y w w') (hw : w.WF) (hy : y < w.count) (hne : o ≠ y) : Frame o w w' :=
  ⟨h.ids, h.arr, h.vec, h.objs o hne, h.adds o (by rw [(hw y hy).1]; exact hne), h.sets o (by rw [(hw y hy).2]; exact hne)⟩

theorem Rel.wf {y : Nat} (h : Rel y w w') (hw : w.WF) : w'.WF := by
  intro i hi
  rw [h.count] at hi
  by_cases e : i = y
  · subst e; rw [h.ra, h.rs]; exact hw i hi
  · rw [h.objs i e]; exact hw i hi

theorem alloc_wf (w : World K) (xml : String) (r : KinModel K) (hw : w.WF) : (w.alloc xml r).WF := by
  intro i hi
  by_cases h : i = w.count
  · subst h; simp [World.alloc]
  · have : i < w.count := by simp only [World.alloc] at hi; omega
    simp only [World.alloc, upd_ne _ _ h]
    exact hw i this

theorem alloc_frame (w : World K) (xml : String) (r : KinModel K) (ho : o < w.count) : Frame o w (w.alloc xml r) :=
  ⟨rfl, rfl, rfl, upd_ne _ _ (by omega), upd_ne _ _ (by omega), upd_ne _ _ (by omega)⟩

/-- the replay in `copy.copy` -/
def copyReplay (y : Nat) : Prog (World K) Unit := do
  let w1 ← Prog.get
  Prog.forEach ((w1.adds (w1.objs y).adds).map (AddRef.deepcopy w1)) (fun a _ => hAddNewLink y a) ()
  let w2 ← Prog.get
  Prog.forEach ((w2.sets (w2.objs y).sets).map (SetRef.deepcopy w2)) (fun a _ => hSetQ y a) ()

theorem copyReplay_rel (y : Nat) : RelP y (copyReplay y : Prog (World K) Unit) :=
  RelP.bind (RelP.get y) fun _ => RelP.bind (RelP.forEach _ fun a => RelP.add y a) fun _ =>
    RelP.bind (RelP.get y) fun _ => RelP.forEach _ fun a => RelP.setQ y a

theorem hCopy_eq (parse : String → Option (ModelInterface K)) (o : Nat) (w : World K) : hCopy parse o w =
    match constructXml parse (w.objs o).xml with
    | .ok r => match copyReplay w.count { w with objs := upd w.objs w.count { w.objs o with robot := r } } with
      | .ok _ w' => .ok w.count (w'.alloc (w'.objs w.count).xml (w'.objs w.count).robot)
      | .exn e w' => .exn e w'
      | .ub u => .ub u
      | .hang => .hang
    | .exn e => .exn e w
    | .ub u => .ub u
    | .hang => .hang := rfl

theorem copyReplay_frame {o2 : Nat} {r : KinModel K} (hw : w.WF) (ho2 : o2 < w.count)
    (h : Rel w.count { w with objs := upd w.objs w.count { w.objs o2 with robot := r } } w') :
    w'.WF ∧ w'.count = w.count ∧ w'.ids = w.ids ∧ w'.arr = w.arr ∧ w'.vec = w.vec ∧
      (∀ i, i < w.count → w'.objs i = w.objs i) ∧ (∀ i, i ≠ o2 → w'.adds i = w.adds i ∧ w'.sets i = w.sets i) := by
  have ha := h.adds
  have hs := h.sets
  simp only [upd_same, (hw o2 ho2).1, (hw o2 ho2).2] at ha hs
  have hobj : ∀ i, i < w.count → w'.objs i = w.objs i := by
    intro i hi
    rw [h.objs i (by omega)]
    exact upd_ne _ _ (by omega)
  refine ⟨?_, h.count, h.ids, h.arr, h.vec, hobj, fun i hi => ⟨ha i hi, hs i hi⟩⟩
  intro i hi
  rw [h.count] at hi
  rw [hobj i hi]
  exact hw i hi

/-- a statement keeps the lists apart -/
theorem HOp.run_wf {op : HOp K} (hw : w.WF) (hon : ∀ o', op.on = some o' → o' < w.count)
    (h : op.run parse w = .ok () w' ∨ ∃ e, op.run parse w = .exn e w') : w'.WF ∧ w.count ≤ w'.count := by
  have rel : ∀ {y : Nat} {p : Prog (World K) Unit}, RelP y p → (p w = .ok () w' ∨ ∃ e, p w = .exn e w') →
      w'.WF ∧ w.count ≤ w'.count := by
    intro y p hp h
    have := hp w
    rcases h with h | ⟨e, h⟩ <;> rw [h] at this <;> exact ⟨this.wf hw, by rw [this.count]⟩
  cases op with
  | setQ o ids q bt => exact rel (RelP.setQ _ _) h
  | addNewLink o n p pos rpy => exact rel (RelP.add _ _) h
  | call o c hc => exact rel (RelP.call _ _) h
  | writeIds r v => rcases h with h | ⟨e, h⟩ <;> cases h; exact ⟨hw, le_refl _⟩
  | writeArr r v =>
    simp only [HOp.run] at h
    split at h <;> rcases h with h | ⟨e, h⟩ <;> cases h <;> exact ⟨hw, le_refl _⟩
  | writeVec r v => rcases h with h | ⟨e, h⟩ <;> cases h; exact ⟨hw, le_refl _⟩
  | new xml =>
    simp only [HOp.run, Prog.bind, hNew] at h
    cases e : pyInit parse xml with
    | ok s =>
      simp only [e] at h
      rcases h with h | ⟨e, h⟩ <;> cases h
      exact ⟨alloc_wf _ _ _ hw, Nat.le_succ _⟩
    | exn x =>
      simp only [e] at h
      rcases h with h | ⟨e, h⟩ <;> cases h
      exact ⟨hw, le_refl _⟩
    | ub u => simp only [e] at h; rcases h with h | ⟨e, h⟩ <;> cases h
    | hang => simp only [e] at h; rcases h with h | ⟨e, h⟩ <;> cases h
  | pickle o =>
    simp only [HOp.run, Prog.bind, hPickle] at h
    cases e : pySetState parse (pyGetState (w.view o)) with
    | ok s =>
      simp only [e] at h
      rcases h with h | ⟨e, h⟩ <;> cases h
      exact ⟨alloc_wf _ _ _ hw, Nat.le_succ _⟩
    | exn x =>
      simp only [e] at h
      rcases h with h | ⟨e, h⟩ <;> cases h
      exact ⟨hw, le_refl _⟩
    | ub u => simp only [e] at h; rcases h with h | ⟨e, h⟩ <;> cases h
    | hang => simp only [e] at h; rcases h with h | ⟨e, h⟩ <;> cases h
  | copy o2 =>
    simp only [HOp.run, Prog.bind, hCopy_eq] at h
    have ho2 := hon o2 rfl
    cases e : constructXml parse (w.objs o2).xml with
    | ok r =>
      simp only [e] at h
      have hr := copyReplay_rel w.count { w with objs := upd w.objs w.count { w.objs o2 with robot := r } }
      cases e2 : copyReplay w.count { w with objs := upd w.objs w.count { w.objs o2 with robot := r } } with
      | ok u w3 =>
        simp only [e2] at h hr
        obtain ⟨h1, h2, _⟩ := copyReplay_frame hw ho2 hr
        rcases h with h | ⟨e, h⟩ <;> cases h
        exact ⟨alloc_wf _ _ _ h1, by simp only [World.alloc]; omega⟩
      | exn x w3 =>
        simp only [e2] at h hr
        obtain ⟨h1, h2, _⟩ := copyReplay_frame hw ho2 hr
        rcases h with h | ⟨e, h⟩ <;> cases h
        exact ⟨h1, by omega⟩
      | ub u => simp only [e2] at h; rcases h with h | ⟨e, h⟩ <;> cases h
      | hang => simp only [e2] at h; rcases h with h | ⟨e, h⟩ <;> cases h
    | exn x =>
      simp only [e] at h
      rcases h with h | ⟨e, h⟩ <;> cases h
      exact ⟨hw, le_refl _⟩
    | ub u => simp only [e] at h; rcases h with h | ⟨e, h⟩ <;> cases h
    | hang => simp only [e] at h; rcases h with h | ⟨e, h⟩ <;> cases h

/-- a statement on another model changes nothing in model `o`; pickling changes nothing in any model -/
theorem HOp.run_frame {op : HOp K} (hw : w.WF) (ho : o < w.count) (hon : ∀ o', op.on = some o' → o' < w.count)
    (hne : op.on ≠ some o ∨ ∃ o', op = .pickle o') (hnw : op.writes = none)
    (h : op.run parse w = .ok () w' ∨ ∃ e, op.run parse w = .exn e w') : Frame o w w' := by
  have rel : ∀ {y : Nat} {p : Prog (World K) Unit}, RelP y p → y < w.count → o ≠ y → (p w = .ok () w' ∨ ∃ e, p w = .exn e w') →
      Frame o w w' := by
    intro y p hp hy hne h
    have := hp w
    rcases h with h | ⟨e, h⟩ <;> rw [h] at this <;> exact this.frame hw hy hne
  cases op with
  | setQ o2 ids q bt =>
    rcases hne with hne | ⟨_, h'⟩
    · exact rel (RelP.setQ _ _) (hon _ rfl) (by rintro rfl; exact hne rfl) h
    · cases h'
  | addNewLink o2 n p pos rpy =>
    rcases hne with hne | ⟨_, h'⟩
    · exact rel (RelP.add _ _) (hon _ rfl) (by rintro rfl; exact hne rfl) h
    · cases h'
  | call o2 c hc =>
    rcases hne with hne | ⟨_, h'⟩
    · exact rel (RelP.call _ _) (hon _ rfl) (by rintro rfl; exact hne rfl) h
    · cases h'
  | writeIds r v => cases hnw
  | writeArr r v => cases hnw
  | writeVec r v => cases hnw
  | new xml =>
    simp only [HOp.run, Prog.bind, hNew] at h
    cases e : pyInit parse xml with
    | ok s =>
      simp only [e] at h
      rcases h with h | ⟨e, h⟩ <;> cases h
      exact alloc_frame _ _ _ ho
    | exn x =>
      simp only [e] at h
      rcases h with h | ⟨e, h⟩ <;> cases h
      exact Frame.refl _ _
    | ub u => simp only [e] at h; rcases h with h | ⟨e, h⟩ <;> cases h
    | hang => simp only [e] at h; rcases h with h | ⟨e, h⟩ <;> cases h
  | pickle o2 =>
    simp only [HOp.run, Prog.bind, hPickle] at h
    cases e : pySetState parse (pyGetState (w.view o2)) with
    | ok s =>
      simp only [e] at h
      rcases h with h | ⟨e, h⟩ <;> cases h
      exact alloc_frame _ _ _ ho
    | exn x =>
      simp only [e] at h
      rcases h with h | ⟨e, h⟩ <;> cases h
      exact Frame.refl _ _
    | ub u => simp only [e] at h; rcases h with h | ⟨e, h⟩ <;> cases h
    | hang => simp only [e] at h; rcases h with h | ⟨e, h⟩ <;> cases h
  | copy o2 =>
    have hne2 : o ≠ o2 := by
      rcases hne with hne | ⟨_, h'⟩
      · rintro rfl; exact hne rfl
      · cases h'
    simp only [HOp.run, Prog.bind, hCopy_eq] at h
    have ho2 := hon o2 rfl
    cases e : constructXml parse (w.objs o2).xml with
    | ok r =>
      simp only [e] at h
      have hr := copyReplay_rel w.count { w with objs := upd w.objs w.count { w.objs o2 with robot := r } }
      cases e2 : copyReplay w.count { w with objs := upd w.objs w.count { w.objs o2 with robot := r } } with
      | ok u w3 =>
        simp only [e2] at h hr
        obtain ⟨h1, h2, h3, h4, h5, h6, h7⟩ := copyReplay_frame hw ho2 hr
        have hf : Frame o w w3 := ⟨h3, h4, h5, h6 o ho, (h7 o hne2).1, (h7 o hne2).2⟩
        rcases h with h | ⟨e, h⟩ <;> cases h
        have hg := alloc_frame w3 (w3.objs w.count).xml (w3.objs w.count).robot (o := o) (by omega)
        exact ⟨hg.ids.trans hf.ids, hg.arr.trans hf.arr, hg.vec.trans hf.vec, hg.obj.trans hf.obj, hg.adds.trans hf.adds,
          hg.sets.trans hf.sets⟩
      | exn x w3 =>
        simp only [e2] at h hr
        obtain ⟨h1, h2, h3, h4, h5, h6, h7⟩ := copyReplay_frame hw ho2 hr
        rcases h with h | ⟨e, h⟩ <;> cases h
        exact ⟨h3, h4, h5, h6 o ho, (h7 o hne2).1, (h7 o hne2).2⟩
      | ub u => simp only [e2] at h; rcases h with h | ⟨e, h⟩ <;> cases h
      | hang => simp only [e2] at h; rcases h with h | ⟨e, h⟩ <;> cases h
    | exn x =>
      simp only [e] at h
      rcases h with h | ⟨e, h⟩ <;> cases h
      exact Frame.refl _ _
    | ub u => simp only [e] at h; rcases h with h | ⟨e, h⟩ <;> cases h
    | hang => simp only [e] at h; rcases h with h | ⟨e, h⟩ <;> cases h

theorem AddRef.get_congr (h : w'.vec = w.vec) : (AddRef.get w' : AddRef K → AddArgs K) = AddRef.get w := by
  funext a; simp only [AddRef.get, h]

theorem SetRef.get_congr (h : w'.ids = w.ids) (h' : w'.arr = w.arr) : (SetRef.get w' : SetRef K → SetArgs K) = SetRef.get w := by
  funext a; simp only [SetRef.get, h, h']

theorem Frame.view (h : Frame o w w') (ha : (w.objs o).adds = o) (hs : (w.objs o).sets = o) : w'.view o = w.view o := by
  simp only [World.view, h.obj, ha, hs, h.adds, h.sets, AddRef.get_congr h.vec, SetRef.get_congr h.ids h.arr]

/-- `set_q` with references is `set_q` on the present values -/
theorem hSetQ_view {a : SetRef K} (h : hSetQ o a w = .ok () w') :
    pySetQ (a.get w).ids (a.get w).q a.base (w.view o) = .ok () (w'.view o) ∧
      w'.sets = upd w.sets (w.objs o).sets (w.sets (w.objs o).sets ++ [a]) ∧ w'.adds = w.adds := by
  simp only [hSetQ, Prog.bind_apply, Prog.modify, Prog.get, hCall] at h
  split at h
  · cases h
    rename_i e
    rename_i s
    obtain ⟨θ, h1, h2, rfl⟩ := pySetQ_eq e
    simp only [World.view, SetRef.get] at h1 h2 e ⊢
    refine ⟨?_, trivial, trivial⟩
    rw [pySetQ_ok h1 h2]
    simp only [upd_same, List.map_append, List.map_cons, List.map_nil]
    rfl
  all_goals cases h

/-- `add_new_link` with references is `add_new_link` on the present values -/
theorem hAddNewLink_view {a : AddRef K} (h : hAddNewLink o a w = .ok () w') :
    pyAddNewLink (a.get w) (w.view o) = .ok () (w'.view o) ∧
      w'.adds = upd w.adds (w.objs o).adds (w.adds (w.objs o).adds ++ [a]) ∧ w'.sets = w.sets := by
  simp only [hAddNewLink, Prog.bind_apply, Prog.modify, Prog.get, hCall] at h
  split at h
  · cases h
    rename_i e
    rename_i s
    obtain ⟨h1, h2, h3, h4, h5, h6, h7⟩ := pyAddNewLink_eq e
    have := h7 (w.objs o).xml ((w.adds (w.objs o).adds).map (AddRef.get w)) ((w.sets (w.objs o).sets).map (SetRef.get w))
      (w.objs o).robot.angles (w.objs o).robot.base
    have e2 : s.robot.posed (w.objs o).robot.angles (w.objs o).robot.base = s.robot := by
      simp only [World.view] at h4 h5
      rw [← h4, ← h5]; rfl
    rw [e2] at this
    refine ⟨?_, rfl, rfl⟩
    refine this.trans ?_
    simp only [World.view, upd_same, List.map_append, List.map_cons, List.map_nil]
    rfl
  all_goals cases h

end Tinyfk
