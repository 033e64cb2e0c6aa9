import Verif.Proofs.PyHeap
import Verif.Props.Cache

/-!
# Replaying a history twice
-/

set_option linter.unusedSectionVars false

namespace Tinyfk

open Scalar

variable {K : Type} [Scalar K] {parse : String → Option (ModelInterface K)} {w w' : World K} {o : Nat}

/-! ### `add_new_link` -/

theorem addNewLink_linkIds {m m' : KinModel K} {name : String} {parent l : Nat} {p : Pose K}
    (h : addNewLink name parent p m = .ok l m') : ∃ k, m'.linkIds = m.linkIds.set name k := by
  cases hn : m.linkIds.find name with
  | some x => rw [addNewLink_dup hn] at h; cases h
  | none =>
    simp only [addNewLink, hn] at h
    split at h
    · simp only [Prog.bind] at h
      split at h
      · rename_i e
        cases h
        unfold updateRptable at e
        split at e <;> cases e
        exact ⟨_, rfl⟩
      all_goals cases h
    · cases h

theorem pyAddNewLink_linkIds {s s' : PyModel K} {a : AddArgs K} (h : pyAddNewLink a s = .ok () s') :
    ∃ k, s'.robot.linkIds = s.robot.linkIds.set a.name k := by
  simp only [pyAddNewLink, Prog.bind_apply, Prog.modify, onRobot, wAddNewLink, addNewLinkRPY] at h
  generalize e : addNewLink a.name a.parent _ s.robot = x at h
  cases x with
  | ok l m => cases h; exact addNewLink_linkIds e
  | exn x m => cases h
  | ub u => cases h
  | hang => cases h

/-- the names added in a loop exist afterwards, and no name is lost -/
theorem forEach_adds_names {L : List (AddArgs K)} {s s' : PyModel K}
    (h : Prog.forEach L (fun a _ => pyAddNewLink a) () s = .ok () s') :
    (∀ n, (s.robot.linkIds.find n).isSome → (s'.robot.linkIds.find n).isSome) ∧
      ∀ a ∈ L, (s'.robot.linkIds.find a.name).isSome := by
  induction L generalizing s with
  | nil => cases h; exact ⟨fun n hn => hn, fun a m => by cases m⟩
  | cons a L ih =>
    simp only [Prog.forEach, Prog.bind] at h
    cases e : pyAddNewLink a s with
    | ok u s1 =>
      rw [e] at h
      obtain ⟨h1, h2⟩ := ih h
      obtain ⟨k, hk⟩ := pyAddNewLink_linkIds e
      refine ⟨fun n hn => h1 n ?_, ?_⟩
      · rw [hk, NameMap.find_set]; split
        · rfl
        · exact hn
      · intro b m
        rcases List.mem_cons.1 m with rfl | m
        · exact h1 _ (by rw [hk, NameMap.find_set]; simp)
        · exact h2 b m
    | exn x s1 => rw [e] at h; cases h
    | ub u => rw [e] at h; cases h
    | hang => rw [e] at h; cases h

theorem pyAddNewLink_dup {s : PyModel K} {a : AddArgs K} (h : (s.robot.linkIds.find a.name).isSome) :
    ∃ e, pyAddNewLink a s = .exn e { s with addHist := s.addHist ++ [a] } := by
  obtain ⟨l, hl⟩ := Option.isSome_iff_exists.1 h
  refine ⟨.invalidArgument ("link name : " ++ a.name ++ " already exists"), ?_⟩
  simp only [pyAddNewLink, Prog.bind_apply, Prog.modify, onRobot, wAddNewLink, addNewLinkRPY]
  rw [addNewLink_dup hl]

/-! ### `set_q` -/

/-- all joint ids of a list of configurations -/
def setIds (L : List (SetArgs K)) : List Nat := L.flatMap fun e => e.ids
/-- all joint values of a list of configurations -/
def setVals (L : List (SetArgs K)) : List K := L.flatMap fun e => e.q.take e.ids.length
/-- the base after a list of configurations -/
def setBase (L : List (SetArgs K)) (p : Pose K) : Pose K := L.foldl (fun p e => (basePart e.ids.length e.base e.q).getD p) p

theorem writeAngles_append (i1 i2 : List Nat) (v1 v2 a : List K) (h : v1.length = i1.length) :
    writeAngles (i1 ++ i2) (v1 ++ v2) a = (writeAngles i1 v1 a).bind (writeAngles i2 v2) := by
  induction i1 generalizing v1 a with
  | nil => cases v1 with
    | nil => rfl
    | cons v v1 => simp at h
  | cons i i1 ih =>
    cases v1 with
    | nil => simp at h
    | cons v v1 =>
      simp only [List.cons_append, writeAngles]
      split
      · exact ih v1 _ (by simpa using h)
      · rfl

theorem reset_posed (m : KinModel K) (θ : List K) (p : Pose K) (h : m.cache.clear = m.cache) : m.reset θ p = m.posed θ p := by
  simp only [KinModel.reset, KinModel.posed, h]

/-- a loop of `set_q` calls -/
theorem forEach_sets {L : List (SetArgs K)} {x : String} {m : KinModel K} {A : List (AddArgs K)} {H : List (SetArgs K)} {θ : List K}
    (hc : m.cache.clear = m.cache) (hq : ∀ e ∈ L, e.q.length = e.ids.length + e.base.dof)
    (hw : writeAngles (setIds L) (setVals L) m.angles = .ok θ) :
    Prog.forEach L (fun a _ => pySetQ a.ids a.q a.base) () ⟨x, m, A, H⟩ = .ok () ⟨x, m.posed θ (setBase L m.base), A, H ++ L⟩ := by
  induction L generalizing m H with
  | nil =>
    simp only [setIds, setVals, List.flatMap_nil, writeAngles, Outcome.ok.injEq] at hw
    subst hw
    simp [Prog.forEach, setBase, KinModel.posed]
  | cons e L ih =>
    have he := hq e (by simp)
    rw [setIds, setVals, List.flatMap_cons, List.flatMap_cons, writeAngles_append _ _ _ _ _ (by simp; omega)] at hw
    simp only [Prog.forEach, Prog.bind]
    cases h1 : writeAngles e.ids (e.q.take e.ids.length) m.angles with
    | ok θ1 =>
      rw [h1] at hw
      rw [pySetQ_ok h1 he]
      simp only [reset_posed _ _ _ hc]
      have := ih (m := m.posed θ1 ((basePart e.ids.length e.base e.q).getD m.base)) (H := H ++ [e]) hc
        (fun e' m => hq e' (by simp [m])) hw
      rw [this]
      simp [setBase, KinModel.posed]
    | exn x => rw [h1] at hw; cases hw
    | ub u => rw [h1] at hw; cases hw
    | hang => rw [h1] at hw; cases hw

/-- ... and what it tells about the calls -/
theorem forEach_sets_inv {L : List (SetArgs K)} {x : String} {m : KinModel K} {A : List (AddArgs K)} {H : List (SetArgs K)}
    {s' : PyModel K} (hc : m.cache.clear = m.cache)
    (h : Prog.forEach L (fun a _ => pySetQ a.ids a.q a.base) () ⟨x, m, A, H⟩ = .ok () s') :
    (∀ e ∈ L, e.q.length = e.ids.length + e.base.dof) ∧ writeAngles (setIds L) (setVals L) m.angles = .ok s'.robot.angles ∧
      s'.robot.base = setBase L m.base := by
  induction L generalizing m H with
  | nil => cases h; exact ⟨by simp, rfl, rfl⟩
  | cons e L ih =>
    simp only [Prog.forEach, Prog.bind] at h
    cases e1 : pySetQ e.ids e.q e.base ⟨x, m, A, H⟩ with
    | ok u s1 =>
      rw [e1] at h
      obtain ⟨θ, h1, h2, rfl⟩ := pySetQ_eq e1
      simp only [reset_posed _ _ _ hc] at h
      obtain ⟨h3, h4, h5⟩ := ih (m := m.posed θ ((basePart e.ids.length e.base e.q).getD m.base)) hc h
      refine ⟨?_, ?_, ?_⟩
      · intro e' m
        rcases List.mem_cons.1 m with rfl | m
        · exact h2
        · exact h3 e' m
      · rw [setIds, setVals, List.flatMap_cons, List.flatMap_cons, writeAngles_append _ _ _ _ _ (by simp; omega), h1]
        exact h4
      · rw [h5]; rfl
    | exn x s1 => rw [e1] at h; cases h
    | ub u => rw [e1] at h; cases h
    | hang => rw [e1] at h; cases h

/-- writing the same values again changes nothing -/
theorem writeAngles_twice {ids : List Nat} {v a a' : List K} (h : writeAngles ids v a = .ok a') : writeAngles ids v a' = .ok a' := by
  obtain ⟨h1, h2⟩ := writeAngles_valid h
  have hl := writeAngles_length h
  refine writeAngles_same (fun i m => by rw [hl]; exact h1 i m) h2 ?_
  intro i v' e
  have hi : i < a.length := by
    by_cases m : i ∈ ids
    · exact h1 i m
    · rw [lastWrite_eq_none m] at e; cases e
  rw [writeAngles_get h i hi, e]
  rfl

theorem setBase_const (L : List (SetArgs K)) (p : Pose K) : (∀ p', setBase L p' = setBase L p) ∨ (∀ p', setBase L p' = p') := by
  induction L generalizing p with
  | nil => exact .inr fun _ => rfl
  | cons e L ih =>
    simp only [setBase, List.foldl_cons]
    cases hb : basePart e.ids.length e.base e.q with
    | none => simpa [setBase] using ih p
    | some b => exact .inl fun _ => by simp

theorem setBase_twice (L : List (SetArgs K)) (p : Pose K) : setBase L (setBase L p) = setBase L p := by
  rcases setBase_const L p with h | h
  · exact h _
  · exact h _

theorem setIds_append (L L' : List (SetArgs K)) : setIds (L ++ L') = setIds L ++ setIds L' := by simp [setIds]
theorem setVals_append (L L' : List (SetArgs K)) : setVals (L ++ L') = setVals L ++ setVals L' := by simp [setVals]
theorem setBase_append (L L' : List (SetArgs K)) (p : Pose K) : setBase (L ++ L') p = setBase L' (setBase L p) := by
  simp [setBase]

theorem setVals_length {L : List (SetArgs K)} (hq : ∀ e ∈ L, e.q.length = e.ids.length + e.base.dof) :
    (setVals L).length = (setIds L).length := by
  induction L with
  | nil => rfl
  | cons e L ih =>
    have := hq e (by simp)
    have h2 := ih fun e' m => hq e' (by simp [m])
    simp only [setVals, setIds, List.flatMap_cons, List.length_append, List.length_take] at h2 ⊢
    omega

/-! ### The replay in `copy.copy` -/

theorem hSetQ_ok {a : SetRef K} {s : PyModel K} (h : pySetQ (a.get w).ids (a.get w).q a.base (w.view o) = .ok () s) :
    ∃ w', hSetQ o a w = .ok () w' ∧ w'.view o = s := by
  obtain ⟨θ, h1, h2, rfl⟩ := pySetQ_eq h
  simp only [World.view, SetRef.get] at h1 h2
  simp only [hSetQ, Prog.bind_apply, Prog.modify, Prog.get, hCall]
  rw [pySetQ_ok (by exact h1) (by exact h2)]
  refine ⟨_, rfl, ?_⟩
  simp only [World.view, upd_same, List.map_append, List.map_cons, List.map_nil]
  rfl

theorem hAddNewLink_ok {a : AddRef K} {s : PyModel K} (h : pyAddNewLink (a.get w) (w.view o) = .ok () s) :
    ∃ w', hAddNewLink o a w = .ok () w' ∧ w'.view o = s := by
  obtain ⟨h1, h2, h3, h4, h5, h6, h7⟩ := pyAddNewLink_eq h
  simp only [World.view] at h4 h5
  have e2 : s.robot.posed (w.objs o).robot.angles (w.objs o).robot.base = s.robot := by rw [← h4, ← h5]; rfl
  simp only [hAddNewLink, Prog.bind_apply, Prog.modify, Prog.get, hCall]
  have := h7 (w.objs o).xml (((w.adds (w.objs o).adds) ++ [a]).map (AddRef.get w)) ((w.sets (w.objs o).sets).map (SetRef.get w))
      (w.objs o).robot.angles (w.objs o).robot.base
  rw [e2] at this
  have hv : (World.view ({ w with adds := upd w.adds (w.objs o).adds (w.adds (w.objs o).adds ++ [a]) } : World K) o) =
      ⟨(w.objs o).xml, (w.objs o).robot.posed (w.objs o).robot.angles (w.objs o).robot.base,
        ((w.adds (w.objs o).adds) ++ [a]).map (AddRef.get w), (w.sets (w.objs o).sets).map (SetRef.get w)⟩ := by
    simp only [World.view, upd_same]
    rfl
  have hg : AddRef.get ({ w with adds := upd w.adds (w.objs o).adds (w.adds (w.objs o).adds ++ [a]) } : World K) a = a.get w := rfl
  rw [hv, hg]
  simp only [World.view] at this
  rw [this]
  refine ⟨_, rfl, ?_⟩
  cases s
  simp only [World.view] at h1 h2 h3 ⊢
  subst h1 h2 h3
  simp only [upd_same, List.map_append, List.map_cons, List.map_nil, PyModel.mk.injEq, true_and]
  exact ⟨rfl, rfl⟩

theorem AddRef.get_deepcopy (a : AddRef K) (w w' : World K) : (a.deepcopy w).get w' = a.get w := by
  cases a with
  | mk n p pos rpy => cases rpy <;> rfl

theorem SetRef.get_deepcopy (a : SetRef K) (w w' : World K) : (a.deepcopy w).get w' = a.get w := rfl

theorem forEach_hAdd {y : Nat} (W : World K) (L : List (AddRef K)) {s : PyModel K}
    (h : Prog.forEach (L.map (AddRef.get W)) (fun a _ => pyAddNewLink a) () (w.view y) = .ok () s) :
    ∃ w', Prog.forEach (L.map (AddRef.deepcopy W)) (fun a _ => hAddNewLink y a) () w = .ok () w' ∧ w'.view y = s := by
  induction L generalizing w with
  | nil => cases h; exact ⟨w, rfl, rfl⟩
  | cons a L ih =>
    simp only [List.map_cons, Prog.forEach, Prog.bind] at h ⊢
    cases e : pyAddNewLink (a.get W) (w.view y) with
    | ok u s1 =>
      rw [e] at h
      obtain ⟨w1, e1, e2⟩ := hAddNewLink_ok (a := a.deepcopy W) (w := w) (by rw [AddRef.get_deepcopy]; exact e)
      rw [e1]
      exact ih (by rw [e2]; exact h)
    | exn x s1 => rw [e] at h; cases h
    | ub u => rw [e] at h; cases h
    | hang => rw [e] at h; cases h

theorem forEach_hSet {y : Nat} (W : World K) (L : List (SetRef K)) {s : PyModel K}
    (h : Prog.forEach (L.map (SetRef.get W)) (fun a _ => pySetQ a.ids a.q a.base) () (w.view y) = .ok () s) :
    ∃ w', Prog.forEach (L.map (SetRef.deepcopy W)) (fun a _ => hSetQ y a) () w = .ok () w' ∧ w'.view y = s := by
  induction L generalizing w with
  | nil => cases h; exact ⟨w, rfl, rfl⟩
  | cons a L ih =>
    simp only [List.map_cons, Prog.forEach, Prog.bind] at h ⊢
    cases e : pySetQ (a.get W).ids (a.get W).q (a.get W).base (w.view y) with
    | ok u s1 =>
      rw [e] at h
      obtain ⟨w1, e1, e2⟩ := hSetQ_ok (a := a.deepcopy W) (w := w) (by rw [SetRef.get_deepcopy]; exact e)
      rw [e1]
      exact ih (by rw [e2]; exact h)
    | exn x s1 => rw [e] at h; cases h
    | ub u => rw [e] at h; cases h
    | hang => rw [e] at h; cases h

/-- the replay on the copy is the replay of `__setstate__` -/
theorem copyReplay_ok {y : Nat} {s : PyModel K}
    (h : pyReplay (w.view y).addHist (w.view y).setHist (w.view y) = .ok () s) :
    ∃ w', copyReplay y w = .ok () w' ∧ w'.view y = s := by
  simp only [pyReplay, Prog.bind_apply] at h
  simp only [copyReplay, Prog.bind_apply, Prog.get]
  cases e : Prog.forEach (w.view y).addHist (fun a _ => pyAddNewLink a) () (w.view y) with
  | ok u s1 =>
    rw [e] at h
    obtain ⟨w1, e1, e2⟩ := forEach_hAdd (w := w) (y := y) w (w.adds (w.objs y).adds) e
    rw [e1]
    -- the history of `set_q` is as before
    have hs : (w1.sets (w1.objs y).sets).map (SetRef.get w1) = (w.sets (w.objs y).sets).map (SetRef.get w) := by
      have : (w1.view y).setHist = (w.view y).setHist := by
        rw [e2]
        clear h e1 e2
        generalize (w.view y).addHist = L at e
        generalize w.view y = s0 at e
        induction L generalizing s0 with
        | nil => cases e; rfl
        | cons a L ih =>
          simp only [Prog.forEach, Prog.bind] at e
          cases e3 : pyAddNewLink a s0 with
          | ok u s2 => rw [e3] at e; rw [ih _ e]; exact (pyAddNewLink_eq e3).2.2.1
          | exn x s2 => rw [e3] at e; cases e
          | ub u => rw [e3] at e; cases e
          | hang => rw [e3] at e; cases e
      exact this
    obtain ⟨w2, e3, e4⟩ := forEach_hSet (w := w1) (y := y) w1 (w1.sets (w1.objs y).sets) (s := s) (by
      rw [hs, e2]; exact h)
    exact ⟨w2, e3, e4⟩
  | exn x s1 => rw [e] at h; cases h
  | ub u => rw [e] at h; cases h
  | hang => rw [e] at h; cases h

theorem forEach_hAdd_exn {y : Nat} (W : World K) (L : List (AddRef K)) {s : PyModel K} {x : Exn}
    (h : Prog.forEach (L.map (AddRef.get W)) (fun a _ => pyAddNewLink a) () (w.view y) = .exn x s) :
    ∃ w', Prog.forEach (L.map (AddRef.deepcopy W)) (fun a _ => hAddNewLink y a) () w = .exn x w' := by
  induction L generalizing w with
  | nil => cases h
  | cons a L ih =>
    simp only [List.map_cons, Prog.forEach, Prog.bind] at h ⊢
    cases e : pyAddNewLink (a.get W) (w.view y) with
    | ok u s1 =>
      rw [e] at h
      obtain ⟨w1, e1, e2⟩ := hAddNewLink_ok (a := a.deepcopy W) (w := w) (by rw [AddRef.get_deepcopy]; exact e)
      rw [e1]
      exact ih (by rw [e2]; exact h)
    | exn x' s1 =>
      rw [e] at h
      cases h
      -- raising does not depend on the histories
      have hx : ∀ t : PyModel K, t.robot = (w.view y).robot → ∃ t', pyAddNewLink (a.get W) t = .exn x t' := by
        intro t ht
        simp only [pyAddNewLink, Prog.bind_apply, Prog.modify, onRobot] at e ⊢
        rw [ht]
        generalize wAddNewLink (K := K) _ _ _ _ (w.view y).robot = z at e ⊢
        cases z <;> simp_all
      obtain ⟨t', ht'⟩ := hx (World.view ({ w with adds := upd w.adds (w.objs y).adds (w.adds (w.objs y).adds ++
        [a.deepcopy W]) } : World K) y) rfl
      simp only [hAddNewLink, Prog.bind_apply, Prog.modify, Prog.get, hCall, AddRef.get_deepcopy, ht']
      exact ⟨_, rfl⟩
    | ub u => rw [e] at h; cases h
    | hang => rw [e] at h; cases h

theorem copyReplay_exn {y : Nat}
    (h : ∃ e s, Prog.forEach (w.view y).addHist (fun a _ => pyAddNewLink a) () (w.view y) = .exn e s) :
    ∃ e w', copyReplay y w = .exn e w' := by
  obtain ⟨e, s, h⟩ := h
  obtain ⟨w', e1⟩ := forEach_hAdd_exn w (w.adds (w.objs y).adds) h
  refine ⟨e, w', ?_⟩
  simp only [copyReplay, Prog.bind_apply, Prog.get, e1]

/-- `copy.copy` of a model whose history is replayed to what it is -/
theorem hCopy_ok {m0 : KinModel K} (hw : w.WF) (ho : o < w.count) (hx : constructXml parse (w.objs o).xml = .ok m0)
    (hr : Replayed m0 (w.view o)) :
    ∃ w', hCopy parse o w = .ok w.count w' ∧ (w'.objs w.count).robot = (w.objs o).robot ∧ w'.WF ∧ o < w'.count ∧
      w'.view o = ⟨(w.objs o).xml, (w.objs o).robot, (w.view o).addHist ++ (w.view o).addHist,
        (w.view o).setHist ++ (w.view o).setHist⟩ := by
  rw [hCopy_eq, hx]
  have hvy : World.view ({ w with objs := upd w.objs w.count { w.objs o with robot := m0 } } : World K) w.count =
      ⟨(w.objs o).xml, m0, (w.view o).addHist, (w.view o).setHist⟩ := by
    simp only [World.view, upd_same]
    rfl
  obtain ⟨w3, e1, e2⟩ := copyReplay_ok (w := ({ w with objs := upd w.objs w.count { w.objs o with robot := m0 } } : World K))
    (y := w.count) (s := ⟨(w.objs o).xml, (w.objs o).robot, (w.view o).addHist ++ (w.view o).addHist,
        (w.view o).setHist ++ (w.view o).setHist⟩) (by
      rw [hvy]
      simp only [pyReplay, Prog.bind_apply]
      rw [hr.adds]
      simp only []
      rw [hr.sets _ _ _ _ (show ((w.view o).robot.posed m0.angles m0.base).cache.clear = _ from hr.cache) rfl rfl]
      rfl)
  have hrel := copyReplay_rel w.count ({ w with objs := upd w.objs w.count { w.objs o with robot := m0 } } : World K)
  rw [e1] at hrel
  simp only [e1]
  obtain ⟨h1, h2, h3, h4, h5, h6, h7⟩ := copyReplay_frame hw ho hrel
  have hra : (w3.objs w.count).adds = o := by rw [hrel.ra]; simpa using (hw o ho).1
  have hrs : (w3.objs w.count).sets = o := by rw [hrel.rs]; simpa using (hw o ho).2
  have hf := alloc_frame w3 (w3.objs w.count).xml (w3.objs w.count).robot (o := o) (by omega)
  refine ⟨_, rfl, ?_, alloc_wf _ _ _ h1, by simp only [World.alloc]; omega, ?_⟩
  · simp only [World.alloc, h2, upd_same]
    exact congrArg PyModel.robot e2
  · rw [hf.view (by rw [h6 o ho]; exact (hw o ho).1) (by rw [h6 o ho]; exact (hw o ho).2)]
    simp only [World.view] at e2
    rw [hra, hrs] at e2
    simp only [World.view]
    rw [h6 o ho, (hw o ho).1, (hw o ho).2]
    rw [(hw o ho).1, (hw o ho).2] at e2
    have ea := congrArg PyModel.addHist e2
    have es := congrArg PyModel.setHist e2
    simp only at ea es
    rw [ea, es]

end Tinyfk
