import Verif.Props.PyHeap

/-!
# C88: one array for all configurations

A program that keeps one array, changes it in place and passes it to `set_q` again and again, breaks the condition of
`C88_untouched_partial`. Pickling is still right if all these calls name the same joints and the array of the last call was
not changed since.
-/

set_option linter.unusedSectionVars false

namespace Tinyfk

open Scalar

section
variable {K : Type} [Scalar K] {parse : String → Option (ModelInterface K)} {w w' w0 w1 w2 : World K} {o : Nat}
  {ops pre post : List (HOp K)} {xml : String}

theorem UntouchedButQ.prefix (h : UntouchedButQ o (pre ++ post)) : UntouchedButQ o pre := by
  intro p op q e r hr
  refine h p op (q ++ post) (by rw [e]; simp) r hr

/-- a history entry and the values it had when the call was made -/
def Then (w : World K) (a : SetRef K) (s : SetArgs K) : Prop :=
  (a.get w).ids = s.ids ∧ a.base = s.base ∧ (a.get w).q.length = s.q.length

/-- what is known of model `o` along such a program -/
structure LooseLife (o i : Nat) (bt : BaseType) (s0 : PyModel K) (ops : List (HOp K)) (w : World K) : Prop where
  wf : w.WF
  lt : o < w.count
  recd : ∃ h S, Recorded s0 h ⟨(w.view o).xml, (w.view o).robot, (w.view o).addHist, S⟩ ∧ List.Forall₂ (Then w) (w.sets o) S ∧
    ∀ q, LastKept o q ops → ∃ L a S0, w.sets o = L ++ [a] ∧ a.q = .ref q ∧ S = S0 ++ [a.get w]
  entries : ∀ a ∈ w.sets o, a.ids = .ref i ∧ a.base = bt ∧ .ids i ∈ ops.flatMap (HOp.passes o)
  adds : ∀ a ∈ w.adds o, ∀ r ∈ a.refs, r ∈ ops.flatMap (HOp.passes o)

theorem LastKept.snoc {q : Nat} {op : HOp K} (h : LastKept o q (ops ++ [op])) (hs : ¬op.Sets o) :
    LastKept o q ops ∧ op.writes ≠ some (.arr q) := by
  obtain ⟨a, ids, bt, b, e, hb⟩ := h
  rcases List.eq_nil_or_concat b with rfl | ⟨b', x, rfl⟩
  · have := List.append_inj' (show ops ++ [op] = a ++ [HOp.setQ o ids q bt] from e) rfl
    have e2 := (List.cons.inj this.2).1
    subst e2
    exact absurd rfl hs
  · have e' : ops ++ [op] = (a ++ HOp.setQ o ids q bt :: b') ++ [x] := by rw [e]; simp
    have := List.append_inj' e' rfl
    have e2 := (List.cons.inj this.2).1
    subst e2
    exact ⟨⟨a, ids, bt, b', this.1, fun y m => hb y (by simp [m])⟩, (hb op (by simp)).2⟩

theorem LastKept.set {q i r : Nat} {bt : BaseType} (h : LastKept o q (ops ++ [.setQ o i r bt])) : q = r := by
  obtain ⟨a, ids, bt', b, e, hb⟩ := h
  rcases List.eq_nil_or_concat b with rfl | ⟨b', x, rfl⟩
  · have := List.append_inj' (show ops ++ [HOp.setQ o i r bt] = a ++ [HOp.setQ o ids q bt'] from e) rfl
    have e2 := (List.cons.inj this.2).1
    cases e2
    rfl
  · have e' : ops ++ [HOp.setQ o i r bt] = (a ++ HOp.setQ o ids q bt' :: b') ++ [x] := by rw [e]; simp
    have := List.append_inj' e' rfl
    have e2 := (List.cons.inj this.2).1
    exact absurd rfl (e2 ▸ (hb x (by simp)).1)

/-- a write that does not touch joint lists and positions that were passed -/
theorem LooseLife.write {i : Nat} {bt : BaseType} {s0 : PyModel K} {op : HOp K} {r : Ref} (h : LooseLife o i bt s0 ops w1)
    (hwr : op.writes = some r) (hr : (∃ n, r = .arr n) ∨ r ∉ ops.flatMap (HOp.passes o))
    (hrun : op.run parse w1 = .ok () w2 ∨ ∃ e, op.run parse w1 = .exn e w2) : LooseLife o i bt s0 (ops ++ [op]) w2 := by
  obtain ⟨H, S, hrec, hS, hlast⟩ := h.recd
  have hA := (h.wf o h.lt).1
  have hns : ¬op.Sets o := by cases op <;> first | exact id | cases hwr
  have hobj : w2.objs = w1.objs ∧ w2.sets = w1.sets ∧ w2.adds = w1.adds ∧ w2.count = w1.count := by
    cases op with
    | writeIds n v => rcases hrun with h | ⟨e, h⟩ <;> cases h; exact ⟨rfl, rfl, rfl, rfl⟩
    | writeVec n v => rcases hrun with h | ⟨e, h⟩ <;> cases h; exact ⟨rfl, rfl, rfl, rfl⟩
    | writeArr n v =>
      simp only [HOp.run] at hrun
      split at hrun <;> rcases hrun with h | ⟨e, h⟩ <;> cases h <;> exact ⟨rfl, rfl, rfl, rfl⟩
    | _ => cases hwr
  obtain ⟨o1, o2, o3, o4⟩ := hobj
  have hadd : (w2.view o).addHist = (w1.view o).addHist := by
    simp only [World.view, o1, o3, hA]
    refine List.map_congr_left fun a m => ?_
    cases op with
    | writeIds n v => rcases hrun with h | ⟨e, h⟩ <;> cases h; rfl
    | writeVec n v =>
      rcases hrun with h' | ⟨e, h'⟩ <;> cases h'
      cases hwr
      have hn : Ref.vec n ∉ a.refs := fun mr => by
        rcases hr with ⟨_, hr⟩ | hr
        · cases hr
        · exact hr (h.adds a m _ mr)
      simp only [AddRef.refs, List.mem_append, not_or] at hn
      simp only [AddRef.get, HArg.get_upd hn.1, AddArgs.mk.injEq, true_and]
      cases hr2 : a.rpy with
      | none => rfl
      | some x =>
        have h2 := hn.2
        simp only [hr2, Option.toList_some, List.flatMap_cons, List.flatMap_nil, List.append_nil] at h2
        simp only [Option.map_some, HArg.get_upd h2]
    | writeArr n v =>
      simp only [HOp.run] at hrun
      split at hrun <;> rcases hrun with h | ⟨e, h⟩ <;> cases h <;> rfl
    | _ => cases hwr
  have hids : ∀ a ∈ w1.sets o, (a.get w2).ids = (a.get w1).ids := by
    intro a m
    cases op with
    | writeIds n v =>
      rcases hrun with h' | ⟨e, h'⟩ <;> cases h'
      cases hwr
      obtain ⟨k1, k2, k3⟩ := h.entries a m
      have : i ≠ n := by
        rintro rfl
        rcases hr with ⟨_, hr⟩ | hr
        · cases hr
        · exact hr k3
      simp only [SetRef.get, k1, HArg.get, upd_ne _ _ this]
    | writeVec n v => rcases hrun with h | ⟨e, h⟩ <;> cases h; rfl
    | writeArr n v =>
      simp only [HOp.run] at hrun
      split at hrun <;> rcases hrun with h | ⟨e, h⟩ <;> cases h <;> rfl
    | _ => cases hwr
  have hq : ∀ a : SetRef K, (a.get w2).q.length = (a.get w1).q.length ∧
      (∀ n, a.q = .ref n → op.writes ≠ some (.arr n) → (a.get w2).q = (a.get w1).q) := by
    intro a
    cases op with
    | writeIds n v => rcases hrun with h | ⟨e, h⟩ <;> cases h; exact ⟨rfl, fun _ _ _ => rfl⟩
    | writeVec n v => rcases hrun with h | ⟨e, h⟩ <;> cases h; exact ⟨rfl, fun _ _ _ => rfl⟩
    | writeArr n v =>
      simp only [HOp.run] at hrun
      split at hrun
      · rename_i hv
        rcases hrun with h | ⟨e, h⟩ <;> cases h
        cases hwr
        simp only [SetRef.get]
        cases hq : a.q with
        | own x => exact ⟨rfl, fun _ _ _ => rfl⟩
        | ref k =>
          by_cases hk : k = n
          · subst hk
            simp only [HArg.get, upd_same]
            refine ⟨hv, fun m e hne => ?_⟩
            cases e
            exact absurd rfl hne
          · simp only [HArg.get, upd_ne _ _ hk]
            exact ⟨trivial, fun _ _ _ => trivial⟩
      · rcases hrun with h | ⟨e, h⟩ <;> cases h; exact ⟨rfl, fun _ _ _ => rfl⟩
    | _ => cases hwr
  refine ⟨?_, by rw [o4]; exact h.lt, ⟨H, S, ?_, ?_, ?_⟩, ?_, ?_⟩
  · intro j hj; rw [o1]; exact h.wf j (by rw [← o4]; exact hj)
  · rw [hadd]
    simpa [World.view, o1] using hrec
  · rw [o2]
    have : ∀ {L : List (SetRef K)} {S : List (SetArgs K)}, (∀ a ∈ L, a ∈ w1.sets o) → List.Forall₂ (Then w1) L S →
        List.Forall₂ (Then w2) L S := by
      intro L S hL hF
      induction hF with
      | nil => exact .nil
      | @cons a s L S ha _ ih =>
        refine .cons ⟨?_, ha.2.1, ?_⟩ (ih fun x m => hL x (by simp [m]))
        · rw [hids a (hL a (by simp))]; exact ha.1
        · rw [(hq a).1]; exact ha.2.2
    exact this (fun _ m => m) hS
  · intro q hk
    obtain ⟨hk1, hk2⟩ := hk.snoc hns
    obtain ⟨L, a, S0, e1, e2, e3⟩ := hlast q hk1
    refine ⟨L, a, S0, by rw [o2]; exact e1, e2, ?_⟩
    rw [e3]
    have k1 := hids a (by rw [e1]; simp)
    have k2 := (hq a).2 q e2 hk2
    simp only [List.append_cancel_left_eq, List.cons.injEq, and_true]
    simp only [SetRef.get] at k1 k2 ⊢
    rw [k1, k2]
  · intro a m
    rw [o2] at m
    obtain ⟨k1, k2, k3⟩ := h.entries a m
    exact ⟨k1, k2, by simp only [List.flatMap_append, List.mem_append]; exact .inl k3⟩
  · intro a m r' mr
    rw [o3] at m
    simp only [List.flatMap_append, List.mem_append]
    exact .inl (h.adds a m r' mr)

/-- a statement after which model `o` and the caller's objects are as before -/
theorem LooseLife.still {i : Nat} {bt : BaseType} {s0 : PyModel K} {op : HOp K} (h : LooseLife o i bt s0 ops w1) (hns : ¬op.Sets o)
    (hw2 : w2.WF) (hlt : o < w2.count) (hf : Frame o w1 w2) : LooseLife o i bt s0 (ops ++ [op]) w2 := by
  obtain ⟨H, S, hrec, hS, hlast⟩ := h.recd
  have hv := hf.view (h.wf o h.lt).1 (h.wf o h.lt).2
  have hg : (SetRef.get w2 : SetRef K → SetArgs K) = SetRef.get w1 := SetRef.get_congr hf.ids hf.arr
  refine ⟨hw2, hlt, ⟨H, S, by rw [hv]; exact hrec, ?_, ?_⟩, ?_, ?_⟩
  · rw [hf.sets]
    have : Then w2 = Then w1 := by funext a s; simp only [Then, hg]
    rw [this]
    exact hS
  · intro q hk
    obtain ⟨L, a, S0, e1, e2, e3⟩ := hlast q (hk.snoc hns).1
    exact ⟨L, a, S0, by rw [hf.sets]; exact e1, e2, by rw [hg]; exact e3⟩
  · intro a m
    rw [hf.sets] at m
    obtain ⟨k1, k2, k3⟩ := h.entries a m
    exact ⟨k1, k2, by simp only [List.flatMap_append, List.mem_append]; exact .inl k3⟩
  · intro a m r' mr
    rw [hf.adds] at m
    simp only [List.flatMap_append, List.mem_append]
    exact .inl (h.adds a m r' mr)

theorem Life.looseLife {i : Nat} {bt : BaseType} (hl : Life parse o w ops w') (hw : w.WF) (ho : o < w.count)
    (hu : UntouchedButQ o ops) (hs : ∀ x ∈ ops, x.Sets o → x.SetsTo o i bt) (h0 : w.adds o = []) (h0' : w.sets o = [])
    (hm : ∃ m0, Replayed m0 (w.view o)) : LooseLife o i bt (w.view o) ops w' := by
  have key : ∀ {w1 w2 : World K} {ops : List (HOp K)} {op : HOp K}, op.Gentle o →
      (op.run parse w1 = .ok () w2 ∨ (¬op.RecordedOn o ∧ ∃ e, op.run parse w1 = .exn e w2)) →
      (∀ o', op.on = some o' → o' < w1.count) → UntouchedButQ o (ops ++ [op]) →
      (∀ x ∈ ops ++ [op], x.Sets o → x.SetsTo o i bt) →
      LooseLife o i bt (w.view o) ops w1 → LooseLife o i bt (w.view o) (ops ++ [op]) w2 := by
    intro w1 w2 ops op hg hrun hon hu hs h
    have hrun' : op.run parse w1 = .ok () w2 ∨ ∃ e, op.run parse w1 = .exn e w2 := by
      rcases hrun with h | ⟨_, h⟩
      · exact .inl h
      · exact .inr h
    obtain ⟨hw2, hc2⟩ := HOp.run_wf h.wf hon hrun'
    have hA := (h.wf o h.lt).1
    have hS := (h.wf o h.lt).2
    cases hwr : op.writes with
    | some r => exact h.write hwr (hu ops op [] rfl r hwr) hrun'
    | none =>
      by_cases hoo : op.on = some o
      · obtain ⟨H, S, hrec, hF, hlast⟩ := h.recd
        cases op with
        | setQ o' i' q bt' =>
          cases hoo
          rcases hrun with hrun | ⟨hx, _⟩
          · obtain ⟨e1, e2, e3⟩ := hSetQ_view hrun
            have hrel := RelP.setQ o ⟨.ref i', .ref q, bt'⟩ w1
            simp only [HOp.run] at hrun
            rw [hrun] at hrel
            obtain ⟨θ, g1, g2, g3⟩ := pySetQ_eq e1
            have hget : (SetRef.get w2 : SetRef K → SetArgs K) = SetRef.get w1 := SetRef.get_congr hrel.ids hrel.arr
            have hset := hs (.setQ o i' q bt') (by simp) rfl
            obtain ⟨_, rfl, rfl⟩ := hset
            have hcall := pySetQ_ok (s := ⟨(w1.view o).xml, (w1.view o).robot, (w1.view o).addHist, S⟩) g1 g2
            have hrec' := hrec.append (.call (c := .setQ _ _ _) trivial hcall .nil)
            refine ⟨hw2, by have := h.lt; omega, ⟨H ++ [.setQ (w1.ids i') (w1.arr q) bt'], S ++ [⟨w1.ids i', w1.arr q, bt'⟩], ?_, ?_, ?_⟩, ?_, ?_⟩
            · rw [g3]; exact hrec'
            · rw [e2, hS, upd_same]
              have : Then w2 = Then w1 := by funext a s; simp only [Then, hget]
              rw [this]
              exact List.rel_append hF (.cons ⟨rfl, rfl, rfl⟩ .nil)
            · intro q' hk
              have := hk.set
              subst this
              refine ⟨_, _, S, by rw [e2, hS, upd_same], rfl, ?_⟩
              rw [hget]; rfl
            · intro a m
              rw [e2, hS, upd_same] at m
              simp only [List.flatMap_append, List.mem_append]
              rcases List.mem_append.1 m with m | m
              · obtain ⟨k1, k2, k3⟩ := h.entries a m
                exact ⟨k1, k2, .inl k3⟩
              · simp only [List.mem_singleton] at m
                subst m
                exact ⟨rfl, rfl, .inr (by simp [HOp.passes])⟩
            · intro a m r' mr
              rw [e3] at m
              simp only [List.flatMap_append, List.mem_append]
              exact .inl (h.adds a m r' mr)
          · exact absurd rfl hx
        | addNewLink o' n p pos rpy =>
          cases hoo
          rcases hrun with hrun | ⟨hx, _⟩
          · obtain ⟨e1, e2, e3⟩ := hAddNewLink_view hrun
            have hrel := RelP.add o ⟨n, p, .ref pos, rpy.map .ref⟩ w1
            simp only [HOp.run] at hrun
            rw [hrun] at hrel
            obtain ⟨h1, h2, h3, h4, h5, h6, h7⟩ := pyAddNewLink_eq e1
            have hg : (SetRef.get w2 : SetRef K → SetArgs K) = SetRef.get w1 := SetRef.get_congr hrel.ids hrel.arr
            have hcall := h7 (w1.view o).xml (w1.view o).addHist S (w1.view o).robot.angles (w1.view o).robot.base
            have e5 : (w2.view o).robot.posed (w1.view o).robot.angles (w1.view o).robot.base = (w2.view o).robot := by
              rw [← h4, ← h5]; rfl
            rw [e5] at hcall
            have hrec' := hrec.append (.call (c := .addNewLink _) trivial (show PyCall.run _ _ = _ from hcall) .nil)
            refine ⟨hw2, by have := h.lt; omega, ⟨H ++ [.addNewLink (AddRef.get w1 ⟨n, p, .ref pos, rpy.map .ref⟩)], S, ?_, ?_, ?_⟩, ?_, ?_⟩
            · rw [h1, h2]; exact hrec'
            · rw [e3]
              have : Then w2 = Then w1 := by funext a s; simp only [Then, hg]
              rw [this]
              exact hF
            · intro q hk
              obtain ⟨L, a, S0, k1, k2, k3⟩ := hlast q (hk.snoc id).1
              exact ⟨L, a, S0, by rw [e3]; exact k1, k2, by rw [hg]; exact k3⟩
            · intro a m
              rw [e3] at m
              obtain ⟨k1, k2, k3⟩ := h.entries a m
              exact ⟨k1, k2, by simp only [List.flatMap_append, List.mem_append]; exact .inl k3⟩
            · intro a m r mr
              rw [e2, hA, upd_same] at m
              simp only [List.flatMap_append, List.mem_append]
              rcases List.mem_append.1 m with m | m
              · exact .inl (h.adds a m r mr)
              · simp only [List.mem_singleton] at m
                subst m
                right
                cases rpy <;> simpa [HOp.passes, AddRef.refs, HArg.refs] using mr
          · exact absurd rfl hx
        | call o' c hc =>
          cases hoo
          have hread : c.IsRead := hg rfl
          obtain ⟨m0, hm0⟩ := hm
          have hk : (w1.view o).robot.cache.clear = (w1.view o).robot.cache := (hm0.run hrec).1.cache
          have hv : w2 = { w1 with objs := upd w1.objs o { w1.objs o with robot := (w1.objs o).robot } } := by
            simp only [HOp.run, hCall] at hrun'
            cases e : c.run (w1.view o) with
            | ok u s =>
              rw [e] at hrun'
              rcases hrun' with hx | ⟨e', hx⟩ <;> cases hx
              rw [hread.eq hk (.inl e)]
              rfl
            | exn x s =>
              rw [e] at hrun'
              rcases hrun' with hx | ⟨e', hx⟩ <;> cases hx
              rw [hread.eq hk (.inr ⟨_, e⟩)]
              rfl
            | ub u => rw [e] at hrun'; rcases hrun' with hx | ⟨e', hx⟩ <;> cases hx
            | hang => rw [e] at hrun'; rcases hrun' with hx | ⟨e', hx⟩ <;> cases hx
          subst hv
          exact h.still id hw2 h.lt ⟨rfl, rfl, rfl, by simp, rfl, rfl⟩
        | pickle o' =>
          have hf := HOp.run_frame h.wf h.lt hon (.inr ⟨o', rfl⟩) hwr hrun'
          exact h.still id hw2 (by have := h.lt; omega) hf
        | copy o' => cases hoo; exact absurd rfl hg
        | _ => cases hoo
      · have hf := HOp.run_frame h.wf h.lt hon (.inl hoo) hwr hrun'
        exact h.still (by cases op <;> first | exact id | (rintro rfl; exact hoo rfl)) hw2 (by have := h.lt; omega) hf
  induction hl with
  | nil =>
    refine ⟨hw, ho, ⟨[], [], ?_, by rw [h0']; exact .nil, ?_⟩, ?_, ?_⟩
    · have : (w.view o).setHist = [] := by simp [World.view, (hw o ho).2, h0']
      rw [← this]
      exact .nil
    · rintro q ⟨a, _, _, b, e, _⟩
      cases a <;> cases e
    · intro a m; rw [h0'] at m; cases m
    · intro a m; rw [h0] at m; cases m
  | ok _ hg hon hrun ih => exact key hg (.inl hrun) hon hu hs (ih hu.prefix fun x m => hs x (by simp [m]))
  | exn _ hg hx hon hrun ih => exact key hg (.inr ⟨hx, ⟨_, hrun⟩⟩) hon hu hs (ih hu.prefix fun x m => hs x (by simp [m]))

theorem setIds_all {L : List (SetArgs K)} {I : List Nat} (h : ∀ e ∈ L, e.ids = I) : ∀ j ∈ setIds L, j ∈ I := by
  intro j m
  simp only [setIds, List.mem_flatMap] at m
  obtain ⟨e, me, m⟩ := m
  rwa [h e me] at m

/-- two series of configurations of the same joints with the same last one lead to the same joint values -/
theorem writeAngles_series {L L' : List (SetArgs K)} {e : SetArgs K} {a θ : List K} {I : List Nat}
    (hq : ∀ x ∈ L ++ [e], x.q.length = x.ids.length + x.base.dof) (hq' : ∀ x ∈ L' ++ [e], x.q.length = x.ids.length + x.base.dof)
    (hI : ∀ x ∈ L ++ [e], x.ids = I) (hI' : ∀ x ∈ L' ++ [e], x.ids = I)
    (h : writeAngles (setIds (L ++ [e])) (setVals (L ++ [e])) a = .ok θ) :
    writeAngles (setIds (L' ++ [e])) (setVals (L' ++ [e])) a = .ok θ := by
  have he : e.ids = I := hI e (by simp)
  have hval := (writeAngles_valid h).1
  have hle := setVals_length hq
  have hle' := setVals_length hq'
  obtain ⟨θ', h'⟩ := writeAngles_ok (a := a) (Nat.le_of_eq hle'.symm) (fun j m => hval j (by
    rw [setIds_append, List.mem_append]
    right
    simp only [setIds, List.flatMap_cons, List.flatMap_nil, List.append_nil, he]
    exact setIds_all hI' j m))
  rw [h']
  congr 1
  have key : ∀ (M : List (SetArgs K)) (t : List K), (∀ x ∈ M ++ [e], x.q.length = x.ids.length + x.base.dof) →
      (∀ x ∈ M ++ [e], x.ids = I) → writeAngles (setIds (M ++ [e])) (setVals (M ++ [e])) a = .ok t →
      t.length = a.length ∧ ∀ j, (hj : j < a.length) → t[j]? = some ((lastWrite (I.zip (e.q.take e.ids.length)) j).getD a[j]) := by
    intro M t hM hMI hw
    have hlen := setVals_length (L := M) (fun x m => hM x (by simp [m]))
    rw [setIds_append, setVals_append, writeAngles_append _ _ _ _ _ hlen] at hw
    cases e1 : writeAngles (setIds M) (setVals M) a with
    | ok b =>
      rw [e1] at hw
      simp only [Outcome.bind, setIds, setVals, List.flatMap_cons, List.flatMap_nil, List.append_nil, he] at hw
      have l1 := writeAngles_length e1
      have l2 := writeAngles_length hw
      refine ⟨by omega, fun j hj => ?_⟩
      rw [writeAngles_get hw j (by omega), he]
      by_cases hjI : j ∈ I
      · obtain ⟨v, hv⟩ := lastWrite_isSome (vals := e.q.take I.length) hjI (writeAngles_valid hw).2
        rw [hv]
        rfl
      · rw [lastWrite_eq_none hjI]
        have g := writeAngles_get e1 j hj
        rw [lastWrite_eq_none (fun m => hjI (setIds_all (fun x m => hMI x (by simp [m])) j m))] at g
        simp only [Option.getD_none] at g ⊢
        rw [List.getElem?_eq_getElem (by omega)] at g
        exact g
    | exn x => rw [e1] at hw; cases hw
    | ub u => rw [e1] at hw; cases hw
    | hang => rw [e1] at hw; cases hw
  obtain ⟨k1, k2⟩ := key L θ hq hI h
  obtain ⟨k1', k2'⟩ := key L' θ' hq' hI' h'
  apply List.ext_getElem?
  intro j
  by_cases hj : j < a.length
  · rw [k2 j hj, k2' j hj]
  · rw [List.getElem?_eq_none (by omega), List.getElem?_eq_none (by omega)]

theorem Forall₂.left_mem {α β : Type} {R : α → β → Prop} {L : List α} {M : List β} (h : List.Forall₂ R L M) :
    (∀ a ∈ L, ∃ b ∈ M, R a b) ∧ ∀ b ∈ M, ∃ a ∈ L, R a b := by
  induction h with
  | nil => simp
  | cons h _ ih =>
    refine ⟨fun a m => ?_, fun b m => ?_⟩
    · rcases List.mem_cons.1 m with rfl | m
      · exact ⟨_, by simp, h⟩
      · obtain ⟨b, mb, hb⟩ := ih.1 a m
        exact ⟨b, by simp [mb], hb⟩
    · rcases List.mem_cons.1 m with rfl | m
      · exact ⟨_, by simp, h⟩
      · obtain ⟨a, ma, ha⟩ := ih.2 b m
        exact ⟨a, by simp [ma], ha⟩

theorem setBase_series {L L' : List (SetArgs K)} {e : SetArgs K} (p : Pose K)
    (hq : e.q.length = e.ids.length + e.base.dof) (hb : ∀ x ∈ L, x.base = e.base)
    (hb' : ∀ x ∈ L', x.base = e.base) : setBase (L ++ [e]) p = setBase (L' ++ [e]) p := by
  have key : e.base = .fixed → ∀ (M : List (SetArgs K)), (∀ x ∈ M, x.base = e.base) → setBase M p = p := by
    intro he M hM
    induction M with
    | nil => rfl
    | cons x M ih =>
      have hx := hM x (by simp)
      rw [he] at hx
      simp only [setBase, List.foldl_cons, hx, basePart, Option.getD_none]
      exact ih fun y m => hM y (by simp [m])
  simp only [setBase, List.foldl_append, List.foldl_cons, List.foldl_nil]
  by_cases hb0 : e.base = .fixed
  · have k1 := key hb0 L hb
    have k2 := key hb0 L' hb'
    simp only [setBase] at k1 k2
    rw [k1, k2]
  · obtain ⟨b, hb⟩ := basePart_isSome hq hb0
    rw [hb]
    rfl

/-- **C88, the part that holds when an array is used again.** In any Python program: the model is made by the constructor and
changed by `set_q` and `add_new_link` calls that return. All its `set_q` calls have the same list of joints and the same kind
of base. The program may change the array of a configuration and pass it again, as often as it likes. If it does not
change the array of the last call any more, pickling still preserves the model. -/
theorem C88_reused_partial (hp : HRuns parse w pre w0) (hn : hNew parse xml w0 = .ok o w1) (hl : Life parse o w1 ops w2)
    (hu : UntouchedButQ o ops) {i q : Nat} {bt : BaseType} (hs : ∀ x ∈ ops, x.Sets o → x.SetsTo o i bt) (hk : LastKept o q ops) :
    ∃ k w', hPickle parse o w2 = .ok k w' ∧ (w'.objs k).robot = (w2.objs o).robot ∧ (w'.objs o).robot = (w2.objs o).robot := by
  have hw0 := hp.wf
  simp only [hNew] at hn
  cases e : pyInit parse xml with
  | ok s0 =>
    rw [e] at hn
    cases hn
    obtain ⟨m0, h1, rfl, h2⟩ := pyInit_eq e
    have hv : (w0.alloc xml m0).view w0.count = ⟨xml, m0, [], []⟩ := by simp [World.view, World.alloc]
    have hrp : Replayed m0 ((w0.alloc xml m0).view w0.count) := by rw [hv]; exact Replayed.init xml h2
    have hL := hl.looseLife (alloc_wf _ _ _ hw0) (Nat.lt_succ_self _) hu hs (by simp [World.alloc]) (by simp [World.alloc]) ⟨m0, hrp⟩
    obtain ⟨H, S, hrec, hF, hlast⟩ := hL.recd
    obtain ⟨L, a, S0, e1, e2, e3⟩ := hlast q hk
    have hrr := hrp.run hrec
    rw [hv] at hrr
    obtain ⟨hr, hx⟩ := hrr
    have hA := (hL.wf _ hL.lt).1
    have hS := (hL.wf _ hL.lt).2
    have hset := hr.sets "" ((w2.view w0.count).robot.posed m0.angles m0.base) [] [] hr.cache rfl rfl
    obtain ⟨q1, q2, q3⟩ := forEach_sets_inv (m := (w2.view w0.count).robot.posed m0.angles m0.base) hr.cache hset
    have hq' : ∀ x ∈ (w2.sets w0.count).map (SetRef.get w2), x.q.length = x.ids.length + x.base.dof := by
      intro x m
      obtain ⟨y, my, rfl⟩ := List.mem_map.1 m
      obtain ⟨s, ms, hs⟩ := (Forall₂.left_mem hF).1 _ my
      have := q1 s ms
      rw [← hs.2.2, ← hs.1, ← hs.2.1] at this
      exact this
    have hI' : ∀ x ∈ (w2.sets w0.count).map (SetRef.get w2), x.ids = w2.ids i ∧ x.base = bt := by
      intro x m
      obtain ⟨y, my, rfl⟩ := List.mem_map.1 m
      obtain ⟨k1, k2, _⟩ := hL.entries y my
      exact ⟨by simp only [SetRef.get, k1, HArg.get], k2⟩
    have hI : ∀ x ∈ S, x.ids = w2.ids i ∧ x.base = bt := by
      intro s ms
      obtain ⟨y, my, hs⟩ := (Forall₂.left_mem hF).2 _ ms
      have := hI' _ (List.mem_map_of_mem my)
      exact ⟨hs.1 ▸ this.1, hs.2.1 ▸ this.2⟩
    have hnow : (w2.view w0.count).setHist = L.map (SetRef.get w2) ++ [a.get w2] := by
      simp only [World.view, hS, e1, List.map_append, List.map_cons, List.map_nil]
    have hmap : (w2.sets w0.count).map (SetRef.get w2) = L.map (SetRef.get w2) ++ [a.get w2] := by rw [e1]; simp
    rw [hmap] at hq' hI'
    simp only [e3] at q1 q2 q3 hI
    have hwr := writeAngles_series q1 hq' (fun x m => (hI x m).1) (fun x m => (hI' x m).1) q2
    have hbs := setBase_series (L := S0) (L' := L.map (SetRef.get w2)) (e := a.get w2) m0.base (q1 _ (by simp))
      (fun x m => (hI x (by simp [m])).2.trans (hI _ (by simp)).2.symm)
      (fun x m => (hI' x (by simp [m])).2.trans (hI' _ (by simp)).2.symm)
    have hpk : pyPickle parse (w2.view w0.count) = .ok ⟨xml, (w2.view w0.count).robot, [], []⟩ := by
      simp only [pyPickle, pySetState, pyGetState, pyReplay, show (w2.view w0.count).xml = xml from hx, h1]
      have had := hr.adds
      simp only at had
      simp only [Prog.bind_apply, Outcome.bind_eq, Outcome.bind, had]
      rw [hnow, forEach_sets (m := (w2.view w0.count).robot.posed m0.angles m0.base) (θ := (w2.view w0.count).robot.angles) (show _ from hr.cache) hq' hwr, show
        ((w2.view w0.count).robot.posed m0.angles m0.base).base = m0.base from rfl, ← hbs,
        ← show (w2.view w0.count).robot.base = setBase (S0 ++ [a.get w2]) m0.base from q3]
      rfl
    refine ⟨_, _, by simp only [hPickle]; rw [show pySetState parse (pyGetState _) = _ from hpk], ?_, ?_⟩
    · simp only [World.alloc, upd_same]; rfl
    · have : w0.count ≠ w2.count := by have := hL.lt; omega
      simp only [World.alloc, upd_ne _ _ this]
  | exn x => rw [e] at hn; cases hn
  | ub u => rw [e] at hn; cases hn
  | hang => rw [e] at hn; cases hn

end

namespace Example

/-- `q = [2]; o.set_q([0], q); q[0] = 1; o.set_q([0], q)`: the hypotheses are met, although `q` was changed after it was passed -/
example : ∃ w4 k w', Life parse1 0 w1 [.setQ 0 0 0 .fixed, .writeArr 0 [1], .setQ 0 0 0 .fixed] w4 ∧
    ¬Untouched 0 ([.setQ 0 0 0 .fixed, .writeArr 0 [1], .setQ 0 0 0 .fixed] : List (HOp ℝ)) ∧
    hPickle parse1 0 w4 = .ok k w' ∧ (w'.objs k).robot = (w4.objs 0).robot := by
  obtain ⟨w2, h2⟩ := set1
  have hc : ∀ o', (HOp.setQ 0 0 0 .fixed : HOp ℝ).on = some o' → o' < w1.count := by
    intro o' h; cases h; exact Nat.one_pos
  have hl0 : Life parse1 0 w1 [.setQ 0 0 0 .fixed] w2 := Life.ok .nil trivial hc h2
  have hrel : Rel 0 w1 w2 := by
    have := RelP.setQ 0 ⟨.ref 0, .ref 0, .fixed⟩ w1
    simp only [HOp.run] at h2
    rw [h2] at this
    exact this
  have hwr : (HOp.writeArr 0 [1]).run parse1 w2 = .ok () { w2 with arr := upd w2.arr 0 [1] } := by
    simp [HOp.run, hrel.arr, w1, World.alloc, start]
  have hl1 : Life parse1 0 w1 ([.setQ 0 0 0 .fixed] ++ [.writeArr 0 [1]]) { w2 with arr := upd w2.arr 0 [1] } :=
    Life.ok hl0 trivial (by intro o' h; cases h) hwr
  obtain ⟨e1, _⟩ := hSetQ_view h2
  rw [w1_view] at e1
  obtain ⟨θ, g1, g2, g3⟩ := pySetQ_eq e1
  have hθ : (w2.objs 0).robot.angles.length = 2 := by
    have := congrArg (fun s => s.robot.angles.length) g3
    simp only [World.view] at this
    rw [this, show (m0.reset θ _).angles = θ from rfl, writeAngles_length g1, m0_angles]
    rfl
  obtain ⟨θ', hθ'⟩ := writeAngles_ok (a := (w2.objs 0).robot.angles) (ids := [0]) (vals := [(1 : ℝ)]) (by simp) (by simp [hθ])
  obtain ⟨w4, h4, _⟩ := hSetQ_ok (o := 0) (w := { w2 with arr := upd w2.arr 0 [1] }) (a := ⟨.ref 0, .ref 0, .fixed⟩) (s := _)
    (pySetQ_ok (θ := θ') (by simpa [SetRef.get, HArg.get, hrel.ids, w1, World.alloc, start, World.view] using hθ')
      (by simp [SetRef.get, HArg.get, hrel.ids, w1, World.alloc, start, BaseType.dof]))
  have hl : Life parse1 0 w1 ([.setQ 0 0 0 .fixed, .writeArr 0 [1]] ++ [.setQ 0 0 0 .fixed]) w4 :=
    Life.ok hl1 trivial (by
      intro o' h; cases h
      exact lt_of_lt_of_le Nat.one_pos (HOp.run_wf (alloc_wf start _ _ (by intro i hi; cases hi)) hc (.inl h2)).2) h4
  obtain ⟨k, w', p1, p2, _⟩ := C88_reused_partial (.nil rfl) new1 hl
    (by
      intro pre op post h r hr
      match pre, h with
      | [], h => cases h; cases hr
      | [_], h => cases h; cases hr; exact .inl ⟨_, rfl⟩
      | [_, _], h => cases h; cases hr
      | _ :: _ :: _ :: pre, h => cases pre <;> cases h)
    (i := 0) (bt := .fixed) (by simp [HOp.Sets, HOp.SetsTo]) ⟨[.setQ 0 0 0 .fixed, .writeArr 0 [1]], 0, .fixed, [], rfl, by simp⟩
  refine ⟨w4, k, w', hl, ?_, p1, p2⟩
  intro hu
  exact hu [.setQ 0 0 0 .fixed] (.writeArr 0 [1]) [.setQ 0 0 0 .fixed] rfl (.arr 0) rfl (by simp [HOp.passes])

end Example
end Tinyfk
