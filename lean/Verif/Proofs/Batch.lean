import Verif.Proofs.PyReach

/-!
# A configuration overrides the ones before it

The robot after a batch is the robot after its last configuration alone.
-/

set_option linter.unusedSectionVars false

namespace Tinyfk

open Scalar

variable {K : Type} [Scalar K]
  {ls : List (RawLink K)} {js : List (RawJoint K)} {m0 : KinModel K} {cs : List (Call K)} {mc m : KinModel K}

theorem angleAfter_append (i : Nat) (v : K) (a b : List (Call K)) :
    angleAfter i v (a ++ b) = angleAfter i (angleAfter i v a) b := by
  induction a generalizing v with
  | nil => rfl
  | cons c a ih =>
    rw [List.cons_append, angleAfter_cons, ih, angleAfter_cons i v c a]

theorem baseAfter_append (p : Pose K) (a b : List (Call K)) :
    baseAfter p (a ++ b) = baseAfter (baseAfter p a) b := by
  induction a generalizing p with
  | nil => rfl
  | cons c a ih =>
    rw [List.cons_append, baseAfter_cons, ih, baseAfter_cons p c a]

theorem lastWrite_eq_none {ids : List Nat} {vals : List K} {i : Nat} (h : i ∉ ids) :
    lastWrite (ids.zip vals) i = none := by
  induction ids generalizing vals with
  | nil => rfl
  | cons a ids ih =>
    cases vals with
    | nil => rfl
    | cons v vals =>
      rw [List.zip_cons_cons, lastWrite_cons, ih (fun hm => h (List.mem_cons_of_mem _ hm))]
      have : a ≠ i := fun e => h (by simp [e])
      simp [this]

theorem lastWrite_isSome {ids : List Nat} {vals : List K} {i : Nat} (h : i ∈ ids)
    (hl : ids.length ≤ vals.length) : ∃ v, lastWrite (ids.zip vals) i = some v := by
  induction ids generalizing vals with
  | nil => simp at h
  | cons a ids ih =>
    cases vals with
    | nil => simp at hl
    | cons v vals =>
      rw [List.zip_cons_cons, lastWrite_cons]
      by_cases hm : i ∈ ids
      · obtain ⟨w, hw⟩ := ih hm (by simpa using hl)
        exact ⟨w, by simp [hw]⟩
      · have : a = i := by
          rcases List.mem_cons.mp h with e | e
          · exact e.symm
          · exact absurd e hm
        exact ⟨v, by simp [lastWrite_eq_none hm, this]⟩

theorem angleAfter_config (i : Nat) (v : K) (ids : List Nat) (bt : BaseType) (q : List K) :
    angleAfter i v (configCalls ids bt q) = (lastWrite (ids.zip (q.take ids.length)) i).getD v := by
  unfold configCalls
  split <;> rfl

theorem baseAfter_config (b : Pose K) (ids : List Nat) (bt : BaseType) (q : List K) :
    baseAfter b (configCalls ids bt q) = (basePart ids.length bt q).getD b := by
  unfold configCalls
  split
  · rename_i p hp; rw [hp]; rfl
  · rename_i hp; rw [hp]; rfl

theorem angleAfter_batch_of_not_mem (i : Nat) (v : K) (ids : List Nat) (bt : BaseType) (qs : List (List K))
    (h : i ∉ ids) : angleAfter i v (batchCalls ids bt qs) = v := by
  induction qs with
  | nil => rfl
  | cons q qs ih =>
    rw [batchCalls_cons, angleAfter_append, angleAfter_config, lastWrite_eq_none h]
    exact ih

theorem baseAfter_batch_fixed (b : Pose K) (ids : List Nat) (qs : List (List K)) :
    baseAfter b (batchCalls ids .fixed qs) = b := by
  induction qs generalizing b with
  | nil => rfl
  | cons q qs ih =>
    rw [batchCalls_cons, baseAfter_append, baseAfter_config]
    simp only [basePart, Option.getD_none]
    exact ih b

theorem basePart_isSome {n : Nat} {bt : BaseType} {q : List K} (h : q.length = n + bt.dof) (hb : bt ≠ .fixed) :
    ∃ p, basePart n bt q = some p := by
  cases bt with
  | fixed => exact absurd rfl hb
  | planer => obtain ⟨x, y, w, hd⟩ := drop_three h; simp only [basePart, hd]; exact ⟨_, rfl⟩
  | floating => obtain ⟨x, y, z, r, p, w, hd⟩ := drop_six h; simp only [basePart, hd]; exact ⟨_, rfl⟩

theorem angleAfter_override (i : Nat) (v : K) (ids : List Nat) (bt : BaseType) (qs : List (List K)) (q : List K)
    (hq : ids.length ≤ q.length) (cs : List (Call K)) :
    angleAfter i v (cs ++ (batchCalls ids bt qs ++ configCalls ids bt q)) =
      angleAfter i v (cs ++ configCalls ids bt q) := by
  rw [angleAfter_append, angleAfter_append, angleAfter_append i v, angleAfter_config, angleAfter_config]
  by_cases hi : i ∈ ids
  · obtain ⟨w, hw⟩ := lastWrite_isSome (vals := q.take ids.length) hi (by simp [hq])
    rw [hw]; rfl
  · rw [angleAfter_batch_of_not_mem _ _ _ _ _ hi]

theorem baseAfter_override (b : Pose K) (ids : List Nat) (bt : BaseType) (qs : List (List K)) (q : List K)
    (hq : q.length = ids.length + bt.dof) (cs : List (Call K)) :
    baseAfter b (cs ++ (batchCalls ids bt qs ++ configCalls ids bt q)) =
      baseAfter b (cs ++ configCalls ids bt q) := by
  rw [baseAfter_append, baseAfter_append, baseAfter_append b, baseAfter_config, baseAfter_config]
  by_cases hb : bt = .fixed
  · subst hb; rw [baseAfter_batch_fixed]
  · obtain ⟨p, hp⟩ := basePart_isSome hq hb
    rw [hp]; rfl

theorem batchCalls_take {ids : List Nat} {bt : BaseType} {qs : List (List K)} {k : Nat} {q : List K}
    (hk : qs[k]? = some q) : batchCalls ids bt (qs.take (k + 1)) =
      batchCalls ids bt (qs.take k) ++ configCalls ids bt q := by
  obtain ⟨hlt, rfl⟩ := List.getElem?_eq_some_iff.mp hk
  unfold batchCalls
  rw [List.take_succ_eq_append_getElem hlt, List.flatMap_append]
  congr 1
  exact List.flatMap_singleton _ _

theorem Runs.det {a b b' : KinModel K} {cs : List (Call K)} (h : Runs a cs b) (h' : Runs a cs b') : b = b' := by
  induction h with
  | nil => cases h'; rfl
  | ok e _ ih =>
    cases h' with
    | ok e' h' => rw [e] at e'; cases e'; exact ih h'
    | exn e' h' => rw [e] at e'; cases e'
  | exn e _ ih =>
    cases h' with
    | ok e' h' => rw [e] at e'; cases e'
    | exn e' h' => rw [e] at e'; cases e'; exact ih h'

theorem Runs.split {a c : KinModel K} {xs ys : List (Call K)} (h : Runs a (xs ++ ys) c) :
    ∃ b, Runs a xs b ∧ Runs b ys c := by
  induction xs generalizing a with
  | nil => exact ⟨a, .nil, h⟩
  | cons x xs ih =>
    cases h with
    | ok e h => obtain ⟨b, h1, h2⟩ := ih h; exact ⟨b, .ok e h1, h2⟩
    | exn e h => obtain ⟨b, h1, h2⟩ := ih h; exact ⟨b, .exn e h1, h2⟩

/-- setters change angles, base and cache only -/
theorem Runs.sets {a b : KinModel K} {cs : List (Call K)} (h : Runs a cs b) (hs : ∀ c ∈ cs, c.IsSet) :
    ∃ θ p c, b = { a with angles := θ, base := p, cache := c } := by
  induction h with
  | nil => exact ⟨_, _, _, rfl⟩
  | @ok m m1 m2 c cs e _ ih =>
    obtain ⟨θ, p, ca, rfl⟩ := ih (fun c h => hs c (by simp [h]))
    have hc := hs c (by simp)
    cases c <;> simp only [Call.IsSet] at hc
    · simp only [Call.run, setJointAngles, Prog.bind_apply, setJointAnglesNC] at e
      rename_i ids vals
      cases hw : writeAngles ids vals m.angles with
      | ok a' =>
        rw [hw] at e
        simp only [clearCache, Prog.modify, Res.ok.injEq, true_and] at e
        subst e
        exact ⟨_, _, _, rfl⟩
      | exn x => rw [hw] at e; cases e
      | ub u => rw [hw] at e; cases e
      | hang => rw [hw] at e; cases e
    · simp only [Call.run, setBasePose_eq, Res.ok.injEq, true_and] at e
      subst e
      exact ⟨_, _, _, rfl⟩
  | @exn m m1 m2 c cs x e _ ih =>
    obtain ⟨θ, p, ca, rfl⟩ := ih (fun c h => hs c (by simp [h]))
    have hc := hs c (by simp)
    cases c <;> simp only [Call.IsSet] at hc
    · simp only [Call.run, setJointAngles, Prog.bind_apply, setJointAnglesNC] at e
      rename_i ids vals
      cases hw : writeAngles ids vals m.angles with
      | ok a' => rw [hw] at e; cases e
      | exn x => exact absurd hw (writeAngles_noExn _ _ _ x)
      | ub u => rw [hw] at e; cases e
      | hang => rw [hw] at e; cases e
    · simp only [Call.run, setBasePose_eq] at e
      cases e

theorem Reach.sets_eq {a : List (Call K)} {mk : KinModel K} (h : Reach ls js m0 (cs ++ a) mk)
    (hc : Reach ls js m0 cs mc) (hs : ∀ c ∈ a, c.IsSet) :
    ∃ θ p c, mk = { mc with angles := θ, base := p, cache := c } := by
  obtain ⟨b, h1, h2⟩ := h.runs.split
  rw [h1.det hc.runs] at h2
  exact h2.sets hs

theorem Reach.angles_get (h : Reach ls js m0 cs m) (i : Nat) (hi : i < m0.joints.length) :
    m.angles[i]? = some (angleAfter i 0 cs) :=
  h.abs.angles i (by rw [h.abs.joints]; exact hi)

/-- two histories that add the same links and leave the same angles and base leave the same robot -/
theorem Reach.sameRobot' {a b : List (Call K)} {m1 m2 : KinModel K} (hc : Reach ls js m0 cs mc)
    (h1 : Reach ls js m0 (cs ++ a) m1) (h2 : Reach ls js m0 (cs ++ b) m2)
    (ha : ∀ c ∈ a, c.IsSet) (hb : ∀ c ∈ b, c.IsSet)
    (hθ : ∀ i < m0.joints.length, angleAfter i 0 (cs ++ a) = angleAfter i 0 (cs ++ b))
    (hp : baseAfter Pose.identity (cs ++ a) = baseAfter Pose.identity (cs ++ b)) : SameRobot m1 m2 := by
  have e1 : m2.angles = m1.angles := by
    apply List.ext_getElem?
    intro i
    by_cases hi : i < m0.joints.length
    · rw [h1.angles_get i hi, h2.angles_get i hi, hθ i hi]
    · rw [List.getElem?_eq_none (by rw [h2.anglesLen]; omega), List.getElem?_eq_none (by rw [h1.anglesLen]; omega)]
  have e2 : m2.base = m1.base := by rw [h1.abs.base, h2.abs.base, hp]
  have e3 : m2.stack.data.length = m1.stack.data.length := by rw [h1.cap, h2.cap]
  obtain ⟨θ1, p1, c1, rfl⟩ := h1.sets_eq hc ha
  obtain ⟨θ2, p2, c2, rfl⟩ := h2.sets_eq hc hb
  simp only at e1 e2
  subst e1 e2
  exact ⟨⟨_, _, rfl⟩, e3⟩

theorem Reach.sameRobot {a b : List (Call K)} {m1 m2 : KinModel K} (hc : Reach ls js m0 cs mc)
    (h1 : Reach ls js m0 (cs ++ a) m1) (h2 : Reach ls js m0 (cs ++ b) m2)
    (ha : ∀ c ∈ a, c.IsSet) (hb : ∀ c ∈ b, c.IsSet)
    (hθ : ∀ i, angleAfter i 0 (cs ++ a) = angleAfter i 0 (cs ++ b))
    (hp : baseAfter Pose.identity (cs ++ a) = baseAfter Pose.identity (cs ++ b)) : SameRobot m1 m2 :=
  hc.sameRobot' h1 h2 ha hb (fun i _ => hθ i) hp

theorem Reach.config {ids : List Nat} {bt : BaseType} {q : List K} (h : Reach ls js m0 cs mc)
    (hi : ∀ i ∈ ids, i < m0.joints.length) (hq : q.length = ids.length + bt.dof) :
    ∃ mk, Reach ls js m0 (cs ++ configCalls ids bt q) mk := by
  obtain ⟨m1, mc1, _, h1, _⟩ := (At.of_reach h).setNC (ids := ids) (q := q) hi (by omega)
  by_cases hb : bt = .fixed
  · subst hb
    exact ⟨mc1, by simpa [configCalls, basePart] using h1.reach⟩
  · obtain ⟨p, hp⟩ := basePart_isSome hq hb
    obtain ⟨m2, mc2, _, h2, _⟩ := h1.setBase p
    refine ⟨mc2, ?_⟩
    have := h2.reach
    simpa [configCalls, hp] using this

end Tinyfk
