import Verif.Props.NoAssert
import Verif.Props.Dist

/-!
# C131: configurations of another length

`compute_inter_link_sqdists` and `compute_total_inertia_matrix` have no length check.
-/

namespace Tinyfk

open Scalar

variable {K : Type} [Scalar K] {ids : List Nat} {q : List K} {bt : BaseType} {s : PyModel K} {qs : List (List K)} {pairs : List (Nat × Nat)}
  {wj uc : Bool}

theorem distFkLoop_congr {f g : List K → List K} {l1 l2 : List Nat} {wb : Bool} {d : Nat} {rows : List (List K)} {i : Nat} {D G : Mat K}
    (m : KinModel K) (h1 : ∀ r ∈ rows, ∀ m : KinModel K, setJointAnglesNC ids (f r) m = setJointAnglesNC ids (g r) m)
    (h2 : wb = true → ∀ r ∈ rows, ∀ m : KinModel K, setBaseFromTail (f r) m = setBaseFromTail (g r) m) :
    distFkLoop ids l1 l2 wb wj uc d (rows.map f) i D G m = distFkLoop ids l1 l2 wb wj uc d (rows.map g) i D G m := by
  induction rows generalizing i D G m with
  | nil => rfl
  | cons q rows ih =>
    simp only [List.map_cons, distFkLoop]
    have hi := fun i C J m => ih (i := i) (D := C) (G := J) m (fun r hr => h1 r (by simp [hr])) fun hw r hr => h2 hw r (by simp [hr])
    have ha : applyConfig ids wb uc (f q) m = applyConfig ids wb uc (g q) m := by
      simp only [applyConfig]
      refine Prog.bind_congr (h1 q (by simp) m) fun _ m => ?_
      cases wb with
      | false => rfl
      | true => exact Prog.bind_congr (h2 rfl q (by simp) m) fun _ m => rfl
    exact Prog.bind_congr ha fun _ m => Prog.bind_congr rfl fun _ m => hi _ _ _ m

/-- **C131, fixed base.** What a configuration has too many is ignored. -/
theorem C131_fixed : pySqdists qs pairs ids .fixed wj uc s = pySqdists (qs.map (List.take ids.length)) pairs ids .fixed wj uc s := by
  have := fun D G => distFkLoop_congr (ids := ids) (wj := wj) (uc := uc) (f := List.take ids.length) (g := id) (l1 := pairs.map Prod.fst)
    (l2 := pairs.map Prod.snd) (wb := false) (d := ids.length + 0) (rows := qs) (i := 0) (D := D) (G := G) s.robot
    (fun r _ m => by simp only [setJointAnglesNC, writeAngles_take, id]) nofun
  simp only [List.map_id] at this
  simp only [pySqdists, reduceCtorEq, if_false, Prog.bind_apply, Prog.pure_apply]
  split
  · rfl
  · simp only [Prog.bind_apply, onRobot, computeInterLinkSquaredDists, List.length_map, bne_self_eq_false, Bool.false_eq_true, if_false, this]

/-- **C131, floating base.** The joint values are taken from the front and the base from the back. -/
theorem C131_floating (hn : ∀ r ∈ qs, ids.length ≤ r.length) (h6 : ∀ r ∈ qs, 6 ≤ r.length) :
    pySqdists qs pairs ids .floating wj uc s =
      pySqdists (qs.map fun r => r.take ids.length ++ r.drop (r.length - 6)) pairs ids .floating wj uc s := by
  obtain ⟨h1, h2⟩ := frontBack_rows hn h6
  have := fun D G => distFkLoop_congr (ids := ids) (wj := wj) (uc := uc) (f := fun r => r.take ids.length ++ r.drop (r.length - 6)) (g := id)
    (l1 := pairs.map Prod.fst) (l2 := pairs.map Prod.snd) (wb := true) (d := ids.length + 6) (rows := qs) (i := 0) (D := D) (G := G) s.robot
    h1 fun _ => h2
  simp only [List.map_id] at this
  simp only [pySqdists, reduceCtorEq, if_false, Prog.bind_apply, Prog.pure_apply]
  split
  · rfl
  · simp only [Prog.bind_apply, onRobot, computeInterLinkSquaredDists, List.length_map, show (BaseType.floating != BaseType.fixed) = true from rfl,
      if_true, this]

/-- **C131, planar base.** With surplus numbers the base is put somewhere else. -/
theorem C131_planar {c : Nat} (hl : ∀ r ∈ qs, r.length = c) (hn : ids.length + 3 < c) :
    pySqdists qs pairs ids .planer wj uc s = pySqdists (qs.map (misreadRow ids.length)) pairs ids .planer wj uc s := by
  obtain ⟨f, g, e1, e2, e3, e4⟩ := misread_rows hl hn
  have := fun D G => distFkLoop_congr (ids := ids) (wj := wj) (uc := uc) (f := f) (g := g)
    (l1 := pairs.map Prod.fst) (l2 := pairs.map Prod.snd) (wb := true) (d := ids.length + 6) (rows := qs) (i := 0) (D := D) (G := G) s.robot
    e3 fun _ => e4
  simp only [pySqdists, if_true, Prog.bind_apply, Prog.lift, Prog.read, e1, e2]
  split
  · rfl
  · simp only [Prog.bind_apply, onRobot, computeInterLinkSquaredDists, List.length_map, show (BaseType.planer != BaseType.fixed) = true from rfl,
      if_true, this]

/-- **C131, inertia.** `compute_total_inertia_matrix` ignores what a configuration has too many. -/
theorem C131_inertia : pyInertia q ids s = pyInertia (q.take ids.length) ids s := by
  simp only [pyInertia, onRobot, computeTotalInertiaMatrix, Prog.bind_apply, setJointAnglesNC, writeAngles_take]

namespace Example

/-- **Witness.** Nothing rejects a configuration of another length: joints `turn` and `slide` and three more numbers are answered like the
two numbers. -/
theorem C131_answers : ∃ V J s', pySqdists [[1, 2, 7, 8, 9]] [(3, 0)] [1, 0] .fixed false false (s1.withCache bad) = .ok (V, J) s' ∧
    pySqdists [[1, 2]] [(3, 0)] [1, 0] .fixed false false (s1.withCache bad) = .ok (V, J) s' := by
  obtain ⟨V, J, s', e, _⟩ := C07_sqdists (qs := [[1, 2]]) (ps := [(3, 0)]) (ids := [1, 0]) (bt := .fixed) (wj := false) (uc := false)
    s1_reach s1_shallow bad_fits ⟨by simp, by simp [BaseType.dof], by rw [joints_length]; simp, by rw [s1_links]; simp⟩
    (.inl rfl) (by simp)
  exact ⟨V, J, s', C131_fixed.trans e, e⟩

-- six numbers for two joints and a floating base: the first two are used twice
example : pySqdists [[1, 2, 3, 4, 5, 6]] [(3, 0)] [1, 0] .floating true false s1 =
    pySqdists [[1, 2, 1, 2, 3, 4, 5, 6]] [(3, 0)] [1, 0] .floating true false s1 :=
  C131_floating (by simp) (by simp)
-- two numbers too many for a planar base: the base is at the origin
example : pySqdists [[1, 2, 3, 4, 5, 6, 7]] [(3, 0)] [1, 0] .planer true false s1 =
    pySqdists [[1, 2, 0, 0, 5]] [(3, 0)] [1, 0] .planer true false s1 :=
  (C131_planar (c := 7) (by simp) (by simp)).trans (by simp [misreadRow])
example : pyInertia [1, 2, 7, 8, 9] [1, 0] s1 = pyInertia [1, 2] [1, 0] s1 := C131_inertia

end Example
end Tinyfk
