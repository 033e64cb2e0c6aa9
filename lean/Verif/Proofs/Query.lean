import Verif.Proofs.PoseQuery
import Verif.Model.Wrapper
import Mathlib.Data.List.Forall2

/-!
# Queries: calls whose result does not depend on the cache

`Query m p v`: on every ready state of the robot `m` (same links, joints, angles, base;
any cache and stack contents that are coherent), the call `p` returns `v` and leaves such
a state again.
-/

set_option linter.unusedSectionVars false

namespace Tinyfk

open Scalar

variable {K : Type} [Scalar K] {α β : Type}

/-- `p` returns `v` on every ready cache state of the robot `m`, and leaves one. -/
def Query (m : KinModel K) (p : Prog (KinModel K) α) (v : α) : Prop :=
  ∀ m1, SameRobot m m1 → Ready m1 → ∃ m2, p m1 = .ok v m2 ∧ SameRobot m m2 ∧ Ready m2

theorem Query.run {m : KinModel K} {p : Prog (KinModel K) α} {v : α} (h : Query m p v)
    (hr : Ready m) : ∃ m2, p m = .ok v m2 ∧ SameRobot m m2 ∧ Ready m2 := h m (.refl m) hr

theorem Query.pure (m : KinModel K) (v : α) : Query m (Pure.pure v) v :=
  fun m1 hs hr => ⟨m1, rfl, hs, hr⟩

theorem Query.bind {m : KinModel K} {p : Prog (KinModel K) α} {v : α}
    {f : α → Prog (KinModel K) β} {w : β} (h : Query m p v) (h' : Query m (f v) w) :
    Query m (p >>= f) w := by
  intro m1 hs hr
  obtain ⟨m2, e2, hs2, hr2⟩ := h m1 hs hr
  obtain ⟨m3, e3, hs3, hr3⟩ := h' m2 hs2 hr2
  exact ⟨m3, by simp [Prog.bind_apply, e2, e3], hs3, hr3⟩

theorem Query.read {m : KinModel K} {f : KinModel K → Outcome α} {v : α}
    (h : ∀ m1, SameRobot m m1 → f m1 = .ok v) : Query m (Prog.read f) v :=
  fun m1 hs hr => ⟨m1, by simp [Prog.read, h m1 hs], hs, hr⟩

theorem Query.lift {m : KinModel K} {o : Outcome α} {v : α} (h : o = .ok v) :
    Query m (Prog.lift o) v := Query.read (fun _ _ => h)

theorem Query.getLinkPose {m : KinModel K} {l : Nat} {T : Pose K} (hT : IsPose m l T) :
    Query m (getLinkPose l) T := by
  intro m1 hs hr
  obtain ⟨m2, h1, h2, h3⟩ := getLinkPose_spec hr ((IsPose.of_same hs).mpr hT)
  exact ⟨m2, h1, hs.trans h2, h3⟩

/-! ### Matrix writes -/

theorem Mat.set_ok (M : Mat K) (i j : Nat) (v : K) (hi : i < M.rows) (hj : j < M.cols) :
    M.set i j v = .ok { M with f := fun a b => if a = i ∧ b = j then v else M.f a b } := by
  unfold Mat.set; rw [if_pos ⟨hi, hj⟩]

theorem List.getD_append_left' {γ : Type} (l l' : List γ) (d : γ) {n : Nat} (h : n < l.length) :
    (l ++ l').getD n d = l.getD n d := by
  simp [List.getElem?_append_left h]

theorem Mat.setCol_spec (M : Mat K) (i j : Nat) (vs : List K) (hi : i + vs.length ≤ M.rows)
    (hj : j < M.cols) :
    M.setCol i j vs = .ok { M with f := fun a b =>
      if b = j ∧ i ≤ a ∧ a < i + vs.length then vs.getD (a - i) 0 else M.f a b } := by
  induction vs generalizing i M with
  | nil =>
    simp only [Mat.setCol, List.length_nil, Nat.add_zero]
    congr 1
    cases M with | mk r c f =>
    congr 1; funext a b
    rw [if_neg]; omega
  | cons v vs ih =>
    simp only [List.length_cons] at hi
    simp only [Mat.setCol, Mat.set]
    rw [if_pos ⟨by omega, hj⟩]
    simp only [Outcome.bind_eq, Outcome.bind_ok]
    rw [ih _ (i + 1) (by simp; omega) (by simpa using hj)]
    congr 1
    simp only [Mat.mk.injEq, true_and]
    funext a b
    simp only [List.length_cons]
    by_cases hb : b = j
    · subst hb
      by_cases ha : a = i
      · subst ha; simp; intro h; omega
      · by_cases h1 : i + 1 ≤ a ∧ a < i + 1 + vs.length
        · have e : a - i = (a - (i + 1)) + 1 := by omega
          rw [if_pos ⟨rfl, h1⟩, if_pos ⟨rfl, by omega, by omega⟩, e]
          simp
        · rw [if_neg (by simpa using h1), if_neg (by simp [ha]), if_neg]
          intro h; apply h1; omega
    · simp [hb]

end Tinyfk
