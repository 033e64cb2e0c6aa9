import Verif.Props.BaseJac
import Verif.Props.Com

/-!
# C31: the centre-of-mass Jacobian is the derivative of the centre of mass
-/

namespace Tinyfk

open Scalar

/-- `c v` is what `get_com` returns after `set_joint_angles([i], [v])` in state `m`. -/
def ComCurve (m : KinModel ℝ) (i : Nat) (c : ℝ → Vec3 ℝ) : Prop :=
  ∀ v, ∃ m1 m2, setJointAngles [i] [v] m = .ok () m1 ∧ getCom m1 = .ok (c v) m2

section
variable {ls : List (RawLink ℝ)} {js : List (RawJoint ℝ)} {m0 m m' : KinModel ℝ} {cs : List (Call ℝ)}

section

theorem foldl_comStep (xs : List (Inertial ℝ × Pose ℝ)) (a : Vec3 ℝ) (mt : ℝ) : xs.foldl comStep (a, mt) =
    (⟨xs.foldl (fun s x => s + x.1.mass * x.2.position.x) a.x, xs.foldl (fun s x => s + x.1.mass * x.2.position.y) a.y,
      xs.foldl (fun s x => s + x.1.mass * x.2.position.z) a.z⟩, xs.foldl (fun s x => s + x.1.mass) mt) := by
  induction xs generalizing a mt with
  | nil => rfl
  | cons x xs ih => simp only [List.foldl_cons, comStep, ih]

theorem hasDerivAt_foldl {α β : Type} {R : α → β → Prop} {g : α → ℝ → ℝ} {g' : β → ℝ} {θ : ℝ}
    (hR : ∀ a b, R a b → HasDerivAt (g a) (g' b) θ) {xs : List α} {ys : List β} (h : List.Forall₂ R xs ys)
    {s : ℝ → ℝ} {s' : ℝ} (hs : HasDerivAt s s' θ) :
    HasDerivAt (fun v => xs.foldl (fun s x => s + g x v) (s v)) (ys.foldl (fun s y => s + g' y) s') θ := by
  induction h generalizing s s' with
  | nil => exact hs
  | cons h1 _ ih => exact ih (hs.add (hR _ _ h1))

theorem foldl_mass {α β : Type} {R : α → β → Prop} {g : α → ℝ} {g' : β → ℝ}
    (hR : ∀ a b, R a b → g a = g' b) {xs : List α} {ys : List β} (h : List.Forall₂ R xs ys) (s : ℝ) :
    xs.foldl (fun s x => s + g x) s = ys.foldl (fun s y => s + g' y) s := by
  induction h generalizing s with
  | nil => rfl
  | cons h1 _ ih => simp only [List.foldl_cons, hR _ _ h1, ih]

/-- a body moving with joint `i`, beside its mass and Jacobian -/
def BodyMoves (m : KinModel ℝ) (i k : Nat) (θ : ℝ) (d : Nat) (y : Inertial ℝ × (ℝ → Pose ℝ)) (x : ℝ × Mat ℝ) : Prop :=
  (∀ v, IsComPt (turned m i v) d (y.1, y.2 v)) ∧ y.1.mass = x.1 ∧
    Vec3.HasDeriv (fun v => (y.2 v).position) ⟨x.2.f 0 k, x.2.f 1 k, x.2.f 2 k⟩ θ

theorem exists_moves {R : Nat → ℝ × Mat ℝ → Prop} {S : Nat → Inertial ℝ × (ℝ → Pose ℝ) → ℝ × Mat ℝ → Prop}
    (h : ∀ d x, R d x → ∃ y, S d y x) {ds : List Nat} {xs : List (ℝ × Mat ℝ)} (hf : List.Forall₂ R ds xs) :
    ∃ ys, List.Forall₂ (fun d y => ∃ x, S d y x) ds ys ∧ List.Forall₂ (fun y x => ∃ d, S d y x) ys xs := by
  induction hf with
  | nil => exact ⟨[], .nil, .nil⟩
  | cons h1 _ ih =>
    obtain ⟨y, hy⟩ := h _ _ h1
    obtain ⟨ys, h2, h3⟩ := ih
    exact ⟨y :: ys, .cons ⟨_, hy⟩ h2, .cons ⟨_, hy⟩ h3⟩

end

/-- **C31.** After any history, each joint column of `get_com_jacobian` is the derivative of `get_com` with
respect to the angle of that joint: `c v` is what `get_com` returns after `set_joint_angles([i], [v])`.
(If the total mass is zero both sides of the code divide by zero; over the reals that is 0.) -/
theorem C31_com_jacobian (h : Reach ls js m0 cs m) (hf : Shallow ls js m0 cs) (hu : UnitDesc js) (hc : UnitCalls cs)
    {ids : List Nat} (hids : ∀ i ∈ ids, i < m.joints.length) (wb : Bool) :
    ∃ J m', getComJacobian ids wb m = .ok J m' ∧ J.rows = 3 ∧ ∀ k i, ids[k]? = some i →
      ∃ θ c, getJointAngles [i] m = .ok [θ] m ∧ ComCurve m i c ∧
        HasDerivAt (fun v => (c v).x) (J.f 0 k) θ ∧
        HasDerivAt (fun v => (c v).y) (J.f 1 k) θ ∧
        HasDerivAt (fun v => (c v).z) (J.f 2 k) θ := by
  obtain ⟨xs, hxs⟩ := h.abs.inv.exists_comJacs hids wb m.base
  obtain ⟨m', e, _⟩ := (Query.getComJacobian hxs (fun _ => h.root_pose)).run (h.ready hf)
  refine ⟨_, m', e, rfl, ?_⟩
  intro k i hk
  have hi := hids i (List.mem_of_getElem? hk)
  have hil : i < m.angles.length := by rw [h.abs.inv.graph.anglesLen]; exact hi
  have hθ : m.angles[i]? = some m.angles[i] := by simp [hil]
  have hkl : k < ids.length := (List.getElem?_eq_some_iff.mp hk).1
  have hone : ∀ d x, IsComJac m ids wb m.base d x ∧ d ∈ m.comDummy → ∃ y, BodyMoves m i k m.angles[i] d y x := by
    rintro d x ⟨⟨lk, inr, E, cols, h1, h2, h3, h4, h5, h6, h7⟩, hd⟩
    have hrp := h.abs.inv.rp (List.ne_nil_of_mem hd)
    have hkc : k < cols.length := by rw [← h6.length_eq]; exact hkl
    obtain ⟨dd, a, T, hT, hJ⟩ := h.moves hu hc hrp (List.getElem?_eq_some_iff.mp h1).1 hi h5 (rt := .ignore)
      (B := if wb then some m.base else none) (show cols[k]? = some cols[k] by simp [hkc]) (by
        have hk2 := (List.getElem?_eq_some_iff.mp hk).2
        rw [← hk2]
        exact (List.forall₂_iff_get.mp h6).2 k hkl hkc) hθ
    refine ⟨(inr, T), fun v => ⟨lk, h1, h2, h3, hT.pose v⟩, h4, ?_⟩
    rw [h7, hJ.x, hJ.y, hJ.z]
    exact hT.pos
  have hxs' : List.Forall₂ (fun d x => IsComJac m ids wb m.base d x ∧ d ∈ m.comDummy) m.comDummy xs := by
    have key : ∀ {ds : List Nat} {xs : List (ℝ × Mat ℝ)}, List.Forall₂ (IsComJac m ids wb m.base) ds xs →
        (∀ d ∈ ds, d ∈ m.comDummy) → List.Forall₂ (fun d x => IsComJac m ids wb m.base d x ∧ d ∈ m.comDummy) ds xs := by
      intro ds xs hf
      induction hf with
      | nil => intro _; exact .nil
      | cons a _ ih => intro hd; exact .cons ⟨a, hd _ (by simp)⟩ (ih fun d hd' => hd d (by simp [hd']))
    exact key hxs fun _ => id
  obtain ⟨ys, hy1, hy2⟩ := exists_moves hone hxs'
  refine ⟨_, fun v => comVal (ys.map fun y => (y.1, y.2 v)), getJointAngles_one hθ, ?_, ?_⟩
  · intro v
    have hready := (h.abs.inv.turned i v).ready (FitsStack.congr (m := m) rfl rfl (h.fits hf))
    have hpts : List.Forall₂ (IsComPt (turned m i v)) (turned m i v).comDummy (ys.map fun y => (y.1, y.2 v)) := by
      rw [List.forall₂_map_right_iff]
      exact hy1.imp fun d y ⟨x, hx⟩ => hx.1 v
    obtain ⟨m2, e2, _⟩ := (Query.getCom hpts).run hready
    exact ⟨_, m2, turned_set hil v, e2⟩
  · have hmass := foldl_mass (g := fun y : Inertial ℝ × (ℝ → Pose ℝ) => y.1.mass) (g' := fun x : ℝ × Mat ℝ => x.1)
      (fun a b ⟨d, hd⟩ => hd.2.1) hy2 0
    have hd0 : HasDerivAt (fun _ : ℝ => (0 : ℝ)) 0 m.angles[i] := hasDerivAt_const _ _
    have hnc : k < ids.length + (if wb then 6 else 0) := by omega
    have hval : ∀ a < 3, (comJacVal (ids.length + if wb then 6 else 0) xs).f a k =
        (xs.foldl (fun s x => s + x.1 * x.2.f a k) 0) / (xs.foldl (fun s x => s + x.1) 0) := by
      intro a ha
      simp [comJacVal, ha, hnc]
    rw [hval 0 (by omega), hval 1 (by omega), hval 2 (by omega)]
    simp only [comVal, foldl_comStep, Vec3.zero]
    simp only [List.foldl_map]
    rw [hmass]
    refine ⟨?_, ?_, ?_⟩
    · exact (hasDerivAt_foldl (g := fun (y : Inertial ℝ × (ℝ → Pose ℝ)) v => y.1.mass * (y.2 v).position.x)
        (g' := fun x : ℝ × Mat ℝ => x.1 * x.2.f 0 k) (fun a b ⟨d, hd⟩ => by
          have := hd.2.2.1.const_mul a.1.mass
          rw [hd.2.1] at this ⊢
          exact this) hy2 hd0).div_const _
    · exact (hasDerivAt_foldl (g := fun (y : Inertial ℝ × (ℝ → Pose ℝ)) v => y.1.mass * (y.2 v).position.y)
        (g' := fun x : ℝ × Mat ℝ => x.1 * x.2.f 1 k) (fun a b ⟨d, hd⟩ => by
          have := hd.2.2.2.1.const_mul a.1.mass
          rw [hd.2.1] at this ⊢
          exact this) hy2 hd0).div_const _
    · exact (hasDerivAt_foldl (g := fun (y : Inertial ℝ × (ℝ → Pose ℝ)) v => y.1.mass * (y.2 v).position.z)
        (g' := fun x : ℝ × Mat ℝ => x.1 * x.2.f 2 k) (fun a b ⟨d, hd⟩ => by
          have := hd.2.2.2.2.const_mul a.1.mass
          rw [hd.2.1] at this ⊢
          exact this) hy2 hd0).div_const _

end

namespace Example

example := C31_com_jacobian m1_reach shallow unitDesc unitCalls_hist two_joints true

end Example
end Tinyfk
