import Verif.Proofs.JacQuery
import Verif.Proofs.Inv

/-!
# Values of the centre-of-mass and inertia queries
-/

set_option linter.unusedSectionVars false

namespace Tinyfk

open Scalar

variable {K : Type} [Scalar K]

/-- the `<inertial>` and the pose of a centre-of-mass link -/
def IsComPt (m : KinModel K) (d : Nat) (x : Inertial K × Pose K) : Prop :=
  ∃ lk, m.links[d]? = some lk ∧ lk.id = d ∧ lk.inertial = some x.1 ∧ IsPose m d x.2

/-- one step of the weighted sum -/
def comStep (a : Vec3 K × K) (x : Inertial K × Pose K) : Vec3 K × K :=
  (⟨a.1.x + x.1.mass * x.2.position.x, a.1.y + x.1.mass * x.2.position.y,
    a.1.z + x.1.mass * x.2.position.z⟩, a.2 + x.1.mass)

/-- weighted sum over total mass -/
def comVal (xs : List (Inertial K × Pose K)) : Vec3 K :=
  let s := xs.foldl comStep (Vec3.zero, 0)
  ⟨s.1.x / s.2, s.1.y / s.2, s.1.z / s.2⟩

theorem Query.comLinkData {m : KinModel K} {d : Nat} {x : Inertial K × Pose K} (h : IsComPt m d x) :
    Query m (comLinkData d) (x.1, d) := by
  obtain ⟨lk, h1, h2, h3, _⟩ := h
  refine Query.read ?_
  rintro m1 ⟨⟨s, c, rfl⟩, _⟩
  simp only [h1, h2, h3]

theorem Query.comLoop {m : KinModel K} {ds : List Nat} {xs : List (Inertial K × Pose K)}
    (h : List.Forall₂ (IsComPt m) ds xs) (acc : Vec3 K) (mt : K) :
    Query m (comLoop ds acc mt) (xs.foldl comStep (acc, mt)) := by
  induction h generalizing acc mt with
  | nil => exact Query.pure m _
  | @cons d x ds xs hd _ ih =>
    rw [Tinyfk.comLoop]
    refine Query.bind (Query.comLinkData hd) ?_
    refine Query.bind (Query.getLinkPose hd.choose_spec.2.2.2) ?_
    exact ih _ _

theorem Query.getCom {m : KinModel K} {xs : List (Inertial K × Pose K)}
    (h : List.Forall₂ (IsComPt m) m.comDummy xs) : Query m getCom (comVal xs) := by
  unfold Tinyfk.getCom
  refine Query.bind (v := m.comDummy) (Query.read ?_) ?_
  · rintro m1 ⟨⟨s, c, rfl⟩, _⟩; rfl
  refine Query.bind (Query.comLoop h _ _) ?_
  exact Query.pure m _

/-- one step of the inertia sum -/
def inertiaStep (com : Vec3 K) (acc : M3 K) (x : Inertial K × Pose K) : M3 K :=
  M3.add acc (M3.add (M3.mul (M3.mul x.2.rotation.mat x.1.mat) (M3.tr x.2.rotation.mat))
    (transTerm x.1.mass (Vec3.sub x.2.position com)))

theorem Query.inertiaLoop {m : KinModel K} {ds : List Nat} {xs : List (Inertial K × Pose K)}
    (h : List.Forall₂ (IsComPt m) ds xs) (com : Vec3 K) (acc : M3 K) :
    Query m (inertiaLoop com ds acc) (xs.foldl (inertiaStep com) acc) := by
  induction h generalizing acc with
  | nil => exact Query.pure m _
  | @cons d x ds xs hd _ ih =>
    rw [Tinyfk.inertiaLoop]
    obtain ⟨lk, h1, h2, h3, h4⟩ := hd
    refine Query.bind (v := (some x.1, d)) (Query.read ?_) ?_
    · rintro m1 ⟨⟨s, c, rfl⟩, _⟩
      simp only [h1, h2, h3]
    refine Query.bind (Query.getLinkPose h4) ?_
    exact ih _

theorem Query.getTotalInertia {m : KinModel K} {xs : List (Inertial K × Pose K)}
    (h : List.Forall₂ (IsComPt m) m.comDummy xs) :
    Query m getTotalInertia (xs.foldl (inertiaStep (comVal xs)) M3.zero) := by
  unfold Tinyfk.getTotalInertia
  refine Query.bind (Query.getCom h) ?_
  refine Query.bind (v := m.comDummy) (Query.read ?_) (Query.inertiaLoop h _ _)
  rintro m1 ⟨⟨s, c, rfl⟩, _⟩; rfl

/-- the mass and the Jacobian of a centre-of-mass link -/
def IsComJac (m : KinModel K) (ids : List Nat) (withBase : Bool) (tfB : Pose K) (d : Nat)
    (x : K × Mat K) : Prop :=
  ∃ lk inr tfE cols, m.links[d]? = some lk ∧ lk.id = d ∧ lk.inertial = some inr ∧ inr.mass = x.1 ∧
    IsPose m d tfE ∧ List.Forall₂ (IsJointCol m .ignore d tfE) ids cols ∧
    x.2 = jacMat .ignore cols tfE (if withBase then some tfB else none)

/-- closed form of `get_com_jacobian` -/
def comJacVal (nc : Nat) (xs : List (K × Mat K)) : Mat K :=
  ⟨3, nc, fun a b => if a < 3 ∧ b < nc then
    (xs.foldl (fun s x => s + x.1 * x.2.f a b) 0) / (xs.foldl (fun s x => s + x.1) 0) else 0⟩

/-- the accumulator of the loop -/
def comJacAcc (nc : Nat) (g : Nat → Nat → K) : Mat K :=
  ⟨3, nc, fun a b => if a < 3 ∧ b < nc then g a b else 0⟩

theorem Query.comJacLoop {m : KinModel K} {ids : List Nat} {withBase : Bool} {tfB : Pose K}
    {ds : List Nat} {xs : List (K × Mat K)} (h : List.Forall₂ (IsComJac m ids withBase tfB) ds xs)
    (hB : withBase = true → IsPose m m.rootLinkId tfB)
    (g : Nat → Nat → K) (mt : K) :
    Query m (comJacLoop ids withBase ds (comJacAcc (ids.length + if withBase then 6 else 0) g) mt)
      (comJacAcc (ids.length + if withBase then 6 else 0)
        (fun a b => xs.foldl (fun s x => s + x.1 * x.2.f a b) (g a b)),
        xs.foldl (fun s x => s + x.1) mt) := by
  induction h generalizing g mt with
  | nil => exact Query.pure m _
  | @cons d x ds xs hd _ ih =>
    obtain ⟨lk, inr, tfE, cols, h1, h2, h3, h4, h5, h6, h7⟩ := hd
    rw [Tinyfk.comJacLoop]
    refine Query.bind (v := (inr, d)) (Query.read ?_) ?_
    · rintro m1 ⟨⟨s, c, rfl⟩, _⟩
      simp only [h1, h2, h3]
    refine Query.bind (Query.getJacobian h5 h6 (tfB := tfB) withBase hB) ?_
    have hlen := h6.length_eq
    refine Query.bind (Query.lift (v := comJacAcc (ids.length + if withBase then 6 else 0)
      (fun a b => g a b + x.1 * x.2.f a b)) ?_) ?_
    · rw [← h7]
      have hr : x.2.rows = 3 := by rw [h7]; rfl
      have hcn : x.2.cols = ids.length + if withBase then 6 else 0 := by
        rw [h7]; cases withBase <;> simp [jacMat, hlen]
      simp only [Mat.addScaled, Mat.addBlock, comJacAcc, Nat.zero_add, Nat.le_refl, true_and,
        hr, hcn, and_self, if_true, Nat.zero_le, Nat.sub_zero, h4]
      congr 2
      funext a b
      by_cases hab : a < 3 ∧ b < ids.length + if withBase then 6 else 0
      · simp only [hab, and_self, if_true]
      · simp only [hab, if_false]
    · rw [h4]
      exact ih _ _

theorem Query.getComJacobian {m : KinModel K} {ids : List Nat} {withBase : Bool} {tfB : Pose K}
    {xs : List (K × Mat K)} (h : List.Forall₂ (IsComJac m ids withBase tfB) m.comDummy xs)
    (hB : withBase = true → IsPose m m.rootLinkId tfB) :
    Query m (getComJacobian ids withBase) (comJacVal (ids.length + if withBase then 6 else 0) xs) := by
  unfold Tinyfk.getComJacobian
  refine Query.bind (v := m.comDummy) (Query.read ?_) ?_
  · rintro m1 ⟨⟨s, c, rfl⟩, _⟩; rfl
  have h0 : (Mat.zero 3 (ids.length + if withBase then 6 else 0) : Mat K) =
      comJacAcc (ids.length + if withBase then 6 else 0) (fun _ _ => 0) := by
    simp [Mat.zero, comJacAcc]
  rw [h0]
  refine Query.bind (Query.comJacLoop h hB _ _) ?_
  refine Query.lift ?_
  simp only [Mat.divScalar, Mat.mapBlock, comJacAcc, comJacVal, Nat.zero_add, Nat.le_refl, and_self,
    if_true, Nat.zero_le, true_and]
  congr 2
  funext a b
  by_cases hab : a < 3 ∧ b < ids.length + if withBase then 6 else 0
  · simp only [hab, and_self, if_true]
  · simp only [hab, if_false]

/-! ### Existence of the ingredients -/

theorem Inv.exists_pose {m : KinModel K} (h : Inv m) {l : Nat} (hl : l < m.links.length) :
    ∃ T, IsPose m l T := h.graph.tree.exists_pose hl

theorem RpOK.exists_col {m : KinModel K} (h : RpOK m) (g : Graph m) (rt : RotType) {l i : Nat}
    (hl : l < m.links.length) (hi : i < m.joints.length) (tfE : Pose K) :
    ∃ col, IsJointCol m rt l tfE i col := by
  obtain ⟨b, hb, hiff⟩ := h.sized.isRelevant hl hi
  cases b with
  | false => exact ⟨_, .inl ⟨hb, rfl⟩⟩
  | true =>
    obtain ⟨jp, hjp⟩ : ∃ jp, m.joints[i]? = some jp := ⟨_, List.getElem?_eq_getElem hi⟩
    obtain ⟨j, c, lk, p, h1, h2, h3, h4, h5, h6, h7⟩ := g.joint hjp
    obtain ⟨T, hT⟩ := g.tree.exists_pose (List.getElem?_eq_some_iff.mp h5).1
    exact ⟨_, .inr ⟨jp, j, c, T, hb, hjp, h1, h4, ⟨lk, h5, g.ids h5⟩, hT, rfl⟩⟩

theorem RpOK.exists_cols {m : KinModel K} (h : RpOK m) (g : Graph m) (rt : RotType) {l : Nat}
    (hl : l < m.links.length) {ids : List Nat} (hi : ∀ i ∈ ids, i < m.joints.length) (tfE : Pose K) :
    ∃ cols, List.Forall₂ (IsJointCol m rt l tfE) ids cols := by
  induction ids with
  | nil => exact ⟨[], .nil⟩
  | cons a ids ih =>
    obtain ⟨cols, hc⟩ := ih (fun i hi' => hi i (by simp [hi']))
    obtain ⟨col, hcol⟩ := h.exists_col g rt hl (hi a (by simp)) tfE
    exact ⟨col :: cols, .cons hcol hc⟩

theorem forall₂_exists {α β : Type} {R : α → β → Prop} (l : List α) (h : ∀ a ∈ l, ∃ b, R a b) :
    ∃ bs, List.Forall₂ R l bs := by
  induction l with
  | nil => exact ⟨[], .nil⟩
  | cons a l ih =>
    obtain ⟨bs, hbs⟩ := ih (fun x hx => h x (by simp [hx]))
    obtain ⟨b, hb⟩ := h a (by simp)
    exact ⟨b :: bs, .cons hb hbs⟩

theorem Inv.exists_comPts {m : KinModel K} (h : Inv m) : ∃ xs, List.Forall₂ (IsComPt m) m.comDummy xs := by
  apply forall₂_exists
  intro d hd
  obtain ⟨lk, inr, h1, h2⟩ := h.com d hd
  obtain ⟨T, hT⟩ := h.exists_pose (List.getElem?_eq_some_iff.mp h1).1
  exact ⟨(inr, T), lk, h1, h.graph.ids h1, h2, hT⟩

theorem Inv.exists_comJacs {m : KinModel K} (h : Inv m) {ids : List Nat}
    (hi : ∀ i ∈ ids, i < m.joints.length) (withBase : Bool) (tfB : Pose K) :
    ∃ xs, List.Forall₂ (IsComJac m ids withBase tfB) m.comDummy xs := by
  apply forall₂_exists
  intro d hd
  obtain ⟨lk, inr, h1, h2⟩ := h.com d hd
  have hlt := (List.getElem?_eq_some_iff.mp h1).1
  obtain ⟨T, hT⟩ := h.exists_pose hlt
  obtain ⟨cols, hcols⟩ := (h.rp (List.ne_nil_of_mem hd)).exists_cols h.graph .ignore hlt hi T
  exact ⟨(inr.mass, _), lk, inr, T, cols, h1, h.graph.ids h1, h2, rfl, hT, hcols, rfl⟩

end Tinyfk
