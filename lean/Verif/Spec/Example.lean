import Verif.Model.Real
import Verif.Proofs.Depth

/-!
# A concrete robot

Used to show that the hypotheses of the property theorems are met by a non-trivial case:
four links, a revolute, a prismatic and a fixed joint, two links with mass.
-/

namespace Tinyfk.Example

open Tinyfk

/-- inertial of the arm: 2 kg at (0, 0, 0.5) -/
noncomputable def armInertial : Inertial ℝ :=
  ⟨⟨⟨0, 0, 1/2⟩, Rot.one⟩, 2, 1, 0, 0, 1, 0, 1⟩

/-- inertial of the tip: 1 kg at (1, 0, 0) -/
noncomputable def tipInertial : Inertial ℝ :=
  ⟨⟨⟨1, 0, 0⟩, Rot.one⟩, 1, 1, 0, 0, 2, 0, 3⟩

/-- the `<link>` elements -/
noncomputable def ls : List (RawLink ℝ) :=
  [⟨"base", none⟩, ⟨"arm", some armInertial⟩, ⟨"hand", none⟩, ⟨"tip", some tipInertial⟩]

/-- the revolute joint -/
noncomputable def turn : RawJoint ℝ :=
  ⟨"turn", .revolute, ⟨0, 0, 1⟩, ⟨⟨0, 0, 1⟩, Rot.one⟩, "base", "arm", some ⟨-1, 1, 10, 2⟩⟩
/-- the prismatic joint -/
noncomputable def slide : RawJoint ℝ :=
  ⟨"slide", .prismatic, ⟨1, 0, 0⟩, ⟨⟨0, 0, 2⟩, Rot.one⟩, "arm", "hand", some ⟨0, 1, 5, 1⟩⟩
/-- the fixed joint -/
noncomputable def weld : RawJoint ℝ :=
  ⟨"weld", .fixed, ⟨1, 0, 0⟩, ⟨⟨0, 3, 0⟩, Rot.one⟩, "hand", "tip", none⟩

/-- the `<joint>` elements -/
noncomputable def js : List (RawJoint ℝ) := [turn, slide, weld]

theorem isTree : IsTree js := by
  refine ⟨by simp [js, turn, slide, weld], ?_⟩
  refine ⟨fun s => if s = "base" then 0 else if s = "arm" then 1 else if s = "hand" then 2 else 3, ?_⟩
  simp [js, turn, slide, weld]

theorem supported : Supported js := by
  intro j hj
  simp only [js, List.mem_cons, List.not_mem_nil, or_false] at hj
  rcases hj with rfl | rfl | rfl
  · right; left; rfl
  · right; right; right; rfl
  · left; rfl

theorem accepted : (buildModel ls js).isSome := by
  rw [buildModel_isSome]
  refine ⟨by simp [ls], by simp [js, turn, slide, weld], by simp [ls], ?_, "base", ?_, ?_⟩
  · simp [ls, js, turn, slide, weld]
  · simp [ls, js, turn, slide, weld]
  · simp [ls, js, turn, slide, weld]

theorem noClash : NoComClash ls := by
  intro r hr
  simp only [ls, List.mem_cons, List.not_mem_nil, or_false] at hr
  rcases hr with rfl | rfl | rfl | rfl <;> simp [ls]

theorem constructs : ∃ m0, construct (buildModel ls js) = .ok m0 :=
  construct_exists accepted isTree supported noClash

/-- the constructed robot -/
noncomputable def m0 : KinModel ℝ := constructs.choose

theorem m0_spec : construct (buildModel ls js) = .ok m0 := constructs.choose_spec

theorem constructed : Constructed ls js m0 := constructed_of_ok isTree supported m0_spec

/-- links are numbered in the order of their names, then the centre-of-mass links -/
theorem linkNames : m0.links.map Link.name = ["arm", "base", "hand", "tip", "arm_com", "tip_com"] := by
  obtain ⟨sorted, hp, hs, _, _, h⟩ := constructed.order
  have h1 : sorted = [⟨"arm", some armInertial⟩, ⟨"base", none⟩, ⟨"hand", none⟩, ⟨"tip", some tipInertial⟩] := by
    have hp' : sorted.Perm [⟨"arm", some armInertial⟩, ⟨"base", none⟩, ⟨"hand", none⟩, ⟨"tip", some tipInertial⟩] :=
      hp.trans (List.Perm.swap _ _ _)
    refine List.Perm.eq_of_pairwise (le := fun a b => a.name < b.name) ?_ (List.pairwise_map.mp hs) ?_ hp'
    · intro a b _ _ h1 h2
      exact absurd (String.lt_trans h1 h2) (String.lt_irrefl _)
    · simp only [List.pairwise_cons, List.mem_cons, List.not_mem_nil, or_false, forall_eq_or_imp, forall_eq, false_implies, implies_true, List.Pairwise.nil, and_true]
      decide
  rw [h, h1]
  rfl

/-- joints are numbered in the order of their names; fixed joints get no number -/
theorem jointIds (s : String) (i : Nat) : m0.jointIds.find s = some i ↔
    (s = "slide" ∧ i = 0) ∨ (s = "turn" ∧ i = 1) := by
  obtain ⟨names, hs, hp, h⟩ := constructed.jointOrder
  have h1 : names = ["slide", "turn"] := by
    have e : ((js.filter fun j => decide j.type.Movable).map RawJoint.name) = ["turn", "slide"] := by
      simp [js, turn, slide, weld, JointType.Movable]
    rw [e] at hp
    refine List.Perm.eq_of_pairwise (le := fun a b => a < b) ?_ hs ?_ (hp.trans (List.Perm.swap _ _ _))
    · intro a b _ _ h1 h2
      exact absurd (String.lt_trans h1 h2) (String.lt_irrefl _)
    · simp only [List.pairwise_cons, List.mem_cons, List.not_mem_nil, or_false, forall_eq, false_implies, implies_true, List.Pairwise.nil, and_true]
      decide
  rw [constructed.inv.graph.jointNames s i, ← h, h1]
  match i with
  | 0 => simp [eq_comm]
  | 1 => simp [eq_comm]
  | i + 2 => simp

theorem linkIds (s : String) (l : Nat) : m0.linkIds.find s = some l ↔
    ["arm", "base", "hand", "tip", "arm_com", "tip_com"][l]? = some s := by
  rw [constructed.inv.graph.linkNames s l, ← linkNames, List.getElem?_map]
  simp

theorem joints_length : m0.joints.length = 2 := by
  obtain ⟨names, hs, hp, h⟩ := constructed.jointOrder
  have e : ((js.filter fun j => decide j.type.Movable).map RawJoint.name).length = 2 := by
    simp [js, turn, slide, weld, JointType.Movable]
  have hl : names.length = 2 := by rw [hp.length_eq, e]
  have key : ∀ i, i < names.length ↔ i < m0.joints.length := by
    intro i
    constructor
    · intro hi
      obtain ⟨jp, j, hj, _⟩ := (h i _).mp (List.getElem?_eq_getElem hi)
      exact (List.getElem?_eq_some_iff.mp hj).1
    · intro hi
      obtain ⟨j, _, _, _, hj, _⟩ := constructed.inv.graph.joint (List.getElem?_eq_getElem hi)
      exact (List.getElem?_eq_some_iff.mp ((h i _).mpr ⟨_, j, List.getElem?_eq_getElem hi, hj, rfl⟩)).1
  have a := key 2
  have b := key 1
  omega

theorem links_length : m0.links.length = 6 := by
  have := congrArg List.length linkNames
  simpa using this

end Tinyfk.Example
