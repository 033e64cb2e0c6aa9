import Verif.Props.Document

/-!
# A document that meets the hypotheses of the theorems on documents
-/

set_option linter.unusedSimpArgs false

namespace Tinyfk.DocExample

variable {K : Type} [Scalar K]

/-- a reader of numbers that knows "0" and "1" -/
def num (s : String) : Option K := if s = "0" then some 0 else if s = "1" then some 1 else none

/-- `<joint name="j" type="revolute">` with origin, axis (extra spaces) and limits -/
def jointElem : Elem :=
  .mk "joint" [("name", "j"), ("type", "revolute")]
    [.mk "origin" [("xyz", "0 0 1")] [], .mk "parent" [("link", "base")] [], .mk "child" [("link", "arm")] [],
     .mk "axis" [("xyz", " 0  0 1 ")] [], .mk "limit" [("upper", "1"), ("effort", "1"), ("velocity", "0")] []]

/-- `<inertial>` with mass 1 and identity inertia -/
def inertialElem : Elem :=
  .mk "inertial" []
    [.mk "mass" [("value", "1")] [],
     .mk "inertia" [("ixx", "1"), ("ixy", "0"), ("ixz", "0"), ("iyy", "1"), ("iyz", "0"), ("izz", "1")] []]

/-- `<inertial>` whose mass is not a number -/
def badInertial : Elem := .mk "inertial" [] [.mk "mass" [("value", "heavy")] []]

/-- `<link name="base">` with an inertial element -/
def baseElem (i : Elem) : Elem := .mk "link" [("name", "base")] [i]

/-- `<link name="arm"/>` -/
def armElem : Elem := .mk "link" [("name", "arm")] []

/-- the robot -/
def robotElem (i : Elem) : Elem := .mk "robot" [("name", "r")] [baseElem i, jointElem, armElem]

/-- what the joint element says -/
def joint : RawJoint K :=
  ⟨"j", .revolute, ⟨0, 0, 1⟩, ⟨⟨0, 0, 1⟩, ⟨0, 0, 0, 1⟩⟩, "base", "arm", some ⟨0, 1, 1, 0⟩⟩

/-- what the inertial element says -/
def inertial : Inertial K := ⟨⟨⟨0, 0, 0⟩, ⟨0, 0, 0, 1⟩⟩, 1, 1, 0, 0, 1, 0, 1⟩

theorem words1 : ThreeWords "0 0 1" "0" "0" "1" :=
  ⟨by decide, [], [' '], [' '], [], by simp [Spaces], by simp [Spaces], by simp [Spaces], by simp [Spaces], by decide, by decide, by decide⟩

theorem words2 : ThreeWords " 0  0 1 " "0" "0" "1" :=
  ⟨by decide, [' '], [' ', ' '], [' '], [' '], by simp [Spaces], by simp [Spaces], by simp [Spaces], by simp [Spaces], by decide, by decide, by decide⟩

theorem num0 : num (K := K) "0" = some 0 := rfl

theorem num1 : num (K := K) "1" = some 1 := by simp [num]

theorem joint_says : JointSays num jointElem (joint : RawJoint K) where
  name := rfl
  type := ⟨"revolute", rfl, .revolute⟩
  origin := .inr ⟨.mk "origin" [("xyz", "0 0 1")] [], rfl,
    .inr ⟨"0 0 1", rfl, "0", "0", "1", words1, num0, num0, num1⟩, .inl ⟨rfl, rfl⟩⟩
  parent := .inl ⟨.mk "parent" [("link", "base")] [], rfl, rfl⟩
  child := .inl ⟨.mk "child" [("link", "arm")] [], rfl, rfl⟩
  axis := .given (a := .mk "axis" [("xyz", " 0  0 1 ")] []) (s := " 0  0 1 ") (by simp [joint]) rfl rfl
    ⟨"0", "0", "1", words2, num0, num0, num1⟩
  limits := .inl ⟨.mk "limit" [("upper", "1"), ("effort", "1"), ("velocity", "0")] [], ⟨0, 1, 1, 0⟩, rfl,
    ⟨.inl ⟨rfl, rfl⟩, .inr ⟨"1", rfl, num1⟩, .inr ⟨"1", rfl, num1⟩, .inr ⟨"0", rfl, num0⟩⟩, rfl⟩

theorem extras : ExtrasOk (num (K := K)) jointElem :=
  ⟨fun _ h => by simp [jointElem, Elem.firstChild, Elem.children, Elem.name] at h,
   fun _ h => by simp [jointElem, Elem.firstChild, Elem.children, Elem.name] at h,
   fun _ h => by simp [jointElem, Elem.firstChild, Elem.children, Elem.name] at h,
   fun _ h => by simp [jointElem, Elem.firstChild, Elem.children, Elem.name] at h⟩

theorem inertial_says : InertialSays num inertialElem (inertial : Inertial K) where
  origin := .inl ⟨rfl, rfl⟩
  mass := ⟨.mk "mass" [("value", "1")] [], rfl, .inr ⟨"1", rfl, num1⟩⟩
  inertia := ⟨.mk "inertia" [("ixx", "1"), ("ixy", "0"), ("ixz", "0"), ("iyy", "1"), ("iyz", "0"), ("izz", "1")] [], rfl,
    .inr ⟨"1", rfl, num1⟩, .inr ⟨"0", rfl, num0⟩, .inr ⟨"0", rfl, num0⟩, .inr ⟨"1", rfl, num1⟩, .inr ⟨"0", rfl, num0⟩,
    .inr ⟨"1", rfl, num1⟩⟩

theorem links_of (i : Elem) : (robotElem i).childrenNamed "link" = [baseElem i, armElem] := by
  simp [robotElem, Elem.childrenNamed, Elem.children, baseElem, jointElem, armElem, Elem.name]

theorem joints_of (i : Elem) : (robotElem i).childrenNamed "joint" = [jointElem] := by
  simp [robotElem, Elem.childrenNamed, Elem.children, baseElem, jointElem, armElem, Elem.name]

theorem materials_of (i : Elem) : (robotElem i).childrenNamed "material" = [] := by
  simp [robotElem, Elem.childrenNamed, Elem.children, baseElem, jointElem, armElem, Elem.name]

theorem found (i : Elem) : [robotElem i].find? (fun e => e.name == "robot") = some (robotElem i) := rfl

/-- The document is accepted (whatever the inertial element is): the right hand side of `C64_accepts_iff` holds. -/
theorem accepted (i : Elem) : ∃ r m, parseURDF (num (K := K)) [robotElem i] = some (r, m) := by
  rw [C64_accepts_iff]
  refine ⟨robotElem i, found i, rfl, rfl, by simp [materials_of], [joint], ?_, ?_, by simp, by simp [links_of], ?_, ?_⟩
  · rw [joints_of]
    exact .cons ⟨joint_says, extras⟩ .nil
  · rw [links_of]
    show ["base", "arm"].Nodup
    decide
  · rw [links_of]
    intro j hj
    simp only [List.mem_singleton] at hj
    subst hj
    show _ ∧ _ ∧ "arm" ∈ ["base", "arm"] ∧ "base" ∈ ["base", "arm"]
    simp [joint]
  · rw [links_of]
    refine ⟨"base", ⟨by show "base" ∈ ["base", "arm"]; simp, by simp [joint]⟩, ?_⟩
    rintro r ⟨hr, hj⟩
    have hr : r ∈ ["base", "arm"] := hr
    have hj := hj joint (by simp)
    simp only [List.mem_cons, List.not_mem_nil, or_false] at hr
    rcases hr with rfl | rfl
    · rfl
    · exact absurd rfl hj

/-- the hypotheses of `C65_content` -/
theorem links_say : List.Forall₂ (LinkSays num) ((robotElem inertialElem).childrenNamed "link")
    [(⟨"base", some inertial⟩ : RawLink K), ⟨"arm", none⟩] := by
  rw [links_of]
  exact .cons ⟨rfl, .inr ⟨inertialElem, _, rfl, inertial_says, rfl⟩⟩ (.cons ⟨rfl, .inl ⟨rfl, rfl⟩⟩ .nil)

example : ∃ (m : ModelInterface K) (js : List (RawJoint K)),
    List.Forall₂ (JointSays num) ((robotElem inertialElem).childrenNamed "joint") js ∧
    buildModel [⟨"base", some inertial⟩, ⟨"arm", none⟩] js = some m := by
  obtain ⟨r, m, h⟩ := accepted (K := K) inertialElem
  exact ⟨m, C65_content h (found _) links_say⟩

theorem bad_inertial : ¬ ∃ i, InertialSays (num (K := K)) badInertial i := by
  rintro ⟨i, h⟩
  obtain ⟨c, h1, _⟩ := h.inertia
  simp [badInertial, Elem.firstChild, Elem.children, Elem.name] at h1

-- a visual without geometry
example : ∃ r m, parseURDF (num (K := K)) [robotElem (.mk "visual" [] [])] = some (r, m) ∧
    ∃ lk ∈ r.links, lk.name = "base" ∧ lk.collisions = [] := by
  obtain ⟨r, m, h⟩ := accepted (K := K) (.mk "visual" [] [])
  exact ⟨r, m, h, C69_malformed_visual h (found _) (e := baseElem (.mk "visual" [] [])) (v := .mk "visual" [] [])
    (by rw [links_of]; simp) rfl (by simp [baseElem, Elem.childrenNamed, Elem.children, Elem.name]) rfl⟩

/-- **C69 is false.** A document whose `<mass>` is not a number is accepted, and its link has mass zero. -/
theorem C69_false : ∃ r m, parseURDF (num (K := K)) [robotElem badInertial] = some (r, m) ∧
    ∃ lk ∈ m.links, ∃ i : Inertial K, lk.name = "base" ∧ lk.inertial = some i ∧ i.mass = 0 := by
  obtain ⟨r, m, h⟩ := accepted (K := K) badInertial
  obtain ⟨lk, h1, i, h2, h3, _, _, _, _, _, _, h4⟩ := C69_malformed_inertial h (found _) (e := baseElem badInertial)
    (by rw [links_of]; simp) rfl rfl bad_inertial
  refine ⟨r, m, h, lk, h1, i, h2, h3, ?_⟩
  rcases h4 with h4 | ⟨e, h5, h6⟩
  · exact h4
  · have : e = .mk "mass" [("value", "heavy")] [] := by
      simp [badInertial, Elem.firstChild, Elem.children, Elem.name] at h5
      exact h5.symm
    subst this
    rcases h6 with ⟨h6, _⟩ | ⟨s, h6, h7⟩
    · cases h6
    · have : s = "heavy" := by simpa [Elem.attr, Elem.attrs] using h6.symm
      subst this
      simp [num] at h7

/-- elements in another order: the hypotheses of `C68_element_order` -/
example : (parseURDF (num (K := K)) [robotElem inertialElem]).map (·.2) =
    (parseURDF (num (K := K)) [.mk "robot" [("name", "r")] [jointElem, armElem, baseElem inertialElem]]).map (·.2) :=
  C68_element_order (found _) rfl rfl rfl
    (by
      show [baseElem inertialElem, jointElem, armElem].Perm [jointElem, armElem, baseElem inertialElem]
      exact (List.Perm.swap _ _ _).trans ((List.Perm.swap _ _ _).cons _))

/-- the hypotheses of `C67_unused_elements`: a link gains a visual -/
example (v : Elem) (hv : v.name = "visual") : (parseURDF (num (K := K)) [robotElem inertialElem]).map (·.2) =
    (parseURDF (num (K := K)) [.mk "robot" [("name", "r")] [baseElem inertialElem, jointElem,
      .mk "link" [("name", "arm")] [v]]]).map (·.2) := by
  refine C67_unused_elements (found _) rfl ⟨rfl, rfl, ?_, ?_, ?_⟩
  · simp [robotElem, Elem.childrenNamed, Elem.children, baseElem, jointElem, armElem, Elem.name]
  · rw [links_of, show (Elem.mk "robot" [("name", "r")] [baseElem inertialElem, jointElem,
      .mk "link" [("name", "arm")] [v]]).childrenNamed "link" = [baseElem inertialElem, .mk "link" [("name", "arm")] [v]] by
        simp [Elem.childrenNamed, Elem.children, baseElem, jointElem, Elem.name]]
    refine .cons ⟨rfl, rfl⟩ (.cons ⟨rfl, ?_⟩ .nil)
    simp [Elem.firstChild, armElem, Elem.children, hv]
  · rw [joints_of, show (Elem.mk "robot" [("name", "r")] [baseElem inertialElem, jointElem,
      .mk "link" [("name", "arm")] [v]]).childrenNamed "joint" = [jointElem] by
        simp [Elem.childrenNamed, Elem.children, baseElem, jointElem, Elem.name]]
    exact .cons ⟨fun _ _ => rfl, fun _ _ => rfl, Iff.rfl⟩ .nil

/-- the hypotheses of `C69_any_inertial`: a good inertial is replaced by a bad one -/
example : ∃ r m, parseURDF (num (K := K)) [robotElem badInertial] = some (r, m) :=
  C69_any_inertial (found inertialElem) (found badInertial) rfl rfl (by rw [materials_of, materials_of])
    (by rw [joints_of, joints_of]) (by rw [links_of, links_of]; rfl) (accepted inertialElem)

end Tinyfk.DocExample
