import Verif.Proofs.Parse
import Verif.Model.Export
import Verif.Props.Build
import Verif.Props.State

/-!
# Reading robot descriptions

C51, C52, C64, C65, C66, C67.
-/

set_option linter.unusedSectionVars false

namespace Tinyfk

/-! ### C51 -/

theorem loadLoop_eq (line c : List Char) : loadLoop line c = line ++ c ++ ['\n'] := by
  induction c generalizing line with
  | nil => simp [loadLoop]
  | cons a c ih =>
    rw [loadLoop]
    split
    · rename_i h; subst h; rw [ih]; simp
    · rw [ih]; simp

/-- **C51.** `load_urdf` returns the contents of the file followed by one newline, and the empty string for a file
that cannot be opened. -/
theorem C51_load_urdf : loadUrdf none = [] ∧ ∀ contents : List Char, loadUrdf (some contents) = contents ++ ['\n'] :=
  ⟨rfl, fun c => by rw [loadUrdf, loadLoop_eq]; simp⟩

example : loadUrdf (some "<robot>\n</robot>\n".toList) = "<robot>\n</robot>\n\n".toList := by decide

section
variable {K : Type} [Scalar K] {num : String → Option K}

/-! ### C52 -/

/-- **C52.** A vector attribute is accepted iff it consists of exactly three words that are numbers, separated by
spaces, and gives those numbers in order; extra spaces are ignored. -/
theorem C52_vector (num : String → Option K) (s : String) (v : Vec3 K) : parseVec num s = some v ↔
    ∃ a b c, ThreeWords s a b c ∧ num a = some v.x ∧ num b = some v.y ∧ num c = some v.z :=
  parseVec_iff

/-! ### The whole description -/

theorem assignMaterials_length (vs : List (Visual K)) (ms : List (Material K)) :
    (assignMaterials vs ms).1.length = vs.length := by
  induction vs generalizing ms with
  | nil => rfl
  | cons v vs ih => simp [assignMaterials, ih]

theorem assignLinks_raw (ls : List (XLink K)) (ms : List (Material K)) :
    (assignLinks ls ms).1.map XLink.toRaw = ls.map XLink.toRaw := by
  induction ls generalizing ms with
  | nil => rfl
  | cons l ls ih => simp [assignLinks, ih, XLink.toRaw]

theorem toRaw_name (l : XLink K) : l.toRaw.name = l.name := rfl

theorem jtoRaw_name (j : XJoint K) : j.toRaw.name = j.name := rfl

theorem parseURDF_iff {doc : List Elem} {m : ModelInterface K} : (∃ r, parseURDF num doc = some (r, m)) ↔
    ∃ robot, doc.find? (fun e => e.name == "robot") = some robot ∧ (robot.attr "name").isSome ∧
      urdfVersion (robot.attr "version") = some (1, 0) ∧
      ((robot.childrenNamed "material").map (fun e => (parseMaterial num e).1.name)).Nodup ∧
      ∃ xs, (robot.childrenNamed "joint").mapM (parseJoint num) = some xs ∧
        buildModel ((robot.childrenNamed "link").map (fun e => (parseLink num e).1.toRaw)) (xs.map XJoint.toRaw) = some m := by
  constructor
  · rintro ⟨r, h⟩
    simp only [parseURDF, Option.bind_eq_bind, Option.bind_eq_some_iff] at h
    obtain ⟨robot, h1, name, h2, ver, h3, h⟩ := h
    split at h
    case isFalse => cases h
    rename_i hv
    simp only [Option.bind_eq_some_iff, Option.some.injEq, Prod.mk.injEq] at h
    obtain ⟨mats, h4, links, h5, xs, h6, joints, h7, m', h8, h9, rfl⟩ := h
    rw [assignLinks_raw, List.map_map] at h8
    refine ⟨robot, h1, by simp [h2], by rw [h3, hv], ?_, xs, h6, h8⟩
    have := (insertAll_isSome Material.name [] ((robot.childrenNamed "material").map (fun e => (parseMaterial num e).1))
      List.Pairwise.nil).mp (by simp [h4])
    simpa [Function.comp_def] using this
  · rintro ⟨robot, h1, h2, h3, h4, xs, h6, h8⟩
    obtain ⟨name, h2⟩ := Option.isSome_iff_exists.mp h2
    have h5 : (insertAll Material.name [] ((robot.childrenNamed "material").map (fun e => (parseMaterial num e).1))).isSome :=
      (insertAll_isSome Material.name [] _ List.Pairwise.nil).mpr (by simpa [Function.comp_def] using h4)
    obtain ⟨mats, h5⟩ := Option.isSome_iff_exists.mp h5
    obtain ⟨n1, n2, -⟩ := (C48_accepts_iff _ _).mp ⟨m, h8⟩
    have h9 : (insertAll XLink.name [] (assignLinks ((robot.childrenNamed "link").map (fun e => (parseLink num e).1)) mats).1).isSome := by
      refine (insertAll_isSome XLink.name [] _ List.Pairwise.nil).mpr ?_
      have e : ((assignLinks ((robot.childrenNamed "link").map (fun e => (parseLink num e).1)) mats).1.map XLink.name) =
          ((assignLinks ((robot.childrenNamed "link").map (fun e => (parseLink num e).1)) mats).1.map XLink.toRaw).map RawLink.name := by
        simp [Function.comp_def, toRaw_name]
      rw [List.nil_append, e, assignLinks_raw]
      simpa [Function.comp_def] using n1
    obtain ⟨links, h9⟩ := Option.isSome_iff_exists.mp h9
    have h10 : (insertAll XJoint.name [] xs).isSome := by
      refine (insertAll_isSome XJoint.name [] _ List.Pairwise.nil).mpr ?_
      simpa [Function.comp_def, jtoRaw_name] using n2
    obtain ⟨joints, h10⟩ := Option.isSome_iff_exists.mp h10
    refine ⟨⟨name, (assignLinks ((robot.childrenNamed "link").map (fun e => (parseLink num e).1)) mats).2, links, joints⟩, ?_⟩
    simp only [parseURDF, Option.bind_eq_bind, Option.bind_eq_some_iff]
    refine ⟨robot, h1, name, h2, (1, 0), h3, ?_⟩
    rw [if_pos rfl]
    simp only [Option.bind_eq_some_iff, Option.some.injEq, Prod.mk.injEq]
    exact ⟨mats, h5, links, h9, xs, h6, joints, h10, m, by rw [assignLinks_raw, List.map_map]; exact h8, rfl, rfl⟩

theorem mapM_joints {es : List Elem} {js : List (RawJoint K)} :
    (∃ xs, es.mapM (parseJoint num) = some xs ∧ xs.map XJoint.toRaw = js) ↔
      List.Forall₂ (fun e j => JointSays num e j ∧ ExtrasOk num e) es js := by
  induction es generalizing js with
  | nil =>
    constructor
    · rintro ⟨xs, h, rfl⟩
      simp at h
      subst h
      exact .nil
    · intro h
      cases h
      exact ⟨[], by simp, rfl⟩
  | cons e es ih =>
    constructor
    · rintro ⟨xs, h, rfl⟩
      simp only [List.mapM_cons, Option.bind_eq_bind, Option.bind_eq_some_iff, Option.pure_def, Option.some.injEq] at h
      obtain ⟨x, h1, xs, h2, rfl⟩ := h
      exact .cons (parseJoint_iff.mp ⟨x, h1, rfl⟩) (ih.mp ⟨xs, h2, rfl⟩)
    · intro h
      cases h with
      | cons h1 h2 =>
        obtain ⟨x, g1, rfl⟩ := parseJoint_iff.mpr h1
        obtain ⟨xs, g2, rfl⟩ := ih.mpr h2
        exact ⟨x :: xs, by simp [g1, g2], rfl⟩

theorem parseMaterial_name (e : Elem) : (parseMaterial num e).1.name = (e.attr "name").getD "" := by
  unfold parseMaterial
  cases e.attr "name" <;> rfl

theorem parseLink_name (e : Elem) : (parseLink num e).1.toRaw.name = (e.attr "name").getD "" := by
  rw [parseLink_raw]
  cases e.attr "name" <;> rfl

/-- **C64.** A document is accepted iff its first `<robot>` element has a name and a version that reads as 1.0 (or none),
the names of its materials are distinct, every joint element is well formed, and the names form a graph with one root:
link names and joint names distinct, each joint between existing links, exactly one link that is no joint's child. (A
missing name of a material or link counts as the empty name.) -/
theorem C64_accepts_iff (num : String → Option K) (doc : List Elem) : (∃ r m, parseURDF num doc = some (r, m)) ↔
    ∃ robot, doc.find? (fun e => e.name == "robot") = some robot ∧ (robot.attr "name").isSome ∧
      urdfVersion (robot.attr "version") = some (1, 0) ∧
      ((robot.childrenNamed "material").map fun e => (e.attr "name").getD "").Nodup ∧
      ∃ js, List.Forall₂ (fun e j => JointSays num e j ∧ ExtrasOk num e) (robot.childrenNamed "joint") js ∧
        ((robot.childrenNamed "link").map fun e => (e.attr "name").getD "").Nodup ∧ (js.map RawJoint.name).Nodup ∧
        robot.childrenNamed "link" ≠ [] ∧
        (∀ j ∈ js, j.parentLinkName ≠ "" ∧ j.childLinkName ≠ "" ∧
          j.childLinkName ∈ ((robot.childrenNamed "link").map fun e => (e.attr "name").getD "") ∧
          j.parentLinkName ∈ ((robot.childrenNamed "link").map fun e => (e.attr "name").getD "")) ∧
        ∃! r, r ∈ ((robot.childrenNamed "link").map fun e => (e.attr "name").getD "") ∧ ∀ j ∈ js, j.childLinkName ≠ r := by
  have hl : ∀ robot : Elem, ((robot.childrenNamed "link").map (fun e => (parseLink num e).1.toRaw)).map RawLink.name =
      (robot.childrenNamed "link").map fun e => (e.attr "name").getD "" := by
    intro robot
    simp [Function.comp_def, parseLink_name]
  have hm : ∀ robot : Elem, (robot.childrenNamed "material").map (fun e => (parseMaterial num e).1.name) =
      (robot.childrenNamed "material").map fun e => (e.attr "name").getD "" := by
    intro robot
    simp [parseMaterial_name]
  rw [exists_comm]
  simp only [parseURDF_iff]
  constructor
  · rintro ⟨m, robot, h1, h2, h3, h4, xs, h5, h6⟩
    obtain ⟨g1, g2, g3, g4, g5⟩ := (C48_accepts_iff _ _).mp ⟨m, h6⟩
    rw [hl] at g1 g4 g5
    exact ⟨robot, h1, h2, h3, hm robot ▸ h4, _, mapM_joints.mp ⟨xs, h5, rfl⟩, g1, g2, by simpa using g3, g4, g5⟩
  · rintro ⟨robot, h1, h2, h3, h4, js, h5, g1, g2, g3, g4, g5⟩
    obtain ⟨xs, h5', rfl⟩ := mapM_joints.mpr h5
    obtain ⟨m, hm'⟩ := (C48_accepts_iff ((robot.childrenNamed "link").map (fun e => (parseLink num e).1.toRaw)) (xs.map XJoint.toRaw)).mpr
      (by rw [hl]; exact ⟨g1, g2, by simpa using g3, g4, g5⟩)
    exact ⟨m, robot, h1, h2, h3, (hm robot).symm ▸ h4, xs, h5', hm'⟩

/-- **C65.** The model of an accepted document whose link elements are well formed is the model of what its link and
joint elements say. -/
theorem C65_content {doc : List Elem} {r : Robot K} {m : ModelInterface K} (h : parseURDF num doc = some (r, m))
    {robot : Elem} (hr : doc.find? (fun e => e.name == "robot") = some robot)
    {ls : List (RawLink K)} (hl : List.Forall₂ (LinkSays num) (robot.childrenNamed "link") ls) :
    ∃ js, List.Forall₂ (JointSays num) (robot.childrenNamed "joint") js ∧ buildModel ls js = some m := by
  obtain ⟨robot', h1, h2, h3, h4, xs, h5, h6⟩ := parseURDF_iff.mp ⟨r, h⟩
  rw [hr] at h1
  cases h1
  have hj := mapM_joints.mp ⟨xs, h5, rfl⟩
  refine ⟨_, hj.imp fun _ _ h => h.1, ?_⟩
  have e : (robot.childrenNamed "link").map (fun e => (parseLink num e).1.toRaw) = ls := by
    clear h6 h5 hr
    generalize robot.childrenNamed "link" = es at hl
    induction hl with
    | nil => rfl
    | cons h1 _ ih => rw [List.map_cons, parseLink_of h1, ih]
  rw [← e, h6]

/-- **C42 (no null pointer).** In an accepted document every revolute or prismatic joint has limits: this is the
hypothesis of `C42_position_limits`. -/
theorem C42_limits_present {e : Elem} {j : RawJoint K} (h : JointSays num e j)
    (ht : j.type = .revolute ∨ j.type = .prismatic) : j.limits.isSome := by
  rcases h.limits with ⟨c, l, _, _, h⟩ | ⟨_, _, h1, h2⟩
  · simp [h]
  · rcases ht with ht | ht
    · exact absurd ht h1
    · exact absurd ht h2

end

end Tinyfk
