import Verif.Props.Links

/-!
# Properties: accepted descriptions and construction

C48, C49, C50, C57.
-/

set_option linter.unusedSectionVars false

namespace Tinyfk

open Scalar

section
variable {K : Type} [Scalar K]
variable {ls : List (RawLink K)} {js : List (RawJoint K)}

/-- **C48 (acceptance).** The element lists are accepted iff link names and joint names are
unique, there is a link, every joint names an existing parent and child, and exactly one link
is no joint's child. -/
theorem C48_accepts_iff (ls : List (RawLink K)) (js : List (RawJoint K)) :
    (∃ mi, buildModel ls js = some mi) ↔
      (ls.map RawLink.name).Nodup ∧ (js.map RawJoint.name).Nodup ∧ ls ≠ [] ∧
      (∀ j ∈ js, j.parentLinkName ≠ "" ∧ j.childLinkName ≠ "" ∧
        j.childLinkName ∈ ls.map RawLink.name ∧ j.parentLinkName ∈ ls.map RawLink.name) ∧
      ∃! r, r ∈ ls.map RawLink.name ∧ ∀ j ∈ js, j.childLinkName ≠ r := by
  rw [← buildModel_isSome, Option.isSome_iff_exists]

/-- **C48 (root).** The root link of an accepted model is the one link that is no joint's
child; the links and joints are those of the description, sorted by name. -/
theorem C48_root {mi : ModelInterface K} (h : buildModel ls js = some mi) :
    (∃ lk, mi.links[mi.rootLink]? = some lk ∧ lk.name ∈ ls.map RawLink.name ∧
      ∀ j ∈ js, j.childLinkName ≠ lk.name) ∧
    (mi.links.map fun l => (l.name, l.inertial)).Perm (ls.map fun l => (l.name, l.inertial)) ∧
    (mi.links.map Link.name).Pairwise (· < ·) ∧
    mi.joints.Perm (js.map RawJoint.toJoint) ∧ (mi.joints.map Joint.name).Pairwise (· < ·) := by
  have hb := buildModel_spec h
  refine ⟨?_, hb.linkPerm, hb.linkSorted, hb.jointPerm, hb.jointSorted⟩
  obtain ⟨lk, h1, h2⟩ := hb.root
  refine ⟨lk, h1, ?_, ?_⟩
  · have := (hb.linkPerm.map Prod.fst).mem_iff (a := lk.name)
    simp only [List.map_map, Function.comp_def] at this
    exact this.mp (List.mem_map_of_mem (List.mem_of_getElem? h1))
  · intro j hj hc
    rcases hb.state.par h1 with ⟨_, _, hno⟩ | ⟨p, _, _, _, hp, _⟩
    · exact hno j.toJoint (hb.jointPerm.mem_iff.mpr (List.mem_map_of_mem hj)) hc
    · rw [h2] at hp; cases hp

theorem numberJoints_unsupported (l : List (Joint K)) (h : ∃ j ∈ l, ¬ (j.type = .fixed ∨ j.type.Movable))
    (jp jid : Nat) (joints : List Nat) (ids : NameMap) :
    numberJoints jp l jid joints ids = .exn (.invalidArgument "unsuported joint type is detected") := by
  induction l generalizing jp jid joints ids with
  | nil => obtain ⟨j, hj, _⟩ := h; cases hj
  | cons a l ih =>
    have hl : (a.type = .fixed ∨ a.type.Movable) → ∃ j ∈ l, ¬ (j.type = .fixed ∨ j.type.Movable) := by
      intro ha
      obtain ⟨j, hj, hn⟩ := h
      rcases List.mem_cons.mp hj with rfl | hj
      · exact absurd ha hn
      · exact ⟨j, hj, hn⟩
    cases ht : a.type with
    | revolute =>
      simp only [numberJoints, ht, Outcome.bind_eq, ih (hl (by simp [ht, JointType.Movable])), Outcome.bind_exn]
    | continuous =>
      simp only [numberJoints, ht, Outcome.bind_eq, ih (hl (by simp [ht, JointType.Movable])), Outcome.bind_exn]
    | prismatic =>
      simp only [numberJoints, ht, Outcome.bind_eq, ih (hl (by simp [ht, JointType.Movable])), Outcome.bind_exn]
    | fixed =>
      simp only [numberJoints, ht, Outcome.bind_eq, ih (hl (by simp [ht])), Outcome.bind_exn]
    | unknown => simp only [numberJoints, ht]
    | floating => simp only [numberJoints, ht]
    | planar => simp only [numberJoints, ht]

/-- **C50 (partial).** The constructor throws on empty text, and throws `invalid_argument` on
an accepted description with an unsupported joint type. Missing: descriptions that are not
accepted, for which it dereferences a null pointer (`C50_null_model`). -/
theorem C50_errors_partial (parse : String → Option (ModelInterface K)) :
    (∃ e, constructXml parse "" = .exn (.runtimeError e)) ∧
    ∀ (xml : String) (ls : List (RawLink K)) (js : List (RawJoint K)), xml ≠ "" →
      parse xml = buildModel ls js → (buildModel ls js).isSome → ¬ Supported js →
      ∃ e, constructXml parse xml = .exn (.invalidArgument e) := by
  refine ⟨⟨_, by simp only [constructXml, if_true]; rfl⟩, ?_⟩
  intro xml ls js hx hp hs hns
  obtain ⟨mi, hmi⟩ := Option.isSome_iff_exists.mp hs
  have hb := buildModel_spec hmi
  have : ∃ j ∈ mi.joints, ¬ (j.type = .fixed ∨ j.type.Movable) := by
    simp only [Supported, not_forall] at hns
    obtain ⟨j, hj, hn⟩ := hns
    exact ⟨j.toJoint, hb.jointPerm.mem_iff.mpr (List.mem_map_of_mem hj), hn⟩
  refine ⟨"unsuported joint type is detected", ?_⟩
  simp only [constructXml, if_neg hx, hp, hmi, construct, initMembers, numberJoints_unsupported _ this,
    Outcome.bind_eq, Outcome.bind_exn]

/-- **C50 is false.** Whenever the description is not accepted, the constructor dereferences a
null pointer instead of reporting an error. -/
theorem C50_null_model (parse : String → Option (ModelInterface K)) (xml : String) (hx : xml ≠ "")
    (ls : List (RawLink K)) (js : List (RawJoint K)) (hp : parse xml = buildModel ls js)
    (hn : ¬ (buildModel ls js).isSome) : ∃ u, constructXml parse xml = .ub u := by
  have : buildModel ls js = none := by simpa using hn
  exact ⟨_, by simp only [constructXml, if_neg hx, hp, this, construct]; rfl⟩

/-- **C57.** On an accepted tree with supported joints the constructor succeeds iff no link is
called like the centre-of-mass link of another; otherwise it throws `invalid_argument`. -/
theorem C57_com_name_clash (hb : (buildModel ls js).isSome) (ht : IsTree js) (hs : Supported js) :
    ((∀ r ∈ ls, r.inertial.isSome → r.name ++ "_com" ∉ ls.map RawLink.name) →
      ∃ m, construct (buildModel ls js) = .ok m) ∧
    ((∃ r ∈ ls, r.inertial.isSome ∧ r.name ++ "_com" ∈ ls.map RawLink.name) →
      ∃ e, construct (buildModel ls js) = .exn (.invalidArgument e)) := by
  refine ⟨fun h => construct_exists hb ht hs h, ?_⟩
  rintro ⟨r, h1, h2, h3⟩
  obtain ⟨mi, hmi⟩ := Option.isSome_iff_exists.mp hb
  rw [hmi]
  exact construct_clash (buildModel_spec hmi) ht hs fun hcl => hcl r h1 h2 h3

/-- **C49 (partial).** On an accepted description that is a tree, construction ends: with a
model, or with `invalid_argument`. Missing: accepted descriptions need not be trees
(`C49_cycle_hangs`, `C49_two_parents`). -/
theorem C49_tree_terminates_partial (hb : (buildModel ls js).isSome) (ht : IsTree js) :
    (∃ m, construct (buildModel ls js) = .ok m) ∨
      ∃ e, construct (buildModel ls js) = .exn (.invalidArgument e) := by
  by_cases hs : Supported js
  · by_cases hcl : NoComClash ls
    · exact .inl (construct_exists hb ht hs hcl)
    · right
      obtain ⟨mi, hmi⟩ := Option.isSome_iff_exists.mp hb
      rw [hmi]
      exact construct_clash (buildModel_spec hmi) ht hs hcl
  · right
    obtain ⟨e, he⟩ := (C50_errors_partial (fun _ => buildModel ls js)).2 "x" ls js (by decide) rfl hb hs
    exact ⟨e, by simpa [constructXml] using he⟩

/-- The walk of `update_rptable` never ends when it starts in a set of links each of which has
a child in the set. -/
theorem dfs_cycle (links : List (Link K)) (jid nJ : Nat) (hj : jid < nJ) (C : Nat → Prop)
    (hC : ∀ l, C l → ∃ lk, links[l]? = some lk ∧ ∃ c ∈ lk.childLinks, C c)
    (hok : ∀ (l : Nat) (lk : Link K), links[l]? = some lk →
      lk.id < links.length ∧ ∀ c ∈ lk.childLinks, c < links.length)
    (st : List Nat) (t : RpTable) (ht : t.Sized links.length nJ) (hst : ∀ l ∈ st, l < links.length)
    (hin : ∃ l ∈ st, C l) : dfs links jid st t = none := by
  cases hr : dfs links jid st t with
  | none => rfl
  | some r =>
    exfalso
    refine dfs.partial_correctness links jid
      (fun st t _ => t.Sized links.length nJ → (∀ l ∈ st, l < links.length) → (∃ l ∈ st, C l) → False)
      ?_ st t r hr ht hst hin
    intro f hf st t r h ht hst hin
    cases st with
    | nil => obtain ⟨l, hl, _⟩ := hin; cases hl
    | cons l st =>
      have hl : l < links.length := hst l (by simp)
      have hlk := List.getElem?_eq_getElem hl
      obtain ⟨hid, hch⟩ := hok l _ hlk
      obtain ⟨t', e1, e2, _⟩ := RpTable.setTrue_spec ht hid hj
      simp only [hlk, e1] at h
      refine hf _ _ _ h e2 ?_ ?_
      · intro x hx
        rcases List.mem_append.mp hx with hx | hx
        · exact hch x (List.mem_reverse.mp hx)
        · exact hst x (by simp [hx])
      · obtain ⟨x, hx, hCx⟩ := hin
        rcases List.mem_cons.mp hx with rfl | hx
        · obtain ⟨lk, e3, c, hc, hCc⟩ := hC x hCx
          rw [hlk] at e3; cases e3
          exact ⟨c, by simp [hc], hCc⟩
        · exact ⟨x, by simp [hx], hCx⟩

/-- a description with the root "root", which has an `<inertial>`, and a cycle a → b → a -/
def cycleLinks (i : Inertial K) : List (RawLink K) := [⟨"root", some i⟩, ⟨"a", none⟩, ⟨"b", none⟩]
/-- the joints of the cycle -/
def cycleJoints : List (RawJoint K) :=
  [⟨"j1", .revolute, ⟨0, 0, 1⟩, Pose.identity, "a", "b", some ⟨0, 0, 0, 0⟩⟩,
   ⟨"j2", .revolute, ⟨0, 0, 1⟩, Pose.identity, "b", "a", some ⟨0, 0, 0, 0⟩⟩]

/-- **C49 is false (cycles).** A cycle beside the root is accepted by the parser, and then the
constructor never returns. -/
theorem C49_cycle_hangs (i : Inertial K) :
    (buildModel (cycleLinks i) cycleJoints).isSome ∧
    construct (buildModel (cycleLinks i) cycleJoints) = .hang := by
  have hb : buildModel (cycleLinks i) cycleJoints = some
    ⟨[⟨"a", unsetLinkId, none, some 1, some 1, [0], [1]⟩,
      ⟨"b", unsetLinkId, none, some 0, some 0, [1], [0]⟩,
      ⟨"root", unsetLinkId, some i, none, none, [], []⟩],
     [⟨"j1", .revolute, ⟨0, 0, 1⟩, Pose.identity, "a", "b", some ⟨0, 0, 0, 0⟩, none, none⟩,
      ⟨"j2", .revolute, ⟨0, 0, 1⟩, Pose.identity, "b", "a", some ⟨0, 0, 0, 0⟩, none, none⟩], 2⟩ := by
    simp [buildModel, cycleLinks, cycleJoints, insertAll, insertSorted, RawLink.toLink,
      RawJoint.toJoint, initTree, initTreeStep, findLink, initRoot, List.findIdx?,
      List.findIdx?.go, List.modify, List.range, List.range.loop, List.filter]
  refine ⟨by rw [hb]; rfl, ?_⟩
  rw [hb]
  have hdfs : ∀ (nm : String) (jp : Nat), dfs
      [(⟨"a", 0, none, some 1, some 1, [0], [1]⟩ : Link K),
        ⟨"b", 1, none, some 0, some 0, [1], [0]⟩,
        ⟨"root", 2, some i, none, none, [], [3]⟩,
        ⟨nm, 3, none, some 2, some jp, [], []⟩] 0 [1] (RpTable.mk' 4 2) = none := by
    intro nm jp
    refine dfs_cycle _ 0 2 (by omega) (fun l => l = 0 ∨ l = 1) ?_ ?_ _ _ ?_ (by simp) (by simp)
    · rintro l (rfl | rfl) <;> simp
    · intro l lk hl
      match l, hl with
      | 0, hl | 1, hl | 2, hl | 3, hl => simp at hl; subst hl; simp
      | n + 4, hl => simp at hl
    · exact RpTable.mk'_sized 4 2
  simp [construct, initMembers, numberLinks, NameMap.set, NameMap.find, numberJoints, setChildLinks,
    NameMap.opIndex, List.lookup, addComLinks, addNewLink, Res.toOutcome, List.range, List.range.loop,
    updateRptable, rpLoop, derefJoint, sumMass, List.modify, hdfs]

end

namespace Example

/-! ### The hypotheses are met -/

example : ∃ mi, buildModel ls js = some mi := Option.isSome_iff_exists.mp accepted
example := fun mi (h : buildModel ls js = some mi) => C48_root h

/-- the same robot with a floating joint -/
noncomputable def jsFloating : List (RawJoint ℝ) := [turn, slide, { weld with type := .floating }]

theorem accepted_floating : (buildModel ls jsFloating).isSome := by
  rw [buildModel_isSome]
  refine ⟨by simp [ls], by simp [jsFloating, turn, slide, weld], by simp [ls], ?_, "base", ?_, ?_⟩
  · simp [ls, jsFloating, turn, slide, weld]
  · simp [ls, jsFloating, turn, slide, weld]
  · simp [ls, jsFloating, turn, slide, weld]

example : ∃ e, constructXml (fun _ => buildModel ls jsFloating) "<robot/>" = .exn (.invalidArgument e) :=
  (C50_errors_partial fun _ => buildModel ls jsFloating).2 "<robot/>" ls jsFloating (by decide) rfl accepted_floating (by
    intro h
    have := h { weld with type := .floating } (by simp [jsFloating])
    simp [JointType.Movable] at this)

/-- two roots -/
example : ∃ u, constructXml (fun _ => buildModel ls [turn, slide]) "<robot/>" = .ub u :=
  C50_null_model _ "<robot/>" (by decide) ls [turn, slide] rfl (by
    rw [buildModel_isSome]
    rintro ⟨_, _, _, _, r, ⟨h1, h2⟩, h3⟩
    have ha := h3 "base" (by simp [ls, turn, slide])
    have hb := h3 "tip" (by simp [ls, turn, slide])
    rw [← ha] at hb
    exact absurd hb (by decide))

example : ∃ m, construct (buildModel ls js) = .ok m := (C57_com_name_clash accepted isTree supported).1 noClash

/-- the arm has mass and there is a link "arm_com" -/
example : ∃ e, construct (buildModel (ls ++ [⟨"arm_com", none⟩]) (js ++ [{ weld with name := "w2", childLinkName := "arm_com" }])) =
    .exn (.invalidArgument e) := by
  refine (C57_com_name_clash ?_ ?_ ?_).2 ⟨⟨"arm", some armInertial⟩, by simp [ls], rfl, by simp [ls]⟩
  · rw [buildModel_isSome]
    refine ⟨by simp [ls], by simp [js, turn, slide, weld], by simp [ls], ?_, "base", ?_, ?_⟩
    · simp [ls, js, turn, slide, weld]
    · simp [ls, js, turn, slide, weld]
    · simp [ls, js, turn, slide, weld]
  · refine ⟨by simp [js, turn, slide, weld], ?_⟩
    refine ⟨fun s => if s = "base" then 0 else if s = "arm" then 1 else if s = "hand" then 2 else 3, ?_⟩
    simp [js, turn, slide, weld]
  · intro j hj
    simp only [js, List.cons_append, List.nil_append, List.mem_cons, List.not_mem_nil, or_false] at hj
    rcases hj with rfl | rfl | rfl | rfl
    · right; left; rfl
    · right; right; right; rfl
    · left; rfl
    · left; rfl

example := C49_tree_terminates_partial accepted isTree

end Example

end Tinyfk
