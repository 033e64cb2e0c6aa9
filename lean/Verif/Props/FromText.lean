import Verif.Props.Export
import Verif.Props.Hang
import Verif.Props.Inertia
import Verif.Props.XmlLimits
import Verif.Props.EndToEnd

/-!
# Consequences for texts and for the Python class

What the theorems about descriptions say of the texts they come from, and of the methods of the Python class.
-/

namespace Tinyfk

section
variable {K : Type} [Scalar K] {num : String → Option K}

/-- a text that is accepted describes links and joints; revolute and prismatic joints have limits -/
theorem parseText_accepted {text : String} {mi : ModelInterface K} (h : parseText num text = some mi) :
    ∃ ls js, buildModel ls js = some mi ∧ ∀ j ∈ js, j.type = .revolute ∨ j.type = .prismatic → j.limits.isSome := by
  unfold parseText at h
  split at h
  · rename_i r e
    subst h
    unfold parseURDFText at e
    cases hx : parseXml text.toList with
    | none => rw [hx] at e; cases e
    | some y =>
      rw [hx] at e
      cases y with
      | error _ => cases e
      | ok d =>
        cases d with
        | none => cases e
        | some doc =>
          have e' : (parseURDF num doc).map (·.2) = some mi := by
            have := e
            simpa using (Except.ok.inj (Option.some.inj this))
          obtain ⟨⟨r, m⟩, h1, rfl⟩ := Option.map_eq_some_iff.mp e'
          obtain ⟨hb, -, hj⟩ := parseURDF_robot h1
          refine ⟨_, _, hb, fun j hj' => ?_⟩
          obtain ⟨x, hx', rfl⟩ := List.mem_map.mp hj'
          exact (hj x hx').2
  · cases h

/-- **C50 (every text).** What the constructor does with any text: it throws for the empty text, dereferences null when the
text is rejected (or reads past its end), and otherwise returns a model, never returns, or throws `invalid_argument`, for the
links and joints of the description (C79 says which). -/
theorem C50_every_text (num : String → Option K) (text : String) :
    (text = "" ∧ ∃ e, constructXml (parseText num) text = .exn (.runtimeError e)) ∨
    (text ≠ "" ∧ parseText num text = none ∧ ∃ u, constructXml (parseText num) text = .ub u) ∨
    (text ≠ "" ∧ ∃ ls js, (buildModel ls js).isSome ∧ parseText num text = buildModel ls js ∧
      constructXml (parseText num) text = construct (buildModel ls js) ∧
      ((∃ m, construct (buildModel ls js) = .ok m) ∨ construct (buildModel ls js) = .hang ∨
        ∃ e, construct (buildModel ls js) = .exn (.invalidArgument e))) := by
  by_cases h0 : text = ""
  · exact .inl ⟨h0, _, by rw [constructXml, if_pos h0]⟩
  right
  cases hp : parseText num text with
  | none => exact .inl ⟨h0, rfl, _, by rw [constructXml, if_neg h0, hp]; rfl⟩
  | some mi =>
    right
    obtain ⟨ls, js, hb, -⟩ := parseText_accepted hp
    refine ⟨h0, ls, js, by simp [hb], hb.symm, by rw [constructXml, if_neg h0, hp, hb], ?_⟩
    exact (C79_construction (by simp [hb])).2.2

/-- a text that is cut off inside its root element makes the constructor dereference null -/
theorem C50_truncated (num : String → Option K) {u : Bool} {p x s : List Char} {e : Elem} (hp : Prolog u p) (hx : ElemText u x e)
    (hz : '\x00' ∉ s) (hs : utf8 s <+: p ++ x) (hne : utf8 s ≠ p ++ x) (h0 : s ≠ []) :
    ∃ u, constructXml (parseText num) (String.ofList (utf8 s)) = .ub u := by
  rcases C50_every_text num (String.ofList (utf8 s)) with ⟨h, -⟩ | ⟨-, -, h⟩ | ⟨-, ls, js, hb, h, -⟩
  · exfalso
    have : utf8 s = [] := by simpa using congrArg String.toList h
    cases s with
    | nil => exact h0 rfl
    | cons c s =>
      rw [utf8_cons] at this
      have := (List.append_eq_nil_iff.mp this).1
      by_cases hc : c.toNat < 128
      · rw [utf8_ascii hc] at this; cases this
      · obtain ⟨b, bs, hb, -⟩ := utf8_multi (Nat.le_of_not_lt hc)
        rw [hb] at this; cases this
  · exact h
  · rw [(C73_truncated num hp hx hz hs hne).2] at h
    rw [← h] at hb
    cases hb

/-- **C42 (from text).** For every robot read from a text, after any history, `get_joint_limits` on the ids of named joints
returns the limits of the description. -/
theorem C42_from_text {t : List Char} {ls : List (RawLink K)} {js : List (RawJoint K)} (ht : RobotText num t ls js)
    {m0 : KinModel K} {h : List (PyCall K)} {cs : List (Call K)} {s : PyModel K} (hr : PyReach ls js m0 h cs s)
    {names : List String} {ids : List Nat} (hn : pyGetJointIds names s = .ok ids s) :
    ∃ out, pyGetJointLimits ids s = .ok out s ∧ List.Forall₂ (LimitsOf js) names out := by
  refine C42_position_limits hr (fun j hj htp => ?_) hn
  obtain ⟨e, -, -, -, -, -, -, hjs⟩ := ht.document
  have : ∀ (es : List Elem) (js : List (RawJoint K)), List.Forall₂ (fun x j => JointSays num x j ∧ ExtrasOk num x) es js →
      ∀ j ∈ js, ∃ x, JointSays num x j := by
    intro es js hjs
    induction hjs with
    | nil => simp
    | cons h1 _ ih =>
      intro j hj
      rcases List.mem_cons.mp hj with rfl | hj
      · exact ⟨_, h1.1⟩
      · exact ih j hj
  obtain ⟨x, hx⟩ := this _ _ hjs j hj
  exact C42_limits_present hx htp

/-- **C69 (partial).** A document with a malformed joint element is rejected. Missing: malformed inertial and visual
elements, which never cause rejection (`C69_any_inertial`). -/
theorem C69_malformed_joint_partial {doc : List Elem} {robot e : Elem} (hr : doc.find? (fun e => e.name == "robot") = some robot)
    (he : e ∈ robot.childrenNamed "joint") (hbad : ¬ ∃ j, JointSays num e j ∧ ExtrasOk num e) : parseURDF num doc = none := by
  cases hp : parseURDF num doc with
  | none => rfl
  | some x =>
    exfalso
    obtain ⟨robot', h1, -, -, -, js, h2, -⟩ := (C64_accepts_iff num doc).mp ⟨x.1, x.2, hp⟩
    rw [hr] at h1
    cases h1
    refine hbad ?_
    clear hp hr
    generalize robot.childrenNamed "joint" = es at he h2
    induction h2 with
    | nil => cases he
    | cons k1 _ ih =>
      rcases List.mem_cons.mp he with rfl | he
      · exact ⟨_, k1⟩
      · exact ih he

end

/-- **C87 (partial).** Documents without the exceptions of C87 (see `DocText`) are read as what they say. Missing: references
to characters that are not ASCII in unmarked documents, and an early `>`, where the claim is false. -/
theorem C87_documents_partial {t : List Char} {e : Elem} (h : DocText t e) (hz : '\x00' ∉ t) : parseXml t = pure (some [e]) :=
  C72_wellformed h hz

section
variable {ls : List (RawLink ℝ)} {js : List (RawJoint ℝ)} {m0 m : KinModel ℝ} {cs : List (Call ℝ)}

/-- **C24 (relative poses).** The pose of a link relative to another does not depend on the base pose. -/
theorem C24_relative (h : Reach ls js m0 cs m) (hf : Shallow ls js m0 cs) (hu : UnitDesc js) (hc : UnitCalls cs) {g b : Pose ℝ}
    (hg : g.rotation.norm2 = 1) (hb : b.rotation.norm2 = 1)
    {n1 n2 : String} {l1 l2 : Nat} (h1 : getLinkIds [n1] m = .ok [l1] m) (h2 : getLinkIds [n2] m = .ok [l2] m) :
    ∃ m1 T1 T2 a1 a2 m2 T1' T2' a3 a4, setBasePose b m = .ok () m1 ∧ getLinkPose l1 m1 = .ok T1 a1 ∧ getLinkPose l2 m1 = .ok T2 a2 ∧
      setBasePose (Pose.transform g b) m = .ok () m2 ∧ getLinkPose l1 m2 = .ok T1' a3 ∧ getLinkPose l2 m2 = .ok T2' a4 ∧
      Pose.transform T1'.inverse T2' = Pose.transform T1.inverse T2 := by
  obtain ⟨m1, T1, a1, m2, a3, e1, p1, e2, p3⟩ := C24_base_motion h hf g b h1
  obtain ⟨m1', T2, a2, m2', a4, e1', p2, e2', p4⟩ := C24_base_motion h hf g b h2
  rw [e1] at e1'; cases e1'
  rw [e2] at e2'; cases e2'
  refine ⟨m1, T1, T2, a1, a2, m2, _, _, a3, a4, e1, p1, p2, e2, p3, p4, ?_⟩
  have hT : T1.rotation.norm2 = 1 := by
    have hr : Reach ls js m0 (cs ++ [.setBasePose b]) m1 := h.snoc e1
    have hs : ∀ c ∈ [Call.setBasePose b], c.IsSet := by
      intro c hc; simp only [List.mem_singleton] at hc; subst hc; trivial
    have hn : getLinkIds [n1] m1 = .ok [l1] m1 := by
      obtain ⟨_, _, _, rfl⟩ := hr.sets_eq h hs
      rw [getLinkIds_one] at h1 ⊢; exact h1
    exact (C21_rotation hr hu (hc.append (by
      intro c hc; simp only [List.mem_singleton] at hc; subst hc; exact hb)) hn p1).1
  have hgT : (Pose.transform g T1).rotation.norm2 ≠ 0 := by
    show (Rot.mul g.rotation T1.rotation).norm2 ≠ 0
    rw [Rot.norm2_mul, hg, hT]; norm_num
  have k : Pose.transform g T2 = Pose.transform (Pose.transform g T1) (Pose.transform T1.inverse T2) := by
    rw [Pose.transform_assoc, ← Pose.transform_assoc T1, Pose.transform_inverse (by rw [hT]; norm_num), Pose.identity_transform]
  rw [k, ← Pose.transform_assoc, Pose.inverse_transform hgT, Pose.identity_transform]

/-- **C06 (partial, the value).** Right after `clear_cache`, for a description whose `<inertial>` origins are not rotated,
`compute_total_inertia_matrix(q, ids)` returns the inertia at `q` about the centre of mass. Missing: the claim without
`clear_cache` (`C06_stale`), and rotated origins (C34). -/
theorem C06_value_partial {h : List (PyCall ℝ)} {s s' : PyModel ℝ} {q : List ℝ} {ids : List Nat} (hr : PyReach ls js m0 h cs s)
    (hf : Shallow ls js m0 cs) (hu : UnitDesc js) (hi : ∀ i ∈ ids, i < m0.joints.length) (hq : q.length = ids.length)
    (hin : ∀ r ∈ ls, ∀ i, r.inertial = some i → i.origin.rotation = Rot.one) (hc : pyClearCache s = .ok () s')
    {θ : String → ℝ} (hθ : AnglesAfter m0 (cs ++ [.setJointAngles ids q]) θ) :
    ∃ bs, (∀ bs', Bodies ls js (AllWelds ls m0 cs) θ (baseAfter Pose.identity cs) bs' ↔ bs' = bs) ∧
      ∃ I s'', pyInertia q ids s' = .ok I s'' ∧ Matrix.of I = inertiaAbout bs (comOf bs) := by
  obtain ⟨I, s'', e, mk, hmk, mk', ek⟩ := C06_inertia_partial hr hf hi hq hc
  have hset : ∀ c ∈ [Call.setJointAngles ids q], c.IsSet := by
    intro c hc; simp only [List.mem_singleton] at hc; subst hc; trivial
  obtain ⟨bs, hb, I2, m2, e2, hI⟩ := C34_inertia_partial hmk (hf.sets hset) hθ hu (hr.unitCalls.append (by
    intro c hc; simp only [List.mem_singleton] at hc; subst hc; trivial)) hin
  rw [ek] at e2; cases e2
  rw [allWelds_sets hset, baseAfter_append] at hb
  exact ⟨bs, hb, I, s'', e, hI⟩

end

/-! ### Instances -/

namespace Example

example := C24_relative m1_reach shallow unitDesc unitCalls_hist (g := ⟨⟨0, 0, 1⟩, Rot.fromRPY 1 2 3⟩) (b := ⟨⟨1, 0, 0⟩, Rot.fromRPY 3 2 1⟩)
  (Rot.norm2_fromRPY 1 2 3) (Rot.norm2_fromRPY 3 2 1) tool_id base_id

example (sc : PyModel ℝ) (hc : pyClearCache s1 = .ok () sc) := C06_value_partial (q := [1, 2]) (ids := [1, 0]) s1_reach
  s1_shallow unitDesc (by rw [joints_length]; simp) rfl unrotated hc (exists_angles _ _).choose_spec

end Example

namespace XmlExample
variable {K : Type} [Scalar K]

set_option maxRecDepth 8000 in
/-- a text cut off inside the name of the robot -/
example (num : String → Option K) : ∃ u, constructXml (parseText num) (String.ofList (utf8 cutText)) = .ub u :=
  C50_truncated num prolog_text robot_text (by decide) (by decide) (by decide) (by decide)

set_option maxRecDepth 8000 in
example : parseXml text = pure (some [tree]) := C87_documents_partial doc_text (by decide)

end XmlExample

namespace DocExample
variable {K : Type} [Scalar K]

/-- the text of the robot with two links: the third case of C50 -/
example : ∃ mi, parseText (num (K := K)) (String.ofList robotText) = some mi := by
  rw [robot_text.parse.2]; exact Option.isSome_iff_exists.mp robot_text.parse.1

/-- its joint, in the object made from the text -/
example : ∃ m0 s, PyReach [⟨"base", some inertial⟩, ⟨"arm", none⟩] [joint (K := K)] m0 [] [] s ∧
    ∃ ids, pyGetJointIds ["j"] s = .ok ids s ∧
      ∃ out, pyGetJointLimits ids s = .ok out s ∧ List.Forall₂ (LimitsOf [joint (K := K)]) ["j"] out := by
  have ht := robot_text (K := K)
  obtain ⟨m0, e⟩ := construct_exists ht.parse.1 ht.tree ht.supported ht.noClash
  have hr : PyReach [⟨"base", some inertial⟩, ⟨"arm", none⟩] [joint (K := K)] m0 [] [] ⟨"", m0, [], []⟩ :=
    ⟨ht.tree, ht.supported, e, "", .nil⟩
  obtain ⟨ids, hids⟩ : ∃ ids, pyGetJointIds ["j"] (⟨"", m0, [], []⟩ : PyModel K) = .ok ids ⟨"", m0, [], []⟩ := by
    obtain ⟨names, -, -, h3, -, h5⟩ := C12_joint_names (⟨ht.tree, ht.supported, e, .nil⟩ : Reach _ _ m0 [] m0)
    obtain ⟨i, hi⟩ := List.mem_iff_getElem?.mp ((h3 "j").mpr ⟨joint, by simp, by simp [joint, JointType.Movable], rfl⟩)
    refine ⟨[i], ?_⟩
    simp only [pyGetJointIds, onRobot, (h5 "j" i).mpr hi]
  exact ⟨m0, _, hr, ids, hids, C42_from_text ht hr hids⟩

/-- a joint of a type that does not exist -/
def wobbly : Elem :=
  .mk "joint" [("name", "j"), ("type", "wobbly")] [.mk "parent" [("link", "base")] [], .mk "child" [("link", "arm")] []]

example : parseURDF (num (K := K)) [.mk "robot" [("name", "r")] [baseElem inertialElem, wobbly, armElem]] = none := by
  refine C69_malformed_joint_partial (e := wobbly) rfl (by simp [Elem.childrenNamed, Elem.children, Elem.name, baseElem, wobbly, armElem]) ?_
  rintro ⟨j, h, -⟩
  obtain ⟨s, hs, ht⟩ := h.type
  have : s = "wobbly" := by
    have : some "wobbly" = some s := hs
    exact (Option.some.inj this).symm
  subst this
  generalize j.type = t at ht
  generalize hw : "wobbly" = w at ht
  cases ht <;> revert hw <;> decide

end DocExample

end Tinyfk
