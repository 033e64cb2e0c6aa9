import Verif.Props.Pose

/-!
# Properties: names, ids, angles, mass

C12, C13, C14, C15, C17, C35.
-/

set_option linter.unusedSectionVars false

namespace Tinyfk

open Scalar

section
variable {K : Type} [Scalar K]
variable {ls : List (RawLink K)} {js : List (RawJoint K)} {m0 m : KinModel K} {cs : List (Call K)}

theorem forall₂_range {α : Type} {R : α → Nat → Prop} (l : List α)
    (h : ∀ (i : Nat) (a : α), l[i]? = some a → R a i) : List.Forall₂ R l (List.range l.length) := by
  rw [List.forall₂_iff_get]
  refine ⟨by simp, ?_⟩
  intro i h1 h2
  simp only [List.get_eq_getElem, List.getElem_range]
  exact h i _ (List.getElem?_eq_getElem h1)

/-- the names of the joints, by id -/
theorem Reach.jointNames (h : Reach ls js m0 cs m) : ∃ names : List String,
    names.Pairwise (· < ·) ∧
    names.Perm ((js.filter fun j => decide j.type.Movable).map RawJoint.name) ∧
    names.length = m.joints.length ∧
    getJointNames m = .ok names m ∧
    ∀ (s : String) (i : Nat), m.jointIds.find s = some i ↔ names[i]? = some s := by
  obtain ⟨names, h1, h2, h3⟩ := h.constructed.jointOrder
  have hA := h.abs
  have hC := h.constructed
  have hget : ∀ (i : Nat) (s : String), names[i]? = some s ↔ ∃ (jp : Nat) (j : Joint K),
      m.joints[i]? = some jp ∧ m.jheap[jp]? = some j ∧ j.name = s := by
    intro i s
    rw [h3, hA.joints]
    constructor
    · rintro ⟨jp, j, e1, e2, e3⟩
      exact ⟨jp, j, e1, hA.oldJ jp j e2, e3⟩
    · rintro ⟨jp, j, e1, e2, e3⟩
      obtain ⟨j', _, _, _, f1, _⟩ := hC.inv.graph.joint e1
      have := hA.oldJ jp j' f1
      rw [e2] at this; cases this
      exact ⟨jp, j, e1, f1, e3⟩
  have hlt : ∀ i, i < names.length ↔ i < m.joints.length := by
    intro i
    constructor
    · intro hi
      obtain ⟨jp, j, hj, _⟩ := (hget i _).mp (List.getElem?_eq_getElem hi)
      exact (List.getElem?_eq_some_iff.mp hj).1
    · intro hi
      obtain ⟨j, _, _, _, hj, _⟩ := hA.inv.graph.joint (List.getElem?_eq_getElem hi)
      exact (List.getElem?_eq_some_iff.mp ((hget i _).mpr ⟨_, j, List.getElem?_eq_getElem hi, hj, rfl⟩)).1
  have hlen : names.length = m.joints.length := by
    have a := hlt names.length
    have b := hlt m.joints.length
    omega
  refine ⟨names, h1, h2, hlen, ?_, ?_⟩
  · unfold getJointNames Prog.read
    have : mapOutcome (fun j => do let j ← derefJoint m j; pure j.name) m.joints = .ok names := by
      rw [mapOutcome_ok_iff, List.forall₂_iff_get]
      refine ⟨hlen.symm, ?_⟩
      intro i hi1 hi2
      simp only [List.get_eq_getElem]
      obtain ⟨jp, j, e1, e2, e3⟩ := (hget i _).mp (List.getElem?_eq_getElem hi2)
      rw [List.getElem?_eq_getElem hi1, Option.some.injEq] at e1
      rw [e1]
      simp [derefJoint, e2, e3]
    simp only [this]
  · intro s i
    rw [hA.inv.graph.jointNames s i, hget]

/-- **C12.** `get_joint_names` lists, in increasing order and without repetition, exactly the
movable joints of the description; `get_joint_ids` of that list is `0, 1, …, n-1`; and the id
of each of them is its place in the list. -/
theorem C12_joint_names (h : Reach ls js m0 cs m) : ∃ names : List String,
    getJointNames m = .ok names m ∧
    names.Pairwise (· < ·) ∧
    (∀ s, s ∈ names ↔ ∃ j ∈ js, j.type.Movable ∧ j.name = s) ∧
    getJointIds names m = .ok (List.range names.length) m ∧
    ∀ s i, getJointIds [s] m = .ok [i] m ↔ names[i]? = some s := by
  obtain ⟨names, h1, h2, _, h4, h5⟩ := h.jointNames
  refine ⟨names, h4, h1, ?_, ?_, ?_⟩
  · intro s
    rw [h2.mem_iff, List.mem_map]
    constructor
    · rintro ⟨j, hj, hs⟩
      rw [List.mem_filter] at hj
      exact ⟨j, hj.1, of_decide_eq_true hj.2, hs⟩
    · rintro ⟨j, hj, hm, hs⟩
      exact ⟨j, List.mem_filter.mpr ⟨hj, decide_eq_true hm⟩, hs⟩
  · rw [getJointIds_ok]
    exact ⟨rfl, forall₂_range _ fun i s hi => (h5 s i).mpr hi⟩
  · intro s i
    rw [getJointIds_one]
    exact h5 s i

/-- **C13.** `get_link_names` lists the links by id: first those of the description in
increasing order of names, then one `_com` link per link with an `<inertial>` in the same
order, then the added links in the order of the calls. Names do not repeat, and
`get_link_ids` is the inverse. -/
theorem C13_link_names (h : Reach ls js m0 cs m) : ∃ sorted : List (RawLink K),
    sorted.Perm ls ∧ (sorted.map RawLink.name).Pairwise (· < ·) ∧
    ∃ names, names = linksAfter (sorted.map RawLink.name ++
        (sorted.filter fun r => r.inertial.isSome).map fun r => r.name ++ "_com") cs ∧
      getLinkNames m = .ok names m ∧ names.Nodup ∧
      getLinkIds names m = .ok (List.range names.length) m ∧
      ∀ s i, getLinkIds [s] m = .ok [i] m ↔ names[i]? = some s := by
  obtain ⟨sorted, h1, h2, hx1, hx2, h5⟩ := h.constructed.order
  have e : (withInertial sorted).map (fun p => p.1.name ++ "_com") =
      (sorted.filter fun r => r.inertial.isSome).map fun r => r.name ++ "_com" := by
    clear h1 h2 hx1 hx2 h5
    induction sorted with
    | nil => rfl
    | cons a l ih =>
      rw [withInertial_cons, List.map_append, ih, List.filter_cons]
      cases a.inertial <;> simp
  rw [e] at h5
  have hA := h.abs
  have hnames : ∀ (s : String) (i : Nat), m.linkIds.find s = some i ↔
      (linksAfter (names0 m0) cs)[i]? = some s := by
    intro s i
    rw [hA.inv.graph.linkNames, ← hA.names, List.getElem?_map]
    simp
  refine ⟨sorted, h1, h2, _, rfl, ?_⟩
  rw [← h5]
  refine ⟨?_, ?_, ?_, ?_⟩
  · simp only [getLinkNames, Prog.read, hA.names, names0]
  · rw [List.nodup_iff_injective_get]
    intro a b hab
    have ha := (hnames _ _).mpr (List.getElem?_eq_getElem a.2)
    have hb := (hnames _ _).mpr (List.getElem?_eq_getElem b.2)
    simp only [List.get_eq_getElem] at hab
    rw [hab] at ha
    rw [ha] at hb
    exact Fin.ext (Option.some.inj hb)
  · rw [getLinkIds_ok]
    exact ⟨rfl, forall₂_range _ fun i s hi => (hnames s i).mpr hi⟩
  · intro s i
    rw [getLinkIds_one]
    exact hnames s i

/-- **C14 (links).** `get_link_ids` returns one id per name, in order, when all names exist, and
raises `invalid_argument` when one does not; in both cases the model is unchanged. -/
theorem C14_unknown_links (h : Reach ls js m0 cs m) (names : List String) :
    (∃ all, getLinkNames m = .ok all m ∧
      (((∀ s ∈ names, s ∈ all) ∧ ∃ ids, getLinkIds names m = .ok ids m ∧
          List.Forall₂ (fun s i => all[i]? = some s) names ids) ∨
       ((∃ s ∈ names, s ∉ all) ∧ ∃ e, getLinkIds names m = .exn (.invalidArgument e) m))) := by
  obtain ⟨_, _, _, all, _, h1, h2, h3, h4⟩ := C13_link_names h
  refine ⟨all, h1, ?_⟩
  rcases getLinkIds_cases names m with ⟨ids, e1, e2⟩ | ⟨s, e1, e2, e3⟩
  · left
    have hf : List.Forall₂ (fun s i => all[i]? = some s) names ids :=
      e2.imp fun s i hsi => (h4 s i).mp (getLinkIds_one.mpr hsi)
    refine ⟨?_, ids, e1, hf⟩
    intro s hs
    clear e1 e2
    induction hf with
    | nil => cases hs
    | cons a _ ih =>
      rcases List.mem_cons.mp hs with rfl | hs
      · exact List.mem_of_getElem? a
      · exact ih hs
  · right
    refine ⟨⟨s, e1, ?_⟩, _, e3⟩
    intro hmem
    obtain ⟨i, hi⟩ := List.mem_iff_getElem?.mp hmem
    have := getLinkIds_one.mp ((h4 s i).mpr hi)
    rw [e2] at this; cases this

/-- **C14 (joints).** The same for `get_joint_ids`. -/
theorem C14_unknown_joints (h : Reach ls js m0 cs m) (names : List String) :
    (∃ all, getJointNames m = .ok all m ∧
      (((∀ s ∈ names, s ∈ all) ∧ ∃ ids, getJointIds names m = .ok ids m ∧
          List.Forall₂ (fun s i => all[i]? = some s) names ids) ∨
       ((∃ s ∈ names, s ∉ all) ∧ ∃ e, getJointIds names m = .exn (.invalidArgument e) m))) := by
  obtain ⟨all, h1, _, _, _, h4⟩ := C12_joint_names h
  refine ⟨all, h1, ?_⟩
  rcases getJointIds_cases names m with ⟨ids, e1, e2⟩ | ⟨s, e1, e2, e3⟩
  · left
    have hf : List.Forall₂ (fun s i => all[i]? = some s) names ids :=
      e2.imp fun s i hsi => (h4 s i).mp (getJointIds_one.mpr hsi)
    refine ⟨?_, ids, e1, hf⟩
    intro s hs
    clear e1 e2
    induction hf with
    | nil => cases hs
    | cons a _ ih =>
      rcases List.mem_cons.mp hs with rfl | hs
      · exact List.mem_of_getElem? a
      · exact ih hs
  · right
    refine ⟨⟨s, e1, ?_⟩, _, e3⟩
    intro hmem
    obtain ⟨i, hi⟩ := List.mem_iff_getElem?.mp hmem
    have := getJointIds_one.mp ((h4 s i).mpr hi)
    rw [e2] at this; cases this

/-- **C15.** `add_new_link` on an existing link either finds the name in use, raises
`invalid_argument` and leaves the model as it was, or finds it free and returns the next id. -/
theorem C15_add_new_link (h : Reach ls js m0 cs m) (name : String) (parent : Nat) (o : Pose K) :
    ∃ all, getLinkNames m = .ok all m ∧
      (name ∈ all → ∃ e, addNewLink name parent o m = .exn (.invalidArgument e) m) ∧
      (name ∉ all → parent < all.length → ∃ m', addNewLink name parent o m = .ok all.length m' ∧
        getLinkNames m' = .ok (all ++ [name]) m') := by
  refine ⟨linksAfter (names0 m0) cs, ?_, ?_, ?_⟩
  · simp only [getLinkNames, Prog.read, h.abs.names]
  · intro hmem
    obtain ⟨l, hl⟩ := (h.mem_names name).mp hmem
    exact ⟨_, addNewLink_dup hl _ _⟩
  · intro hn hp
    rw [h.length] at hp
    obtain ⟨m', e1, e2, _⟩ := h.addLink o hn hp
    refine ⟨m', by rw [h.length]; exact e1, ?_⟩
    have := e2.abs.names
    have e : ∀ (cs : List (Call K)) (ns : List String), name ∉ linksAfter ns cs →
        linksAfter ns (cs ++ [.addNewLink name parent o]) = linksAfter ns cs ++ [name] := by
      intro cs
      induction cs with
      | nil => intro ns hn; simp only [linksAfter] at hn; simp [linksAfter, hn]
      | cons c cs ih =>
        intro ns hn
        rw [linksAfter_cons] at hn
        rw [List.cons_append, linksAfter_cons, ih _ hn, ← linksAfter_cons]
    simp only [getLinkNames, Prog.read, this, e cs _ hn]

/-- **C17.** `set_joint_angles` with ids of existing joints and a value for each succeeds. Each
joint then has the value at its last occurrence in the list, or its old value; nothing else but
the pose cache changes. -/
theorem C17_set_joint_angles (m : KinModel K) (ids : List Nat) (vals : List K) :
    ((∀ i ∈ ids, i < m.angles.length) → ids.length ≤ vals.length →
      ∃ m', setJointAngles ids vals m = .ok () m') ∧
    ∀ m', setJointAngles ids vals m = .ok () m' →
      m' = { m with angles := m'.angles, cache := m'.cache } ∧
      m'.angles.length = m.angles.length ∧
      ∀ i v, getJointAngles [i] m = .ok [v] m →
        getJointAngles [i] m' = .ok [(lastWrite (ids.zip vals) i).getD v] m' := by
  constructor
  · intro h1 h2
    obtain ⟨a, ha⟩ := writeAngles_ok h2 h1
    exact ⟨_, by simp only [Tinyfk.setJointAngles, Prog.bind_apply, setJointAnglesNC, ha]; rfl⟩
  · intro m' h
    simp only [Tinyfk.setJointAngles, Prog.bind_apply, setJointAnglesNC] at h
    cases hw : writeAngles ids vals m.angles with
    | exn e => rw [hw] at h; cases h
    | ub u => rw [hw] at h; cases h
    | hang => rw [hw] at h; cases h
    | ok a =>
      rw [hw] at h
      simp only [clearCache, Prog.modify, Res.ok.injEq, true_and] at h
      subst h
      refine ⟨rfl, writeAngles_length hw, ?_⟩
      intro i v hv
      simp only [getJointAngles, Prog.read, mapOutcome, Outcome.idx, Outcome.bind_eq] at hv ⊢
      cases hi : m.angles[i]? with
      | none => rw [hi] at hv; cases hv
      | some v' =>
        rw [hi] at hv
        simp only [Outcome.bind_ok, Outcome.pure_eq, Res.ok.injEq, List.cons.injEq, and_true] at hv
        subst hv
        obtain ⟨hlt, hv'⟩ := List.getElem?_eq_some_iff.mp hi
        rw [writeAngles_get hw i hlt, hv']
        simp

/-- **C35.** After any history the total mass is the sum of the masses of the links with an
`<inertial>`, added from left to right in the order of link names. -/
theorem C35_total_mass (h : Reach ls js m0 cs m) : ∃ sorted : List (RawLink K),
    sorted.Perm ls ∧ (sorted.map RawLink.name).Pairwise (· < ·) ∧
    m.totalMass = ((sorted.filterMap RawLink.inertial).map Inertial.mass).foldl (· + ·) 0 := by
  obtain ⟨sorted, h1, h2, h3, h4⟩ := h.constructed.order
  refine ⟨sorted, h1, h2, ?_⟩
  rw [h.abs.mass, h3]
  congr 1
  simp only [withInertial, List.map_filterMap]
  clear h1 h2 h3 h4
  induction sorted with
  | nil => rfl
  | cons a l ih =>
    simp only [List.filterMap_cons]
    cases a.inertial <;> simp_all

end

/-- **C35 over the reals**: the sum over all links, in any order. -/
theorem C35_total_mass_real {ls : List (RawLink ℝ)} {js : List (RawJoint ℝ)} {m0 m : KinModel ℝ}
    {cs : List (Call ℝ)} (h : Reach ls js m0 cs m) :
    m.totalMass = ((ls.filterMap RawLink.inertial).map Inertial.mass).sum := by
  obtain ⟨sorted, h1, _, h3⟩ := C35_total_mass h
  have e : ∀ (l : List ℝ) (a : ℝ), l.foldl (· + ·) a = a + l.sum := by
    intro l
    induction l with
    | nil => simp
    | cons x l ih => intro a; rw [List.foldl_cons, ih, List.sum_cons, add_assoc]
  rw [h3, e, zero_add]
  exact ((h1.filterMap _).map _).sum_eq

/-! ### The hypotheses are met -/

namespace Example

example := C12_joint_names m1_reach
example := C13_link_names m1_reach
-- "tool" exists, "gripper" does not
example := C14_unknown_links m1_reach ["tool", "gripper"]
example := C14_unknown_joints m1_reach ["turn", "weld"]
example := C15_add_new_link m1_reach "tool" 0 Pose.identity
example : m1.totalMass = 3 := by
  rw [C35_total_mass_real m1_reach]
  simp [ls, armInertial, tipInertial]; norm_num
example : ∃ m', setJointAngles [1, 0, 1] [1, 2, 3] m1 = .ok () m' := by
  apply (C17_set_joint_angles m1 [1, 0, 1] [1, 2, 3]).1
  · rw [m1_reach.abs.inv.graph.anglesLen, m1_reach.abs.joints, joints_length]
    simp
  · simp

end Example

end Tinyfk
