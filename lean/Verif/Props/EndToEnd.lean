import Verif.Spec.RobotText
import Verif.Props.XmlText
import Verif.Props.PySolve
import Verif.Props.DocExample

/-!
# From the text of a robot description to poses

C08 (links attached to the description), C76.
-/

set_option linter.unusedSectionVars false

namespace Tinyfk

open Scalar

section
variable {K : Type} [Scalar K] {ls : List (RawLink K)} {js : List (RawJoint K)} {m0 m : KinModel K} {cs : List (Call K)}

/-- names of added links are new -/
theorem weldsAfter_fresh (ns : List String) (cs : List (Call K)) : ∀ w ∈ weldsAfter ns cs, w.name ∉ ns := by
  induction cs generalizing ns with
  | nil => simp [weldsAfter]
  | cons c cs ih =>
    cases c with
    | addNewLink n p o =>
      simp only [weldsAfter]
      split
      · exact ih ns
      · rename_i hn
        intro w hw
        rw [List.mem_append] at hw
        rcases hw with hw | hw
        · split at hw
          · simp only [List.mem_singleton] at hw
            subst hw; exact hn
          · cases hw
        · have := ih _ w hw
          simp only [List.mem_append] at this
          exact fun hc => this (.inl hc)
    | _ => exact ih ns

/-- The links between the root and a link of the description are different from each other. -/
theorem LinkDepth.path {W : Weld K → Prop} (hW : ∀ w, W w → w.name ∉ ls.map RawLink.name)
    (hends : ∀ j ∈ js, j.parentLinkName ∈ ls.map RawLink.name) {height : String → Nat}
    (hh : ∀ j ∈ js, height j.parentLinkName < height j.childLinkName) {n : String} {d : Nat}
    (h : LinkDepth ls js W n d) (hn : n ∈ ls.map RawLink.name) :
    ∃ p : List String, p.length = d + 1 ∧ p.Nodup ∧ ∀ x ∈ p, x ∈ ls.map RawLink.name ∧ height x ≤ height n := by
  induction h with
  | @root l h1 _ =>
    refine ⟨[l.name], rfl, by simp, fun x hx => ?_⟩
    rw [List.mem_singleton] at hx; subst hx; exact ⟨hn, Nat.le_refl _⟩
  | @joint j d h1 _ ih =>
    obtain ⟨p, e, nd, hp⟩ := ih (hends j h1)
    refine ⟨j.childLinkName :: p, by simp [e], ?_, ?_⟩
    · rw [List.nodup_cons]
      refine ⟨fun hc => ?_, nd⟩
      have := (hp _ hc).2
      have := hh j h1
      omega
    · intro x hx
      rcases List.mem_cons.mp hx with rfl | hx
      · exact ⟨hn, Nat.le_refl _⟩
      · exact ⟨(hp x hx).1, (hp x hx).2.trans (hh j h1).le⟩
  | weld h1 _ _ => exact absurd hn (hW _ h1)

theorem nodup_length_le {p q : List String} (h : p.Nodup) (hs : ∀ x ∈ p, x ∈ q) : p.length ≤ q.length := by
  induction p generalizing q with
  | nil => simp
  | cons a p ih =>
    rw [List.nodup_cons] at h
    have ha := hs a (by simp)
    have := ih (q := q.erase a) h.2 (fun x hx => by
      have hne : x ≠ a := by rintro rfl; exact h.1 hx
      rw [List.mem_erase_of_ne hne]
      exact hs x (by simp [hx]))
    rw [List.length_erase_of_mem ha] at this
    have := List.length_pos_of_mem ha
    simp only [List.length_cons]; omega

/-- the names of a constructed tree robot are as they should be -/
theorem Reach.names (h : Reach ls js m0 cs m) :
    (∀ w, AllWelds ls m0 cs w → w.name ∉ ls.map RawLink.name) ∧
    (∀ j ∈ js, j.parentLinkName ∈ ls.map RawLink.name ∧ j.childLinkName ∈ ls.map RawLink.name) := by
  have hb : (buildModel ls js).isSome := by
    cases hb : buildModel ls js with
    | some _ => rfl
    | none => have := h.built; rw [hb] at this; simp only [construct] at this; cases this
  have hbm := (buildModel_isSome ls js).mp hb
  refine ⟨?_, fun j hj => ⟨(hbm.2.2.2.1 j hj).2.2.2, (hbm.2.2.2.1 j hj).2.2.1⟩⟩
  obtain ⟨sorted, hp, hpw, _, _, hnm⟩ := h.constructed.order
  have hmem : ∀ x, x ∈ sorted.map RawLink.name ↔ x ∈ ls.map RawLink.name := fun x => (hp.map _).mem_iff
  rintro w (hw | hw) hc
  · have := (C57_com_name_clash hb h.tree h.supported).2
    cases hw with
    | @mk l i h1 h2 =>
      obtain ⟨e, he⟩ := this ⟨l, h1, by simp [h2], hc⟩
      rw [h.built] at he; cases he
  · apply weldsAfter_fresh _ _ w hw
    rw [names0, hnm, List.mem_append]
    exact .inl ((hmem _).mpr hc)

/-- **C08, links attached to the description.** However many links are added: if each is attached to a link of the
description, no pose query ever overflows the stack (the hypothesis `Shallow` of the other theorems). In particular this
holds when none is added. -/
theorem C08_attached_to_description (h : Reach ls js m0 cs m)
    (hw : ∀ w ∈ weldsAfter (names0 m0) cs, w.carrier ∈ ls.map RawLink.name) : Shallow ls js m0 cs := by
  obtain ⟨hW, hends⟩ := h.names
  obtain ⟨height, hh⟩ := h.tree.acyclic
  have key : ∀ {n d}, LinkDepth ls js (AllWelds ls m0 cs) n d → n ∈ ls.map RawLink.name → d + 1 ≤ ls.length := by
    intro n d hd hn
    obtain ⟨p, e, nd, hp⟩ := hd.path hW (fun j hj => (hends j hj).1) hh hn
    have := nodup_length_le nd fun x hx => (hp x hx).1
    rw [e, List.length_map] at this
    exact this
  intro n d hd
  cases hd with
  | root h1 h2 => exact Nat.zero_le _
  | joint h1 h2 => exact key h2 (hends _ h1).1
  | weld h1 h2 =>
    refine key h2 ?_
    rcases h1 with h1 | h1
    · cases h1 with
      | mk h3 h4 => exact List.mem_map_of_mem h3
    · exact hw _ h1

/-- **C08, no link added.** -/
theorem C08_no_added_link (h : Reach ls js m0 cs m) (hw : weldsAfter (names0 m0) cs = []) : Shallow ls js m0 cs :=
  C08_attached_to_description h (by simp [hw])

/-! ### C76 -/

/-- the text is accepted, and what it says is what the parser builds -/
theorem RobotText.parse {num : String → Option K} {t : List Char} (h : RobotText num t ls js) :
    (buildModel ls js).isSome ∧ parseText num (String.ofList t) = buildModel ls js := by
  obtain ⟨e, hdoc, hn, hname, hver, hmat, hl, hj⟩ := h.document
  have hfind : [e].find? (fun e => e.name == "robot") = some e := by simp [hn]
  have hbm : (buildModel ls js).isSome := by
    have hmem : ∀ {x}, x ∈ ls.map RawLink.name → x ≠ "" := by
      intro x hx
      obtain ⟨l, hl, rfl⟩ := List.mem_map.mp hx
      exact h.named l hl
    rw [buildModel_isSome]
    refine ⟨h.linkNames, h.jointNames, ?_, fun j hj => ?_, h.oneRoot⟩
    · rintro rfl
      obtain ⟨r, ⟨hr, _⟩, _⟩ := h.oneRoot
      cases hr
    · obtain ⟨a, b⟩ := h.ends j hj
      exact ⟨hmem a, hmem b, b, a⟩
  refine ⟨hbm, ?_⟩
  obtain ⟨mi, hmi⟩ := Option.isSome_iff_exists.mp hbm
  obtain ⟨xs, hx, hxj⟩ := mapM_joints.mpr hj
  have hlk : (e.childrenNamed "link").map (fun e => (parseLink num e).1.toRaw) = ls := by
    clear hfind hmat h hbm hmi
    generalize e.childrenNamed "link" = es at hl
    induction hl with
    | nil => rfl
    | cons h1 _ ih => rw [List.map_cons, parseLink_of h1, ih]
  have hver' : urdfVersion (e.attr "version") = some (1, 0) := by
    rcases hver with hv | hv <;> rw [hv]
    · rfl
    · decide
  obtain ⟨r, hp⟩ := parseURDF_iff.mpr ⟨e, hfind, hname, hver', by simpa [parseMaterial_name] using hmat, xs, hx,
    by rw [hlk, hxj]; exact hmi⟩
  rw [(C72_urdf num hdoc h.noNul).2, hp, hmi]; rfl

theorem RobotText.ne {num : String → Option K} {t : List Char} (h : RobotText num t ls js) : String.ofList t ≠ "" := by
  intro he
  have h1 : t = [] := by have := congrArg String.toList he; simpa using this
  obtain ⟨hb, hp⟩ := h.parse
  rw [h1] at hp
  obtain ⟨mi, hmi⟩ := Option.isSome_iff_exists.mp hb
  rw [hmi] at hp
  cases hp

/-- **C76, construction.** The text of a robot makes a model that is at the start of a history for that robot: all
theorems about histories apply to it. -/
theorem C76_from_text {num : String → Option K} {t : List Char} (h : RobotText num t ls js) :
    ∃ m0, pyInit (parseText num) (String.ofList t) = .ok ⟨String.ofList t, m0, [], []⟩ ∧
      PyReach ls js m0 [] [] ⟨String.ofList t, m0, [], []⟩ ∧ Shallow ls js m0 [] := by
  obtain ⟨hb, hp⟩ := h.parse
  obtain ⟨m0, hm⟩ := (C57_com_name_clash hb h.tree h.supported).1 h.noClash
  refine ⟨m0, ?_, ⟨h.tree, h.supported, hm, _, .nil⟩, C08_no_added_link ⟨h.tree, h.supported, hm, .nil⟩ rfl⟩
  simp only [pyInit, constructXml, if_neg h.ne, hp, hm]
  rfl

theorem forall₂_get {α β : Type} {R : α → β → Prop} {as : List α} {bs : List β} (h : List.Forall₂ R as bs) {i : Nat} {a : α}
    (ha : as[i]? = some a) : ∃ b, bs[i]? = some b ∧ R a b := by
  induction h generalizing i with
  | nil => simp at ha
  | cons h1 _ ih =>
    cases i with
    | zero => simp only [List.getElem?_cons_zero, Option.some.injEq] at ha; subst ha; exact ⟨_, rfl, h1⟩
    | succ i => simpa using ih (by simpa using ha)

theorem forall₂_get' {α β : Type} {R : α → β → Prop} {as : List α} {bs : List β} (h : List.Forall₂ R as bs) {i : Nat} {b : β}
    (hb : bs[i]? = some b) : ∃ a, as[i]? = some a ∧ R a b := by
  induction h generalizing i with
  | nil => simp at hb
  | cons h1 _ ih =>
    cases i with
    | zero => simp only [List.getElem?_cons_zero, Option.some.injEq] at hb; subst hb; exact ⟨_, rfl, h1⟩
    | succ i => simpa using ih (by simpa using hb)

theorem forall₂_nodup {all names : List String} {ids : List Nat} (h : List.Forall₂ (fun s i => all[i]? = some s) names ids)
    (hd : names.Nodup) : ids.Nodup := by
  induction h with
  | nil => simp
  | @cons a b as bs h1 h2 ih =>
    rw [List.nodup_cons] at hd ⊢
    refine ⟨fun hc => hd.1 ?_, ih hd.2⟩
    obtain ⟨k, hk⟩ := List.getElem?_of_mem hc
    obtain ⟨s, hs, hs'⟩ := forall₂_get' h2 hk
    rw [h1] at hs'
    cases hs'
    exact List.mem_of_getElem? hs

/-- the last write to an id that occurs once -/
theorem lastWrite_listed {ids : List Nat} {q : List K} (hd : ids.Nodup) {k i : Nat} {v : K} (hi : ids[k]? = some i)
    (hv : q[k]? = some v) : lastWrite (ids.zip q) i = some v := by
  induction ids generalizing q k with
  | nil => simp at hi
  | cons a ids ih =>
    cases q with
    | nil => simp at hv
    | cons w q =>
      rw [List.nodup_cons] at hd
      cases k with
      | zero =>
        simp only [List.getElem?_cons_zero, Option.some.injEq] at hi hv
        subst hi hv
        have : (ids.zip q).filter (fun w => w.1 == a) = [] := by
          rw [List.filter_eq_nil_iff]
          intro x hx
          have := (List.of_mem_zip hx).1
          simp only [beq_iff_eq]
          exact fun e => hd.1 (e ▸ this)
        simp [lastWrite, this]
      | succ k =>
        simp only [List.getElem?_cons_succ] at hi hv
        have hne : a ≠ i := fun e => hd.1 (e ▸ List.mem_of_getElem? hi)
        have := ih hd.2 hi hv
        simpa [lastWrite, hne] using this

theorem lastWrite_other {ids : List Nat} {q : List K} {i : Nat} (hi : i ∉ ids) : lastWrite (ids.zip q) i = none := by
  have : (ids.zip q).filter (fun w => w.1 == i) = [] := by
    rw [List.filter_eq_nil_iff]
    intro x hx
    have := (List.of_mem_zip hx).1
    simp only [beq_iff_eq]
    exact fun e => hi (e ▸ this)
  simp [lastWrite, this]

/-- A robot that was read from a text, and the ids of joints and links that were looked up by name. -/
structure Loaded (ls : List (RawLink K)) (js : List (RawJoint K)) (jn ln : List String) (m0 : KinModel K) (s0 : PyModel K)
    (ids es : List Nat) : Prop where
  robot : s0.robot = m0
  reach : PyReach ls js m0 [] [] s0
  shallow : Shallow ls js m0 []
  jointIds : pyGetJointIds jn s0 = .ok ids s0
  linkIds : pyGetLinkIds ln s0 = .ok es s0
  lenJ : ids.length = jn.length
  lenL : es.length = ln.length
  joints : ∀ i ∈ ids, i < m0.joints.length
  links : ∀ l ∈ es, l < m0.links.length
  joint : ∀ (k : Nat) (n : String), jn[k]? = some n → ∃ i, ids[k]? = some i ∧ getJointIds [n] m0 = .ok [i] m0
  link : ∀ (k : Nat) (n : String), ln[k]? = some n → ∃ l, es[k]? = some l ∧ getLinkIds [n] m0 = .ok [l] m0
  angles : ∀ (bt : BaseType) (q : List K) (θ : String → K), q.length = ids.length + bt.dof → ConfigSays jn q θ →
    AnglesAfter m0 ([] ++ configCalls ids bt q) θ
  base : ∀ (bt : BaseType) (q : List K), baseAfter Pose.identity ([] ++ configCalls ids bt q) = configBase jn.length bt q

theorem loaded {num : String → Option K} {t : List Char} (h : RobotText num t ls js)
    {jn ln : List String} (hjn : ∀ n ∈ jn, ∃ j ∈ js, j.type.Movable ∧ j.name = n) (hd : jn.Nodup)
    (hln : ∀ n ∈ ln, n ∈ ls.map RawLink.name) :
    ∃ m0 s0 ids es, pyInit (parseText num) (String.ofList t) = .ok s0 ∧ Loaded ls js jn ln m0 s0 ids es := by
  obtain ⟨m0, hinit, hr, hsh⟩ := C76_from_text h
  have hre : Reach ls js m0 [] m0 := ⟨hr.tree, hr.supported, hr.built, .nil⟩
  -- joints
  obtain ⟨all, hall, hja⟩ := C14_unknown_joints hre jn
  obtain ⟨all', hall', _, hmem, _, hid⟩ := C12_joint_names hre
  rw [hall] at hall'
  cases hall'
  rcases hja with ⟨_, ids, hids, hidf⟩ | ⟨⟨s, hs, hns⟩, _⟩
  swap
  · exact absurd ((hmem s).mpr (hjn s hs)) hns
  -- links
  obtain ⟨alll, halll, hla⟩ := C14_unknown_links hre ln
  obtain ⟨sorted, hperm, _, names, hnames, hnm, _, _, hlid⟩ := C13_link_names hre
  rw [halll] at hnm
  cases hnm
  rcases hla with ⟨_, es, hes, hef⟩ | ⟨⟨s, hs, hns⟩, _⟩
  swap
  · refine absurd ?_ hns
    rw [hnames]
    simp only [linksAfter, List.mem_append]
    exact .inl ((hperm.map RawLink.name).mem_iff.mpr (hln s hs))
  have hil : ids.length = jn.length := hidf.length_eq.symm
  have hids' : ∀ (k : Nat) (i : Nat), ids[k]? = some i → ∃ s, jn[k]? = some s ∧ all[i]? = some s := fun k i hk =>
    forall₂_get' hidf hk
  refine ⟨m0, _, ids, es, hinit, rfl, hr, hsh, ?_, ?_, hil, hef.length_eq.symm, ?_, ?_, ?_, ?_, ?_, ?_⟩
  · simp only [pyGetJointIds, onRobot, hids]
  · simp only [pyGetLinkIds, onRobot, hes]
  · intro i hi
    obtain ⟨k, hk⟩ := List.getElem?_of_mem hi
    obtain ⟨s, _, hs⟩ := hids' k i hk
    exact hre.joint_lt ((hid s i).mpr hs)
  · intro l hl
    obtain ⟨k, hk⟩ := List.getElem?_of_mem hl
    obtain ⟨s, _, hs⟩ := forall₂_get' hef hk
    exact hre.link_lt ((hlid s l).mpr hs)
  · intro k n hk
    obtain ⟨i, h1, h2⟩ := forall₂_get hidf hk
    exact ⟨i, h1, (hid n i).mpr h2⟩
  · intro k n hk
    obtain ⟨l, h1, h2⟩ := forall₂_get hef hk
    exact ⟨l, h1, (hlid n l).mpr h2⟩
  · intro bt q θ hqw hθ s i hs
    have hsi := (hid s i).mp hs
    have hidn : ids.Nodup := forall₂_nodup hidf hd
    have hb : angleAfter i (0 : K) (configCalls ids bt q) = (lastWrite (ids.zip (q.take ids.length)) i).getD 0 := by
      simp only [configCalls, angleAfter]
      cases basePart ids.length bt q <;> rfl
    rw [List.nil_append, hb]
    by_cases hi : i ∈ ids
    · obtain ⟨k', hk'⟩ := List.getElem?_of_mem hi
      obtain ⟨s', h1, h2⟩ := hids' k' i hk'
      rw [hsi] at h2; cases h2
      have hlt := (List.getElem?_eq_some_iff.mp hk').1
      have hq' : (q.take ids.length)[k']? = q[k']? := List.getElem?_take_of_lt hlt
      have hlt' : k' < q.length := by omega
      rw [lastWrite_listed hidn hk' (hq'.trans (List.getElem?_eq_getElem hlt')), Option.getD_some]
      exact hθ.listed k' s _ h1 (List.getElem?_eq_getElem hlt')
    · rw [lastWrite_other hi, Option.getD_none]
      refine hθ.others s fun hc => hi ?_
      obtain ⟨k', hk'⟩ := List.getElem?_of_mem hc
      obtain ⟨i', h1, h2⟩ := forall₂_get hidf hk'
      have h3 := (hid s i').mpr h2
      rw [hs] at h3
      cases h3
      exact List.mem_of_getElem? h1
  · intro bt q
    rw [← hil]
    simp only [List.nil_append, configCalls, baseAfter, configBase]
    cases basePart ids.length bt q <;> rfl

theorem Loaded.fkArgs {jn ln : List String} {m0 : KinModel K} {s0 : PyModel K} {ids es : List Nat} (h : Loaded ls js jn ln m0 s0 ids es)
    {bt : BaseType} (qs : Arr2 K) (hq : qs.cols = jn.length + bt.dof) (hne : qs.rows ≠ []) : FkArgs m0 s0 (.nd2 qs) es ids bt := by
  refine ⟨(fun _ h' => by cases h'), hne, fun q hq' => ?_, h.joints, by rw [h.robot]; exact h.links⟩
  rw [qs.wf q hq', hq, h.lenJ]

theorem Loaded.fits {jn ln : List String} {m0 : KinModel K} {s0 : PyModel K} {ids es : List Nat} (h : Loaded ls js jn ln m0 s0 ids es) :
    s0.robot.cache.Fits s0.robot.links.length := by
  have hre : Reach ls js m0 [] m0 := ⟨h.reach.tree, h.reach.supported, h.reach.built, .nil⟩
  rw [h.robot]
  exact ⟨hre.abs.inv.sized.size, hre.abs.inv.sized.pred, hre.abs.inv.sized.data⟩

theorem allWelds_nil (ls : List (RawLink K)) (m0 : KinModel K) : AllWelds ls m0 [] = ComWeld ls := by
  funext w; simp [AllWelds, weldsAfter]

/-- **C76.** From the text to the poses, in the terms of a user: read a robot description, look up joints and links by
name, compute poses. Row `k * n_link + j` of the result is the pose of the `j`-th named link when the named joints and the base have the
values of configuration `k` and all other joints are at 0, in the robot the text describes. -/
theorem C76_end_to_end {num : String → Option K} {t : List Char} (h : RobotText num t ls js)
    {jn ln : List String} (hjn : ∀ n ∈ jn, ∃ j ∈ js, j.type.Movable ∧ j.name = n) (hd : jn.Nodup)
    (hln : ∀ n ∈ ln, n ∈ ls.map RawLink.name) (bt : BaseType) (qs : Arr2 K) (hq : qs.cols = jn.length + bt.dof) (hne : qs.rows ≠ [])
    (rt : RotType) :
    ∃ s0 ids es P J s, pyInit (parseText num) (String.ofList t) = .ok s0 ∧
      pyGetJointIds jn s0 = .ok ids s0 ∧ pyGetLinkIds ln s0 = .ok es s0 ∧
      pySolveFk (.nd2 qs) es ids rt bt false false s0 = .ok (P, J) s ∧
      P.rows = qs.rows.length * ln.length ∧ P.cols = rt.width ∧
      ∀ (k j : Nat) (q : List K) (n : String) (θ : String → K),
        qs.rows[k]? = some q → ln[j]? = some n → ConfigSays jn q θ →
        ∃ T, (∀ T', WorldPose ls js (ComWeld ls) θ (configBase jn.length bt q) n T' ↔ T' = T) ∧
          PoseRow rt P (k * ln.length + j) T := by
  obtain ⟨m0, s0, ids, es, hinit, hl⟩ := loaded h hjn hd hln
  obtain ⟨P, J, s, e, hP1, hP2, hP3⟩ := C02_solve_fk (rt := rt) (wj := false) (c := s0.robot.cache) hl.reach hl.shallow hl.fits
    (hl.fkArgs qs hq hne) (by simp)
  refine ⟨_, ids, es, P, J, s, hinit, hl.jointIds, hl.linkIds, e, by rw [hP1, hl.lenL]; rfl, hP2, ?_⟩
  intro k j q n θ hk hj hθ
  obtain ⟨l, hl1, hl2⟩ := hl.link j n hj
  obtain ⟨T, hT, hrow⟩ := hP3 k j l q n θ hk hl1 (by rw [hl.robot]; exact hl2)
    (hl.angles bt q θ (by rw [qs.wf q (List.mem_of_getElem? hk), hq, hl.lenJ]) hθ)
  refine ⟨T, ?_, by rw [← hl.lenL]; exact hrow⟩
  rw [allWelds_nil, hl.base] at hT
  exact hT

end

namespace DocExample

variable {K : Type} [Scalar K]

/-- `"<robot name=...`: the example document, written out -/
def robotText : List Char := render (robotElem inertialElem)

/-- letters and digits, beginning with a letter -/
def simpleName (n : String) : Bool :=
  match n.toList with
  | [] => false
  | c :: cs => c.isAlpha && cs.all Char.isAlphanum

theorem simpleName_name {n : String} (h : simpleName n = true) : XName n.toList := by
  unfold simpleName at h
  split at h
  · cases h
  · rename_i c cs e
    rw [e]
    simp only [Bool.and_eq_true, List.all_eq_true] at h
    exact XmlExample.nm c cs h.1 h.2

mutual
/-- a sufficient condition for `Writable` -/
def checkElem : Elem → Bool
  | .mk n as kids => simpleName n && decide ((as.map Prod.fst).Nodup) &&
      as.all (fun a => simpleName a.1 && a.2.toList.all fun c => c != '\x00' && decide (c.toNat < 128)) && checkElems kids
/-- the same for all -/
def checkElems : List Elem → Bool
  | [] => true
  | e :: es => checkElem e && checkElems es
end

mutual
theorem checkElem_writable : ∀ (e : Elem), checkElem e = true → Writable e
  | .mk n as kids => by
    intro h
    simp only [checkElem, Bool.and_eq_true, decide_eq_true_eq, List.all_eq_true, bne_iff_ne] at h
    simp only [Writable]
    exact ⟨simpleName_name h.1.1.1, h.1.1.2, fun a ha => ⟨simpleName_name (h.1.2 a ha).1,
        XmlExample.asciiValue fun c hc => ⟨((h.1.2 a ha).2 c hc).2, ((h.1.2 a ha).2 c hc).1⟩⟩,
      checkElems_writable kids h.2⟩
theorem checkElems_writable : ∀ (es : List Elem), checkElems es = true → AllWritable es
  | [] => fun _ => by simp [AllWritable]
  | e :: es => by
    intro h
    simp only [checkElems, Bool.and_eq_true] at h
    simp only [AllWritable]
    exact ⟨checkElem_writable e h.1, checkElems_writable es h.2⟩
end

set_option maxRecDepth 8000 in
theorem robot_writable : Writable (robotElem inertialElem) := checkElem_writable _ (by decide)

/-- the text is that of a robot with two links and a joint -/
theorem robot_text : RobotText (num (K := K)) robotText [⟨"base", some inertial⟩, ⟨"arm", none⟩] [joint] where
  noNul := by decide
  document := by
    refine ⟨robotElem inertialElem, ?_, rfl, rfl, .inl rfl, by simp [materials_of], links_say, ?_⟩
    · exact ⟨false, [], robotText, [], by simp, prolog_nil, render_text _ robot_writable, .nil⟩
    · rw [joints_of]; exact .cons ⟨joint_says, extras⟩ .nil
  linkNames := by show ["base", "arm"].Nodup; decide
  named := by simp
  jointNames := by simp
  ends := by simp [joint]
  oneRoot := by
    refine ⟨"base", by simp [joint], ?_⟩
    rintro r ⟨hr, hj⟩
    have hj := hj joint (by simp)
    simp only [List.map_cons, List.map_nil, List.mem_cons, List.not_mem_nil, or_false] at hr
    rcases hr with rfl | rfl
    · rfl
    · exact absurd rfl hj
  tree := ⟨by simp, fun n => if n = "base" then 0 else 1, by simp [joint]⟩
  supported := by simp [Supported, joint, JointType.Movable]
  noClash := by simp

/-- the pose of the arm, at two angles -/
example (a b : K) := C76_end_to_end (robot_text (K := K)) (jn := ["j"]) (ln := ["arm", "base"])
  (by simp [joint, JointType.Movable]) (by simp) (by simp) .fixed ⟨1, [[a], [b]], by simp⟩ rfl (by simp) .xyzw

/-- the same with a planar base -/
example (a b x y w : K) := C76_end_to_end (robot_text (K := K)) (jn := ["j"]) (ln := ["arm", "base"])
  (by simp [joint, JointType.Movable]) (by simp) (by simp) .planer ⟨4, [[a, x, y, w], [b, y, x, w]], by simp⟩ rfl (by simp) .xyzw

end DocExample

end Tinyfk
