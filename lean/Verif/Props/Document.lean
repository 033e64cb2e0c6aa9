import Verif.Props.Parse
import Verif.Proofs.Version

/-!
# Robot documents: order, unused elements, malformed links, versions

C66, C67, C68, C69.
-/

set_option linter.unusedSectionVars false
set_option linter.unusedSimpArgs false

namespace Tinyfk

section
variable {K : Type} [Scalar K] {num : String → Option K}

/-! ### C68 -/

theorem insertAll_perm {α : Type} (key : α → String) {l l' : List α} (h : l.Perm l') :
    insertAll key [] l = insertAll key [] l' := by
  have h1 := insertAll_isSome key [] l List.Pairwise.nil
  have h2 := insertAll_isSome key [] l' List.Pairwise.nil
  rw [List.nil_append] at h1 h2
  have hn : (l.map key).Nodup ↔ (l'.map key).Nodup := (h.map key).nodup_iff
  cases e1 : insertAll key [] l with
  | none =>
    cases e2 : insertAll key [] l' with
    | none => rfl
    | some r =>
      rw [e2] at h2
      rw [e1] at h1
      have := h1.mpr (hn.mpr (h2.mp rfl))
      cases this
  | some r =>
    cases e2 : insertAll key [] l' with
    | none =>
      rw [e2] at h2
      rw [e1] at h1
      have := h2.mpr (hn.mp (h1.mp rfl))
      cases this
    | some r' =>
      obtain ⟨p1, s1⟩ := insertAll_eq_some key [] l List.Pairwise.nil e1
      obtain ⟨p2, s2⟩ := insertAll_eq_some key [] l' List.Pairwise.nil e2
      have hp : r.Perm r' := by simpa using p1.trans ((by simpa using h : ([] ++ l).Perm ([] ++ l')).trans p2.symm)
      rw [List.Perm.eq_of_pairwise (fun a b _ _ h1 h2 => absurd (String.lt_trans h1 h2) (String.lt_irrefl _)) s1 s2 hp]

theorem buildModel_perm {ls ls' : List (RawLink K)} {js js' : List (RawJoint K)} (hl : ls.Perm ls') (hj : js.Perm js') :
    buildModel ls js = buildModel ls' js' := by
  unfold buildModel
  rw [insertAll_perm Link.name (hl.map RawLink.toLink), insertAll_perm Joint.name (hj.map RawJoint.toJoint)]

theorem mapM_perm {α β : Type} {f : α → Option β} {l l' : List α} (h : l.Perm l') :
    ∀ {r : List β}, l.mapM f = some r → ∃ r', l'.mapM f = some r' ∧ r.Perm r' := by
  induction h with
  | nil => intro r h; exact ⟨r, h, .refl _⟩
  | @cons x l l' _ ih =>
    intro r h
    simp only [List.mapM_cons, Option.bind_eq_bind, Option.bind_eq_some_iff, Option.pure_def, Option.some.injEq] at h
    obtain ⟨b, h1, bs, h2, rfl⟩ := h
    obtain ⟨r', h3, h4⟩ := ih h2
    exact ⟨b :: r', by simp [h1, h3], h4.cons b⟩
  | swap x y l =>
    intro r h
    simp only [List.mapM_cons, Option.bind_eq_bind, Option.bind_eq_some_iff, Option.pure_def, Option.some.injEq] at h
    obtain ⟨b, h1, bs, ⟨c, h2, cs, h3, rfl⟩, rfl⟩ := h
    exact ⟨c :: b :: cs, by simp [h1, h2, h3], .swap _ _ _⟩
  | trans _ _ ih1 ih2 =>
    intro r h
    obtain ⟨r1, h1, p1⟩ := ih1 h
    obtain ⟨r2, h2, p2⟩ := ih2 h1
    exact ⟨r2, h2, p1.trans p2⟩

/-- **C68.** The order of the elements inside `<robot>` does not matter: with the elements reordered, the document
gives the same model, or is rejected as before. -/
theorem C68_element_order {doc doc' : List Elem} {robot robot' : Elem}
    (h : doc.find? (fun e => e.name == "robot") = some robot)
    (h' : doc'.find? (fun e => e.name == "robot") = some robot')
    (hn : robot'.attr "name" = robot.attr "name") (hv : robot'.attr "version" = robot.attr "version")
    (hp : robot.children.Perm robot'.children) :
    (parseURDF num doc).map (·.2) = (parseURDF num doc').map (·.2) := by
  have key : ∀ {d d' : List Elem} {e e' : Elem}, d.find? (fun e => e.name == "robot") = some e →
      d'.find? (fun e => e.name == "robot") = some e' → e'.attr "name" = e.attr "name" →
      e'.attr "version" = e.attr "version" → e.children.Perm e'.children → ∀ m : ModelInterface K,
      (∃ r, parseURDF num d = some (r, m)) → ∃ r, parseURDF num d' = some (r, m) := by
    intro d d' e e' h h' hn hv hp m hm
    obtain ⟨e1, g1, g2, g3, g4, xs, g5, g6⟩ := parseURDF_iff.mp hm
    rw [h] at g1
    cases g1
    have hc : ∀ s, (e.childrenNamed s).Perm (e'.childrenNamed s) := fun s => hp.filter _
    obtain ⟨xs', k1, k2⟩ := mapM_perm (hc "joint") g5
    exact parseURDF_iff.mpr ⟨e', h', hn ▸ g2, hv ▸ g3, (((hc "material").map _).nodup_iff).mp g4, xs', k1,
      (buildModel_perm (K := K) ((hc "link").map fun e => (parseLink num e).1.toRaw) (k2.map XJoint.toRaw)) ▸ g6⟩
  have k1 := key h h' hn hv hp
  have k2 := key h' h hn.symm hv.symm hp.symm
  cases e1 : parseURDF num doc with
  | none =>
    cases e2 : parseURDF num doc' with
    | none => rfl
    | some x =>
      obtain ⟨r, hr⟩ := k2 x.2 ⟨x.1, e2⟩
      rw [e1] at hr; cases hr
  | some x =>
    obtain ⟨r, hr⟩ := k1 x.2 ⟨x.1, e1⟩
    rw [hr]; rfl

/-! ### C67 -/

/-- The two joint elements agree in everything the kinematics uses, and their other elements are both well formed or
both not. -/
structure SameJoint (num : String → Option K) (e e' : Elem) : Prop where
  attr : ∀ k ∈ ["name", "type"], e'.attr k = e.attr k
  child : ∀ k ∈ ["origin", "parent", "child", "axis", "limit"], e'.firstChild k = e.firstChild k
  extras : ExtrasOk num e' ↔ ExtrasOk num e

theorem SameJoint.says {e e' : Elem} (h : SameJoint num e e') {j : RawJoint K} (hj : JointSays num e j ∧ ExtrasOk num e) :
    JointSays num e' j ∧ ExtrasOk num e' := by
  obtain ⟨hj, hx⟩ := hj
  have a1 := h.attr "name" (by simp)
  have a2 := h.attr "type" (by simp)
  have c1 := h.child "origin" (by simp)
  have c2 := h.child "parent" (by simp)
  have c3 := h.child "child" (by simp)
  have c4 := h.child "axis" (by simp)
  have c5 := h.child "limit" (by simp)
  refine ⟨⟨a1 ▸ hj.name, a2 ▸ hj.type, ?_, ?_, ?_, ?_, c5 ▸ hj.limits⟩, h.extras.mpr hx⟩
  · have := hj.origin; unfold OriginSays at this ⊢; rw [c1]; exact this
  · have := hj.parent; unfold LinkRefSays at this ⊢; rw [c2]; exact this
  · have := hj.child; unfold LinkRefSays at this ⊢; rw [c3]; exact this
  · have := hj.axis
    rw [← parseAxis_iff] at this ⊢
    unfold parseAxis at this ⊢
    rw [c4]; exact this

theorem SameJoint.symm {e e' : Elem} (h : SameJoint num e e') : SameJoint num e' e :=
  ⟨fun k hk => (h.attr k hk).symm, fun k hk => (h.child k hk).symm, h.extras.symm⟩

/-- The two `<robot>` elements agree in everything the kinematics uses: name, version, names of materials, names and
inertials of links, and joints. Visuals, collisions, colours, `<mimic>`, safety and dynamics may differ. -/
structure SameKinematics (num : String → Option K) (r r' : Elem) : Prop where
  name : r'.attr "name" = r.attr "name"
  version : r'.attr "version" = r.attr "version"
  materials : (r'.childrenNamed "material").map (fun e => (e.attr "name").getD "") =
    (r.childrenNamed "material").map (fun e => (e.attr "name").getD "")
  links : List.Forall₂ (fun e e' => e'.attr "name" = e.attr "name" ∧ e'.firstChild "inertial" = e.firstChild "inertial")
    (r.childrenNamed "link") (r'.childrenNamed "link")
  joints : List.Forall₂ (SameJoint num) (r.childrenNamed "joint") (r'.childrenNamed "joint")

theorem SameKinematics.symm {r r' : Elem} (h : SameKinematics num r r') : SameKinematics num r' r where
  name := h.name.symm
  version := h.version.symm
  materials := h.materials.symm
  links := h.links.flip.imp fun _ _ h => ⟨h.1.symm, h.2.symm⟩
  joints := h.joints.flip.imp fun _ _ h => h.symm

theorem SameKinematics.parse {doc doc' : List Elem} {robot robot' : Elem} (hs : SameKinematics num robot robot')
    (h : doc.find? (fun e => e.name == "robot") = some robot)
    (h' : doc'.find? (fun e => e.name == "robot") = some robot') {m : ModelInterface K}
    (hm : ∃ r, parseURDF num doc = some (r, m)) : ∃ r, parseURDF num doc' = some (r, m) := by
  obtain ⟨e1, g1, g2, g3, g4, xs, g5, g6⟩ := parseURDF_iff.mp hm
  rw [h] at g1
  cases g1
  have hl : (robot'.childrenNamed "link").map (fun e => (parseLink num e).1.toRaw) =
      (robot.childrenNamed "link").map (fun e => (parseLink num e).1.toRaw) := by
    have := hs.links
    generalize robot.childrenNamed "link" = a at this
    generalize robot'.childrenNamed "link" = b at this
    clear g6
    induction this with
    | nil => rfl
    | cons h1 _ ih =>
      simp only [List.map_cons, ih, List.cons.injEq, and_true]
      rw [parseLink_raw, parseLink_raw, h1.1, h1.2]
  have hj := mapM_joints.mp ⟨xs, g5, rfl⟩
  have hj' : List.Forall₂ (fun e j => JointSays num e j ∧ ExtrasOk num e) (robot'.childrenNamed "joint") (xs.map XJoint.toRaw) := by
    have := hs.joints
    clear g5 g6
    generalize robot.childrenNamed "joint" = a at this hj
    generalize robot'.childrenNamed "joint" = b at this
    generalize xs.map XJoint.toRaw = js at hj
    induction this generalizing js with
    | nil => cases hj; exact .nil
    | cons h1 _ ih =>
      cases hj with
      | cons h2 h3 => exact .cons (h1.says h2) (ih _ h3)
  obtain ⟨xs', k1, k2⟩ := mapM_joints.mpr hj'
  refine parseURDF_iff.mpr ⟨robot', h', hs.name ▸ g2, hs.version ▸ g3, ?_, xs', k1, ?_⟩
  · have := hs.materials
    simp only [parseMaterial_name] at g4 ⊢
    rw [this]; exact g4
  · rw [hl, k2]; exact g6

/-- **C67.** Visuals, collisions, colours, mimic, safety, calibration and dynamics elements do not influence the model:
documents that agree in everything else give the same model (or are both rejected). -/
theorem C67_unused_elements {doc doc' : List Elem} {robot robot' : Elem}
    (h : doc.find? (fun e => e.name == "robot") = some robot)
    (h' : doc'.find? (fun e => e.name == "robot") = some robot') (hs : SameKinematics num robot robot') :
    (parseURDF num doc).map (·.2) = (parseURDF num doc').map (·.2) := by
  have k1 : ∀ m : ModelInterface K, _ → _ := fun m => hs.parse (m := m) h h'
  have k2 : ∀ m : ModelInterface K, _ → _ := fun m => hs.symm.parse (m := m) h' h
  cases e1 : parseURDF num doc with
  | none =>
    cases e2 : parseURDF num doc' with
    | none => rfl
    | some x =>
      obtain ⟨r, hr⟩ := k2 x.2 ⟨x.1, e2⟩
      rw [e1] at hr; cases hr
  | some x =>
    obtain ⟨r, hr⟩ := k1 x.2 ⟨x.1, e1⟩
    rw [hr]; rfl

/-! ### C69 -/

theorem parseInertial_bad {c : Elem} (h : ¬ ∃ i, InertialSays num c i) : ∃ i : Inertial K, (parseInertial num c).1 = i ∧
    i.ixx = 0 ∧ i.ixy = 0 ∧ i.ixz = 0 ∧ i.iyy = 0 ∧ i.iyz = 0 ∧ i.izz = 0 ∧
    (i.mass = 0 ∨ ∃ e, c.firstChild "mass" = some e ∧ NumSays num e "value" none i.mass) := by
  have hf : (parseInertial num c).2 = false := by
    cases e : (parseInertial num c).2 with
    | false => rfl
    | true => exact absurd ⟨_, parseInertial_iff.mp (Prod.ext rfl e)⟩ h
  refine ⟨_, rfl, ?_⟩
  unfold parseInertial at hf ⊢
  dsimp only at hf ⊢
  by_cases h0 : (inertialOrigin num c).2 = true
  · rw [if_pos h0] at hf ⊢
    cases hm : (c.firstChild "mass").bind (fun m => reqNum num m "value") with
    | none => simp
    | some mass =>
      rw [hm] at hf
      dsimp only at hf ⊢
      rw [Option.bind_eq_some_iff] at hm
      obtain ⟨e, he, hm⟩ := hm
      rw [reqNum_iff] at hm
      cases ht : c.firstChild "inertia" with
      | none => exact ⟨rfl, rfl, rfl, rfl, rfl, rfl, .inr ⟨e, he, hm⟩⟩
      | some t =>
        rw [ht] at hf
        dsimp only at hf ⊢
        split
        · rename_i heq
          rw [heq] at hf
          cases hf
        · exact ⟨rfl, rfl, rfl, rfl, rfl, rfl, .inr ⟨e, he, hm⟩⟩
  · rw [if_neg h0]
    simp

/-- **C69 is false, in general.** A malformed `<inertial>` never makes the parser reject a document: the link is kept,
with zero inertia, and with mass zero or the mass that was written. -/
theorem C69_malformed_inertial {doc : List Elem} {r : Robot K} {m : ModelInterface K} (h : parseURDF num doc = some (r, m))
    {robot : Elem} (hr : doc.find? (fun e => e.name == "robot") = some robot) {e c : Elem} {n : String}
    (he : e ∈ robot.childrenNamed "link") (hn : e.attr "name" = some n) (hc : e.firstChild "inertial" = some c)
    (hbad : ¬ ∃ i, InertialSays num c i) : ∃ lk ∈ m.links, ∃ i : Inertial K, lk.name = n ∧ lk.inertial = some i ∧
      i.ixx = 0 ∧ i.ixy = 0 ∧ i.ixz = 0 ∧ i.iyy = 0 ∧ i.iyz = 0 ∧ i.izz = 0 ∧
      (i.mass = 0 ∨ ∃ e, c.firstChild "mass" = some e ∧ NumSays num e "value" none i.mass) := by
  obtain ⟨robot', h1, h2, h3, h4, xs, h5, h6⟩ := parseURDF_iff.mp ⟨r, h⟩
  rw [hr] at h1
  cases h1
  obtain ⟨-, hp, -⟩ := C48_root h6
  obtain ⟨i, e1, e2⟩ := parseInertial_bad hbad
  have : (n, some i) ∈ (m.links.map fun l => (l.name, l.inertial)) := by
    rw [hp.mem_iff, List.map_map]
    refine List.mem_map.mpr ⟨e, he, ?_⟩
    simp [parseLink_raw, hn, hc, e1]
  obtain ⟨lk, hlk, e3⟩ := List.mem_map.mp this
  simp only [Prod.mk.injEq] at e3
  exact ⟨lk, hlk, i, e3.1, e3.2, e2⟩

theorem assignLinks_mem {l : XLink K} {ls : List (XLink K)} (h : l ∈ ls) (ms : List (Material K)) :
    ∃ l' ∈ (assignLinks ls ms).1, l'.name = l.name ∧ l'.inertial = l.inertial ∧ l'.collisions = l.collisions := by
  induction ls generalizing ms with
  | nil => cases h
  | cons a ls ih =>
    rcases List.mem_cons.mp h with rfl | h
    · exact ⟨_, List.mem_cons_self, rfl, rfl, rfl⟩
    · obtain ⟨l', h1, h2⟩ := ih h (assignMaterials a.visuals ms).2
      exact ⟨l', List.mem_cons_of_mem _ h1, h2⟩

theorem parseWhile_bad {α : Type} {p : Elem → Option α} {es : List Elem} {e : Elem} (he : e ∈ es) (hp : p e = none) :
    (parseWhile p es).2 = false := by
  induction es with
  | nil => cases he
  | cons a es ih =>
    simp only [parseWhile]
    rcases List.mem_cons.mp he with rfl | he
    · rw [hp]
    · cases p a with
      | none => rfl
      | some x => exact ih he

/-- **C69 is false for visuals, too.** A link with a `<visual>` that has no geometry does not make the parser reject a
document: the link is kept, and all of its collision elements are forgotten. -/
theorem C69_malformed_visual {doc : List Elem} {r : Robot K} {m : ModelInterface K} (h : parseURDF num doc = some (r, m))
    {robot : Elem} (hr : doc.find? (fun e => e.name == "robot") = some robot) {e v : Elem} {n : String}
    (he : e ∈ robot.childrenNamed "link") (hn : e.attr "name" = some n) (hv : v ∈ e.childrenNamed "visual")
    (hbad : v.firstChild "geometry" = none) : ∃ lk ∈ r.links, lk.name = n ∧ lk.collisions = [] := by
  simp only [parseURDF, Option.bind_eq_bind, Option.bind_eq_some_iff] at h
  obtain ⟨robot', h1, name, h2, ver, h3, h⟩ := h
  rw [hr] at h1
  cases h1
  split at h
  case isFalse => cases h
  simp only [Option.bind_eq_some_iff, Option.some.injEq, Prod.mk.injEq] at h
  obtain ⟨mats, h4, links, h5, xs, h6, joints, h7, m', h8, rfl, rfl⟩ := h
  obtain ⟨p, -⟩ := insertAll_eq_some _ _ _ .nil h5
  obtain ⟨l', k1, k2, -, k3⟩ := assignLinks_mem (List.mem_map_of_mem (f := fun e => (parseLink num e).1) he) mats
  refine ⟨l', p.mem_iff.mpr (by simpa using k1), ?_⟩
  rw [k2, k3]
  have hb : (parseWhile (parseVisual num) (e.childrenNamed "visual")).2 = false :=
    parseWhile_bad hv (by simp [parseVisual, hbad, parseGeometry])
  simp only [parseLink, hn, hb]
  split
  · simp
  · dsimp only
    split <;> simp

/-- Acceptance does not depend on what the link elements contain: only their names matter. -/
theorem C69_any_inertial {doc doc' : List Elem} {robot robot' : Elem}
    (h : doc.find? (fun e => e.name == "robot") = some robot)
    (h' : doc'.find? (fun e => e.name == "robot") = some robot')
    (hn : robot'.attr "name" = robot.attr "name") (hv : robot'.attr "version" = robot.attr "version")
    (hm : robot'.childrenNamed "material" = robot.childrenNamed "material")
    (hj : robot'.childrenNamed "joint" = robot.childrenNamed "joint")
    (hl : (robot'.childrenNamed "link").map (fun e => e.attr "name") = (robot.childrenNamed "link").map (fun e => e.attr "name"))
    (ha : ∃ r m, parseURDF num doc = some (r, m)) : ∃ r m, parseURDF num doc' = some (r, m) := by
  rw [C64_accepts_iff] at ha ⊢
  obtain ⟨e, g1, g2, g3, g4, js, g5, k1, k2, k3, k4, k5⟩ := ha
  rw [h] at g1
  cases g1
  have hl' : (robot'.childrenNamed "link").map (fun e => (e.attr "name").getD "") =
      (robot.childrenNamed "link").map (fun e => (e.attr "name").getD "") := by
    have := congrArg (List.map fun o : Option String => o.getD "") hl
    simpa [Function.comp_def] using this
  have hne : robot'.childrenNamed "link" ≠ [] := by
    intro e0
    rw [e0] at hl
    exact k3 (List.map_eq_nil_iff.mp hl.symm)
  exact ⟨robot', h', hn ▸ g2, hv ▸ g3, hm ▸ g4, js, hj ▸ g5, hl' ▸ k1, k2, hne, hl' ▸ k4, hl' ▸ k5⟩

/-! ### C66 -/

/-- **C66 (what is accepted).** A document passes the version check iff the attribute is missing or reads as 1 and 0 in
the sense of `VersionText`. -/
theorem C66_version_partial (v : Option String) :
    urdfVersion v = some (1, 0) ↔ v = none ∨ ∃ s, v = some s ∧ VersionText s 1 0 := by
  cases v with
  | none => simp [urdfVersion]
  | some s => simp [urdfVersion_iff]

end

/-- **C66 is false.** The version strings "4294967297.0" (2^32 + 1), "1.0." and " +1.-0" are accepted as version 1.0. -/
theorem C66_false : urdfVersion (some "4294967297.0") = some (1, 0) ∧ urdfVersion (some "1.0.") = some (1, 0) ∧
    urdfVersion (some " +1.-0") = some (1, 0) := by decide

example : urdfVersion (some "1.0") = some (1, 0) ∧ urdfVersion (some "2.0") = some (2, 0) ∧ urdfVersion (some "1") = none ∧
    urdfVersion (some "1.x") = none ∧ urdfVersion (some "1.0.0") = none := by decide

end Tinyfk
