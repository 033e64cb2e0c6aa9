import Verif.Proofs.Shapes
import Verif.Props.Export

/-!
# C98: shapes, materials and the unused elements of joints
-/

namespace Tinyfk

variable {K : Type} [Scalar K] {num : String → Option K}

/-- the materials that these visuals define -/
def defined (vs : List (Visual K)) : List (Material K) := vs.filterMap fun w => if w.materialName = "" then none else w.material

omit [Scalar K] in
theorem find_insertSorted {a : Material K} {l : List (Material K)} (h : l.find? (fun m => m.name = a.name) = none) (n : String) :
    (insertSorted Material.name a l).find? (fun m => m.name = n) = (l.find? fun m => m.name = n).or (if a.name = n then some a else none) := by
  induction l with
  | nil => simp [insertSorted, List.find?_cons]; split <;> simp_all
  | cons b l ih =>
    simp only [List.find?_cons] at h
    have hb : b.name ≠ a.name := by
      intro e
      simp [e] at h
    simp only [hb, decide_false] at h
    unfold insertSorted
    split
    · simp only [List.find?_cons]
      by_cases hn : a.name = n
      · subst hn
        simp [hb, h]
      · simp [hn]
    · simp only [List.find?_cons]
      split
      · simp
      · exact ih h

omit [Scalar K] in
theorem defined_append (vs ws : List (Visual K)) : defined (vs ++ ws) = defined vs ++ defined ws := by
  simp [defined]

/-- what the map of materials contains -/
def Holds (ms : List (Material K)) (top : List (Material K)) (before : List (Visual K)) : Prop :=
  ∀ n, ms.find? (fun m => m.name = n) = (top.find? fun m => m.name = n).or ((defined before).find? fun m => m.name = n)

omit [Scalar K] in
theorem assignMaterial_resolved {v : Visual K} (hv : VisualOk v) {ms top : List (Material K)} {before : List (Visual K)}
    (h : Holds ms top before) : Resolved top before v (assignMaterial v ms).1 ∧ Holds (assignMaterial v ms).2 top (before ++ [v]) := by
  have hb : (ms.find? fun m => m.name == v.materialName) = ms.find? fun m => m.name = v.materialName := by
    congr 1
  unfold assignMaterial Resolved
  by_cases hn : v.materialName = ""
  · rw [if_pos hn]
    refine ⟨by rw [if_pos hn], ?_⟩
    intro n
    rw [h n, defined_append]
    simp [defined, hn]
  · rw [if_neg hn, hb]
    have hd : defined [v] = v.material.toList := by
      unfold defined
      rw [List.filterMap_cons, if_neg hn, List.filterMap_nil]
      cases v.material <;> rfl
    cases hf : ms.find? fun m => m.name = v.materialName with
    | some m =>
      refine ⟨?_, ?_⟩
      · rw [← show defined before = before.filterMap fun w => if w.materialName = "" then none else w.material from rfl, ← h, hf]
        simp [hn]
      · intro n
        simp only []
        rw [h n, defined_append, hd, List.find?_append, ← Option.or_assoc, ← h n]
        cases hvm : v.material with
        | none => simp
        | some m' =>
          by_cases hm : m'.name = n
          · have := hv m' hvm
            rw [← hm, this, hf]
            simp
          · simp [hm]
    | none =>
      simp only []
      have e : (top.find? fun m => m.name = v.materialName).or ((before.filterMap fun w => if w.materialName = "" then none else w.material).find?
        fun m => m.name = v.materialName) = none := (h _).symm.trans hf
      rw [if_neg hn, e, Option.none_or]
      cases hvm : v.material with
      | none =>
        refine ⟨?_, ?_⟩
        · simp only []; rw [← hvm]
        · intro n
          simp only []
          rw [h n, defined_append, hd, hvm]
          simp
      | some m =>
        refine ⟨?_, ?_⟩
        · simp only []; rw [← hvm]
        · intro n
          simp only []
          rw [find_insertSorted (by rw [hv m hvm]; exact hf), h n, defined_append, hd, hvm, List.find?_append, Option.or_assoc]
          congr 2
          simp only [Option.toList, List.find?_cons, List.find?_nil]
          by_cases hmn : m.name = n <;> simp [hmn]

omit [Scalar K] in
theorem assignMaterials_resolved {vs : List (Visual K)} (hv : ∀ v ∈ vs, VisualOk v) {ms top : List (Material K)} {before : List (Visual K)}
    (h : Holds ms top before) : (assignMaterials vs ms).1.length = vs.length ∧
    (∀ k v v', vs[k]? = some v → (assignMaterials vs ms).1[k]? = some v' → Resolved top (before ++ vs.take k) v v') ∧
    Holds (assignMaterials vs ms).2 top (before ++ vs) := by
  induction vs generalizing ms before with
  | nil => simpa [assignMaterials] using h
  | cons w vs ih =>
    obtain ⟨h1, h2⟩ := assignMaterial_resolved (hv w List.mem_cons_self) h
    obtain ⟨i1, i2, i3⟩ := ih (fun v hm => hv v (List.mem_cons_of_mem _ hm)) h2
    refine ⟨by simp [assignMaterials, i1], ?_, by simpa [assignMaterials] using i3⟩
    intro k v v' hk hk'
    cases k with
    | zero =>
      simp only [List.getElem?_cons_zero, Option.some.injEq] at hk
      simp only [assignMaterials, List.getElem?_cons_zero, Option.some.injEq] at hk'
      subst hk hk'
      simpa using h1
    | succ k =>
      simp only [List.getElem?_cons_succ] at hk
      simp only [assignMaterials, List.getElem?_cons_succ] at hk'
      simpa using i2 k v v' hk hk'

omit [Scalar K] in
theorem assignLinks_resolved {ls : List (XLink K)} (hv : ∀ l ∈ ls, ∀ v ∈ l.visuals, VisualOk v) {ms top : List (Material K)}
    {before : List (Visual K)} (h : Holds ms top before) : (assignLinks ls ms).1.length = ls.length ∧
    (∀ i l l', ls[i]? = some l → (assignLinks ls ms).1[i]? = some l' → l'.name = l.name ∧ l'.inertial = l.inertial ∧
      l'.collisions = l.collisions ∧ l'.visuals.length = l.visuals.length ∧
      ∀ k v v', l.visuals[k]? = some v → l'.visuals[k]? = some v' →
        Resolved top (before ++ ((ls.take i).map XLink.visuals).flatten ++ l.visuals.take k) v v') ∧
    Holds (assignLinks ls ms).2 top (before ++ (ls.map XLink.visuals).flatten) := by
  induction ls generalizing ms before with
  | nil => simpa [assignLinks] using h
  | cons w ls ih =>
    obtain ⟨h1, h2, h3⟩ := assignMaterials_resolved (hv w List.mem_cons_self) h
    obtain ⟨i1, i2, i3⟩ := ih (fun v hm => hv v (List.mem_cons_of_mem _ hm)) h3
    refine ⟨by simp [assignLinks, i1], ?_, by simpa [assignLinks] using i3⟩
    intro i l l' hi hi'
    cases i with
    | zero =>
      simp only [List.getElem?_cons_zero, Option.some.injEq] at hi
      simp only [assignLinks, List.getElem?_cons_zero, Option.some.injEq] at hi'
      subst hi hi'
      refine ⟨rfl, rfl, rfl, h1, ?_⟩
      simpa using h2
    | succ i =>
      simp only [List.getElem?_cons_succ] at hi
      simp only [assignLinks, List.getElem?_cons_succ] at hi'
      simpa using i2 i l l' hi hi'

/-- The parts of an accepted document. -/
theorem parseURDF_parts {doc : List Elem} {r : Robot K} {m : ModelInterface K} (h : parseURDF num doc = some (r, m))
    {robot : Elem} (hr : doc.find? (fun e => e.name == "robot") = some robot) :
    ∃ mats js, robot.attr "name" = some r.name ∧
      insertAll Material.name [] ((robot.childrenNamed "material").map (fun e => (parseMaterial num e).1)) = some mats ∧
      insertAll XLink.name [] (assignLinks ((robot.childrenNamed "link").map (fun e => (parseLink num e).1)) mats).1 = some r.links ∧
      r.materials = (assignLinks ((robot.childrenNamed "link").map (fun e => (parseLink num e).1)) mats).2 ∧
      (robot.childrenNamed "joint").mapM (parseJoint num) = some js ∧ insertAll XJoint.name [] js = some r.joints := by
  simp only [parseURDF, Option.bind_eq_bind, Option.bind_eq_some_iff] at h
  obtain ⟨robot', h1, name, h2, ver, h3, h⟩ := h
  rw [hr] at h1
  cases h1
  split at h
  case isFalse => cases h
  simp only [Option.bind_eq_some_iff, Option.some.injEq, Prod.mk.injEq] at h
  obtain ⟨mats, h4, links, h5, xs, h6, joints, h7, m', h8, rfl, rfl⟩ := h
  exact ⟨mats, xs, h2, h4, h5, rfl, h6, h7⟩

omit [Scalar K] in
theorem find_perm {l l' : List (Material K)} (h : l.Perm l') (hn : (l.map Material.name).Nodup) (n : String) :
    l.find? (fun m => m.name = n) = l'.find? fun m => m.name = n := by
  have key : ∀ {l : List (Material K)}, (l.map Material.name).Nodup → ∀ a, l.find? (fun m => m.name = n) = some a ↔ a ∈ l ∧ a.name = n := by
    intro l hl a
    constructor
    · intro h
      exact ⟨List.mem_of_find?_eq_some h, by simpa using List.find?_some h⟩
    · rintro ⟨h1, h2⟩
      induction l with
      | nil => cases h1
      | cons b l ih =>
        simp only [List.map_cons, List.nodup_cons] at hl
        rw [List.find?_cons]
        rcases List.mem_cons.mp h1 with rfl | h1
        · simp [h2]
        · have : b.name ≠ n := by
            intro e
            exact hl.1 (List.mem_map.mpr ⟨a, h1, by rw [h2, e]⟩)
          simp only [this, decide_false]
          exact ih hl.2 h1
  ext a
  rw [key hn, key ((h.map _).nodup_iff.mp hn), h.mem_iff]

theorem forall₂_map_self {α β : Type} {R : α → β → Prop} {f : α → β} (h : ∀ a, R a (f a)) (l : List α) : List.Forall₂ R l (l.map f) := by
  induction l with
  | nil => exact .nil
  | cons a l ih => exact .cons (h a) ih

/-- **C98 (links).** For every accepted document: with `vss` the visuals of the link elements (for a link without malformed
elements all its `<visual>`s, `LinkShapes`) and `tops` the robot's `<material>`s, the link of the model that comes from the i-th
element has the collisions of the element and its visuals, each with the material its name stands for: the robot's of that name,
or else that of the first visual before it (in document order) that defines it, or else its own. -/
theorem C98_shapes {doc : List Elem} {r : Robot K} {m : ModelInterface K} (h : parseURDF num doc = some (r, m))
    {robot : Elem} (hr : doc.find? (fun e => e.name == "robot") = some robot) :
    ∃ tops vss, List.Forall₂ (fun e t => ∃ given, MaterialSays num e t given) (robot.childrenNamed "material") tops ∧
      List.Forall₂ (fun e vs => ∃ cs, LinkShapes num e vs cs) (robot.childrenNamed "link") vss ∧
      (∀ i e vs cs, (robot.childrenNamed "link")[i]? = some e → vss[i]? = some vs → LinkShapes num e vs cs →
        ∃ l ∈ r.links, l.name = (e.attr "name").getD "" ∧ l.collisions = cs ∧ l.visuals.length = vs.length ∧
          ∀ k v v', vs[k]? = some v → l.visuals[k]? = some v' → Resolved tops ((vss.take i).flatten ++ vs.take k) v v') ∧
      ∀ n, r.materials.find? (fun t => t.name = n) = (tops.find? fun t => t.name = n).or
        ((vss.flatten.filterMap fun w => if w.materialName = "" then none else w.material).find? fun t => t.name = n) := by
  obtain ⟨mats, js, h1, h2, h3, h4, h5, h6⟩ := parseURDF_parts h hr
  obtain ⟨m1, m2⟩ := insertAll_eq_some _ _ _ List.Pairwise.nil h2
  rw [List.nil_append] at m1
  have hh : Holds mats ((robot.childrenNamed "material").map (fun e => (parseMaterial num e).1)) [] := by
    intro n
    rw [find_perm m1 (nodup_of_sorted m2)]
    simp [defined]
  obtain ⟨a1, a2, a3⟩ := assignLinks_resolved (ls := (robot.childrenNamed "link").map (fun e => (parseLink num e).1)) (by
    intro l hl
    obtain ⟨e, _, rfl⟩ := List.mem_map.mp hl
    exact parseLink_visuals e) hh
  refine ⟨(robot.childrenNamed "material").map (fun e => (parseMaterial num e).1),
    (robot.childrenNamed "link").map (fun e => (parseLink num e).1.visuals),
    forall₂_map_self (fun e => ⟨(parseMaterial num e).2, parseMaterial_iff.mp rfl⟩) _,
    forall₂_map_self (fun e => ⟨_, parseLink_shapes num e⟩) _, ?_, ?_⟩
  · intro i e vs cs hi hvs hsh
    have hi' : ((robot.childrenNamed "link").map (fun e => (parseLink num e).1))[i]? = some (parseLink num e).1 := by
      simp [hi]
    simp only [List.getElem?_map, hi, Option.map_some, Option.some.injEq] at hvs
    subst hvs
    obtain ⟨l, hl⟩ : ∃ l, (assignLinks ((robot.childrenNamed "link").map (fun e => (parseLink num e).1)) mats).1[i]? = some l := by
      refine ⟨_, List.getElem?_eq_getElem ?_⟩
      rw [a1]
      exact (List.getElem?_eq_some_iff.mp hi').1
    obtain ⟨b1, -, b3, b4, b5⟩ := a2 i _ _ hi' hl
    refine ⟨l, ?_, ?_, ?_, b4, ?_⟩
    · obtain ⟨p1, -⟩ := insertAll_eq_some _ _ _ List.Pairwise.nil h3
      rw [List.nil_append] at p1
      exact p1.mem_iff.mpr (List.mem_of_getElem? hl)
    · rw [b1]
      have := parseLink_raw (num := num) e
      have hn : (parseLink num e).1.name = (parseLink num e).1.toRaw.name := rfl
      rw [hn, this]
      cases e.attr "name" <;> rfl
    · rw [b3]
      exact (linkShapes_unique hsh (parseLink_shapes num e)).2.symm
    · simpa [List.map_take, Function.comp_def] using b5
  · intro n
    have := a3 n
    rw [← h4] at this
    simpa [defined, Function.comp_def] using this

/-- **C98 (joints).** The joints of an accepted document are exactly what its `<joint>` elements say, also in the elements
that the kinematics does not use. -/
theorem C98_joints {doc : List Elem} {r : Robot K} {m : ModelInterface K} (h : parseURDF num doc = some (r, m))
    {robot : Elem} (hr : doc.find? (fun e => e.name == "robot") = some robot) :
    ∃ js, List.Forall₂ (fun e j => JointSays num e j.toRaw ∧ ExtrasSay num e j) (robot.childrenNamed "joint") js ∧
      r.joints.Perm js := by
  obtain ⟨mats, js, h1, h2, h3, h4, h5, h6⟩ := parseURDF_parts h hr
  obtain ⟨p1, -⟩ := insertAll_eq_some _ _ _ List.Pairwise.nil h6
  refine ⟨js, ?_, by simpa using p1⟩
  have := mapM_forall₂.mp h5
  simpa only [parseJoint_says] using this

end Tinyfk
