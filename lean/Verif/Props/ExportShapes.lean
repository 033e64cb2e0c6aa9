import Verif.Props.Shapes

/-!
# C99: what a description keeps when it is exported and read back
-/

set_option linter.unusedSectionVars false

namespace Tinyfk

section
variable {K : Type} [Scalar K] {num : String → Option K} {fmt : K → String} {rd : K → K}

/-- between 0 and 1 -/
def InUnit (x : K) : Prop := Scalar.lt x 0 = false ∧ Scalar.lt 1 x = false

/-- Numbers between 0 and 1 are so after printing and reading and as `float`; 0 and 1 are between 0 and 1. -/
structure UnitOk (rd : K → K) : Prop where
  keeps : ∀ x, InUnit x → InUnit (rd x)
  zero : InUnit (0 : K)
  one : InUnit (1 : K)
  float : ∀ x : K, InUnit x → InUnit (Scalar.toFloat x)

/-- a material with rounded numbers; the colour is kept as `float` -/
def rdMaterial (rd : K → K) (m : Material K) : Material K :=
  ⟨m.name, m.texture, Scalar.toFloat (rd m.color.1), Scalar.toFloat (rd m.color.2.1), Scalar.toFloat (rd m.color.2.2.1),
    Scalar.toFloat (rd m.color.2.2.2)⟩

/-- a shape with rounded numbers -/
def rdGeometry (rd : K → K) : Geometry K → Geometry K
  | .sphere r => .sphere (rd r)
  | .box d => .box (rdVec rd d)
  | .cylinder l r => .cylinder (rd l) (rd r)
  | .mesh f s => .mesh f (rdVec rd s)

/-- a visual that was exported and read back: its name is lost, and the name of its material when that is not defined anywhere -/
def rdVisual (rd : K → K) (v : Visual K) : Visual K :=
  ⟨rdPose rd v.origin, rdGeometry rd v.geometry, if v.material.isSome then v.materialName else "", v.material.map (rdMaterial rd), ""⟩

/-- a collision that was exported and read back: its name is lost -/
def rdCollision (rd : K → K) (c : Collision K) : Collision K := ⟨rdPose rd c.origin, rdGeometry rd c.geometry, ""⟩

/-- a mesh without file name: its export cannot be read -/
def noFile : Geometry K → Bool
  | .mesh f _ => f == ""
  | _ => false

/-- the visuals of a link after export: those before the first mesh without file name -/
def rdVisuals (rd : K → K) (l : XLink K) : List (Visual K) := (l.visuals.takeWhile fun v => !noFile v.geometry).map (rdVisual rd)

/-- the collisions of a link after export -/
def rdCollisions (rd : K → K) (l : XLink K) : List (Collision K) :=
  if l.visuals.any (fun v => noFile v.geometry) then [] else (l.collisions.takeWhile fun c => !noFile c.geometry).map (rdCollision rd)

/-- a link that was exported and read back -/
def rdXLink (rd : K → K) (l : XLink K) : XLink K :=
  ⟨l.name, l.inertial.map fun i => ⟨rdPose rd i.origin, rd i.mass, rd i.ixx, rd i.ixy, rd i.ixz, rd i.iyy, rd i.iyz, rd i.izz⟩,
    rdVisuals rd l, rdCollisions rd l⟩

/-- a joint that was exported and read back: **its origin is lost**, and a calibration without edges and a mimic without joint -/
def rdXJoint (rd : K → K) (j : XJoint K) : XJoint K :=
  ⟨j.name, j.type, if j.type = .floating ∨ j.type = .fixed then ⟨0, 0, 0⟩ else rdVec rd j.axis, ⟨⟨0, 0, 0⟩, ⟨0, 0, 0, 1⟩⟩,
    j.parentLinkName, j.childLinkName, j.dynamics.map fun d => ⟨rd d.damping, rd d.friction⟩,
    j.limits.map fun l => ⟨rd l.lower, rd l.upper, rd l.effort, rd l.velocity⟩,
    j.safety.map fun s => ⟨rd s.softUpperLimit, rd s.softLowerLimit, rd s.kPosition, rd s.kVelocity⟩,
    j.calibration.bind fun c => if c.rising = none ∧ c.falling = none then none else some ⟨c.rising.map rd, c.falling.map rd⟩,
    j.mimic.bind fun m => if m.jointName = "" then none else some ⟨rd m.offset, rd m.multiplier, m.jointName⟩⟩

/-! ### one element -/

theorem words_four {a b c d : String} (ha : a.toList ≠ [] ∧ ' ' ∉ a.toList) (hb : b.toList ≠ [] ∧ ' ' ∉ b.toList)
    (hc : c.toList ≠ [] ∧ ' ' ∉ c.toList) (hd : d.toList ≠ [] ∧ ' ' ∉ d.toList) :
    Words (a ++ " " ++ b ++ " " ++ c ++ " " ++ d).toList [a, b, c, d] := by
  have h4 : Words (' ' :: d.toList) [d] := by
    have := Words.word (p := [' ']) (by simp [Spaces]) hd.1 hd.2 (.inl rfl) (.none (p := []) (by simp [Spaces]))
    simpa using this
  have h3 : Words (' ' :: c.toList ++ ' ' :: d.toList) [c, d] := by
    have := Words.word (p := [' ']) (by simp [Spaces]) hc.1 hc.2 (.inr rfl) h4
    simpa using this
  have h2 : Words (' ' :: b.toList ++ (' ' :: c.toList ++ ' ' :: d.toList)) [b, c, d] := by
    have := Words.word (p := [' ']) (by simp [Spaces]) hb.1 hb.2 (.inr rfl) h3
    simpa using this
  have h1 := Words.word (p := []) (by simp [Spaces]) ha.1 ha.2 (.inr rfl) h2
  simpa using h1

/-- the colour of a material is between 0 and 1 -/
def ColorOk (m : Material K) : Prop := InUnit m.color.1 ∧ InUnit m.color.2.1 ∧ InUnit m.color.2.2.1 ∧ InUnit m.color.2.2.2

theorem Prints.material (h : Prints num fmt rd) (hu : UnitOk rd) (m : Material K) (hm : ColorOk m) :
    MaterialSays num (exportMaterial fmt m) (rdMaterial rd m) true := by
  have hs : ∀ x, InUnit x → UnitSays num (fmt x) (Scalar.toFloat (rd x)) := fun x hx =>
    ⟨rd x, h.read x, (hu.keeps x hx).1, (hu.keeps x hx).2, rfl⟩
  have hc : ColorSays num (exportMaterial fmt m) (rdMaterial rd m).color true :=
    .given (c := .mk "color" [("rgba", colorStr fmt m.color)] []) (s := colorStr fmt m.color) rfl rfl
      (words_four (h.word _) (h.word _) (h.word _) (h.word _))
      (.cons (hs _ hm.1) (.cons (hs _ hm.2.1) (.cons (hs _ hm.2.2.1) (.cons (hs _ hm.2.2.2) .nil))))
  by_cases ht : m.texture = ""
  · have := MaterialSays.named (n := m.name) (t := none) rfl (.inr ⟨by
      intro c hc'
      have hc' : some (Elem.mk "texture" (if m.texture = "" then [] else [("filename", m.texture)]) []) = some c := hc'
      cases hc'
      rw [if_pos ht]
      rfl, rfl⟩) hc
    simpa [rdMaterial, ht] using this
  · have := MaterialSays.named (n := m.name) (t := some m.texture) rfl
      (.inl ⟨.mk "texture" (if m.texture = "" then [] else [("filename", m.texture)]) [], m.texture, rfl, by
        rw [if_neg ht]; rfl, rfl⟩) hc
    simpa [rdMaterial] using this

theorem Prints.number (h : Prints num fmt rd) {e : Elem} {k : String} {d : Option K} {x : K} (he : e.attr k = some (fmt x)) :
    NumSays num e k d (rd x) := .inr ⟨_, he, h.read x⟩

theorem Prints.geometry (h : Prints num fmt rd) {e : Elem} {g : Geometry K} (he : e.firstChild "geometry" = some (exportGeometry fmt g)) :
    parseGeometry num (e.firstChild "geometry") = if noFile g then none else some (rdGeometry rd g) := by
  rw [he]
  cases g with
  | sphere r =>
    exact (parseShape_iff (x := .mk "sphere" [("radius", fmt r)] []) rfl).mpr (.sphere rfl (h.number rfl))
  | box d =>
    exact (parseShape_iff (x := .mk "box" [("size", vecStr fmt d)] []) rfl).mpr (.box rfl rfl (h.vec d))
  | cylinder l r =>
    exact (parseShape_iff (x := .mk "cylinder" [("radius", fmt r), ("length", fmt l)] []) rfl).mpr
      (.cylinder rfl (h.number rfl) (h.number rfl))
  | mesh f s =>
    by_cases hf : f = ""
    · simp [parseGeometry, exportGeometry, hf, noFile, Elem.children, Elem.name, Elem.attr, Elem.attrs]
    · have : noFile (.mesh f s) = false := by simp [noFile, hf]
      rw [this]
      refine (parseShape_iff (x := .mk "mesh" [("filename", f), ("scale", vecStr fmt s)] []) ?_).mpr (.scaled rfl rfl rfl (h.vec s))
      simp [exportGeometry, hf, Elem.children]

theorem Prints.visual (h : Prints num fmt rd) (hu : UnitOk rd) (v : Visual K) (hv : VisualOk v) (hm : ∀ m, v.material = some m → ColorOk m) :
    parseVisual num (exportVisual fmt v) = if noFile v.geometry then none else some (rdVisual rd v) := by
  have ho : parseOrigin num (exportVisual fmt v) = some (rdPose rd v.origin) :=
    parseOrigin_iff.mpr (.inr ⟨exportPose fmt v.origin, rfl, h.pose v.origin⟩)
  have hg := h.geometry (e := exportVisual fmt v) (g := v.geometry) rfl
  unfold parseVisual
  simp only [ho, hg, Option.bind_eq_bind, Option.bind_some]
  cases noFile v.geometry with
  | true => rfl
  | false =>
    simp only [Bool.false_eq_true, if_false, Option.bind_some]
    have hc : (exportVisual fmt v).firstChild "material" = v.material.map (exportMaterial fmt) := by
      unfold exportVisual
      cases v.material <;> rfl
    rw [hc]
    cases hvm : v.material with
    | none => simp [rdVisual, hvm, exportVisual, Elem.attr, Elem.attrs]
    | some m =>
      have hn : (exportMaterial fmt m).attr "name" = some v.materialName := by
        rw [← hv m hvm]; rfl
      simp only [Option.map_some, hn, Option.bind_some, parseMaterial_iff.mpr (h.material hu m (hm m hvm))]
      simp [rdVisual, hvm, exportVisual, Elem.attr, Elem.attrs]

theorem Prints.collision (h : Prints num fmt rd) (c : Collision K) :
    parseCollision num (exportCollision fmt c) = if noFile c.geometry then none else some (rdCollision rd c) := by
  have ho : parseOrigin num (exportCollision fmt c) = some (rdPose rd c.origin) :=
    parseOrigin_iff.mpr (.inr ⟨exportPose fmt c.origin, rfl, h.pose c.origin⟩)
  have hg := h.geometry (e := exportCollision fmt c) (g := c.geometry) rfl
  unfold parseCollision
  simp only [ho, hg, Option.bind_eq_bind, Option.bind_some]
  cases noFile c.geometry with
  | true => rfl
  | false => rfl

theorem parseWhile_map {α : Type} {p : Elem → Option α} {f : α → Elem} {bad : α → Bool} {g : α → α} {l : List α}
    (h : ∀ a ∈ l, p (f a) = if bad a then none else some (g a)) :
    parseWhile p (l.map f) = ((l.takeWhile fun a => !bad a).map g, !l.any bad) := by
  induction l with
  | nil => rfl
  | cons a l ih =>
    simp only [List.map_cons, parseWhile, h a List.mem_cons_self]
    cases hb : bad a with
    | true => simp [hb]
    | false => simp [hb, ih fun a ha => h a (List.mem_cons_of_mem _ ha)]

theorem exportLink_named (l : XLink K) (tag : String) : (exportLink fmt l).childrenNamed tag =
    (if tag = "inertial" then (l.inertial.map (exportInertial fmt)).toList else []) ++
    (if tag = "visual" then l.visuals.map (exportVisual fmt) else []) ++
    (if tag = "collision" then l.collisions.map (exportCollision fmt) else []) := by
  unfold Elem.childrenNamed exportLink
  simp only [Elem.children, List.filter_append]
  rw [filter_named (f := exportVisual fmt) (t := "visual") (fun _ => rfl),
    filter_named (f := exportCollision fmt) (t := "collision") (fun _ => rfl)]
  congr 2
  have := filter_named (f := exportInertial fmt) (t := "inertial") (fun _ => rfl) l.inertial.toList tag
  cases hi : l.inertial with
  | none => simp
  | some i => simpa [hi] using this

theorem exportLink_inertial (l : XLink K) : (exportLink fmt l).firstChild "inertial" = l.inertial.map (exportInertial fmt) := by
  have h := exportLink_named (fmt := fmt) l "inertial"
  have e : (exportLink fmt l).firstChild "inertial" = ((exportLink fmt l).childrenNamed "inertial").head? := by
    unfold Elem.firstChild Elem.childrenNamed
    rw [List.head?_filter]
  rw [e, h]
  cases l.inertial <;> simp

theorem Prints.xlink (h : Prints num fmt rd) (hu : UnitOk rd) (l : XLink K) (hv : ∀ v ∈ l.visuals, VisualOk v)
    (hm : ∀ v ∈ l.visuals, ∀ m, v.material = some m → ColorOk m) : (parseLink num (exportLink fmt l)).1 = rdXLink rd l := by
  have e1 := parseLink_of (h.link l)
  have w1 : Prefix (VisualSays num) ((exportLink fmt l).childrenNamed "visual") (rdVisuals rd l)
      (!l.visuals.any fun v => noFile v.geometry) := (parseWhile_iff fun _ _ => parseVisual_iff).mp (by
    rw [exportLink_named]
    simp only [show ("visual" : String) ≠ "inertial" by decide, show ("visual" : String) ≠ "collision" by decide, if_false, if_true,
      List.append_nil, List.nil_append]
    exact parseWhile_map (f := exportVisual fmt) (bad := fun v => noFile v.geometry) (g := rdVisual rd) (fun v hv' =>
      h.visual hu v (hv v hv') (hm v hv')))
  have w2 : Prefix (CollisionSays num) ((exportLink fmt l).childrenNamed "collision")
      ((l.collisions.takeWhile fun c => !noFile c.geometry).map (rdCollision rd)) (!l.collisions.any fun c => noFile c.geometry) := (parseWhile_iff fun _ _ => parseCollision_iff).mp (by
    rw [exportLink_named]
    simp only [show ("collision" : String) ≠ "inertial" by decide, show ("collision" : String) ≠ "visual" by decide, if_false, if_true,
      List.nil_append]
    exact parseWhile_map (f := exportCollision fmt) (bad := fun v => noFile v.geometry) (g := rdCollision rd) (l := l.collisions)
      (fun c _ => h.collision c))
  have hi : ∀ c, (exportLink fmt l).firstChild "inertial" = some c → ∃ i, InertialSays num c i := by
    intro c hc
    rw [exportLink_inertial] at hc
    obtain ⟨i, _, rfl⟩ := Option.map_eq_some_iff.mp hc
    exact ⟨_, h.inertial i⟩
  have w3 : LinkShapes num (exportLink fmt l) (rdVisuals rd l) (rdCollisions rd l) := by
    cases hb : l.visuals.any fun v => noFile v.geometry with
    | true =>
      rw [hb] at w1
      have : rdCollisions rd l = [] := by simp [rdCollisions, hb]
      rw [this]
      exact .visual (n := l.name) rfl hi w1
    | false =>
      rw [hb] at w1
      have : rdCollisions rd l = (l.collisions.takeWhile fun c => !noFile c.geometry).map (rdCollision rd) := by
        simp only [rdCollisions, hb, Bool.false_eq_true, if_false]
      rw [this]
      exact .collision (n := l.name) rfl hi w1 w2
  obtain ⟨e2, e3⟩ := linkShapes_unique (parseLink_shapes num (exportLink fmt l)) w3
  generalize parseLink num (exportLink fmt l) = p at *
  obtain ⟨⟨n, i, vs, cs⟩, b⟩ := p
  simp only [XLink.toRaw, rdLink, RawLink.mk.injEq] at e1
  simp only at e2 e3
  rw [e2, e3]
  simp only [rdXLink, e1.1, e1.2]

theorem Prints.xjoint (h : Prints num fmt rd) (j : XJoint K) (ht : j.type ≠ .unknown)
    (hl : j.type = .revolute ∨ j.type = .prismatic → j.limits.isSome) :
    parseJoint num (exportJoint fmt j) = some (rdXJoint rd j) := by
  refine parseJoint_says.mpr ⟨h.joint j ht hl, ?_⟩
  have hc := exportJoint_child (fmt := fmt) j ht
  refine ⟨?_, ?_, ?_, ?_⟩
  · have e : (exportJoint fmt j).firstChild "dynamics" = j.dynamics.map (exportDynamics fmt) := hc _
    unfold ChildSays
    rw [e]
    cases hd : j.dynamics with
    | none => exact .inl ⟨rfl, by simp [rdXJoint, hd]⟩
    | some d => exact .inr ⟨_, ⟨rd d.damping, rd d.friction⟩, rfl, ⟨h.number rfl, h.number rfl, .inl (by simp [exportDynamics, Elem.attr, Elem.attrs])⟩, by simp only [rdXJoint, hd, Option.map_some]⟩
  · have e : (exportJoint fmt j).firstChild "safety_controller" = j.safety.map (exportSafety fmt) := hc _
    unfold ChildSays
    rw [e]
    cases hd : j.safety with
    | none => exact .inl ⟨rfl, by simp [rdXJoint, hd]⟩
    | some s => exact .inr ⟨_, ⟨rd s.softUpperLimit, rd s.softLowerLimit, rd s.kPosition, rd s.kVelocity⟩, rfl, ⟨h.number rfl, h.number rfl, h.number rfl, h.number rfl⟩, by simp only [rdXJoint, hd, Option.map_some]⟩
  · have e : (exportJoint fmt j).firstChild "calibration" = j.calibration.bind fun c => (exportCalibration fmt c).head? := hc _
    unfold ChildSays
    rw [e]
    cases hd : j.calibration with
    | none => exact .inl ⟨rfl, by simp [rdXJoint, hd]⟩
    | some c =>
      obtain ⟨r, f⟩ := c
      cases r <;> cases f
      · exact .inl ⟨by simp [exportCalibration], by simp [rdXJoint, hd]⟩
      · rename_i f
        exact .inr ⟨.mk "calibration" [("falling", fmt f)] [], ⟨none, some (rd f)⟩, by simp [exportCalibration],
          ⟨.inl ⟨rfl, rfl⟩, .inr ⟨_, _, rfl, h.read f, rfl⟩⟩, by simp [rdXJoint, hd]⟩
      · rename_i r
        exact .inr ⟨.mk "calibration" [("rising", fmt r)] [], ⟨some (rd r), none⟩, by simp [exportCalibration],
          ⟨.inr ⟨_, _, rfl, h.read r, rfl⟩, .inl ⟨rfl, rfl⟩⟩, by simp [rdXJoint, hd]⟩
      · rename_i r f
        exact .inr ⟨.mk "calibration" [("falling", fmt f), ("rising", fmt r)] [], ⟨some (rd r), some (rd f)⟩, by simp [exportCalibration],
          ⟨.inr ⟨_, _, rfl, h.read r, rfl⟩, .inr ⟨_, _, rfl, h.read f, rfl⟩⟩, by simp [rdXJoint, hd]⟩
  · have e : (exportJoint fmt j).firstChild "mimic" = j.mimic.bind fun m => (exportMimic fmt m).head? := hc _
    unfold ChildSays
    rw [e]
    cases hd : j.mimic with
    | none => exact .inl ⟨rfl, by simp [rdXJoint, hd]⟩
    | some m =>
      by_cases hn : m.jointName = ""
      · exact .inl ⟨by simp [exportMimic, hn], by simp [rdXJoint, hd, hn]⟩
      · exact .inr ⟨.mk "mimic" [("offset", fmt m.offset), ("multiplier", fmt m.multiplier), ("joint", m.jointName)] [],
          ⟨rd m.offset, rd m.multiplier, m.jointName⟩, by simp [exportMimic, hn], ⟨rfl, h.number rfl, h.number rfl⟩,
          by simp [rdXJoint, hd, hn]⟩

/-! ### what an accepted robot is like -/

theorem insertAll_sorted {α : Type} (key : α → String) {l : List α} (h : l.Pairwise fun a b => key a < key b) :
    insertAll key [] l = some l := by
  have hs : (insertAll key [] l).isSome := (insertAll_isSome key [] l .nil).mpr (by simpa using nodup_of_sorted h)
  obtain ⟨r, hr⟩ := Option.isSome_iff_exists.mp hs
  obtain ⟨p, s⟩ := insertAll_eq_some key [] l .nil hr
  rw [List.nil_append] at p
  rw [hr, p.eq_of_pairwise (le := fun a b => key a < key b)
    (fun a b _ _ h1 h2 => absurd (String.lt_trans h1 h2) (String.lt_irrefl _)) s h]

theorem colorOk_of (hu : UnitOk rd) {e : Elem} : ColorOk (parseMaterial num e).1 := by
  have h : MaterialSays num e (parseMaterial num e).1 (parseMaterial num e).2 := parseMaterial_iff.mp rfl
  generalize (parseMaterial num e).1 = m at *
  generalize (parseMaterial num e).2 = d at *
  have hun : ∀ {w : String} {x : K}, UnitSays num w x → InUnit x := by
    rintro w x ⟨y, _, h1, h2, rfl⟩
    exact hu.float y ⟨h1, h2⟩
  have hdef : ∀ n t, ColorOk (⟨n, t, 0, 0, 0, 1⟩ : Material K) := fun _ _ => ⟨hu.zero, hu.zero, hu.zero, hu.one⟩
  cases h with
  | nameless _ => exact hdef _ _
  | named _ _ hc =>
    cases hc with
    | missing _ | bad _ _ _ _ _ | count _ _ _ _ _ => exact hdef _ _
    | given _ _ _ hf =>
      cases hf with
      | cons h1 hf => cases hf with
        | cons h2 hf => cases hf with
          | cons h3 hf => cases hf with
            | cons h4 hf => exact ⟨hun h1, hun h2, hun h3, hun h4⟩

/-- a visual that is complete with respect to the materials -/
structure MaterialsListed (ms : List (Material K)) (v : Visual K) : Prop where
  ok : VisualOk v
  color : ∀ m, v.material = some m → ColorOk m
  listed : v.materialName ≠ "" → ∀ m, v.material = some m → m ∈ ms

theorem MaterialsListed.mono {ms ms' : List (Material K)} {v : Visual K} (h : MaterialsListed ms v) (hs : ∀ m ∈ ms, m ∈ ms') : MaterialsListed ms' v :=
  ⟨h.ok, h.color, fun hn m hm => hs m (h.listed hn m hm)⟩

theorem assignMaterial_complete {v : Visual K} (hv : VisualOk v) (hc : ∀ m, v.material = some m → ColorOk m) {ms : List (Material K)}
    (hms : ∀ m ∈ ms, ColorOk m) : MaterialsListed (assignMaterial v ms).2 (assignMaterial v ms).1 ∧
    (∀ m ∈ ms, m ∈ (assignMaterial v ms).2) ∧ ∀ m ∈ (assignMaterial v ms).2, ColorOk m := by
  unfold assignMaterial
  by_cases hn : v.materialName = ""
  · rw [if_pos hn]
    exact ⟨⟨hv, hc, fun h => absurd hn h⟩, fun _ h => h, hms⟩
  · rw [if_neg hn]
    cases hf : ms.find? fun m => m.name == v.materialName with
    | some m =>
      have h1 := List.mem_of_find?_eq_some hf
      have h2 : m.name = v.materialName := by simpa using List.find?_some hf
      refine ⟨⟨?_, ?_, ?_⟩, fun _ h => h, hms⟩
      · intro m' hm'; cases hm'; exact h2
      · intro m' hm'; cases hm'; exact hms m h1
      · intro _ m' hm'; cases hm'; exact h1
    | none =>
      cases hvm : v.material with
      | none => exact ⟨⟨hv, hc, fun _ m hm => by rw [hvm] at hm; cases hm⟩, fun _ h => h, hms⟩
      | some m =>
        have hmem : ∀ x, x ∈ insertSorted Material.name m ms ↔ x = m ∨ x ∈ ms := by
          intro x
          rw [(insertSorted_perm Material.name m ms).mem_iff, List.mem_cons]
        refine ⟨⟨hv, hc, ?_⟩, fun x hx => (hmem x).mpr (.inr hx), ?_⟩
        · intro _ m' hm'
          rw [hvm] at hm'
          cases hm'
          exact (hmem m).mpr (.inl rfl)
        · intro x hx
          rcases (hmem x).mp hx with rfl | hx
          · exact hc _ hvm
          · exact hms x hx

theorem assignMaterials_complete {vs : List (Visual K)} (hv : ∀ v ∈ vs, VisualOk v ∧ ∀ m, v.material = some m → ColorOk m)
    {ms : List (Material K)} (hms : ∀ m ∈ ms, ColorOk m) : (∀ v ∈ (assignMaterials vs ms).1, MaterialsListed (assignMaterials vs ms).2 v) ∧
    (∀ m ∈ ms, m ∈ (assignMaterials vs ms).2) ∧ ∀ m ∈ (assignMaterials vs ms).2, ColorOk m := by
  induction vs generalizing ms with
  | nil => exact ⟨by simp [assignMaterials], fun _ h => h, hms⟩
  | cons w vs ih =>
    obtain ⟨a1, a2, a3⟩ := assignMaterial_complete (hv w List.mem_cons_self).1 (hv w List.mem_cons_self).2 hms
    obtain ⟨b1, b2, b3⟩ := ih (fun v h => hv v (List.mem_cons_of_mem _ h)) a3
    refine ⟨?_, fun m hm => b2 m (a2 m hm), b3⟩
    intro v hv
    rcases List.mem_cons.mp hv with rfl | hv
    · exact a1.mono b2
    · exact b1 v hv

theorem assignLinks_complete {ls : List (XLink K)} (hv : ∀ l ∈ ls, ∀ v ∈ l.visuals, VisualOk v ∧ ∀ m, v.material = some m → ColorOk m)
    {ms : List (Material K)} (hms : ∀ m ∈ ms, ColorOk m) :
    (∀ l ∈ (assignLinks ls ms).1, ∀ v ∈ l.visuals, MaterialsListed (assignLinks ls ms).2 v) ∧
    (∀ m ∈ ms, m ∈ (assignLinks ls ms).2) ∧ ∀ m ∈ (assignLinks ls ms).2, ColorOk m := by
  induction ls generalizing ms with
  | nil => exact ⟨by simp [assignLinks], fun _ h => h, hms⟩
  | cons w ls ih =>
    obtain ⟨a1, a2, a3⟩ := assignMaterials_complete (hv w List.mem_cons_self) hms
    obtain ⟨b1, b2, b3⟩ := ih (fun v h => hv v (List.mem_cons_of_mem _ h)) a3
    refine ⟨?_, fun m hm => b2 m (a2 m hm), b3⟩
    intro l hl v hv
    rcases List.mem_cons.mp hl with rfl | hl
    · exact (a1 v hv).mono b2
    · exact b1 l hl v hv

theorem linkShapes_color (hu : UnitOk rd) {e : Elem} : ∀ v ∈ (parseLink num e).1.visuals, ∀ m, v.material = some m → ColorOk m := by
  have h : ∀ e v, parseVisual num e = some v → ∀ m, v.material = some m → ColorOk m := by
    intro e v hv m hm
    rcases (parseVisual_iff.mp hv).material with ⟨_, _, h⟩ | ⟨c, m', d, _, _, h1, h2⟩
    · rw [h] at hm; cases hm
    · rw [h2] at hm
      cases d
      · cases hm
      · cases hm
        have := colorOk_of (num := num) hu (e := c)
        rwa [parseMaterial_iff.mpr h1] at this
  have h' := parseWhile_all (P := fun v : Visual K => ∀ m, v.material = some m → ColorOk m) h (e.childrenNamed "visual")
  unfold parseLink
  cases e.attr "name" with
  | none => simp
  | some n =>
    dsimp only
    repeat' split
    all_goals first | exact h' | simp

theorem parseURDF_complete (hu : UnitOk rd) {doc : List Elem} {r : Robot K} {m : ModelInterface K} (hp : parseURDF num doc = some (r, m)) :
    (∀ l ∈ r.links, ∀ v ∈ l.visuals, MaterialsListed r.materials v) ∧ (∀ m ∈ r.materials, ColorOk m) ∧
    (r.materials.Pairwise fun a b => a.name < b.name) ∧ (r.links.Pairwise fun a b => a.name < b.name) ∧
    (r.joints.Pairwise fun a b => a.name < b.name) := by
  obtain ⟨robot, hr, -⟩ := parseURDF_iff.mp ⟨r, hp⟩
  obtain ⟨mats, js, h1, h2, h3, h4, h5, h6⟩ := parseURDF_parts hp hr
  obtain ⟨m1, m2⟩ := insertAll_eq_some _ _ _ List.Pairwise.nil h2
  obtain ⟨l1, l2⟩ := insertAll_eq_some _ _ _ List.Pairwise.nil h3
  obtain ⟨j1, j2⟩ := insertAll_eq_some _ _ _ List.Pairwise.nil h6
  rw [List.nil_append] at m1 l1
  have hv : ∀ l ∈ (robot.childrenNamed "link").map (fun e => (parseLink num e).1), ∀ v ∈ l.visuals,
      VisualOk v ∧ ∀ m, v.material = some m → ColorOk m := by
    intro l hl v hv
    obtain ⟨e, _, rfl⟩ := List.mem_map.mp hl
    exact ⟨parseLink_visuals e v hv, linkShapes_color hu v hv⟩
  obtain ⟨a1, a2, a3⟩ := assignLinks_complete hv (ms := mats) (by
    intro m hm
    obtain ⟨e, _, rfl⟩ := List.mem_map.mp (m1.mem_iff.mp hm)
    exact colorOk_of hu)
  rw [← h4] at a1 a3
  refine ⟨fun l hl => a1 l (l1.mem_iff.mp hl), a3, ?_, l2, j2⟩
  rw [h4]
  exact assignLinks_sorted (fun l hl v hv' => (hv l hl v hv').1) m2

theorem find_name {ms : List (Material K)} (hs : (ms.map Material.name).Nodup) {m : Material K} (hm : m ∈ ms) :
    ms.find? (fun x => x.name == m.name) = some m := by
  induction ms with
  | nil => cases hm
  | cons b l ih =>
    simp only [List.map_cons, List.nodup_cons] at hs
    rw [List.find?_cons]
    rcases List.mem_cons.mp hm with rfl | h1
    · simp
    · have : b.name ≠ m.name := fun e => hs.1 (List.mem_map.mpr ⟨m, h1, e.symm⟩)
      have hb : (b.name == m.name) = false := by simpa using this
      simp only [hb]
      exact ih hs.2 h1

theorem assignMaterials_same {vs : List (Visual K)} {ms : List (Material K)}
    (h : ∀ v ∈ vs, v.materialName ≠ "" → ∃ m, v.material = some m ∧ ms.find? (fun x => x.name == v.materialName) = some m) :
    assignMaterials vs ms = (vs, ms) := by
  induction vs with
  | nil => rfl
  | cons v vs ih =>
    have hv : assignMaterial v ms = (v, ms) := by
      unfold assignMaterial
      split
      · rfl
      · rename_i hn
        obtain ⟨m, h1, h2⟩ := h v List.mem_cons_self hn
        rw [h2]
        simp only [← h1]
    simp only [assignMaterials, hv, ih fun v hm => h v (List.mem_cons_of_mem _ hm)]

theorem assignLinks_same {ls : List (XLink K)} {ms : List (Material K)}
    (h : ∀ l ∈ ls, ∀ v ∈ l.visuals, v.materialName ≠ "" → ∃ m, v.material = some m ∧ ms.find? (fun x => x.name == v.materialName) = some m) :
    assignLinks ls ms = (ls, ms) := by
  induction ls with
  | nil => rfl
  | cons l ls ih =>
    simp only [assignLinks, assignMaterials_same (h l List.mem_cons_self), ih fun l hm => h l (List.mem_cons_of_mem _ hm)]

theorem exportURDF_named (r : Robot K) (tag : String) :
    (Elem.mk "robot" [("name", r.name)] (r.materials.map (exportMaterial fmt) ++
      r.links.map (exportLink fmt) ++ r.joints.map (exportJoint fmt))).childrenNamed tag =
      (if tag = "material" then r.materials.map (exportMaterial fmt) else []) ++
      (if tag = "link" then r.links.map (exportLink fmt) else []) ++
      (if tag = "joint" then r.joints.map (exportJoint fmt) else []) := by
  unfold Elem.childrenNamed
  simp only [Elem.children, List.filter_append]
  rw [filter_named (f := exportMaterial fmt) (t := "material") (fun _ => rfl),
    filter_named (f := exportLink fmt) (t := "link") (fun _ => rfl),
    filter_named (f := exportJoint fmt) (t := "joint") (fun _ => rfl)]

/-- **C99 (exactly what survives).** Exporting the robot of an accepted document and reading it back gives the same robot, with
rounded numbers, except: joint origins, names of visuals and collisions, names of materials that are nowhere defined,
calibrations without edges and mimics without joint are lost, and in a link with a mesh without file name also what comes after
it. -/
theorem C99_export_partial (h : Prints num fmt rd) (hu : UnitOk rd) {doc : List Elem} {r : Robot K} {m : ModelInterface K}
    (hp : parseURDF num doc = some (r, m)) : ∃ m', parseURDF num (exportURDF fmt r) =
      some (⟨r.name, r.materials.map (rdMaterial rd), r.links.map (rdXLink rd), r.joints.map (rdXJoint rd)⟩, m') := by
  obtain ⟨_, _, r', m', -, hp', -⟩ := C56_export_partial h hp
  refine ⟨m', ?_⟩
  rw [hp']
  obtain ⟨c1, c2, c3, c4, c5⟩ := parseURDF_complete hu hp
  obtain ⟨-, -, hj⟩ := parseURDF_robot hp
  obtain ⟨mats, js, h1, h2, h3, h4, h5, h6⟩ := parseURDF_parts hp' (robot := _) rfl
  have e1 : mats = r.materials.map (rdMaterial rd) := by
    have e : (r.materials.map (exportMaterial fmt)).map (fun e => (parseMaterial num e).1) = r.materials.map (rdMaterial rd) := by
      rw [List.map_map]
      refine List.map_congr_left fun x hx => ?_
      simp only [Function.comp_apply]
      rw [parseMaterial_iff.mpr (h.material hu x (c2 x hx))]
    rw [exportURDF_named] at h2
    simp only [show ("material" : String) ≠ "link" by decide, show ("material" : String) ≠ "joint" by decide, if_false, if_true,
      List.append_nil, e] at h2
    rw [insertAll_sorted Material.name (l := r.materials.map (rdMaterial rd)) (List.pairwise_map.mpr c3)] at h2
    exact (Option.some.inj h2).symm
  have e2 : ((Elem.mk "robot" [("name", r.name)] (r.materials.map (exportMaterial fmt) ++
      r.links.map (exportLink fmt) ++ r.joints.map (exportJoint fmt))).childrenNamed "link").map (fun e => (parseLink num e).1) =
      r.links.map (rdXLink rd) := by
    rw [exportURDF_named]
    simp only [show ("link" : String) ≠ "material" by decide, show ("link" : String) ≠ "joint" by decide, if_false, if_true,
      List.append_nil, List.nil_append, List.map_map]
    refine List.map_congr_left fun x hx => ?_
    exact h.xlink hu x (fun v hv => (c1 x hx v hv).ok) (fun v hv => (c1 x hx v hv).color)
  have e3 : assignLinks (r.links.map (rdXLink rd)) mats = (r.links.map (rdXLink rd), mats) := by
    refine assignLinks_same ?_
    intro l hl v hv hn
    obtain ⟨l0, hl0, rfl⟩ := List.mem_map.mp hl
    obtain ⟨v0, hv0, rfl⟩ := List.mem_map.mp (show v ∈ (l0.visuals.takeWhile fun v => !noFile v.geometry).map (rdVisual rd) from hv)
    have hv0 := (List.takeWhile_sublist _).subset hv0
    have hc := c1 l0 hl0 v0 hv0
    cases hm : v0.material with
    | none => simp [rdVisual, hm] at hn
    | some x =>
      have hn' : (rdVisual rd v0).materialName = v0.materialName := by simp [rdVisual, hm]
      rw [hn'] at hn ⊢
      refine ⟨rdMaterial rd x, by simp [rdVisual, hm], ?_⟩
      rw [← hc.ok x hm, e1]
      have := find_name (ms := r.materials.map (rdMaterial rd)) (m := rdMaterial rd x)
        (by rw [List.map_map]; exact nodup_of_sorted c3) (List.mem_map.mpr ⟨x, hc.listed hn x hm, rfl⟩)
      exact this
  rw [e2, e3] at h3 h4
  have e4 : r'.links = r.links.map (rdXLink rd) := by
    rw [insertAll_sorted XLink.name (l := r.links.map (rdXLink rd)) (List.pairwise_map.mpr c4)] at h3
    exact (Option.some.inj h3).symm
  have e5 : r'.joints = r.joints.map (rdXJoint rd) := by
    rw [exportURDF_named] at h5
    simp only [show ("joint" : String) ≠ "material" by decide, show ("joint" : String) ≠ "link" by decide, if_false, if_true,
      List.nil_append] at h5
    have e : (r.joints.map (exportJoint fmt)).mapM (parseJoint num) = some (r.joints.map (rdXJoint rd)) := by
      rw [mapM_forall₂, List.forall₂_map_left_iff, List.forall₂_map_right_iff, List.forall₂_same]
      exact fun j hj0 => h.xjoint j (hj j hj0).1 (hj j hj0).2
    rw [e] at h5
    cases h5
    rw [insertAll_sorted XJoint.name (l := r.joints.map (rdXJoint rd)) (List.pairwise_map.mpr c5)] at h6
    exact (Option.some.inj h6).symm
  have e6 : r'.name = r.name := by
    have : (some r.name : Option String) = some r'.name := h1
    exact (Option.some.inj this).symm
  obtain ⟨n', ms', ls', js'⟩ := r'
  simp only at e4 e5 e6 h4
  rw [e4, e5, e6, h4, e1]

end

/-! ### a document -/

namespace ShapeExample

/-- whole numbers with dummy functions: enough to read documents -/
scoped instance intScalar : Scalar Int where
  lit _ _ := 0
  sin := id
  cos := id
  asin := id
  sqrt := id
  atan2 := fun a _ => a
  lt a b := decide (a < b)
  le a b := decide (a ≤ b)
  eq a b := decide (a = b)
  toFloat := id

/-- a reader of "0" and "1" -/
def num (s : String) : Option Int := if s = "0" then some 0 else if s = "1" then some 1 else none

/-- a printer for 0 and 1 -/
def fmt (x : Int) : String := if x = 1 then "1" else "0"

/-- exact for 0 and 1 -/
def rd (x : Int) : Int := if x = 1 then 1 else 0

theorem prints : Prints num fmt rd where
  read x := by
    unfold fmt rd
    split <;> decide
  word x := by
    unfold fmt
    split <;> decide

theorem unitOk : UnitOk rd where
  keeps x _ := by
    unfold rd InUnit
    split <;> decide
  zero := by unfold InUnit; decide
  one := by unfold InUnit; decide
  float _ h := h

/-- `<visual><geometry>shape</geometry>material</visual>` -/
def visual (n : String) (shape : Elem) (m : List Elem) : Elem := .mk "visual" [("name", n)] (.mk "geometry" [] [shape] :: m)

/-- `<sphere radius="1"/>` -/
def sphere : Elem := .mk "sphere" [("radius", "1")] []

/-- `<mesh filename=…/>` -/
def mesh (f : String) : Elem := .mk "mesh" [("filename", f)] []

/-- `<material name=…><color rgba=…/></material>` -/
def material (n c : String) : Elem := .mk "material" [("name", n)] [.mk "color" [("rgba", c)] []]

/-- `<material name=…/>` -/
def ref (n : String) : Elem := .mk "material" [("name", n)] []

/-- a fixed joint with calibration and mimic -/
def joint : Elem := .mk "joint" [("name", "j"), ("type", "fixed")]
  [.mk "parent" [("link", "base")] [], .mk "child" [("link", "arm")] [], .mk "calibration" [("rising", "1")] [],
   .mk "mimic" [("joint", "j"), ("offset", "1")] [], .mk "dynamics" [("friction", "1")] []]

/-- two links: the first visual of `base` defines red, the second uses blue, which `arm` defines; `arm` uses red -/
def doc : List Elem := [.mk "robot" [("name", "r")]
  [material "grey" "1 1 1 0",
   .mk "link" [("name", "base")] [visual "a" sphere [material "red" " 1 0  0 1"], visual "b" sphere [ref "blue"],
     .mk "collision" [("name", "c")] [.mk "geometry" [] [mesh "f"]]],
   .mk "link" [("name", "arm")] [visual "d" (mesh "") [material "blue" "0 0 1"], visual "e" sphere [ref "red"]],
   joint]]

/-- the materials of the visuals of the document, for `arm` and `base` -/
def colors (doc : List Elem) : Option (List (List (Option (String × List Int)))) :=
  (parseURDF num doc).map fun p => p.1.links.map fun l => l.visuals.map fun v => v.material.map fun m =>
    (m.name, [m.color.1, m.color.2.1, m.color.2.2.1, m.color.2.2.2])

/-- What C98 says on this document: red is resolved in `arm`, blue is not in `base` because it is defined later, and the colour
with three components counts as black. -/
theorem C98_witness : colors doc = some [[some ("blue", [0, 0, 0, 1]), some ("red", [1, 0, 0, 1])],
    [some ("red", [1, 0, 0, 1]), none]] := by
  decide +kernel

/-- the hypotheses of C98 and C99 are met -/
example : ∃ r m, parseURDF num doc = some (r, m) ∧ r.links.length = 2 ∧ r.materials.map Material.name = ["blue", "grey", "red"] := by
  have h : ((parseURDF num doc).map fun p => (p.1.links.length, p.1.materials.map Material.name)) = some (2, ["blue", "grey", "red"]) := by
    decide +kernel
  obtain ⟨⟨r, m⟩, h1, h2⟩ := Option.map_eq_some_iff.mp h
  simp only [Prod.mk.injEq] at h2
  exact ⟨r, m, h1, h2⟩

/-- **C99 is false.** The document is accepted; after export the link `arm`, which had two visuals, has none (its first visual is
a mesh without file name), and the visuals of `base` have lost their names. -/
theorem C99_false : ((parseURDF num doc).map fun p => p.1.links.map fun l => l.visuals.map Visual.name) = some [["d", "e"], ["a", "b"]] ∧
    (((parseURDF num doc).bind fun p => parseURDF num (exportURDF fmt p.1)).map fun p => p.1.links.map fun l => l.visuals.map Visual.name) =
      some [[], ["", ""]] := by
  constructor <;> decide +kernel

end ShapeExample

end Tinyfk
