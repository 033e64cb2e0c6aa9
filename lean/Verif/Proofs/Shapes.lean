import Verif.Spec.Shapes
import Verif.Proofs.Parse
import Mathlib.Tactic.Push

/-!
# Parsing shapes, materials and the unused elements of joints
-/

namespace Tinyfk

variable {K : Type} [Scalar K] {num : String → Option K}

theorem words_iff {l : List Char} {ws : List String} : Words l ws ↔ (wordsOf l).map String.ofList = ws := by
  constructor
  · intro h
    induction h with
    | none hp => simp [wordsOf_nil hp]
    | @word p w t ws hp hw hw' ht h ih =>
      rw [List.append_assoc, wordsOf_spaces hp]
      rcases ht with rfl | ht
      · rw [List.append_nil, wordsOf_word ⟨hw, hw'⟩]
        rw [wordsOf_nil (by simp [Spaces])] at ih
        simp [← ih]
      · cases t with
        | nil => cases ht
        | cons c t =>
          simp only [List.head?_cons, Option.some.injEq] at ht
          subst ht
          rw [wordsOf_cons ⟨hw, hw'⟩]
          rw [show ' ' :: t = [' '] ++ t from rfl, wordsOf_spaces (by simp [Spaces])] at ih
          simp [ih]
  · intro h
    subst h
    generalize hk : wordsOf l = k
    induction k generalizing l with
    | nil => exact .none (wordsOf_eq_nil hk)
    | cons w k ih =>
      obtain ⟨p, hp, hw, ⟨rfl, rfl⟩ | ⟨r, rfl, hr⟩⟩ := wordsOf_eq_cons hk
      · have := Words.word hp hw.1 hw.2 (.inl rfl) (.none (p := []) (by simp [Spaces]))
        simpa using this
      · refine .word hp hw.1 hw.2 (.inr rfl) (ih ?_)
        rw [show ' ' :: r = [' '] ++ r from rfl, wordsOf_spaces (by simp [Spaces]), hr]

theorem mapM_forall₂ {α β : Type} {f : α → Option β} {l : List α} {r : List β} :
    l.mapM f = some r ↔ List.Forall₂ (fun a b => f a = some b) l r := by
  induction l generalizing r with
  | nil => simp [eq_comm]
  | cons a l ih =>
    simp only [List.mapM_cons, Option.bind_eq_bind, Option.bind_eq_some_iff, Option.pure_def, Option.some.injEq]
    constructor
    · rintro ⟨b, hb, bs, hbs, rfl⟩
      exact .cons hb (ih.mp hbs)
    · rintro (_ | ⟨hb, hbs⟩)
      exact ⟨_, hb, _, ih.mpr hbs, rfl⟩

theorem mapM_none {α β : Type} {f : α → Option β} {l : List α} : l.mapM f = none ↔ ∃ a ∈ l, f a = none := by
  induction l with
  | nil => simp
  | cons a l ih =>
    simp only [List.mapM_cons, List.mem_cons, exists_eq_or_imp]
    cases h : f a with
    | none => simp
    | some b =>
      cases h' : l.mapM f with
      | none => simpa using ih.mp h'
      | some bs =>
        have := mt ih.mpr (by simp [h'])
        simp [this]

/-- one component of a colour -/
def unitNum (num : String → Option K) (p : String) : Option K :=
  match num p with
  | none => none
  | some x => if Scalar.lt x 0 || Scalar.lt 1 x then none else some (Scalar.toFloat x)

theorem unitNum_iff {w : String} {x : K} : unitNum num w = some x ↔ UnitSays num w x := by
  unfold unitNum UnitSays
  cases h : num w with
  | none => simp
  | some y =>
    simp only [Option.some.injEq]
    cases h1 : Scalar.lt y 0 <;> cases h2 : Scalar.lt (1 : K) y <;> simp only [Bool.or_false, Bool.or_true, Bool.false_eq_true, if_false, if_true,
      Option.some.injEq, reduceCtorEq, false_iff]
    · constructor
      · rintro rfl; exact ⟨y, rfl, h1, h2, rfl⟩
      · rintro ⟨_, rfl, _, _, rfl⟩; rfl
    · rintro ⟨_, rfl, _, h, _⟩; simp [h2] at h
    · rintro ⟨_, rfl, h, _⟩; simp [h1] at h
    · rintro ⟨_, rfl, h, _⟩; simp [h1] at h

theorem unitNum_none {w : String} : unitNum num w = none ↔ ¬ ∃ x, UnitSays num w x := by
  rw [Option.eq_none_iff_forall_not_mem]
  simp only [← unitNum_iff, Option.mem_def, not_exists]

theorem parseColor_eq (num : String → Option K) (s : String) : parseColor num s =
    match ((wordsOf s.toList).map String.ofList).mapM (unitNum num) with
    | none => none
    | some [r, g, b, a] => some (some (r, g, b, a))
    | some _ => some none := rfl

/-- the colour part of `parseMaterial` -/
def colorOf (num : String → Option K) (e : Elem) : (K × K × K × K) × Bool :=
  match (e.firstChild "color").bind (·.attr "rgba") with
  | none => (Material.noColor, false)
  | some s =>
    match parseColor num s with
    | none => (Material.noColor, false)
    | some none => (Material.noColor, true)
    | some (some c) => (c, true)

theorem forall₂_unit {ws : List String} {xs : List K} :
    List.Forall₂ (fun a b => unitNum num a = some b) ws xs ↔ List.Forall₂ (UnitSays num) ws xs := by
  simp only [unitNum_iff]

theorem colorOf_iff {e : Elem} {c : K × K × K × K} {d : Bool} : colorOf num e = (c, d) ↔ ColorSays num e c d := by
  constructor
  · intro h
    unfold colorOf at h
    cases h1 : e.firstChild "color" with
    | none =>
      rw [h1] at h
      simp only [Option.bind_none, Prod.mk.injEq] at h
      obtain ⟨rfl, rfl⟩ := h
      exact .missing (by simp [h1])
    | some k =>
      rw [h1] at h
      simp only [Option.bind_some] at h
      cases h2 : k.attr "rgba" with
      | none =>
        rw [h2] at h
        simp only [Prod.mk.injEq] at h
        obtain ⟨rfl, rfl⟩ := h
        exact .missing (by simp [h1, h2])
      | some s =>
        rw [h2] at h
        simp only [parseColor_eq] at h
        have hw : Words s.toList ((wordsOf s.toList).map String.ofList) := words_iff.mpr rfl
        cases h3 : ((wordsOf s.toList).map String.ofList).mapM (unitNum num) with
        | none =>
          rw [h3] at h
          simp only [Prod.mk.injEq] at h
          obtain ⟨rfl, rfl⟩ := h
          obtain ⟨w, hw1, hw2⟩ := mapM_none.mp h3
          exact .bad h1 h2 hw hw1 (unitNum_none.mp hw2)
        | some xs =>
          rw [h3] at h
          have hf := forall₂_unit.mp (mapM_forall₂.mp h3)
          match xs, hf, h with
          | [r, g, b, a], hf, h =>
            simp only [Prod.mk.injEq] at h
            obtain ⟨rfl, rfl⟩ := h
            exact .given h1 h2 hw hf
          | [], hf, h | [_], hf, h | [_, _], hf, h | [_, _, _], hf, h | _ :: _ :: _ :: _ :: _ :: _, hf, h =>
            simp only [Prod.mk.injEq] at h
            obtain ⟨rfl, rfl⟩ := h
            exact .count h1 h2 hw hf (by simp)
  · intro h
    unfold colorOf
    cases h with
    | missing h =>
      cases h1 : e.firstChild "color" with
      | none => rfl
      | some k => simp [h k h1]; rfl
    | bad h1 h2 h3 h4 h5 =>
      rw [words_iff] at h3
      have : ((wordsOf _).map String.ofList).mapM (unitNum num) = none := mapM_none.mpr ⟨_, h3 ▸ h4, unitNum_none.mpr h5⟩
      simp only [h1, Option.bind_some, h2, parseColor_eq, this]
      rfl
    | count h1 h2 h3 h4 h5 =>
      rw [words_iff] at h3
      have : ((wordsOf _).map String.ofList).mapM (unitNum num) = some _ := mapM_forall₂.mpr (forall₂_unit.mpr (h3 ▸ h4))
      simp only [h1, Option.bind_some, h2, parseColor_eq, this]
      rename_i xs
      match xs, h5 with
      | [], _ | [_], _ | [_, _], _ | [_, _, _], _ | _ :: _ :: _ :: _ :: _ :: _, _ => rfl
      | [_, _, _, _], h5 => exact absurd rfl h5
    | given h1 h2 h3 h4 =>
      rw [words_iff] at h3
      have : ((wordsOf _).map String.ofList).mapM (unitNum num) = some _ := mapM_forall₂.mpr (forall₂_unit.mpr (h3 ▸ h4))
      simp only [h1, Option.bind_some, h2, parseColor_eq, this]

/-! ### materials, geometry -/

theorem texture_iff {e : Elem} {t : Option String} :
    (e.firstChild "texture").bind (·.attr "filename") = t ↔ TextureSays e t := by
  unfold TextureSays
  cases h : e.firstChild "texture" with
  | none => simp [eq_comm]
  | some c =>
    cases h' : c.attr "filename" with
    | none => simp [h', eq_comm]
    | some s => simp [h', eq_comm]

theorem parseMaterial_named {e : Elem} {n : String} (h : e.attr "name" = some n) : parseMaterial num e =
    (⟨n, ((e.firstChild "texture").bind (·.attr "filename")).getD "", (colorOf num e).1⟩,
      (colorOf num e).2 || ((e.firstChild "texture").bind (·.attr "filename")).isSome) := by
  unfold parseMaterial
  simp only [h]
  rfl

theorem parseMaterial_iff {e : Elem} {m : Material K} {d : Bool} : parseMaterial num e = (m, d) ↔ MaterialSays num e m d := by
  constructor
  · intro h
    cases hn : e.attr "name" with
    | none =>
      unfold parseMaterial at h
      simp only [hn, Prod.mk.injEq] at h
      obtain ⟨rfl, rfl⟩ := h
      exact .nameless hn
    | some n =>
      rw [parseMaterial_named hn] at h
      simp only [Prod.mk.injEq] at h
      obtain ⟨rfl, rfl⟩ := h
      exact .named hn (texture_iff.mp rfl) (colorOf_iff.mp rfl)
  · intro h
    cases h with
    | nameless hn => unfold parseMaterial; simp only [hn]; rfl
    | named hn ht hc => rw [parseMaterial_named hn, texture_iff.mpr ht, colorOf_iff.mpr hc]

theorem parseShape_iff {c : Elem} {x : Elem} (hx : c.children.head? = some x) {g : Geometry K} :
    parseGeometry num (some c) = some g ↔ ShapeSays num x g := by
  obtain ⟨y, ys, hy⟩ : ∃ y ys, c.children = y :: ys := by
    cases h : c.children with
    | nil => simp [h] at hx
    | cons y ys => exact ⟨y, ys, rfl⟩
  simp only [hy, List.head?_cons, Option.some.injEq] at hx
  subst hx
  unfold parseGeometry
  simp only [hy]
  constructor
  · intro h
    split at h
    · rename_i hn
      simp only [Option.map_eq_some_iff] at h
      obtain ⟨r, hr, rfl⟩ := h
      exact .sphere hn (reqNum_iff.mp hr)
    split at h
    · rename_i hn
      simp only [Option.map_eq_some_iff, Option.bind_eq_some_iff] at h
      obtain ⟨v, ⟨s, hs, hv⟩, rfl⟩ := h
      exact .box hn hs (parseVec_iff.mp hv)
    split at h
    · rename_i hn
      simp only [Option.bind_eq_bind, Option.bind_eq_some_iff, Option.some.injEq] at h
      obtain ⟨l, hl, r, hr, rfl⟩ := h
      exact .cylinder hn (reqNum_iff.mp hl) (reqNum_iff.mp hr)
    split at h
    · rename_i hn
      simp only [Option.bind_eq_bind, Option.bind_eq_some_iff] at h
      obtain ⟨f, hf, h⟩ := h
      cases hs : y.attr "scale" with
      | none =>
        simp only [hs, Option.some.injEq] at h
        subst h
        exact .mesh hn hf hs
      | some s =>
        simp only [hs, Option.map_eq_some_iff] at h
        obtain ⟨v, hv, rfl⟩ := h
        exact .scaled hn hf hs (parseVec_iff.mp hv)
    · cases h
  · intro h
    cases h with
    | sphere hn hr => simp [hn, reqNum_iff.mpr hr]
    | box hn hs hv => simp [hn, hs, parseVec_iff.mpr hv]
    | cylinder hn hl hr => simp [hn, reqNum_iff.mpr hl, reqNum_iff.mpr hr]
    | mesh hn hf hs => simp [hn, hf, hs]
    | scaled hn hf hs hv => simp [hn, hf, hs, parseVec_iff.mpr hv]

theorem parseGeometry_iff {e : Elem} {g : Geometry K} : parseGeometry num (e.firstChild "geometry") = some g ↔
    GeometrySays num e g := by
  unfold GeometrySays
  cases h : e.firstChild "geometry" with
  | none => simp [parseGeometry]
  | some c =>
    cases hx : c.children.head? with
    | none =>
      have hc : c.children = [] := by simpa using hx
      simp [parseGeometry, hc]
    | some x =>
      rw [parseShape_iff hx]
      constructor
      · exact fun h => ⟨c, x, rfl, hx, h⟩
      · rintro ⟨c', x', hc, hx', h⟩
        cases hc
        rw [hx] at hx'
        cases hx'
        exact h

theorem parseCollision_iff {e : Elem} {c : Collision K} : parseCollision num e = some c ↔ CollisionSays num e c := by
  unfold parseCollision
  simp only [Option.bind_eq_bind, Option.bind_eq_some_iff, Option.some.injEq]
  constructor
  · rintro ⟨o, ho, g, hg, rfl⟩
    exact ⟨parseOrigin_iff.mp ho, parseGeometry_iff.mp hg, rfl⟩
  · intro h
    refine ⟨c.origin, parseOrigin_iff.mpr h.origin, c.geometry, parseGeometry_iff.mpr h.geometry, ?_⟩
    rw [← h.name]

theorem parseVisual_iff {e : Elem} {v : Visual K} : parseVisual num e = some v ↔ VisualSays num e v := by
  unfold parseVisual
  simp only [Option.bind_eq_bind, Option.bind_eq_some_iff]
  constructor
  · rintro ⟨o, ho, g, hg, h⟩
    cases hm : e.firstChild "material" with
    | none =>
      simp only [hm, Option.some.injEq] at h
      subst h
      exact ⟨parseOrigin_iff.mp ho, parseGeometry_iff.mp hg, rfl, .inl ⟨hm, rfl, rfl⟩⟩
    | some c =>
      simp only [hm, Option.bind_eq_some_iff] at h
      obtain ⟨n, hn, h⟩ := h
      rcases hp : parseMaterial num c with ⟨m, d⟩
      have hmat := parseMaterial_iff.mp hp
      rw [hp] at h
      cases d with
      | true =>
        simp only [Option.some.injEq] at h
        subst h
        exact ⟨parseOrigin_iff.mp ho, parseGeometry_iff.mp hg, rfl, .inr ⟨c, m, true, hm, hn, hmat, rfl⟩⟩
      | false =>
        simp only [Option.some.injEq] at h
        subst h
        exact ⟨parseOrigin_iff.mp ho, parseGeometry_iff.mp hg, rfl, .inr ⟨c, m, false, hm, hn, hmat, rfl⟩⟩
  · intro h
    refine ⟨v.origin, parseOrigin_iff.mpr h.origin, v.geometry, parseGeometry_iff.mpr h.geometry, ?_⟩
    rcases h.material with ⟨hm, h1, h2⟩ | ⟨c, m, d, hm, h1, h2, h3⟩
    · simp only [hm]
      rw [← h.name]
      obtain ⟨⟩ := v
      simp only at h1 h2
      subst h1 h2
      rfl
    · simp only [hm, h1, Option.bind_some, parseMaterial_iff.mpr h2]
      cases d <;> simp only [← h.name, Bool.false_eq_true, if_false, if_true] at h3 ⊢ <;> rw [← h3]

theorem parseWhile_iff {α : Type} {p : Elem → Option α} {R : Elem → α → Prop} (hp : ∀ e a, p e = some a ↔ R e a) {es : List Elem}
    {as : List α} {w : Bool} : parseWhile p es = (as, w) ↔ Prefix R es as w := by
  constructor
  · intro h
    induction es generalizing as w with
    | nil =>
      simp only [parseWhile, Prod.mk.injEq] at h
      obtain ⟨rfl, rfl⟩ := h
      exact .nil
    | cons e es ih =>
      unfold parseWhile at h
      cases he : p e with
      | none =>
        simp only [he, Prod.mk.injEq] at h
        obtain ⟨rfl, rfl⟩ := h
        refine .bad ?_
        rintro ⟨a, ha⟩
        rw [← hp, he] at ha
        cases ha
      | some a =>
        simp only [he, Prod.mk.injEq] at h
        obtain ⟨rfl, rfl⟩ := h
        exact .cons ((hp _ _).mp he) (ih rfl)
  · intro h
    induction h with
    | nil => rfl
    | @bad e es h =>
      unfold parseWhile
      cases he : p e with
      | none => rfl
      | some a => exact absurd ⟨a, (hp _ _).mp he⟩ h
    | cons h _ ih =>
      unfold parseWhile
      simp only [(hp _ _).mpr h, ih]

theorem inertial_flag {c : Elem} : (parseInertial num c).2 = true ↔ ∃ i, InertialSays num c i := by
  constructor
  · intro h
    exact ⟨_, parseInertial_iff.mp (Prod.ext rfl h)⟩
  · rintro ⟨i, hi⟩
    rw [parseInertial_iff.mpr hi]

theorem parseLink_shapes (num : String → Option K) (e : Elem) :
    LinkShapes num e (parseLink num e).1.visuals (parseLink num e).1.collisions := by
  unfold parseLink
  cases hn : e.attr "name" with
  | none => exact .nameless hn
  | some n =>
    simp only []
    have hv : Prefix (VisualSays num) (e.childrenNamed "visual") (parseWhile (parseVisual num) (e.childrenNamed "visual")).1
      (parseWhile (parseVisual num) (e.childrenNamed "visual")).2 := (parseWhile_iff fun _ _ => parseVisual_iff).mp rfl
    have hc : Prefix (CollisionSays num) (e.childrenNamed "collision")
      (parseWhile (parseCollision num) (e.childrenNamed "collision")).1
      (parseWhile (parseCollision num) (e.childrenNamed "collision")).2 := (parseWhile_iff fun _ _ => parseCollision_iff).mp rfl
    have key : (∀ c, e.firstChild "inertial" = some c → ∃ i, InertialSays num c i) → ∀ i : Option (Inertial K),
        LinkShapes num e
        (if (parseWhile (parseVisual num) (e.childrenNamed "visual")).2 = true then
          ((⟨n, i, (parseWhile (parseVisual num) (e.childrenNamed "visual")).1,
            (parseWhile (parseCollision num) (e.childrenNamed "collision")).1⟩ : XLink K),
            (parseWhile (parseCollision num) (e.childrenNamed "collision")).2)
         else (⟨n, i, (parseWhile (parseVisual num) (e.childrenNamed "visual")).1, []⟩, false)).1.visuals
        (if (parseWhile (parseVisual num) (e.childrenNamed "visual")).2 = true then
          ((⟨n, i, (parseWhile (parseVisual num) (e.childrenNamed "visual")).1,
            (parseWhile (parseCollision num) (e.childrenNamed "collision")).1⟩ : XLink K),
            (parseWhile (parseCollision num) (e.childrenNamed "collision")).2)
         else (⟨n, i, (parseWhile (parseVisual num) (e.childrenNamed "visual")).1, []⟩, false)).1.collisions := by
      intro hi i
      split
      · rename_i hw
        rw [hw] at hv
        exact .collision hn hi hv hc
      · rename_i hw
        rw [Bool.not_eq_true] at hw
        rw [hw] at hv
        exact .visual hn hi hv
    cases hi : e.firstChild "inertial" with
    | none =>
      simp only [if_true]
      exact key (by simp [hi]) _
    | some c =>
      simp only []
      cases hf : (parseInertial num c).2 with
      | true =>
        simp only [if_true]
        refine key ?_ _
        intro c' hc'
        rw [hi] at hc'
        cases hc'
        exact inertial_flag.mp hf
      | false =>
        simp only [Bool.false_eq_true, if_false]
        exact .inertial hn hi (mt inertial_flag.mpr (by simp [hf]))

/-! ### the elements of joints -/

theorem optChild_iff {α : Type} {e : Elem} {tag : String} {p : Elem → Option α} {R : Elem → α → Prop}
    (hp : ∀ e a, p e = some a ↔ R e a) {a : Option α} : optChild e tag p = some a ↔ ChildSays e tag R a := by
  unfold optChild ChildSays
  cases h : e.firstChild tag with
  | none => simp [eq_comm]
  | some c =>
    simp only [Option.map_eq_some_iff, reduceCtorEq, false_and, Option.some.injEq, false_or]
    constructor
    · rintro ⟨x, hx, rfl⟩
      exact ⟨c, x, rfl, (hp _ _).mp hx, rfl⟩
    · rintro ⟨c', x, rfl, hx, rfl⟩
      exact ⟨x, (hp _ _).mpr hx, rfl⟩

theorem parseJointDynamics_iff {e : Elem} {d : JointDynamics K} : parseJointDynamics num e = some d ↔ DynamicsSays num e d := by
  unfold parseJointDynamics
  simp only [Option.bind_eq_bind, Option.bind_eq_some_iff]
  constructor
  · rintro ⟨a, ha, f, hf, h⟩
    split at h
    · cases h
    · rename_i hn
      cases h
      refine ⟨optNum_iff.mp ha, optNum_iff.mp hf, ?_⟩
      by_contra hcon
      push Not at hcon
      exact hn (by simp [hcon.1, hcon.2])
  · intro h
    refine ⟨_, optNum_iff.mpr h.damping, _, optNum_iff.mpr h.friction, ?_⟩
    rw [if_neg]
    simp only [Bool.and_eq_true, Option.isNone_iff_eq_none, not_and]
    intro h1
    exact h.given.resolve_left (fun h => h h1)

theorem parseJointSafety_iff {e : Elem} {s : JointSafety K} : parseJointSafety num e = some s ↔ SafetySays num e s := by
  unfold parseJointSafety
  simp only [Option.bind_eq_bind, Option.bind_eq_some_iff, Option.some.injEq]
  constructor
  · rintro ⟨a, ha, b, hb, c, hc, d, hd, rfl⟩
    exact ⟨optNum_iff.mp ha, optNum_iff.mp hb, optNum_iff.mp hc, reqNum_iff.mp hd⟩
  · intro h
    exact ⟨_, optNum_iff.mpr h.lower, _, optNum_iff.mpr h.upper, _, optNum_iff.mpr h.position, _, reqNum_iff.mpr h.velocity, rfl⟩

omit [Scalar K] in
theorem calNum_iff {e : Elem} {k : String} {x : Option K} : calNum num e k = some x ↔ OptSays num e k x := by
  unfold calNum OptSays
  cases h : e.attr k with
  | none => simp [eq_comm]
  | some s =>
    simp only [Option.map_eq_some_iff, reduceCtorEq, false_and, Option.some.injEq, false_or]
    constructor
    · rintro ⟨y, hy, rfl⟩
      exact ⟨s, y, rfl, hy, rfl⟩
    · rintro ⟨s', y, rfl, hy, rfl⟩
      exact ⟨y, hy, rfl⟩

omit [Scalar K] in
theorem parseJointCalibration_iff {e : Elem} {c : JointCalibration K} : parseJointCalibration num e = some c ↔
    CalibrationSays num e c := by
  unfold parseJointCalibration
  simp only [Option.bind_eq_bind, Option.bind_eq_some_iff, Option.some.injEq]
  constructor
  · rintro ⟨a, ha, b, hb, rfl⟩
    exact ⟨calNum_iff.mp ha, calNum_iff.mp hb⟩
  · intro h
    exact ⟨_, calNum_iff.mpr h.rising, _, calNum_iff.mpr h.falling, rfl⟩

theorem parseJointMimic_iff {e : Elem} {m : JointMimic K} : parseJointMimic num e = some m ↔ MimicSays num e m := by
  unfold parseJointMimic
  simp only [Option.bind_eq_bind, Option.bind_eq_some_iff, Option.some.injEq]
  constructor
  · rintro ⟨a, ha, b, hb, c, hc, rfl⟩
    exact ⟨ha, optNum_iff.mp hb, optNum_iff.mp hc⟩
  · intro h
    exact ⟨_, h.joint, _, optNum_iff.mpr h.multiplier, _, optNum_iff.mpr h.offset, rfl⟩

theorem parseJoint_extras {e : Elem} {j : XJoint K} (h : parseJoint num e = some j) : ExtrasSay num e j := by
  unfold parseJoint at h
  simp only [Option.bind_eq_bind, Option.bind_eq_some_iff, Option.some.injEq] at h
  obtain ⟨_, _, _, _, _, _, _, _, _, _, _, _, s, hs, c, hc, m, hm, d, hd, rfl⟩ := h
  exact ⟨(optChild_iff fun _ _ => parseJointDynamics_iff).mp hd, (optChild_iff fun _ _ => parseJointSafety_iff).mp hs,
    (optChild_iff fun _ _ => parseJointCalibration_iff).mp hc, (optChild_iff fun _ _ => parseJointMimic_iff).mp hm⟩

/-- A joint is read as exactly what its element says. -/
theorem parseJoint_says {e : Elem} {j : XJoint K} : parseJoint num e = some j ↔ JointSays num e j.toRaw ∧ ExtrasSay num e j := by
  constructor
  · intro h
    exact ⟨(parseJoint_iff.mp ⟨j, h, rfl⟩).1, parseJoint_extras h⟩
  · rintro ⟨h1, h2⟩
    have hs := (optChild_iff fun _ _ => parseJointSafety_iff).mpr h2.safety
    have hc := (optChild_iff fun _ _ => parseJointCalibration_iff).mpr h2.calibration
    have hm := (optChild_iff fun _ _ => parseJointMimic_iff).mpr h2.mimic
    have hd := (optChild_iff fun _ _ => parseJointDynamics_iff).mpr h2.dynamics
    obtain ⟨x, hx, hr⟩ := parseJoint_iff.mpr ⟨h1, extrasOk_iff.mpr ⟨by simp [hs], by simp [hc], by simp [hm], by simp [hd]⟩⟩
    have hx' := hx
    unfold parseJoint at hx'
    simp only [Option.bind_eq_bind, Option.bind_eq_some_iff, Option.some.injEq, hs, hc, hm, hd, exists_eq_left'] at hx'
    obtain ⟨_, _, _, _, _, _, _, _, _, _, _, _, rfl⟩ := hx'
    rw [hx]
    obtain ⟨⟩ := j
    simp only [XJoint.toRaw, RawJoint.mk.injEq] at hr
    obtain ⟨rfl, rfl, rfl, rfl, rfl, rfl, rfl⟩ := hr
    rfl

theorem Prefix.unique {α : Type} {R : Elem → α → Prop} (hR : ∀ e a b, R e a → R e b → a = b) {es : List Elem} {as bs : List α}
    {w w' : Bool} (h : Prefix R es as w) (h' : Prefix R es bs w') : as = bs ∧ w = w' := by
  induction h generalizing bs w' with
  | nil => cases h'; exact ⟨rfl, rfl⟩
  | bad hn =>
    cases h' with
    | bad _ => exact ⟨rfl, rfl⟩
    | cons ha _ => exact absurd ⟨_, ha⟩ hn
  | cons ha _ ih =>
    cases h' with
    | bad hn => exact absurd ⟨_, ha⟩ hn
    | cons hb h2 =>
      obtain ⟨rfl, rfl⟩ := ih h2
      exact ⟨by rw [hR _ _ _ ha hb], rfl⟩

theorem visualSays_unique {e : Elem} {a b : Visual K} (ha : VisualSays num e a) (hb : VisualSays num e b) : a = b :=
  Option.some.inj ((parseVisual_iff.mpr ha).symm.trans (parseVisual_iff.mpr hb))

theorem collisionSays_unique {e : Elem} {a b : Collision K} (ha : CollisionSays num e a) (hb : CollisionSays num e b) : a = b :=
  Option.some.inj ((parseCollision_iff.mpr ha).symm.trans (parseCollision_iff.mpr hb))

/-- the shapes of a link element are determined -/
theorem linkShapes_unique {e : Elem} {vs vs' : List (Visual K)} {cs cs' : List (Collision K)} (h : LinkShapes num e vs cs)
    (h' : LinkShapes num e vs' cs') : vs = vs' ∧ cs = cs' := by
  have hv : ∀ e (a b : Visual K), VisualSays num e a → VisualSays num e b → a = b := fun _ _ _ => visualSays_unique
  have hc : ∀ e (a b : Collision K), CollisionSays num e a → CollisionSays num e b → a = b := fun _ _ _ => collisionSays_unique
  cases h with
  | nameless h1 =>
    cases h' with
    | nameless _ => exact ⟨rfl, rfl⟩
    | inertial h2 | visual h2 | collision h2 => rw [h1] at h2; cases h2
  | inertial h1 h2 h3 =>
    cases h' with
    | nameless h4 => rw [h1] at h4; cases h4
    | inertial _ _ _ => exact ⟨rfl, rfl⟩
    | visual _ h4 | collision _ h4 => exact absurd (h4 _ h2) h3
  | visual h1 h2 h3 =>
    cases h' with
    | nameless h4 => rw [h1] at h4; cases h4
    | inertial _ h4 h5 => exact absurd (h2 _ h4) h5
    | visual _ _ h4 => exact ⟨(Prefix.unique hv h3 h4).1, rfl⟩
    | collision _ _ h4 => exact Bool.noConfusion (Prefix.unique hv h3 h4).2
  | collision h1 h2 h3 h3' =>
    cases h' with
    | nameless h4 => rw [h1] at h4; cases h4
    | inertial _ h4 h5 => exact absurd (h2 _ h4) h5
    | visual _ _ h4 => exact Bool.noConfusion (Prefix.unique hv h3 h4).2
    | collision _ _ h4 h5 => exact ⟨(Prefix.unique hv h3 h4).1, (Prefix.unique hc h3' h5).1⟩

end Tinyfk
