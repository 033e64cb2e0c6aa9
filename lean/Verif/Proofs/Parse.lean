import Verif.Spec.Urdf
import Verif.Proofs.Words

/-!
# The parser reads what the elements say
-/

set_option linter.unusedSectionVars false
set_option linter.unusedSimpArgs false

namespace Tinyfk

variable {K : Type} [Scalar K] {num : String → Option K}

theorem length_of_mapM {α β : Type} {f : α → Option β} {l : List α} {r : List β} (h : l.mapM f = some r) :
    r.length = l.length := by
  induction l generalizing r with
  | nil => simp at h; simp [h]
  | cons a l ih =>
    simp only [List.mapM_cons, Option.bind_eq_bind, Option.bind_eq_some_iff, Option.pure_def, Option.some.injEq] at h
    obtain ⟨b, _, bs, h2, rfl⟩ := h
    simp [ih h2]

theorem mapM_num_three {ws : List String} {x y z : K} :
    ws.mapM num = some [x, y, z] ↔ ∃ a b c, ws = [a, b, c] ∧ num a = some x ∧ num b = some y ∧ num c = some z := by
  constructor
  · intro h
    have hl : ws.length = 3 := by
      have := length_of_mapM h
      simpa using this.symm
    match ws, hl with
    | [a, b, c], _ =>
      refine ⟨a, b, c, rfl, ?_⟩
      simp only [List.mapM_cons, List.mapM_nil] at h
      cases ha : num a <;> cases hb : num b <;> cases hc : num c <;> simp_all
  · rintro ⟨a, b, c, rfl, ha, hb, hc⟩
    simp [List.mapM_cons, List.mapM_nil, ha, hb, hc]

theorem parseVec_iff {s : String} {v : Vec3 K} : parseVec num s = some v ↔ VecSays num s v := by
  have key : parseVec num s = some v ↔
      ((wordsOf s.toList).map String.ofList).mapM num = some [v.x, v.y, v.z] := by
    unfold parseVec wordsOf
    constructor
    · intro h
      split at h
      · rename_i x y z e
        simp only [Option.some.injEq] at h
        rw [e, ← h]
      · cases h
    · intro h
      rw [h]
  rw [key, mapM_num_three]
  constructor
  · rintro ⟨a, b, c, h, ha, hb, hc⟩
    refine ⟨a, b, c, ?_, ha, hb, hc⟩
    rw [← wordsOf_three]
    have := congrArg (List.map String.toList) h
    simpa [Function.comp_def] using this
  · rintro ⟨a, b, c, h, ha, hb, hc⟩
    rw [← wordsOf_three] at h
    exact ⟨a, b, c, by rw [h]; simp, ha, hb, hc⟩

theorem optNum_iff {e : Elem} {k : String} {d x : K} : optNum num e k d = some x ↔ NumSays num e k (some d) x := by
  unfold optNum NumSays
  cases e.attr k <;> simp

theorem reqNum_iff {e : Elem} {k : String} {x : K} : reqNum num e k = some x ↔ NumSays num e k none x := by
  unfold reqNum NumSays
  cases e.attr k <;> simp

theorem parsePose_iff {e : Elem} {p : Pose K} : parsePose num e = (p, true) ↔ PoseSays num e p := by
  have two : PoseSays num e p ↔
      (((e.attr "xyz" = none ∧ p.position = ⟨0, 0, 0⟩) ∨ ∃ s, e.attr "xyz" = some s ∧ VecSays num s p.position) ∧
      ((e.attr "rpy" = none ∧ p.rotation = ⟨0, 0, 0, 1⟩) ∨
        ∃ s r, e.attr "rpy" = some s ∧ VecSays num s r ∧ p.rotation = Rot.fromRPY r.x r.y r.z)) :=
    ⟨fun h => ⟨h.xyz, h.rpy⟩, fun h => ⟨h.1, h.2⟩⟩
  rw [two]
  simp only [← parseVec_iff]
  obtain ⟨pp, pr⟩ := p
  unfold parsePose
  cases h1 : e.attr "xyz" with
  | none =>
    cases h2 : e.attr "rpy" with
    | none => simp only [Vec3.zero, Rot.one]; grind
    | some s => cases h3 : parseVec num s <;> simp only [h3, Vec3.zero, Rot.one] <;> grind
  | some s1 =>
    cases h4 : parseVec num s1 with
    | none => simp only [h4]; grind
    | some v =>
      cases h2 : e.attr "rpy" with
      | none => simp only [h4, Vec3.zero, Rot.one]; grind
      | some s => cases h3 : parseVec num s <;> simp only [h3, h4, Vec3.zero, Rot.one] <;> grind

theorem parseOrigin_iff {e : Elem} {p : Pose K} : parseOrigin num e = some p ↔ OriginSays num e p := by
  unfold parseOrigin OriginSays
  cases h : e.firstChild "origin" with
  | none => simp [Pose.identity, Vec3.zero, Rot.one, eq_comm]
  | some o =>
    simp only [Option.some.injEq, exists_eq_left', reduceCtorEq, false_and, false_or, ← parsePose_iff]
    rcases h2 : parsePose num o with ⟨q, _ | _⟩ <;> simp

theorem parseJointLimits_iff {e : Elem} {l : JointLimits K} : parseJointLimits num e = some l ↔ LimitsSays num e l := by
  have four : LimitsSays num e l ↔ (NumSays num e "lower" (some 0) l.lower ∧ NumSays num e "upper" (some 0) l.upper ∧
      NumSays num e "effort" none l.effort ∧ NumSays num e "velocity" none l.velocity) :=
    ⟨fun h => ⟨h.1, h.2, h.3, h.4⟩, fun h => ⟨h.1, h.2.1, h.2.2.1, h.2.2.2⟩⟩
  rw [four]
  simp only [← optNum_iff, ← reqNum_iff]
  obtain ⟨a, b, c, d⟩ := l
  unfold parseJointLimits
  cases optNum num e "lower" 0 <;> cases optNum num e "upper" 0 <;> cases reqNum num e "effort" <;>
    cases reqNum num e "velocity" <;> simp

theorem parseJointType_iff {s : String} {t : JointType} : parseJointType s = some t ↔ TypeSays s t := by
  constructor
  · intro h
    unfold parseJointType at h
    repeat' split at h
    all_goals (try subst_vars)
    all_goals (cases h)
    all_goals constructor
  · intro h
    cases h <;> simp [parseJointType]

theorem linkRef_iff {e : Elem} {tag n : String} : linkRef e tag = n ↔ LinkRefSays e tag n := by
  unfold linkRef LinkRefSays
  cases e.firstChild tag with
  | none => simp [eq_comm]
  | some c => cases h : c.attr "link" <;> simp [h, eq_comm]

theorem parseAxis_iff {e : Elem} {t : JointType} {v : Vec3 K} : parseAxis num t e = some v ↔ AxisSays num e t v := by
  unfold parseAxis
  by_cases h : t = .floating ∨ t = .fixed
  · rw [if_pos h]
    constructor
    · intro hv
      cases hv
      exact .none h
    · intro hv
      cases hv with
      | none _ => rfl
      | default h' => exact absurd h h'
      | empty h' => exact absurd h h'
      | given h' => exact absurd h h'
  · rw [if_neg h]
    constructor
    · intro hv
      split at hv
      · cases hv; exact .default h ‹_›
      · split at hv
        · cases hv; exact .empty h ‹_› ‹_›
        · exact .given h ‹_› ‹_› (parseVec_iff.mp hv)
    · intro hv
      cases hv with
      | none h' => exact absurd h' h
      | default _ h1 => rw [h1]
      | empty _ h1 h2 => simp only [h1, h2]; rfl
      | given _ h1 h2 h3 => simp only [h1, h2]; exact parseVec_iff.mpr h3

theorem parseLimit_iff {e : Elem} {t : JointType} {l : Option (JointLimits K)} : parseLimit num t e = some l ↔
    (∃ c l', e.firstChild "limit" = some c ∧ LimitsSays num c l' ∧ l = some l') ∨
    (e.firstChild "limit" = none ∧ l = none ∧ t ≠ .revolute ∧ t ≠ .prismatic) := by
  unfold parseLimit
  cases e.firstChild "limit" with
  | none =>
    by_cases h1 : t = .revolute
    · simp [h1]
    · by_cases h2 : t = .prismatic
      · simp [h2]
      · simp [h1, h2, eq_comm]
  | some c =>
    simp only [← parseJointLimits_iff]
    cases h : parseJointLimits num c <;> simp [h, eq_comm]

theorem isSome_optNum {e : Elem} {k : String} {d : K} : (optNum num e k d).isSome ↔ NumOk num e k := by
  unfold optNum NumOk
  cases e.attr k <;> simp

theorem isSome_reqNum {e : Elem} {k : String} : (reqNum num e k).isSome ↔ NumOk num e k ∧ (e.attr k).isSome := by
  unfold reqNum NumOk
  cases e.attr k <;> simp

theorem isSome_calNum {e : Elem} {k : String} : (calNum num e k).isSome ↔ NumOk num e k := by
  unfold calNum NumOk
  cases e.attr k <;> simp

theorem isSome_optChild {α : Type} {e : Elem} {tag : String} {p : Elem → Option α} :
    (optChild e tag p).isSome ↔ ∀ c, e.firstChild tag = some c → (p c).isSome := by
  unfold optChild
  cases e.firstChild tag <;> simp

theorem isSome_safety {c : Elem} : (parseJointSafety num c).isSome ↔ (∀ k ∈ ["soft_lower_limit", "soft_upper_limit",
    "k_position", "k_velocity"], NumOk num c k) ∧ (c.attr "k_velocity").isSome := by
  have h1 := isSome_optNum (num := num) (e := c) (k := "soft_lower_limit") (d := 0)
  have h2 := isSome_optNum (num := num) (e := c) (k := "soft_upper_limit") (d := 0)
  have h3 := isSome_optNum (num := num) (e := c) (k := "k_position") (d := 0)
  have h4 := isSome_reqNum (num := num) (e := c) (k := "k_velocity")
  simp only [List.mem_cons, List.not_mem_nil, or_false, forall_eq_or_imp, forall_eq, ← h1, ← h2, ← h3, and_assoc, ← h4]
  unfold parseJointSafety
  cases optNum num c "soft_lower_limit" 0 <;> cases optNum num c "soft_upper_limit" 0 <;>
    cases optNum num c "k_position" 0 <;> cases reqNum num c "k_velocity" <;> simp

theorem isSome_calibration {c : Elem} : (parseJointCalibration num c).isSome ↔
    ∀ k ∈ ["rising", "falling"], NumOk num c k := by
  simp only [List.mem_cons, List.not_mem_nil, or_false, forall_eq_or_imp, forall_eq, ← isSome_calNum]
  unfold parseJointCalibration
  cases calNum num c "rising" <;> cases calNum num c "falling" <;> simp

theorem isSome_mimic {c : Elem} : (parseJointMimic num c).isSome ↔
    (∀ k ∈ ["multiplier", "offset"], NumOk num c k) ∧ (c.attr "joint").isSome := by
  have h1 := isSome_optNum (num := num) (e := c) (k := "multiplier") (d := 1)
  have h2 := isSome_optNum (num := num) (e := c) (k := "offset") (d := 0)
  simp only [List.mem_cons, List.not_mem_nil, or_false, forall_eq_or_imp, forall_eq, ← h1, ← h2]
  unfold parseJointMimic
  cases c.attr "joint" <;> cases optNum num c "multiplier" 1 <;> cases optNum num c "offset" 0 <;> simp

theorem isSome_dynamics {c : Elem} : (parseJointDynamics num c).isSome ↔
    (∀ k ∈ ["damping", "friction"], NumOk num c k) ∧ ((c.attr "damping").isSome ∨ (c.attr "friction").isSome) := by
  have h1 := isSome_optNum (num := num) (e := c) (k := "damping") (d := 0)
  have h2 := isSome_optNum (num := num) (e := c) (k := "friction") (d := 0)
  simp only [List.mem_cons, List.not_mem_nil, or_false, forall_eq_or_imp, forall_eq, ← h1, ← h2]
  unfold parseJointDynamics
  cases optNum num c "damping" 0 <;> cases optNum num c "friction" 0 <;> cases c.attr "damping" <;>
    cases c.attr "friction" <;> simp

theorem extrasOk_iff {e : Elem} : ExtrasOk num e ↔ (optChild e "safety_controller" (parseJointSafety num)).isSome ∧
    (optChild e "calibration" (parseJointCalibration num)).isSome ∧
    (optChild e "mimic" (parseJointMimic num)).isSome ∧ (optChild e "dynamics" (parseJointDynamics num)).isSome := by
  simp only [isSome_optChild, isSome_safety, isSome_calibration, isSome_mimic, isSome_dynamics]
  exact ⟨fun h => ⟨h.1, h.2, h.3, h.4⟩, fun h => ⟨h.1, h.2.1, h.2.2.1, h.2.2.2⟩⟩

/-- The parser accepts a joint element iff it is well formed, and reads what it says. -/
theorem parseJoint_iff {e : Elem} {j : RawJoint K} :
    (∃ x, parseJoint num e = some x ∧ x.toRaw = j) ↔ JointSays num e j ∧ ExtrasOk num e := by
  have seven : JointSays num e j ↔ (e.attr "name" = some j.name ∧
      (∃ s, e.attr "type" = some s ∧ parseJointType s = some j.type) ∧ parseOrigin num e = some j.origin ∧
      linkRef e "parent" = j.parentLinkName ∧ linkRef e "child" = j.childLinkName ∧
      parseAxis num j.type e = some j.axis ∧ parseLimit num j.type e = some j.limits) := by
    simp only [parseJointType_iff, parseOrigin_iff, linkRef_iff, parseAxis_iff, parseLimit_iff]
    exact ⟨fun h => ⟨h.1, h.2, h.3, h.4, h.5, h.6, h.7⟩,
      fun h => ⟨h.1, h.2.1, h.2.2.1, h.2.2.2.1, h.2.2.2.2.1, h.2.2.2.2.2.1, h.2.2.2.2.2.2⟩⟩
  rw [seven, extrasOk_iff]
  obtain ⟨n, t, ax, o, p, c, l⟩ := j
  unfold parseJoint
  constructor
  · rintro ⟨x, h, hx⟩
    simp only [Option.bind_eq_bind, Option.bind_eq_some_iff, Option.some.injEq] at h
    obtain ⟨name, h1, origin, h2, ts, h3, ty, h4, axis, h5, lim, h6, s1, h7, s2, h8, s3, h9, s4, h10, rfl⟩ := h
    simp only [XJoint.toRaw, RawJoint.mk.injEq] at hx
    obtain ⟨rfl, rfl, rfl, rfl, rfl, rfl, rfl⟩ := hx
    exact ⟨⟨h1, ⟨ts, h3, h4⟩, h2, rfl, rfl, h5, h6⟩, by simp [h7], by simp [h8], by simp [h9], by simp [h10]⟩
  · rintro ⟨⟨h1, ⟨ts, h3, h4⟩, h2, rfl, rfl, h5, h6⟩, h7, h8, h9, h10⟩
    obtain ⟨a7, h7⟩ := Option.isSome_iff_exists.mp h7
    obtain ⟨a8, h8⟩ := Option.isSome_iff_exists.mp h8
    obtain ⟨a9, h9⟩ := Option.isSome_iff_exists.mp h9
    obtain ⟨a10, h10⟩ := Option.isSome_iff_exists.mp h10
    dsimp only at h1 h2 h3 h4 h5 h6
    exact ⟨⟨n, t, ax, o, linkRef e "parent", linkRef e "child", a10, l, a7, a8, a9⟩, by simp only [h1, h2, h3, h4, h5, h6, h7, h8, h9, h10, Option.bind_eq_bind, Option.bind_some], rfl⟩

theorem parseInertial_iff {e : Elem} {i : Inertial K} : parseInertial num e = (i, true) ↔ InertialSays num e i := by
  have o1 : inertialOrigin num e = (i.origin, true) ↔ OriginSays num e i.origin := by
    rw [← parseOrigin_iff]
    unfold parseOrigin inertialOrigin
    cases e.firstChild "origin" with
    | none => simp
    | some o => rcases h : parsePose num o with ⟨q, _ | _⟩ <;> simp [h]
  have m1 : (e.firstChild "mass").bind (fun m => reqNum num m "value") = some i.mass ↔
      ∃ c, e.firstChild "mass" = some c ∧ NumSays num c "value" none i.mass := by
    simp only [← reqNum_iff, Option.bind_eq_some_iff]
  constructor
  · intro h
    unfold parseInertial at h
    dsimp only at h
    by_cases h0 : (inertialOrigin num e).2 = true
    case neg => rw [if_neg h0] at h; cases h
    rw [if_pos h0] at h
    split at h
    · cases h
    rename_i mass hm
    split at h
    · cases h
    rename_i t ht
    split at h
    case h_2 => cases h
    rename_i a b c d f g hv
    simp only [Prod.mk.injEq, and_true] at h
    subst h
    refine ⟨o1.mp (Prod.ext rfl h0), m1.mp hm, t, ht, ?_⟩
    simp only [← reqNum_iff]
    simp only [List.mapM_cons, List.mapM_nil] at hv
    cases h1 : reqNum num t "ixx" <;> cases h2 : reqNum num t "ixy" <;> cases h3 : reqNum num t "ixz" <;>
      cases h4 : reqNum num t "iyy" <;> cases h5 : reqNum num t "iyz" <;> cases h6 : reqNum num t "izz" <;> simp_all
  · rintro ⟨h0, hm, t, ht, h1, h2, h3, h4, h5, h6⟩
    rw [← reqNum_iff] at h1 h2 h3 h4 h5 h6
    have h0 := o1.mpr h0
    have hm := m1.mpr hm
    unfold parseInertial
    simp only [h0, hm, ht, List.mapM_cons, List.mapM_nil, h1, h2, h3, h4, h5, h6]
    rfl

/-- name and inertial of a well formed link are read as written -/
theorem parseLink_of {e : Elem} {l : RawLink K} (h : LinkSays num e l) : (parseLink num e).1.toRaw = l := by
  obtain ⟨h1, h2⟩ := h
  obtain ⟨n, i⟩ := l
  dsimp only at h1 h2
  unfold parseLink
  rw [h1]
  dsimp only
  rcases h2 with ⟨h2, rfl⟩ | ⟨c, i', h2, h3, rfl⟩
  · rw [h2]
    simp only [if_true]
    split <;> rfl
  · rw [← parseInertial_iff] at h3
    rw [h2]
    simp only [h3, if_true]
    split <;> rfl

/-- what the parser keeps of any link element -/
theorem parseLink_raw (e : Elem) : (parseLink num e).1.toRaw = match e.attr "name" with
    | none => ⟨"", none⟩
    | some n => ⟨n, (e.firstChild "inertial").map fun i => (parseInertial num i).1⟩ := by
  unfold parseLink
  cases e.attr "name" with
  | none => rfl
  | some n =>
    dsimp only
    cases e.firstChild "inertial" with
    | none =>
      simp only [if_true]
      split <;> rfl
    | some i =>
      dsimp only
      split
      · split <;> rfl
      · rfl

end Tinyfk
