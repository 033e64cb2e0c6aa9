import Verif.Spec.RobotText
import Verif.Spec.RobotTable
import Verif.Proofs.ReadText
import Verif.Props.Number

/-!
# A checker for texts of robots

`checkRobot` compares a text with a table. It is evaluated by the kernel on the files in `data/`; `checkRobot_sound` says what it
proves.
-/

set_option linter.unusedSectionVars false

namespace Tinyfk.Chk

open LElem

/-- `strToDouble` on a list of characters -/
def toDouble {K : Type} (rnd : Bool → Nat → Int → Option K) (l : List Char) : Option K :=
  match (l.takeWhile (fun c => c != '\x00')).dropWhile isCSpace with
  | [] => none
  | t =>
    match convertToV rnd (extractFloat t).1 with
    | none => none
    | some v => if (extractFloat t).2 = [] then some v else none

/-- an ordinary number -/
def readDec (l : List Char) : Option Dec :=
  toDouble (fun a b c => if (⟨a, b, c⟩ : Dec).Ordinary then some ⟨a, b, c⟩ else none) l

section
variable {K : Type} [Scalar K]

theorem toDouble_eq {L : Type} (rnd : Bool → Nat → Int → Option L) (l : List Char) :
    toDouble rnd l = strToDouble rnd (String.ofList l) := by
  unfold toDouble strToDouble
  rw [String.toList_ofList]
  cases List.dropWhile isCSpace (List.takeWhile (fun c => c != '\x00') l) <;> rfl

variable {rnd : Bool → Nat → Int → Option K} {val : Dec → K} (hv : Reads rnd val)
include hv

theorem readDec_sound {l : List Char} {d : Dec} (h : readDec l = some d) :
    strToDouble rnd (String.ofList l) = some (val d) := by
  unfold readDec at h
  rw [toDouble_eq, C84_numbers] at h
  obtain ⟨t, a, M, E, h1, h2, h3⟩ := h
  split at h3
  · next ho =>
    cases h3
    exact (C84_numbers rnd _ _).mpr ⟨t, a, M, E, h1, h2, hv _ ho⟩
  · cases h3

end

/-- a space -/
def blank (c : Char) : Bool := c == ' '

/-- no space -/
def dark (c : Char) : Bool := c != ' '

/-- three words -/
def words3 (s : List Char) : Option (List Char × List Char × List Char) :=
  let s1 := s.dropWhile blank
  let s2 := (s1.dropWhile dark).dropWhile blank
  let s3 := (s2.dropWhile dark).dropWhile blank
  let a := s1.takeWhile dark
  let b := s2.takeWhile dark
  let c := s3.takeWhile dark
  if a = [] ∨ b = [] ∨ c = [] ∨ (s3.dropWhile dark).dropWhile blank ≠ [] ∨ (s1.dropWhile dark).takeWhile blank = [] ∨
    (s2.dropWhile dark).takeWhile blank = [] then none
  else some (a, b, c)

theorem blank_spaces (s : List Char) : Spaces (s.takeWhile blank) := by
  intro c hc
  simpa [blank] using mem_takeWhile hc

theorem dark_word (s : List Char) : ' ' ∉ s.takeWhile dark := by
  intro hc
  simpa [dark] using mem_takeWhile hc

theorem split_while (p : Char → Bool) (l : List Char) : l = l.takeWhile p ++ l.dropWhile p :=
  List.takeWhile_append_dropWhile.symm

theorem words3_sound {s a b c : List Char} (h : words3 s = some (a, b, c)) :
    ThreeWords (String.ofList s) (String.ofList a) (String.ofList b) (String.ofList c) := by
  unfold words3 at h
  simp only at h
  split at h
  · cases h
  next hne =>
  simp only [not_or, not_not, ne_eq] at hne
  obtain ⟨h1, h2, h3, h4, h5, h6⟩ := hne
  cases h
  have e0 := split_while blank s
  generalize s.dropWhile blank = s1 at *
  have e1 := split_while dark s1
  generalize s1.dropWhile dark = t1 at *
  have e2 := split_while blank t1
  generalize t1.dropWhile blank = s2 at *
  have e3 := split_while dark s2
  generalize s2.dropWhile dark = t2 at *
  have e4 := split_while blank t2
  generalize t2.dropWhile blank = s3 at *
  have e5 := split_while dark s3
  generalize s3.dropWhile dark = t3 at *
  have e6 := split_while blank t3
  rw [h4, List.append_nil] at e6
  refine ⟨?_, s.takeWhile blank, t1.takeWhile blank, t2.takeWhile blank, t3.takeWhile blank, blank_spaces _, blank_spaces _,
    blank_spaces _, blank_spaces _, h5, h6, ?_⟩
  · intro w hw
    simp only [List.mem_cons, List.not_mem_nil, or_false] at hw
    rcases hw with rfl | rfl | rfl <;> simp only [String.toList_ofList, h1, h2, h3, dark_word, not_false_iff, and_self, ne_eq]
  · simp only [String.toList_ofList]
    rw [← e6]
    simp only [List.append_assoc]
    rw [← e5, ← e4, ← e3, ← e2, ← e1, ← e0]

/-- a vector -/
def readVec (s : List Char) : Option (Vec3 Dec) :=
  match words3 s with
  | none => none
  | some (a, b, c) =>
    match readDec a, readDec b, readDec c with
    | some x, some y, some z => some ⟨x, y, z⟩
    | _, _, _ => none

/-- an optional vector -/
def readVec? : Option (List Char) → Option (Option (Vec3 Dec))
  | none => some none
  | some s => (readVec s).map some

/-- the `<origin>` child -/
def readOrigin (e : LElem) : Option (Option OriginRow) :=
  match e.firstChild (chars "origin") with
  | none => some none
  | some o =>
    match readVec? (o.attr (chars "xyz")), readVec? (o.attr (chars "rpy")) with
    | some x, some r => some (some ⟨x, r⟩)
    | _, _ => none

/-- a number -/
def readReq (e : LElem) (k : List Char) : Option Dec := (e.attr k).bind readDec

/-- an optional number -/
def readOpt (e : LElem) (k : List Char) : Option (Option Dec) :=
  match e.attr k with
  | none => some none
  | some s => (readDec s).map some

/-- the type of a joint -/
def readType (s : List Char) : Option JointType :=
  if s = chars "revolute" then some .revolute
  else if s = chars "continuous" then some .continuous
  else if s = chars "prismatic" then some .prismatic
  else if s = chars "fixed" then some .fixed
  else none

/-- the link of `<parent>` or `<child>` -/
def readRef (e : LElem) (t : List Char) : Option (List Char) := (e.firstChild t).bind fun c => c.attr (chars "link")

/-- the axis -/
def readAxis (e : LElem) : Option (Option (Vec3 Dec)) :=
  match e.firstChild (chars "axis") with
  | none => some none
  | some a => ((a.attr (chars "xyz")).bind readVec).map some

/-- the limits -/
def readLimit (e : LElem) (t : JointType) : Option (Option LimitRow) :=
  match e.firstChild (chars "limit") with
  | none => if t = .revolute ∨ t = .prismatic then none else some none
  | some l =>
    match readOpt l (chars "lower"), readOpt l (chars "upper"), readReq l (chars "effort"), readReq l (chars "velocity") with
    | some a, some b, some c, some d => some (some ⟨a, b, c, d⟩)
    | _, _, _, _ => none

/-- the elements that are not used -/
def extras (e : LElem) : Bool :=
  (match e.firstChild (chars "safety_controller") with
    | none => true
    | some c => (readOpt c (chars "soft_lower_limit")).isSome && (readOpt c (chars "soft_upper_limit")).isSome &&
        (readOpt c (chars "k_position")).isSome && (readReq c (chars "k_velocity")).isSome) &&
  (match e.firstChild (chars "calibration") with
    | none => true
    | some c => (readOpt c (chars "rising")).isSome && (readOpt c (chars "falling")).isSome) &&
  (match e.firstChild (chars "mimic") with
    | none => true
    | some c => (readOpt c (chars "multiplier")).isSome && (readOpt c (chars "offset")).isSome && (c.attr (chars "joint")).isSome) &&
  (match e.firstChild (chars "dynamics") with
    | none => true
    | some c => (readOpt c (chars "damping")).isSome && (readOpt c (chars "friction")).isSome &&
        ((c.attr (chars "damping")).isSome || (c.attr (chars "friction")).isSome))

/-- a joint -/
def readJoint (e : LElem) : Option JointRow :=
  match e.attr (chars "name"), (e.attr (chars "type")).bind readType, readRef e (chars "parent"), readRef e (chars "child"),
    readOrigin e, readAxis e with
  | some n, some t, some p, some c, some o, some a =>
    match readLimit e t with
    | some l => if extras e then some ⟨n, t, p, c, o, a, l⟩ else none
    | none => none
  | _, _, _, _, _, _ => none

/-- the `<inertial>` child of a link -/
def readInertial (e : LElem) : Option (Option InertialRow) :=
  match e.firstChild (chars "inertial") with
  | none => some none
  | some i =>
    match readOrigin i, (i.firstChild (chars "mass")).bind (readReq · (chars "value")), i.firstChild (chars "inertia") with
    | some o, some m, some t =>
      match readReq t (chars "ixx"), readReq t (chars "ixy"), readReq t (chars "ixz"), readReq t (chars "iyy"),
        readReq t (chars "iyz"), readReq t (chars "izz") with
      | some xx, some xy, some xz, some yy, some yz, some zz => some (some ⟨o, m, xx, xy, xz, yy, yz, zz⟩)
      | _, _, _, _, _, _ => none
    | _, _, _ => none

/-- a link -/
def readLink (e : LElem) : Option LinkRow :=
  match e.attr (chars "name"), readInertial e with
  | some n, some i => some ⟨n, i⟩
  | _, _ => none

section
variable {K : Type} [Scalar K] {rnd : Bool → Nat → Int → Option K} {val : Dec → K} (hv : Reads rnd val)
include hv

theorem readVec_sound {s : List Char} {v : Vec3 Dec} (h : readVec s = some v) :
    VecSays (strToDouble rnd) (String.ofList s) (decVec val v) := by
  unfold readVec at h
  split at h
  · cases h
  next a b c hw =>
  split at h
  · next x y z hx hy hz =>
    cases h
    exact ⟨_, _, _, words3_sound hw, readDec_sound hv hx, readDec_sound hv hy, readDec_sound hv hz⟩
  · cases h

theorem readReq_sound {e : LElem} {k : List Char} {d : Dec} (h : readReq e k = some d) (x : Option K) :
    NumSays (strToDouble rnd) e.elem (String.ofList k) x (val d) := by
  unfold readReq at h
  cases hs : e.attr k with
  | none => rw [hs] at h; cases h
  | some s =>
    rw [hs] at h
    exact .inr ⟨String.ofList s, by rw [elem_attr, hs]; rfl, readDec_sound hv h⟩

theorem readOpt_sound {e : LElem} {k : List Char} {d : Option Dec} (h : readOpt e k = some d) :
    NumSays (strToDouble rnd) e.elem (String.ofList k) (some 0) (decOr0 val d) := by
  unfold readOpt at h
  split at h
  · next hs => cases h; exact .inl ⟨by rw [elem_attr, hs]; rfl, rfl⟩
  · next s hs =>
    obtain ⟨x, hx, rfl⟩ := Option.map_eq_some_iff.mp h
    exact .inr ⟨String.ofList s, by rw [elem_attr, hs]; rfl, readDec_sound hv hx⟩

theorem readOpt_ok {e : LElem} {k : List Char} (h : (readOpt e k).isSome) : NumOk (strToDouble rnd) e.elem (String.ofList k) := by
  intro s hs
  rw [elem_attr] at hs
  obtain ⟨l, hl, rfl⟩ := Option.map_eq_some_iff.mp hs
  simp only [readOpt, hl, Option.isSome_map] at h
  obtain ⟨d, hd⟩ := Option.isSome_iff_exists.mp h
  rw [readDec_sound hv hd]; rfl

theorem readReq_ok {e : LElem} {k : List Char} (h : (readReq e k).isSome) :
    NumOk (strToDouble rnd) e.elem (String.ofList k) ∧ (e.elem.attr (String.ofList k)).isSome := by
  obtain ⟨d, hd⟩ := Option.isSome_iff_exists.mp h
  rcases readReq_sound hv hd none with ⟨_, h'⟩ | ⟨s, h1, h2⟩
  · cases h'
  · refine ⟨fun s' hs' => ?_, by rw [h1]; rfl⟩
    rw [h1] at hs'; cases hs'; rw [h2]; rfl

theorem readOrigin_sound {e : LElem} {o : Option OriginRow} (h : readOrigin e = some o) :
    OriginSays (strToDouble rnd) e.elem (originOf val o) := by
  unfold readOrigin at h
  split at h
  · next hf =>
    cases h
    exact .inl ⟨(elem_firstChild e (chars "origin")).trans (by rw [hf]; rfl), rfl⟩
  next c hc =>
  split at h
  case h_2 => cases h
  next x r hx hr =>
  cases h
  refine .inr ⟨c.elem, (elem_firstChild e (chars "origin")).trans (by rw [hc]; rfl), ⟨?_, ?_⟩⟩
  · cases ha : c.attr (chars "xyz") with
    | none =>
      rw [ha] at hx; cases hx
      exact .inl ⟨(elem_attr c (chars "xyz")).trans (by rw [ha]; rfl), rfl⟩
    | some s =>
      rw [ha] at hx
      obtain ⟨v, hv', rfl⟩ := Option.map_eq_some_iff.mp hx
      exact .inr ⟨_, (elem_attr c (chars "xyz")).trans (by rw [ha]; rfl), readVec_sound hv hv'⟩
  · cases ha : c.attr (chars "rpy") with
    | none =>
      rw [ha] at hr; cases hr
      exact .inl ⟨(elem_attr c (chars "rpy")).trans (by rw [ha]; rfl), rfl⟩
    | some s =>
      rw [ha] at hr
      obtain ⟨v, hv', rfl⟩ := Option.map_eq_some_iff.mp hr
      exact .inr ⟨_, _, (elem_attr c (chars "rpy")).trans (by rw [ha]; rfl), readVec_sound hv hv', rfl⟩

omit [Scalar K] hv in
theorem readType_sound {s : List Char} {t : JointType} (h : readType s = some t) : TypeSays (String.ofList s) t := by
  unfold readType at h
  split at h
  · next hs => cases h; rw [hs]; exact .revolute
  split at h
  · next hs => cases h; rw [hs]; exact .continuous
  split at h
  · next hs => cases h; rw [hs]; exact .prismatic
  split at h
  · next hs => cases h; rw [hs]; exact .fixed
  · cases h

omit [Scalar K] hv in
theorem readRef_sound {e : LElem} {t n : List Char} (h : readRef e t = some n) :
    LinkRefSays e.elem (String.ofList t) (String.ofList n) := by
  unfold readRef at h
  obtain ⟨c, hc, hn⟩ := Option.bind_eq_some_iff.mp h
  exact .inl ⟨c.elem, by rw [elem_firstChild, hc]; rfl, (elem_attr c (chars "link")).trans (by rw [hn]; rfl)⟩

theorem extras_sound {e : LElem} (h : extras e = true) : ExtrasOk (strToDouble rnd) e.elem := by
  unfold extras at h
  simp only [Bool.and_eq_true] at h
  obtain ⟨⟨⟨h1, h2⟩, h3⟩, h4⟩ := h
  refine ⟨?_, ?_, ?_, ?_⟩ <;> intro c hc
  · rw [show e.elem.firstChild "safety_controller" = _ from elem_firstChild e (chars "safety_controller")] at hc
    obtain ⟨l, hl, rfl⟩ := Option.map_eq_some_iff.mp hc
    rw [hl] at h1
    simp only [Bool.and_eq_true] at h1
    obtain ⟨⟨⟨a, b⟩, c⟩, d⟩ := h1
    refine ⟨?_, (readReq_ok hv d).2⟩
    intro k hk
    simp only [List.mem_cons, List.not_mem_nil, or_false] at hk
    rcases hk with rfl | rfl | rfl | rfl
    · exact readOpt_ok hv a
    · exact readOpt_ok hv b
    · exact readOpt_ok hv c
    · exact (readReq_ok hv d).1
  · rw [show e.elem.firstChild "calibration" = _ from elem_firstChild e (chars "calibration")] at hc
    obtain ⟨l, hl, rfl⟩ := Option.map_eq_some_iff.mp hc
    rw [hl] at h2
    simp only [Bool.and_eq_true] at h2
    intro k hk
    simp only [List.mem_cons, List.not_mem_nil, or_false] at hk
    rcases hk with rfl | rfl
    · exact readOpt_ok hv h2.1
    · exact readOpt_ok hv h2.2
  · rw [show e.elem.firstChild "mimic" = _ from elem_firstChild e (chars "mimic")] at hc
    obtain ⟨l, hl, rfl⟩ := Option.map_eq_some_iff.mp hc
    rw [hl] at h3
    simp only [Bool.and_eq_true] at h3
    obtain ⟨⟨a, b⟩, c⟩ := h3
    refine ⟨?_, by rw [show l.elem.attr "joint" = _ from elem_attr l (chars "joint"), Option.isSome_map]; exact c⟩
    intro k hk
    simp only [List.mem_cons, List.not_mem_nil, or_false] at hk
    rcases hk with rfl | rfl
    · exact readOpt_ok hv a
    · exact readOpt_ok hv b
  · rw [show e.elem.firstChild "dynamics" = _ from elem_firstChild e (chars "dynamics")] at hc
    obtain ⟨l, hl, rfl⟩ := Option.map_eq_some_iff.mp hc
    rw [hl] at h4
    simp only [Bool.and_eq_true, Bool.or_eq_true] at h4
    obtain ⟨⟨a, b⟩, c⟩ := h4
    refine ⟨?_, ?_⟩
    · intro k hk
      simp only [List.mem_cons, List.not_mem_nil, or_false] at hk
      rcases hk with rfl | rfl
      · exact readOpt_ok hv a
      · exact readOpt_ok hv b
    · rw [show l.elem.attr "damping" = _ from elem_attr l (chars "damping"), Option.isSome_map,
        show l.elem.attr "friction" = _ from elem_attr l (chars "friction"), Option.isSome_map]
      exact c

theorem readLimit_sound {e : LElem} {t : JointType} {l : Option LimitRow} (h : readLimit e t = some l) :
    (∃ c l', e.elem.firstChild "limit" = some c ∧ LimitsSays (strToDouble rnd) c l' ∧ l.map (LimitRow.limits val) = some l') ∨
    (e.elem.firstChild "limit" = none ∧ l.map (LimitRow.limits val) = none ∧ t ≠ .revolute ∧ t ≠ .prismatic) := by
  rw [show e.elem.firstChild "limit" = _ from elem_firstChild e (chars "limit")]
  unfold readLimit at h
  split at h
  · next hf =>
    split at h
    · cases h
    next ht =>
    cases h
    rw [hf]
    exact .inr ⟨rfl, rfl, fun e => ht (.inl e), fun e => ht (.inr e)⟩
  next c hc =>
  split at h
  case h_2 => cases h
  next a b x y ha hb hx hy =>
  cases h
  rw [hc]
  exact .inl ⟨_, _, rfl, ⟨readOpt_sound hv ha, readOpt_sound hv hb, readReq_sound hv hx none, readReq_sound hv hy none⟩, rfl⟩

theorem readAxis_sound {e : LElem} {t : JointType} {a : Option (Vec3 Dec)} (h : readAxis e = some a) :
    AxisSays (strToDouble rnd) e.elem t (if t = .floating ∨ t = .fixed then ⟨0, 0, 0⟩ else axisOf val a) := by
  by_cases ht : t = .floating ∨ t = .fixed
  · rw [if_pos ht]; exact .none ht
  rw [if_neg ht]
  unfold readAxis at h
  split at h
  · next hf =>
    cases h
    exact .default ht ((elem_firstChild e (chars "axis")).trans (by rw [hf]; rfl))
  next c hc =>
  obtain ⟨v, hv', rfl⟩ := Option.map_eq_some_iff.mp h
  obtain ⟨s, hs, hv'⟩ := Option.bind_eq_some_iff.mp hv'
  exact .given ht ((elem_firstChild e (chars "axis")).trans (by rw [hc]; rfl))
    ((elem_attr c (chars "xyz")).trans (by rw [hs]; rfl)) (readVec_sound hv hv')

theorem readJoint_sound {e : LElem} {j : JointRow} (h : readJoint e = some j) :
    JointSays (strToDouble rnd) e.elem (j.joint val) ∧ ExtrasOk (strToDouble rnd) e.elem := by
  unfold readJoint at h
  split at h
  case h_2 => cases h
  next n t p c o a hn ht hp hc ho ha =>
  split at h
  case h_2 => cases h
  next l hl =>
  split at h
  case isFalse => cases h
  next hx =>
  cases h
  obtain ⟨s, hs, ht⟩ := Option.bind_eq_some_iff.mp ht
  exact ⟨⟨(elem_attr e (chars "name")).trans (by rw [hn]; rfl),
    ⟨_, (elem_attr e (chars "type")).trans (by rw [hs]; rfl), readType_sound ht⟩, readOrigin_sound hv ho, readRef_sound hp,
    readRef_sound hc, readAxis_sound hv ha, readLimit_sound hv hl⟩, extras_sound hv hx⟩

theorem readLink_sound {e : LElem} {l : LinkRow} (h : readLink e = some l) : LinkSays (strToDouble rnd) e.elem (l.link val) := by
  unfold readLink at h
  split at h
  case h_2 => cases h
  next n i hn hi =>
  cases h
  refine ⟨(elem_attr e (chars "name")).trans (by rw [hn]; rfl), ?_⟩
  rw [show e.elem.firstChild "inertial" = _ from elem_firstChild e (chars "inertial")]
  unfold readInertial at hi
  split at hi
  · next hf => cases hi; rw [hf]; exact .inl ⟨rfl, rfl⟩
  next c hc =>
  split at hi
  case h_2 => cases hi
  next o m t ho hm ht =>
  split at hi
  case h_2 => cases hi
  next xx xy xz yy yz zz h1 h2 h3 h4 h5 h6 =>
  cases hi
  rw [hc]
  obtain ⟨cm, hcm, hm⟩ := Option.bind_eq_some_iff.mp hm
  exact .inr ⟨_, _, rfl, ⟨readOrigin_sound hv ho, ⟨cm.elem, (elem_firstChild c (chars "mass")).trans (by rw [hcm]; rfl),
    readReq_sound hv hm none⟩, ⟨t.elem, (elem_firstChild c (chars "inertia")).trans (by rw [ht]; rfl), readReq_sound hv h1 none,
    readReq_sound hv h2 none, readReq_sound hv h3 none, readReq_sound hv h4 none, readReq_sound hv h5 none,
    readReq_sound hv h6 none⟩⟩, rfl⟩

end

/-- every parent comes before its child in the list -/
def ordered (order : List (List Char)) (js : List JointRow) : Bool :=
  js.all fun j => decide (order.idxOf j.parent < order.idxOf j.child)

/-- the links and joints make a tree -/
def checkTree (order : List (List Char)) (root : List Char) (ls : List LinkRow) (js : List JointRow) : Bool :=
  let names := ls.map LinkRow.name
  decide names.Nodup && names.all (fun n => n != []) && decide (js.map JointRow.name).Nodup &&
  decide (js.map JointRow.child).Nodup && ordered order js &&
  js.all (fun j => names.contains j.parent && names.contains j.child) &&
  names.contains root && js.all (fun j => j.child != root) &&
  names.all (fun n => n == root || js.any fun j => j.child == n) &&
  js.all (fun j => j.type = .fixed ∨ j.type = .revolute ∨ j.type = .continuous ∨ j.type = .prismatic) &&
  ls.all (fun l => l.inertial.isNone || !names.contains (l.name ++ chars "_com"))

/-- the text is the robot of the table -/
def checkRobot (n : Nat) (t : List Char) (order : List (List Char)) (root : List Char) (ls : List LinkRow) (js : List JointRow) :
    Bool :=
  t.all (fun c => c != '\x00') &&
  (match readDoc n t with
    | none => false
    | some e => e.name == chars "robot" && (e.attr (chars "name")).isSome && (e.attr (chars "version")).isNone &&
      decide ((e.childrenNamed (chars "material")).map fun m => (m.attr (chars "name")).getD []).Nodup &&
      decide ((e.childrenNamed (chars "link")).map readLink = ls.map some) &&
      decide ((e.childrenNamed (chars "joint")).map readJoint = js.map some)) &&
  checkTree order root ls js

theorem nodup_ofList {l : List (List Char)} (h : l.Nodup) : (l.map String.ofList).Nodup :=
  h.map fun _ _ e => String.ofList_injective e

theorem mem_ofList {l : List (List Char)} {a : List Char} : String.ofList a ∈ l.map String.ofList ↔ a ∈ l := by
  refine ⟨fun h => ?_, fun h => List.mem_map_of_mem h⟩
  obtain ⟨b, hb, e⟩ := List.mem_map.mp h
  exact String.ofList_injective e ▸ hb

theorem forall₂_read {α β γ : Type} {f : LElem → Option α} {g : α → β} {k : LElem → γ} {R : γ → β → Prop}
    (hf : ∀ e a, f e = some a → R (k e) (g a)) {es : List LElem} {as : List α} (h : es.map f = as.map some) :
    List.Forall₂ R (es.map k) (as.map g) := by
  induction es generalizing as with
  | nil =>
    cases as with
    | nil => exact .nil
    | cons a as => simp at h
  | cons e es ih =>
    cases as with
    | nil => simp at h
    | cons a as =>
      simp only [List.map_cons, List.cons.injEq] at h
      exact .cons (hf _ _ h.1) (ih h.2)

section
variable {K : Type} [Scalar K] {rnd : Bool → Nat → Int → Option K} {val : Dec → K} (hv : Reads rnd val)
  {n : Nat} {t : List Char} {order : List (List Char)} {root : List Char} {ls : List LinkRow} {js : List JointRow}
include hv

/-- what the checker says is true -/
theorem checkRobot_sound (h : checkRobot n t order root ls js = true) :
    RobotText (strToDouble rnd) t (ls.map (LinkRow.link val)) (js.map (JointRow.joint val)) := by
  simp only [checkRobot, checkTree, Bool.and_eq_true, decide_eq_true_eq] at h
  obtain ⟨⟨h0, hd⟩, ⟨⟨⟨⟨⟨⟨⟨⟨⟨t1, t2⟩, t3⟩, t4⟩, t5⟩, t6⟩, t7⟩, t8⟩, t9⟩, t10⟩, t11⟩ := h
  have hn : (ls.map (LinkRow.link val)).map RawLink.name = (ls.map LinkRow.name).map String.ofList := by
    simp [LinkRow.link]
  have hp : ∀ f : RawJoint K → Prop, (∀ j ∈ js, f (j.joint val)) → ∀ j ∈ js.map (JointRow.joint val), f j := by
    intro f hf j hj
    obtain ⟨r, hr, rfl⟩ := List.mem_map.mp hj
    exact hf r hr
  have hc0 : ∀ j ∈ js, j.child ≠ root := fun j hj => by simpa using List.all_eq_true.mp t8 j hj
  refine ⟨?_, ?_, by rw [hn]; exact nodup_ofList t1, ?_, ?_, ?_, ?_, ⟨?_, ?_⟩, ?_, ?_⟩
  · intro hc
    simpa using List.all_eq_true.mp h0 _ hc
  · split at hd
    · cases hd
    next e he =>
    simp only [Bool.and_eq_true, decide_eq_true_eq, beq_iff_eq] at hd
    obtain ⟨⟨⟨⟨⟨d1, d2⟩, d3⟩, d4⟩, d5⟩, d6⟩ := hd
    refine ⟨e.elem, readDoc_sound he, ?_, ?_, .inl ?_, ?_, ?_, ?_⟩
    · rw [elem_name, d1]
    · rw [show e.elem.attr "name" = _ from elem_attr e (chars "name"), Option.isSome_map]; exact d2
    · rw [show e.elem.attr "version" = _ from elem_attr e (chars "version"), Option.isNone_iff_eq_none.mp d3]; rfl
    · rw [show e.elem.childrenNamed "material" = _ from elem_childrenNamed e (chars "material"), List.map_map]
      have := nodup_ofList d4
      rw [List.map_map] at this
      refine Eq.subst (motive := fun l : List String => l.Nodup) (List.map_congr_left fun m _ => ?_) this
      simp only [Function.comp_apply]
      rw [show m.elem.attr "name" = _ from elem_attr m (chars "name")]
      cases m.attr (chars "name") <;> rfl
    · rw [show e.elem.childrenNamed "link" = _ from elem_childrenNamed e (chars "link")]
      exact forall₂_read (fun _ _ h => readLink_sound hv h) d5
    · rw [show e.elem.childrenNamed "joint" = _ from elem_childrenNamed e (chars "joint")]
      exact forall₂_read (g := JointRow.joint val) (fun _ _ h => readJoint_sound hv h) d6
  · intro l hl
    obtain ⟨r, hr, rfl⟩ := List.mem_map.mp hl
    have := List.all_eq_true.mp t2 r.name (List.mem_map_of_mem hr)
    simp only [bne_iff_ne] at this
    exact fun e => this (String.ofList_injective e)
  · have : (js.map (JointRow.joint val)).map RawJoint.name = (js.map JointRow.name).map String.ofList := by
      simp [JointRow.joint]
    rw [this]; exact nodup_ofList t3
  · rw [hn]
    refine hp _ fun j hj => ?_
    have := List.all_eq_true.mp t6 j hj
    simp only [Bool.and_eq_true, List.contains_iff_mem] at this
    exact ⟨mem_ofList.mpr this.1, mem_ofList.mpr this.2⟩
  · rw [hn]
    refine ⟨String.ofList root, ⟨mem_ofList.mpr (by simpa using t7), hp _ fun j hj e => ?_⟩, ?_⟩
    · exact hc0 j hj (String.ofList_injective e)
    · rintro r ⟨hr, hr'⟩
      obtain ⟨x, hx, rfl⟩ := List.mem_map.mp hr
      have := List.all_eq_true.mp t9 x hx
      simp only [Bool.or_eq_true, beq_iff_eq, List.any_eq_true] at this
      rcases this with rfl | ⟨j, hj, rfl⟩
      · rfl
      · exact absurd rfl (hr' _ (List.mem_map_of_mem hj))
  · have : (js.map (JointRow.joint val)).map RawJoint.childLinkName = (js.map JointRow.child).map String.ofList := by
      simp [JointRow.joint]
    rw [this]; exact nodup_ofList t4
  · refine ⟨fun s => order.idxOf s.toList, hp _ fun j hj => ?_⟩
    have := List.all_eq_true.mp t5 j hj
    simpa [JointRow.joint] using this
  · refine hp _ fun j hj => ?_
    have := List.all_eq_true.mp t10 j hj
    simp only [decide_eq_true_eq] at this
    rcases this with h | h | h | h
    · exact .inl h
    · exact .inr (.inl h)
    · exact .inr (.inr (.inl h))
    · exact .inr (.inr (.inr h))
  · rw [hn]
    intro l hl hi
    obtain ⟨r, hr, rfl⟩ := List.mem_map.mp hl
    have := List.all_eq_true.mp t11 r hr
    have hi' : r.inertial.isSome := by simpa [LinkRow.link] using hi
    simp only [Bool.or_eq_true, Bool.not_eq_true', Option.isNone_iff_eq_none] at this
    rcases this with h | h
    · rw [h] at hi'; cases hi'
    · intro hm
      have e : (LinkRow.link val r).name ++ "_com" = String.ofList (r.name ++ chars "_com") := by
        rw [String.ofList_append]; rfl
      rw [e, mem_ofList] at hm
      rw [List.contains_iff_mem.mpr hm] at h
      cases h

end

end Tinyfk.Chk
