import Verif.Proofs.Number
import Verif.Props.EndToEnd
import Verif.Model.Real

/-!
# C84: which numbers are read, and as what
-/

namespace Tinyfk

section
variable {K : Type}

theorem takeWhile_ctext (s : List Char) : CText s (s.takeWhile fun c => c != '\x00') := by
  refine ⟨fun h => by simpa using mem_takeWhile _ h, ?_⟩
  induction s with
  | nil => exact .inl rfl
  | cons c s ih =>
    by_cases hc : c = '\x00'
    · exact .inr ⟨s, by simp [hc]⟩
    · have e : (c :: s).takeWhile (fun c => c != '\x00') = c :: s.takeWhile (fun c => c != '\x00') := by simp [hc]
      rw [e]
      rcases ih with h | ⟨r, h⟩
      · exact .inl (by rw [← h])
      · exact .inr ⟨r, by rw [List.cons_append, ← h]⟩

theorem CText.eq {s t : List Char} (h : CText s t) : t = s.takeWhile fun c => c != '\x00' := by
  obtain ⟨h1, rfl | ⟨r, rfl⟩⟩ := h
  · exact (takeWhile_all fun c hc => by simp; rintro rfl; exact h1 hc).symm
  · induction t with
    | nil => simp
    | cons c t ih =>
      have hc : c ≠ '\x00' := by rintro rfl; exact h1 (by simp)
      simp only [List.cons_append, List.takeWhile_cons, bne_iff_ne, ne_eq, hc, not_false_eq_true, if_true, List.cons.injEq,
        true_and]
      exact ih fun h => h1 (by simp [h])

/-- the white space at the beginning -/
theorem space_split (t : List Char) : ∃ ws, t = ws ++ t.dropWhile isCSpace ∧ ∀ c ∈ ws, isCSpace c = true :=
  ⟨t.takeWhile isCSpace, (List.takeWhile_append_dropWhile).symm, mem_takeWhile⟩

theorem signText_head {sg r : List Char} {neg : Bool} (h : SignText sg neg) (hr : ∀ c r', r = c :: r' → isCSpace c = false)
    (c : Char) (r' : List Char) (e : sg ++ r = c :: r') : isCSpace c = false := by
  cases h with
  | none => exact hr c r' e
  | plus => simp at e; rw [← e.1]; decide
  | minus => simp at e; rw [← e.1]; decide

/-- **C84.** Which attributes are read as numbers, and as which numbers: `strToDouble` returns a value iff the text up to the
first NUL is white space followed by a decimal number `±M·10^E` and nothing else, and that number can be rounded
to a finite `double`; the result is the rounded number. -/
theorem C84_numbers (rnd : Bool → Nat → Int → Option K) (s : String) (v : K) :
    strToDouble rnd s = some v ↔ ∃ t neg M E, CText s.toList t ∧ NumText t neg M E ∧ rnd neg M E = some v := by
  have hstd : strToDouble rnd s = some v ↔
      convertToV rnd (extractFloat ((s.toList.takeWhile fun c => c != '\x00').dropWhile isCSpace)).1 = some v ∧
        (extractFloat ((s.toList.takeWhile fun c => c != '\x00').dropWhile isCSpace)).2 = [] := by
    unfold strToDouble
    split
    · rename_i e
      rw [e]
      simp [extractFloat, skipZeros, floatLoop, convertToV, strtod, signOf, fracPart]
    · split
      · rename_i e; simp [e]
      · rename_i w e
        rw [e]
        split
        · rename_i e2; simp [e2]
        · rename_i e2; simp [e2]
  rw [hstd, convert_extract]
  constructor
  · rintro ⟨neg, M, E, hv, h⟩
    obtain ⟨ws, e, hw⟩ := space_split (s.toList.takeWhile fun c => c != '\x00')
    have hw' : ∀ c ∈ ws, c ∈ [' ', '\t', '\n', '\x0b', '\x0c', '\r'] := fun c hc => (isCSpace_iff c).mp (hw c hc)
    refine ⟨_, neg, M, E, takeWhile_ctext _, ?_, hv⟩
    rw [e]
    rcases h with ⟨sg, ip, ex, h, h1, h2, h3, h4, rfl⟩ | ⟨sg, ip, fp, ex, E', h, h1, h2, h3, h4, rfl, rfl⟩
    · rw [h]; exact .whole hw' h1 h2 h3 h4
    · rw [h]; exact .point hw' h1 h2 h3 h4
  · rintro ⟨t, neg, M, E, ht, hn, hv⟩
    rw [← ht.eq]
    refine ⟨neg, M, E, hv, ?_⟩
    cases hn with
    | @whole ws sg ip ex _ _ hw h1 h2 h3 h4 =>
      refine .inl ⟨sg, ip, ex, ?_, h1, h2, h3, h4, rfl⟩
      refine dropWhile_append_left (fun c hc => (isCSpace_iff c).mpr (hw c hc)) (signText_head h1 ?_)
      obtain ⟨a, ip', rfl⟩ := List.exists_cons_of_ne_nil h2
      intro c r' e
      simp at e
      rw [← e.1]
      exact not_space_of_digit (h3 a (by simp))
    | @point ws sg ip fp ex _ E' hw h1 h2 h3 h4 =>
      refine .inr ⟨sg, ip, fp, ex, E', ?_, h1, h2, h3, h4, rfl, rfl⟩
      refine dropWhile_append_left (fun c hc => (isCSpace_iff c).mpr (hw c hc)) (signText_head h1 ?_)
      intro c r' e
      cases ip with
      | nil => simp at e; rw [← e.1]; decide
      | cons a ip => simp at e; rw [← e.1]; exact not_space_of_digit (h3 a (by simp))

/-- an exponent ends in a digit -/
theorem ExpText.last {ex : List Char} {E : Int} (h : ExpText ex E) : ∀ c ∈ ex.getLast?, c.isDigit := by
  cases h with
  | none => simp
  | @some c sg ds neg hc hs hne hd =>
    rw [show c :: (sg ++ ds) = (c :: sg) ++ ds by simp, List.getLast?_append_of_ne_nil _ hne]
    intro a ha
    exact hd a (List.mem_of_getLast? ha)

/-- **C84: what follows the number is not ignored.** A text that ends in anything but a digit or a point is rejected: a
space, a line break, a unit, `f`, `%`, … -/
theorem C84_trailing (rnd : Bool → Nat → Int → Option K) (s : String) {c : Char} (h0 : '\x00' ∉ s.toList)
    (hl : s.toList.getLast? = some c) (hd : c.isDigit = false) (hp : c ≠ '.') : strToDouble rnd s = none := by
  rw [Option.eq_none_iff_forall_ne_some]
  intro v hv
  obtain ⟨t, neg, M, E, ht, hn, -⟩ := (C84_numbers rnd s v).mp hv
  have : t = s.toList := by
    rcases ht with ⟨-, h | ⟨r, h⟩⟩
    · exact h.symm
    · exact absurd (h ▸ by simp) h0
  subst this
  generalize s.toList = t at *
  have key : ∀ (a ds ex : List Char) (E : Int), ds ≠ [] → (∀ c ∈ ds, c.isDigit) → ExpText ex E → t = a ++ (ds ++ ex) → False := by
    intro a ds ex E hne hds hE e
    have hx := hE.last
    subst e
    cases ex with
    | nil =>
      rw [List.append_nil, List.getLast?_append_of_ne_nil _ hne] at hl
      rw [hds c (List.mem_of_getLast? hl)] at hd
      cases hd
    | cons x ex =>
      rw [← List.append_assoc, List.getLast?_append_of_ne_nil _ (by simp)] at hl
      rw [hx c hl] at hd
      cases hd
  cases hn with
  | @whole ws sg ip ex _ _ hw h1 h2 h3 h4 => exact key (ws ++ sg) ip ex E h2 h3 h4 (by simp)
  | @point ws sg ip fp ex _ E' hw h1 h2 h3 h4 =>
    by_cases hf : fp = []
    · subst hf
      have hx := h4.last
      cases ex with
      | nil =>
        rw [show ws ++ (sg ++ (ip ++ '.' :: ([] ++ []))) = (ws ++ (sg ++ ip)) ++ ['.'] by simp,
          List.getLast?_append_of_ne_nil _ (by simp)] at hl
        simp at hl
        exact hp hl.symm
      | cons x ex =>
        rw [show ws ++ (sg ++ (ip ++ '.' :: ([] ++ (x :: ex)))) = (ws ++ (sg ++ (ip ++ ['.']))) ++ (x :: ex) by simp,
          List.getLast?_append_of_ne_nil _ (by simp)] at hl
        rw [hx c hl] at hd
        cases hd
    · exact key (ws ++ (sg ++ (ip ++ ['.']))) fp ex E' hf (fun c hc => h3 c (by simp [hc])) h4 (by simp)

/-- the characters of a number -/
def NumChar (c : Char) : Prop := c.isDigit ∨ c ∈ ['+', '-', '.', 'e', 'E', ' ', '\t', '\n', '\x0b', '\x0c', '\r']

theorem SignText.chars {sg : List Char} {neg : Bool} (h : SignText sg neg) : ∀ c ∈ sg, NumChar c := by
  cases h <;> simp [NumChar]

theorem ExpText.chars {ex : List Char} {E : Int} (h : ExpText ex E) : ∀ c ∈ ex, NumChar c := by
  cases h with
  | none => simp
  | @some c sg ds neg hc hs hne hd =>
    intro a ha
    simp only [List.mem_cons, List.mem_append] at ha
    rcases ha with rfl | ha | ha
    · rcases hc with rfl | rfl <;> simp [NumChar]
    · exact hs.chars a ha
    · exact .inl (hd a ha)

/-- **C84: words are not numbers.** A text with any other character is rejected: `nan`, `inf`, hexadecimal numbers, `1,5`,
`pi/2`, `${…}`, … -/
theorem C84_alphabet (rnd : Bool → Nat → Int → Option K) (s : String) {c : Char} (h0 : '\x00' ∉ s.toList)
    (hc : c ∈ s.toList) (hn : ¬ NumChar c) : strToDouble rnd s = none := by
  rw [Option.eq_none_iff_forall_ne_some]
  intro v hv
  obtain ⟨t, neg, M, E, ht, hnt, -⟩ := (C84_numbers rnd s v).mp hv
  have : t = s.toList := by
    rcases ht with ⟨-, h | ⟨r, h⟩⟩
    · exact h.symm
    · exact absurd (h ▸ by simp) h0
  subst this
  apply hn
  generalize s.toList = t at *
  cases hnt with
  | @whole ws sg ip ex _ _ hw h1 h2 h3 h4 =>
    simp only [List.mem_append] at hc
    rcases hc with h | h | h | h
    · exact .inr (by have := hw c h; simp only [List.mem_cons] at this ⊢; tauto)
    · exact h1.chars c h
    · exact .inl (h3 c h)
    · exact h4.chars c h
  | @point ws sg ip fp ex _ E' hw h1 h2 h3 h4 =>
    simp only [List.mem_append, List.mem_cons] at hc
    rcases hc with h | h | h | rfl | h | h
    · exact .inr (by have := hw c h; simp only [List.mem_cons] at this ⊢; tauto)
    · exact h1.chars c h
    · exact .inl (h3 c (by simp [h]))
    · exact .inr (by simp)
    · exact .inl (h3 c (by simp [h]))
    · exact h4.chars c h

end

/-! ### At the reals -/

/-- no rounding: the number itself -/
noncomputable def exactReal (neg : Bool) (M : Nat) (E : Int) : Option ℝ := some ((if neg then -1 else 1) * M * (10 : ℝ) ^ E)

/-- **C84, without rounding.** The number read is `±M·10^E`. -/
theorem C84_value (s : String) (x : ℝ) : strToDouble exactReal s = some x ↔
    ∃ t neg M E, CText s.toList t ∧ NumText t neg M E ∧ x = (if neg then -1 else 1) * M * (10 : ℝ) ^ E := by
  rw [C84_numbers]
  simp only [exactReal, Option.some.injEq, eq_comm]

/-! ### In a robot description -/

section
variable {K : Type} [Scalar K] {num num' : String → Option K}

omit [Scalar K] in
theorem VecSays.mono (hm : ∀ s x, num s = some x → num' s = some x) {s : String} {v : Vec3 K} (h : VecSays num s v) :
    VecSays num' s v := by
  obtain ⟨a, b, c, h, h1, h2, h3⟩ := h
  exact ⟨a, b, c, h, hm _ _ h1, hm _ _ h2, hm _ _ h3⟩

omit [Scalar K] in
theorem NumSays.mono (hm : ∀ s x, num s = some x → num' s = some x) {e : Elem} {k : String} {d : Option K} {x : K}
    (h : NumSays num e k d x) : NumSays num' e k d x := by
  rcases h with h | ⟨s, h1, h2⟩
  · exact .inl h
  · exact .inr ⟨s, h1, hm _ _ h2⟩

omit [Scalar K] in
theorem NumOk.mono (hm : ∀ s x, num s = some x → num' s = some x) {e : Elem} {k : String} (h : NumOk num e k) :
    NumOk num' e k := by
  intro s hs
  obtain ⟨x, hx⟩ := Option.isSome_iff_exists.mp (h s hs)
  rw [hm _ _ hx]; rfl

theorem OriginSays.mono (hm : ∀ s x, num s = some x → num' s = some x) {e : Elem} {p : Pose K} (h : OriginSays num e p) :
    OriginSays num' e p := by
  rcases h with h | ⟨o, h1, ⟨h2, h3⟩⟩
  · exact .inl h
  · refine .inr ⟨o, h1, ⟨?_, ?_⟩⟩
    · exact h2.imp_right fun ⟨s, a, b⟩ => ⟨s, a, b.mono hm⟩
    · exact h3.imp_right fun ⟨s, r, a, b, c⟩ => ⟨s, r, a, b.mono hm, c⟩

theorem LinkSays.mono (hm : ∀ s x, num s = some x → num' s = some x) {e : Elem} {l : RawLink K} (h : LinkSays num e l) :
    LinkSays num' e l := by
  refine ⟨h.name, h.inertial.imp_right ?_⟩
  rintro ⟨c, i, h1, ⟨a, ⟨c1, b1, b2⟩, ⟨c2, d0, d1, d2, d3, d4, d5, d6⟩⟩, h3⟩
  exact ⟨c, i, h1, ⟨a.mono hm, ⟨c1, b1, b2.mono hm⟩, ⟨c2, d0, d1.mono hm, d2.mono hm, d3.mono hm, d4.mono hm, d5.mono hm,
    d6.mono hm⟩⟩, h3⟩

theorem AxisSays.mono (hm : ∀ s x, num s = some x → num' s = some x) {e : Elem} {t : JointType} {v : Vec3 K}
    (h : AxisSays num e t v) : AxisSays num' e t v := by
  cases h with
  | none h => exact .none h
  | default h1 h2 => exact .default h1 h2
  | empty h1 h2 h3 => exact .empty h1 h2 h3
  | given h1 h2 h3 h4 => exact .given h1 h2 h3 (h4.mono hm)

theorem JointSays.mono (hm : ∀ s x, num s = some x → num' s = some x) {e : Elem} {j : RawJoint K} (h : JointSays num e j) :
    JointSays num' e j := by
  refine ⟨h.name, h.type, h.origin.mono hm, h.parent, h.child, ?_, ?_⟩
  · exact h.axis.mono hm
  · refine h.limits.imp_left ?_
    rintro ⟨c, l, h1, ⟨a, b, d, f⟩, h3⟩
    exact ⟨c, l, h1, ⟨a.mono hm, b.mono hm, d.mono hm, f.mono hm⟩, h3⟩

omit [Scalar K] in
theorem ExtrasOk.mono (hm : ∀ s x, num s = some x → num' s = some x) {e : Elem} (h : ExtrasOk num e) : ExtrasOk num' e where
  safety c hc := ⟨fun k hk => ((h.safety c hc).1 k hk).mono hm, (h.safety c hc).2⟩
  calibration c hc k hk := (h.calibration c hc k hk).mono hm
  mimic c hc := ⟨fun k hk => ((h.mimic c hc).1 k hk).mono hm, (h.mimic c hc).2⟩
  dynamics c hc := ⟨fun k hk => ((h.dynamics c hc).1 k hk).mono hm, (h.dynamics c hc).2⟩

/-- a reader that reads more numbers reads the same robot -/
theorem RobotText.mono (hm : ∀ s x, num s = some x → num' s = some x) {t : List Char} {ls : List (RawLink K)}
    {js : List (RawJoint K)} (h : RobotText num t ls js) : RobotText num' t ls js := by
  refine ⟨h.noNul, ?_, h.linkNames, h.named, h.jointNames, h.ends, h.oneRoot, h.tree, h.supported, h.noClash⟩
  obtain ⟨e, h1, h2, h3, h4, h5, h6, h7⟩ := h.document
  exact ⟨e, h1, h2, h3, h4, h5, h6.imp fun _ _ h => h.mono hm, h7.imp fun _ _ h => ⟨h.1.mono hm, h.2.mono hm⟩⟩

end

namespace DocExample

/-- the reader of the code, with the sign, the digits and the power of ten instead of the rounded value -/
def parts : String → Option (Bool × Nat × Int) := strToDouble fun a b c => some (a, b, c)

-- some numbers
example : parts "1" = some (false, 1, 0) ∧ parts " -1.50e+3" = some (true, 150, 1) ∧ parts ".5" = some (false, 5, -1) ∧
    parts "007." = some (false, 7, 0) ∧ parts "\n+2E-2" = some (false, 2, -2) := by decide +kernel

-- and some texts that are not
example : parts "1 " = none ∧ parts "1e" = none ∧ parts "." = none ∧ parts "" = none ∧ parts "0x10" = none ∧ parts "nan" = none ∧
    parts "inf" = none ∧ parts "1.2.3" = none ∧ parts "1,5" = none ∧ parts "--1" = none ∧ parts "1\t2" = none := by decide +kernel

/-- "0" and "1" -/
theorem reads : ∀ (s : String) (x : ℝ), num s = some x → strToDouble exactReal s = some x := by
  intro s x h
  unfold num at h
  split at h
  · rename_i e
    subst e
    rw [C84_value]
    cases h
    exact ⟨_, false, 0, 0, ⟨by decide, .inl rfl⟩, .whole (ws := []) (sg := []) (ip := ['0']) (ex := []) (by simp) .none (by simp)
      (by decide) .none, by simp⟩
  · split at h
    · rename_i e
      subst e
      rw [C84_value]
      cases h
      exact ⟨_, false, 1, 0, ⟨by decide, .inl rfl⟩, .whole (ws := []) (sg := []) (ip := ['1']) (ex := []) (by simp) .none (by simp)
        (by decide) .none, by simp⟩
    · cases h

/-- the example document with the reader of the code: the hypothesis of C76 and of the theorems on documents -/
theorem robot_text_exact : RobotText (strToDouble exactReal) robotText [⟨"base", some inertial⟩, ⟨"arm", none⟩] [joint] :=
  robot_text.mono reads

example := C84_trailing exactReal "1.0 " (c := ' ') (by decide) (by decide) (by decide) (by decide)
example := C84_alphabet exactReal "nan" (c := 'n') (by decide) (by decide) (by unfold NumChar; decide)

end DocExample
end Tinyfk
