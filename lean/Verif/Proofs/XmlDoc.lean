import Verif.Proofs.XmlRef

/-!
# Well-formed XML texts are read as the elements they are
-/

set_option linter.unusedSimpArgs false
set_option linter.unusedVariables false

namespace Tinyfk

/-- where white space ends: a byte that is neither white space nor the start of a byte order mark -/
def Stop (p : List Char) : Prop := ∃ c cs, p = c :: cs ∧ isXmlSpace c = false ∧ c ≠ Char.ofNat 0xef

theorem isBom_of_ne {a b c : Char} (h : a ≠ Char.ofNat 0xef) : isBom a b c = false := by
  simp [isBom, h]

theorem skipLoop_space {enc : Enc} {c : Char} (hc : isXmlSpace c = true) (hn : c ≠ Char.ofNat 0xef) (l : List Char) :
    skipLoop enc (c :: l) = skipLoop enc l := by
  match l with
  | [] => simp [skipLoop, hc]
  | [b] =>
    conv => lhs; rw [skipLoop.eq_def]
    simp [hc]
  | b :: d :: l =>
    conv => lhs; rw [skipLoop.eq_def]
    simp [hc, isBom_of_ne hn]

theorem skipLoop_stop {enc : Enc} {p : List Char} (h : Stop p) : skipLoop enc p = p := by
  obtain ⟨c, cs, rfl, hc, hn⟩ := h
  match cs with
  | [] => simp [skipLoop, hc]
  | [b] => rw [skipLoop.eq_def]; simp [hc]
  | b :: d :: l => rw [skipLoop.eq_def]; simp [hc, isBom_of_ne hn]

theorem space_of {c : Char} (h : c = ' ' ∨ c = '\t' ∨ c = '\n' ∨ c = '\r' ∨ c = '\x0b' ∨ c = '\x0c') :
    isXmlSpace c = true ∧ c ≠ Char.ofNat 0xef := by
  rcases h with rfl | rfl | rfl | rfl | rfl | rfl <;> decide

theorem skipLoop_spaces {enc : Enc} {s p : List Char} (hs : XSpace s) (hp : Stop p) : skipLoop enc (s ++ p) = p := by
  induction s with
  | nil => exact skipLoop_stop hp
  | cons c s ih =>
    obtain ⟨h1, h2⟩ := space_of (hs c List.mem_cons_self)
    rw [List.cons_append, skipLoop_space h1 h2]
    exact ih fun d hd => hs d (List.mem_cons_of_mem _ hd)

theorem skipWhite_spaces {enc : Enc} {s p : List Char} (hs : XSpace s) (hp : Stop p) : skipWhite enc (some (s ++ p)) = some p := by
  have : ∃ c cs, s ++ p = c :: cs := by
    obtain ⟨c, cs, rfl, _⟩ := hp
    cases s with
    | nil => exact ⟨c, cs, rfl⟩
    | cons d s => exact ⟨d, _, rfl⟩
  obtain ⟨c, cs, e⟩ := this
  rw [e, skipWhite, ← e, skipLoop_spaces hs hp]

theorem skipWhite_stop {enc : Enc} {p : List Char} (hp : Stop p) : skipWhite enc (some p) = some p :=
  skipWhite_spaces (s := []) (by simp [XSpace]) hp

theorem Stop.of_lit {c : Char} (cs : List Char) (h : isXmlSpace c = false) (h2 : c ≠ Char.ofNat 0xef) : Stop (c :: cs) :=
  ⟨c, cs, rfl, h, h2⟩

theorem toNat_ne {c d : Char} (h : c.toNat ≠ d.toNat) : c ≠ d := fun e => h (by rw [e])

/-- a byte of a character beyond ASCII in a name -/
def HighByte (c : Char) : Prop := 128 ≤ c.toNat ∧ c ≠ Char.ofNat 0xef

/-- the first byte of a name -/
def StartByte (c : Char) : Prop := c.isAlpha = true ∨ c = '_' ∨ HighByte c

/-- a byte of a name -/
def NameByte (c : Char) : Prop := c.isAlphanum = true ∨ c = '_' ∨ c = '-' ∨ c = '.' ∨ c = ':' ∨ HighByte c

theorem StartByte.byte {c : Char} (h : StartByte c) : NameByte c := by
  rcases h with h | h | h
  · left; simp [Char.isAlphanum, h]
  · exact .inr (.inl h)
  · exact .inr (.inr (.inr (.inr (.inr h))))

theorem Foreign.bytes {c : Char} (h : Foreign c) : ∃ b bs, utf8 [c] = b :: bs ∧ HighByte b ∧ ∀ d ∈ bs, HighByte d := by
  obtain ⟨h1, h2⟩ := h
  have hc := char_lt c
  have hk : ∀ k, HighByte (Char.ofNat (0x80 + k % 0x40)) := by
    intro k
    refine ⟨by rw [byteOf_toNat (by omega)]; omega, toNat_ne ?_⟩
    rw [byteOf_toNat (by omega), byteOf_toNat (by omega)]
    omega
  have hb : ∀ k, 128 ≤ k → k < 256 → k ≠ 0xef → HighByte (Char.ofNat k) := by
    intro k h1 h2 h3
    refine ⟨by rw [byteOf_toNat h2]; omega, toNat_ne ?_⟩
    rw [byteOf_toNat h2, byteOf_toNat (by omega)]
    omega
  rw [utf8_one, toUtf8, if_neg (by omega)]
  split
  · exact ⟨_, _, rfl, hb _ (by omega) (by omega) (by omega), by simpa using hk _⟩
  split
  · exact ⟨_, _, rfl, hb _ (by omega) (by omega) (by omega), by simpa using ⟨hk _, hk _⟩⟩
  rw [if_pos (by omega)]
  exact ⟨_, _, rfl, hb _ (by omega) (by omega) (by omega), by simpa using ⟨hk _, hk _, hk _⟩⟩

theorem alnum_range {c : Char} (h : c.isAlphanum = true) : 48 ≤ c.toNat ∧ c.toNat < 123 := by
  simp only [Char.isAlphanum, Char.isAlpha, Char.isUpper, Char.isLower, Char.isDigit, Bool.or_eq_true, Bool.and_eq_true,
    decide_eq_true_eq, UInt32.le_iff_toNat_le, ge_iff_le] at h
  change ((65 ≤ c.toNat ∧ c.toNat ≤ 90) ∨ (97 ≤ c.toNat ∧ c.toNat ≤ 122)) ∨ (48 ≤ c.toNat ∧ c.toNat ≤ 57) at h
  omega

theorem NameChar.bytes {c : Char} (h : NameChar c) : ∀ d ∈ utf8 [c], NameByte d := by
  have one : c.toNat < 128 → NameByte c → ∀ d ∈ utf8 [c], NameByte d := by
    intro h1 h2 d hd
    rw [utf8_ascii h1, List.mem_singleton] at hd
    rwa [hd]
  rcases h with h | rfl | rfl | rfl | rfl | h
  · exact one (by have := alnum_range h; omega) (.inl h)
  iterate 4 exact one (by decide) (by simp [NameByte])
  · obtain ⟨b, bs, e, h1, h2⟩ := h.bytes
    rw [e]
    intro d hd
    rcases List.mem_cons.mp hd with rfl | hd
    · exact .inr (.inr (.inr (.inr (.inr h1))))
    · exact .inr (.inr (.inr (.inr (.inr (h2 d hd)))))

theorem NameStart.bytes {c : Char} (h : NameStart c) : ∃ b bs, utf8 [c] = b :: bs ∧ StartByte b ∧ ∀ d ∈ bs, NameByte d := by
  rcases h with h | rfl | h
  · exact ⟨c, [], utf8_ascii (by have := @alnum_range c (by simp [Char.isAlphanum, h]); omega), .inl h, by simp⟩
  · exact ⟨'_', [], utf8_ascii (by decide), .inr (.inl rfl), by simp⟩
  · obtain ⟨b, bs, e, h1, h2⟩ := h.bytes
    exact ⟨b, bs, e, .inr (.inr h1), fun d hd => .inr (.inr (.inr (.inr (.inr (h2 d hd)))))⟩

/-- the bytes of a name -/
theorem XName.bytes {n : List Char} (h : XName n) : ∃ c cs, n = c :: cs ∧ StartByte c ∧ ∀ d ∈ cs, NameByte d := by
  obtain ⟨c, cs, rfl, hc, hcs⟩ := h
  obtain ⟨b, bs, e, h1, h2⟩ := hc.bytes
  refine ⟨b, bs ++ utf8 cs, ?_, h1, ?_⟩
  · rw [← List.cons_append, ← e]
    simp [utf8]
  · intro d hd
    rcases List.mem_append.mp hd with hd | hd
    · exact h2 d hd
    · unfold utf8 at hd
      obtain ⟨x, hx, hd⟩ := List.mem_flatMap.mp hd
      exact (hcs x hx).bytes d (by simpa [utf8] using hd)

/-- a name of ASCII characters -/
theorem XName.of_ascii {c : Char} {cs : List Char} (hc : c.isAlpha = true ∨ c = '_')
    (hcs : ∀ d ∈ cs, d.isAlphanum = true ∨ d = '_' ∨ d = '-' ∨ d = '.' ∨ d = ':') : XName (c :: cs) := by
  have ha : ∀ d ∈ c :: cs, d.toNat < 128 := by
    intro d hd
    rcases List.mem_cons.mp hd with rfl | hd
    · rcases hc with h | rfl
      · have := @alnum_range d (by simp [Char.isAlphanum, h]); omega
      · decide
    · rcases hcs d hd with h | rfl | rfl | rfl | rfl
      · have := alnum_range h; omega
      all_goals decide
  refine ⟨c, cs, ?_, hc.imp id .inl, fun d hd => ?_⟩
  · generalize c :: cs = l at ha
    induction l with
    | nil => rfl
    | cons d l ih =>
      have h1 := utf8_ascii (ha d List.mem_cons_self)
      have h2 := ih fun x hx => ha x (List.mem_cons_of_mem _ hx)
      have : utf8 (d :: l) = utf8 [d] ++ utf8 l := by simp [utf8]
      rw [this, h1, ← h2]
      rfl
  · rcases hcs d hd with h | h | h | h | h <;> simp [NameChar, h]

theorem XName.bytes_all {n : List Char} (h : XName n) : ∀ c ∈ n, NameByte c := by
  obtain ⟨c, cs, rfl, hc, hcs⟩ := h.bytes
  intro d hd
  rcases List.mem_cons.mp hd with rfl | hd
  · exact hc.byte
  · exact hcs d hd

theorem alpha_facts {c : Char} (h : StartByte c) : isXmlAlpha c = true ∨ c = '_' := by
  rcases h with h | h | ⟨h, -⟩
  · left; simp [isXmlAlpha, h]
  · exact .inr h
  · left
    simp only [isXmlAlpha, Bool.or_eq_true, decide_eq_true_eq]
    left; omega

theorem alpha_range {c : Char} (h : c.isAlpha = true ∨ c = '_') : 65 ≤ c.toNat ∧ c.toNat < 127 := by
  rcases h with h | rfl
  · simp only [Char.isAlpha, Char.isUpper, Char.isLower, Bool.or_eq_true, Bool.and_eq_true, decide_eq_true_eq] at h
    have hv : c.toNat = c.val.toNat := rfl
    rcases h with ⟨h1, h2⟩ | ⟨h1, h2⟩ <;>
    · simp only [UInt32.le_iff_toNat_le] at h1 h2
      simp at h1 h2
      omega
  · decide

theorem ofNat_ef : (Char.ofNat 0xef).toNat = 0xef := by decide

theorem not_space_of_range {c : Char} (h : 33 ≤ c.toNat) : isXmlSpace c = false := by
  have : ∀ d : Char, d.toNat < 33 → c ≠ d := fun d hd e => by rw [e] at h; omega
  simp [isXmlSpace, this ' ' (by decide), this '\t' (by decide), this '\n' (by decide), this '\x0b' (by decide),
    this '\x0c' (by decide), this '\r' (by decide)]

theorem StartByte.range {c : Char} (h : StartByte c) : 65 ≤ c.toNat := by
  rcases h with h | h | ⟨h, -⟩
  · exact (alpha_range (.inl h)).1
  · exact (alpha_range (.inr h)).1
  · omega

theorem stop_of_alpha {c : Char} (h : StartByte c) (cs : List Char) : Stop (c :: cs) := by
  refine ⟨c, cs, rfl, not_space_of_range (by have := h.range; omega), ?_⟩
  rcases h with h | h | ⟨-, h⟩
  · refine toNat_ne ?_
    rw [ofNat_ef]
    have := alpha_range (.inl h)
    omega
  · refine toNat_ne ?_
    rw [ofNat_ef]
    have := alpha_range (.inr h)
    omega
  · exact h

theorem XName.stop {n : List Char} (h : XName n) (r : List Char) : Stop (n ++ r) := by
  obtain ⟨c, cs, rfl, hc, _⟩ := h.bytes
  exact stop_of_alpha hc _

theorem nameChar_of {d : Char} (h : NameByte d) : isNameChar d = true := by
  unfold NameByte HighByte at h
  simp only [isNameChar, isXmlAlphaNum, Bool.or_eq_true, decide_eq_true_eq]
  grind

theorem readName_of {n r : List Char} (h : XName n) (hr : ∃ c cs, r = c :: cs ∧ isNameChar c = false) :
    readName (some (n ++ r)) = some (n, r) := by
  obtain ⟨c, cs, rfl, hc, hcs⟩ := h.bytes
  obtain ⟨d, ds, rfl, hd⟩ := hr
  have hall : ∀ x ∈ c :: cs, isNameChar x = true := by
    intro x hx
    rcases List.mem_cons.mp hx with rfl | hx
    · exact nameChar_of hc.byte
    · exact nameChar_of (hcs x hx)
  have h1 : (isXmlAlpha c || decide (c = '_')) = true := by
    rcases alpha_facts hc with h | h <;> simp [h]
  simp only [List.cons_append, readName, h1, if_true]
  rw [← List.cons_append, List.takeWhile_append_of_pos hall, List.dropWhile_append_of_pos hall,
    List.takeWhile_cons_of_neg (by simp [hd]), List.dropWhile_cons_of_neg (by simp [hd]), List.append_nil]

theorem charLen_ascii {enc : Enc} {c : Char} (h : c.toNat < 128) : charLen enc c = 1 := by
  unfold charLen utf8Len
  split
  · rw [if_pos (by omega)]
  · rfl

theorem getChar_plain {enc : Enc} {c : Char} (h : c ≠ '&') (ha : c.toNat < 128) (cs : List Char) :
    getChar enc c cs = pure (some ([c], cs)) := by
  unfold getChar
  rw [if_pos (charLen_ascii ha), if_neg h]

/-- a byte of a longer sequence, when the encoding is not known to be UTF-8 -/
theorem getChar_byte {enc : Enc} (he : enc ≠ .utf8) {c : Char} (h : 128 ≤ c.toNat) (cs : List Char) :
    getChar enc c cs = pure (some ([c], cs)) := by
  unfold getChar
  have : c ≠ '&' := by rintro rfl; revert h; decide
  rw [if_pos (by simp [charLen, he]), if_neg this]

/-- a sequence of several bytes -/
theorem getChar_multi {b : Char} {bs : List Char} (h : utf8Len b = bs.length + 1) (hb : bs ≠ []) (r : List Char) :
    getChar .utf8 b (bs ++ r) = pure (some (b :: bs, r)) := by
  have hl : charLen .utf8 b = bs.length + 1 := by simp [charLen, h]
  have : 0 < bs.length := List.length_pos_iff.mpr hb
  unfold getChar
  rw [hl, if_neg (by omega), if_neg (by simp)]
  have e1 : (b :: (bs ++ r)).take (bs.length + 1) = b :: bs := by simp
  have e2 : (b :: (bs ++ r)).drop (bs.length + 1) = r := by simp
  rw [e1, e2]

theorem getChar_entity {enc : Enc} {e : List Char} {c : Char} (h : EntityText e c) (hu : enc = .utf8 ∨ c.toNat < 128) (r : List Char) :
    ∃ cs, e ++ r = '&' :: cs ∧ getChar enc '&' cs = pure (some (utf8 [c], r)) := by
  obtain ⟨cs, e1, e2⟩ := h.parse r
  refine ⟨cs, e1, ?_⟩
  unfold getChar
  rw [if_pos (charLen_ascii (by decide)), if_pos rfl, e2 enc]
  split
  · rename_i hc
    rw [utf8_ascii hc]
  · rw [refBytes_of hu]

/-- reading a value from before a character -/
theorem readText_char {enc : Enc} {q : Char} (hq : q.toNat < 128) {c : Char} (hp : Plain c) (hc : c ≠ q) {l : List Char}
    {o : Option (List Char × List Char)} (h : readText enc q l = pure o) :
    readText enc q (utf8 [c] ++ l) = pure (o.map fun w => (utf8 [c] ++ w.1, w.2)) := by
  by_cases ha : c.toNat < 128
  · rw [utf8_ascii ha, List.cons_append, List.nil_append, readText.eq_def]
    simp only [if_neg hc, getChar_plain hp.1 ha, pure_bind, h]
    cases o <;> rfl
  obtain ⟨b, bs, e, hb, hbs, hcont, hlen⟩ := utf8_multi (c := c) (by omega)
  rw [e]
  by_cases henc : enc = .utf8
  · subst henc
    have hbq : b ≠ q := by rintro rfl; omega
    rw [List.cons_append, readText.eq_def]
    simp only [if_neg hbq, getChar_multi hlen hbs, pure_bind, h]
    cases o <;> rfl
  · have key : ∀ bs : List Char, (∀ x ∈ bs, 128 ≤ x.toNat) →
        readText enc q (bs ++ l) = pure (o.map fun w => (bs ++ w.1, w.2)) := by
      intro bs
      induction bs with
      | nil => intro _; simpa using h
      | cons x bs ih =>
        intro hx
        have hxq : x ≠ q := by rintro rfl; have := hx x List.mem_cons_self; omega
        rw [List.cons_append, readText.eq_def]
        simp only [if_neg hxq, getChar_byte henc (hx x List.mem_cons_self), pure_bind,
          ih fun y hy => hx y (List.mem_cons_of_mem _ hy)]
        cases o <;> rfl
    refine key (b :: bs) ?_
    intro x hx
    rcases List.mem_cons.mp hx with rfl | hx
    · omega
    · exact (hcont x hx).1

theorem readText_entity {enc : Enc} {q : Char} (hq : q = '"' ∨ q = '\'') {e : List Char} {c : Char} (he : EntityText e c)
    (hu : enc = .utf8 ∨ c.toNat < 128) {l : List Char} {o : Option (List Char × List Char)} (h : readText enc q l = pure o) :
    readText enc q (e ++ l) = pure (o.map fun w => (utf8 [c] ++ w.1, w.2)) := by
  obtain ⟨cs, e1, e2⟩ := getChar_entity (enc := enc) he hu l
  rw [e1, readText.eq_def]
  have : ('&' : Char) ≠ q := by rcases hq with rfl | rfl <;> decide
  simp only [if_neg this, e2, pure_bind, h]
  cases o <;> rfl

theorem quote_ascii {q : Char} (hq : q = '"' ∨ q = '\'') : q.toNat < 128 := by rcases hq with rfl | rfl <;> decide

theorem or_utf8 {u : Bool} {enc : Enc} (hu : u = true → enc = .utf8) {c : Char} (h : u = true ∨ c.toNat < 128) :
    enc = .utf8 ∨ c.toNat < 128 := h.imp_left hu

theorem readText_of {u : Bool} {enc : Enc} (hu : u = true → enc = .utf8) {q : Char} (hq : q = '"' ∨ q = '\'') {t v : List Char}
    (h : ValueText u q t v) {r : List Char} (hr : r ≠ []) : readText enc q (t ++ q :: r) = pure (some (v, r)) := by
  induction h with
  | nil =>
    rw [List.nil_append, readText.eq_def]
    simp [hr]
  | char hp hc _ ih =>
    rw [List.append_assoc, readText_char (quote_ascii hq) hp hc ih]
    rfl
  | @entity e c t v he hc _ ih =>
    rw [List.append_assoc, readText_entity hq he (or_utf8 hu hc) ih]
    rfl

theorem value_no_nul {u : Bool} {q : Char} {t v : List Char} (h : ValueText u q t v) : ∀ c ∈ v, c ≠ '\x00' := by
  induction h with
  | nil => simp
  | char hp _ _ ih =>
    intro x hx
    rcases List.mem_append.mp hx with hx | hx
    · exact utf8_no_nul hp.2.2 x hx
    · exact ih x hx
  | entity he _ _ ih =>
    intro x hx
    rcases List.mem_append.mp hx with hx | hx
    · exact utf8_no_nul he.ne_nul x hx
    · exact ih x hx

theorem cString_of {v : List Char} (h : ∀ c ∈ v, c ≠ '\x00') : cString v = String.ofList v := by
  unfold cString
  rw [← List.append_nil v, List.takeWhile_append_of_pos]
  · simp
  · intro c hc
    simpa using h c hc

theorem eq_stop (cs : List Char) : Stop ('=' :: cs) := .of_lit _ (by decide) (by decide)

theorem notName_space {s : List Char} (hs : XSpace s) {c : Char} (hc : isNameChar c = false) (cs : List Char) :
    ∃ d ds, s ++ c :: cs = d :: ds ∧ isNameChar d = false := by
  cases s with
  | nil => exact ⟨c, cs, rfl, hc⟩
  | cons d s =>
    refine ⟨d, _, rfl, ?_⟩
    rcases hs d List.mem_cons_self with rfl | rfl | rfl | rfl | rfl | rfl <;> decide

theorem parseAttr_of {u : Bool} {enc : Enc} (hu : u = true → enc = .utf8) {k s2 s3 t v r : List Char} {q : Char} (hk : XName k) (h2 : XSpace s2) (h3 : XSpace s3)
    (hq : q = '"' ∨ q = '\'') (hv : ValueText u q t v) (hr : r ≠ []) :
    parseAttr enc (k ++ (s2 ++ '=' :: (s3 ++ q :: (t ++ q :: r)))) = pure (some ((String.ofList k, String.ofList v), r)) := by
  unfold parseAttr
  rw [skipWhite_stop (hk.stop _), readName_of hk (notName_space h2 (by decide) _)]
  dsimp only
  rw [skipWhite_spaces h2 (eq_stop _)]
  have : Stop (q :: (t ++ q :: r)) := by rcases hq with rfl | rfl <;> exact .of_lit _ (by decide) (by decide)
  simp only []
  rw [skipWhite_spaces h3 this]
  have hq' : (decide (q = '\'') || decide (q = '"')) = true := by rcases hq with rfl | rfl <;> decide
  simp only [hq', if_true, readText_of hu hq hv hr, pure_bind, cString_of (value_no_nul hv)]

/-- the two ends of a start tag -/
def TagEnd (e : List Char) (b : Bool) : Prop := (e = ['/', '>'] ∧ b = true) ∨ (e = ['>'] ∧ b = false)

theorem XName.first {n : List Char} (h : XName n) : ∃ c cs, n = c :: cs ∧ StartByte c := by
  obtain ⟨c, cs, e, hc, _⟩ := h.bytes
  exact ⟨c, cs, e, hc⟩

theorem parseAttrs_of {u : Bool} {enc : Enc} (hu : u = true → enc = .utf8) {a : List Char} {as : List (String × String)}
    (h : AttrsText u a as) {s e r : List Char} {b : Bool}
    (hs : XSpace s) (he : TagEnd e b) (acc : List (String × String)) (hn : ((acc ++ as).map Prod.fst).Nodup) :
    parseAttrs enc acc (a ++ (s ++ (e ++ r))) = pure (some (acc ++ as, b, r)) := by
  induction h generalizing acc with
  | nil =>
    rw [List.nil_append, parseAttrs.eq_def]
    rcases he with ⟨rfl, rfl⟩ | ⟨rfl, rfl⟩
    · rw [skipWhite_spaces hs (p := ['/', '>'] ++ r) (.of_lit _ (by decide) (by decide))]
      simp
    · rw [skipWhite_spaces hs (p := ['>'] ++ r) (.of_lit _ (by decide) (by decide))]
      simp
  | @cons s1 k s2 s3 q t v rest as h1 h1' hk h2 h3 hq hv hrest ih =>
    rw [parseAttrs.eq_def]
    have e1 : s1 ++ (k ++ (s2 ++ '=' :: (s3 ++ q :: (t ++ q :: rest)))) ++ (s ++ (e ++ r)) =
        s1 ++ (k ++ (s2 ++ '=' :: (s3 ++ q :: (t ++ q :: (rest ++ (s ++ (e ++ r))))))) := by simp [List.append_assoc]
    rw [e1, skipWhite_spaces h1 (hk.stop _)]
    have hne : rest ++ (s ++ (e ++ r)) ≠ [] := by
      rcases he with ⟨rfl, _⟩ | ⟨rfl, _⟩ <;> simp
    have hp := parseAttr_of hu hk h2 h3 hq hv hne
    obtain ⟨c, cs, rfl, hc⟩ := hk.first
    have hr := hc.range
    have n1 : c ≠ '/' := toNat_ne (by simp; omega)
    have n2 : c ≠ '>' := toNat_ne (by simp; omega)
    rw [List.cons_append] at hp ⊢
    dsimp only
    rw [if_neg n1, if_neg n2, hp]
    simp only [pure_bind, if_neg hne]
    have hany : (acc.any fun b => b.1 == String.ofList (c :: cs)) = false := by
      rw [List.any_eq_false]
      intro x hx
      rw [List.map_append, List.nodup_append] at hn
      have := hn.2.2 x.1 (List.mem_map_of_mem hx) (String.ofList (c :: cs)) (by simp)
      simpa using this
    rw [hany]
    simp only [Bool.false_eq_true, if_false]
    have := ih (acc ++ [(String.ofList (c :: cs), String.ofList v)]) (by simpa using hn)
    simpa using this

theorem afterPattern_comment {b : List Char} (hb : ¬ ['-', '-'] <:+: b ++ ['-']) (r : List Char) :
    afterPattern ['-', '-', '>'] (b ++ '-' :: '-' :: '>' :: r) = some r := by
  induction b with
  | nil => simp [afterPattern, List.isPrefixOf]
  | cons c b ih =>
    have hb' : ¬ ['-', '-'] <:+: b ++ ['-'] := fun h => hb (h.trans (List.infix_cons (List.infix_refl _)))
    rw [List.cons_append, afterPattern, if_neg, ih hb']
    intro hp
    apply hb
    cases b with
    | nil =>
      simp [List.isPrefixOf] at hp
    | cons d b =>
      simp [List.isPrefixOf] at hp
      obtain ⟨rfl, rfl, _⟩ := hp
      exact ⟨[], b ++ ['-'], by simp⟩

theorem skipComment_of {k : List Char} (h : CommentText k) (r : List Char) : skipComment (k ++ r) = r := by
  obtain ⟨b, rfl, hb⟩ := h
  unfold skipComment
  have : List.drop 4 (['<', '!', '-', '-'] ++ (b ++ ['-', '-', '>']) ++ r) = b ++ '-' :: '-' :: '>' :: r := by simp
  rw [this, show "-->".toList = ['-', '-', '>'] from rfl, afterPattern_comment hb]
  rfl

theorem lt_stop (cs : List Char) : Stop ('<' :: cs) := .of_lit _ (by decide) (by decide)

/-- something at a '<' that is passed over, with `r` after it -/
def Skipped (l r : List Char) : Prop :=
  (identify l = .comment ∧ skipComment l = r) ∨ (identify l = .unknown ∧ skipUnknown l = r)

theorem comment_skipped {k : List Char} (h : CommentText k) (r : List Char) :
    ∃ c cs, k ++ r = '<' :: c :: cs ∧ c ≠ '/' ∧ Skipped ('<' :: c :: cs) r := by
  have hs := skipComment_of h r
  obtain ⟨b, rfl, _⟩ := h
  refine ⟨_, _, rfl, by decide, .inl ⟨?_, hs⟩⟩
  simp [identify, prefixNoCase, List.isPrefixOf, show Char.toLower '!' = '!' by decide]

theorem skipUnknown_of {b : List Char} (hb : '>' ∉ b) (c : Char) (r : List Char) : skipUnknown (c :: (b ++ '>' :: r)) = r := by
  unfold skipUnknown
  rw [List.drop_succ_cons, List.drop_zero, List.dropWhile_append_of_pos, List.dropWhile_cons_of_neg (by simp)]
  · rfl
  · intro x hx
    have : x ≠ '>' := by rintro rfl; exact hb hx
    simpa using this

theorem identify_pi {b : List Char} (hb : ¬ ['x', 'm', 'l'] <+: b.map Char.toLower) : identify ('<' :: '?' :: b) = .unknown := by
  have hp : prefixNoCase "<?xml".toList ('<' :: '?' :: b) = false := by
    rw [Bool.eq_false_iff]
    intro h
    unfold prefixNoCase at h
    rw [List.isPrefixOf_iff_prefix] at h
    apply hb
    have e : List.map Char.toLower "<?xml".toList = '<' :: '?' :: ['x', 'm', 'l'] := by decide
    rw [e, List.map_cons, List.map_cons, List.cons_prefix_cons, List.cons_prefix_cons] at h
    exact h.2.2
  simp only [identify, hp]
  simp [List.isPrefixOf, isXmlAlpha]

theorem pi_skipped {k : List Char} (h : PiText k) (r : List Char) :
    ∃ c cs, k ++ r = '<' :: c :: cs ∧ c ≠ '/' ∧ Skipped ('<' :: c :: cs) r := by
  obtain ⟨b, rfl, hb, hx⟩ := h
  refine ⟨'?', b ++ '?' :: '>' :: r, by simp, by decide, .inr ⟨identify_pi ?_, ?_⟩⟩
  · intro h
    apply hx
    rw [List.map_append] at h
    rcases b with _ | ⟨x, _ | ⟨y, _ | ⟨z, b⟩⟩⟩
    · rw [List.map_nil, List.nil_append, List.map_cons, List.cons_prefix_cons] at h
      exact absurd h.1 (by decide)
    · simp only [List.map_cons, List.map_nil, List.cons_append, List.nil_append, List.cons_prefix_cons] at h
      exact absurd h.2.1 (by decide)
    · simp only [List.map_cons, List.map_nil, List.cons_append, List.nil_append, List.cons_prefix_cons] at h
      exact absurd h.2.2.1 (by decide)
    · simp only [List.map_cons, List.cons_append, List.cons_prefix_cons] at h
      simp only [List.map_cons, List.cons_prefix_cons]
      exact ⟨h.1, h.2.1, h.2.2.1, List.nil_prefix⟩
  · have e : '<' :: '?' :: (b ++ '?' :: '>' :: r) = '<' :: (('?' :: (b ++ ['?'])) ++ '>' :: r) := by simp
    rw [e, skipUnknown_of]
    simpa using hb

theorem doctype_skipped {k : List Char} (h : DoctypeText k) (r : List Char) :
    ∃ c cs, k ++ r = '<' :: c :: cs ∧ c ≠ '/' ∧ Skipped ('<' :: c :: cs) r := by
  obtain ⟨b, rfl, hb⟩ := h
  refine ⟨'!', 'D' :: 'O' :: 'C' :: 'T' :: 'Y' :: 'P' :: 'E' :: (b ++ '>' :: r), by simp, by decide, .inr ⟨?_, ?_⟩⟩
  · simp [identify, prefixNoCase, List.isPrefixOf, show Char.toLower '!' = '!' by decide]
  · have e : '<' :: '!' :: 'D' :: 'O' :: 'C' :: 'T' :: 'Y' :: 'P' :: 'E' :: (b ++ '>' :: r) =
        '<' :: (('!' :: 'D' :: 'O' :: 'C' :: 'T' :: 'Y' :: 'P' :: 'E' :: b) ++ '>' :: r) := by simp
    rw [e, skipUnknown_of]
    simpa using hb

theorem note_skipped {k : List Char} (h : CommentText k ∨ PiText k) (r : List Char) :
    ∃ c cs, k ++ r = '<' :: c :: cs ∧ c ≠ '/' ∧ Skipped ('<' :: c :: cs) r :=
  h.elim (comment_skipped · r) (pi_skipped · r)

theorem misc_skipped {k : List Char} (h : CommentText k ∨ PiText k ∨ DoctypeText k) (r : List Char) :
    ∃ c cs, k ++ r = '<' :: c :: cs ∧ c ≠ '/' ∧ Skipped ('<' :: c :: cs) r :=
  h.elim (comment_skipped · r) (·.elim (pi_skipped · r) (doctype_skipped · r))

theorem afterPattern_cdata {b : List Char} (hb : ¬ [']', ']', '>'] <:+: b) (r : List Char) :
    afterPattern [']', ']', '>'] (b ++ ']' :: ']' :: '>' :: r) = some r := by
  induction b with
  | nil => simp [afterPattern, List.isPrefixOf]
  | cons c b ih =>
    have hb' : ¬ [']', ']', '>'] <:+: b := fun h => hb (h.trans (List.infix_cons (List.infix_refl _)))
    rw [List.cons_append, afterPattern, if_neg, ih hb']
    intro hp
    rw [List.isPrefixOf_iff_prefix, List.cons_prefix_cons] at hp
    obtain ⟨rfl, hp⟩ := hp
    rcases b with _ | ⟨x, _ | ⟨y, b⟩⟩
    · simp at hp
    · simp at hp
    · simp only [List.cons_append, List.cons_prefix_cons] at hp
      obtain ⟨rfl, rfl, _⟩ := hp
      exact hb ⟨[], b, by simp⟩

theorem cdata_skipped {k : List Char} (h : CdataText k) (d : Char) (r : List Char) :
    ∃ cs, k ++ d :: r = '<' :: '!' :: cs ∧ identify ('<' :: '!' :: cs) = .cdata ∧ skipCdata ('<' :: '!' :: cs) = some (d :: r) := by
  obtain ⟨b, rfl, hb⟩ := h
  refine ⟨'[' :: 'C' :: 'D' :: 'A' :: 'T' :: 'A' :: '[' :: (b ++ ']' :: ']' :: '>' :: d :: r), by simp, ?_, ?_⟩
  · simp [identify, prefixNoCase, List.isPrefixOf, show Char.toLower '!' = '!' by decide]
  · unfold skipCdata
    rw [show List.drop 9 ('<' :: '!' :: '[' :: 'C' :: 'D' :: 'A' :: 'T' :: 'A' :: '[' :: (b ++ ']' :: ']' :: '>' :: d :: r)) =
      b ++ ']' :: ']' :: '>' :: d :: r from rfl, show "]]>".toList = [']', ']', '>'] from rfl, afterPattern_cdata hb]

theorem identify_elem {c : Char} (hc : StartByte c) (cs : List Char) :
    identify ('<' :: c :: cs) = .element ∧ (['<', '/'].isPrefixOf ('<' :: c :: cs)) = false := by
  have hr := hc.range
  have n1 : c ≠ '!' := toNat_ne (by simp; omega)
  have n2 : c ≠ '/' := toNat_ne (by simp; omega)
  have n3 : c.toLower ≠ '?' := by
    have hl : c.toLower.toNat ≥ 65 := by
      unfold Char.toLower
      split
      · rename_i h1
        have h2 := UInt32.le_iff_toNat_le.mp h1.2
        simp at h2
        show 65 ≤ (c.val + 32).toNat
        have : c.val.toNat = c.toNat := rfl
        rw [UInt32.toNat_add]
        have : (32 : UInt32).toNat = 32 := rfl
        omega
      · exact hr
    exact toNat_ne (by simp; omega)
  have ha : (isXmlAlpha c || decide (c = '_')) = true := by
    rcases alpha_facts hc with h | h <;> simp [h]
  constructor
  · simp [identify, prefixNoCase, List.isPrefixOf, n1, Ne.symm n1, Ne.symm n3, n3, ha]
  · simp [List.isPrefixOf, Ne.symm n2, n2]

/-- the text node at the start of `l`, then the rest of the content -/
def textThen (enc : Enc) (l : List Char) : XM (Option (List Elem × List Char)) := do
  match ← skipText enc l with
  | none => pure none
  | some r => readValue enc r

theorem textThen_lt (enc : Enc) (c : Char) (cs : List Char) :
    textThen enc ('<' :: c :: cs) = readValue enc ('<' :: c :: cs) := by
  unfold textThen
  rw [skipText.eq_def]
  simp

theorem textThen_space {enc : Enc} {c : Char} (h : isXmlSpace c = true) (cs : List Char) : textThen enc (c :: cs) = textThen enc cs := by
  unfold textThen
  have : c ≠ '<' := fun e => by rw [e] at h; exact absurd h (by decide)
  conv => lhs; rw [skipText.eq_def]
  simp [this, h]

theorem textThen_char {enc : Enc} {c : Char} {cs v r : List Char} (h : isXmlSpace c = false) (hl : c ≠ '<')
    (hg : getChar enc c cs = pure (some (v, r))) : textThen enc (c :: cs) = textThen enc r := by
  unfold textThen
  conv => lhs; rw [skipText.eq_def]
  simp [hl, h, hg]

theorem readValue_space {enc : Enc} {c : Char} (h : isXmlSpace c = true) (hn : c ≠ Char.ofNat 0xef) (d : Char) (cs : List Char) :
    readValue enc (c :: d :: cs) = readValue enc (d :: cs) := by
  conv => lhs; rw [readValue.eq_def]
  conv => rhs; rw [readValue.eq_def]
  rw [skipWhite, skipWhite, skipLoop_space h hn]

theorem readValue_text {enc : Enc} {c : Char} (h : isXmlSpace c = false) (hn : c ≠ Char.ofNat 0xef) (hl : c ≠ '<') (cs : List Char) :
    readValue enc (c :: cs) = textThen enc (c :: cs) := by
  rw [readValue.eq_def, skipWhite_stop ⟨c, cs, rfl, h, hn⟩]
  simp only [textThen, ne_eq, hl, not_false_eq_true, if_true]
  rfl

theorem ne_ef {c : Char} (h : c.toNat < 128) : c ≠ Char.ofNat 0xef := by
  apply toNat_ne
  rw [ofNat_ef]
  omega

/-- text from before a character -/
theorem textThen_plain {enc : Enc} {c : Char} (hp : Plain c) (l : List Char) : textThen enc (utf8 [c] ++ l) = textThen enc l := by
  by_cases ha : c.toNat < 128
  · rw [utf8_ascii ha, List.cons_append, List.nil_append]
    rcases hc : isXmlSpace c with _ | _
    · exact textThen_char hc hp.2.1 (getChar_plain hp.1 ha l)
    · exact textThen_space hc l
  obtain ⟨b, bs, e, hb, hbs, hcont, hlen⟩ := utf8_multi (c := c) (by omega)
  have hne : ∀ x : Char, 128 ≤ x.toNat → isXmlSpace x = false ∧ x ≠ '<' := fun x hx =>
    ⟨not_space_of_range (by omega), by rintro rfl; revert hx; decide⟩
  rw [e]
  by_cases henc : enc = .utf8
  · subst henc
    exact textThen_char (hne b (by omega)).1 (hne b (by omega)).2 (getChar_multi hlen hbs l)
  · have key : ∀ bs : List Char, (∀ x ∈ bs, 128 ≤ x.toNat) → textThen enc (bs ++ l) = textThen enc l := by
      intro bs
      induction bs with
      | nil => intro _; rfl
      | cons x bs ih =>
        intro hx
        have h128 := hx x List.mem_cons_self
        rw [List.cons_append, textThen_char (hne x h128).1 (hne x h128).2 (getChar_byte henc h128 _)]
        exact ih fun y hy => hx y (List.mem_cons_of_mem _ hy)
    refine key (b :: bs) ?_
    intro x hx
    rcases List.mem_cons.mp hx with rfl | hx
    · omega
    · exact (hcont x hx).1

/-- content from before a character: it is text, or it is passed over as white space -/
theorem readValue_plain {enc : Enc} {c : Char} (hp : Plain c) (l : List Char) :
    readValue enc (utf8 [c] ++ l) = textThen enc l ∨ (l ≠ [] ∧ readValue enc (utf8 [c] ++ l) = readValue enc l) ∨
      (l = [] ∧ readValue enc (utf8 [c] ++ l) = pure (some ([], []))) := by
  have hsk : ∀ p d ds, p = d :: ds → (∀ l, skipLoop enc (p ++ l) = skipLoop enc l) →
      (l ≠ [] ∧ readValue enc (p ++ l) = readValue enc l) ∨ (l = [] ∧ readValue enc (p ++ l) = pure (some ([], []))) := by
    rintro p d ds rfl h
    cases l with
    | nil =>
      right
      refine ⟨rfl, ?_⟩
      rw [readValue.eq_def, List.cons_append, skipWhite, ← List.cons_append, h]
      simp [skipLoop]
    | cons x l =>
      left
      refine ⟨by simp, ?_⟩
      rw [readValue.eq_def, List.cons_append, skipWhite, ← List.cons_append, h]
      conv => rhs; rw [readValue.eq_def, skipWhite]
  by_cases ha : c.toNat < 128
  · rw [utf8_ascii ha]
    rcases hc : isXmlSpace c with _ | _
    · left
      rw [List.cons_append, List.nil_append, readValue_text hc (ne_ef ha) hp.2.1, textThen_char hc hp.2.1 (getChar_plain hp.1 ha l)]
    · right
      exact hsk [c] c [] rfl fun l => skipLoop_space hc (ne_ef ha) l
  obtain ⟨b, bs, e, hb, hbs, hcont, hlen⟩ := utf8_multi (c := c) (by omega)
  have ht := textThen_plain (enc := enc) hp l
  have hsp : isXmlSpace b = false := not_space_of_range (by omega)
  have hlt : b ≠ '<' := by rintro rfl; revert hb; decide
  rw [e] at ht ⊢
  by_cases hef : b = Char.ofNat 0xef
  · have h3 : bs.length = 2 := by
      rw [hef] at hlen
      have : utf8Len (Char.ofNat 0xef) = 3 := by decide
      omega
    obtain ⟨x, y, rfl⟩ : ∃ x y, bs = [x, y] := by
      rcases bs with _ | ⟨x, _ | ⟨y, _ | ⟨z, bs⟩⟩⟩ <;> simp at h3
      exact ⟨x, y, rfl⟩
    by_cases hbom : (decide (enc = .utf8) && isBom b x y) = true
    · right
      refine hsk [b, x, y] b [x, y] rfl fun l => ?_
      conv => lhs; rw [List.cons_append, List.cons_append, List.cons_append, List.nil_append, skipLoop.eq_def]
      simp only [hbom, if_true]
    · left
      have hst : skipWhite enc (some ([b, x, y] ++ l)) = some ([b, x, y] ++ l) := by
        rw [List.cons_append, List.cons_append, List.cons_append, List.nil_append, skipWhite, skipLoop.eq_def]
        simp only [hbom, hsp, if_false, Bool.false_eq_true]
      rw [← ht, readValue.eq_def, hst]
      simp only [textThen, List.cons_append, ne_eq, hlt, not_false_eq_true, if_true]
      rfl
  · left
    rw [← ht, List.cons_append, readValue_text hsp hef hlt]

theorem readValue_skipped {enc : Enc} {c : Char} {cs r : List Char} (hc : c ≠ '/') (h : Skipped ('<' :: c :: cs) r) :
    readValue enc ('<' :: c :: cs) = readValue enc r := by
  have hp : "</".toList.isPrefixOf ('<' :: c :: cs) = false := by simp [List.isPrefixOf, Ne.symm hc]
  conv => lhs; rw [readValue.eq_def]
  rw [skipWhite_stop (lt_stop _)]
  rcases h with ⟨hi, hs⟩ | ⟨hi, hs⟩ <;> simp [hi, hp, hs, Ne.symm hc]

theorem readValue_note {enc : Enc} {k : List Char} (h : CommentText k ∨ PiText k) (r : List Char) :
    readValue enc (k ++ r) = readValue enc r ∧ textThen enc (k ++ r) = readValue enc r := by
  obtain ⟨c, cs, e, hc, hs⟩ := note_skipped h r
  rw [e, textThen_lt, readValue_skipped hc hs]
  exact ⟨rfl, rfl⟩

theorem readValue_cdata {enc : Enc} {k : List Char} (h : CdataText k) (d : Char) (r : List Char) :
    readValue enc (k ++ d :: r) = readValue enc (d :: r) ∧ textThen enc (k ++ d :: r) = readValue enc (d :: r) := by
  obtain ⟨cs, e, hi, hs⟩ := cdata_skipped h d r
  have : readValue enc ('<' :: '!' :: cs) = readValue enc (d :: r) := by
    have hp : "</".toList.isPrefixOf ('<' :: '!' :: cs) = false := by simp [List.isPrefixOf]
    conv => lhs; rw [readValue.eq_def]
    rw [skipWhite_stop (lt_stop _)]
    simp only [hi, hs, hp]
    simp
  rw [e, textThen_lt, this]
  exact ⟨rfl, rfl⟩

theorem ElemText.cons {u : Bool} {a : List Char} {e : Elem} (h : ElemText u a e) (r : List Char) :
    ∃ c cs, a ++ r = '<' :: c :: cs ∧ StartByte c := by
  cases h with
  | empty hn _ _ _ => obtain ⟨c, cs, rfl, hc⟩ := hn.first; exact ⟨c, _, rfl, hc⟩
  | full hn _ _ _ _ _ => obtain ⟨c, cs, rfl, hc⟩ := hn.first; exact ⟨c, _, rfl, hc⟩

theorem readValue_elem {u : Bool} {enc : Enc} {a : List Char} {e : Elem} (h : ElemText u a e) {r p : List Char} {es : List Elem}
    (he : parseElem enc (a ++ r) = pure (some (e, r))) (hr : readValue enc r = pure (some (es, p))) :
    readValue enc (a ++ r) = pure (some (e :: es, p)) := by
  obtain ⟨c, cs, e1, hc⟩ := h.cons r
  obtain ⟨hi, hp⟩ := identify_elem hc cs
  rw [readValue.eq_def, e1, skipWhite_stop (lt_stop _)]
  rw [e1] at he
  have hp' : "</".toList.isPrefixOf ('<' :: c :: cs) = false := hp
  simp only [hi, he, hr, hp', pure_bind, ne_eq, not_true, if_false, Bool.false_eq_true]

theorem AttrsText.first {u : Bool} {a : List Char} {as : List (String × String)} (h : AttrsText u a as) {s e : List Char} {b : Bool}
    (hs : XSpace s) (he : TagEnd e b) (r : List Char) : ∃ c cs, a ++ (s ++ (e ++ r)) = c :: cs ∧ isNameChar c = false := by
  have key : ∀ (s : List Char) (c : Char) (p : List Char), XSpace s → isNameChar c = false →
      ∃ d ds, s ++ c :: p = d :: ds ∧ isNameChar d = false := fun s c p hs hc => notName_space hs hc p
  cases h with
  | nil =>
    rcases he with ⟨rfl, _⟩ | ⟨rfl, _⟩
    · exact key s '/' _ hs (by decide)
    · exact key s '>' _ hs (by decide)
  | @cons s1 k s2 s3 q t v rest as h1 h1' =>
    cases s1 with
    | nil => exact absurd rfl h1'
    | cons d s1 =>
      refine ⟨d, _, rfl, ?_⟩
      rcases h1 d List.mem_cons_self with rfl | rfl | rfl | rfl | rfl | rfl <;> decide

theorem readTagName_of {enc : Enc} {n r : List Char} (h : XName n) (hr : ∃ c cs, r = c :: cs ∧ isNameChar c = false) :
    readTagName enc ('<' :: (n ++ r)) = some (n, r) := by
  unfold readTagName
  rw [List.drop_succ_cons, List.drop_zero, skipWhite_stop (h.stop _), readName_of h hr]
  obtain ⟨c, cs, rfl, _⟩ := hr
  simp

theorem endTag_of {enc : Enc} {n s r : List Char} (hs : XSpace s) : endTag enc n ('<' :: '/' :: (n ++ (s ++ '>' :: r))) = some r := by
  unfold endTag
  have h1 : ('<' :: '/' :: n).isPrefixOf ('<' :: '/' :: (n ++ (s ++ '>' :: r))) = true := by
    rw [List.isPrefixOf_iff_prefix]
    exact ⟨s ++ '>' :: r, rfl⟩
  have h2 : ('<' :: '/' :: (n ++ (s ++ '>' :: r))).drop (n.length + 2) = s ++ '>' :: r := by simp
  rw [if_pos h1, h2, skipWhite_spaces hs (.of_lit _ (by decide) (by decide))]
  simp

theorem elem_content {u : Bool} {enc : Enc} (hu : u = true → enc = .utf8) :
    (∀ {a e}, ElemText u a e → ∀ r, parseElem enc (a ++ r) = pure (some (e, r))) ∧
    (∀ {t es}, ContentText u t es → ∀ cs, readValue enc (t ++ '<' :: '/' :: cs) = pure (some (es, '<' :: '/' :: cs)) ∧
      textThen enc (t ++ '<' :: '/' :: cs) = pure (some (es, '<' :: '/' :: cs))) := by
  have base : ∀ cs, readValue enc ('<' :: '/' :: cs) = pure (some (([] : List Elem), '<' :: '/' :: cs)) := by
    intro cs
    rw [readValue.eq_def, skipWhite_stop (lt_stop _)]
    simp [List.isPrefixOf]
  have he : ∀ {n a as s}, XName n → AttrsText u a as → (as.map Prod.fst).Nodup → XSpace s → ∀ r,
      parseElem enc ('<' :: (n ++ (a ++ (s ++ ['/', '>']))) ++ r) = pure (some (.mk (String.ofList n) as [], r)) := by
    intro n a as s hn ha hd hs r
    have te : TagEnd ['/', '>'] true := .inl ⟨rfl, rfl⟩
    have e1 : '<' :: (n ++ (a ++ (s ++ ['/', '>']))) ++ r = '<' :: (n ++ (a ++ (s ++ (['/', '>'] ++ r)))) := by simp
    rw [e1, parseElem.eq_def, readTagName_of hn (ha.first hs te r)]
    simp only [parseAttrs_of hu ha hs te [] (by simpa using hd), pure_bind, List.nil_append]
  have hf : ∀ {n a as s t es s'}, XName n → AttrsText u a as → (as.map Prod.fst).Nodup → XSpace s → XSpace s' →
      (∀ cs, readValue enc (t ++ '<' :: '/' :: cs) = pure (some (es, '<' :: '/' :: cs))) → ∀ r,
      parseElem enc ('<' :: (n ++ (a ++ (s ++ '>' :: (t ++ '<' :: '/' :: (n ++ (s' ++ ['>'])))))) ++ r) =
        pure (some (.mk (String.ofList n) as es, r)) := by
    intro n a as s t es s' hn ha hd hs hs' ih r
    have te : TagEnd ['>'] false := .inr ⟨rfl, rfl⟩
    have e1 : '<' :: (n ++ (a ++ (s ++ '>' :: (t ++ '<' :: '/' :: (n ++ (s' ++ ['>'])))))) ++ r =
      '<' :: (n ++ (a ++ (s ++ (['>'] ++ (t ++ '<' :: '/' :: (n ++ (s' ++ '>' :: r))))))) := by simp
    rw [e1, parseElem.eq_def, readTagName_of hn (ha.first hs te _)]
    have hv : readValue enc (t ++ '<' :: '/' :: (n ++ (s' ++ '>' :: r))) =
        pure (some (es, '<' :: '/' :: (n ++ (s' ++ '>' :: r)))) := ih _
    simp only [parseAttrs_of hu ha hs te [] (by simpa using hd), pure_bind, List.nil_append, hv, endTag_of hs']
  have hcons : ∀ t cs, ∃ x xs, t ++ '<' :: '/' :: cs = x :: xs := by
    intro t cs
    cases t with
    | nil => exact ⟨_, _, rfl⟩
    | cons x t => exact ⟨x, _, rfl⟩
  let M2 : List Char → List Elem → Prop := fun t es => ∀ cs, readValue enc (t ++ '<' :: '/' :: cs) = pure (some (es, '<' :: '/' :: cs)) ∧
      textThen enc (t ++ '<' :: '/' :: cs) = pure (some (es, '<' :: '/' :: cs))
  have k0 : M2 [] [] := fun cs => ⟨base cs, by rw [List.nil_append, textThen_lt]; exact base cs⟩
  have k1 : ∀ {c t es}, Plain c → M2 t es → M2 (utf8 [c] ++ t) es := by
    intro c t es hp ih ds
    obtain ⟨x, xs, e⟩ := hcons t ds
    rw [List.append_assoc]
    refine ⟨?_, by rw [textThen_plain hp, (ih ds).2]⟩
    rcases readValue_plain (enc := enc) hp (t ++ '<' :: '/' :: ds) with h | ⟨_, h⟩ | ⟨h, _⟩
    · rw [h, (ih ds).2]
    · rw [h, (ih ds).1]
    · rw [e] at h; exact absurd h (by simp)
  have k2 : ∀ {e c t es}, EntityText e c → (u = true ∨ c.toNat < 128) → M2 t es → M2 (e ++ t) es := by
    intro e c t es he hc ih ds
    obtain ⟨cs, e1, e2⟩ := getChar_entity (enc := enc) he (or_utf8 hu hc) (t ++ '<' :: '/' :: ds)
    have := textThen_char (enc := enc) (c := '&') (by decide) (by decide) e2
    rw [List.append_assoc, e1]
    exact ⟨by rw [readValue_text (by decide) (by decide) (by decide), this, (ih ds).2], by rw [this, (ih ds).2]⟩
  have k3 : ∀ {k t es}, CommentText k ∨ PiText k → M2 t es → M2 (k ++ t) es := by
    intro k t es hk ih ds
    obtain ⟨e1, e2⟩ := readValue_note (enc := enc) hk (t ++ '<' :: '/' :: ds)
    rw [List.append_assoc, e1, e2]
    exact ⟨(ih ds).1, (ih ds).1⟩
  have k5 : ∀ {k t es}, CdataText k → M2 t es → M2 (k ++ t) es := by
    intro k t es hk ih ds
    obtain ⟨x, xs, e⟩ := hcons t ds
    have := (ih ds).1
    rw [e] at this
    obtain ⟨e1, e2⟩ := readValue_cdata (enc := enc) hk x xs
    rw [List.append_assoc, e, e1, e2]
    exact ⟨this, this⟩
  have k4 : ∀ {a e t es}, ElemText u a e → (∀ r, parseElem enc (a ++ r) = pure (some (e, r))) → M2 t es → M2 (a ++ t) (e :: es) := by
    intro a e t es ha iha ih ds
    have h1 : readValue enc (a ++ t ++ '<' :: '/' :: ds) = pure (some (e :: es, '<' :: '/' :: ds)) := by
      rw [List.append_assoc]
      exact readValue_elem ha (iha _) (ih ds).1
    refine ⟨h1, ?_⟩
    rw [← h1, List.append_assoc]
    obtain ⟨c, cs, e, _⟩ := ha.cons (t ++ '<' :: '/' :: ds)
    rw [e, textThen_lt]
  constructor
  · intro x y h
    exact ElemText.rec (motive_1 := fun a e _ => ∀ r, parseElem enc (a ++ r) = pure (some (e, r)))
      (motive_2 := fun t es _ => M2 t es) he (fun hn ha hd hs _ hs' ih => hf hn ha hd hs hs' fun cs => (ih cs).1)
      k0 (fun hp _ ih => k1 hp ih) (fun h hc _ ih => k2 h hc ih) (fun h _ ih => k3 h ih) (fun h _ ih => k5 h ih)
      (fun h _ iha ih => k4 h iha ih) h
  · intro x y h
    exact ContentText.rec (motive_1 := fun a e _ => ∀ r, parseElem enc (a ++ r) = pure (some (e, r)))
      (motive_2 := fun t es _ => M2 t es) he (fun hn ha hd hs _ hs' ih => hf hn ha hd hs hs' fun cs => (ih cs).1)
      k0 (fun hp _ ih => k1 hp ih) (fun h hc _ ih => k2 h hc ih) (fun h _ ih => k3 h ih) (fun h _ ih => k5 h ih)
      (fun h _ iha ih => k4 h iha ih) h

/-! ### the document -/

theorem docLoop_space {enc : Enc} {c : Char} (h : isXmlSpace c = true) (hn : c ≠ Char.ofNat 0xef) (l : List Char) :
    docLoop enc (c :: l) = docLoop enc l := by
  conv => lhs; rw [docLoop.eq_def]
  conv => rhs; rw [docLoop.eq_def]
  cases l with
  | nil => simp [skipWhite, skipLoop, h]
  | cons d l => rw [skipWhite, skipWhite, skipLoop_space h hn]

theorem docLoop_skipped {enc : Enc} {c : Char} {cs r : List Char} (h : Skipped ('<' :: c :: cs) r) :
    docLoop enc ('<' :: c :: cs) = docLoop enc r := by
  conv => lhs; rw [docLoop.eq_def]
  rw [skipWhite_stop (lt_stop _)]
  rcases h with ⟨hi, hs⟩ | ⟨hi, hs⟩ <;> simp [hi, hs]

theorem docLoop_misc {enc : Enc} {m : List Char} (h : MiscText m) (r : List Char) : docLoop enc (m ++ r) = docLoop enc r := by
  induction h with
  | nil => rfl
  | space hc _ ih =>
    obtain ⟨h1, h2⟩ := space_of (hc _ List.mem_cons_self)
    rw [List.cons_append, docLoop_space h1 h2, ih]
  | @note k t hk _ ih =>
    obtain ⟨c, cs, e, _, hs⟩ := misc_skipped hk (t ++ r)
    rw [List.append_assoc, e, docLoop_skipped hs, ih]

theorem docLoop_elem {u : Bool} {enc : Enc} (hu : u = true → enc = .utf8) {a : List Char} {e : Elem} (h : ElemText u a e)
    {r : List Char} {es : List Elem} (hr : docLoop enc r = pure (some es)) : docLoop enc (a ++ r) = pure (some (e :: es)) := by
  obtain ⟨c, cs, e1, hc⟩ := h.cons r
  have he := (elem_content hu).1 h r
  rw [docLoop.eq_def, e1, skipWhite_stop (lt_stop _)]
  rw [e1] at he
  simp only [(identify_elem hc cs).1, he, hr, pure_bind, ne_eq, not_true, if_false]

theorem docLoop_nil (enc : Enc) : docLoop enc [] = pure (some []) := by
  rw [docLoop.eq_def]
  simp [skipWhite]

theorem parseDecl_attrs {enc : Enc} {a : List Char} {as : List (String × String)} (h : AttrsText false a as)
    (hk : ∀ kv ∈ as, kv.1 = "version" ∨ kv.1 = "encoding" ∨ kv.1 = "standalone") {s : List Char} (hs : XSpace s) (d : String)
    (r : List Char) : ∃ d', parseDecl enc d (a ++ (s ++ '?' :: '>' :: r)) = pure (some (d', r)) ∧
      (d' = d ∨ ∃ kv ∈ as, kv.1 = "encoding" ∧ d' = kv.2) := by
  induction h generalizing d with
  | nil =>
    refine ⟨d, ?_, .inl rfl⟩
    have hst : Stop ('?' :: '>' :: r) := .of_lit _ (by decide) (by decide)
    have hsk := skipLoop_spaces (enc := enc) hs hst
    have hgt : parseDecl enc d ('>' :: r) = pure (some (d, r)) := by
      rw [parseDecl.eq_def]
      simp
    have h1 : ∃ c cs, s ++ '?' :: '>' :: r = c :: cs ∧ c ≠ '>' := by
      cases s with
      | nil => exact ⟨_, _, rfl, by decide⟩
      | cons x s =>
        refine ⟨x, _, rfl, ?_⟩
        rcases hs x List.mem_cons_self with rfl | rfl | rfl | rfl | rfl | rfl <;> decide
    obtain ⟨c, cs, e, hc⟩ := h1
    rw [List.nil_append, e, parseDecl.eq_def]
    simp only [if_neg hc]
    rw [← e, hsk]
    have hv : prefixNoCase "version".toList ('?' :: '>' :: r) = false := by simp [prefixNoCase, List.isPrefixOf]
    have hst : prefixNoCase "standalone".toList ('?' :: '>' :: r) = false := by simp [prefixNoCase, List.isPrefixOf]
    have hen : prefixNoCase "encoding".toList ('?' :: '>' :: r) = false := by simp [prefixNoCase, List.isPrefixOf]
    simp only [hv, hst, hen, Bool.or_false, Bool.false_eq_true, if_false]
    rw [List.dropWhile_cons_of_pos (by decide), List.dropWhile_cons_of_neg (by decide), hgt]
  | @cons s1 k s2 s3 q t v rest as h1 h1' hkn h2 h3 hq hv hrest ih =>
    have hin := hk _ List.mem_cons_self
    have hp := parseAttr_of (u := false) (enc := enc) (by simp) (r := rest ++ (s ++ '?' :: '>' :: r)) hkn h2 h3 hq hv (by simp)
    have e1 : s1 ++ (k ++ (s2 ++ '=' :: (s3 ++ q :: (t ++ q :: rest)))) ++ (s ++ '?' :: '>' :: r) =
        s1 ++ (k ++ (s2 ++ '=' :: (s3 ++ q :: (t ++ q :: (rest ++ (s ++ '?' :: '>' :: r)))))) := by simp [List.append_assoc]
    have hsk := skipLoop_spaces (enc := enc) h1 (hkn.stop (s2 ++ '=' :: (s3 ++ q :: (t ++ q :: (rest ++ (s ++ '?' :: '>' :: r))))))
    rw [e1]
    generalize hw : s2 ++ '=' :: (s3 ++ q :: (t ++ q :: (rest ++ (s ++ '?' :: '>' :: r)))) = w at hp hsk ⊢
    have hc : ∃ c cs, s1 ++ (k ++ w) = c :: cs ∧ c ≠ '>' := by
      cases s1 with
      | nil => exact absurd rfl h1'
      | cons x s1 =>
        refine ⟨x, _, rfl, ?_⟩
        rcases h1 x List.mem_cons_self with rfl | rfl | rfl | rfl | rfl | rfl <;> decide
    obtain ⟨c, cs, e, hc⟩ := hc
    rw [e, parseDecl.eq_def]
    simp only [if_neg hc]
    rw [← e, hsk]
    have ih' := fun d => ih (fun kv hkv => hk kv (List.mem_cons_of_mem _ hkv)) d
    have hpre : ∀ (n : String), k = n.toList → prefixNoCase n.toList (k ++ w) = true := by
      intro n e
      subst e
      unfold prefixNoCase
      rw [List.isPrefixOf_iff_prefix, List.map_append]
      exact List.prefix_append _ _
    have hk' : ∀ (n : String), String.ofList k = n → k = n.toList := fun n e => by rw [← e]; simp
    have lift : ∀ d' d, (d' = d ∨ ∃ kv ∈ as, kv.1 = "encoding" ∧ d' = kv.2) →
        (d' = d ∨ ∃ kv ∈ (String.ofList k, String.ofList v) :: as, kv.1 = "encoding" ∧ d' = kv.2) := by
      rintro d' d (h | ⟨kv, h1, h2⟩)
      · exact .inl h
      · exact .inr ⟨kv, List.mem_cons_of_mem _ h1, h2⟩
    have ih'' : ∀ d, ∃ d', parseDecl enc d (rest ++ (s ++ '?' :: '>' :: r)) = pure (some (d', r)) ∧
        (d' = d ∨ ∃ kv ∈ (String.ofList k, String.ofList v) :: as, kv.1 = "encoding" ∧ d' = kv.2) := fun d => by
      obtain ⟨d', h1, h2⟩ := ih' d
      exact ⟨d', h1, lift d' d h2⟩
    rcases hin with hin | hin | hin
    · simp only [hpre _ (hk' _ hin), Bool.true_or, if_true, hp, pure_bind]
      exact ih'' d
    · have e2 := hk' _ hin
      have n1 : prefixNoCase "version".toList (k ++ w) = false := by
        rw [e2]; simp [prefixNoCase, List.isPrefixOf]
      have n2 : prefixNoCase "standalone".toList (k ++ w) = false := by
        rw [e2]; simp [prefixNoCase, List.isPrefixOf]
      simp only [n1, n2, hpre _ e2, Bool.or_false, Bool.false_eq_true, if_false, if_true, hp, pure_bind]
      obtain ⟨d', h1, h2⟩ := ih'' (String.ofList v)
      refine ⟨d', h1, .inr ?_⟩
      rcases h2 with h2 | h2
      · exact ⟨_, List.mem_cons_self, hin, h2⟩
      · exact h2
    · simp only [hpre _ (hk' _ hin), Bool.or_true, if_true, hp, pure_bind]
      exact ih'' d

theorem prefixNoCase_of {p q v : List Char} (he : p.map Char.toLower = q) (h : q <+: v.map Char.toLower) : prefixNoCase p v = true := by
  unfold prefixNoCase
  rw [he, List.isPrefixOf_iff_prefix]
  exact h

theorem declaredEnc_utf8 {enc : Enc} (he : enc ≠ .legacy) {d : String} (h : Utf8Name d) : declaredEnc enc d = .utf8 := by
  unfold declaredEnc
  split
  · have : (decide (d = "") || prefixNoCase "UTF-8".toList d.toList || prefixNoCase "UTF8".toList d.toList) = true := by
      rcases h with h | h | h
      · simp [h]
      · rw [prefixNoCase_of (by decide) h]; simp
      · rw [prefixNoCase_of (p := "UTF8".toList) (by decide) h]; simp
    rw [if_pos this]
  · cases enc <;> simp_all

theorem docLoop_decl {u : Bool} {enc : Enc} {t : List Char} (h : DeclText u t) (r : List Char) :
    ∃ enc', docLoop enc (t ++ r) = docLoop enc' r ∧ (enc = .utf8 → enc' = .utf8) ∧ (u = true → enc ≠ .legacy → enc' = .utf8) := by
  obtain ⟨a, as, s, rfl, ha, hs, hk, hu⟩ := h
  obtain ⟨d, hd, hd'⟩ := parseDecl_attrs (enc := enc) ha hk hs "" r
  refine ⟨declaredEnc enc d, ?_, ?_, ?_⟩
  · have e1 : ['<', '?', 'x', 'm', 'l'] ++ (a ++ (s ++ ['?', '>'])) ++ r = '<' :: '?' :: 'x' :: 'm' :: 'l' :: (a ++ (s ++ '?' :: '>' :: r)) := by simp
    have hi : identify ('<' :: '?' :: 'x' :: 'm' :: 'l' :: (a ++ (s ++ '?' :: '>' :: r))) = .declaration := by
      simp [identify, prefixNoCase, List.isPrefixOf]
    rw [e1]
    conv => lhs; rw [docLoop.eq_def]
    rw [skipWhite_stop (lt_stop _)]
    simp [hi, hd]
  · rintro rfl
    simp [declaredEnc]
  · intro hu' he
    refine declaredEnc_utf8 he ?_
    rcases hd' with rfl | ⟨kv, h1, h2, rfl⟩
    · exact .inl rfl
    · exact hu hu' kv h1 h2

theorem docLoop_bom (l : List Char) : docLoop .utf8 (bom ++ l) = docLoop .utf8 l := by
  have h : skipLoop .utf8 (bom ++ l) = skipLoop .utf8 l := by
    unfold bom
    rw [List.cons_append, List.cons_append, List.cons_append, List.nil_append, skipLoop.eq_def]
    simp [isBom]
  have e : skipWhite .utf8 (some (bom ++ l)) = some (skipLoop .utf8 l) := by
    rw [← h]
    rfl
  conv => lhs; rw [docLoop.eq_def]
  conv => rhs; rw [docLoop.eq_def]
  rw [e]
  cases l with
  | nil => simp [skipWhite, skipLoop]
  | cons d l => rw [skipWhite]

theorem startEnc_ne (l : List Char) : startEnc l ≠ .legacy := by
  unfold startEnc
  repeat' split
  all_goals simp

theorem startEnc_bom (l : List Char) : startEnc (bom ++ l) = .utf8 := by
  simp [startEnc, bom]

/-- the parser at the end of the prolog -/
theorem docLoop_prolog {u : Bool} {p : List Char} (h : Prolog u p) (r : List Char) :
    ∃ enc, (u = true → enc = .utf8) ∧ docLoop (startEnc (p ++ r)) (p ++ r) = docLoop enc r := by
  obtain ⟨b, d, m, u', rfl, hb, hd, hm, hu⟩ := h
  have key : ∀ enc, enc ≠ .legacy → ∃ enc', (enc = .utf8 ∨ u' = true → enc' = .utf8) ∧ docLoop enc (d ++ (m ++ r)) = docLoop enc' r := by
    intro enc he
    rcases hd with ⟨rfl, rfl⟩ | hd
    · exact ⟨enc, by simp, by rw [List.nil_append, docLoop_misc hm]⟩
    · obtain ⟨enc', e1, e2, e3⟩ := docLoop_decl (enc := enc) hd (m ++ r)
      exact ⟨enc', fun h => h.elim e2 (e3 · he), by rw [e1, docLoop_misc hm]⟩
  have e : b ++ (d ++ m) ++ r = b ++ (d ++ (m ++ r)) := by simp
  rw [e]
  rcases hb with rfl | rfl
  · obtain ⟨enc', e1, e2⟩ := key _ (startEnc_ne ([] ++ (d ++ (m ++ r))))
    refine ⟨enc', fun h => e1 (.inr ?_), e2⟩
    rcases hu h with h | h
    · exact absurd h (by decide)
    · exact h
  · rw [startEnc_bom, docLoop_bom]
    obtain ⟨enc', e1, e2⟩ := key .utf8 (by decide)
    exact ⟨enc', fun _ => e1 (.inl rfl), e2⟩

/-- the first byte after white space is a '<' -/
theorem prolog_first {u : Bool} {p : List Char} (h : Prolog u p) (c : Char) (r : List Char) :
    ∃ cs, skipWhite (startEnc (p ++ '<' :: c :: r)) (some (p ++ '<' :: c :: r)) = some ('<' :: cs) := by
  obtain ⟨b, d, m, u', rfl, hb, hd, hm, hu⟩ := h
  have key : ∀ enc l, (∃ cs, skipLoop enc l = '<' :: cs) → ∃ cs, skipWhite enc (some l) = some ('<' :: cs) := by
    rintro enc l ⟨cs, e⟩
    cases l with
    | nil => simp [skipLoop] at e
    | cons x l => exact ⟨cs, by rw [skipWhite, e]⟩
  apply key
  have hmisc : ∀ enc, ∃ cs, skipLoop enc (m ++ '<' :: c :: r) = '<' :: cs := by
    intro enc
    clear hd hu
    induction hm with
    | nil =>
      rw [List.nil_append, skipLoop_stop (lt_stop _)]
      exact ⟨_, rfl⟩
    | space hc _ ih =>
      obtain ⟨h1, h2⟩ := space_of (hc _ List.mem_cons_self)
      rw [List.cons_append, skipLoop_space h1 h2]
      exact ih
    | @note k t hk _ ih =>
      obtain ⟨x, cs, e, _⟩ := misc_skipped hk (t ++ '<' :: c :: r)
      rw [List.append_assoc, e, skipLoop_stop (lt_stop _)]
      exact ⟨_, rfl⟩
  have hdecl : ∀ enc, ∃ cs, skipLoop enc (d ++ (m ++ '<' :: c :: r)) = '<' :: cs := by
    intro enc
    rcases hd with ⟨rfl, _⟩ | ⟨a, as, s, rfl, _⟩
    · exact hmisc enc
    · rw [List.append_assoc, List.cons_append, skipLoop_stop (lt_stop _)]
      exact ⟨_, rfl⟩
  have e : b ++ (d ++ m) ++ '<' :: c :: r = b ++ (d ++ (m ++ '<' :: c :: r)) := by simp
  rw [e]
  rcases hb with rfl | rfl
  · exact hdecl _
  · rw [startEnc_bom]
    have h : skipLoop .utf8 (bom ++ (d ++ (m ++ '<' :: c :: r))) = skipLoop .utf8 (d ++ (m ++ '<' :: c :: r)) := by
      unfold bom
      rw [List.cons_append, List.cons_append, List.cons_append, List.nil_append, skipLoop.eq_def]
      simp [isBom]
    rw [h]
    exact hdecl _

theorem takeWhile_no_nul {t : List Char} (hz : '\x00' ∉ t) : t.takeWhile (· ≠ '\x00') = t := by
  rw [← List.append_nil t, List.takeWhile_append_of_pos]
  · simp
  · intro c hc
    simp only [decide_eq_true_eq]
    rintro rfl
    exact hz hc

/-- a prolog, then something that begins with '<' -/
theorem parseXml_prolog {u : Bool} {p : List Char} (h : Prolog u p) {c : Char} {r : List Char} (hz : '\x00' ∉ p ++ '<' :: c :: r) :
    ∃ enc, (u = true → enc = .utf8) ∧ parseXml (p ++ '<' :: c :: r) = docLoop enc ('<' :: c :: r) := by
  obtain ⟨enc, h1, h2⟩ := docLoop_prolog h ('<' :: c :: r)
  obtain ⟨cs, h3⟩ := prolog_first h c r
  refine ⟨enc, h1, ?_⟩
  unfold parseXml
  rw [takeWhile_no_nul hz]
  dsimp only
  rw [h3]
  simp only [h2]

/-- a document, then anything: the element, then whatever the rest gives -/
theorem parseXml_doc {t r : List Char} {e : Elem} (h : DocText t e) (hz : '\x00' ∉ t ++ r) (es : List Elem)
    (hr : ∀ enc, docLoop enc r = pure (some es)) : parseXml (t ++ r) = pure (some (e :: es)) := by
  obtain ⟨u, p, x, m, rfl, hp, hx, hm⟩ := h
  have e0 : p ++ (x ++ m) ++ r = p ++ (x ++ (m ++ r)) := by simp
  rw [e0] at hz ⊢
  obtain ⟨c, cs, e1, hc⟩ := hx.cons (m ++ r)
  rw [e1] at hz ⊢
  obtain ⟨enc, hu, e2⟩ := parseXml_prolog hp hz
  rw [e2, ← e1]
  exact docLoop_elem hu hx (by rw [docLoop_misc hm, hr])

end Tinyfk
