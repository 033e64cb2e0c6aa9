import Verif.Proofs.XmlDoc

/-!
# Truncated XML texts

What the parser makes of a document that ends too early.
-/

set_option linter.unusedSimpArgs false
set_option linter.unusedVariables false

namespace Tinyfk

theorem prefix_append_cases {α : Type} {p a b : List α} (h : p <+: a ++ b) : p <+: a ∨ ∃ q, p = a ++ q ∧ q <+: b := by
  induction a generalizing p with
  | nil => exact .inr ⟨p, rfl, h⟩
  | cons x a ih =>
    cases p with
    | nil => exact .inl List.nil_prefix
    | cons y p =>
      rw [List.cons_append, List.cons_prefix_cons] at h
      obtain ⟨rfl, h⟩ := h
      rcases ih h with h | ⟨q, rfl, hq⟩
      · exact .inl (by rw [List.cons_prefix_cons]; exact ⟨rfl, h⟩)
      · exact .inr ⟨q, rfl, hq⟩

theorem prefix_cons_cases {α : Type} {p b : List α} {x : α} (h : p <+: x :: b) : p = [] ∨ ∃ q, p = x :: q ∧ q <+: b := by
  cases p with
  | nil => exact .inl rfl
  | cons y p =>
    rw [List.cons_prefix_cons] at h
    exact .inr ⟨p, by rw [h.1], h.2⟩

theorem skipLoop_all {enc : Enc} {s : List Char} (hs : XSpace s) : skipLoop enc s = [] := by
  induction s with
  | nil => simp [skipLoop]
  | cons c s ih =>
    obtain ⟨h1, h2⟩ := space_of (hs c List.mem_cons_self)
    rw [skipLoop_space h1 h2, ih fun d hd => hs d (List.mem_cons_of_mem _ hd)]

theorem XSpace.prefix {s p : List Char} (hs : XSpace s) (h : p <+: s) : XSpace p := fun c hc => hs c (h.subset hc)

/-- after white space only, nothing is left -/
theorem skipWhite_all {enc : Enc} {s : List Char} (hs : XSpace s) :
    skipWhite enc (some s) = none ∨ skipWhite enc (some s) = some [] := by
  cases s with
  | nil => left; simp [skipWhite]
  | cons c s => right; rw [skipWhite, skipLoop_all hs]

theorem Full.of_append {l r : List Char} (h : Full (l ++ r)) : Full r := h.suffix (List.suffix_append _ _)

theorem Full.of_cons {c : Char} {r : List Char} (h : Full (c :: r)) : Full r := h.suffix (List.suffix_cons _ _)

theorem getChar_full {enc : Enc} {c : Char} {cs : List Char} (h : Full (c :: cs)) :
    getChar enc c cs = pure none ∨ ∃ v r, getChar enc c cs = pure (some (v, r)) ∧ r <:+ cs := by
  obtain ⟨r, e, h1, h2⟩ := getChar_good enc c cs
  obtain ⟨a, rfl⟩ := h2 h
  cases a with
  | none => exact .inl e
  | some a => exact .inr ⟨a.1, a.2, e, h1 _ rfl a.1 a.2 rfl⟩

/-- a text without a cut sequence does not end inside a character -/
theorem full_prefix_char {p : List Char} (hf : Full p) {c : Char} (hp : p <+: utf8 [c]) : p = [] ∨ p = utf8 [c] := by
  by_cases ha : c.toNat < 128
  · rw [utf8_ascii ha] at hp ⊢
    rcases prefix_cons_cases hp with rfl | ⟨q, rfl, hq⟩
    · exact .inl rfl
    · rw [List.prefix_nil.mp hq]
      exact .inr rfl
  obtain ⟨b, bs, e, hb, hbs, hcont, hlen⟩ := utf8_multi (c := c) (by omega)
  rw [e] at hp ⊢
  rcases prefix_cons_cases hp with rfl | ⟨q, rfl, hq⟩
  · exact .inl rfl
  · have := hf b q (List.suffix_refl _)
    right
    rw [hq.eq_of_length_le (by omega)]

theorem readText_none {enc : Enc} {q : Char} (n : Nat) : ∀ {l : List Char}, l.length ≤ n → Full l → q ∉ l →
    readText enc q l = pure none := by
  induction n with
  | zero =>
    intro l hl _ _
    have : l = [] := by simpa using hl
    subst this
    rw [readText.eq_def]
  | succ n ih =>
    intro l hl ha hq
    cases l with
    | nil => rw [readText.eq_def]
    | cons c cs =>
      rw [readText.eq_def]
      have hc : c ≠ q := fun e => hq (by rw [e]; exact List.mem_cons_self)
      simp only [if_neg hc]
      rcases getChar_full (enc := enc) ha with e | ⟨v, r, e, hs⟩
      · simp only [e, pure_bind]
      · have hr : readText enc q r = pure none := by
          refine ih ?_ (ha.of_cons.suffix hs) fun hx => hq (List.mem_cons_of_mem _ (hs.subset hx))
          have := hs.length_le
          simp only [List.length_cons] at hl
          omega
        simp only [e, pure_bind, hr]

theorem skipText_none {enc : Enc} {l : List Char} (h : Full l) (hl : '<' ∉ l) : skipText enc l = pure none := by
  obtain ⟨r, e, h1, h2⟩ := skipText_good enc l
  obtain ⟨a, rfl⟩ := h2 h
  cases a with
  | none => exact e
  | some a =>
    obtain ⟨hs, d, ds, rfl⟩ := h1 _ rfl a rfl
    exact absurd (hs.subset List.mem_cons_self) hl

theorem utf8_not_mem {c q : Char} (hq : q.toNat < 128) (hc : c ≠ q) : q ∉ utf8 [c] := by
  by_cases ha : c.toNat < 128
  · rw [utf8_ascii ha]
    simpa using Ne.symm hc
  obtain ⟨b, bs, e, hb, hbs, hcont, hlen⟩ := utf8_multi (c := c) (by omega)
  rw [e]
  intro h
  rcases List.mem_cons.mp h with rfl | h
  · omega
  · have := (hcont q h).1
    omega

theorem ValueText.noQuote {u : Bool} {q : Char} (hq : q = '"' ∨ q = '\'') {t v : List Char} (h : ValueText u q t v) : q ∉ t := by
  induction h with
  | nil => simp
  | char hp hc _ ih =>
    intro hx
    rcases List.mem_append.mp hx with hx | hx
    · exact utf8_not_mem (quote_ascii hq) hc hx
    · exact ih hx
  | entity he _ _ ih =>
    obtain ⟨h1, _, h2, h3⟩ := he.ascii
    intro hx
    rcases List.mem_append.mp hx with hx | hx
    · rcases hq with rfl | rfl
      · exact h2 hx
      · exact h3 hx
    · exact ih hx

theorem readText_end {u : Bool} {enc : Enc} (hu : u = true → enc = .utf8) {q : Char} (hq : q = '"' ∨ q = '\'') {t v : List Char}
    (h : ValueText u q t v) : readText enc q (t ++ [q]) = pure none := by
  induction h with
  | nil =>
    rw [List.nil_append, readText.eq_def]
    simp
  | char hp hc _ ih =>
    rw [List.append_assoc, readText_char (quote_ascii hq) hp hc ih]
    rfl
  | @entity e c t v he hc _ ih =>
    rw [List.append_assoc, readText_entity hq he (or_utf8 hu hc) ih]
    rfl

theorem readName_all {n p : List Char} (h : XName n) (hp : p <+: n) (hne : p ≠ []) : readName (some p) = some (p, []) := by
  obtain ⟨c, cs, rfl, hc, hcs⟩ := h.bytes
  replace hp := prefix_cons_cases hp
  rcases hp with rfl | ⟨p, rfl, hp⟩
  · exact absurd rfl hne
  have hall : ∀ x ∈ c :: p, isNameChar x = true := by
    intro x hx
    rcases List.mem_cons.mp hx with rfl | hx
    · exact nameChar_of hc.byte
    · exact nameChar_of (hcs x (hp.subset hx))
  have h1 : (isXmlAlpha c || decide (c = '_')) = true := by
    rcases alpha_facts hc with h | h <;> simp [h]
  simp only [readName, h1, if_true]
  have e1 : (c :: p).takeWhile isNameChar = c :: p := by
    rw [← List.append_nil (c :: p), List.takeWhile_append_of_pos hall]
    simp
  have e2 : (c :: p).dropWhile isNameChar = [] := by
    rw [← List.append_nil (c :: p), List.dropWhile_append_of_pos hall]
    simp
  rw [e1, e2]

theorem XName.prefix_stop {n p : List Char} (h : XName n) (hp : p <+: n) (hne : p ≠ []) : Stop p := by
  obtain ⟨c, cs, rfl, hc, _⟩ := h.bytes
  replace hp := prefix_cons_cases hp
  rcases hp with rfl | ⟨p, rfl, hp⟩
  · exact absurd rfl hne
  · exact stop_of_alpha hc _

/-- an attribute cut off before its closing quote, or with nothing after it -/
theorem parseAttr_cut {u : Bool} {enc : Enc} (hu : u = true → enc = .utf8) {k s2 s3 t v p : List Char} {q : Char} (hk : XName k) (h2 : XSpace s2) (h3 : XSpace s3)
    (hq : q = '"' ∨ q = '\'') (hv : ValueText u q t v) (hf : Full p) (hp : p <+: k ++ (s2 ++ '=' :: (s3 ++ q :: (t ++ [q])))) (hne : p ≠ []) :
    parseAttr enc p = pure none := by
  unfold parseAttr
  replace hp := prefix_append_cases hp
  rcases hp with hp | ⟨p, rfl, hp⟩
  · rw [skipWhite_stop (hk.prefix_stop hp hne), readName_all hk hp hne]
    simp [skipWhite]
  by_cases hp0 : p = []
  · subst hp0
    rw [List.append_nil, skipWhite_stop (hk.prefix_stop (List.prefix_refl _) (by obtain ⟨c, cs, rfl, _⟩ := hk.bytes; simp)),
      readName_all hk (List.prefix_refl _) (by obtain ⟨c, cs, rfl, _⟩ := hk.bytes; simp)]
    simp [skipWhite]
  have hd : ∃ c cs, p = c :: cs ∧ isNameChar c = false := by
    obtain ⟨d, ds, e, hd⟩ := notName_space h2 (c := '=') (by decide) (s3 ++ q :: (t ++ [q]))
    rw [e] at hp
    replace hp := prefix_cons_cases hp
    rcases hp with rfl | ⟨p, rfl, hp⟩
    · exact absurd rfl hp0
    · exact ⟨d, p, rfl, hd⟩
  rw [skipWhite_stop (hk.stop _), readName_of hk hd]
  simp only []
  replace hp := prefix_append_cases hp
  rcases hp with hp | ⟨p, rfl, hp⟩
  · rcases skipWhite_all (enc := enc) (h2.prefix hp) with e | e <;> rw [e]
  replace hp := prefix_cons_cases hp
  rcases hp with rfl | ⟨p, rfl, hp⟩
  · rw [List.append_nil]
    rcases skipWhite_all (enc := enc) h2 with e | e <;> rw [e]
  rw [skipWhite_spaces h2 (eq_stop _)]
  simp only []
  replace hp := prefix_append_cases hp
  rcases hp with hp | ⟨p, rfl, hp⟩
  · rcases skipWhite_all (enc := enc) (h3.prefix hp) with e | e <;> rw [e]
  replace hp := prefix_cons_cases hp
  rcases hp with rfl | ⟨p, rfl, hp⟩
  · rw [List.append_nil]
    rcases skipWhite_all (enc := enc) h3 with e | e <;> rw [e]
  have hst : Stop (q :: p) := by rcases hq with rfl | rfl <;> exact .of_lit _ (by decide) (by decide)
  have hq' : (decide (q = '\'') || decide (q = '"')) = true := by rcases hq with rfl | rfl <;> decide
  rw [skipWhite_spaces h3 hst]
  replace hf : Full p := hf.of_append.of_append.of_cons.of_append.of_cons
  have hr : readText enc q p = pure none := by
    replace hp := prefix_append_cases hp
    rcases hp with hp | ⟨p, rfl, hp⟩
    · exact readText_none _ (Nat.le_refl _) hf fun hc => hv.noQuote hq (hp.subset hc)
    · replace hp := prefix_cons_cases hp
      rcases hp with rfl | ⟨p, rfl, hp⟩
      · rw [List.append_nil] at hf ⊢
        exact readText_none _ (Nat.le_refl _) hf (hv.noQuote hq)
      · have : p = [] := List.prefix_nil.mp hp
        subst this
        exact readText_end hu hq hv
  simp only [hq', if_true, hr, pure_bind]

theorem parseAttrs_cut {u : Bool} {enc : Enc} (hu : u = true → enc = .utf8) {a : List Char} {as : List (String × String)}
    (h : AttrsText u a as) {s p : List Char} (hs : XSpace s) (hf : Full p) (hp : p <+: a ++ (s ++ ['/'])) (acc : List (String × String)) : parseAttrs enc acc p = pure none := by
  induction h generalizing acc p with
  | nil =>
    rw [parseAttrs.eq_def]
    replace hp := prefix_append_cases hp
    rcases hp with hp | ⟨p, rfl, hp⟩
    · rcases skipWhite_all (enc := enc) (s := p) (by rw [List.prefix_nil.mp hp]; simp [XSpace]) with e | e <;> rw [e]
    replace hp := prefix_append_cases hp
    rcases hp with hp | ⟨p, rfl, hp⟩
    · rcases skipWhite_all (enc := enc) (hs.prefix hp) with e | e <;> rw [e]
    replace hp := prefix_cons_cases hp
    rcases hp with rfl | ⟨p, rfl, hp⟩
    · rw [List.append_nil]
      rcases skipWhite_all (enc := enc) hs with e | e <;> rw [e]
    · rw [List.prefix_nil.mp hp, skipWhite_spaces hs (.of_lit _ (by decide) (by decide))]
      simp
  | @cons s1 k s2 s3 q t v rest as h1 h1' hk h2 h3 hq hv hrest ih =>
    have e1 : s1 ++ (k ++ (s2 ++ '=' :: (s3 ++ q :: (t ++ q :: rest)))) ++ (s ++ ['/']) =
        s1 ++ ((k ++ (s2 ++ '=' :: (s3 ++ q :: (t ++ [q])))) ++ (rest ++ (s ++ ['/']))) := by simp [List.append_assoc]
    rw [e1] at hp
    rw [parseAttrs.eq_def]
    replace hp := prefix_append_cases hp
    rcases hp with hp | ⟨p, rfl, hp⟩
    · rcases skipWhite_all (enc := enc) (h1.prefix hp) with e | e <;> rw [e]
    by_cases hp0 : p = []
    · subst hp0
      rw [List.append_nil]
      rcases skipWhite_all (enc := enc) h1 with e | e <;> rw [e]
    have hst : ∃ c cs, p = c :: cs ∧ StartByte c := by
      obtain ⟨c, cs, rfl, hc, _⟩ := hk.bytes
      rw [List.append_assoc, List.cons_append] at hp
      replace hp := prefix_cons_cases hp
      rcases hp with rfl | ⟨p, rfl, hp⟩
      · exact absurd rfl hp0
      · exact ⟨c, p, rfl, hc⟩
    obtain ⟨c, cs, e2, hc⟩ := hst
    have hr := hc.range
    have n1 : c ≠ '/' := toNat_ne (by simp; omega)
    have n2 : c ≠ '>' := toNat_ne (by simp; omega)
    rw [skipWhite_spaces h1 (by rw [e2]; exact stop_of_alpha hc _), e2]
    simp only [if_neg n1, if_neg n2]
    rw [← e2]
    replace hp := prefix_append_cases hp
    rcases hp with hp | ⟨p, rfl, hp⟩
    · simp only [parseAttr_cut hu hk h2 h3 hq hv hf.of_append hp hp0, pure_bind]
    by_cases hp1 : p = []
    · subst hp1
      rw [List.append_nil] at hp0 hf ⊢
      simp only [parseAttr_cut hu hk h2 h3 hq hv hf.of_append (List.prefix_refl _) hp0, pure_bind]
    · have e3 : k ++ (s2 ++ '=' :: (s3 ++ q :: (t ++ [q]))) ++ p = k ++ (s2 ++ '=' :: (s3 ++ q :: (t ++ q :: p))) := by simp
      rw [e3]
      simp only [parseAttr_of hu hk h2 h3 hq hv hp1, pure_bind, if_neg hp1, ih hf.of_append.of_append hp]
      split <;> rfl

theorem afterPattern_cut {b p : List Char} (hb : ¬ ['-', '-'] <:+: b ++ ['-']) (hp : p <+: b ++ ['-', '-']) :
    afterPattern ['-', '-', '>'] p = none := by
  induction b generalizing p with
  | nil =>
    replace hp := prefix_cons_cases hp
    rcases hp with rfl | ⟨p, rfl, hp⟩
    · simp [afterPattern]
    replace hp := prefix_cons_cases hp
    rcases hp with rfl | ⟨p, rfl, hp⟩
    · simp [afterPattern, List.isPrefixOf]
    rw [List.prefix_nil.mp hp]
    simp [afterPattern, List.isPrefixOf]
  | cons c b ih =>
    have hb' : ¬ ['-', '-'] <:+: b ++ ['-'] := fun h => hb (h.trans (List.infix_cons (List.infix_refl _)))
    rw [List.cons_append] at hp
    replace hp := prefix_cons_cases hp
    rcases hp with rfl | ⟨p, rfl, hp⟩
    · simp [afterPattern]
    rw [afterPattern, if_neg, ih hb' hp]
    intro hm
    apply hb
    rw [List.isPrefixOf_iff_prefix, List.cons_prefix_cons] at hm
    obtain ⟨rfl, hm⟩ := hm
    have h2 := hm.trans hp
    cases b with
    | nil => exact ⟨[], [], by simp⟩
    | cons d b =>
      rw [List.cons_append, List.cons_prefix_cons] at h2
      obtain ⟨rfl, _⟩ := h2
      exact ⟨[], b ++ ['-'], by simp⟩

/-- a comment cut off before its end -/
theorem comment_cut {k p : List Char} (h : CommentText k) (hp : p <+: k) (hne : p ≠ k) :
    p = [] ∨ p = ['<'] ∨ ∃ c cs, p = '<' :: c :: cs ∧ ((identify p = .comment ∧ skipComment p = []) ∨
      (identify p = .unknown ∧ skipUnknown p = [])) ∧ "</".toList.isPrefixOf p = false := by
  obtain ⟨b, rfl, hb⟩ := h
  have e1 : ['<', '!', '-', '-'] ++ (b ++ ['-', '-', '>']) = '<' :: '!' :: '-' :: '-' :: ((b ++ ['-', '-']) ++ ['>']) := by simp
  rw [e1] at hp hne
  replace hp := prefix_cons_cases hp
  rcases hp with rfl | ⟨p, rfl, hp⟩
  · exact .inl rfl
  replace hp := prefix_cons_cases hp
  rcases hp with rfl | ⟨p, rfl, hp⟩
  · exact .inr (.inl rfl)
  refine .inr (.inr ⟨_, _, rfl, ?_⟩)
  replace hp := prefix_cons_cases hp
  rcases hp with rfl | ⟨p, rfl, hp⟩
  · refine ⟨.inr ⟨by decide, by decide⟩, by decide⟩
  replace hp := prefix_cons_cases hp
  rcases hp with rfl | ⟨p, rfl, hp⟩
  · refine ⟨.inr ⟨by decide, by decide⟩, by decide⟩
  have hid : identify ('<' :: '!' :: '-' :: '-' :: p) = .comment := by
    simp [identify, prefixNoCase, List.isPrefixOf, show Char.toLower '!' = '!' by decide]
  refine ⟨.inl ⟨hid, ?_⟩, by simp [List.isPrefixOf]⟩
  have hp' : p <+: b ++ ['-', '-'] := by
    replace hp := prefix_append_cases hp
    rcases hp with hp | ⟨q, rfl, hq⟩
    · exact hp
    · replace hq := prefix_cons_cases hq
      rcases hq with rfl | ⟨q, rfl, hq⟩
      · simp
      · rw [List.prefix_nil.mp hq] at hne
        exact absurd rfl hne
  unfold skipComment
  rw [show List.drop 4 ('<' :: '!' :: '-' :: '-' :: p) = p from rfl, show "-->".toList = ['-', '-', '>'] from rfl,
    afterPattern_cut hb hp']
  rfl

theorem skipUnknown_none {p : List Char} (h : '>' ∉ p) : skipUnknown p = [] := by
  unfold skipUnknown
  have : (p.drop 1).dropWhile (· ≠ '>') = [] := by
    rw [← List.append_nil (p.drop 1), List.dropWhile_append_of_pos]
    · rfl
    · intro x hx
      have : x ≠ '>' := by rintro rfl; exact h (List.mem_of_mem_drop hx)
      simpa using this
  rw [this]
  rfl

/-- something that is passed over, cut off before its end -/
def CutNote (p : List Char) : Prop := p = [] ∨ p = ['<'] ∨ ∃ c cs, p = '<' :: c :: cs ∧ c ≠ '/' ∧ Skipped p []

theorem comment_cutNote {k p : List Char} (h : CommentText k) (hp : p <+: k) (hne : p ≠ k) : CutNote p := by
  rcases comment_cut h hp hne with h | h | ⟨c, cs, rfl, h, h'⟩
  · exact .inl h
  · exact .inr (.inl h)
  · refine .inr (.inr ⟨c, cs, rfl, ?_, h⟩)
    rintro rfl
    simp [List.isPrefixOf] at h'

theorem prefix_of_snoc {p l : List Char} {c : Char} (hp : p <+: l ++ [c]) (hne : p ≠ l ++ [c]) : p <+: l := by
  rcases prefix_append_cases hp with hp | ⟨q, rfl, hq⟩
  · exact hp
  · rcases prefix_cons_cases hq with rfl | ⟨q, rfl, hq'⟩
    · simp
    · rw [List.prefix_nil.mp hq'] at hne
      exact absurd rfl hne

theorem pi_cutNote {k p : List Char} (h : PiText k) (hp : p <+: k) (hne : p ≠ k) : CutNote p := by
  obtain ⟨b, rfl, hb, hx⟩ := h
  have e : ['<', '?'] ++ (b ++ ['?', '>']) = ('<' :: '?' :: (b ++ ['?'])) ++ ['>'] := by simp
  rw [e] at hp hne
  replace hp := prefix_of_snoc hp hne
  have hgt : '>' ∉ p := fun hm => by
    have := hp.subset hm
    simp [hb] at this
  replace hp := prefix_cons_cases hp
  rcases hp with rfl | ⟨p, rfl, hp⟩
  · exact .inl rfl
  replace hp := prefix_cons_cases hp
  rcases hp with rfl | ⟨p, rfl, hp⟩
  · exact .inr (.inl rfl)
  refine .inr (.inr ⟨_, _, rfl, by decide, .inr ⟨identify_pi ?_, skipUnknown_none hgt⟩⟩)
  intro hm
  have h2 : ['x', 'm', 'l'] <+: (b ++ ['?']).map Char.toLower := hm.trans (hp.map _)
  rw [List.map_append] at h2
  rcases prefix_append_cases h2 with h2 | ⟨q, e, hq⟩
  · exact hx h2
  · rcases prefix_cons_cases hq with rfl | ⟨q, rfl, hq⟩
    · rw [List.append_nil] at e
      exact hx (by rw [e]; exact List.prefix_refl _)
    · have : '?' ∈ ['x', 'm', 'l'] := by
        rw [e]
        have : Char.toLower '?' = '?' := by decide
        rw [this]
        simp
      exact absurd this (by decide)

theorem doctype_cutNote {k p : List Char} (h : DoctypeText k) (hp : p <+: k) (hne : p ≠ k) : CutNote p := by
  obtain ⟨b, rfl, hb⟩ := h
  have e : ['<', '!', 'D', 'O', 'C', 'T', 'Y', 'P', 'E'] ++ (b ++ ['>']) =
    ('<' :: '!' :: 'D' :: 'O' :: 'C' :: 'T' :: 'Y' :: 'P' :: 'E' :: b) ++ ['>'] := by simp
  rw [e] at hp hne
  replace hp := prefix_of_snoc hp hne
  have hgt : '>' ∉ p := fun hm => by
    have := hp.subset hm
    simp [hb] at this
  replace hp := prefix_cons_cases hp
  rcases hp with rfl | ⟨p, rfl, hp⟩
  · exact .inl rfl
  replace hp := prefix_cons_cases hp
  rcases hp with rfl | ⟨p, rfl, hp⟩
  · exact .inr (.inl rfl)
  refine .inr (.inr ⟨_, _, rfl, by decide, .inr ⟨?_, skipUnknown_none hgt⟩⟩)
  rcases prefix_cons_cases hp with rfl | ⟨p, rfl, hp⟩
  · decide
  · simp [identify, prefixNoCase, List.isPrefixOf, show Char.toLower '!' = '!' by decide]

theorem note_cut {k p : List Char} (h : CommentText k ∨ PiText k) (hp : p <+: k) (hne : p ≠ k) : CutNote p :=
  h.elim (comment_cutNote · hp hne) (pi_cutNote · hp hne)

theorem misc_cut {k p : List Char} (h : CommentText k ∨ PiText k ∨ DoctypeText k) (hp : p <+: k) (hne : p ≠ k) : CutNote p :=
  h.elim (comment_cutNote · hp hne) (·.elim (pi_cutNote · hp hne) (doctype_cutNote · hp hne))

theorem afterPattern_cdata_cut {b p : List Char} (hb : ¬ [']', ']', '>'] <:+: b) (hp : p <+: b ++ [']', ']']) :
    afterPattern [']', ']', '>'] p = none := by
  induction b generalizing p with
  | nil =>
    replace hp := prefix_cons_cases hp
    rcases hp with rfl | ⟨p, rfl, hp⟩
    · simp [afterPattern]
    replace hp := prefix_cons_cases hp
    rcases hp with rfl | ⟨p, rfl, hp⟩
    · simp [afterPattern, List.isPrefixOf]
    rw [List.prefix_nil.mp hp]
    simp [afterPattern, List.isPrefixOf]
  | cons c b ih =>
    have hb' : ¬ [']', ']', '>'] <:+: b := fun h => hb (h.trans (List.infix_cons (List.infix_refl _)))
    rw [List.cons_append] at hp
    replace hp := prefix_cons_cases hp
    rcases hp with rfl | ⟨p, rfl, hp⟩
    · simp [afterPattern]
    rw [afterPattern, if_neg, ih hb' hp]
    intro hm
    rw [List.isPrefixOf_iff_prefix, List.cons_prefix_cons] at hm
    obtain ⟨rfl, hm⟩ := hm
    have h2 := hm.trans hp
    rcases b with _ | ⟨x, _ | ⟨y, b⟩⟩
    · simp at h2
    · simp at h2
    · simp only [List.cons_append, List.cons_prefix_cons] at h2
      obtain ⟨rfl, rfl, _⟩ := h2
      exact hb ⟨[], b, by simp⟩

/-- content that ended at the end of the text -/
def Ended (x : XM (Option (List Elem × List Char))) : Prop := x = pure none ∨ ∃ es, x = pure (some (es, []))

theorem readValue_nil (enc : Enc) : readValue enc [] = pure none := by
  rw [readValue.eq_def]
  simp [skipWhite]

theorem textThen_nil (enc : Enc) : textThen enc [] = pure none := by
  unfold textThen
  rw [skipText.eq_def]
  simp

theorem readValue_lt (enc : Enc) : readValue enc ['<'] = pure none := by
  have hi : identify ['<'] = .unknown := by decide
  have hs : skipUnknown ['<'] = [] := by decide
  have hp : "</".toList.isPrefixOf ['<'] = false := by decide
  rw [readValue.eq_def, skipWhite_stop (lt_stop _)]
  simp only [hi, hs, hp, readValue_nil, ne_eq, not_true, if_false, Bool.false_eq_true]

theorem textThen_lt1 (enc : Enc) : textThen enc ['<'] = pure none := by
  unfold textThen
  rw [skipText.eq_def]
  simp

theorem readValue_note_cut {enc : Enc} {p : List Char} (h : CutNote p) :
    readValue enc p = pure none ∧ textThen enc p = pure none := by
  rcases h with rfl | rfl | ⟨c, cs, rfl, hc, hs⟩
  · exact ⟨readValue_nil enc, textThen_nil enc⟩
  · exact ⟨readValue_lt enc, textThen_lt1 enc⟩
  · rw [textThen_lt, readValue_skipped hc hs]
    exact ⟨readValue_nil enc, readValue_nil enc⟩

/-- a CDATA section that ends the text or is cut off -/
theorem readValue_cdata_cut {enc : Enc} {k p : List Char} (h : CdataText k) (hp : p <+: k) :
    readValue enc p = pure none ∧ textThen enc p = pure none := by
  obtain ⟨b, rfl, hb⟩ := h
  by_cases hlong : ∃ q, p = '<' :: '!' :: '[' :: 'C' :: 'D' :: 'A' :: 'T' :: 'A' :: '[' :: q
  · obtain ⟨q, rfl⟩ := hlong
    have hq : q <+: b ++ [']', ']', '>'] := by simpa using hp
    have hi : identify ('<' :: '!' :: '[' :: 'C' :: 'D' :: 'A' :: 'T' :: 'A' :: '[' :: q) = .cdata := by
      simp [identify, prefixNoCase, List.isPrefixOf, show Char.toLower '!' = '!' by decide]
    have hs : skipCdata ('<' :: '!' :: '[' :: 'C' :: 'D' :: 'A' :: 'T' :: 'A' :: '[' :: q) = none := by
      unfold skipCdata
      rw [show List.drop 9 ('<' :: '!' :: '[' :: 'C' :: 'D' :: 'A' :: 'T' :: 'A' :: '[' :: q) = q from rfl,
        show "]]>".toList = [']', ']', '>'] from rfl]
      by_cases hqe : q = b ++ [']', ']', '>']
      · subst hqe
        rw [afterPattern_cdata hb []]
      · have e : b ++ [']', ']', '>'] = (b ++ [']', ']']) ++ ['>'] := by simp
        rw [e] at hq hqe
        rw [afterPattern_cdata_cut hb (prefix_of_snoc hq hqe)]
    have h1 : readValue enc ('<' :: '!' :: '[' :: 'C' :: 'D' :: 'A' :: 'T' :: 'A' :: '[' :: q) = pure none := by
      have hpr : "</".toList.isPrefixOf ('<' :: '!' :: '[' :: 'C' :: 'D' :: 'A' :: 'T' :: 'A' :: '[' :: q) = false := by simp [List.isPrefixOf]
      rw [readValue.eq_def, skipWhite_stop (lt_stop _)]
      simp only [hi, hs, hpr]
      simp
    rw [textThen_lt, h1]
    exact ⟨rfl, rfl⟩
  · apply readValue_note_cut
    have hshort : p <+: ['<', '!', '[', 'C', 'D', 'A', 'T', 'A', '['] := by
      rcases prefix_append_cases hp with h | ⟨q, rfl, _⟩
      · exact h
      · exact absurd ⟨q, rfl⟩ hlong
    have hall : ∀ n, n < 9 → ['<', '!', '[', 'C', 'D', 'A', 'T', 'A', '['].take n = [] ∨
        ['<', '!', '[', 'C', 'D', 'A', 'T', 'A', '['].take n = ['<'] ∨
        (identify (['<', '!', '[', 'C', 'D', 'A', 'T', 'A', '['].take n) = .unknown ∧
          skipUnknown (['<', '!', '[', 'C', 'D', 'A', 'T', 'A', '['].take n) = [] ∧
          (['<', '!', '[', 'C', 'D', 'A', 'T', 'A', '['].take n).take 2 = ['<', '!']) := by decide
    have e := List.prefix_iff_eq_take.mp hshort
    have hl : p.length < 9 := by
      rcases Nat.lt_or_ge p.length 9 with h | h
      · exact h
      · exfalso
        apply hlong
        refine ⟨[], ?_⟩
        rw [hshort.eq_of_length_le (by simpa using h)]
    rcases hall p.length hl with h | h | ⟨h1, h2, h3⟩
    · exact .inl (e.trans h)
    · exact .inr (.inl (e.trans h))
    · rw [← e] at h1 h2 h3
      refine .inr (.inr ?_)
      rcases p with _ | ⟨x, _ | ⟨y, p⟩⟩
      · simp at h3
      · simp at h3
      · simp at h3
        obtain ⟨rfl, rfl⟩ := h3
        exact ⟨'!', p, rfl, by decide, .inr ⟨h1, h2⟩⟩

theorem endTag_cut {enc : Enc} {n s p : List Char} (hs : XSpace s) (hp : p <+: '<' :: '/' :: (n ++ s)) : endTag enc n p = none := by
  unfold endTag
  split
  · rename_i hpre
    rw [List.isPrefixOf_iff_prefix] at hpre
    obtain ⟨q, rfl⟩ := hpre
    have hq : q <+: s := by
      simpa using hp
    have e : List.drop (n.length + 2) ('<' :: '/' :: n ++ q) = q := by simp
    rw [e]
    rcases skipWhite_all (enc := enc) (hs.prefix hq) with e | e <;> rw [e]
  · rfl

theorem elem_cut_tag {u : Bool} {enc : Enc} (hu : u = true → enc = .utf8) {n a : List Char} {as : List (String × String)}
    {s p : List Char} (hn : XName n) (ha : AttrsText u a as) (hs : XSpace s) (hf : Full p) (hp : p <+: n ++ (a ++ (s ++ ['/']))) (hne : p ≠ []) : parseElem enc ('<' :: p) = pure none := by
  rw [parseElem.eq_def]
  replace hp := prefix_append_cases hp
  rcases hp with hp | ⟨q, rfl, hq⟩
  · unfold readTagName
    rw [List.drop_succ_cons, List.drop_zero, skipWhite_stop (hn.prefix_stop hp hne), readName_all hn hp hne]
    simp
  by_cases hq0 : q = []
  · subst hq0
    rw [List.append_nil] at hne ⊢
    unfold readTagName
    rw [List.drop_succ_cons, List.drop_zero, skipWhite_stop (hn.prefix_stop (List.prefix_refl _) hne),
      readName_all hn (List.prefix_refl _) hne]
    simp
  have hc : ∃ c cs, q = c :: cs ∧ isNameChar c = false := by
    obtain ⟨c, cs, e, hc⟩ := ha.first hs (e := ['/', '>']) (.inl ⟨rfl, rfl⟩) []
    have : q <+: a ++ (s ++ (['/', '>'] ++ [])) := hq.trans ⟨['>'], by simp⟩
    rw [e] at this
    rcases prefix_cons_cases this with h | ⟨q, rfl, _⟩
    · exact absurd h hq0
    · exact ⟨c, q, rfl, hc⟩
  rw [readTagName_of hn hc]
  simp only [parseAttrs_cut hu ha hs hf.of_append hq, pure_bind]

theorem elem_cut {u : Bool} {enc : Enc} (hu : u = true → enc = .utf8) {a : List Char} {e : Elem} (h : ElemText u a e) :
    ∀ p, Full p → '<' :: p <+: a → '<' :: p ≠ a → p ≠ [] → parseElem enc ('<' :: p) = pure none := by
  let M1 : List Char → Prop := fun a => ∀ p, Full p → '<' :: p <+: a → '<' :: p ≠ a → p ≠ [] → parseElem enc ('<' :: p) = pure none
  let M2 : List Char → Prop := fun t => ∀ p, Full p → p <+: t ++ ['<'] → Ended (readValue enc p) ∧ Ended (textThen enc p)
  have he : ∀ {n a as s}, XName n → AttrsText u a as → XSpace s → M1 ('<' :: (n ++ (a ++ (s ++ ['/', '>'])))) := by
    intro n a as s hn ha hs p hf hp hne hp0
    rw [List.cons_prefix_cons] at hp
    refine elem_cut_tag hu hn ha hs hf ?_ hp0
    have e1 : n ++ (a ++ (s ++ ['/', '>'])) = (n ++ (a ++ (s ++ ['/']))) ++ ['>'] := by simp
    rw [e1] at hp hne
    rcases prefix_append_cases hp.2 with hp | ⟨q, rfl, hq⟩
    · exact hp
    · replace hq := prefix_cons_cases hq
      rcases hq with rfl | ⟨q, rfl, hq⟩
      · simp
      · rw [List.prefix_nil.mp hq] at hne
        exact absurd rfl hne
  have hf : ∀ {n a as s t es s'}, XName n → AttrsText u a as → (as.map Prod.fst).Nodup → XSpace s → ContentText u t es → XSpace s' → M2 t →
      M1 ('<' :: (n ++ (a ++ (s ++ '>' :: (t ++ '<' :: '/' :: (n ++ (s' ++ ['>']))))))) := by
    intro n a as s t es s' hn ha hd hs ht hs' ih p hfl hp hne hp0
    have e1 : n ++ (a ++ (s ++ '>' :: (t ++ '<' :: '/' :: (n ++ (s' ++ ['>']))))) =
      (n ++ (a ++ s)) ++ ('>' :: ((t ++ ('<' :: '/' :: (n ++ s'))) ++ ['>'])) := by simp
    rw [List.cons_prefix_cons] at hp
    rw [e1] at hp hne
    rcases prefix_append_cases hp.2 with hp | ⟨q, rfl, hq⟩
    · exact elem_cut_tag hu hn ha hs hfl (hp.trans ⟨['/'], by simp⟩) hp0
    replace hq := prefix_cons_cases hq
    rcases hq with rfl | ⟨q, rfl, hq⟩
    · exact elem_cut_tag hu hn ha hs hfl ⟨['/'], by simp⟩ hp0
    have hq' : q <+: t ++ '<' :: '/' :: (n ++ s') := by
      replace hq := prefix_append_cases hq
      rcases hq with hq | ⟨r, rfl, hr⟩
      · exact hq
      · replace hr := prefix_cons_cases hr
        rcases hr with rfl | ⟨r, rfl, hr⟩
        · simp
        · rw [List.prefix_nil.mp hr] at hne
          exact absurd rfl hne
    have te : TagEnd ['>'] false := .inr ⟨rfl, rfl⟩
    have e2 : '<' :: (n ++ (a ++ s) ++ '>' :: q) = '<' :: (n ++ (a ++ (s ++ (['>'] ++ q)))) := by simp
    rw [e2, parseElem.eq_def, readTagName_of hn (ha.first hs te _)]
    simp only [parseAttrs_of hu ha hs te [] (by simpa using hd), pure_bind, List.nil_append]
    have hnil : endTag enc n [] = none := endTag_cut hs' List.nil_prefix
    have hcase : q <+: t ++ ['<'] ∨ ∃ r, q = t ++ '<' :: '/' :: r ∧ r <+: n ++ s' := by
      rcases prefix_append_cases hq' with hq | ⟨r, rfl, hr⟩
      · exact .inl (hq.trans ⟨['<'], rfl⟩)
      replace hr := prefix_cons_cases hr
      rcases hr with rfl | ⟨r, rfl, hr⟩
      · exact .inl ⟨['<'], by simp⟩
      replace hr := prefix_cons_cases hr
      rcases hr with rfl | ⟨r, rfl, hr⟩
      · exact .inl (List.prefix_refl _)
      · exact .inr ⟨r, rfl, hr⟩
    rcases hcase with hq | ⟨r, rfl, hr⟩
    · rcases (ih q hfl.of_append.of_cons hq).1 with e | ⟨es, e⟩
      · simp only [e, pure_bind]
      · simp only [e, pure_bind, hnil]
    · simp only [((elem_content hu).2 ht r).1, pure_bind]
      rw [endTag_cut hs' (by rw [List.cons_prefix_cons, List.cons_prefix_cons]; exact ⟨rfl, rfl, hr⟩)]
  have h0 : ∀ p : List Char, p <+: ['<'] → Ended (readValue enc p) ∧ Ended (textThen enc p) := by
    intro p hp
    replace hp := prefix_cons_cases hp
    rcases hp with rfl | ⟨p, rfl, hp⟩
    · exact ⟨.inl (readValue_nil enc), .inl (textThen_nil enc)⟩
    · rw [List.prefix_nil.mp hp]
      exact ⟨.inl (readValue_lt enc), .inl (textThen_lt1 enc)⟩
  have k1 : ∀ {c t}, Plain c → M2 t → M2 (utf8 [c] ++ t) := by
    intro c t hc ih p hf hp
    rw [List.append_assoc] at hp
    have hcase : p = [] ∨ ∃ q, p = utf8 [c] ++ q ∧ q <+: t ++ ['<'] := by
      rcases prefix_append_cases hp with hp | h
      · rcases full_prefix_char hf hp with h | h
        · exact .inl h
        · exact .inr ⟨[], by simp [h], List.nil_prefix⟩
      · exact .inr h
    clear hp
    rcases hcase with rfl | ⟨p, rfl, hp⟩
    · exact h0 [] List.nil_prefix
    obtain ⟨i1, i2⟩ := ih p hf.of_append hp
    refine ⟨?_, by rw [textThen_plain hc]; exact i2⟩
    rcases readValue_plain (enc := enc) hc p with h | ⟨_, h⟩ | ⟨_, h⟩
    · rw [h]; exact i2
    · rw [h]; exact i1
    · exact .inr ⟨[], h⟩
  have k2 : ∀ {e c t}, EntityText e c → (u = true ∨ c.toNat < 128) → M2 t → M2 (e ++ t) := by
    intro e c t he hc ih p hf hp
    rw [List.append_assoc] at hp
    obtain ⟨ha, hl, _⟩ := he.ascii
    have hamp : ∀ l, Ended (textThen enc ('&' :: l)) → Ended (readValue enc ('&' :: l)) ∧ Ended (textThen enc ('&' :: l)) :=
      fun l h => ⟨by rw [readValue_text (by decide) (by decide) (by decide)]; exact h, h⟩
    replace hp := prefix_append_cases hp
    rcases hp with hp | ⟨p, rfl, hp⟩
    · by_cases hp0 : p = []
      · subst hp0
        exact h0 [] List.nil_prefix
      have hst : ∃ l, p = '&' :: l := by
        obtain ⟨l, rfl⟩ := he.first
        rcases prefix_cons_cases hp with h | ⟨l, rfl, _⟩
        · exact absurd h hp0
        · exact ⟨l, rfl⟩
      obtain ⟨l, rfl⟩ := hst
      refine hamp l (.inl ?_)
      unfold textThen
      rw [skipText_none hf fun hx => hl (hp.subset hx)]
      simp
    · obtain ⟨cs, e1, e2⟩ := getChar_entity (enc := enc) he (or_utf8 hu hc) p
      rw [e1]
      refine hamp cs ?_
      rw [textThen_char (by decide) (by decide) e2]
      exact (ih p hf.of_append hp).2
  have k3 : ∀ {k t}, CommentText k ∨ PiText k → M2 t → M2 (k ++ t) := by
    intro k t hk ih p hf hp
    rw [List.append_assoc] at hp
    have hcase : (p <+: k ∧ p ≠ k) ∨ ∃ q, p = k ++ q ∧ q <+: t ++ ['<'] := by
      replace hp := prefix_append_cases hp
      rcases hp with hp | h
      · by_cases e : p = k
        · exact .inr ⟨[], by simp [e], List.nil_prefix⟩
        · exact .inl ⟨hp, e⟩
      · exact .inr h
    clear hp
    rcases hcase with ⟨hp, hne⟩ | ⟨p, rfl, hp⟩
    · obtain ⟨e1, e2⟩ := readValue_note_cut (enc := enc) (note_cut hk hp hne)
      exact ⟨.inl e1, .inl e2⟩
    · obtain ⟨e1, e2⟩ := readValue_note (enc := enc) hk p
      rw [e1, e2]
      exact ⟨(ih p hf.of_append hp).1, (ih p hf.of_append hp).1⟩
  have k5 : ∀ {k t}, CdataText k → M2 t → M2 (k ++ t) := by
    intro k t hk ih p hf hp
    rw [List.append_assoc] at hp
    rcases prefix_append_cases hp with hp | ⟨q, rfl, hq⟩
    · obtain ⟨e1, e2⟩ := readValue_cdata_cut (enc := enc) hk hp
      exact ⟨.inl e1, .inl e2⟩
    · cases q with
      | nil =>
        obtain ⟨e1, e2⟩ := readValue_cdata_cut (enc := enc) hk (List.prefix_refl k)
        rw [List.append_nil]
        exact ⟨.inl e1, .inl e2⟩
      | cons x q =>
        obtain ⟨e1, e2⟩ := readValue_cdata (enc := enc) hk x q
        rw [e1, e2]
        exact ⟨(ih _ hf.of_append hq).1, (ih _ hf.of_append hq).1⟩
  have k4 : ∀ {a e t}, ElemText u a e → M1 a → M2 t → M2 (a ++ t) := by
    intro a e t ha iha ih p hf hp
    rw [List.append_assoc] at hp
    have hcase : (p <+: a ∧ p ≠ a) ∨ ∃ q, p = a ++ q ∧ q <+: t ++ ['<'] := by
      replace hp := prefix_append_cases hp
      rcases hp with hp | h
      · by_cases e : p = a
        · exact .inr ⟨[], by simp [e], List.nil_prefix⟩
        · exact .inl ⟨hp, e⟩
      · exact .inr h
    clear hp
    rcases hcase with ⟨hp, hne⟩ | ⟨p, rfl, hp⟩
    · obtain ⟨c, cs, e1, hc⟩ := ha.cons []
      rw [List.append_nil] at e1
      rw [e1] at hp
      replace hp := prefix_cons_cases hp
      rcases hp with rfl | ⟨p, rfl, hp⟩
      · exact h0 [] List.nil_prefix
      replace hp := prefix_cons_cases hp
      rcases hp with rfl | ⟨p, rfl, hp⟩
      · exact h0 ['<'] (List.prefix_refl _)
      have hnone := iha (c :: p) hf.of_cons (by rw [e1, List.cons_prefix_cons, List.cons_prefix_cons]; exact ⟨rfl, rfl, hp⟩) hne (by simp)
      have h1 : readValue enc ('<' :: c :: p) = pure none := by
        obtain ⟨hi, hpr⟩ := identify_elem hc p
        have hp' : "</".toList.isPrefixOf ('<' :: c :: p) = false := hpr
        rw [readValue.eq_def, skipWhite_stop (lt_stop _)]
        simp only [hi, hp', hnone, pure_bind, ne_eq, not_true, if_false, Bool.false_eq_true]
      exact ⟨.inl h1, .inl (by rw [textThen_lt, h1])⟩
    · have hel := (elem_content hu).1 ha p
      have h1 : Ended (readValue enc (a ++ p)) := by
        obtain ⟨c, cs, e1, hc⟩ := ha.cons p
        obtain ⟨hi, hpr⟩ := identify_elem hc cs
        have hp' : "</".toList.isPrefixOf ('<' :: c :: cs) = false := hpr
        rw [e1] at hel ⊢
        rw [readValue.eq_def, skipWhite_stop (lt_stop _)]
        simp only [hi, hp', hel, pure_bind, ne_eq, not_true, if_false, Bool.false_eq_true]
        rcases (ih p hf.of_append hp).1 with e2 | ⟨es, e2⟩
        · exact .inl (by simp only [e2, pure_bind])
        · exact .inr ⟨e :: es, by simp only [e2, pure_bind]⟩
      refine ⟨h1, ?_⟩
      obtain ⟨c, cs, e1, _⟩ := ha.cons p
      rw [e1] at h1 ⊢
      rw [textThen_lt]
      exact h1
  exact ElemText.rec (motive_1 := fun a e _ => M1 a) (motive_2 := fun t es _ => M2 t)
    (fun hn ha hd hs => he hn ha hs) (fun hn ha hd hs ht hs' ih => hf hn ha hd hs ht hs' ih)
    (fun p _ hp => h0 p hp) (fun hp _ ih => k1 hp ih) (fun h hc _ ih => k2 h hc ih) (fun h _ ih => k3 h ih) (fun h _ ih => k5 h ih)
    (fun h _ iha ih => k4 h iha ih) h

/-- no element was read: an error, or nothing at top level -/
def NoRoot (x : XM (Option (List Elem))) : Prop := x = pure none ∨ x = pure (some [])

theorem docLoop_lt (enc : Enc) : docLoop enc ['<'] = pure (some []) := by
  have hi : identify ['<'] = .unknown := by decide
  have hs : skipUnknown ['<'] = [] := by decide
  rw [docLoop.eq_def, skipWhite_stop (lt_stop _)]
  simp only [hi, hs, docLoop_nil, ne_eq, not_true, if_false]

theorem docLoop_cut {u : Bool} {enc : Enc} (hu : u = true → enc = .utf8) {m x : List Char} {e : Elem} (hm : MiscText m)
    (hx : ElemText u x e) : ∀ p, Full p → p <+: m ++ x → p ≠ m ++ x → NoRoot (docLoop enc p) := by
  induction hm with
  | nil =>
    intro p hf hp hne
    rw [List.nil_append] at hp hne
    obtain ⟨c, cs, e1, hc⟩ := hx.cons []
    rw [List.append_nil] at e1
    have hcase : p = [] ∨ p = ['<'] ∨ ∃ q, p = '<' :: c :: q := by
      rw [e1] at hp
      replace hp := prefix_cons_cases hp
      rcases hp with rfl | ⟨p, rfl, hp⟩
      · exact .inl rfl
      replace hp := prefix_cons_cases hp
      rcases hp with rfl | ⟨p, rfl, hp⟩
      · exact .inr (.inl rfl)
      · exact .inr (.inr ⟨p, rfl⟩)
    rcases hcase with rfl | rfl | ⟨q, rfl⟩
    · exact .inr (docLoop_nil enc)
    · exact .inr (docLoop_lt enc)
    · left
      have := elem_cut hu hx (c :: q) hf.of_cons hp hne (by simp)
      rw [docLoop.eq_def, skipWhite_stop (lt_stop _)]
      simp only [(identify_elem hc q).1, this, pure_bind, ne_eq, not_true, if_false]
  | space hc _ ih =>
    intro p hf hp hne
    rw [List.cons_append] at hp hne
    replace hp := prefix_cons_cases hp
    rcases hp with rfl | ⟨p, rfl, hp⟩
    · exact .inr (docLoop_nil enc)
    obtain ⟨h1, h2⟩ := space_of (hc _ List.mem_cons_self)
    rw [docLoop_space h1 h2]
    exact ih p hf.of_cons hp fun e => hne (by rw [e])
  | @note k t hk _ ih =>
    intro p hf hp hne
    rw [List.append_assoc] at hp hne
    have hcase : (p <+: k ∧ p ≠ k) ∨ ∃ q, p = k ++ q ∧ q <+: t ++ x := by
      replace hp := prefix_append_cases hp
      rcases hp with hp | h
      · by_cases e : p = k
        · exact .inr ⟨[], by simp [e], List.nil_prefix⟩
        · exact .inl ⟨hp, e⟩
      · exact .inr h
    clear hp
    rcases hcase with ⟨hp, hne'⟩ | ⟨p, rfl, hp⟩
    · rcases misc_cut hk hp hne' with rfl | rfl | ⟨c, cs, rfl, _, hs⟩
      · exact .inr (docLoop_nil enc)
      · exact .inr (docLoop_lt enc)
      · right
        rw [docLoop_skipped hs, docLoop_nil]
    · obtain ⟨c, cs, e, _, hs⟩ := misc_skipped hk p
      rw [e, docLoop_skipped hs]
      exact ih p hf.of_append hp fun e => hne (by rw [e])

theorem parseDecl_nil (enc : Enc) (d : String) : parseDecl enc d [] = pure none := by rw [parseDecl.eq_def]

/-- the declaration ends inside a name, or in white space, or at the `?` -/
theorem parseDecl_word {enc : Enc} {d : String} {s w : List Char} (hs : XSpace s) (hw : w = [] ∨ Stop w)
    (hall : ∀ c ∈ w, c ≠ '>' ∧ isXmlSpace c = false) (hcut : parseAttr enc w = pure none) :
    parseDecl enc d (s ++ w) = pure none := by
  have hsk : skipLoop enc (s ++ w) = w := by
    rcases hw with rfl | hw
    · rw [List.append_nil, skipLoop_all hs]
    · exact skipLoop_spaces hs hw
  have hdrop : w.dropWhile (fun c => !(c = '>' || isXmlSpace c)) = [] := by
    rw [← List.append_nil w, List.dropWhile_append_of_pos]
    · simp
    · intro c hc
      simp [(hall c hc).1, (hall c hc).2]
  cases hl : s ++ w with
  | nil => exact parseDecl_nil enc d
  | cons c cs =>
    rw [hl] at hsk
    have hc : c ≠ '>' := by
      rintro rfl
      have : '>' ∈ s ++ w := by rw [hl]; exact List.mem_cons_self
      rcases List.mem_append.mp this with h | h
      · have := hs _ h
        simp at this
      · exact (hall _ h).1 rfl
    rw [parseDecl.eq_def]
    simp only [if_neg hc, hsk, hcut, hdrop, pure_bind, parseDecl_nil, ite_self]

theorem parseAttr_nil (enc : Enc) : parseAttr enc [] = pure none := by
  simp [parseAttr, skipWhite, readName]

theorem nameChar_facts {d : Char} (h : NameByte d) : d ≠ '>' ∧ isXmlSpace d = false := by
  rcases h with h | rfl | rfl | rfl | rfl | ⟨h, -⟩
  · refine ⟨?_, not_space_of_range ?_⟩
    · rintro rfl
      revert h
      decide
    · have := alnum_range h
      omega
  iterate 4 decide
  · exact ⟨toNat_ne (by simp; omega), not_space_of_range (by omega)⟩

theorem XName.chars {n : List Char} (h : XName n) : ∀ c ∈ n, c ≠ '>' ∧ isXmlSpace c = false :=
  fun c hc => nameChar_facts (h.bytes_all c hc)

theorem parseDecl_cut {enc : Enc} {a : List Char} {as : List (String × String)} (h : AttrsText false a as)
    (hk : ∀ kv ∈ as, kv.1 = "version" ∨ kv.1 = "encoding" ∨ kv.1 = "standalone") {s : List Char} (hs : XSpace s) :
    ∀ (d : String) p, Full p → p <+: a ++ (s ++ ['?']) → parseDecl enc d p = pure none := by
  have hsp : ∀ {s : List Char} (d : String), XSpace s → parseDecl enc d s = pure none := by
    intro s d hs
    have := parseDecl_word (enc := enc) (d := d) (w := []) hs (.inl rfl) (by simp) (parseAttr_nil enc)
    simpa using this
  induction h with
  | nil =>
    intro d p hf hp
    rw [List.nil_append] at hp
    replace hp := prefix_append_cases hp
    rcases hp with hp | ⟨p, rfl, hp⟩
    · exact hsp d (hs.prefix hp)
    replace hp := prefix_cons_cases hp
    rcases hp with rfl | ⟨p, rfl, hp⟩
    · rw [List.append_nil]
      exact hsp d hs
    · rw [List.prefix_nil.mp hp]
      have hst : Stop ['?'] := .of_lit _ (by decide) (by decide)
      refine parseDecl_word hs (.inr hst) (by decide) ?_
      unfold parseAttr
      rw [skipWhite_stop hst]
      have : readName (some ['?']) = none := by decide
      rw [this]
  | @cons s1 k s2 s3 q t v rest as h1 h1' hkn h2 h3 hq hv hrest ih =>
    intro d p hf hp
    have e1 : s1 ++ (k ++ (s2 ++ '=' :: (s3 ++ q :: (t ++ q :: rest)))) ++ (s ++ ['?']) =
        s1 ++ ((k ++ (s2 ++ '=' :: (s3 ++ q :: (t ++ [q])))) ++ (rest ++ (s ++ ['?']))) := by simp [List.append_assoc]
    rw [e1] at hp
    replace hp := prefix_append_cases hp
    rcases hp with hp | ⟨p, rfl, hp⟩
    · exact hsp d (h1.prefix hp)
    by_cases hp0 : p = []
    · subst hp0
      rw [List.append_nil]
      exact hsp d h1
    have hin := hk _ List.mem_cons_self
    have ih' := ih fun kv hkv => hk kv (List.mem_cons_of_mem _ hkv)
    have hpre : ∀ (w : List Char) (n : String), k = n.toList → prefixNoCase n.toList (k ++ w) = true := by
      intro w n e
      subst e
      unfold prefixNoCase
      rw [List.isPrefixOf_iff_prefix, List.map_append]
      exact List.prefix_append _ _
    have hk' : ∀ (n : String), String.ofList k = n → k = n.toList := fun n e => by rw [← e]; simp
    -- the declaration from an attribute whose name is complete
    have step : ∀ (w : List Char) (res : Option ((String × String) × List Char)), parseAttr enc (k ++ w) = pure res →
        (∀ a r, res = some (a, r) → ∀ d, parseDecl enc d r = pure none) → parseDecl enc d (s1 ++ (k ++ w)) = pure none := by
      intro w res hr hres
      have hsk := skipLoop_spaces (enc := enc) h1 (hkn.stop w)
      have hc : ∃ c cs, s1 ++ (k ++ w) = c :: cs ∧ c ≠ '>' := by
        cases s1 with
        | nil => exact absurd rfl h1'
        | cons x s1 =>
          refine ⟨x, _, rfl, ?_⟩
          rcases h1 x List.mem_cons_self with rfl | rfl | rfl | rfl | rfl | rfl <;> decide
      obtain ⟨c, cs, e, hc⟩ := hc
      have hmatch : (prefixNoCase "version".toList (k ++ w) || prefixNoCase "standalone".toList (k ++ w)) = true ∨
          prefixNoCase "encoding".toList (k ++ w) = true := by
        rcases hin with hin | hin | hin
        · left; simp only [hpre w _ (hk' _ hin), Bool.true_or]
        · right; exact hpre w _ (hk' _ hin)
        · left; simp only [hpre w _ (hk' _ hin), Bool.or_true]
      rw [e, parseDecl.eq_def]
      simp only [if_neg hc]
      rw [← e, hsk]
      cases res with
      | none =>
        by_cases hm : (prefixNoCase "version".toList (k ++ w) || prefixNoCase "standalone".toList (k ++ w)) = true
        · simp only [hm, if_true, hr, pure_bind]
        · rcases hmatch with h | h
          · exact absurd h hm
          · simp only [hm, h, if_true, if_false, hr, pure_bind, Bool.false_eq_true]
      | some ar =>
        obtain ⟨a, r⟩ := ar
        by_cases hm : (prefixNoCase "version".toList (k ++ w) || prefixNoCase "standalone".toList (k ++ w)) = true
        · simp only [hm, if_true, hr, pure_bind]
          exact hres a r rfl _
        · rcases hmatch with h | h
          · exact absurd h hm
          · simp only [hm, h, if_true, if_false, hr, pure_bind, Bool.false_eq_true]
            exact hres a r rfl _
    replace hp := prefix_append_cases hp
    rcases hp with hp | ⟨p, rfl, hp⟩
    · have hcut := parseAttr_cut (u := false) (enc := enc) (by simp) hkn h2 h3 hq hv hf.of_append hp hp0
      replace hp := prefix_append_cases hp
      rcases hp with hp | ⟨w, rfl, _⟩
      · exact parseDecl_word h1 (.inr (hkn.prefix_stop hp hp0)) (fun c hc => hkn.chars c (hp.subset hc)) hcut
      · exact step w none hcut (by simp)
    by_cases hp1 : p = []
    · subst hp1
      have hcut := parseAttr_cut (u := false) (enc := enc) (by simp) hkn h2 h3 hq hv (by simpa using hf.of_append) (List.prefix_refl _) (by obtain ⟨c, cs, rfl, _⟩ := hkn; simp)
      rw [List.append_nil]
      exact step _ none hcut (by simp)
    · have e3 : k ++ (s2 ++ '=' :: (s3 ++ q :: (t ++ [q]))) ++ p = k ++ (s2 ++ '=' :: (s3 ++ q :: (t ++ q :: p))) := by simp
      rw [e3]
      refine step _ _ (parseAttr_of (u := false) (by simp) hkn h2 h3 hq hv hp1) ?_
      intro a r e d
      simp only [Option.some.injEq, Prod.mk.injEq] at e
      rw [← e.2]
      exact ih' d p hf.of_append.of_append hp

theorem docLoop_decl_cut {u : Bool} {enc : Enc} {t p : List Char} (h : DeclText u t) (hf : Full p) (hp : p <+: t) (hne : p ≠ t) : NoRoot (docLoop enc p) := by
  obtain ⟨a, as, s, rfl, ha, hs, hk, _⟩ := h
  right
  have hun : ∀ cs : List Char, identify ('<' :: cs) = .unknown → skipUnknown ('<' :: cs) = [] → docLoop enc ('<' :: cs) = pure (some []) := by
    intro cs h1 h2
    rw [docLoop.eq_def, skipWhite_stop (lt_stop _)]
    simp only [h1, h2, docLoop_nil, ne_eq, not_true, if_false]
  have e1 : ['<', '?', 'x', 'm', 'l'] ++ (a ++ (s ++ ['?', '>'])) = '<' :: '?' :: 'x' :: 'm' :: 'l' :: ((a ++ (s ++ ['?'])) ++ ['>']) := by simp
  rw [e1] at hp hne
  replace hp := prefix_cons_cases hp
  rcases hp with rfl | ⟨p, rfl, hp⟩
  · exact docLoop_nil enc
  replace hp := prefix_cons_cases hp
  rcases hp with rfl | ⟨p, rfl, hp⟩
  · exact docLoop_lt enc
  replace hp := prefix_cons_cases hp
  rcases hp with rfl | ⟨p, rfl, hp⟩
  · exact hun _ (by decide) (by decide)
  replace hp := prefix_cons_cases hp
  rcases hp with rfl | ⟨p, rfl, hp⟩
  · exact hun _ (by decide) (by decide)
  replace hp := prefix_cons_cases hp
  rcases hp with rfl | ⟨p, rfl, hp⟩
  · exact hun _ (by decide) (by decide)
  have hp' : p <+: a ++ (s ++ ['?']) := by
    replace hp := prefix_append_cases hp
    rcases hp with hp | ⟨q, rfl, hq⟩
    · exact hp
    · replace hq := prefix_cons_cases hq
      rcases hq with rfl | ⟨q, rfl, hq⟩
      · simp
      · rw [List.prefix_nil.mp hq] at hne
        exact absurd rfl hne
  have hi : identify ('<' :: '?' :: 'x' :: 'm' :: 'l' :: p) = .declaration := by
    simp [identify, prefixNoCase, List.isPrefixOf]
  rw [docLoop.eq_def, skipWhite_stop (lt_stop _)]
  simp [hi, parseDecl_cut ha hk hs "" p hf.of_cons.of_cons.of_cons.of_cons.of_cons hp']

/-- A document that ends before its root element ends has no root element. -/
theorem parseXml_cut {u : Bool} {pr x p : List Char} {e : Elem} (hpr : Prolog u pr) (hx : ElemText u x e)
    (hf : Full p) (hz : '\x00' ∉ p) (hp : p <+: pr ++ x) (hne : p ≠ pr ++ x) : NoRoot (parseXml p) := by
  have hdoc : NoRoot (docLoop (startEnc p) p) := by
    obtain ⟨b, d, m, u', rfl, hb, hd, hm, hu⟩ := hpr
    have e0 : b ++ (d ++ m) ++ x = b ++ (d ++ (m ++ x)) := by simp
    rw [e0] at hp hne
    have key : ∀ enc, enc ≠ .legacy → (u = true → enc = .utf8 ∨ u' = true) → ∀ q, Full q → q <+: d ++ (m ++ x) → q ≠ d ++ (m ++ x) →
        NoRoot (docLoop enc q) := by
      intro enc he hue q hf hq hne
      have hcase : (q <+: d ∧ q ≠ d) ∨ ∃ r, q = d ++ r ∧ r <+: m ++ x := by
        rcases prefix_append_cases hq with hq | h
        · by_cases e : q = d
          · exact .inr ⟨[], by simp [e], List.nil_prefix⟩
          · exact .inl ⟨hq, e⟩
        · exact .inr h
      rcases hcase with ⟨h1, h2⟩ | ⟨r, rfl, hr⟩
      · rcases hd with ⟨rfl, _⟩ | hd
        · exact absurd (List.prefix_nil.mp h1) h2
        · exact docLoop_decl_cut hd hf h1 h2
      · have hne' : r ≠ m ++ x := fun e => hne (by rw [e])
        rcases hd with ⟨rfl, rfl⟩ | hd
        · exact docLoop_cut (fun h => (hue h).resolve_right (by simp)) hm hx r hf hr hne'
        · obtain ⟨enc', e1, e2, e3⟩ := docLoop_decl (enc := enc) hd r
          rw [e1]
          exact docLoop_cut (fun h => (hue h).elim e2 (e3 · he)) hm hx r hf.of_append hr hne'
    rcases hb with rfl | rfl
    · rw [List.nil_append] at hp hne
      refine key _ (startEnc_ne p) (fun h => .inr ((hu h).resolve_left (by decide))) p hf hp hne
    · have hcase : p = [] ∨ ∃ q, p = bom ++ q ∧ q <+: d ++ (m ++ x) := by
        have e : bom = utf8 [Char.ofNat 0xfeff] := by decide
        rcases prefix_append_cases hp with hp | h
        · rw [e] at hp
          rcases full_prefix_char hf hp with h | h
          · exact .inl h
          · exact .inr ⟨[], by rw [h, e]; simp, List.nil_prefix⟩
        · exact .inr h
      rcases hcase with rfl | ⟨q, rfl, hq⟩
      · exact .inr (docLoop_nil _)
      · rw [startEnc_bom, docLoop_bom]
        exact key .utf8 (by decide) (fun _ => .inl rfl) q hf.of_append hq fun e => hne (by rw [e])
  unfold parseXml
  rw [takeWhile_no_nul hz]
  dsimp only
  split
  · exact hdoc
  · exact .inl rfl

end Tinyfk
