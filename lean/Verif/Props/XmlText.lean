import Verif.Proofs.XmlBad
import Verif.Props.DocExample

/-!
# Reading XML text

C71 (reading does not leave the text), C72 (well-formed documents), C73
(truncated documents), C74 (documents that are not well-formed).
-/

set_option linter.unusedSimpArgs false
set_option linter.unusedVariables false

namespace Tinyfk

section

variable {K : Type} [Scalar K]

/-- **C71.** For a Python `str` (encoded in UTF-8), parsing never reads outside the text. -/
theorem C71_in_bounds (num : String → Option K) (s : List Char) : ∃ r, parseURDFText num (String.ofList (utf8 s)) = pure r := by
  obtain ⟨r, e, _, h⟩ := parseXml_good (String.ofList (utf8 s)).toList
  obtain ⟨a, rfl⟩ := h (by rw [String.toList_ofList, utf8_takeWhile]; exact utf8_full _)
  unfold parseURDFText
  rw [e]
  cases a <;> exact ⟨_, rfl⟩

/-- **C71, for bytes.** It is enough that every byte that announces a sequence of `k` bytes is followed by `k - 1` more
before the end of the text (or a NUL). -/
theorem C71_in_bounds_bytes_partial (num : String → Option K) (text : String)
    (h : ∀ c cs, (c :: cs) <:+ text.toList.takeWhile (· ≠ '\x00') → utf8Len c ≤ cs.length + 1) :
    ∃ r, parseURDFText num text = pure r := by
  obtain ⟨r, e, _, h'⟩ := parseXml_good text.toList
  obtain ⟨a, rfl⟩ := h' h
  unfold parseURDFText
  rw [e]
  cases a <;> exact ⟨_, rfl⟩

/-- byte order mark, then `<a b="`, then the first byte of a three-byte sequence -/
def cutSequence : List Char :=
  Char.ofNat 0xef :: Char.ofNat 0xbb :: Char.ofNat 0xbf :: ['<', 'a', ' ', 'b', '=', '"', Char.ofNat 0xe2]

/-- **C71 is false of arbitrary bytes.** A text that ends in the middle of a UTF-8 sequence makes the parser read past
the end. -/
theorem C71_false (num : String → Option K) : parseURDFText num (String.ofList cutSequence) = throw () := by
  have hp : ∀ l, l = ['<', 'a', ' ', 'b', '=', '"', Char.ofNat 0xe2] → parseElem .utf8 l = throw () := by
    rintro l rfl
    have h1 : readTagName .utf8 ['<', 'a', ' ', 'b', '=', '"', Char.ofNat 0xe2] =
        some (['a'], [' ', 'b', '=', '"', Char.ofNat 0xe2]) :=
      readTagName_of (n := ['a']) (r := [' ', 'b', '=', '"', Char.ofNat 0xe2]) (.of_ascii (by decide) (by simp)) ⟨' ', _, rfl, by decide⟩
    have hn : XName ['b'] := XName.of_ascii (by decide) (by simp)
    have hr : readText .utf8 '"' [Char.ofNat 0xe2] = throw () := by
      rw [readText.eq_def]
      have hg : getChar .utf8 (Char.ofNat 0xe2) [] = throw () := by
        have hl : charLen .utf8 (Char.ofNat 0xe2) = 3 := by decide
        unfold getChar
        rw [hl]
        simp
      have : Char.ofNat 0xe2 ≠ '"' := by decide
      simp only [if_neg this, hg]
      rfl
    have h2 : parseAttr .utf8 ['b', '=', '"', Char.ofNat 0xe2] = throw () := by
      unfold parseAttr
      have e1 : readName (skipWhite .utf8 (some ['b', '=', '"', Char.ofNat 0xe2])) = some (['b'], ['=', '"', Char.ofNat 0xe2]) := by
        rw [show ['b', '=', '"', Char.ofNat 0xe2] = ['b'] ++ ['=', '"', Char.ofNat 0xe2] from rfl,
          skipWhite_stop (hn.stop ['=', '"', Char.ofNat 0xe2])]
        exact readName_of (r := ['=', '"', Char.ofNat 0xe2]) hn ⟨'=', _, rfl, by decide⟩
      rw [e1]
      simp only []
      rw [skipWhite_stop (eq_stop _)]
      simp only []
      rw [skipWhite_stop (.of_lit _ (by decide) (by decide))]
      have hq : (decide ('"' = '\'') || decide ('"' = '"')) = true := by decide
      simp only [hq, if_true, hr]
      rfl
    have h3 : parseAttrs .utf8 [] [' ', 'b', '=', '"', Char.ofNat 0xe2] = throw () := by
      have e1 := skipWhite_spaces (enc := .utf8) (s := [' ']) (by simp [XSpace]) (hn.stop ['=', '"', Char.ofNat 0xe2])
      rw [parseAttrs.eq_def]
      rw [show [' ', 'b', '=', '"', Char.ofNat 0xe2] = [' '] ++ (['b'] ++ ['=', '"', Char.ofNat 0xe2]) from rfl, e1]
      have n1 : 'b' ≠ '/' := by decide
      have n2 : 'b' ≠ '>' := by decide
      simp only [List.cons_append, List.nil_append, if_neg n1, if_neg n2, h2]
      rfl
    rw [parseElem.eq_def, h1]
    simp only [h3]
    rfl
  have hd : parseXml cutSequence = throw () := by
    have e0 : cutSequence.takeWhile (· ≠ '\x00') = cutSequence := by decide
    have e1 : startEnc cutSequence = .utf8 := by decide
    have e2 : skipWhite .utf8 (some cutSequence) = some ['<', 'a', ' ', 'b', '=', '"', Char.ofNat 0xe2] := by
      have : skipLoop .utf8 cutSequence = skipLoop .utf8 ['<', 'a', ' ', 'b', '=', '"', Char.ofNat 0xe2] := by
        unfold cutSequence
        rw [skipLoop.eq_def]
        simp [isBom]
      unfold cutSequence at this ⊢
      rw [skipWhite, this, skipLoop_stop (lt_stop _)]
    have hi : identify ['<', 'a', ' ', 'b', '=', '"', Char.ofNat 0xe2] = .element := (identify_elem (.inl (by decide)) _).1
    unfold parseXml
    rw [e0]
    dsimp only
    rw [e1, e2]
    simp only []
    rw [docLoop.eq_def, e2]
    simp only [hi, hp _ rfl, ne_eq, not_true, if_false]
    rfl
  unfold parseURDFText
  rw [String.toList_ofList, hd]
  rfl

/-- **C72.** A well-formed XML text is read as the element tree it describes. -/
theorem C72_wellformed {t : List Char} {e : Elem} (h : DocText t e) (hz : '\x00' ∉ t) : parseXml t = pure (some [e]) := by
  have := parseXml_doc (r := []) h (by simpa using hz) [] (docLoop_nil ·)
  simpa using this

/-- **C72, for a robot description.** What `parseURDF` makes of a well-formed text is what it makes of the element the
text describes. -/
theorem C72_urdf (num : String → Option K) {t : List Char} {e : Elem} (h : DocText t e) (hz : '\x00' ∉ t) :
    parseURDFText num (String.ofList t) = pure ((parseURDF num [e]).map (·.2)) ∧
    parseText num (String.ofList t) = (parseURDF num [e]).map (·.2) := by
  have h1 : parseURDFText num (String.ofList t) = pure ((parseURDF num [e]).map (·.2)) := by
    unfold parseURDFText
    rw [String.toList_ofList, C72_wellformed h hz]
    rfl
  exact ⟨h1, by unfold parseText; rw [h1]; rfl⟩

theorem parseURDF_nil (num : String → Option K) : parseURDF num [] = none := rfl

/-- **C73.** A robot description that was cut off after any character before the end of its root element is rejected. The
text that is left is the Python `str` `s`. -/
theorem C73_truncated (num : String → Option K) {u : Bool} {p x s : List Char} {e : Elem} (hp : Prolog u p) (hx : ElemText u x e)
    (hz : '\x00' ∉ s) (hs : utf8 s <+: p ++ x) (hne : utf8 s ≠ p ++ x) :
    parseURDFText num (String.ofList (utf8 s)) = pure none ∧ parseText num (String.ofList (utf8 s)) = none := by
  have hz' : '\x00' ∉ utf8 s := by
    intro h
    unfold utf8 at h
    obtain ⟨c, hc, h⟩ := List.mem_flatMap.mp h
    exact utf8_nul (fun e => hz (by rw [← e]; exact hc)) _ h rfl
  have h1 : parseURDFText num (String.ofList (utf8 s)) = pure none := by
    unfold parseURDFText
    rw [String.toList_ofList]
    rcases parseXml_cut hp hx (utf8_full s) hz' hs hne with e | e <;> rw [e] <;> rfl
  exact ⟨h1, by unfold parseText; rw [h1]; rfl⟩

/-- **C73, for a file of bytes.** Cut off after any byte before the end of the root element, a document is rejected
as long as the last character is whole. -/
theorem C73_truncated_bytes (num : String → Option K) {u : Bool} {p x t : List Char} {e : Elem} (hp : Prolog u p) (hx : ElemText u x e)
    (hz : '\x00' ∉ t) (hf : ∀ c cs, (c :: cs) <:+ t → utf8Len c ≤ cs.length + 1) (ht : t <+: p ++ x) (hne : t ≠ p ++ x) :
    parseURDFText num (String.ofList t) = pure none := by
  unfold parseURDFText
  rw [String.toList_ofList]
  rcases parseXml_cut hp hx hf hz ht hne with e | e <;> rw [e] <;> rfl

/-- **C74, what holds.** A document is rejected when its root element, or an element inside it, has two attributes of the
same name or an end tag that does not match. -/
theorem C74_bad_element_partial (num : String → Option K) {u : Bool} {p b : List Char} (hp : Prolog u p) (hb : BadElem u b)
    (hz : '\x00' ∉ p ++ b) : parseURDFText num (String.ofList (p ++ b)) = pure none := by
  unfold parseURDFText
  rw [String.toList_ofList, parseXml_bad hp hb hz]
  rfl

/-- **C74 is false, in general.** Anything may follow the root element, as long as it does not begin with '<': the document
is accepted as if nothing followed. -/
theorem C74_trailing_text (num : String → Option K) {t s g : List Char} {c : Char} {e : Elem} (h : DocText t e) (hs : XSpace s)
    (hc : isXmlSpace c = false ∧ c ≠ '<' ∧ c.toNat < 128) (hz : '\x00' ∉ t ++ (s ++ c :: g)) :
    parseURDFText num (String.ofList (t ++ (s ++ c :: g))) = parseURDFText num (String.ofList t) := by
  have hcef : c ≠ Char.ofNat 0xef := toNat_ne (by rw [ofNat_ef]; omega)
  have hdoc : ∀ enc, docLoop enc (s ++ c :: g) = pure (some []) := by
    intro enc
    rw [docLoop.eq_def, skipWhite_spaces hs ⟨c, g, rfl, hc.1, hcef⟩]
    simp [hc.2.1]
  have hz' : '\x00' ∉ t := fun hm => hz (List.mem_append_left _ hm)
  rw [(C72_urdf num h hz').1]
  unfold parseURDFText
  rw [String.toList_ofList, parseXml_doc h hz [] hdoc]
  rfl

/-- **C74 is false, for two root elements.** Of two documents, one after the other, only the first counts. -/
theorem C74_second_root (num : String → Option K) {t t' : List Char} {e e' : Elem} (h : DocText t e)
    (h' : ∃ m x, t' = m ++ x ∧ MiscText m ∧ ElemText false x e') (hz : '\x00' ∉ t ++ t') (hr : e.name = "robot") :
    parseURDFText num (String.ofList (t ++ t')) = parseURDFText num (String.ofList t) := by
  obtain ⟨m, x, rfl, hm, hx⟩ := h'
  have hdoc : ∀ enc, docLoop enc (m ++ x) = pure (some [e']) := by
    intro enc
    rw [docLoop_misc hm, ← List.append_nil x]
    exact docLoop_elem (by simp) hx (docLoop_nil enc)
  have hz' : '\x00' ∉ t := fun hm => hz (List.mem_append_left _ hm)
  rw [(C72_urdf num h hz').1]
  unfold parseURDFText
  rw [String.toList_ofList, parseXml_doc h hz [e'] hdoc]
  have : parseURDF num [e, e'] = parseURDF num [e] := by
    have h1 : [e, e'].find? (fun e => e.name == "robot") = some e := by simp [hr]
    have h2 : [e].find? (fun e => e.name == "robot") = some e := by simp [hr]
    unfold parseURDF
    rw [h1, h2]
  show (pure ((parseURDF num [e, e']).map (·.2)) : XM (Option (ModelInterface K))) = _
  rw [this]

end

/-! ### every element tree has a text -/

/-- a value, with the characters that need it written as entities; the other bytes as they are -/
def escape (v : List Char) : List Char :=
  v.flatMap fun c => if c = '&' then ['&', 'a', 'm', 'p', ';'] else if c = '<' then ['&', 'l', 't', ';']
    else if c = '"' then ['&', 'q', 'u', 'o', 't', ';'] else [c]

/-- attributes -/
def renderAttrs : List (String × String) → List Char
  | [] => []
  | a :: as => [' '] ++ (a.1.toList ++ ([] ++ '=' :: ([] ++ '"' :: (escape a.2.toList ++ '"' :: renderAttrs as))))

mutual

/-- an element as text -/
def render : Elem → List Char
  | .mk n as kids => '<' :: (n.toList ++ (renderAttrs as ++ ([] ++ '>' :: (renderAll kids ++ '<' :: '/' :: (n.toList ++ ([] ++ ['>']))))))

/-- elements as text -/
def renderAll : List Elem → List Char
  | [] => []
  | e :: es => render e ++ renderAll es

end

mutual

/-- names are names, attributes are distinct, values are the bytes of a `str` without NUL -/
def Writable : Elem → Prop
  | .mk n as kids => XName n.toList ∧ (as.map Prod.fst).Nodup ∧
      (∀ a ∈ as, XName a.1.toList ∧ ∃ w, a.2.toList = utf8 w ∧ '\x00' ∉ w) ∧ AllWritable kids

/-- all of them -/
def AllWritable : List Elem → Prop
  | [] => True
  | e :: es => Writable e ∧ AllWritable es

end

theorem utf8_cons (c : Char) (w : List Char) : utf8 (c :: w) = utf8 [c] ++ utf8 w := by simp [utf8]

theorem escape_value (u : Bool) {w : List Char} (h : '\x00' ∉ w) : ValueText u '"' (escape (utf8 w)) (utf8 w) := by
  induction w with
  | nil => exact .nil
  | cons c w ih =>
    have ih := ih fun hx => h (List.mem_cons_of_mem _ hx)
    have h0 : c ≠ '\x00' := fun e => h (by rw [e]; exact List.mem_cons_self)
    have ea : ∀ a b, escape (a ++ b) = escape a ++ escape b := fun a b => by simp [escape]
    rw [utf8_cons, ea]
    have same : ∀ x : Char, x ≠ '&' → x ≠ '<' → x ≠ '"' → escape [x] = [x] := by
      intro x h1 h2 h3
      simp [escape, h1, h2, h3]
    by_cases ha : c.toNat < 128
    · by_cases h1 : c = '&'
      · subst h1; exact .entity .amp (.inr (by decide)) ih
      by_cases h2 : c = '<'
      · subst h2; exact .entity .lt (.inr (by decide)) ih
      by_cases h3 : c = '"'
      · subst h3; exact .entity .quot (.inr (by decide)) ih
      have e : escape (utf8 [c]) = utf8 [c] := by rw [utf8_ascii ha]; exact same c h1 h2 h3
      rw [e]
      exact .char ⟨h1, h2, h0⟩ h3 ih
    · obtain ⟨b, bs, e, hb, _, hc, _⟩ := utf8_multi (c := c) (by omega)
      have hbytes : ∀ x ∈ utf8 [c], 128 ≤ x.toNat := by
        rw [e]
        intro x hx
        rcases List.mem_cons.mp hx with rfl | hx
        · omega
        · exact (hc x hx).1
      have all : ∀ l : List Char, (∀ x ∈ l, 128 ≤ x.toNat) → escape l = l := by
        intro l
        induction l with
        | nil => intro _; rfl
        | cons x l ih =>
          intro hl
          have hx := hl x List.mem_cons_self
          have ne : ∀ y : Char, y.toNat < 128 → x ≠ y := by rintro y hy rfl; omega
          rw [show x :: l = [x] ++ l from rfl, ea, same x (ne _ (by decide)) (ne _ (by decide)) (ne _ (by decide)),
            ih fun y hy => hl y (List.mem_cons_of_mem _ hy)]
      rw [all _ hbytes]
      have ne : ∀ y : Char, y.toNat < 128 → c ≠ y := by rintro y hy rfl; omega
      exact .char ⟨ne _ (by decide), ne _ (by decide), h0⟩ (ne _ (by decide)) ih

theorem renderAttrs_text (u : Bool) {as : List (String × String)} (h : ∀ a ∈ as, XName a.1.toList ∧ ∃ w, a.2.toList = utf8 w ∧ '\x00' ∉ w) :
    AttrsText u (renderAttrs as) as := by
  induction as with
  | nil => exact .nil
  | cons a as ih =>
    obtain ⟨h1, w, h2, h3⟩ := h a List.mem_cons_self
    have hv := escape_value u h3
    rw [← h2] at hv
    have := AttrsText.cons (s1 := [' ']) (s2 := []) (s3 := []) (by simp [XSpace]) (by simp) h1 (by simp [XSpace]) (by simp [XSpace]) (.inl rfl)
      hv (ih fun x hx => h x (List.mem_cons_of_mem _ hx))
    simpa [renderAttrs] using this

mutual

theorem render_text : ∀ (e : Elem), Writable e → ElemText false (render e) e
  | .mk n as kids => by
    intro h
    simp only [Writable] at h
    have := ElemText.full (s := []) (s' := []) h.1 (renderAttrs_text false h.2.2.1) h.2.1 (by simp [XSpace]) (renderAll_text kids h.2.2.2)
      (by simp [XSpace])
    simpa [render] using this

theorem renderAll_text : ∀ (es : List Elem), AllWritable es → ContentText false (renderAll es) es
  | [], _ => .nil
  | e :: es, h => by
    simp only [AllWritable] at h
    have := ContentText.elem (render_text e h.1) (renderAll_text es h.2)
    simpa [renderAll] using this

end

theorem prolog_nil : Prolog false [] := ⟨[], [], [], false, rfl, .inl rfl, .inl ⟨rfl, rfl⟩, .nil, by simp⟩

/-- Every element tree with ASCII names and values that are texts has a text that is read back as that tree. -/
theorem C72_every_tree {e : Elem} (h : Writable e) (hz : '\x00' ∉ render e) : parseXml (render e) = pure (some [e]) :=
  C72_wellformed ⟨false, [], render e, [], by simp, prolog_nil, render_text e h, .nil⟩ hz

namespace XmlExample

set_option maxRecDepth 4000

variable {K : Type} [Scalar K]

/-- a declaration, a comment, a document type and the start of a robot, in the ways texts differ: single quotes, spaces,
entities, text, character references, CDATA, processing instructions, characters that are not ASCII -/
def text : List Char :=
  utf8 ("<?xml version='1.0' encoding=\"utf-8\" ?>\n<!DOCTYPE robot>\x0c<!-- a-b --><?a b?>\n<robot name = \"a&amp;&#233;&#x2F;\u00e9\"\n>".toList ++
    "hello \u4f60 &lt;<link name='base'/><!----><?c?><![CDATA[</robot>]]></robot >\n".toList)

/-- its element tree -/
def tree : Elem := .mk "robot" [("name", String.ofList (utf8 "a&\u00e9/\u00e9".toList))] [.mk "link" [("name", "base")] []]

theorem nm (c : Char) (cs : List Char) (h1 : c.isAlpha) (h2 : ∀ d ∈ cs, d.isAlphanum) : XName (c :: cs) :=
  .of_ascii (.inl h1) fun d hd => .inl (h2 d hd)

/-- a name that is not ASCII -/
example : XName (utf8 "größe-你".toList) :=
  ⟨'g', ['r', 'ö', 'ß', 'e', '-', '你'], rfl, .inl (by decide), by unfold NameChar Foreign; decide⟩

theorem sp (s : List Char) (h : ∀ c ∈ s, c = ' ' ∨ c = '\t' ∨ c = '\n' ∨ c = '\r' ∨ c = '\x0b' ∨ c = '\x0c') : XSpace s := h

theorem plainText (u : Bool) (q : Char) (t : List Char) (h : ∀ c ∈ t, (c ≠ '&' ∧ c ≠ '<' ∧ c ≠ '\x00' ∧ c.toNat < 128) ∧ c ≠ q) :
    ValueText u q t t := by
  induction t with
  | nil => exact .nil
  | cons c t ih =>
    obtain ⟨⟨h1, h2, h3, h4⟩, h5⟩ := h c List.mem_cons_self
    have := ValueText.char (u := u) ⟨h1, h2, h3⟩ h5 (ih fun x hx => h x (List.mem_cons_of_mem _ hx))
    rwa [utf8_ascii h4] at this

theorem plainContent (u : Bool) {es : List Elem} (s t : List Char) (h : ∀ c ∈ s, c ≠ '&' ∧ c ≠ '<' ∧ c ≠ '\x00') (ht : ContentText u t es) :
    ContentText u (utf8 s ++ t) es := by
  induction s with
  | nil => exact ht
  | cons c s ih =>
    rw [utf8_cons, List.append_assoc]
    exact .char (h c List.mem_cons_self) (ih fun x hx => h x (List.mem_cons_of_mem _ hx))

/-- `<link name='base'/>` -/
def linkText : List Char := "<link name='base'/>".toList

theorem link_text (u : Bool) : ElemText u linkText (.mk "link" [("name", "base")] []) :=
  ElemText.empty (n := "link".toList) (a := " name='base'".toList) (s := [])
    (nm 'l' ['i', 'n', 'k'] (by decide) (by decide))
    (AttrsText.cons (s1 := [' ']) (k := "name".toList) (s2 := []) (s3 := []) (q := '\'') (t := "base".toList) (rest := [])
      (sp _ (by decide)) (by decide) (nm 'n' ['a', 'm', 'e'] (by decide) (by decide)) (sp _ (by decide)) (sp _ (by decide)) (.inr rfl)
      (plainText _ _ _ (by decide)) .nil)
    (by decide) (sp _ (by decide))

theorem comment1 : CommentText "<!-- a-b -->".toList := ⟨" a-b ".toList, by decide, by decide⟩

theorem comment2 : CommentText "<!---->".toList := ⟨[], by decide, by decide⟩

/-- the robot element -/
def robotText : List Char :=
  utf8 "<robot name = \"a&amp;&#233;&#x2F;\u00e9\"\n>hello \u4f60 &lt;<link name='base'/><!----><?c?><![CDATA[</robot>]]></robot >".toList

theorem value_text : ValueText true '"' (utf8 "a&amp;&#233;&#x2F;\u00e9".toList) (utf8 "a&\u00e9/\u00e9".toList) := by
  have h := ValueText.char (u := true) (q := '"') (c := 'a') (by unfold Plain; decide) (by decide)
    (.entity .amp (.inr (by decide))
    (.entity (.dec (ds := "233".toList) (c := '\u00e9') (by decide) (by decide) (by decide) (by decide)) (.inl rfl)
    (.entity (.hex (ds := "2F".toList) (c := '/') (by decide) (by decide) (by decide) (by decide)) (.inl rfl)
    (.char (c := '\u00e9') (by unfold Plain; decide) (by decide) .nil))))
  exact h

theorem robot_text : ElemText true robotText tree :=
  ElemText.full (n := "robot".toList) (a := " name = \"".toList ++ (utf8 "a&amp;&#233;&#x2F;\u00e9".toList ++ "\"".toList)) (s := ['\n'])
    (t := utf8 "hello \u4f60 ".toList ++ ("&lt;".toList ++ (linkText ++ ("<!---->".toList ++ ("<?c?>".toList ++ ("<![CDATA[</robot>]]>".toList ++ [])))))) (s' := [' '])
    (nm 'r' "obot".toList (by decide) (by decide))
    (AttrsText.cons (s1 := [' ']) (k := "name".toList) (s2 := [' ']) (s3 := [' ']) (q := '"') (t := utf8 "a&amp;&#233;&#x2F;\u00e9".toList)
      (v := utf8 "a&\u00e9/\u00e9".toList)
      (rest := []) (sp _ (by decide)) (by decide) (nm 'n' ['a', 'm', 'e'] (by decide) (by decide)) (sp _ (by decide)) (sp _ (by decide)) (.inl rfl)
      value_text .nil)
    (by decide) (sp _ (by decide))
    (plainContent _ _ _ (by decide) (.entity .lt (.inr (by decide)) (.elem (link_text _) (.note (.inl comment2)
      (.note (.inr ⟨['c'], by decide, by decide, by decide⟩) (.cdata ⟨"</robot>".toList, by decide, by decide⟩ .nil))))))
    (sp _ (by decide))

theorem decl_text : DeclText true "<?xml version='1.0' encoding=\"utf-8\" ?>".toList :=
  ⟨" version='1.0' encoding=\"utf-8\"".toList, [("version", "1.0"), ("encoding", "utf-8")], [' '], by decide,
    AttrsText.cons (s1 := [' ']) (k := "version".toList) (s2 := []) (s3 := []) (q := '\'') (t := "1.0".toList) (rest := " encoding=\"utf-8\"".toList)
      (sp _ (by decide)) (by decide) (nm 'v' "ersion".toList (by decide) (by decide)) (sp _ (by decide)) (sp _ (by decide)) (.inr rfl)
      (plainText _ _ _ (by decide))
      (AttrsText.cons (s1 := [' ']) (k := "encoding".toList) (s2 := []) (s3 := []) (q := '"') (t := "utf-8".toList) (rest := [])
        (sp _ (by decide)) (by decide) (nm 'e' "ncoding".toList (by decide) (by decide)) (sp _ (by decide)) (sp _ (by decide)) (.inl rfl)
        (plainText _ _ _ (by decide)) .nil),
    sp _ (by decide), by decide, by
      intro _ kv hkv hk
      simp only [List.mem_cons, List.not_mem_nil, or_false] at hkv
      rcases hkv with rfl | rfl
      · exact absurd hk (by decide)
      · exact .inr (.inl (by decide))⟩

theorem misc_text : MiscText "\n<!DOCTYPE robot>\x0c<!-- a-b --><?a b?>\n".toList :=
  .space (sp _ (by decide)) (.note (k := "<!DOCTYPE robot>".toList) (.inr (.inr ⟨" robot".toList, by decide, by decide⟩)) (.space (sp _ (by decide))
    (.note (.inl comment1) (.note (k := "<?a b?>".toList) (.inr (.inl ⟨"a b".toList, by decide, by decide, by decide⟩)) (.space (sp _ (by decide)) .nil)))))

/-- what comes before the robot -/
def prologText : List Char :=
  "<?xml version='1.0' encoding=\"utf-8\" ?>".toList ++ "\n<!DOCTYPE robot>\x0c<!-- a-b --><?a b?>\n".toList

theorem prolog_text : Prolog true prologText :=
  ⟨[], _, _, true, rfl, .inl rfl, .inr decl_text, misc_text, fun _ => .inr rfl⟩

theorem doc_text : DocText text tree :=
  ⟨true, prologText, robotText, ['\n'], by decide, prolog_text, robot_text, .space (sp _ (by decide)) .nil⟩

/-- the same after a byte order mark, without declaration -/
theorem bom_text : DocText (bom ++ robotText) tree :=
  ⟨true, bom, robotText, [], by simp, ⟨bom, [], [], false, rfl, .inr rfl, .inl ⟨rfl, rfl⟩, .nil, fun _ => .inl rfl⟩, robot_text, .nil⟩

/-- the text with the byte order mark is read as the same tree -/
example : parseXml (bom ++ robotText) = pure (some [tree]) := C72_wellformed bom_text (by decide)

/-- the text is read as its tree -/
example : parseXml text = pure (some [tree]) := C72_wellformed doc_text (by decide)

/-- what is left of the text after the first `\u00e9` in the name -/
def cutText : List Char :=
  "<?xml version='1.0' encoding=\"utf-8\" ?>\n<!DOCTYPE robot>\x0c<!-- a-b --><?a b?>\n<robot name = \"a&amp;&#233;&#x2F;\u00e9".toList

/-- it is rejected -/
example (num : String → Option K) : parseURDFText num (String.ofList (utf8 cutText)) = pure none :=
  (C73_truncated num prolog_text robot_text (by decide) (by decide) (by decide)).1

/-- the text followed by more text is read as before -/
example (num : String → Option K) : parseURDFText num (String.ofList (text ++ ([] ++ 'o' :: "ops </robot>".toList))) =
    parseURDFText num (String.ofList text) :=
  C74_trailing_text num doc_text (sp _ (by decide)) (by decide) (by decide)

/-- the text followed by another element is read as before -/
example (num : String → Option K) : parseURDFText num (String.ofList (text ++ ([] ++ linkText))) = parseURDFText num (String.ofList text) :=
  C74_second_root num doc_text ⟨[], linkText, rfl, .nil, link_text _⟩ (by decide) rfl

/-- `<robot><link name='base'/></rob>` is rejected -/
example (num : String → Option K) : parseURDFText num "<robot><link name='base'/></rob>" = pure none :=
  C74_bad_element_partial num (u := false) (p := []) (b := "<robot><link name='base'/></rob>".toList) prolog_nil
    (BadElem.mismatch (n := "robot".toList) (a := []) (s := []) (t := linkText ++ []) (n' := "rob".toList) (s' := []) (r := [])
      (nm 'r' "obot".toList (by decide) (by decide)) .nil (by decide) (sp _ (by decide)) (.elem (link_text _) .nil)
      (nm 'r' "ob".toList (by decide) (by decide)) (by decide) (sp _ (by decide))) (by decide)

/-- `<robot><link name='base' name='arm'/></robot>` is rejected -/
example (num : String → Option K) : parseURDFText num "<robot><link name='base' name='arm'/></robot>" = pure none :=
  C74_bad_element_partial num (u := false) (p := []) (b := "<robot><link name='base' name='arm'/></robot>".toList) prolog_nil
    (BadElem.inner (n := "robot".toList) (a := []) (s := []) (t := []) (b := "<link name='base' name='arm'/></robot>".toList)
      (nm 'r' "obot".toList (by decide) (by decide)) .nil (by decide) (sp _ (by decide)) .nil
      (BadElem.duplicate (n := "link".toList) (a := " name='base' name='arm'".toList) (r := "/></robot>".toList)
        (nm 'l' ['i', 'n', 'k'] (by decide) (by decide))
        (AttrsText.cons (s1 := [' ']) (k := "name".toList) (s2 := []) (s3 := []) (q := '\'') (t := "base".toList) (rest := " name='arm'".toList)
          (sp _ (by decide)) (by decide) (nm 'n' ['a', 'm', 'e'] (by decide) (by decide)) (sp _ (by decide)) (sp _ (by decide)) (.inr rfl)
          (plainText _ _ _ (by decide))
          (AttrsText.cons (s1 := [' ']) (k := "name".toList) (s2 := []) (s3 := []) (q := '\'') (t := "arm".toList) (rest := [])
            (sp _ (by decide)) (by decide) (nm 'n' ['a', 'm', 'e'] (by decide) (by decide)) (sp _ (by decide)) (sp _ (by decide)) (.inr rfl)
            (plainText _ _ _ (by decide)) .nil)) (by decide))) (by decide)

theorem asciiValue {v : String} (h : ∀ c ∈ v.toList, c.toNat < 128 ∧ c ≠ '\x00') : ∃ w, v.toList = utf8 w ∧ '\x00' ∉ w := by
  refine ⟨v.toList, ?_, fun hx => (h _ hx).2 rfl⟩
  generalize v.toList = l at h
  induction l with
  | nil => rfl
  | cons c l ih =>
    rw [utf8_cons, utf8_ascii (h c List.mem_cons_self).1, ← ih fun x hx => h x (List.mem_cons_of_mem _ hx)]
    rfl

/-- the robot of `DocExample` can be written -/
theorem robot_writable : Writable (DocExample.robotElem DocExample.inertialElem) := by
  simp only [DocExample.robotElem, DocExample.baseElem, DocExample.inertialElem, DocExample.jointElem, DocExample.armElem, Writable, AllWritable,
    List.forall_mem_cons]
  repeat' apply And.intro
  all_goals first | exact nm _ _ (by decide) (by decide) | exact asciiValue (by decide) | decide | trivial | (intro a ha; simp at ha)

/-- and its text is read back -/
example : parseXml (render (DocExample.robotElem DocExample.inertialElem)) = pure (some [DocExample.robotElem DocExample.inertialElem]) :=
  C72_every_tree robot_writable (by decide)

end XmlExample

end Tinyfk
