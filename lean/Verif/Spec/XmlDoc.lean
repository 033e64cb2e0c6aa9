import Verif.Model.Xml

/-!
# XML texts, as a grammar

What it means that a text is a well-formed XML document with a given element tree: elements, attributes in
either kind of quotes, entities and character references, character data, CDATA sections, comments, processing
instructions, a document type declaration and the XML declaration. Texts are sequences of bytes, the UTF-8
encoding of a Python `str`; attribute values are sequences of bytes too. Names may have any characters beyond ASCII
except U+F000 to U+FFFF, which is more than XML allows in some places and less in others. Processing instructions and
document type declarations do not contain '>' before their end. This does not mention the parser.

The flag `u` of the grammar says that the document is marked as UTF-8 (by a byte order mark or its declaration).
Without it, character references are restricted to ASCII.
-/

namespace Tinyfk

/-- the bytes of a Python `str` as they are passed to the library -/
def utf8 (s : List Char) : List Char := s.flatMap fun c => (String.utf8EncodeChar c).map fun b => Char.ofNat b.toNat

/-- blanks, tabs and line ends; XML has only the first four -/
def XSpace (s : List Char) : Prop :=
  ∀ c ∈ s, c = ' ' ∨ c = '\t' ∨ c = '\n' ∨ c = '\r' ∨ c = '\x0b' ∨ c = '\x0c'

/-- a character beyond ASCII, but not from U+F000 to U+FFFF (private use, ligatures, the byte order mark) -/
def Foreign (c : Char) : Prop := 128 ≤ c.toNat ∧ (c.toNat < 0xf000 ∨ 0x10000 ≤ c.toNat)

/-- a character that a name can begin with: a letter, an underscore, or a character beyond ASCII -/
def NameStart (c : Char) : Prop := c.isAlpha ∨ c = '_' ∨ Foreign c

/-- a character inside a name: letters, digits, `_`, `-`, `.`, `:`, and characters beyond ASCII -/
def NameChar (c : Char) : Prop := c.isAlphanum ∨ c = '_' ∨ c = '-' ∨ c = '.' ∨ c = ':' ∨ Foreign c

/-- a name -/
def XName (s : List Char) : Prop := ∃ c cs, s = utf8 (c :: cs) ∧ NameStart c ∧ ∀ d ∈ cs, NameChar d

/-- the digit that a character is, in bases up to 16; 16 for other characters -/
def digitVal (c : Char) : Nat := "0123456789abcdef".toList.idxOf c.toLower

/-- the number with these digits -/
def numeral (base : Nat) (ds : List Char) : Nat := ds.foldl (fun n d => base * n + digitVal d) 0

/-- the five entities, and references to a character by its number, `&#233;` or `&#xe9;` -/
inductive EntityText : List Char → Char → Prop
  | amp : EntityText ['&', 'a', 'm', 'p', ';'] '&'
  | lt : EntityText ['&', 'l', 't', ';'] '<'
  | gt : EntityText ['&', 'g', 't', ';'] '>'
  | quot : EntityText ['&', 'q', 'u', 'o', 't', ';'] '"'
  | apos : EntityText ['&', 'a', 'p', 'o', 's', ';'] '\''
  | dec {ds c} : ds ≠ [] → (∀ d ∈ ds, digitVal d < 10) → numeral 10 ds = c.toNat → c ≠ '\x00' →
      EntityText ('&' :: '#' :: (ds ++ [';'])) c
  | hex {ds c} : ds ≠ [] → (∀ d ∈ ds, digitVal d < 16) → numeral 16 ds = c.toNat → c ≠ '\x00' →
      EntityText ('&' :: '#' :: 'x' :: (ds ++ [';'])) c

/-- a character that stands for itself -/
def Plain (c : Char) : Prop := c ≠ '&' ∧ c ≠ '<' ∧ c ≠ '\x00'

/-- `ValueText u q t v`: between quotes `q`, the text `t` is the value `v` -/
inductive ValueText (u : Bool) (q : Char) : List Char → List Char → Prop
  | nil : ValueText u q [] []
  | char {c t v} : Plain c → c ≠ q → ValueText u q t v → ValueText u q (utf8 [c] ++ t) (utf8 [c] ++ v)
  | entity {e c t v} : EntityText e c → (u = true ∨ c.toNat < 128) → ValueText u q t v →
      ValueText u q (e ++ t) (utf8 [c] ++ v)

/-- `AttrsText u t as`: the text `t` is the attributes `as`, each preceded by white space -/
inductive AttrsText (u : Bool) : List Char → List (String × String) → Prop
  | nil : AttrsText u [] []
  | cons {s1 k s2 s3 q t v rest as} : XSpace s1 → s1 ≠ [] → XName k → XSpace s2 → XSpace s3 → (q = '"' ∨ q = '\'') →
      ValueText u q t v → AttrsText u rest as →
      AttrsText u (s1 ++ (k ++ (s2 ++ '=' :: (s3 ++ q :: (t ++ q :: rest))))) ((String.ofList k, String.ofList v) :: as)

/-- a comment: no two hyphens in a row and no hyphen at the end of the body -/
def CommentText (t : List Char) : Prop :=
  ∃ b, t = ['<', '!', '-', '-'] ++ (b ++ ['-', '-', '>']) ∧ ¬ ['-', '-'] <:+: b ++ ['-']

/-- a processing instruction other than `<?xml`, without '>' in its body -/
def PiText (t : List Char) : Prop :=
  ∃ b, t = ['<', '?'] ++ (b ++ ['?', '>']) ∧ '>' ∉ b ∧ ¬ ['x', 'm', 'l'] <+: b.map Char.toLower

/-- a CDATA section -/
def CdataText (t : List Char) : Prop :=
  ∃ b, t = ['<', '!', '[', 'C', 'D', 'A', 'T', 'A', '['] ++ (b ++ [']', ']', '>']) ∧ ¬ [']', ']', '>'] <:+: b

/-- a document type declaration without '>' in its body -/
def DoctypeText (t : List Char) : Prop :=
  ∃ b, t = ['<', '!', 'D', 'O', 'C', 'T', 'Y', 'P', 'E'] ++ (b ++ ['>']) ∧ '>' ∉ b

mutual

/-- the text is the element -/
inductive ElemText (u : Bool) : List Char → Elem → Prop
  | empty {n a as s} : XName n → AttrsText u a as → (as.map Prod.fst).Nodup → XSpace s →
      ElemText u ('<' :: (n ++ (a ++ (s ++ ['/', '>'])))) (.mk (String.ofList n) as [])
  | full {n a as s t es s'} : XName n → AttrsText u a as → (as.map Prod.fst).Nodup → XSpace s → ContentText u t es → XSpace s' →
      ElemText u ('<' :: (n ++ (a ++ (s ++ '>' :: (t ++ '<' :: '/' :: (n ++ (s' ++ ['>']))))))) (.mk (String.ofList n) as es)

/-- the text between a start tag and its end tag has these child elements -/
inductive ContentText (u : Bool) : List Char → List Elem → Prop
  | nil : ContentText u [] []
  | char {c t es} : Plain c → ContentText u t es → ContentText u (utf8 [c] ++ t) es
  | entity {e c t es} : EntityText e c → (u = true ∨ c.toNat < 128) → ContentText u t es → ContentText u (e ++ t) es
  | note {k t es} : CommentText k ∨ PiText k → ContentText u t es → ContentText u (k ++ t) es
  | cdata {k t es} : CdataText k → ContentText u t es → ContentText u (k ++ t) es
  | elem {a e t es} : ElemText u a e → ContentText u t es → ContentText u (a ++ t) (e :: es)

end

/-- white space, comments, processing instructions and document type declarations -/
inductive MiscText : List Char → Prop
  | nil : MiscText []
  | space {c t} : XSpace [c] → MiscText t → MiscText (c :: t)
  | note {k t} : CommentText k ∨ PiText k ∨ DoctypeText k → MiscText t → MiscText (k ++ t)

/-- a name of the encoding UTF-8 -/
def Utf8Name (v : String) : Prop :=
  v = "" ∨ "utf-8".toList <+: v.toList.map Char.toLower ∨ "utf8".toList <+: v.toList.map Char.toLower

/-- the XML declaration with attributes `version`, `encoding`, `standalone`; with `u`, the encoding is UTF-8 or not given -/
def DeclText (u : Bool) (t : List Char) : Prop :=
  ∃ a as s, t = ['<', '?', 'x', 'm', 'l'] ++ (a ++ (s ++ ['?', '>'])) ∧ AttrsText false a as ∧ XSpace s ∧
    (∀ kv ∈ as, kv.1 = "version" ∨ kv.1 = "encoding" ∨ kv.1 = "standalone") ∧
    (u = true → ∀ kv ∈ as, kv.1 = "encoding" → Utf8Name kv.2)

/-- the byte order mark -/
def bom : List Char := [Char.ofNat 0xef, Char.ofNat 0xbb, Char.ofNat 0xbf]

/-- What comes before the root element: an optional byte order mark, an optional declaration, then white space, comments
and so on. With `u`, the mark or the declaration says that the encoding is UTF-8. -/
def Prolog (u : Bool) (p : List Char) : Prop :=
  ∃ b d m u', p = b ++ (d ++ m) ∧ (b = [] ∨ b = bom) ∧ (d = [] ∧ u' = false ∨ DeclText u' d) ∧ MiscText m ∧
    (u = true → b = bom ∨ u' = true)

/-- A document with root element `e`: the prolog, the element, then white space, comments and so on. -/
def DocText (t : List Char) (e : Elem) : Prop :=
  ∃ u p x m, t = p ++ (x ++ m) ∧ Prolog u p ∧ ElemText u x e ∧ MiscText m

/-- A text that begins with an element that is not well-formed: two attributes of the same name, an end tag with
another name, or a child element that is not well-formed. -/
inductive BadElem (u : Bool) : List Char → Prop
  | duplicate {n a as r} : XName n → AttrsText u a as → ¬ (as.map Prod.fst).Nodup → BadElem u ('<' :: (n ++ (a ++ r)))
  | mismatch {n a as s t es n' s' r} : XName n → AttrsText u a as → (as.map Prod.fst).Nodup → XSpace s → ContentText u t es →
      XName n' → n' ≠ n → XSpace s' → BadElem u ('<' :: (n ++ (a ++ (s ++ '>' :: (t ++ '<' :: '/' :: (n' ++ (s' ++ '>' :: r)))))))
  | inner {n a as s t es b} : XName n → AttrsText u a as → (as.map Prod.fst).Nodup → XSpace s → ContentText u t es → BadElem u b →
      BadElem u ('<' :: (n ++ (a ++ (s ++ '>' :: (t ++ b)))))

end Tinyfk
