import Verif.Model.Xml

/-!
# From XML text to elements

Models the reading part of `urdf_parser/tinyxml/tinyxmlparser.cpp` that `parseURDF` uses
(`TiXmlDocument::Parse` on a string, with `condenseWhiteSpace` on). A `Char` is one byte.

* A `const char*` into the text is the list of bytes up to the terminating NUL; the null pointer
  is `none`. Reading past the NUL is undefined behaviour.
* Rows and columns (`Stamp`, see `Model/XmlStamp`) and the texts of error messages are left out. `SetError` is not a
  separate flag: every function here that calls it also returns the null pointer, and
  the callers of `parseElem` go on to return null themselves; `parseXml` gives `none` exactly when
  the flag is set.
* Text nodes, comments, CDATA, declarations and unknown nodes are passed over: the URDF parser
  never looks at them.
* The C++ functions are recursive on nested elements; the depth of the machine stack is not
  modelled.
-/

namespace Tinyfk

/-- tinyxml.h `TiXmlEncoding` -/
inductive Enc where
  | unknown | utf8 | legacy
deriving DecidableEq

/-- A computation that may not return (`none`) or may be undefined (`throw ()`). -/
abbrev XM (α : Type) := ExceptT Unit Option α

/-- tinyxml.h:292-295 `IsWhiteSpace` -/
def isXmlSpace (c : Char) : Bool := c = ' ' || c = '\t' || c = '\n' || c = '\x0b' || c = '\x0c' || c = '\r'

/-- tinyxmlparser.cpp:129-147 `IsAlpha` -/
def isXmlAlpha (c : Char) : Bool := 127 ≤ c.toNat || c.isAlpha

/-- tinyxmlparser.cpp:150-168 `IsAlphaNum` -/
def isXmlAlphaNum (c : Char) : Bool := 127 ≤ c.toNat || c.isAlphanum

/-- tinyxmlparser.cpp:325-347 the three byte sequences that count as white space in UTF-8 -/
def isBom (a b c : Char) : Bool :=
  a = Char.ofNat 0xef &&
    ((b = Char.ofNat 0xbb && c = Char.ofNat 0xbf) || (b = Char.ofNat 0xbf && (c = Char.ofNat 0xbe || c = Char.ofNat 0xbf)))

/-- tinyxmlparser.cpp:320-360 the loops of `SkipWhiteSpace` -/
def skipLoop (enc : Enc) : List Char → List Char
  | a :: b :: c :: l =>
    if enc = .utf8 && isBom a b c then skipLoop enc l
    else if isXmlSpace a then skipLoop enc (b :: c :: l) else a :: b :: c :: l
  | a :: l => if isXmlSpace a then skipLoop enc l else a :: l
  | [] => []

/-- tinyxmlparser.cpp:314-364 `SkipWhiteSpace`: null for the null pointer and at the NUL; it may stop at the NUL -/
def skipWhite (enc : Enc) : Option (List Char) → Option (List Char)
  | none => none
  | some [] => none
  | some (c :: cs) => some (skipLoop enc (c :: cs))

/-- tinyxmlparser.cpp:421-425 a character inside a name -/
def isNameChar (c : Char) : Bool := isXmlAlphaNum c || c = '_' || c = '-' || c = '.' || c = ':'

/-- tinyxmlparser.cpp:401-436 `ReadName`: the name and where it ends -/
def readName : Option (List Char) → Option (List Char × List Char)
  | some (c :: cs) =>
    if isXmlAlpha c || c = '_' then some ((c :: cs).takeWhile isNameChar, (c :: cs).dropWhile isNameChar) else none
  | _ => none

/-- the digits of a character reference from the right, tinyxmlparser.cpp:464-475 and 491-498; `mult` is
an `unsigned`, `ucs` an `unsigned long` that does not overflow for texts of less than 2^32 bytes -/
def refValue (base : Nat) (digit : Char → Option Nat) : (mult ucs : Nat) → List Char → Option Nat
  | _, ucs, [] => some ucs
  | mult, ucs, c :: cs =>
    match digit c with
    | none => none
    | some d => refValue base digit (mult * base % 2 ^ 32) (ucs + mult * d % 2 ^ 32) cs

/-- tinyxmlparser.cpp:493-496 -/
def decDigit (c : Char) : Option Nat := if c.isDigit then some (c.toNat - '0'.toNat) else none

/-- tinyxmlparser.cpp:466-471 -/
def hexDigit (c : Char) : Option Nat :=
  if c.isDigit then some (c.toNat - '0'.toNat)
  else if 'a'.toNat ≤ c.toNat && c.toNat ≤ 'f'.toNat then some (c.toNat - 'a'.toNat + 10)
  else if 'A'.toNat ≤ c.toNat && c.toNat ≤ 'F'.toNat then some (c.toNat - 'A'.toNat + 10)
  else none

/-- tinyxmlparser.cpp:88-126 `ConvertUTF32ToUTF8` -/
def toUtf8 (n : Nat) : List Char :=
  let cont (k : Nat) : Char := Char.ofNat (0x80 + k % 0x40)
  if n < 0x80 then [Char.ofNat n]
  else if n < 0x800 then [Char.ofNat (0xC0 + n / 0x40), cont n]
  else if n < 0x10000 then [Char.ofNat (0xE0 + n / 0x1000), cont (n / 0x40), cont n]
  else if n < 0x200000 then [Char.ofNat (0xF0 + n / 0x40000), cont (n / 0x1000), cont (n / 0x40), cont n]
  else []

/-- tinyxmlparser.cpp:499-508 the bytes of a character reference -/
def refBytes (enc : Enc) (n : Nat) : List Char := if enc = .utf8 then toUtf8 n else [Char.ofNat (n % 256)]

/-- tinyxmlparser.cpp:42-49 the named entities -/
def entities : List (List Char × Char) :=
  [("&amp;".toList, '&'), ("&lt;".toList, '<'), ("&gt;".toList, '>'), ("&quot;".toList, '"'), ("&apos;".toList, '\'')]

/-- tinyxmlparser.cpp:446-510 a numeric reference with text `body` from after the mark `#` or `x`:
`strchr` looks for the next ';' anywhere, the digits are read backwards to the last mark -/
def numericRef (enc : Enc) (base : Nat) (digit : Char → Option Nat) (mark : Char) (body : List Char) :
    Option (List Char × List Char) :=
  match body.dropWhile (· ≠ ';') with
  | [] => none
  | _ :: rest =>
    match refValue base digit 1 0 ((body.takeWhile (· ≠ ';')).reverse.takeWhile (· ≠ mark)) with
    | none => none
    | some n => some (refBytes enc n, rest)

/-- tinyxmlparser.cpp:438-531 `GetEntity` at `'&' :: l`: the bytes it stands for and where it ends. An unknown
entity yields no byte and only the '&' is consumed. -/
def getEntity (enc : Enc) (l : List Char) : Option (List Char × List Char) :=
  match l with
  | '#' :: 'x' :: l' => if l' = [] then none else numericRef enc 16 hexDigit 'x' l'
  | '#' :: c :: l' => numericRef enc 10 decDigit '#' (c :: l')
  | _ =>
    match entities.find? (fun e => e.1.isPrefixOf ('&' :: l)) with
    | some e => some ([e.2], ('&' :: l).drop e.1.length)
    | none => some ([], l)

/-- tinyxmlparser.cpp:65-84 `utf8ByteTable` -/
def utf8Len (c : Char) : Nat :=
  if c.toNat < 0xc2 then 1 else if c.toNat < 0xe0 then 2 else if c.toNat < 0xf0 then 3
  else if c.toNat < 0xf5 then 4 else 1

/-- tinyxml.h:332-340 the number of bytes `GetChar` takes -/
def charLen (enc : Enc) (c : Char) : Nat := if enc = .utf8 then utf8Len c else 1

/-- tinyxml.h:329-362 `GetChar` at a byte that is not NUL: the bytes and where they end. A multi-byte sequence cut
off by the end of the text moves the pointer past the NUL, and the caller reads there. -/
def getChar (enc : Enc) (c : Char) (cs : List Char) : XM (Option (List Char × List Char)) :=
  if charLen enc c = 1 then
    if c = '&' then pure (getEntity enc cs) else pure (some ([c], cs))
  else if cs.length + 1 < charLen enc c then throw ()
  else pure (some ((c :: cs).take (charLen enc c), (c :: cs).drop (charLen enc c)))

/-- tinyxmlparser.cpp:574-596, 634-636 `ReadText` for an attribute value ended by `q`: the value and what follows, null
when nothing follows -/
def readText (enc : Enc) (q : Char) (l : List Char) : XM (Option (List Char × List Char)) :=
  match l with
  | [] => pure none
  | c :: cs =>
    if c = q then pure (if cs = [] then none else some ([], cs))
    else do
      match ← getChar enc c cs with
      | none => pure none
      | some (v, r) =>
        match ← readText enc q r with
        | none => pure none
        | some (w, r') => pure (some (v ++ w, r'))
partial_fixpoint

/-- tinyxmlparser.cpp:1534-1544 `TiXmlText::Parse` on text (with 598-636 of `ReadText`): the position of the next '<' -/
def skipText (enc : Enc) (l : List Char) : XM (Option (List Char)) :=
  match l with
  | [] => pure none
  | c :: cs =>
    if c = '<' then pure (if cs = [] then none else some (c :: cs))
    else if isXmlSpace c then skipText enc cs
    else do
      match ← getChar enc c cs with
      | none => pure none
      | some (_, r) => skipText enc r
partial_fixpoint

/-- a value as `Attribute()` delivers it: a C string, up to the first NUL (from a reference such as `&#0;`) -/
def cString (l : List Char) : String := String.ofList (l.takeWhile (· ≠ '\x00'))

/-- tinyxmlparser.cpp:1392-1463 `TiXmlAttribute::Parse`: name, value, and what follows -/
def parseAttr (enc : Enc) (l : List Char) : XM (Option ((String × String) × List Char)) :=
  match readName (skipWhite enc (some l)) with
  | none => pure none
  | some (name, r) =>
    match skipWhite enc (some r) with
    | some ('=' :: r) =>
      match skipWhite enc (some r) with
      | some (c :: cs) =>
        if c = '\'' || c = '"' then do
          match ← readText enc c cs with
          | none => pure none
          | some (v, r) => pure (some ((String.ofList name, cString v), r))
        else
          let stop (c : Char) : Bool := isXmlSpace c || c = '/' || c = '>'
          let v := (c :: cs).takeWhile (fun c => !stop c)
          if v.any (fun c => c = '\'' || c = '"') then pure none
          else pure (some ((String.ofList name, String.ofList v), (c :: cs).dropWhile (fun c => !stop c)))
      | _ => pure none
    | _ => pure none

/-- tinyxmlparser.cpp:1083-1176 the loop of `TiXmlElement::Parse` over the attributes: the attributes, whether the tag
ended with "/>", and what follows. (The loop is not entered at the NUL.) -/
def parseAttrs (enc : Enc) (acc : List (String × String)) (l : List Char) :
    XM (Option (List (String × String) × Bool × List Char)) :=
  match skipWhite enc (some l) with
  | some (c :: cs) =>
    if c = '/' then
      match cs with
      | '>' :: r => pure (some (acc, true, r))
      | _ => pure none
    else if c = '>' then pure (some (acc, false, cs))
    else do
      match ← parseAttr enc (c :: cs) with
      | none => pure none
      | some (a, r) =>
        if r = [] then pure none
        else if acc.any (fun b => b.1 == a.1) then pure none
        else parseAttrs enc (acc ++ [a]) r
  | _ => pure none
partial_fixpoint

/-- what follows the first occurrence of `pat`; `none` when there is none -/
def afterPattern (pat : List Char) : List Char → Option (List Char)
  | [] => none
  | c :: cs => if pat.isPrefixOf (c :: cs) then some ((c :: cs).drop pat.length) else afterPattern pat cs

/-- tinyxmlparser.cpp:1337-1389 `TiXmlComment::Parse` (never null; at the NUL when the comment does not end) -/
def skipComment (l : List Char) : List Char := (afterPattern "-->".toList (l.drop 4)).getD []

/-- tinyxmlparser.cpp:1275-1307 `TiXmlUnknown::Parse` -/
def skipUnknown (l : List Char) : List Char := (l.drop 1).dropWhile (· ≠ '>') |>.drop 1

/-- tinyxmlparser.cpp:1511-1532 `TiXmlText::Parse` for CDATA: null when it does not end or nothing follows -/
def skipCdata (l : List Char) : Option (List Char) :=
  match afterPattern "]]>".toList (l.drop 9) with
  | none => none
  | some [] => none
  | some (c :: cs) => some (c :: cs)

/-- tinyxmlparser.cpp:534-558 `StringEqual` with `ignoreCase` -/
def prefixNoCase (pat l : List Char) : Bool := (pat.map Char.toLower).isPrefixOf (l.map Char.toLower)

/-- tinyxmlparser.cpp:1591-1627 the loop of `TiXmlDeclaration::Parse`: the declared encoding and what follows -/
def parseDecl (enc : Enc) (declared : String) (l : List Char) : XM (Option (String × List Char)) :=
  match l with
  | [] => pure none
  | c :: cs =>
    if c = '>' then pure (some (declared, cs))
    else
      let p := skipLoop enc (c :: cs)
      if prefixNoCase "version".toList p || prefixNoCase "standalone".toList p then do
        match ← parseAttr enc p with
        | none => pure none
        | some (_, r) => parseDecl enc declared r
      else if prefixNoCase "encoding".toList p then do
        match ← parseAttr enc p with
        | none => pure none
        | some (a, r) => parseDecl enc a.2 r
      else parseDecl enc declared (p.dropWhile (fun c => !(c = '>' || isXmlSpace c)))
partial_fixpoint

/-- the kinds of node `Identify` distinguishes -/
inductive NodeKind where
  | declaration | comment | cdata | unknown | element
deriving DecidableEq

/-- tinyxmlparser.cpp:818-898 `Identify` at a '<' -/
def identify (l : List Char) : NodeKind :=
  if prefixNoCase "<?xml".toList l then .declaration
  else if "<!--".toList.isPrefixOf l then .comment
  else if "<![CDATA[".toList.isPrefixOf l then .cdata
  else if "<!".toList.isPrefixOf l then .unknown
  else
    match l.drop 1 with
    | c :: _ => if isXmlAlpha c || c = '_' then .element else .unknown
    | [] => .unknown

/-- tinyxmlparser.cpp:1043-1076 the start of `TiXmlElement::Parse`: the name and what follows it -/
def readTagName (enc : Enc) (l : List Char) : Option (List Char × List Char) :=
  match readName (skipWhite enc (some (l.drop 1))) with
  | none => none
  | some (name, r) => if r = [] then none else some (name, r)

/-- tinyxmlparser.cpp:1117-1138 the end tag -/
def endTag (enc : Enc) (name p : List Char) : Option (List Char) :=
  if ('<' :: '/' :: name).isPrefixOf p then
    match skipWhite enc (some (p.drop (name.length + 2))) with
    | some ('>' :: r) => some r
    | _ => none
  else none

mutual

/-- tinyxmlparser.cpp:1043-1176 `TiXmlElement::Parse` at a '<': the element and what follows; null is always an error -/
def parseElem (enc : Enc) (l : List Char) : XM (Option (Elem × List Char)) :=
  match readTagName enc l with
  | none => pure none
  | some (name, r) => do
    match ← parseAttrs enc [] r with
    | none => pure none
    | some (attrs, true, r) => pure (some (.mk (String.ofList name) attrs [], r))
    | some (attrs, false, r) =>
      match ← readValue enc r with
      | none => pure none
      | some (kids, p) =>
        match endTag enc name p with
        | none => pure none
        | some r => pure (some (.mk (String.ofList name) attrs kids, r))
partial_fixpoint

/-- tinyxmlparser.cpp:1179-1247 `TiXmlElement::ReadValue`: the child elements and the position of the end tag (or of the
NUL) -/
def readValue (enc : Enc) (l : List Char) : XM (Option (List Elem × List Char)) :=
  match skipWhite enc (some l) with
  | none => pure none
  | some [] => pure (some ([], []))
  | some (c :: cs) =>
    if c ≠ '<' then do
      match ← skipText enc (c :: cs) with
      | none => pure none
      | some r => readValue enc r
    else if "</".toList.isPrefixOf (c :: cs) then pure (some ([], c :: cs))
    else
      match identify (c :: cs) with
      | .comment => readValue enc (skipComment (c :: cs))
      | .unknown => readValue enc (skipUnknown (c :: cs))
      | .cdata =>
        match skipCdata (c :: cs) with
        | none => pure none
        | some r => readValue enc r
      | .declaration => do
        match ← parseDecl enc "" (cs.drop 4) with
        | none => pure none
        | some (_, r) => readValue enc r
      | .element => do
        match ← parseElem enc (c :: cs) with
        | none => pure none
        | some (e, r) =>
          match ← readValue enc r with
          | none => pure none
          | some (es, p) => pure (some (e :: es, p))
partial_fixpoint

end

/-- tinyxmlparser.cpp:767-783 the encoding after a declaration -/
def declaredEnc (enc : Enc) (s : String) : Enc :=
  if enc = .unknown then
    if s = "" || prefixNoCase "UTF-8".toList s.toList || prefixNoCase "UTF8".toList s.toList then .utf8 else .legacy
  else enc

/-- tinyxmlparser.cpp:753-786 the loop of `TiXmlDocument::Parse` from before a `SkipWhiteSpace`: the elements at top
level, `none` when an error was set. Anything that is not a node ends the loop **without an error**. -/
def docLoop (enc : Enc) (l : List Char) : XM (Option (List Elem)) :=
  match skipWhite enc (some l) with
  | none => pure (some [])
  | some [] => pure (some [])
  | some (c :: cs) =>
    if c ≠ '<' then pure (some [])
    else
      match identify (c :: cs) with
      | .comment => docLoop enc (skipComment (c :: cs))
      | .unknown => docLoop enc (skipUnknown (c :: cs))
      | .cdata =>
        match skipCdata (c :: cs) with
        | none => pure (some [])
        | some r => docLoop enc r
      | .declaration => do
        match ← parseDecl enc "" (cs.drop 4) with
        | none => pure (some [])
        | some (s, r) => docLoop (declaredEnc enc s) r
      | .element => do
        match ← parseElem enc (c :: cs) with
        | none => pure none
        | some (e, r) =>
          match ← docLoop enc r with
          | none => pure none
          | some es => pure (some (e :: es))
partial_fixpoint

/-- tinyxmlparser.cpp:733-746 the encoding at the start: UTF-8 when the text begins with the byte order mark -/
def startEnc (l : List Char) : Enc :=
  match l with
  | a :: b :: c :: _ => if a = Char.ofNat 0xef && b = Char.ofNat 0xbb && c = Char.ofNat 0xbf then .utf8 else .unknown
  | _ => .unknown

/-- tinyxmlparser.cpp:704-796 `TiXmlDocument::Parse` on `xml_string.c_str()`: the elements at top level, `none` when an
error was set -/
def parseXml (text : List Char) : XM (Option (List Elem)) :=
  let l := text.takeWhile (· ≠ '\x00')
  let enc := startEnc l
  match skipWhite enc (some l) with
  | some ('<' :: _) => docLoop enc l
  | _ => pure none

/-- model.cpp:91-270 `parseURDF` on text: the model, `none` for the null pointer -/
def parseURDFText {K : Type} [Scalar K] (num : String → Option K) (text : String) : XM (Option (ModelInterface K)) := do
  match ← parseXml text.toList with
  | none => pure none
  | some doc => pure ((parseURDF num doc).map (·.2))

/-- model.cpp:91-270 `parseURDF` as the constructor's `parse`. A read out of bounds has no result; here it counts as
the null pointer, on which the constructor has undefined behaviour as well (`construct none`). -/
def parseText {K : Type} [Scalar K] (num : String → Option K) (text : String) : Option (ModelInterface K) :=
  match parseURDFText num text with
  | some (.ok r) => r
  | _ => none

end Tinyfk
