import Verif.Model.XmlText

/-!
# Writing XML text

Models the writing part of `urdf_parser/tinyxml/tinyxml.cpp`: `TiXmlDocument::Print` (and so `SaveFile`) and `TiXmlPrinter`,
for documents that consist of elements, which is what `exportURDF` builds. A `Char` is one byte. Errors of the file system
are left out.
-/

namespace Tinyfk

/-- tinyxml.cpp:75-82 the inner loop of `EncodeString`: what is copied as it is, and the rest, from the next ';' or from
the last byte -/
def copyRef : List Char → List Char × List Char
  | c :: d :: l => if d = ';' then ([c], d :: l) else (c :: (copyRef (d :: l)).1, (copyRef (d :: l)).2)
  | l => ([], l)

theorem copyRef_length (l : List Char) : (copyRef l).2.length ≤ l.length := by
  induction l with
  | nil => simp [copyRef]
  | cons c l ih =>
    cases l with
    | nil => simp [copyRef]
    | cons d l =>
      rw [copyRef]
      split
      · simp
      · simp only [List.length_cons] at ih ⊢
        omega

/-- a digit as written by `%X` -/
def upperHex (n : Nat) : Char := if n < 10 then Char.ofNat (48 + n) else Char.ofNat (55 + n)

/-- tinyxml.cpp:84-130 one byte in `EncodeString` -/
def encodeChar (c : Char) : List Char :=
  if c = '&' then "&amp;".toList
  else if c = '<' then "&lt;".toList
  else if c = '>' then "&gt;".toList
  else if c = '"' then "&quot;".toList
  else if c = '\'' then "&apos;".toList
  else if c.toNat < 32 then ['&', '#', 'x', upperHex (c.toNat / 16), upperHex (c.toNat % 16), ';']
  else [c]

/-- tinyxml.cpp:52-133 `EncodeString`: **what begins with "&#x" is copied as it is** -/
def encodeString : List Char → List Char
  | [] => []
  | c :: l =>
    if c = '&' ∧ l.take 2 = ['#', 'x'] then (copyRef (c :: l)).1 ++ encodeString (copyRef (c :: l)).2
    else encodeChar c ++ encodeString l
termination_by l => l.length
decreasing_by
  · rename_i h
    match l, h with
    | d :: l, _ =>
      rw [copyRef]
      split
      · simp
      · have := copyRef_length (d :: l)
        simp only [List.length_cons] at this ⊢
        omega
  · simp

/-- the bytes of a string up to the first NUL, as `%s` writes them -/
def cut (l : List Char) : List Char := l.takeWhile (· ≠ '\x00')

/-- tinyxml.cpp:1210-1234 `TiXmlAttribute::Print` to a string -/
def attrText (a : String × String) : List Char :=
  if a.2.toList.contains '"' then encodeString a.1.toList ++ "='".toList ++ encodeString a.2.toList ++ "'".toList
  else encodeString a.1.toList ++ "=\"".toList ++ encodeString a.2.toList ++ "\"".toList

/-- tinyxml.cpp:1210-1234 `TiXmlAttribute::Print` to a file -/
def attrFile (a : String × String) : List Char :=
  if a.2.toList.contains '"' then cut (encodeString a.1.toList) ++ "='".toList ++ cut (encodeString a.2.toList) ++ "'".toList
  else cut (encodeString a.1.toList) ++ "=\"".toList ++ cut (encodeString a.2.toList) ++ "\"".toList

/-- tinyxml.cpp:1170-1177, tinyxml.h:914 the attributes that the loop over `First()` and `Next()` visits: `Next` takes an attribute
without name and value for the end -/
def visited : List (String × String) → List (String × String)
  | [] => []
  | a :: as => a :: as.takeWhile fun b => !(b.1.isEmpty && b.2.isEmpty)

mutual

/-- tinyxml.cpp:800-845 `TiXmlElement::Print`, without text children -/
def printElem (depth : Nat) : Elem → List Char
  | .mk n as kids =>
    (List.replicate depth "    ".toList).flatten ++ '<' :: cut n.toList ++ ((visited as).map fun a => ' ' :: attrFile a).flatten ++
      match kids with
      | [] => " />".toList
      | k :: ks => '>' :: printKids (depth + 1) (k :: ks) ++ '\n' :: (List.replicate depth "    ".toList).flatten ++
          '<' :: '/' :: cut n.toList ++ ['>']

/-- tinyxml.cpp:832-839 the loop over the children -/
def printKids (depth : Nat) : List Elem → List Char
  | [] => []
  | k :: ks => '\n' :: printElem depth k ++ printKids depth ks

end

/-- tinyxml.cpp:1145-1153 `TiXmlDocument::Print` from the depth 0, as called by `SaveFile` (tinyxml.cpp:1092-1107, without the
byte order mark: `useMicrosoftBOM` is set by reading only) -/
def printDoc : List Elem → List Char
  | [] => []
  | e :: es => printElem 0 e ++ '\n' :: printDoc es

mutual

/-- tinyxml.cpp:1766-1826 `TiXmlPrinter::VisitEnter`, the children, and `VisitExit`; `indent` and `lineBreak` as set by
`SetIndent`, `SetLineBreak` or `SetStreamPrinting` (tinyxml.h:1757-1777) -/
def visitElem (indent lineBreak : List Char) (depth : Nat) : Elem → List Char
  | .mk n as kids =>
    (List.replicate depth indent).flatten ++ '<' :: cut n.toList ++ ((visited as).map fun a => ' ' :: attrText a).flatten ++
      match kids with
      | [] => " />".toList ++ lineBreak
      | k :: ks => '>' :: lineBreak ++ visitAll indent lineBreak (depth + 1) (k :: ks) ++ (List.replicate depth indent).flatten ++
          '<' :: '/' :: cut n.toList ++ '>' :: lineBreak

/-- tinyxml.cpp:875-886 and 1156-1167 `Accept`: the children in order -/
def visitAll (indent lineBreak : List Char) (depth : Nat) : List Elem → List Char
  | [] => []
  | k :: ks => visitElem indent lineBreak depth k ++ visitAll indent lineBreak depth ks

end

/-- tinyxml.cpp:1156-1167 a document visited by a `TiXmlPrinter` -/
def printerDoc (indent lineBreak : List Char) (doc : List Elem) : List Char := visitAll indent lineBreak 0 doc

end Tinyfk
