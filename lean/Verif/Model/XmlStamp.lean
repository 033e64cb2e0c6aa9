import Verif.Model.XmlText

/-!
# Reading XML text, with the bookkeeping of rows and columns

`Model/XmlText` leaves out `TiXmlParsingData::Stamp`, which tinyxml calls at the start of every node and attribute and
where it reports an error, to find the row and column of a position. `Stamp` runs over the text between the last position
it was asked about and the new one, and this loop need not end. Here is the same parser with the calls of `Stamp`; the
numbers of the row and the column themselves influence nothing and are left out.

The state of a computation is `TiXmlParsingData::stamp`, the position `Stamp` has reached: the bytes from there to the
NUL, and `[]` also for a position past the NUL (which is only ever compared with positions up to the NUL).

`SetError` calls `Stamp` only for the first error (tinyxmlparser.cpp:800-802). The later calls for an error are left out,
and so are those for the start of an attribute, which `TiXmlAttribute::Parse` has stamped already: `Stamp` does nothing
for a position it has passed.
-/

namespace Tinyfk

/-- A computation that also has the position `Stamp` has reached. -/
abbrev XS (α : Type) := StateT (List Char) XM α

/-- tinyxmlparser.cpp:198-311 the loop of `Stamp` from `p` to `now`. In UTF-8 a byte 0xEF that is not followed by two
more bytes leaves `p` where it is (255-272). The tab size is the default 4 (tinyxml.cpp:915). -/
def stampLoop (enc : Enc) (now p : List Char) : Option (List Char) :=
  if now.length < p.length then
    match p with
    | [] => some []
    | c :: r =>
      if c = '\r' then
        match r with
        | '\n' :: r' => stampLoop enc now r'
        | _ => stampLoop enc now r
      else if c = '\n' then
        match r with
        | '\r' :: r' => stampLoop enc now r'
        | _ => stampLoop enc now r
      else if c = '\t' then stampLoop enc now r
      else if c = Char.ofNat 0xef && enc = .utf8 then
        match r with
        | _ :: _ :: r' => stampLoop enc now r'
        | _ => stampLoop enc now (c :: r)
      else stampLoop enc now ((c :: r).drop (charLen enc c))
  else some p
partial_fixpoint

/-- tinyxmlparser.cpp:198-311 `Stamp` -/
def stampTo (enc : Enc) (now : List Char) : XS Unit := fun p =>
  match stampLoop enc now p with
  | none => (none : Option _)
  | some p' => (some (.ok ((), p')) : Option _)

/-- tinyxmlparser.cpp:798-815 `SetError` at a position that may be null -/
def stampOpt (enc : Enc) : Option (List Char) → XS Unit
  | none => pure ()
  | some p => stampTo enc p

/-- an error in an attribute: `TiXmlAttribute` reports it when it belongs to a document, which the attributes of an
element do and those of a declaration do not (tinyxmlparser.cpp:1148, 1602) -/
def errAt (enc : Enc) (doc : Bool) (p : List Char) : XS Unit := if doc then stampTo enc p else pure ()

/-- a computation without calls of `Stamp` -/
def quiet {α : Type} (x : XM α) : XS α := fun p => x >>= fun a => pure (a, p)

/-- tinyxmlparser.cpp:1392-1463 `TiXmlAttribute::Parse` -/
def parseAttrS (enc : Enc) (doc : Bool) (l : List Char) : XS (Option ((String × String) × List Char)) :=
  match skipWhite enc (some l) with
  | none => pure none
  | some [] => pure none
  | some (d :: ds) => do
    stampTo enc (d :: ds)
    match readName (some (d :: ds)) with
    | none => pure none
    | some (name, r) =>
      match skipWhite enc (some r) with
      | none => pure none
      | some ('=' :: r) =>
        match skipWhite enc (some r) with
        | none => pure none
        | some [] => do
          errAt enc doc []
          pure none
        | some (c :: cs) =>
          if c = '\'' || c = '"' then do
            match ← quiet (readText enc c cs) with
            | none => pure none
            | some (v, r) => pure (some ((String.ofList name, cString v), r))
          else
            let stop (c : Char) : Bool := isXmlSpace c || c = '/' || c = '>'
            let v := (c :: cs).takeWhile (fun c => !stop c)
            if v.any (fun c => c = '\'' || c = '"') then do
              errAt enc doc ((c :: cs).dropWhile (fun c => !(c = '\'' || c = '"')))
              pure none
            else pure (some ((String.ofList name, String.ofList v), (c :: cs).dropWhile (fun c => !stop c)))
      | some p => do
        errAt enc doc p
        pure none

/-- tinyxmlparser.cpp:1083-1176 the loop of `TiXmlElement::Parse` over the attributes -/
def parseAttrsS (enc : Enc) (acc : List (String × String)) (l : List Char) :
    XS (Option (List (String × String) × Bool × List Char)) :=
  match skipWhite enc (some l) with
  | some (c :: cs) =>
    if c = '/' then
      match cs with
      | '>' :: r => pure (some (acc, true, r))
      | _ => do
        stampTo enc cs
        pure none
    else if c = '>' then pure (some (acc, false, cs))
    else do
      match ← parseAttrS enc true (c :: cs) with
      | none => pure none
      | some (a, r) =>
        if r = [] then pure none
        else if acc.any (fun b => b.1 == a.1) then pure none
        else parseAttrsS enc (acc ++ [a]) r
  | _ => do
    stampTo enc l
    pure none
partial_fixpoint

/-- tinyxmlparser.cpp:1591-1627 the loop of `TiXmlDeclaration::Parse` -/
def parseDeclS (enc : Enc) (declared : String) (l : List Char) : XS (Option (String × List Char)) :=
  match l with
  | [] => pure none
  | c :: cs =>
    if c = '>' then pure (some (declared, cs))
    else
      let p := skipLoop enc (c :: cs)
      if prefixNoCase "version".toList p || prefixNoCase "standalone".toList p then do
        match ← parseAttrS enc false p with
        | none => pure none
        | some (_, r) => parseDeclS enc declared r
      else if prefixNoCase "encoding".toList p then do
        match ← parseAttrS enc false p with
        | none => pure none
        | some (a, r) => parseDeclS enc a.2 r
      else parseDeclS enc declared (p.dropWhile (fun c => !(c = '>' || isXmlSpace c)))
partial_fixpoint

/-- tinyxmlparser.cpp:1110-1138 where an error in the end tag is reported: at the position `ReadValue` has reached, or
after the name in the end tag -/
def endTagErr (enc : Enc) (name p : List Char) : Option (List Char) :=
  if ('<' :: '/' :: name).isPrefixOf p then skipWhite enc (some (p.drop (name.length + 2))) else some p

mutual

/-- tinyxmlparser.cpp:1043-1176 `TiXmlElement::Parse` -/
def parseElemS (enc : Enc) (l : List Char) : XS (Option (Elem × List Char)) := do
  stampTo enc l
  match readTagName enc l with
  | none => do
    stampOpt enc (skipWhite enc (some (l.drop 1)))
    pure none
  | some (name, r) => do
    match ← parseAttrsS enc [] r with
    | none => pure none
    | some (attrs, true, r) => pure (some (.mk (String.ofList name) attrs [], r))
    | some (attrs, false, r) =>
      match ← readValueS enc r with
      | none => pure none
      | some (kids, p) =>
        match endTag enc name p with
        | none => do
          stampOpt enc (endTagErr enc name p)
          pure none
        | some r => pure (some (.mk (String.ofList name) attrs kids, r))
partial_fixpoint

/-- tinyxmlparser.cpp:1179-1247 `TiXmlElement::ReadValue`, with the calls of `Stamp` at 1281, 1347, 1502 and 1585 -/
def readValueS (enc : Enc) (l : List Char) : XS (Option (List Elem × List Char)) :=
  match skipWhite enc (some l) with
  | none => pure none
  | some [] => pure (some ([], []))
  | some (c :: cs) =>
    if c ≠ '<' then do
      stampTo enc (c :: cs)
      match ← quiet (skipText enc (c :: cs)) with
      | none => pure none
      | some r => readValueS enc r
    else if "</".toList.isPrefixOf (c :: cs) then pure (some ([], c :: cs))
    else
      match identify (c :: cs) with
      | .comment => do
        stampTo enc (c :: cs)
        readValueS enc (skipComment (c :: cs))
      | .unknown => do
        stampTo enc (c :: cs)
        readValueS enc (skipUnknown (c :: cs))
      | .cdata => do
        stampTo enc (c :: cs)
        match skipCdata (c :: cs) with
        | none => pure none
        | some r => readValueS enc r
      | .declaration => do
        stampTo enc (c :: cs)
        match ← parseDeclS enc "" (cs.drop 4) with
        | none => pure none
        | some (_, r) => readValueS enc r
      | .element => do
        match ← parseElemS enc (c :: cs) with
        | none => pure none
        | some (e, r) =>
          match ← readValueS enc r with
          | none => pure none
          | some (es, p) => pure (some (e :: es, p))
partial_fixpoint

end

/-- tinyxmlparser.cpp:753-786 the loop of `TiXmlDocument::Parse` -/
def docLoopS (enc : Enc) (l : List Char) : XS (Option (List Elem)) :=
  match skipWhite enc (some l) with
  | none => pure (some [])
  | some [] => pure (some [])
  | some (c :: cs) =>
    if c ≠ '<' then pure (some [])
    else
      match identify (c :: cs) with
      | .comment => do
        stampTo enc (c :: cs)
        docLoopS enc (skipComment (c :: cs))
      | .unknown => do
        stampTo enc (c :: cs)
        docLoopS enc (skipUnknown (c :: cs))
      | .cdata => do
        stampTo enc (c :: cs)
        match skipCdata (c :: cs) with
        | none => pure (some [])
        | some r => docLoopS enc r
      | .declaration => do
        stampTo enc (c :: cs)
        match ← parseDeclS enc "" (cs.drop 4) with
        | none => pure (some [])
        | some (s, r) => docLoopS (declaredEnc enc s) r
      | .element => do
        match ← parseElemS enc (c :: cs) with
        | none => pure none
        | some (e, r) =>
          match ← docLoopS enc r with
          | none => pure none
          | some es => pure (some (e :: es))
partial_fixpoint

/-- tinyxmlparser.cpp:704-796 `TiXmlDocument::Parse`; `TiXmlParsingData` starts at the beginning of the text (731) -/
def parseXmlS (text : List Char) : XM (Option (List Elem)) :=
  let l := text.takeWhile (· ≠ '\x00')
  let enc := startEnc l
  match skipWhite enc (some l) with
  | some ('<' :: _) => do
    let r ← docLoopS enc l l
    pure r.1
  | _ => pure none

/-- model.cpp:91-270 `parseURDF` on text -/
def parseURDFTextS {K : Type} [Scalar K] (num : String → Option K) (text : String) : XM (Option (ModelInterface K)) := do
  match ← parseXmlS text.toList with
  | none => pure none
  | some doc => pure ((parseURDF num doc).map (·.2))

end Tinyfk
