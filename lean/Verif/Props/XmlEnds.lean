import Verif.Proofs.XmlStamp
import Verif.Props.XmlText

/-!
# Reading a text ends

C70. The parser of XML also computes rows and columns, in a loop of its own; `Model/XmlStamp` is the parser with this
loop.
-/

set_option linter.unusedSimpArgs false
set_option linter.unusedVariables false

namespace Tinyfk

section

variable {K : Type} [Scalar K]

/-- Every byte 0xEF (the first of a three-byte sequence of UTF-8) is followed by two more bytes before the end. -/
def ThreeByteMarks (l : List Char) : Prop := ∀ r, (Char.ofNat 0xef :: r) <:+ l → 2 ≤ r.length

theorem parseURDFTextS_eq (num : String → Option K) {text : String} (h : ThreeByteMarks (text.toList.takeWhile (· ≠ '\x00'))) :
    parseURDFTextS num text = parseURDFText num text := by
  unfold parseURDFTextS parseURDFText
  rw [parseXmlS_eq _ h]
  rfl

theorem parseURDFText_ends (num : String → Option K) (text : String) : ∃ r, parseURDFText num text = some r := by
  obtain ⟨r, e, _, _⟩ := parseXml_good text.toList
  unfold parseURDFText
  rw [e]
  cases r with
  | error x => exact ⟨_, rfl⟩
  | ok a => cases a <;> exact ⟨_, rfl⟩

/-- **C70.** Whatever characters a Python `str` consists of, parsing it ends. -/
theorem C70_terminates (num : String → Option K) (s : List Char) :
    ∃ r, parseURDFTextS num (String.ofList (utf8 s)) = some r := by
  rw [parseURDFTextS_eq num (by rw [String.toList_ofList, utf8_takeWhile]; exact (utf8_full _).marks)]
  exact parseURDFText_ends num _

/-- **C70, the rows and columns.** The parser keeps track of rows and columns while it reads a `str`; what it returns is
what the parser without this bookkeeping returns, which the other claims about reading a text are stated with. -/
theorem C70_bookkeeping (num : String → Option K) (s : List Char) :
    parseURDFTextS num (String.ofList (utf8 s)) = parseURDFText num (String.ofList (utf8 s)) :=
  parseURDFTextS_eq num (by rw [String.toList_ofList, utf8_takeWhile]; exact (utf8_full _).marks)

/-- **C70, for bytes.** It is enough that every byte 0xEF is followed by two more before the end of the text (or a NUL). -/
theorem C70_bytes_partial (num : String → Option K) (text : String)
    (h : ThreeByteMarks (text.toList.takeWhile (· ≠ '\x00'))) :
    (∃ r, parseURDFTextS num text = some r) ∧ parseURDFTextS num text = parseURDFText num text := by
  rw [parseURDFTextS_eq num h]
  exact ⟨parseURDFText_ends num _, rfl⟩

/-- **C70, for documents.** A well-formed document is read to the end and gives the robot of its root element (C72), with
the rows and columns computed on the way. -/
theorem C70_documents (num : String → Option K) {t : List Char} {e : Elem} (h : DocText t e) (hz : '\x00' ∉ t)
    (hm : ThreeByteMarks t) : parseURDFTextS num (String.ofList t) = pure ((parseURDF num [e]).map (·.2)) := by
  rw [parseURDFTextS_eq num (by rw [String.toList_ofList, takeWhile_no_nul hz]; exact hm)]
  exact (C72_urdf num h hz).1

/-- byte order mark, then `<a `, the byte 0xEF, and `/` -/
def hangText : List Char :=
  [Char.ofNat 0xef, Char.ofNat 0xbb, Char.ofNat 0xbf, '<', 'a', ' ', Char.ofNat 0xef, '/']

/-- At a byte 0xEF with only one byte after it the search for the row and column goes round for ever. -/
theorem stampLoop_hang (r : List Char) : stampLoop .utf8 ['/'] [Char.ofNat 0xef, '/'] ≠ some r := by
  intro h
  refine stampLoop.partial_correctness Enc.utf8 ['/'] (fun p _ => p ≠ [Char.ofNat 0xef, '/']) ?_ [Char.ofNat 0xef, '/'] r h rfl
  intro f ih p q e hp
  subst hp
  have n1 : Char.ofNat 0xef ≠ '\r' := by decide
  have n2 : Char.ofNat 0xef ≠ '\n' := by decide
  have n3 : Char.ofNat 0xef ≠ '\t' := by decide
  have n4 : (decide (Char.ofNat 0xef = Char.ofNat 0xef) && decide (Enc.utf8 = Enc.utf8)) = true := by decide
  have n5 : (['/'] : List Char).length < [Char.ofNat 0xef, '/'].length := by decide
  simp only [n5, if_true, if_neg n1, if_neg n2, if_neg n3, n4] at e
  exact ih _ _ e rfl

theorem stampLoop_none {enc : Enc} {now p : List Char} (h : ∀ r, stampLoop enc now p ≠ some r) : stampLoop enc now p = none := by
  cases e : stampLoop enc now p with
  | none => rfl
  | some r => exact absurd e (h r)

/-- what follows the byte order mark in `hangText` -/
def hangRest : List Char := ['<', 'a', ' ', Char.ofNat 0xef, '/']

/-- the step over an ordinary byte -/
theorem stampLoop_step {now r : List Char} {c : Char} (hl : now.length < (c :: r).length) (h1 : c ≠ '\r') (h2 : c ≠ '\n')
    (h3 : c ≠ '\t') (h4 : c ≠ Char.ofNat 0xef) (h5 : utf8Len c = 1) : stampLoop .utf8 now (c :: r) = stampLoop .utf8 now r := by
  rw [stampLoop.eq_def]
  have n4 : (decide (c = Char.ofNat 0xef) && decide (Enc.utf8 = Enc.utf8)) = false := by simp [h4]
  have n5 : charLen .utf8 c = 1 := h5
  rw [if_pos hl]
  dsimp only
  rw [if_neg h1, if_neg h2, if_neg h3, n4, if_neg (by decide), n5]
  rfl

theorem stampLoop_stop {enc : Enc} {now : List Char} : stampLoop enc now now = some now := by
  rw [stampLoop.eq_def, if_neg (Nat.lt_irrefl _)]

theorem parseAttrS_hang : parseAttrS .utf8 true [Char.ofNat 0xef, '/'] [Char.ofNat 0xef, '/'] = none := by
  have e0 : skipWhite .utf8 (some [Char.ofNat 0xef, '/']) = some [Char.ofNat 0xef, '/'] := by
    rw [skipWhite, skipLoop.eq_def]
    simp [show isXmlSpace (Char.ofNat 0xef) = false from by decide]
  have e1 : readName (some [Char.ofNat 0xef, '/']) = some ([Char.ofNat 0xef], ['/']) := by decide
  have e2 : skipWhite .utf8 (some ['/']) = some ['/'] := by
    rw [skipWhite, skipLoop.eq_def]
    simp [show isXmlSpace '/' = false from by decide]
  have e3 : stampTo .utf8 ['/'] [Char.ofNat 0xef, '/'] = none := by
    unfold stampTo
    rw [stampLoop_none stampLoop_hang]
  have e4 : stampTo .utf8 [Char.ofNat 0xef, '/'] [Char.ofNat 0xef, '/'] = some (.ok ((), [Char.ofNat 0xef, '/'])) := by
    unfold stampTo
    rw [stampLoop_stop]
  unfold parseAttrS
  rw [e0]
  dsimp only
  rw [e1]
  dsimp only
  rw [e2]
  show (stampTo .utf8 [Char.ofNat 0xef, '/'] [Char.ofNat 0xef, '/'] >>= fun p => (errAt .utf8 true ['/'] >>= fun _ => pure none) p.2) = none
  rw [e4]
  show (stampTo .utf8 ['/'] [Char.ofNat 0xef, '/'] >>= _) = none
  rw [e3]
  rfl

theorem parseAttrS_hang' : parseAttrS .utf8 true [Char.ofNat 0xef, '/'] hangRest = none := by
  have e0 : stampLoop .utf8 [Char.ofNat 0xef, '/'] hangRest = some [Char.ofNat 0xef, '/'] := by
    unfold hangRest
    rw [stampLoop_step (by decide) (by decide) (by decide) (by decide) (by decide) (by decide),
      stampLoop_step (by decide) (by decide) (by decide) (by decide) (by decide) (by decide),
      stampLoop_step (by decide) (by decide) (by decide) (by decide) (by decide) (by decide), stampLoop_stop]
  have e1 : skipWhite .utf8 (some [Char.ofNat 0xef, '/']) = some [Char.ofNat 0xef, '/'] := by
    rw [skipWhite, skipLoop.eq_def]
    simp [show isXmlSpace (Char.ofNat 0xef) = false from by decide]
  have e2 : stampTo .utf8 [Char.ofNat 0xef, '/'] hangRest = stampTo .utf8 [Char.ofNat 0xef, '/'] [Char.ofNat 0xef, '/'] := by
    unfold stampTo
    rw [e0, stampLoop_stop]
  rw [← parseAttrS_hang]
  unfold parseAttrS
  rw [e1]
  dsimp only
  show (stampTo .utf8 [Char.ofNat 0xef, '/'] hangRest >>= _) = (stampTo .utf8 [Char.ofNat 0xef, '/'] [Char.ofNat 0xef, '/'] >>= _)
  rw [e2]

theorem parseElemS_hang : parseElemS .utf8 hangRest hangText = none := by
  have e0 : stampTo .utf8 hangRest hangText = some (.ok ((), hangRest)) := by
    unfold stampTo
    have : stampLoop .utf8 hangRest hangText = some hangRest := by
      have n1 : Char.ofNat 0xef ≠ '\r' := by decide
      have n2 : Char.ofNat 0xef ≠ '\n' := by decide
      have n3 : Char.ofNat 0xef ≠ '\t' := by decide
      rw [stampLoop.eq_def, if_pos (by decide)]
      show (if Char.ofNat 0xef = '\r' then _ else _) = _
      rw [if_neg n1, if_neg n2, if_neg n3, if_pos (by decide)]
      exact stampLoop_stop
    rw [this]
  have e1 : readTagName .utf8 hangRest = some (['a'], [' ', Char.ofNat 0xef, '/']) :=
    readTagName_of (n := ['a']) (r := [' ', Char.ofNat 0xef, '/']) (.of_ascii (by decide) (by simp)) ⟨' ', _, rfl, by decide⟩
  have e2 : skipWhite .utf8 (some [' ', Char.ofNat 0xef, '/']) = some [Char.ofNat 0xef, '/'] := by
    rw [skipWhite, skipLoop.eq_def]
    dsimp only
    rw [if_neg (by decide), if_pos (by decide), skipLoop.eq_def]
    simp [show isXmlSpace (Char.ofNat 0xef) = false from by decide]
  have e3 : parseAttrsS .utf8 [] [' ', Char.ofNat 0xef, '/'] hangRest = none := by
    rw [parseAttrsS.eq_def, e2]
    dsimp only
    rw [if_neg (by decide), if_neg (by decide)]
    show (parseAttrS .utf8 true [Char.ofNat 0xef, '/'] hangRest >>= _) = none
    rw [parseAttrS_hang']
    rfl
  rw [parseElemS.eq_def, e1]
  show (stampTo .utf8 hangRest hangText >>= _) = none
  rw [e0]
  show (parseAttrsS .utf8 [] [' ', Char.ofNat 0xef, '/'] hangRest >>= _) = none
  rw [e3]
  rfl

/-- **C70 is false of arbitrary bytes.** On this text, which is cut off in the middle of a tag, the parser never returns. -/
theorem C70_false (num : String → Option K) : parseURDFTextS num (String.ofList hangText) = none := by
  have e0 : hangText.takeWhile (· ≠ '\x00') = hangText := by decide
  have e1 : startEnc hangText = .utf8 := by decide
  have e2 : skipWhite .utf8 (some hangText) = some hangRest := by
    have : skipLoop .utf8 hangText = skipLoop .utf8 hangRest := by
      unfold hangText hangRest
      rw [skipLoop.eq_def]
      simp [isBom]
    unfold hangText at this ⊢
    rw [skipWhite, this]
    unfold hangRest
    rw [skipLoop_stop (lt_stop _)]
  have e3 : identify hangRest = .element := (identify_elem (c := 'a') (.inl (by decide)) _).1
  have e4 : docLoopS .utf8 hangText hangText = none := by
    rw [docLoopS.eq_def, e2]
    unfold hangRest at e3 ⊢
    dsimp only
    rw [if_neg (by decide), e3]
    show (parseElemS .utf8 hangRest hangText >>= _) = none
    rw [parseElemS_hang]
    rfl
  have hd : parseXmlS hangText = none := by
    unfold parseXmlS
    rw [e0]
    dsimp only
    rw [e1, e2]
    unfold hangRest
    simp only [e4]
    rfl
  unfold parseURDFTextS
  rw [String.toList_ofList, hd]
  rfl

/-- The text of a robot with a name that is not ASCII, cut off after a `/`: a `str`, so it is read to the end. -/
example (num : String → Option K) : ∃ r, parseURDFTextS num (String.ofList (utf8 "\ufeff<a \uff21/".toList)) = some r :=
  C70_terminates num _

/-- the bytes of a description with the byte 0xEF well inside -/
example : ThreeByteMarks ([Char.ofNat 0xef, Char.ofNat 0xbb, Char.ofNat 0xbf, '<', 'a', '/', '>'].takeWhile (· ≠ '\x00')) := by
  have e : [Char.ofNat 0xef, Char.ofNat 0xbb, Char.ofNat 0xbf, '<', 'a', '/', '>'].takeWhile (· ≠ '\x00') =
    [Char.ofNat 0xef, Char.ofNat 0xbb, Char.ofNat 0xbf, '<', 'a', '/', '>'] := by decide
  rw [e]
  intro r hr
  by_contra hc
  have hm : Char.ofNat 0xef ∈ ['/', '>'] := by
    obtain ⟨t, ht⟩ := hr
    have h7 := congrArg List.length ht
    simp only [List.length_append, List.length_cons, List.length_nil] at h7
    have h5 := congrArg (List.drop 5) ht
    rw [List.drop_append_of_le_length (by omega)] at h5
    have : Char.ofNat 0xef ∈ t.drop 5 ++ Char.ofNat 0xef :: r := by simp
    rw [h5] at this
    exact this
  exact absurd hm (by decide)

end

end Tinyfk
