import Verif.Props.XmlText

/-!
# Where reading XML departs from XML

C87: well-formed XML documents that are not read as what they say.
-/

set_option linter.unusedSimpArgs false
set_option linter.unusedVariables false

namespace Tinyfk

section

variable {K : Type} [Scalar K]

/-- **C87 is false: character references.** In a document that is not marked as UTF-8, a reference to a character that is
not ASCII is read as the single byte given by the last eight bits of its number, instead of the character. -/
theorem C87_reference {n k e : List Char} {c : Char} (hn : XName n) (hk : XName k) (he : EntityText e c) (hc : 128 ≤ c.toNat)
    (h0 : c.toNat % 256 ≠ 0) :
    parseXml ('<' :: (n ++ (' ' :: (k ++ '=' :: '"' :: (e ++ ['"', '/', '>']))))) =
      pure (some [.mk (String.ofList n) [(String.ofList k, String.ofList [Char.ofNat (c.toNat % 256)])] []]) := by
  have hsp : XSpace [' '] := by simp [XSpace]
  have hbyte : Char.ofNat (c.toNat % 256) ≠ '\x00' := by
    intro h
    have := congrArg Char.toNat h
    rw [byteOf_toNat (by omega)] at this
    exact h0 this
  have hread : readText .unknown '"' (e ++ ['"', '/', '>']) = pure (some ([Char.ofNat (c.toNat % 256)], ['/', '>'])) := by
    obtain ⟨cs, e1, e2⟩ := he.parse ['"', '/', '>']
    have e2 := e2 .unknown
    rw [if_neg (by omega)] at e2
    have hg : getChar .unknown '&' cs = pure (some ([Char.ofNat (c.toNat % 256)], ['"', '/', '>'])) := by
      unfold getChar
      rw [if_pos (charLen_ascii (by decide)), if_pos rfl, e2]
      rfl
    rw [e1, readText.eq_def]
    have hne : ('&' : Char) ≠ '"' := by decide
    have hq : readText .unknown '"' ['"', '/', '>'] = pure (some ([], ['/', '>'])) := by
      rw [readText.eq_def]
      simp
    simp only [if_neg hne, hg, pure_bind, hq]
    rfl
  have hattr : parseAttr .unknown (k ++ '=' :: '"' :: (e ++ ['"', '/', '>'])) =
      pure (some ((String.ofList k, String.ofList [Char.ofNat (c.toNat % 256)]), ['/', '>'])) := by
    unfold parseAttr
    rw [skipWhite_stop (hk.stop _), readName_of hk ⟨'=', _, rfl, by decide⟩]
    dsimp only
    rw [skipWhite_stop (eq_stop _)]
    simp only []
    rw [skipWhite_stop (.of_lit _ (by decide) (by decide))]
    have hq : (decide ('"' = '\'') || decide ('"' = '"')) = true := by decide
    simp only [hq, if_true, hread, pure_bind]
    rw [cString_of (by simpa using hbyte)]
    simp
  have hattrs : parseAttrs .unknown [] (' ' :: (k ++ '=' :: '"' :: (e ++ ['"', '/', '>']))) =
      pure (some ([(String.ofList k, String.ofList [Char.ofNat (c.toNat % 256)])], true, [])) := by
    rw [parseAttrs.eq_def, show ' ' :: (k ++ '=' :: '"' :: (e ++ ['"', '/', '>'])) = [' '] ++ (k ++ '=' :: '"' :: (e ++ ['"', '/', '>'])) from rfl,
      skipWhite_spaces hsp (hk.stop _)]
    obtain ⟨d, ds, ek, hd⟩ := hk.first
    have hr := hd.range
    have n1 : d ≠ '/' := toNat_ne (by simp; omega)
    have n2 : d ≠ '>' := toNat_ne (by simp; omega)
    rw [ek] at hattr ⊢
    rw [List.cons_append] at hattr ⊢
    simp only [if_neg n1, if_neg n2, hattr, pure_bind]
    rw [parseAttrs.eq_def, skipWhite_stop (.of_lit _ (by decide) (by decide))]
    simp
  obtain ⟨d, ds, en, hd⟩ := hn.first
  have hel : parseElem .unknown ('<' :: (n ++ (' ' :: (k ++ '=' :: '"' :: (e ++ ['"', '/', '>']))))) =
      pure (some (.mk (String.ofList n) [(String.ofList k, String.ofList [Char.ofNat (c.toNat % 256)])] [], [])) := by
    rw [parseElem.eq_def, readTagName_of hn ⟨' ', _, rfl, by decide⟩]
    simp only [hattrs, pure_bind]
  have hz : '\x00' ∉ '<' :: (n ++ (' ' :: (k ++ '=' :: '"' :: (e ++ ['"', '/', '>'])))) := by
    have ha := he.ascii
    intro h
    have hnn : ∀ {n : List Char}, XName n → '\x00' ∉ n := by
      intro n hn h
      rcases hn.bytes_all _ h with h | h | h | h | h | ⟨h, -⟩ <;> revert h <;> decide
    have hne : '\x00' ∉ e := by
      cases he with
      | dec _ hd _ _ =>
        intro h
        simp only [List.mem_cons, List.mem_append, List.not_mem_nil, or_false] at h
        rcases h with h | h | h | h
        · revert h; decide
        · revert h; decide
        · have := hd _ h
          revert this
          decide
        · revert h; decide
      | hex _ hd _ _ =>
        intro h
        simp only [List.mem_cons, List.mem_append, List.not_mem_nil, or_false] at h
        rcases h with h | h | h | h | h
        · revert h; decide
        · revert h; decide
        · revert h; decide
        · have := hd _ h
          revert this
          decide
        · revert h; decide
      | _ => decide
    simp only [List.mem_cons, List.mem_append, List.not_mem_nil, or_false] at h
    rcases h with h | h | h | h | h | h | h | h | h | h
    · revert h; decide
    · exact hnn hn h
    · revert h; decide
    · exact hnn hk h
    · revert h; decide
    · revert h; decide
    · exact hne h
    · revert h; decide
    · revert h; decide
    · revert h; decide
  unfold parseXml
  rw [takeWhile_no_nul hz]
  dsimp only
  have hst : startEnc ('<' :: (n ++ (' ' :: (k ++ '=' :: '"' :: (e ++ ['"', '/', '>']))))) = .unknown := by
    unfold startEnc
    have : ('<' : Char) ≠ Char.ofNat 239 := by decide
    split
    · rename_i h
      rw [← (List.cons.inj h).1]
      simp
    · rfl
  rw [hst, skipWhite_stop (lt_stop _)]
  simp only []
  rw [docLoop.eq_def, skipWhite_stop (lt_stop _)]
  rw [en] at hel ⊢
  rw [List.cons_append] at hel ⊢
  simp only [(identify_elem hd _).1, hel, pure_bind, docLoop_nil, ne_eq, not_true, if_false]

/-- **C87 is false: processing instructions and document types.** When the body of a processing instruction or of a
document type declaration before the root element contains '>', and the next character that is not white space is not '<',
the document is rejected, whatever follows. -/
theorem C87_early_end (num : String → Option K) {u : Bool} {p k b s r : List Char} {c : Char} (hp : Prolog u p)
    (hk : k = ['<', '?'] ∧ ¬ ['x', 'm', 'l'] <+: b.map Char.toLower ∨ k = ['<', '!', 'D', 'O', 'C', 'T', 'Y', 'P', 'E'])
    (hb : '>' ∉ b) (hs : XSpace s) (hc : isXmlSpace c = false ∧ c ≠ '<' ∧ c.toNat < 128)
    (hz : '\x00' ∉ p ++ (k ++ (b ++ '>' :: (s ++ c :: r)))) :
    parseURDFText num (String.ofList (p ++ (k ++ (b ++ '>' :: (s ++ c :: r))))) = pure none := by
  have hcef : c ≠ Char.ofNat 0xef := toNat_ne (by rw [ofNat_ef]; omega)
  have hend : ∀ enc, docLoop enc (s ++ c :: r) = pure (some []) := by
    intro enc
    rw [docLoop.eq_def, skipWhite_spaces hs ⟨c, r, rfl, hc.1, hcef⟩]
    simp [hc.2.1]
  have hsk : ∃ x xs, k ++ (b ++ '>' :: (s ++ c :: r)) = '<' :: x :: xs ∧ Skipped ('<' :: x :: xs) (s ++ c :: r) := by
    rcases hk with ⟨rfl, hx⟩ | rfl
    · refine ⟨'?', _, rfl, .inr ⟨identify_pi ?_, ?_⟩⟩
      · intro hm
        have h2 : ['x', 'm', 'l'] <+: b.map Char.toLower ++ Char.toLower '>' :: (s ++ c :: r).map Char.toLower := by
          simpa using hm
        rcases prefix_append_cases h2 with h2 | ⟨q, e, hq⟩
        · exact hx h2
        · rcases prefix_cons_cases hq with rfl | ⟨q, rfl, hq⟩
          · rw [List.append_nil] at e
            exact hx (by rw [e])
          · have : '>' ∈ ['x', 'm', 'l'] := by
              rw [e]
              have : Char.toLower '>' = '>' := by decide
              rw [this]
              simp
            exact absurd this (by decide)
      · exact skipUnknown_of (b := '?' :: b) (by simp [hb]) '<' _
    · refine ⟨'!', _, rfl, .inr ⟨?_, ?_⟩⟩
      · simp [identify, prefixNoCase, List.isPrefixOf, show Char.toLower '!' = '!' by decide]
      · exact skipUnknown_of (b := '!' :: 'D' :: 'O' :: 'C' :: 'T' :: 'Y' :: 'P' :: 'E' :: b) (by simp [hb]) '<' _
  obtain ⟨x, xs, e, hsk⟩ := hsk
  rw [e] at hz ⊢
  obtain ⟨enc, _, h1⟩ := parseXml_prolog hp hz
  unfold parseURDFText
  rw [String.toList_ofList, h1, docLoop_skipped hsk, hend]
  rfl

end

namespace XmlExample

variable {K : Type} [Scalar K]

/-- `<robot name="&#233;"/>` names the robot with the byte E9, which is not the text `\u00e9` -/
example : parseXml "<robot name=\"&#233;\"/>".toList =
    pure (some [.mk "robot" [("name", String.ofList [Char.ofNat 0xe9])] []]) ∧ utf8 ['\u00e9'] ≠ [Char.ofNat 0xe9] :=
  ⟨C87_reference (n := "robot".toList) (k := "name".toList) (nm 'r' "obot".toList (by decide) (by decide)) (nm 'n' "ame".toList (by decide) (by decide))
    (.dec (ds := "233".toList) (c := '\u00e9') (by decide) (by decide) (by decide) (by decide)) (by decide) (by decide), by decide⟩

/-- a document type with an internal subset makes any document a bad one -/
example (num : String → Option K) :
    parseURDFText num "<!DOCTYPE robot [<!ELEMENT robot ANY>]><robot name=\"r\"><link name=\"base\"/></robot>" = pure none :=
  C87_early_end num (p := []) (k := "<!DOCTYPE".toList) (b := " robot [<!ELEMENT robot ANY".toList) (s := []) (c := ']')
    (r := "><robot name=\"r\"><link name=\"base\"/></robot>".toList) prolog_nil (.inr rfl) (by decide) (sp _ (by decide)) (by decide) (by decide)

/-- and so does a processing instruction with an arrow in it -/
example (num : String → Option K) :
    parseURDFText num "<?note a->b?><robot name=\"r\"><link name=\"base\"/></robot>" = pure none :=
  C87_early_end num (p := []) (k := "<?".toList) (b := "note a-".toList) (s := []) (c := 'b')
    (r := "?><robot name=\"r\"><link name=\"base\"/></robot>".toList) prolog_nil (.inl ⟨rfl, by decide⟩) (by decide) (sp _ (by decide)) (by decide) (by decide)

end XmlExample

end Tinyfk
