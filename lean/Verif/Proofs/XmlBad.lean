import Verif.Proofs.XmlCut

/-!
# Texts that are not well-formed
-/

set_option linter.unusedSimpArgs false
set_option linter.unusedVariables false

namespace Tinyfk

theorem Full.ascii {e r : List Char} (h : ∀ x ∈ e, x.toNat < 128) (hr : Full r) : Full (e ++ r) := by
  induction e with
  | nil => exact hr
  | cons c e ih =>
    refine Full.cons ?_ (ih fun x hx => h x (List.mem_cons_of_mem _ hx))
    have := h c List.mem_cons_self
    unfold utf8Len
    rw [if_pos (by omega)]
    omega

theorem Full.plain (c : Char) {r : List Char} (hr : Full r) : Full (utf8 [c] ++ r) := by
  have := utf8_char c r hr
  simpa [utf8] using this

theorem ValueText.full {u : Bool} {q : Char} {t v r : List Char} (h : ValueText u q t v) (hr : Full r) : Full (t ++ r) := by
  induction h with
  | nil => exact hr
  | char hp hc _ ih => rw [List.append_assoc]; exact ih.plain _
  | entity he _ _ ih => rw [List.append_assoc]; exact ih.ascii he.ascii.1

theorem XSpace.ascii {s : List Char} (h : XSpace s) : ∀ x ∈ s, x.toNat < 128 := by
  intro x hx
  rcases h x hx with rfl | rfl | rfl | rfl | rfl | rfl <;> decide

theorem XName.full {n r : List Char} (h : XName n) (hr : Full r) : Full (n ++ r) := by
  obtain ⟨c, cs, rfl, -, -⟩ := h
  generalize c :: cs = l
  induction l with
  | nil => exact hr
  | cons d l ih =>
    have : utf8 (d :: l) ++ r = utf8 [d] ++ (utf8 l ++ r) := by simp [utf8]
    rw [this]
    exact ih.plain d

theorem parseAttrs_dup {u : Bool} {enc : Enc} (hu : u = true → enc = .utf8) {a : List Char} {as : List (String × String)}
    (h : AttrsText u a as) (r : List Char)
    (acc : List (String × String)) (ha : (acc.map Prod.fst).Nodup) (hn : ¬ ((acc ++ as).map Prod.fst).Nodup) :
    parseAttrs enc acc (a ++ r) = pure none := by
  induction h generalizing acc with
  | nil => rw [List.append_nil] at hn; exact absurd ha hn
  | @cons s1 k s2 s3 q t v rest as h1 h1' hk h2 h3 hq hv hrest ih =>
    rw [parseAttrs.eq_def]
    have e1 : s1 ++ (k ++ (s2 ++ '=' :: (s3 ++ q :: (t ++ q :: rest)))) ++ r =
        s1 ++ (k ++ (s2 ++ '=' :: (s3 ++ q :: (t ++ q :: (rest ++ r))))) := by simp [List.append_assoc]
    rw [e1, skipWhite_spaces h1 (hk.stop _)]
    obtain ⟨c, cs, ek, hc⟩ := hk.first
    have hr := hc.range
    have n1 : c ≠ '/' := toNat_ne (by simp; omega)
    have n2 : c ≠ '>' := toNat_ne (by simp; omega)
    have hgo : ∀ l, (match some (k ++ l) with
        | some (c :: cs) =>
          if c = '/' then
            match cs with
            | '>' :: r => pure (some (acc, true, r))
            | _ => pure none
          else if c = '>' then pure (some (acc, false, cs))
          else do
            match ← parseAttr enc (c :: cs) with
            | none => pure none
            | some (a, r) =>
              if r = [] then pure none
              else if acc.any (fun b => b.1 == a.1) then pure none
              else parseAttrs enc (acc ++ [a]) r
        | _ => pure none) = (do
          match ← parseAttr enc (k ++ l) with
          | none => pure none
          | some (a, r) =>
            if r = [] then pure none
            else if acc.any (fun b => b.1 == a.1) then pure none
            else parseAttrs enc (acc ++ [a]) r : XM (Option (List (String × String) × Bool × List Char))) := by
      intro l
      rw [ek, List.cons_append]
      simp only [if_neg n1, if_neg n2]
    refine (hgo _).trans ?_
    by_cases hne : rest ++ r = []
    · rw [hne]
      have hqa := quote_ascii hq
      have hfull : Full (k ++ (s2 ++ '=' :: (s3 ++ q :: (t ++ [q])))) := by
        refine hk.full (.ascii h2.ascii ?_)
        refine Full.ascii (e := ['=']) (by decide) (.ascii h3.ascii (Full.ascii (e := [q]) (by simpa using hqa) (hv.full ?_)))
        exact Full.ascii (e := [q]) (r := []) (by simpa using hqa) (by intro c cs h; simp at h)
      have := parseAttr_cut (enc := enc) hu hk h2 h3 hq hv hfull (List.prefix_refl _) (by rw [ek]; simp)
      simp only [this, pure_bind]
    · simp only [parseAttr_of hu hk h2 h3 hq hv hne, pure_bind, if_neg hne]
      split
      · rfl
      · rename_i hany
        refine ih _ ?_ (by simpa using hn)
        rw [List.map_append, List.nodup_append]
        refine ⟨ha, by simp, ?_⟩
        intro x hx y hy
        simp only [List.map_cons, List.map_nil, List.mem_singleton] at hy
        subst hy
        rintro rfl
        obtain ⟨b, hb, e⟩ := List.mem_map.mp hx
        exact hany (List.any_eq_true.mpr ⟨b, hb, by simp [e]⟩)

/-- well-formed content before something that fails -/
theorem content_then {u : Bool} {enc : Enc} (hu : u = true → enc = .utf8) {t : List Char} {es : List Elem} (h : ContentText u t es)
    {l : List Char} (h1 : readValue enc l = pure none) (h2 : textThen enc l = pure none) (hl : l ≠ []) :
    readValue enc (t ++ l) = pure none ∧ textThen enc (t ++ l) = pure none := by
  have hne : ∀ t : List Char, t ++ l ≠ [] := fun t h => hl (List.append_eq_nil_iff.mp h).2
  refine ContentText.rec (motive_1 := fun _ _ _ => True)
    (motive_2 := fun t _ _ => readValue enc (t ++ l) = pure none ∧ textThen enc (t ++ l) = pure none)
    (fun _ _ _ _ => trivial) (fun _ _ _ _ _ _ _ => trivial) ⟨h1, h2⟩ ?_ ?_ ?_ ?_ ?_ h
  · intro c t es hp _ ih
    rw [List.append_assoc, textThen_plain hp]
    refine ⟨?_, ih.2⟩
    rcases readValue_plain (enc := enc) hp (t ++ l) with h | ⟨_, h⟩ | ⟨h, _⟩
    · rw [h, ih.2]
    · rw [h, ih.1]
    · exact absurd h (hne t)
  · intro e c t es he hc _ ih
    obtain ⟨cs, e1, e2⟩ := getChar_entity (enc := enc) he (or_utf8 hu hc) (t ++ l)
    have := textThen_char (enc := enc) (c := '&') (by decide) (by decide) e2
    rw [List.append_assoc, e1]
    exact ⟨by rw [readValue_text (by decide) (by decide) (by decide), this, ih.2], by rw [this, ih.2]⟩
  · intro k t es hk _ ih
    obtain ⟨e1, e2⟩ := readValue_note (enc := enc) hk (t ++ l)
    rw [List.append_assoc, e1, e2]
    exact ⟨ih.1, ih.1⟩
  · intro k t es hk _ ih
    rw [List.append_assoc]
    rcases hx : t ++ l with _ | ⟨x, xs⟩
    · exact absurd hx (hne t)
    · obtain ⟨e1, e2⟩ := readValue_cdata (enc := enc) hk x xs
      rw [e1, e2, ← hx]
      exact ⟨ih.1, ih.1⟩
  · intro a e t es ha _ _ ih
    have e1 : readValue enc (a ++ t ++ l) = pure none := by
      have hel := (elem_content hu).1 ha (t ++ l)
      rw [List.append_assoc]
      obtain ⟨c, cs, e1, hc⟩ := ha.cons (t ++ l)
      obtain ⟨hi, hpr⟩ := identify_elem hc cs
      have hp' : "</".toList.isPrefixOf ('<' :: c :: cs) = false := hpr
      rw [e1] at hel ⊢
      rw [readValue.eq_def, skipWhite_stop (lt_stop _)]
      simp only [hi, hp', hel, ih.1, pure_bind, ne_eq, not_true, if_false, Bool.false_eq_true]
    refine ⟨e1, ?_⟩
    rw [← e1, List.append_assoc]
    obtain ⟨c, cs, e, _⟩ := ha.cons (t ++ l)
    rw [e, textThen_lt]

theorem endTag_other {enc : Enc} {n n' s r : List Char} (hn : XName n) (hn' : XName n') (hne : n' ≠ n) (hs : XSpace s) :
    endTag enc n ('<' :: '/' :: (n' ++ (s ++ '>' :: r))) = none := by
  have name : ∀ {n : List Char}, XName n → ∀ c ∈ n, isNameChar c = true := fun h c hc => nameChar_of (h.bytes_all c hc)
  unfold endTag
  split
  · rename_i hp
    rw [List.isPrefixOf_iff_prefix, List.cons_prefix_cons, List.cons_prefix_cons] at hp
    have hp := hp.2.2
    rcases prefix_append_cases hp with hp | ⟨q, rfl, hq⟩
    · obtain ⟨q, rfl⟩ := hp
      have e : List.drop (n.length + 2) ('<' :: '/' :: (n ++ q ++ (s ++ '>' :: r))) = q ++ (s ++ '>' :: r) := by simp
      rw [e]
      cases q with
      | nil => exact absurd (by simp) hne
      | cons c q =>
        have hc := name hn' c (by simp)
        have hst : Stop (c :: q ++ (s ++ '>' :: r)) := by
          refine ⟨c, _, rfl, ?_, ?_⟩
          · refine (hn'.chars c (by simp)).2
          · rintro rfl
            have := hn'.bytes_all (Char.ofNat 239) (by simp)
            rcases this with h | h | h | h | h | h
            iterate 5 revert h; decide
            exact h.2 rfl
        rw [skipWhite_stop hst]
        have : c ≠ '>' := (hn'.chars c (by simp)).1
        simp [this]
    · cases q with
      | nil => exact absurd (by simp) hne
      | cons c q =>
        have hc := name hn c (by simp)
        obtain ⟨d, ds, e, hd⟩ := notName_space hs (c := '>') (by decide) r
        rw [e, List.cons_prefix_cons] at hq
        rw [hq.1, hd] at hc
        exact absurd hc (by decide)
  · rfl

theorem BadElem.cons {u : Bool} {b : List Char} (h : BadElem u b) : ∃ c cs, b = '<' :: c :: cs ∧ StartByte c := by
  cases h with
  | duplicate hn _ _ => obtain ⟨c, cs, rfl, hc⟩ := hn.first; exact ⟨c, _, rfl, hc⟩
  | mismatch hn => obtain ⟨c, cs, rfl, hc⟩ := hn.first; exact ⟨c, _, rfl, hc⟩
  | inner hn => obtain ⟨c, cs, rfl, hc⟩ := hn.first; exact ⟨c, _, rfl, hc⟩

theorem parseElem_bad {u : Bool} {enc : Enc} (hu : u = true → enc = .utf8) {b : List Char} (h : BadElem u b) : parseElem enc b = pure none := by
  have te : TagEnd ['>'] false := .inr ⟨rfl, rfl⟩
  induction h with
  | @duplicate n a as r hn ha hd =>
    have hf : ∃ c cs, a ++ r = c :: cs ∧ isNameChar c = false := by
      cases ha with
      | nil => exact absurd (by simp) hd
      | @cons s1 k s2 s3 q t v rest as h1 h1' =>
        cases s1 with
        | nil => exact absurd rfl h1'
        | cons d s1 =>
          refine ⟨d, _, rfl, ?_⟩
          rcases h1 d List.mem_cons_self with rfl | rfl | rfl | rfl | rfl | rfl <;> decide
    rw [parseElem.eq_def, readTagName_of hn hf]
    simp only [parseAttrs_dup hu ha r [] (by simp) (by simpa using hd), pure_bind]
  | @mismatch n a as s t es n' s' r hn ha hd hs ht hn' hne hs' =>
    have e1 : '<' :: (n ++ (a ++ (s ++ '>' :: (t ++ '<' :: '/' :: (n' ++ (s' ++ '>' :: r)))))) =
      '<' :: (n ++ (a ++ (s ++ (['>'] ++ (t ++ '<' :: '/' :: (n' ++ (s' ++ '>' :: r))))))) := by simp
    rw [e1, parseElem.eq_def, readTagName_of hn (ha.first hs te _)]
    simp only [parseAttrs_of hu ha hs te [] (by simpa using hd), pure_bind, List.nil_append, ((elem_content hu).2 ht _).1,
      endTag_other hn hn' hne hs']
  | @inner n a as s t es b hn ha hd hs ht hb ih =>
    have e1 : '<' :: (n ++ (a ++ (s ++ '>' :: (t ++ b)))) = '<' :: (n ++ (a ++ (s ++ (['>'] ++ (t ++ b))))) := by simp
    obtain ⟨c, cs, e2, hc⟩ := hb.cons
    have h1 : readValue enc b = pure none := by
      obtain ⟨hi, hpr⟩ := identify_elem hc cs
      have hp' : "</".toList.isPrefixOf ('<' :: c :: cs) = false := hpr
      rw [e2] at ih ⊢
      rw [readValue.eq_def, skipWhite_stop (lt_stop _)]
      simp only [hi, hp', ih, pure_bind, ne_eq, not_true, if_false, Bool.false_eq_true]
    have h2 : textThen enc b = pure none := by rw [e2] at h1 ⊢; rw [textThen_lt, h1]
    rw [e1, parseElem.eq_def, readTagName_of hn (ha.first hs te _)]
    simp only [parseAttrs_of hu ha hs te [] (by simpa using hd), pure_bind, List.nil_append,
      (content_then hu ht h1 h2 (by rw [e2]; simp)).1]

/-- A document whose root is not well-formed gives an error, whatever follows. -/
theorem parseXml_bad {u : Bool} {p b : List Char} (hp : Prolog u p) (hb : BadElem u b) (hz : '\x00' ∉ p ++ b) :
    parseXml (p ++ b) = pure none := by
  obtain ⟨c, cs, rfl, hc⟩ := hb.cons
  obtain ⟨enc, hu, e⟩ := parseXml_prolog hp hz
  rw [e, docLoop.eq_def, skipWhite_stop (lt_stop _)]
  simp only [(identify_elem hc cs).1, parseElem_bad hu hb, pure_bind, ne_eq, not_true, if_false]

end Tinyfk
