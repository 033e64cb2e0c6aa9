import Verif.Model.XmlText

/-!
# Reading XML text: it returns, and it stays inside the text
-/

set_option linter.unusedSimpArgs false
set_option linter.unusedVariables false

namespace Tinyfk

/-- Every byte that starts a multi-byte sequence is followed by the rest of it. -/
def Full (l : List Char) : Prop := ∀ c cs, (c :: cs) <:+ l → utf8Len c ≤ cs.length + 1

theorem Full.suffix {l l' : List Char} (h : Full l) (hs : l' <:+ l) : Full l' :=
  fun c cs hc => h c cs (hc.trans hs)

/-- `x` returns; what it returns satisfies `Q`; and it is defined when the text `l` is `Full`. -/
def Good {α : Type} (l : List Char) (x : XM α) (Q : α → Prop) : Prop :=
  ∃ r, x = some r ∧ (∀ a, r = .ok a → Q a) ∧ (Full l → ∃ a, r = .ok a)

theorem Good.pure {α : Type} {l : List Char} {a : α} {Q : α → Prop} (h : Q a) : Good l (pure a) Q :=
  ⟨.ok a, rfl, fun b e => by cases e; exact h, fun _ => ⟨a, rfl⟩⟩

theorem Good.bind {α β : Type} {l l' : List Char} {x : XM α} {f : α → XM β} {P : α → Prop} {Q : β → Prop}
    (hx : Good l' x P) (hl : Full l → Full l') (hf : ∀ a, P a → Good l (f a) Q) : Good l (x >>= f) Q := by
  obtain ⟨r, rfl, h1, h2⟩ := hx
  cases r with
  | error e =>
    refine ⟨.error e, rfl, fun a e => (by cases e), ?_⟩
    intro hfull
    obtain ⟨a, ha⟩ := h2 (hl hfull)
    cases ha
  | ok a => exact hf a (h1 a rfl)

theorem Good.mono {α : Type} {l : List Char} {x : XM α} {P Q : α → Prop} (h : Good l x P) (hPQ : ∀ a, P a → Q a) : Good l x Q := by
  obtain ⟨r, h1, h2, h3⟩ := h
  exact ⟨r, h1, fun a e => hPQ a (h2 a e), h3⟩

theorem Good.of_suffix {α : Type} {l l' : List Char} {x : XM α} {Q : α → Prop} (h : Good l' x Q) (hs : l' <:+ l) : Good l x Q := by
  obtain ⟨r, h1, h2, h3⟩ := h
  exact ⟨r, h1, h2, fun hf => h3 (hf.suffix hs)⟩

/-! ### Suffixes -/

theorem skipLoop_suffix (enc : Enc) (l : List Char) : skipLoop enc l <:+ l := by
  fun_induction skipLoop enc l with
  | case1 a b c l h ih => exact ih.trans ⟨[a, b, c], rfl⟩
  | case2 a b c l h1 h2 ih => exact ih.trans ⟨[a], rfl⟩
  | case3 => exact List.suffix_refl _
  | case4 a l _ h ih => exact ih.trans ⟨[a], rfl⟩
  | case5 => exact List.suffix_refl _
  | case6 => exact List.suffix_refl _

theorem skipWhite_suffix {enc : Enc} {l p : List Char} (h : skipWhite enc (some l) = some p) : p <:+ l := by
  cases l with
  | nil => cases h
  | cons c cs =>
    simp only [skipWhite, Option.some.injEq] at h
    subst h
    exact skipLoop_suffix _ _

theorem readName_suffix {enc : Enc} {l name r : List Char} (h : readName (some l) = some (name, r)) : r <:+ l ∧ r.length < l.length := by
  cases l with
  | nil => cases h
  | cons c cs =>
    simp only [readName] at h
    split at h
    · rename_i hc
      cases h
      refine ⟨List.dropWhile_suffix _, ?_⟩
      have : isNameChar c = true := by
        simp only [Bool.or_eq_true, decide_eq_true_eq] at hc
        simp only [isNameChar, isXmlAlphaNum, isXmlAlpha, Char.isAlphanum, Bool.or_eq_true, decide_eq_true_eq] at hc ⊢
        grind
      rw [List.dropWhile_cons_of_pos this]
      exact Nat.lt_succ_of_le (List.dropWhile_suffix _).length_le
    · cases h

theorem numericRef_suffix {enc : Enc} {base : Nat} {digit : Char → Option Nat} {mark : Char} {body v r : List Char}
    (h : numericRef enc base digit mark body = some (v, r)) : r <:+ body := by
  unfold numericRef at h
  split at h
  · cases h
  · rename_i x rest e
    split at h
    · cases h
    · simp only [Option.some.injEq, Prod.mk.injEq] at h
      obtain ⟨_, rfl⟩ := h
      have : (x :: rest) <:+ body := e ▸ List.dropWhile_suffix _
      exact (List.suffix_cons x rest).trans this

theorem getEntity_suffix {enc : Enc} {l v r : List Char} (h : getEntity enc l = some (v, r)) : r <:+ l := by
  unfold getEntity at h
  split at h
  · split at h
    · cases h
    · exact (numericRef_suffix h).trans ⟨['#', 'x'], rfl⟩
  · exact (numericRef_suffix h).trans (List.suffix_cons _ _)
  · split at h
    · rename_i e he
      cases h
      have hm := List.mem_of_find?_eq_some he
      have hl : ∃ k, e.1.length = k + 1 := by
        simp only [entities, List.mem_cons, List.not_mem_nil, or_false] at hm
        rcases hm with rfl | rfl | rfl | rfl | rfl <;> exact ⟨_, rfl⟩
      obtain ⟨k, hk⟩ := hl
      rw [hk, List.drop_succ_cons]
      exact List.drop_suffix _ _
    · cases h
      exact List.suffix_refl _

theorem charLen_pos (enc : Enc) (c : Char) : 0 < charLen enc c := by
  unfold charLen utf8Len
  repeat' split
  all_goals omega

theorem charLen_le (enc : Enc) (c : Char) : charLen enc c ≤ utf8Len c := by
  have := charLen_pos .utf8 c
  unfold charLen at *
  rw [if_pos rfl] at this
  split <;> omega

theorem getChar_good (enc : Enc) (c : Char) (cs : List Char) :
    Good (c :: cs) (getChar enc c cs) fun a => ∀ v r, a = some (v, r) → r <:+ cs := by
  unfold getChar
  split
  · split
    · exact Good.pure (Q := fun a => ∀ v r, a = some (v, r) → r <:+ cs) fun v r h => getEntity_suffix h
    · exact Good.pure (Q := fun a => ∀ v r, a = some (v, r) → r <:+ cs) fun v r h => by cases h; exact List.suffix_refl _
  · split
    · rename_i h1 h2
      refine ⟨.error (), rfl, fun a e => (by cases e), ?_⟩
      intro hf
      exfalso
      have := hf c cs (List.suffix_refl _)
      have := charLen_le enc c
      omega
    · refine Good.pure ?_
      intro v r h
      cases h
      obtain ⟨k, hk⟩ := Nat.exists_eq_succ_of_ne_zero (Nat.pos_iff_ne_zero.mp (charLen_pos enc c))
      rw [hk, List.drop_succ_cons]
      exact List.drop_suffix _ _

theorem lt_of_suffix_cons {c : Char} {r cs : List Char} (h : r <:+ cs) : r.length < (c :: cs).length :=
  Nat.lt_succ_of_le h.length_le

theorem readText_good (enc : Enc) (q : Char) (l : List Char) :
    Good l (readText enc q l) fun a => ∀ v r, a = some (v, r) → r <:+ l ∧ r.length < l.length := by
  induction h : l.length using Nat.strongRecOn generalizing l with
  | _ n ih =>
    rw [readText.eq_def]
    cases l with
    | nil => exact Good.pure (by simp)
    | cons c cs =>
      dsimp only
      split
      · refine Good.pure ?_
        intro v r e
        split at e
        · cases e
        · cases e
          rw [← h]
          exact ⟨List.suffix_cons _ _, by simp⟩
      · refine Good.bind (getChar_good enc c cs) id ?_
        intro a ha
        cases a with
        | none => exact Good.pure (by simp)
        | some vr =>
          obtain ⟨v, r⟩ := vr
          have hr := ha v r rfl
          have hlt : r.length < n := h ▸ lt_of_suffix_cons hr
          refine Good.bind (ih r.length hlt r rfl) (fun hf => hf.suffix (hr.trans (List.suffix_cons _ _))) ?_
          intro b hb
          cases b with
          | none => exact Good.pure (by simp)
          | some wr =>
            obtain ⟨w, r'⟩ := wr
            refine Good.pure ?_
            intro v' r'' e
            cases e
            obtain ⟨h1, h2⟩ := hb w r' rfl
            exact ⟨h1.trans (hr.trans (List.suffix_cons _ _)), Nat.lt_trans h2 hlt⟩

theorem skipText_good (enc : Enc) (l : List Char) :
    Good l (skipText enc l) fun a => ∀ r, a = some r → r <:+ l ∧ ∃ d ds, r = '<' :: d :: ds := by
  induction h : l.length using Nat.strongRecOn generalizing l with
  | _ n ih =>
    rw [skipText.eq_def]
    cases l with
    | nil => exact Good.pure (by simp)
    | cons c cs =>
      dsimp only
      split
      · rename_i hc
        subst hc
        refine Good.pure ?_
        intro r e
        cases cs with
        | nil => cases e
        | cons d ds => cases e; exact ⟨List.suffix_refl _, d, ds, rfl⟩
      · split
        · have := ih cs.length (by rw [← h]; simp) cs rfl
          refine (this.of_suffix (List.suffix_cons _ _)).mono ?_
          intro a ha r e
          exact ⟨(ha r e).1.trans (List.suffix_cons _ _), (ha r e).2⟩
        · refine Good.bind (getChar_good enc c cs) id ?_
          intro a ha
          cases a with
          | none => exact Good.pure (by simp)
          | some vr =>
            obtain ⟨v, r⟩ := vr
            have hr := (ha v r rfl).trans (List.suffix_cons c cs)
            have := ih r.length (h ▸ lt_of_suffix_cons (ha v r rfl)) r rfl
            refine (this.of_suffix hr).mono ?_
            intro a ha r' e
            exact ⟨(ha r' e).1.trans hr, (ha r' e).2⟩

theorem parseAttr_good (enc : Enc) (l : List Char) :
    Good l (parseAttr enc l) fun a => ∀ v r, a = some (v, r) → r <:+ l ∧ r.length < l.length := by
  unfold parseAttr
  cases h0 : skipWhite enc (some l) with
  | none => exact Good.pure (by simp)
  | some p0 =>
    have s0 := skipWhite_suffix h0
    cases h1 : readName (some p0) with
    | none => exact Good.pure (by simp)
    | some nr =>
      obtain ⟨name, r⟩ := nr
      obtain ⟨s1, l1⟩ := readName_suffix (enc := enc) h1
      dsimp only
      split
      · rename_i r2 h2
        have s2 := (List.suffix_cons _ _).trans ((skipWhite_suffix h2).trans (s1.trans s0))
        have l2 : r2.length < l.length :=
          Nat.lt_of_le_of_lt ((List.suffix_cons _ _).trans (skipWhite_suffix h2)).length_le (Nat.lt_of_lt_of_le l1 s0.length_le)
        split
        · rename_i c cs h3
          have s3 := (skipWhite_suffix h3).trans s2
          have l3 : (c :: cs).length < l.length := Nat.lt_of_le_of_lt (skipWhite_suffix h3).length_le l2
          split
          · refine Good.bind (readText_good enc c cs) (fun hf => hf.suffix ((List.suffix_cons _ _).trans s3)) ?_
            intro a ha
            cases a with
            | none => exact Good.pure (by simp)
            | some vr =>
              obtain ⟨v, r'⟩ := vr
              refine Good.pure ?_
              intro v' r'' e
              cases e
              obtain ⟨g1, g2⟩ := ha v r' rfl
              refine ⟨g1.trans ((List.suffix_cons _ _).trans s3), ?_⟩
              have := List.length_cons (a := c) (as := cs)
              omega
          · split
            · exact Good.pure (by simp)
            · refine Good.pure ?_
              intro v r e
              cases e
              have g := List.dropWhile_suffix (l := c :: cs) (fun c => !(isXmlSpace c || c = '/' || c = '>'))
              exact ⟨g.trans s3, Nat.lt_of_le_of_lt g.length_le l3⟩
        · exact Good.pure (by simp)
      · exact Good.pure (by simp)

theorem parseAttrs_good (enc : Enc) (acc : List (String × String)) (l : List Char) :
    Good l (parseAttrs enc acc l) fun a => ∀ as b r, a = some (as, b, r) → r <:+ l ∧ r.length < l.length := by
  induction h : l.length using Nat.strongRecOn generalizing l acc with
  | _ n ih =>
    subst h
    rw [parseAttrs.eq_def]
    split
    · rename_i c cs h0
      have s0 := skipWhite_suffix h0
      have l0 := s0.length_le
      rw [List.length_cons] at l0
      split
      · split
        · refine Good.pure ?_
          intro as b r e
          cases e
          refine ⟨List.IsSuffix.trans ⟨[c, '>'], rfl⟩ s0, ?_⟩
          simp only [List.length_cons] at l0
          omega
        · exact Good.pure (by simp)
      · split
        · refine Good.pure ?_
          intro as b r e
          cases e
          exact ⟨(List.suffix_cons _ _).trans s0, by omega⟩
        · refine Good.bind (parseAttr_good enc (c :: cs)) (fun hf => hf.suffix s0) ?_
          intro a ha
          cases a with
          | none => exact Good.pure (by simp)
          | some vr =>
            obtain ⟨v, r⟩ := vr
            obtain ⟨g1, g2⟩ := ha v r rfl
            dsimp only
            split
            · exact Good.pure (by simp)
            · split
              · exact Good.pure (by simp)
              · have hlt : r.length < l.length := Nat.lt_of_lt_of_le g2 s0.length_le
                have := ih r.length hlt (acc ++ [v]) r rfl
                refine (this.of_suffix (g1.trans s0)).mono ?_
                intro a ha as b r' e
                obtain ⟨k1, k2⟩ := ha as b r' e
                exact ⟨k1.trans (g1.trans s0), Nat.lt_trans k2 hlt⟩
    · exact Good.pure (by simp)

theorem afterPattern_suffix {pat l r : List Char} (h : afterPattern pat l = some r) : r <:+ l := by
  induction l with
  | nil => cases h
  | cons c cs ih =>
    simp only [afterPattern] at h
    split at h
    · cases h
      exact List.drop_suffix _ _
    · exact (ih h).trans (List.suffix_cons _ _)

theorem skipComment_suffix (c : Char) (cs : List Char) : skipComment (c :: cs) <:+ cs := by
  unfold skipComment
  cases h : afterPattern "-->".toList ((c :: cs).drop 4) with
  | none => exact List.nil_suffix
  | some r => exact (afterPattern_suffix h).trans (List.drop_suffix 3 cs)

theorem skipUnknown_suffix (c : Char) (cs : List Char) : skipUnknown (c :: cs) <:+ cs :=
  (List.drop_suffix _ _).trans (List.dropWhile_suffix _)

theorem skipCdata_suffix {c : Char} {cs r : List Char} (h : skipCdata (c :: cs) = some r) : r <:+ cs := by
  unfold skipCdata at h
  split at h
  · cases h
  · cases h
  · rename_i e
    cases h
    exact (afterPattern_suffix e).trans (List.drop_suffix 8 cs)

theorem skipLoop_head {enc : Enc} {l : List Char} {c : Char} {cs : List Char} (h : skipLoop enc l = c :: cs) : isXmlSpace c = false := by
  fun_induction skipLoop enc l with
  | case1 a b d l _ ih => exact ih h
  | case2 a b d l _ _ ih => exact ih h
  | case3 a b d l _ hn => cases h; simpa using hn
  | case4 a l _ _ ih => exact ih h
  | case5 a l _ hn => cases h; simpa using hn
  | case6 => cases h

theorem parseDecl_good (enc : Enc) (s : String) (l : List Char) :
    Good l (parseDecl enc s l) fun a => ∀ t r, a = some (t, r) → r <:+ l ∧ r.length < l.length := by
  induction h : l.length using Nat.strongRecOn generalizing l s with
  | _ n ih =>
    subst h
    rw [parseDecl.eq_def]
    cases l with
    | nil => exact Good.pure (by simp)
    | cons c cs =>
      dsimp only
      have step : ∀ (t : String) (r : List Char), r <:+ (c :: cs) → r.length < (c :: cs).length →
          Good (c :: cs) (parseDecl enc t r) fun a => ∀ t r, a = some (t, r) → r <:+ (c :: cs) ∧ r.length < (c :: cs).length := by
        intro t r hs hlt
        refine ((ih r.length hlt t r rfl).of_suffix hs).mono ?_
        intro a ha t' r' e
        exact ⟨(ha t' r' e).1.trans hs, Nat.lt_trans (ha t' r' e).2 hlt⟩
      have sp := skipLoop_suffix enc (c :: cs)
      split
      · refine Good.pure ?_
        intro t r e
        cases e
        exact ⟨List.suffix_cons _ _, by simp⟩
      · rename_i hgt
        split
        · refine Good.bind (parseAttr_good enc _) (fun hf => hf.suffix sp) ?_
          intro a ha
          cases a with
          | none => exact Good.pure (by simp)
          | some vr =>
            obtain ⟨v, r⟩ := vr
            exact step _ _ ((ha v r rfl).1.trans sp) (Nat.lt_of_lt_of_le (ha v r rfl).2 sp.length_le)
        · split
          · refine Good.bind (parseAttr_good enc _) (fun hf => hf.suffix sp) ?_
            intro a ha
            cases a with
            | none => exact Good.pure (by simp)
            | some vr =>
              obtain ⟨v, r⟩ := vr
              exact step _ _ ((ha v r rfl).1.trans sp) (Nat.lt_of_lt_of_le (ha v r rfl).2 sp.length_le)
          · refine step _ _ ((List.dropWhile_suffix _).trans sp) ?_
            cases hp : skipLoop enc (c :: cs) with
            | nil => simp
            | cons d ds =>
              rw [hp] at sp
              by_cases hd : d = '>'
              · have hne : ds.length + 1 ≠ cs.length + 1 := by
                  intro e
                  have := sp.eq_of_length (by simpa using e)
                  cases this
                  exact hgt hd
                have := sp.length_le
                have := (List.dropWhile_suffix (l := d :: ds) (fun c => !(decide (c = '>') || isXmlSpace c))).length_le
                simp only [List.length_cons] at *
                omega
              · have hw := skipLoop_head hp
                have : (!(decide (d = '>') || isXmlSpace d)) = true := by simp [hd, hw]
                rw [List.dropWhile_cons_of_pos (p := fun c => !(decide (c = '>') || isXmlSpace c)) this]
                have := sp.length_le
                have := (List.dropWhile_suffix (l := ds) (fun c => !(decide (c = '>') || isXmlSpace c))).length_le
                simp only [List.length_cons] at *
                omega

theorem readTagName_suffix {enc : Enc} {c : Char} {cs name r : List Char} (h : readTagName enc (c :: cs) = some (name, r)) :
    r <:+ cs ∧ r.length < cs.length := by
  unfold readTagName at h
  rw [List.drop_succ_cons, List.drop_zero] at h
  cases h0 : skipWhite enc (some cs) with
  | none => rw [h0] at h; cases h
  | some p =>
    rw [h0] at h
    cases h1 : readName (some p) with
    | none => rw [h1] at h; cases h
    | some nr =>
      obtain ⟨n, r'⟩ := nr
      rw [h1] at h
      dsimp only at h
      split at h
      · cases h
      · cases h
        obtain ⟨g1, g2⟩ := readName_suffix (enc := enc) h1
        have s0 := skipWhite_suffix h0
        exact ⟨g1.trans s0, Nat.lt_of_lt_of_le g2 s0.length_le⟩

theorem endTag_suffix {enc : Enc} {name p r : List Char} (h : endTag enc name p = some r) : r <:+ p ∧ r.length < p.length := by
  unfold endTag at h
  split at h
  · split at h
    · rename_i e
      cases h
      have s := skipWhite_suffix e
      have s' := s.trans (List.drop_suffix _ _)
      refine ⟨(List.suffix_cons _ _).trans s', ?_⟩
      have := s'.length_le
      rw [List.length_cons] at this
      omega
    · cases h
  · cases h

/-- what is known of `parseElem` -/
def ElemGood (enc : Enc) (c : Char) (cs : List Char) : Prop :=
  Good (c :: cs) (parseElem enc (c :: cs)) fun a => ∀ e r, a = some (e, r) → r <:+ cs

/-- what is known of `readValue` -/
def ValueGood (enc : Enc) (l : List Char) : Prop :=
  Good l (readValue enc l) fun a => ∀ es r, a = some (es, r) → r <:+ l

theorem elem_of_value {enc : Enc} {c : Char} {cs : List Char} (h : ∀ r : List Char, r.length < cs.length → ValueGood enc r) :
    ElemGood enc c cs := by
  unfold ElemGood
  rw [parseElem.eq_def]
  split
  · exact Good.pure (by simp)
  · rename_i name r h0
    obtain ⟨s0, l0⟩ := readTagName_suffix h0
    have sc : r <:+ (c :: cs) := s0.trans (List.suffix_cons _ _)
    refine Good.bind (parseAttrs_good enc [] r) (fun hf => hf.suffix sc) ?_
    intro a ha
    split
    · exact Good.pure (by simp)
    · rename_i attrs r1
      refine Good.pure ?_
      intro e r' he
      cases he
      exact (ha _ _ _ rfl).1.trans s0
    · rename_i attrs r1
      obtain ⟨s1, l1⟩ := ha _ _ _ rfl
      have hv := h r1 (Nat.lt_trans l1 l0)
      refine Good.bind hv (fun hf => hf.suffix (s1.trans sc)) ?_
      intro b hb
      cases b with
      | none => exact Good.pure (by simp)
      | some kp =>
        obtain ⟨kids, p⟩ := kp
        dsimp only
        split
        · exact Good.pure (by simp)
        · rename_i r2 h2
          refine Good.pure ?_
          intro e r' he
          cases he
          exact (endTag_suffix h2).1.trans ((hb _ _ rfl).trans (s1.trans s0))

theorem value_step {enc : Enc} {l : List Char} (h : ∀ r : List Char, r.length < l.length → ValueGood enc r)
    (he : ∀ (c : Char) (cs : List Char), (c :: cs) <:+ l → ElemGood enc c cs) : ValueGood enc l := by
  unfold ValueGood
  rw [readValue.eq_def]
  have step : ∀ {r : List Char}, r <:+ l → r.length < l.length →
      Good l (readValue enc r) fun a => ∀ es r, a = some (es, r) → r <:+ l := by
    intro r hs hlt
    refine ((h r hlt).of_suffix hs).mono ?_
    intro a ha es r' e
    exact (ha es r' e).trans hs
  split
  · exact Good.pure (by simp)
  · refine Good.pure ?_
    intro es r e
    cases e
    exact List.nil_suffix
  · rename_i c cs h0
    have s0 := skipWhite_suffix h0
    have l0 := s0.length_le
    rw [List.length_cons] at l0
    have lt : ∀ {r : List Char}, r <:+ cs → r.length < l.length := fun hr => by
      have := hr.length_le
      omega
    have sx : ∀ {r : List Char}, r <:+ cs → r <:+ l := fun hr => (hr.trans (List.suffix_cons _ _)).trans s0
    split
    · rename_i hc
      refine Good.bind (skipText_good enc (c :: cs)) (fun hf => hf.suffix s0) ?_
      intro a ha
      cases a with
      | none => exact Good.pure (by simp)
      | some r =>
        obtain ⟨g1, d, ds, rfl⟩ := ha r rfl
        refine step (g1.trans s0) ?_
        have : ('<' :: d :: ds) ≠ c :: cs := by
          intro e
          cases e
          exact hc rfl
        rcases List.suffix_cons_iff.mp g1 with e | e
        · exact absurd e this
        · exact lt e
    · split
      · refine Good.pure ?_
        intro es r e
        cases e
        exact s0
      · split
        · exact step (sx (skipComment_suffix c cs)) (lt (skipComment_suffix c cs))
        · exact step (sx (skipUnknown_suffix c cs)) (lt (skipUnknown_suffix c cs))
        · split
          · exact Good.pure (by simp)
          · rename_i r hr
            exact step (sx (skipCdata_suffix hr)) (lt (skipCdata_suffix hr))
        · refine Good.bind (parseDecl_good enc "" (cs.drop 4)) (fun hf => hf.suffix (sx (List.drop_suffix _ _))) ?_
          intro a ha
          cases a with
          | none => exact Good.pure (by simp)
          | some tr =>
            obtain ⟨t, r⟩ := tr
            have := (ha t r rfl).1.trans (List.drop_suffix _ _)
            exact step (sx this) (lt this)
        · refine Good.bind (he c cs s0) (fun hf => hf.suffix s0) ?_
          intro a ha
          cases a with
          | none => exact Good.pure (by simp)
          | some er =>
            obtain ⟨e, r⟩ := er
            have g := ha e r rfl
            refine Good.bind (h r (lt g)) (fun hf => hf.suffix (sx g)) ?_
            intro b hb
            cases b with
            | none => exact Good.pure (by simp)
            | some ep =>
              obtain ⟨es, p⟩ := ep
              refine Good.pure ?_
              intro es' p' e'
              cases e'
              exact (hb es p rfl).trans (sx g)

theorem readValue_good (enc : Enc) (l : List Char) : ValueGood enc l := by
  induction h : l.length using Nat.strongRecOn generalizing l with
  | _ n ih =>
    subst h
    have hv : ∀ r : List Char, r.length < l.length → ValueGood enc r := fun r hr => ih r.length hr r rfl
    refine value_step hv ?_
    intro c cs hs
    refine elem_of_value ?_
    intro r hr
    refine hv r ?_
    have := hs.length_le
    rw [List.length_cons] at this
    omega

theorem parseElem_good (enc : Enc) (c : Char) (cs : List Char) : ElemGood enc c cs :=
  elem_of_value fun r _ => readValue_good enc r

theorem docLoop_good (enc : Enc) (l : List Char) : Good l (docLoop enc l) fun _ => True := by
  induction h : l.length using Nat.strongRecOn generalizing l enc with
  | _ n ih =>
    subst h
    rw [docLoop.eq_def]
    split
    · exact Good.pure trivial
    · exact Good.pure trivial
    · rename_i c cs h0
      have s0 := skipWhite_suffix h0
      have l0 := s0.length_le
      rw [List.length_cons] at l0
      have sx : ∀ {r : List Char}, r <:+ cs → r <:+ l := fun hr => (hr.trans (List.suffix_cons _ _)).trans s0
      have step : ∀ {r : List Char} (enc : Enc), r <:+ cs → Good l (docLoop enc r) fun _ => True := by
        intro r enc hs
        have := hs.length_le
        exact (ih r.length (by omega) enc r rfl).of_suffix (sx hs)
      split
      · exact Good.pure trivial
      · split
        · exact step enc (skipComment_suffix c cs)
        · exact step enc (skipUnknown_suffix c cs)
        · split
          · exact Good.pure trivial
          · rename_i r hr
            exact step enc (skipCdata_suffix hr)
        · refine Good.bind (parseDecl_good enc "" (cs.drop 4)) (fun hf => hf.suffix (sx (List.drop_suffix _ _))) ?_
          intro a ha
          cases a with
          | none => exact Good.pure trivial
          | some tr =>
            obtain ⟨t, r⟩ := tr
            exact step _ ((ha t r rfl).1.trans (List.drop_suffix _ _))
        · refine Good.bind (parseElem_good enc c cs) (fun hf => hf.suffix s0) ?_
          intro a ha
          cases a with
          | none => exact Good.pure trivial
          | some er =>
            obtain ⟨e, r⟩ := er
            have g := ha e r rfl
            refine Good.bind (step enc g) id ?_
            intro b hb
            cases b with
            | none => exact Good.pure trivial
            | some es => exact Good.pure trivial

theorem parseXml_good (text : List Char) : Good (text.takeWhile (· ≠ '\x00')) (parseXml text) fun _ => True := by
  unfold parseXml
  dsimp only
  split
  · exact docLoop_good _ _
  · exact Good.pure trivial

end Tinyfk
