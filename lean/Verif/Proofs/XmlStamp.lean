import Verif.Model.XmlStamp
import Verif.Proofs.XmlText

/-!
# The bookkeeping of rows and columns ends and changes nothing, when every byte 0xEF is followed by two more
-/

set_option linter.unusedSimpArgs false
set_option linter.unusedVariables false

namespace Tinyfk

/-- Every byte 0xEF is followed by two more bytes. -/
def Marks (l : List Char) : Prop := ∀ r, (Char.ofNat 0xef :: r) <:+ l → 2 ≤ r.length

theorem Marks.suffix {l l' : List Char} (h : Marks l) (hs : l' <:+ l) : Marks l' := fun r hr => h r (hr.trans hs)

theorem Full.marks {l : List Char} (h : Full l) : Marks l := by
  intro r hr
  have h1 := h _ _ hr
  have h2 : utf8Len (Char.ofNat 0xef) = 3 := by decide
  omega

/-- `Stamp` ends. -/
theorem stampLoop_ends (enc : Enc) (now p : List Char) (h : Marks p) : ∃ p', stampLoop enc now p = some p' ∧ p' <:+ p := by
  induction hn : p.length using Nat.strongRecOn generalizing p with
  | _ n ih =>
    subst hn
    rw [stampLoop.eq_def]
    split
    · cases p with
      | nil => exact ⟨[], rfl, List.suffix_refl _⟩
      | cons c r =>
        dsimp only
        have step : ∀ q, q <:+ r → ∃ p', stampLoop enc now q = some p' ∧ p' <:+ c :: r := by
          intro q hq
          have hs := hq.trans (List.suffix_cons c r)
          obtain ⟨p', e, s⟩ := ih q.length (Nat.lt_succ_of_le hq.length_le) q (h.suffix hs) rfl
          exact ⟨p', e, s.trans hs⟩
        split
        · split
          · exact step _ (List.suffix_cons _ _)
          · exact step _ (List.suffix_refl _)
        · split
          · split
            · exact step _ (List.suffix_cons _ _)
            · exact step _ (List.suffix_refl _)
          · split
            · exact step _ (List.suffix_refl _)
            · split
              · rename_i hc
                simp only [Bool.and_eq_true, decide_eq_true_eq] at hc
                split
                · exact step _ ((List.suffix_cons _ _).trans (List.suffix_cons _ _))
                · rename_i hne
                  exfalso
                  have := h r (by rw [← hc.1]; exact List.suffix_refl _)
                  match r, this, hne with
                  | a :: b :: r', _, hne => exact hne a b r' rfl
              · obtain ⟨k, hk⟩ := Nat.exists_eq_succ_of_ne_zero (Nat.pos_iff_ne_zero.mp (charLen_pos enc c))
                rw [hk, List.drop_succ_cons]
                exact step _ (List.drop_suffix _ _)
    · exact ⟨p, rfl, List.suffix_refl _⟩

/-- `x` does what `y` does, from any position at which `Stamp` ends. -/
def Sim {α : Type} (x : XS α) (y : XM α) : Prop :=
  ∀ st, Marks st → (∃ e, x st = some (.error e) ∧ y = some (.error e)) ∨ (x st = none ∧ y = none) ∨
    ∃ a s, x st = some (.ok (a, s)) ∧ y = some (.ok a) ∧ Marks s

theorem Sim.pure {α : Type} (a : α) : Sim (pure a) (pure a) := fun st h => .inr (.inr ⟨a, st, rfl, rfl, h⟩)

theorem Sim.quiet {α : Type} (y : XM α) : Sim (quiet y) y := by
  intro st h
  match y with
  | none => exact .inr (.inl ⟨rfl, rfl⟩)
  | some (.error e) => exact .inl ⟨e, rfl, rfl⟩
  | some (.ok a) => exact .inr (.inr ⟨a, st, rfl, rfl, h⟩)

theorem Sim.bind {α β : Type} {x : XS α} {y : XM α} {f : α → XS β} {g : α → XM β} (hx : Sim x y)
    (hf : ∀ a, y = some (.ok a) → Sim (f a) (g a)) : Sim (x >>= f) (y >>= g) := by
  intro st h
  rcases hx st h with ⟨e, h1, rfl⟩ | ⟨h1, rfl⟩ | ⟨a, s, h1, rfl, hs⟩
  · refine .inl ⟨e, ?_, rfl⟩
    show (x st >>= fun p => f p.1 p.2) = _
    rw [h1]
    rfl
  · refine .inr (.inl ⟨?_, rfl⟩)
    show (x st >>= fun p => f p.1 p.2) = _
    rw [h1]
    rfl
  · have e1 : (x >>= f) st = f a s := by
      show (x st >>= fun p => f p.1 p.2) = _
      rw [h1]
      rfl
    rw [e1]
    exact hf a rfl s hs

theorem Sim.stamp {α : Type} (enc : Enc) (now : List Char) {f : Unit → XS α} {y : XM α} (h : Sim (f ()) y) :
    Sim (stampTo enc now >>= f) y := by
  intro st hst
  obtain ⟨p', e, s⟩ := stampLoop_ends enc now st hst
  have e1 : (stampTo enc now >>= f) st = f () p' := by
    show (stampTo enc now st >>= fun p => f p.1 p.2) = _
    unfold stampTo
    rw [e]
    rfl
  rw [e1]
  exact h p' (hst.suffix s)

theorem Sim.stampOpt {α : Type} (enc : Enc) (now : Option (List Char)) {f : Unit → XS α} {y : XM α} (h : Sim (f ()) y) :
    Sim (stampOpt enc now >>= f) y := by
  cases now with
  | none => exact h
  | some p => exact Sim.stamp enc p h

theorem Sim.errAt {α : Type} (enc : Enc) (doc : Bool) (now : List Char) {f : Unit → XS α} {y : XM α} (h : Sim (f ()) y) :
    Sim (errAt enc doc now >>= f) y := by
  cases doc with
  | false => exact h
  | true => exact Sim.stamp enc now h

/-- what a computation returns has what is known of its results -/
theorem Good.get {α : Type} {l : List Char} {x : XM α} {Q : α → Prop} (h : Good l x Q) {a : α} (e : x = some (.ok a)) : Q a := by
  obtain ⟨r, h1, h2, _⟩ := h
  rw [e] at h1
  cases h1
  exact h2 a rfl

theorem parseAttrS_sim (enc : Enc) (doc : Bool) (l : List Char) : Sim (parseAttrS enc doc l) (parseAttr enc l) := by
  unfold parseAttrS parseAttr
  cases h0 : skipWhite enc (some l) with
  | none => exact Sim.pure _
  | some p0 =>
    cases p0 with
    | nil => exact Sim.pure _
    | cons d ds =>
      dsimp only
      refine Sim.stamp _ _ ?_
      cases h1 : readName (some (d :: ds)) with
      | none => exact Sim.pure _
      | some nr =>
        obtain ⟨name, r⟩ := nr
        simp only []
        cases h2 : skipWhite enc (some r) with
        | none => exact Sim.pure _
        | some p1 =>
          by_cases hp : ∃ r', p1 = '=' :: r'
          · obtain ⟨r', rfl⟩ := hp
            simp only []
            cases h3 : skipWhite enc (some r') with
            | none => exact Sim.pure _
            | some p2 =>
              cases p2 with
              | nil => exact Sim.errAt _ _ _ (Sim.pure _)
              | cons c cs =>
                dsimp only
                split
                · refine Sim.bind (Sim.quiet _) ?_
                  intro a _
                  cases a with
                  | none => exact Sim.pure _
                  | some vr => exact Sim.pure _
                · split
                  · exact Sim.errAt _ _ _ (Sim.pure _)
                  · exact Sim.pure _
          · split
            · rename_i e; cases e
            · rename_i r' e
              exact absurd ⟨r', by injection e⟩ hp
            · split
              · rename_i r' e
                exact absurd ⟨r', by injection e⟩ hp
              · exact Sim.errAt _ _ _ (Sim.pure _)

theorem parseAttrsS_sim (enc : Enc) (acc : List (String × String)) (l : List Char) :
    Sim (parseAttrsS enc acc l) (parseAttrs enc acc l) := by
  induction h : l.length using Nat.strongRecOn generalizing l acc with
  | _ n ih =>
    subst h
    rw [parseAttrsS.eq_def, parseAttrs.eq_def]
    cases h0 : skipWhite enc (some l) with
    | none => exact Sim.stamp _ _ (Sim.pure _)
    | some p0 =>
      cases p0 with
      | nil => exact Sim.stamp _ _ (Sim.pure _)
      | cons c cs =>
        have s0 := skipWhite_suffix h0
        dsimp only
        split
        · split
          · exact Sim.pure _
          · split
            · rename_i hne
              exact absurd rfl (hne _)
            · exact Sim.stamp _ _ (Sim.pure _)
        · split
          · exact Sim.pure _
          · refine Sim.bind (parseAttrS_sim enc true (c :: cs)) ?_
            intro a ha
            cases a with
            | none => exact Sim.pure _
            | some vr =>
              obtain ⟨v, r⟩ := vr
              obtain ⟨g1, g2⟩ := (parseAttr_good enc (c :: cs)).get ha v r rfl
              dsimp only
              split
              · exact Sim.pure _
              · split
                · exact Sim.pure _
                · exact ih r.length (Nat.lt_of_lt_of_le g2 s0.length_le) _ r rfl

theorem parseDeclS_sim (enc : Enc) (s : String) (l : List Char) : Sim (parseDeclS enc s l) (parseDecl enc s l) := by
  induction h : l.length using Nat.strongRecOn generalizing l s with
  | _ n ih =>
    subst h
    rw [parseDeclS.eq_def, parseDecl.eq_def]
    cases l with
    | nil => exact Sim.pure _
    | cons c cs =>
      dsimp only
      have sp := skipLoop_suffix enc (c :: cs)
      split
      · exact Sim.pure _
      · rename_i hgt
        split
        · refine Sim.bind (parseAttrS_sim enc false _) ?_
          intro a ha
          cases a with
          | none => exact Sim.pure _
          | some vr =>
            obtain ⟨v, r⟩ := vr
            exact ih r.length (Nat.lt_of_lt_of_le ((parseAttr_good enc _).get ha v r rfl).2 sp.length_le) _ r rfl
        · split
          · refine Sim.bind (parseAttrS_sim enc false _) ?_
            intro a ha
            cases a with
            | none => exact Sim.pure _
            | some vr =>
              obtain ⟨v, r⟩ := vr
              exact ih r.length (Nat.lt_of_lt_of_le ((parseAttr_good enc _).get ha v r rfl).2 sp.length_le) _ r rfl
          · refine ih _ ?_ _ _ rfl
            cases hp : skipLoop enc (c :: cs) with
            | nil => simp
            | cons d ds =>
              rw [hp] at sp
              by_cases hd : d = '>'
              · have hne : ds.length + 1 ≠ cs.length + 1 := by
                  intro e
                  have := sp.eq_of_length (by simpa using e)
                  cases this
                  exact hgt hd
                have := sp.length_le
                have := (List.dropWhile_suffix (l := d :: ds) (fun c => !(decide (c = '>') || isXmlSpace c))).length_le
                simp only [List.length_cons] at *
                omega
              · have hw := skipLoop_head hp
                have : (!(decide (d = '>') || isXmlSpace d)) = true := by simp [hd, hw]
                rw [List.dropWhile_cons_of_pos (p := fun c => !(decide (c = '>') || isXmlSpace c)) this]
                have := sp.length_le
                have := (List.dropWhile_suffix (l := ds) (fun c => !(decide (c = '>') || isXmlSpace c))).length_le
                simp only [List.length_cons] at *
                omega

theorem elemS_of_value {enc : Enc} {c : Char} {cs : List Char}
    (h : ∀ r : List Char, r.length < cs.length → Sim (readValueS enc r) (readValue enc r)) :
    Sim (parseElemS enc (c :: cs)) (parseElem enc (c :: cs)) := by
  rw [parseElemS.eq_def, parseElem.eq_def]
  refine Sim.stamp _ _ ?_
  cases h0 : readTagName enc (c :: cs) with
  | none => exact Sim.stampOpt _ _ (Sim.pure _)
  | some nr =>
    obtain ⟨name, r⟩ := nr
    obtain ⟨_, l0⟩ := readTagName_suffix h0
    dsimp only
    refine Sim.bind (parseAttrsS_sim enc [] r) ?_
    intro a ha
    split
    · exact Sim.pure _
    · exact Sim.pure _
    · rename_i attrs r1
      have l1 := ((parseAttrs_good enc [] r).get ha _ _ _ rfl).2
      refine Sim.bind (h r1 (Nat.lt_trans l1 l0)) ?_
      intro b _
      cases b with
      | none => exact Sim.pure _
      | some kp =>
        obtain ⟨kids, p⟩ := kp
        dsimp only
        cases endTag enc name p with
        | none => exact Sim.stampOpt _ _ (Sim.pure _)
        | some r => exact Sim.pure _

theorem valueS_step {enc : Enc} {l : List Char}
    (h : ∀ r : List Char, r.length < l.length → Sim (readValueS enc r) (readValue enc r))
    (he : ∀ (c : Char) (cs : List Char), (c :: cs) <:+ l → Sim (parseElemS enc (c :: cs)) (parseElem enc (c :: cs))) :
    Sim (readValueS enc l) (readValue enc l) := by
  rw [readValueS.eq_def, readValue.eq_def]
  cases h0 : skipWhite enc (some l) with
  | none => exact Sim.pure _
  | some p0 =>
    cases p0 with
    | nil => exact Sim.pure _
    | cons c cs =>
      dsimp only
      have s0 := skipWhite_suffix h0
      have l0 := s0.length_le
      rw [List.length_cons] at l0
      have lt : ∀ {r : List Char}, r <:+ cs → r.length < l.length := fun hr => by
        have := hr.length_le
        omega
      split
      · rename_i hc
        refine Sim.stamp _ _ ?_
        refine Sim.bind (Sim.quiet _) ?_
        intro a ha
        cases a with
        | none => exact Sim.pure _
        | some r =>
          obtain ⟨g1, d, ds, rfl⟩ := (skipText_good enc (c :: cs)).get ha r rfl
          refine h _ ?_
          have : ('<' :: d :: ds) ≠ c :: cs := by
            intro e
            cases e
            exact hc rfl
          rcases List.suffix_cons_iff.mp g1 with e | e
          · exact absurd e this
          · exact lt e
      · split
        · exact Sim.pure _
        · cases identify (c :: cs) with
          | comment => exact Sim.stamp _ _ (h _ (lt (skipComment_suffix c cs)))
          | unknown => exact Sim.stamp _ _ (h _ (lt (skipUnknown_suffix c cs)))
          | cdata =>
            refine Sim.stamp _ _ ?_
            cases hr : skipCdata (c :: cs) with
            | none => exact Sim.pure _
            | some r => exact h _ (lt (skipCdata_suffix hr))
          | declaration =>
            refine Sim.stamp _ _ (Sim.bind (parseDeclS_sim enc "" _) ?_)
            intro a ha
            cases a with
            | none => exact Sim.pure _
            | some tr =>
              obtain ⟨t, r⟩ := tr
              exact h _ (lt (((parseDecl_good enc "" _).get ha t r rfl).1.trans (List.drop_suffix _ _)))
          | element =>
            refine Sim.bind (he c cs s0) ?_
            intro a ha
            cases a with
            | none => exact Sim.pure _
            | some er =>
              obtain ⟨e, r⟩ := er
              have g := (parseElem_good enc c cs).get ha e r rfl
              refine Sim.bind (h r (lt g)) ?_
              intro b _
              cases b with
              | none => exact Sim.pure _
              | some ep => exact Sim.pure _

theorem readValueS_sim (enc : Enc) (l : List Char) : Sim (readValueS enc l) (readValue enc l) := by
  induction h : l.length using Nat.strongRecOn generalizing l with
  | _ n ih =>
    subst h
    have hv : ∀ r : List Char, r.length < l.length → Sim (readValueS enc r) (readValue enc r) := fun r hr => ih r.length hr r rfl
    refine valueS_step hv ?_
    intro c cs hs
    refine elemS_of_value ?_
    intro r hr
    refine hv r ?_
    have := hs.length_le
    rw [List.length_cons] at this
    omega

theorem parseElemS_sim (enc : Enc) (c : Char) (cs : List Char) : Sim (parseElemS enc (c :: cs)) (parseElem enc (c :: cs)) :=
  elemS_of_value fun r _ => readValueS_sim enc r

theorem docLoopS_sim (enc : Enc) (l : List Char) : Sim (docLoopS enc l) (docLoop enc l) := by
  induction h : l.length using Nat.strongRecOn generalizing l enc with
  | _ n ih =>
    subst h
    rw [docLoopS.eq_def, docLoop.eq_def]
    cases h0 : skipWhite enc (some l) with
    | none => exact Sim.pure _
    | some p0 =>
      cases p0 with
      | nil => exact Sim.pure _
      | cons c cs =>
        dsimp only
        have s0 := skipWhite_suffix h0
        have l0 := s0.length_le
        rw [List.length_cons] at l0
        have step : ∀ {r : List Char} (enc : Enc), r <:+ cs → Sim (docLoopS enc r) (docLoop enc r) := by
          intro r enc hs
          have := hs.length_le
          exact ih r.length (by omega) enc r rfl
        split
        · exact Sim.pure _
        · cases identify (c :: cs) with
          | comment => exact Sim.stamp _ _ (step _ (skipComment_suffix c cs))
          | unknown => exact Sim.stamp _ _ (step _ (skipUnknown_suffix c cs))
          | cdata =>
            refine Sim.stamp _ _ ?_
            cases hr : skipCdata (c :: cs) with
            | none => exact Sim.pure _
            | some r => exact step _ (skipCdata_suffix hr)
          | declaration =>
            refine Sim.stamp _ _ (Sim.bind (parseDeclS_sim enc "" _) ?_)
            intro a ha
            cases a with
            | none => exact Sim.pure _
            | some tr =>
              obtain ⟨t, r⟩ := tr
              exact step _ (((parseDecl_good enc "" _).get ha t r rfl).1.trans (List.drop_suffix _ _))
          | element =>
            refine Sim.bind (parseElemS_sim enc c cs) ?_
            intro a ha
            cases a with
            | none => exact Sim.pure _
            | some er =>
              obtain ⟨e, r⟩ := er
              have g := (parseElem_good enc c cs).get ha e r rfl
              refine Sim.bind (step enc g) ?_
              intro b _
              cases b with
              | none => exact Sim.pure _
              | some es => exact Sim.pure _

/-- The bookkeeping changes nothing. -/
theorem parseXmlS_eq (text : List Char) (h : Marks (text.takeWhile (· ≠ '\x00'))) : parseXmlS text = parseXml text := by
  unfold parseXmlS parseXml
  dsimp only
  split
  · rename_i t e0
    rw [e0]
    simp only []
    rcases docLoopS_sim (startEnc _) _ _ h with ⟨e, h1, h2⟩ | ⟨h1, h2⟩ | ⟨a, s, h1, h2, _⟩
    · rw [h1, h2]; rfl
    · rw [h1, h2]; rfl
    · rw [h1, h2]; rfl
  · rename_i hn
    split
    · rename_i t e0
      exact absurd e0 (hn t)
    · rfl

end Tinyfk
