import Verif.Model.Print
import Verif.Spec.Print
import Verif.Props.XmlText

/-!
# Writing XML text: lemmas
-/

set_option linter.unusedSimpArgs false

namespace Tinyfk

theorem encodeString_nil : encodeString [] = [] := by rw [encodeString.eq_def]

/-- without "&#x", every byte is encoded on its own -/
theorem encodeString_flatMap {l : List Char} (h : ¬ ['&', '#', 'x'] <:+: l) : encodeString l = l.flatMap encodeChar := by
  induction l with
  | nil => rw [encodeString_nil]; rfl
  | cons c l ih =>
    have hn : ¬ (c = '&' ∧ l.take 2 = ['#', 'x']) := by
      rintro ⟨rfl, e⟩
      refine h ⟨[], l.drop 2, ?_⟩
      rw [List.nil_append, List.cons_append, ← e, List.take_append_drop]
    rw [encodeString.eq_def]
    simp only [if_neg hn]
    rw [ih fun hi => h (hi.trans (List.suffix_cons c l).isInfix)]
    rfl

theorem encodeChar_ctrl : ∀ n : Fin 32, n.val ≠ 0 →
    EntityText ['&', '#', 'x', upperHex (n.val / 16), upperHex (n.val % 16), ';'] (Char.ofNat n.val) := by
  intro n hn
  refine EntityText.hex (ds := [upperHex (n.val / 16), upperHex (n.val % 16)]) (by simp) ?_ ?_ ?_
  all_goals revert n
  all_goals decide

theorem encodeChar_ctrl' {c : Char} (h : c.toNat < 32) (h0 : c ≠ '\x00') :
    EntityText ['&', '#', 'x', upperHex (c.toNat / 16), upperHex (c.toNat % 16), ';'] c := by
  have := encodeChar_ctrl ⟨c.toNat, h⟩ (by
    intro e
    exact h0 (Char.toNat_inj.mp e))
  rwa [show Char.ofNat (⟨c.toNat, h⟩ : Fin 32).val = c from Char.ofNat_toNat c] at this

/-- one byte that is encoded and read back -/
theorem encodeChar_value {u : Bool} {q c : Char} (hq : q = '"' ∨ q = '\'') (ha : c.toNat < 128) (h0 : c ≠ '\x00') {t v : List Char}
    (ht : ValueText u q t v) : ValueText u q (encodeChar c ++ t) (utf8 [c] ++ v) := by
  unfold encodeChar
  split
  · rename_i h; subst h; exact .entity .amp (.inr (by decide)) ht
  split
  · rename_i h; subst h; exact .entity .lt (.inr (by decide)) ht
  split
  · rename_i h; subst h; exact .entity .gt (.inr (by decide)) ht
  split
  · rename_i h; subst h; exact .entity .quot (.inr (by decide)) ht
  split
  · rename_i h; subst h; exact .entity .apos (.inr (by decide)) ht
  split
  · rename_i h; exact .entity (encodeChar_ctrl' h h0) (.inr ha) ht
  · rename_i h1 h2 _ h3 h4 _
    have hne : c ≠ q := by rcases hq with rfl | rfl <;> assumption
    have := ValueText.char (u := u) ⟨h1, h2, h0⟩ hne ht
    rwa [utf8_ascii ha] at this ⊢

theorem encodeChar_high {c : Char} (h : 128 ≤ c.toNat) : encodeChar c = [c] := by
  have ne : ∀ y : Char, y.toNat < 128 → c ≠ y := by rintro y hy rfl; omega
  unfold encodeChar
  rw [if_neg (ne _ (by decide)), if_neg (ne _ (by decide)), if_neg (ne _ (by decide)), if_neg (ne _ (by decide)),
    if_neg (ne _ (by decide)), if_neg (by omega)]

theorem encodeChars_value {u : Bool} {q : Char} (hq : q = '"' ∨ q = '\'') {w t v : List Char} (h0 : '\x00' ∉ w)
    (ht : ValueText u q t v) : ValueText u q ((utf8 w).flatMap encodeChar ++ t) (utf8 w ++ v) := by
  induction w with
  | nil => simpa [utf8] using ht
  | cons c w ih =>
    have ih := ih fun hx => h0 (List.mem_cons_of_mem _ hx)
    have hc : c ≠ '\x00' := fun e => h0 (by rw [e]; exact List.mem_cons_self)
    rw [utf8_cons, List.flatMap_append, List.append_assoc, List.append_assoc]
    by_cases ha : c.toNat < 128
    · have := encodeChar_value hq ha hc ih
      rw [show (utf8 [c]).flatMap encodeChar = encodeChar c by rw [utf8_ascii ha]; simp]
      exact this
    · obtain ⟨b, bs, e, hb, _, hcs, _⟩ := utf8_multi (c := c) (by omega)
      have hbytes : ∀ x ∈ utf8 [c], 128 ≤ x.toNat := by
        rw [e]
        intro x hx
        rcases List.mem_cons.mp hx with rfl | hx
        · omega
        · exact (hcs x hx).1
      have all : (utf8 [c]).flatMap encodeChar = utf8 [c] := by
        have : ∀ l : List Char, (∀ x ∈ l, 128 ≤ x.toNat) → l.flatMap encodeChar = l := by
          intro l hl
          induction l with
          | nil => rfl
          | cons x l ih =>
            rw [List.flatMap_cons, encodeChar_high (hl x List.mem_cons_self), ih fun y hy => hl y (List.mem_cons_of_mem _ hy)]
            rfl
        exact this _ hbytes
      rw [all]
      have ne : ∀ y : Char, y.toNat < 128 → c ≠ y := by rintro y hy rfl; omega
      have hne : c ≠ q := by rcases hq with rfl | rfl <;> exact ne _ (by decide)
      exact .char ⟨ne _ (by decide), ne _ (by decide), hc⟩ hne ih

/-- a clean value that is written and read back -/
theorem Clean.value {s : String} (h : Clean s) {u : Bool} {q : Char} (hq : q = '"' ∨ q = '\'') :
    ValueText u q (encodeString s.toList) s.toList := by
  obtain ⟨w, e, h0, hi⟩ := h
  rw [encodeString_flatMap hi, e]
  have := encodeChars_value (u := u) hq h0 .nil
  simpa using this

theorem nameChar_ne {c : Char} (h : NameByte c) :
    32 < c.toNat ∧ c ≠ '&' ∧ c ≠ '<' ∧ c ≠ '>' ∧ c ≠ '"' ∧ c ≠ '\'' := by
  rcases h with h | rfl | rfl | rfl | rfl | ⟨h, -⟩
  · have hr : 48 ≤ c.toNat ∧ c.toNat ≤ 57 ∨ 65 ≤ c.toNat ∧ c.toNat ≤ 90 ∨ 97 ≤ c.toNat ∧ c.toNat ≤ 122 := by
      simp only [Char.isAlphanum, Char.isAlpha, Char.isUpper, Char.isLower, Char.isDigit, Bool.or_eq_true, Bool.and_eq_true,
        decide_eq_true_eq, UInt32.le_iff_toNat_le, ge_iff_le] at h
      change ((65 ≤ c.toNat ∧ c.toNat ≤ 90) ∨ (97 ≤ c.toNat ∧ c.toNat ≤ 122)) ∨ (48 ≤ c.toNat ∧ c.toNat ≤ 57) at h
      omega
    refine ⟨by omega, ?_, ?_, ?_, ?_, ?_⟩ <;>
    · rintro rfl
      revert hr
      decide
  iterate 4 decide
  · refine ⟨by omega, ?_, ?_, ?_, ?_, ?_⟩ <;>
    · rintro rfl
      revert h
      decide

theorem XName.encode {n : List Char} (h : XName n) : encodeString n = n := by
  have hc := h.bytes_all
  rw [encodeString_flatMap]
  · clear h
    induction n with
    | nil => rfl
    | cons c n ih =>
      obtain ⟨h1, h3, h4, h5, h6, h7⟩ := nameChar_ne (hc c List.mem_cons_self)
      rw [List.flatMap_cons, ih fun d hd => hc d (List.mem_cons_of_mem _ hd), encodeChar, if_neg h3, if_neg h4, if_neg h5, if_neg h6,
        if_neg h7, if_neg (by omega)]
      rfl
  · intro hi
    have : '&' ∈ n := hi.subset (by simp)
    exact (nameChar_ne (hc _ this)).2.1 rfl

theorem XName.nul {n : List Char} (h : XName n) : '\x00' ∉ n := by
  intro hm
  have := (nameChar_ne (h.bytes_all _ hm)).1
  revert this
  decide

theorem cut_id {l : List Char} (h : '\x00' ∉ l) : cut l = l := by
  unfold cut
  induction l with
  | nil => rfl
  | cons c l ih =>
    have hc : c ≠ '\x00' := fun e => h (by rw [e]; exact List.mem_cons_self)
    rw [List.takeWhile_cons_of_pos (by simpa using hc), ih fun hm => h (List.mem_cons_of_mem _ hm)]

theorem EntityText.nul {e : List Char} {c : Char} (h : EntityText e c) : '\x00' ∉ e := by
  cases h with
  | dec h1 h2 =>
    rename_i ds _ _
    intro hm
    have : '\x00' ∈ ds := by simpa using hm
    have := h2 _ this
    revert this
    decide
  | hex h1 h2 =>
    rename_i ds _ _
    intro hm
    have : '\x00' ∈ ds := by simpa using hm
    have := h2 _ this
    revert this
    decide
  | _ => decide

theorem ValueText.nul {u : Bool} {q : Char} {t v : List Char} (h : ValueText u q t v) : '\x00' ∉ t := by
  induction h with
  | nil => simp
  | char h1 _ _ ih =>
    intro hm
    rcases List.mem_append.mp hm with hm | hm
    · exact utf8_nul (fun e => h1.2.2 e) _ (by simpa [utf8] using hm) rfl
    · exact ih hm
  | entity h1 _ _ ih =>
    intro hm
    rcases List.mem_append.mp hm with hm | hm
    · exact h1.nul hm
    · exact ih hm

end Tinyfk
